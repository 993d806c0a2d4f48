import Verif.Spec.BuiltinSyms
import Verif.Lemmas.AMap
/-!
# Lemmas: builtin symbols
-/

namespace Verif.BuiltinSyms

open Spec

theorem insertAll_spec (defined : List Sym) (syms : List (Sym × Nat)) :
    (∀ n, n ∈ (insertAll defined syms).1 ↔ n ∈ defined ∨ ∃ a, (n, a) ∈ (insertAll defined syms).2) ∧
    (∀ p ∈ (insertAll defined syms).2, p ∈ syms ∧ p.1 ∉ defined) ∧
    ((insertAll defined syms).2.map (·.1)).Nodup ∧
    (∀ p ∈ syms, p.1 ∈ (insertAll defined syms).1) := by
  induction syms generalizing defined with
  | nil => simp [insertAll]
  | cons p rest ih =>
    obtain ⟨n, a⟩ := p
    simp only [insertAll]
    split
    case isTrue h =>
      obtain ⟨h1, h2, h3, h4⟩ := ih defined
      refine ⟨h1, fun p hp => ⟨List.mem_cons_of_mem _ (h2 p hp).1, (h2 p hp).2⟩, h3, ?_⟩
      intro p hp
      rcases List.mem_cons.1 hp with rfl | hp
      · exact (h1 _).2 (.inl h)
      · exact h4 p hp
    case isFalse h =>
      obtain ⟨h1, h2, h3, h4⟩ := ih (n :: defined)
      refine ⟨?_, ?_, ?_, ?_⟩
      · intro m
        rw [h1]
        simp only [List.mem_cons, Prod.mk.injEq]
        constructor
        · rintro ((rfl | h) | ⟨b, h⟩)
          · exact .inr ⟨a, .inl ⟨rfl, rfl⟩⟩
          · exact .inl h
          · exact .inr ⟨b, .inr h⟩
        · rintro (h | ⟨b, ⟨rfl, rfl⟩ | h⟩)
          · exact .inl (.inr h)
          · exact .inl (.inl rfl)
          · exact .inr ⟨b, h⟩
      · intro p hp
        rcases List.mem_cons.1 hp with rfl | hp
        · exact ⟨List.mem_cons_self, h⟩
        · exact ⟨List.mem_cons_of_mem _ (h2 p hp).1, fun hd => (h2 p hp).2 (List.mem_cons_of_mem _ hd)⟩
      · simp only [List.map_cons, List.nodup_cons, List.mem_map, not_exists, not_and]
        exact ⟨fun p hp he => (h2 p hp).2 (by rw [he]; exact List.mem_cons_self), h3⟩
      · intro p hp
        rcases List.mem_cons.1 hp with rfl | hp
        · exact (h1 _).2 (.inl List.mem_cons_self)
        · exact h4 p hp

/-- The names a thread has announced and not defined. -/
def Phase.fresh : Phase → List (Sym × Nat)
  | .inserted fresh _ => fresh
  | .ready _ => []

def Phase.job : Phase → Job
  | .inserted _ job => job
  | .ready job => job

structure Inv (req : Sym → Nat → Prop) (s : Proc) : Prop where
  refused : s.refused = 0
  table : AMap.Nodup s.table
  threads : AMap.Nodup s.threads
  marked : ∀ n, n ∈ s.defined ↔ (∃ a, s.table.get n = some a) ∨
    ∃ t p, s.threads.get t = some p ∧ ∃ a, (n, a) ∈ p.fresh
  distinct : ∀ t p, s.threads.get t = some p → (p.fresh.map (·.1)).Nodup
  apart : ∀ t p, s.threads.get t = some p → ∀ q ∈ p.fresh, s.table.get q.1 = none
  disjoint : ∀ t u p q, s.threads.get t = some p → s.threads.get u = some q → t ≠ u →
    ∀ n a b, (n, a) ∈ p.fresh → (n, b) ∉ q.fresh
  asked : ∀ n a, s.table.get n = some a → req n a
  fresh : ∀ t p, s.threads.get t = some p → ∀ q ∈ p.fresh, req q.1 q.2
  covers : ∀ t p, s.threads.get t = some p → ∀ q ∈ p.job.symbols, q.1 ∈ s.defined

theorem inv_init (req : Sym → Nat → Prop) : Inv req init := by
  constructor <;> first | rfl | exact AMap.nodup_nil | simp [init, AMap.get]

theorem Inv.mono {req req' : Sym → Nat → Prop} {s : Proc} (h : Inv req s) (hr : ∀ n a, req n a → req' n a) :
    Inv req' s :=
  ⟨h.refused, h.table, h.threads, h.marked, h.distinct, h.apart, h.disjoint,
    fun n a e => hr _ _ (h.asked n a e), fun t p e q hq => hr _ _ (h.fresh t p e q hq), h.covers⟩

theorem get_append (l m : AMap Sym Nat) (n : Sym) :
    AMap.get (l ++ m) n = match AMap.get l n with | some a => some a | none => AMap.get m n := by
  induction l with
  | nil => rfl
  | cons p l ih =>
    obtain ⟨c, v⟩ := p
    simp only [List.cons_append, AMap.get_cons]
    split
    · rfl
    · exact ih

theorem nodup_append {l m : AMap Sym Nat} (hl : (l.map (·.1)).Nodup) (hm : AMap.Nodup m)
    (h : ∀ p ∈ l, AMap.get m p.1 = none) : AMap.Nodup (l ++ m) := by
  unfold AMap.Nodup AMap.keys at *
  rw [List.map_append, List.nodup_append]
  refine ⟨hl, hm, ?_⟩
  intro a ha b hb e
  subst e
  obtain ⟨p, hp, rfl⟩ := List.mem_map.1 ha
  obtain ⟨v, hv⟩ := (AMap.mem_keys_iff m p.1).1 hb
  rw [h p hp] at hv
  cases hv

theorem get_insert_cases {m : AMap Nat Phase} {t : Nat} {r : Phase} {u : Nat} {p : Phase}
    (h : AMap.get (m.insert t r) u = some p) :
    (u = t ∧ p = r) ∨ (u ≠ t ∧ m.get u = some p) := by
  rw [AMap.get_insert] at h
  split at h
  · exact .inl ⟨‹_›, (Option.some.inj h).symm⟩
  · exact .inr ⟨‹_›, h⟩

theorem Inv.step {req : Sym → Nat → Prop} {s : Proc} (h : Inv req s) (exported : Sym → Option Nat) (op : Op)
    (hreq : ∀ t job, op = .begin t job → ∀ q ∈ job.symbols, req q.1 q.2) : Inv req (step exported s op) := by
  cases op with
  | begin t job =>
    simp only [BuiltinSyms.step]
    cases ht : s.threads.get t with
    | some p => exact h
    | none =>
      have hne : ∀ u p, s.threads.get u = some p → u ≠ t := by
        intro u p hu e; subst e; rw [ht] at hu; cases hu
      dsimp only
      split
      case isTrue he =>
        refine ⟨h.refused, h.table, AMap.nodup_insert h.threads _ _, ?_, ?_, ?_, ?_, h.asked, ?_, ?_⟩
        · intro n
          rw [h.marked]
          constructor
          · rintro (hx | ⟨u, p, hu, hx⟩)
            · exact .inl hx
            · exact .inr ⟨u, p, by rw [AMap.get_insert, if_neg (hne u p hu)]; exact hu, hx⟩
          · rintro (hx | ⟨u, p, hu, a, hx⟩)
            · exact .inl hx
            · rcases get_insert_cases hu with ⟨_, rfl⟩ | ⟨_, hu⟩
              · cases hx
              · exact .inr ⟨u, p, hu, a, hx⟩
        · intro u p hu
          rcases get_insert_cases hu with ⟨_, rfl⟩ | ⟨_, hu⟩
          · exact List.nodup_nil
          · exact h.distinct u p hu
        · intro u p hu q hq
          rcases get_insert_cases hu with ⟨_, rfl⟩ | ⟨_, hu⟩
          · cases hq
          · exact h.apart u p hu q hq
        · intro u v p q hu hv huv n a b hp hq
          rcases get_insert_cases hu with ⟨_, rfl⟩ | ⟨_, hu⟩
          · cases hp
          · rcases get_insert_cases hv with ⟨_, rfl⟩ | ⟨_, hv⟩
            · cases hq
            · exact h.disjoint u v p q hu hv huv n a b hp hq
        · intro u p hu q hq
          rcases get_insert_cases hu with ⟨_, rfl⟩ | ⟨_, hu⟩
          · cases hq
          · exact h.fresh u p hu q hq
        · intro u p hu q hq
          rcases get_insert_cases hu with ⟨_, rfl⟩ | ⟨_, hu⟩
          · simp only [Phase.job, he] at hq; cases hq
          · exact h.covers u p hu q hq
      case isFalse he =>
        obtain ⟨i1, i2, i3, i4⟩ := insertAll_spec s.defined job.symbols
        refine ⟨h.refused, h.table, AMap.nodup_insert h.threads _ _, ?_, ?_, ?_, ?_, h.asked, ?_, ?_⟩
        · intro n
          simp only [i1, h.marked]
          constructor
          · rintro ((hx | ⟨u, p, hu, hx⟩) | ⟨a, hx⟩)
            · exact .inl hx
            · exact .inr ⟨u, p, by rw [AMap.get_insert, if_neg (hne u p hu)]; exact hu, hx⟩
            · exact .inr ⟨t, .inserted _ job, by rw [AMap.get_insert, if_pos rfl], a, hx⟩
          · rintro (hx | ⟨u, p, hu, a, hx⟩)
            · exact .inl (.inl hx)
            · rcases get_insert_cases hu with ⟨_, rfl⟩ | ⟨_, hu⟩
              · exact .inr ⟨a, hx⟩
              · exact .inl (.inr ⟨u, p, hu, a, hx⟩)
        · intro u p hu
          rcases get_insert_cases hu with ⟨_, rfl⟩ | ⟨_, hu⟩
          · exact i3
          · exact h.distinct u p hu
        · intro u p hu q hq
          rcases get_insert_cases hu with ⟨_, rfl⟩ | ⟨_, hu⟩
          · have := (i2 q hq).2
            cases hg : s.table.get q.1 with
            | none => rfl
            | some a => exact absurd ((h.marked q.1).2 (.inl ⟨a, hg⟩)) this
          · exact h.apart u p hu q hq
        · intro u v p q hu hv huv n a b hp hq
          rcases get_insert_cases hu with ⟨e1, rfl⟩ | ⟨_, hu⟩
          · rcases get_insert_cases hv with ⟨e2, rfl⟩ | ⟨_, hv⟩
            · exact huv (e1.trans e2.symm)
            · exact (i2 _ hp).2 ((h.marked n).2 (.inr ⟨v, q, hv, b, hq⟩))
          · rcases get_insert_cases hv with ⟨_, rfl⟩ | ⟨_, hv⟩
            · exact (i2 _ hq).2 ((h.marked n).2 (.inr ⟨u, p, hu, a, hp⟩))
            · exact h.disjoint u v p q hu hv huv n a b hp hq
        · intro u p hu q hq
          rcases get_insert_cases hu with ⟨_, rfl⟩ | ⟨_, hu⟩
          · exact hreq t job rfl q (i2 q hq).1
          · exact h.fresh u p hu q hq
        · intro u p hu q hq
          rcases get_insert_cases hu with ⟨_, rfl⟩ | ⟨_, hu⟩
          · exact i4 q hq
          · exact (i1 _).2 (.inl (h.covers u p hu q hq))
  | define t =>
    simp only [BuiltinSyms.step]
    cases ht : s.threads.get t with
    | none => exact h
    | some p =>
      cases p with
      | ready job => exact h
      | inserted fresh job =>
        have hd : defineAll s.table fresh = some (fresh ++ s.table) := by
          rw [defineAll, if_pos ⟨fun p hp => h.apart t _ ht p hp, h.distinct t _ ht⟩]
        have key : Inv req { s with table := fresh ++ s.table, threads := s.threads.insert t (.ready job) } := by
          have hget : ∀ n, (∃ a, AMap.get (fresh ++ s.table) n = some a) ↔
              (∃ a, (n, a) ∈ fresh) ∨ ∃ a, s.table.get n = some a := by
            intro n
            rw [get_append]
            cases hf : AMap.get fresh n with
            | some a => exact ⟨fun _ => .inl ⟨a, AMap.mem_of_get hf⟩, fun _ => ⟨a, rfl⟩⟩
            | none =>
              constructor
              · exact fun ⟨a, e⟩ => .inr ⟨a, e⟩
              · rintro (⟨a, e⟩ | e)
                · have hm : AMap.get fresh n = some a := AMap.get_of_mem (h.distinct t _ ht) e
                  rw [hm] at hf; cases hf
                · exact e
          refine ⟨h.refused, nodup_append (h.distinct t _ ht) h.table (h.apart t _ ht),
            AMap.nodup_insert h.threads _ _, ?_, ?_, ?_, ?_, ?_, ?_, ?_⟩
          · intro n
            simp only [h.marked, hget]
            constructor
            · rintro (hx | ⟨u, p, hu, a, hx⟩)
              · exact .inl (.inr hx)
              · by_cases e : u = t
                · subst e
                  rw [ht] at hu; cases hu
                  exact .inl (.inl ⟨a, hx⟩)
                · exact .inr ⟨u, p, by rw [AMap.get_insert, if_neg e]; exact hu, a, hx⟩
            · rintro ((hx | hx) | ⟨u, p, hu, a, hx⟩)
              · exact .inr ⟨t, _, ht, hx⟩
              · exact .inl hx
              · rcases get_insert_cases hu with ⟨_, rfl⟩ | ⟨_, hu⟩
                · cases hx
                · exact .inr ⟨u, p, hu, a, hx⟩
          · intro u p hu
            rcases get_insert_cases hu with ⟨_, rfl⟩ | ⟨_, hu⟩
            · exact List.nodup_nil
            · exact h.distinct u p hu
          · intro u p hu q hq
            rcases get_insert_cases hu with ⟨_, rfl⟩ | ⟨hut, hu⟩
            · cases hq
            · cases hg : AMap.get (fresh ++ s.table) q.1 with
              | none => rfl
              | some a =>
                rcases (hget q.1).1 ⟨a, hg⟩ with ⟨b, hb⟩ | ⟨b, hb⟩
                · exact absurd hq (h.disjoint t u _ p ht hu (Ne.symm hut) q.1 b q.2 hb)
                · rw [h.apart u p hu q hq] at hb; cases hb
          · intro u v p q hu hv huv n a b hp hq
            rcases get_insert_cases hu with ⟨_, rfl⟩ | ⟨_, hu⟩
            · cases hp
            · rcases get_insert_cases hv with ⟨_, rfl⟩ | ⟨_, hv⟩
              · cases hq
              · exact h.disjoint u v p q hu hv huv n a b hp hq
          · intro n a hg
            dsimp only at hg
            rw [get_append] at hg
            cases hf : AMap.get fresh n with
            | none => rw [hf] at hg; exact h.asked n a hg
            | some b =>
              rw [hf] at hg
              cases hg
              exact h.fresh t _ ht (n, a) (AMap.mem_of_get hf)
          · intro u p hu q hq
            rcases get_insert_cases hu with ⟨_, rfl⟩ | ⟨_, hu⟩
            · cases hq
            · exact h.fresh u p hu q hq
          · intro u p hu q hq
            rcases get_insert_cases hu with ⟨_, rfl⟩ | ⟨_, hu⟩
            · exact h.covers t _ ht q hq
            · exact h.covers u p hu q hq
        dsimp only
        split
        case isTrue he => subst he; exact key
        case isFalse he => rw [hd]; exact key
  | link t =>
    simp only [BuiltinSyms.step]
    cases ht : s.threads.get t with
    | none => exact h
    | some p =>
      cases p with
      | inserted fresh job => exact h
      | ready job =>
        have hg : ∀ u p, AMap.get (s.threads.erase t) u = some p → u ≠ t ∧ s.threads.get u = some p := by
          intro u p hu
          rw [AMap.get_erase] at hu
          split at hu
          · cases hu
          · exact ⟨‹_›, hu⟩
        refine ⟨h.refused, h.table, AMap.nodup_erase h.threads _, ?_, ?_, ?_, ?_, h.asked, ?_, ?_⟩
        · intro n
          rw [h.marked]
          constructor
          · rintro (hx | ⟨u, p, hu, a, hx⟩)
            · exact .inl hx
            · by_cases e : u = t
              · subst e; rw [ht] at hu; cases hu; cases hx
              · exact .inr ⟨u, p, by rw [AMap.get_erase, if_neg e]; exact hu, a, hx⟩
          · rintro (hx | ⟨u, p, hu, hx⟩)
            · exact .inl hx
            · exact .inr ⟨u, p, (hg u p hu).2, hx⟩
        · exact fun u p hu => h.distinct u p (hg u p hu).2
        · exact fun u p hu => h.apart u p (hg u p hu).2
        · exact fun u v p q hu hv => h.disjoint u v p q (hg u p hu).2 (hg v q hv).2
        · exact fun u p hu => h.fresh u p (hg u p hu).2
        · exact fun u p hu => h.covers u p (hg u p hu).2

theorem inv_run {req : Sym → Nat → Prop} (exported : Sym → Option Nat) (ops : List Op) {s : Proc} (h : Inv req s)
    (hreq : ∀ t job, Op.begin t job ∈ ops → ∀ q ∈ job.symbols, req q.1 q.2) : Inv req (run exported s ops) := by
  induction ops generalizing s with
  | nil => exact h
  | cons op ops ih =>
    refine ih (h.step exported op ?_) fun t job hm => hreq t job (List.mem_cons_of_mem _ hm)
    intro t job e
    exact hreq t job (by rw [e]; exact List.mem_cons_self)

theorem inv_from_init (exported : Sym → Option Nat) (ops : List Op) :
    Inv (Requested ops) (run exported init ops) :=
  inv_run exported ops (inv_init _) fun t job hm q hq => ⟨t, job, hm, hq⟩

theorem bindAll_eq {exported : Sym → Option Nat} {table : AMap Sym Nat} {addr : Sym → Nat} {uses : List Sym}
    (h : ∀ n ∈ uses, bind exported table n = some (addr n)) :
    bindAll exported table uses = some (uses.map addr) := by
  induction uses with
  | nil => rfl
  | cons n rest ih =>
    rw [bindAll, h n List.mem_cons_self, ih fun m hm => h m (List.mem_cons_of_mem _ hm)]
    rfl

theorem bindAll_sound {exported : Sym → Option Nat} {table : AMap Sym Nat} {addr : Sym → Nat} {uses : List Sym}
    (h : ∀ n a, bind exported table n = some a → a = addr n) {as : List Nat}
    (hb : bindAll exported table uses = some as) : as = uses.map addr := by
  induction uses generalizing as with
  | nil => rw [bindAll] at hb; cases hb; rfl
  | cons n rest ih =>
    rw [bindAll] at hb
    cases h1 : bind exported table n with
    | none => rw [h1] at hb; cases hb
    | some a =>
      cases h2 : bindAll exported table rest with
      | none => rw [h1, h2] at hb; cases hb
      | some as' =>
        rw [h1, h2] at hb
        cases hb
        rw [h n a h1, ih h2]
        rfl

theorem bind_sound {exported : Sym → Option Nat} {addr : Sym → Nat} {ops : List Op} {s : Proc}
    (hc : Consistent exported addr ops) (h : Inv (Requested ops) s) (n : Sym) (a : Nat)
    (hb : bind exported s.table n = some a) : a = addr n := by
  unfold bind at hb
  cases he : exported n with
  | some b => rw [he] at hb; cases hb; exact hc.2 n a he
  | none => rw [he] at hb; exact hc.1 n a (h.asked n a hb)

theorem bind_some {exported : Sym → Option Nat} {addr : Sym → Nat} {ops : List Op} {s : Proc}
    (hc : Consistent exported addr ops) (h : Inv (Requested ops) s) (n : Sym)
    (ht : ∃ a, s.table.get n = some a) : bind exported s.table n = some (addr n) := by
  obtain ⟨a, ha⟩ := ht
  have : ∃ b, bind exported s.table n = some b := by
    unfold bind
    cases exported n with
    | some b => exact ⟨b, rfl⟩
    | none => exact ⟨a, ha⟩
  obtain ⟨b, hb⟩ := this
  rw [hb, bind_sound hc h n b hb]

theorem run_append (exported : Sym → Option Nat) (s : Proc) (xs ys : List Op) :
    run exported s (xs ++ ys) = run exported (run exported s xs) ys := by
  induction xs generalizing s with
  | nil => rfl
  | cons x xs ih => exact ih _

end Verif.BuiltinSyms
