import Verif.Lemmas.BuiltinSyms
/-!
# C67: builtin symbols shared by all compilers
-/

namespace Verif.BuiltinSyms

open Spec

/-- **C67.** However the threads of a process interleave, LLVM never refuses a definition, and a symbol
has the address of one of the requests for it. -/
theorem C67_once (exported : Sym → Option Nat) (ops : List Op) :
    (run exported init ops).refused = 0 ∧
    ∀ n a, (run exported init ops).table.get n = some a → Requested ops n a :=
  ⟨(inv_from_init exported ops).refused, (inv_from_init exported ops).asked⟩

example : (run (fun _ => none) init [.begin 0 ⟨[(1, 7), (1, 8)], []⟩, .begin 1 ⟨[(2, 9), (1, 8)], []⟩, .define 1,
    .define 0]).table = [(1, 7), (2, 9)] := by decide

/-- **C67.** A symbol that is defined stays defined at the same address. -/
theorem C67_kept (exported : Sym → Option Nat) (ops more : List Op) (n : Sym) (a : Nat)
    (h : (run exported init ops).table.get n = some a) :
    (run exported init (ops ++ more)).table.get n = some a := by
  rw [run_append]
  generalize run exported init ops = s at h
  induction more generalizing s with
  | nil => exact h
  | cons op more ih =>
    refine ih (step exported s op) ?_
    cases op with
    | begin t job =>
      simp only [step]
      repeat' split
      all_goals exact h
    | link t =>
      simp only [step]
      split <;> exact h
    | define t =>
      simp only [step]
      cases ht : s.threads.get t with
      | none => exact h
      | some p =>
        cases p with
        | ready job => exact h
        | inserted fresh job =>
          dsimp only
          split
          case isTrue => exact h
          case isFalse =>
            cases hd : defineAll s.table fresh with
            | none => exact h
            | some table =>
              unfold defineAll at hd
              split at hd
              case isFalse => cases hd
              case isTrue hf =>
                cases hd
                dsimp only
                rw [get_append]
                cases hg : AMap.get fresh n with
                | none => exact h
                | some b =>
                  have := hf.1 _ (AMap.mem_of_get hg)
                  rw [show s.table.get n = none from this] at h
                  cases h

example : (run (fun _ => none) init ([.begin 0 ⟨[(1, 7)], []⟩, .define 0] ++ [.begin 1 ⟨[(1, 8)], []⟩, .define 1])).table.get
    1 = some 7 := C67_kept _ _ _ _ _ (by decide)

/-- **C67.** Code that links gets, for every name it uses, the address of that builtin. -/
theorem C67_addresses (exported : Sym → Option Nat) (addr : Sym → Nat) (ops : List Op)
    (hc : Consistent exported addr ops) (job : Job) (as : List Nat)
    (h : (job, some as) ∈ (run exported init ops).links) : Links addr job (some as) := by
  have key : ∀ (ops' : List Op) (s : Proc), (∀ x, x ∈ ops' → x ∈ ops) → Inv (Requested ops) s →
      (∀ j as, (j, some as) ∈ s.links → as = j.uses.map addr) →
      ∀ j as, (j, some as) ∈ (run exported s ops').links → as = j.uses.map addr := by
    intro ops'
    induction ops' with
    | nil => intro s _ _ hl; exact hl
    | cons op ops' ih =>
      intro s hsub hi hl
      refine ih (step exported s op) (fun x hx => hsub x (List.mem_cons_of_mem _ hx))
        (hi.step exported op ?_) ?_
      · intro t job e q hq
        exact ⟨t, job, by rw [← e]; exact hsub op List.mem_cons_self, hq⟩
      · intro j as hm
        cases op with
        | begin t job =>
          refine hl j as ?_
          simp only [step] at hm
          repeat' split at hm
          all_goals exact hm
        | define t =>
          refine hl j as ?_
          simp only [step] at hm
          repeat' split at hm
          all_goals exact hm
        | link t =>
          simp only [step] at hm
          split at hm
          case h_1 =>
            rcases List.mem_cons.1 hm with e | hm
            · injection e with e1 e2
              subst e1
              exact bindAll_sound (bind_sound hc hi) e2.symm
            · exact hl j as hm
          case h_2 => exact hl j as hm
  exact congrArg some (key ops init (fun _ h => h) (inv_init _) (fun _ _ h => nomatch h) job as h)

example : Links (fun _ => 7) ⟨[(1, 7)], [1]⟩ (some [7]) := by
  refine C67_addresses (fun _ => none) _ [.begin 0 ⟨[(1, 7)], [1]⟩, .begin 1 ⟨[(1, 7)], [1]⟩, .define 0, .define 1,
    .link 1] ⟨?_, fun _ _ h => nomatch h⟩ _ _ (by decide)
  rintro n a ⟨t, job, hm, hs⟩
  simp at hm
  rcases hm with ⟨_, rfl⟩ | ⟨_, rfl⟩ <;> simp at hs <;> exact hs.2

/-- **C67, refuted:** code can fail to link although its own call of `define_builtins` has returned and
everything it uses was asked for: another thread announced the symbol and has not defined it. -/
theorem C67_link_fails : ∃ (exported : Sym → Option Nat) (addr : Sym → Nat) (ops : List Op) (job : Job),
    Consistent exported addr ops ∧ Complete job ∧ (job, none) ∈ (run exported init ops).links := by
  refine ⟨fun _ => none, fun _ => 7, [.begin 0 ⟨[(1, 7)], [1]⟩, .begin 1 ⟨[(1, 7)], [1]⟩, .define 1, .link 1],
    ⟨[(1, 7)], [1]⟩, ⟨?_, ?_⟩, ?_, ?_⟩
  · rintro n a ⟨t, job, hm, hs⟩
    simp at hm
    rcases hm with ⟨_, rfl⟩ | ⟨_, rfl⟩ <;> simp at hs <;> exact hs.2
  · intro n a h; cases h
  · intro n hn
    simp at hn
    subst hn
    exact ⟨7, by simp⟩
  · decide

/-- **C67, partial:** code links once its own call has returned, if no other thread is between announcing
and defining a symbol the code uses. Missing: that case, see `C67_link_fails`. -/
theorem C67_link_partial (exported : Sym → Option Nat) (addr : Sym → Nat) (ops : List Op)
    (hc : Consistent exported addr ops) (t : Nat) (job : Job)
    (ht : (run exported init ops).threads.get t = some (.ready job)) (hcomp : Complete job)
    (hq : ∀ n ∈ job.uses, ¬ Announced (run exported init ops) t n) :
    ∃ outcome, (run exported init (ops ++ [.link t])).links =
      (job, outcome) :: (run exported init ops).links ∧ Links addr job outcome := by
  rw [run_append]
  have hi := inv_from_init exported ops
  generalize run exported init ops = s at *
  refine ⟨bindAll exported s.table job.uses, ?_, ?_⟩
  · simp only [run, step, ht]
  · refine bindAll_eq fun n hn => bind_some hc hi n ?_
    obtain ⟨a, ha⟩ := hcomp n hn
    rcases (hi.marked n).1 (hi.covers t _ ht _ ha) with h | ⟨u, p, hu, b, hb⟩
    · exact h
    · cases p with
      | ready j => cases hb
      | inserted fresh j =>
        refine absurd ⟨u, fresh, j, ?_, hu, b, hb⟩ (hq n hn)
        intro e
        subst e
        rw [ht] at hu
        cases hu

/-- Two threads that both need symbol 1, the second also 2; nothing is announced when the second links. -/
example : ∃ outcome, (run (fun _ => none) init ([.begin 0 ⟨[(1, 7)], [1]⟩, .begin 1 ⟨[(1, 7), (2, 9)], [2, 1]⟩,
      .define 1, .define 0] ++ [.link 1])).links = (⟨[(1, 7), (2, 9)], [2, 1]⟩, outcome) :: [] ∧
    Links (fun n => if n = 1 then 7 else 9) ⟨[(1, 7), (2, 9)], [2, 1]⟩ outcome := by
  refine C67_link_partial (fun _ => none) (fun n => if n = 1 then 7 else 9)
    [.begin 0 ⟨[(1, 7)], [1]⟩, .begin 1 ⟨[(1, 7), (2, 9)], [2, 1]⟩, .define 1, .define 0] ⟨?_, ?_⟩ 1 _
    (by decide) ?_ ?_
  · rintro n a ⟨t, job, hm, hs⟩
    simp at hm
    rcases hm with ⟨_, rfl⟩ | ⟨_, rfl⟩ <;> simp at hs
    · rw [hs.1, hs.2]; rfl
    · rcases hs with ⟨rfl, rfl⟩ | ⟨rfl, rfl⟩ <;> rfl
  · intro n a h; cases h
  · intro n hn
    simp at hn
    rcases hn with rfl | rfl
    · exact ⟨9, by simp⟩
    · exact ⟨7, by simp⟩
  · rintro n _ ⟨u, fresh, job, _, hu, _⟩
    have : (run (fun _ => none) init [.begin 0 ⟨[(1, 7)], [1]⟩, .begin 1 ⟨[(1, 7), (2, 9)], [2, 1]⟩,
      .define 1, .define 0]).threads = [(0, .ready ⟨[(1, 7)], [1]⟩), (1, .ready ⟨[(1, 7), (2, 9)], [2, 1]⟩)] := by
      decide
    rw [this, AMap.get_cons, AMap.get_cons, AMap.get_nil] at hu
    repeat' split at hu
    all_goals cases hu

/-- **C67.** If the lock were held until the symbols are defined, or threads never met inside
`define_builtins`, all code would link. -/
theorem C67_whole (exported : Sym → Option Nat) (addr : Sym → Nat) (calls : List Whole)
    (hc : Consistent exported addr (calls.flatMap Whole.ops)) (job : Job) (outcome : Option (List Nat))
    (h : (job, outcome) ∈ (run exported init (calls.flatMap Whole.ops)).links) (hcomp : Complete job) :
    Links addr job outcome := by
  have key : ∀ (cs : List Whole) (s : Proc), (∀ x, x ∈ cs.flatMap Whole.ops → x ∈ calls.flatMap Whole.ops) →
      Inv (Requested (calls.flatMap Whole.ops)) s →
      (∀ t p, s.threads.get t = some p → p.fresh = []) →
      (∀ j o, (j, o) ∈ s.links → Complete j → Links addr j o) →
      ∀ j o, (j, o) ∈ (run exported s (cs.flatMap Whole.ops)).links → Complete j → Links addr j o := by
    intro cs
    induction cs with
    | nil => intro s _ _ _ hl; exact hl
    | cons c cs ih =>
      intro s hsub hi hq hl
      rw [List.flatMap_cons, run_append]
      have hsub1 : ∀ x, x ∈ c.ops → x ∈ calls.flatMap Whole.ops := fun x hx =>
        hsub x (by rw [List.flatMap_cons]; exact List.mem_append_left _ hx)
      refine ih _ (fun x hx => hsub x (by rw [List.flatMap_cons]; exact List.mem_append_right _ hx))
        (inv_run exported _ hi fun t job hm q hq' => ⟨t, job, hsub1 _ hm, hq'⟩) ?_ ?_
      · cases c with
        | call t job =>
          intro u p hu
          simp only [Whole.ops, run] at hu
          cases ht : s.threads.get t with
          | some q =>
            have e1 : step exported s (.begin t job) = s := by simp only [step, ht]
            rw [e1] at hu
            cases q with
            | ready j =>
              have e2 : step exported s (.define t) = s := by simp only [step, ht]
              rw [e2] at hu
              exact hq u p hu
            | inserted fresh j =>
              have hf : fresh = [] := hq t _ ht
              subst hf
              simp only [step, ht, if_true] at hu
              rcases get_insert_cases hu with ⟨_, rfl⟩ | ⟨_, hu⟩
              · rfl
              · exact hq u p hu
          | none =>
            by_cases he : job.symbols = []
            · have e1 : step exported s (.begin t job) = { s with threads := s.threads.insert t (.ready job) } := by
                simp only [step, ht, he, if_true]
              rw [e1] at hu
              simp only [step, AMap.get_insert, if_true] at hu
              split at hu
              · cases hu; rfl
              · exact hq u p hu
            · simp only [step, ht, he, if_false, AMap.get_insert, if_true] at hu
              have fin : ∀ (m : AMap Nat Phase) f j, AMap.get ((s.threads.insert t f).insert t (.ready j)) u = some p →
                  p.fresh = [] := by
                intro m f j hg
                rcases get_insert_cases hg with ⟨_, rfl⟩ | ⟨hne, hg⟩
                · rfl
                · rw [AMap.get_insert, if_neg hne] at hg
                  exact hq u p hg
              repeat' split at hu
              all_goals exact fin [] _ _ hu
        | link t =>
          intro u p hu
          simp only [Whole.ops, run, step] at hu
          split at hu
          · dsimp only at hu
            rw [AMap.get_erase] at hu
            split at hu
            · cases hu
            · exact hq u p hu
          · exact hq u p hu
      · cases c with
        | call t job =>
          intro j o hm
          refine hl j o ?_
          have h1 : ∀ s : Proc, (step exported s (.begin t job)).links = s.links := by
            intro s; simp only [step]; repeat' split
            all_goals rfl
          have h2 : ∀ s : Proc, (step exported s (.define t)).links = s.links := by
            intro s; simp only [step]; repeat' split
            all_goals rfl
          simpa only [Whole.ops, run, h1, h2] using hm
        | link t =>
          intro j o hm hcj
          simp only [Whole.ops, run, step] at hm
          cases ht : s.threads.get t with
          | none => rw [ht] at hm; exact hl j o hm hcj
          | some p =>
            rw [ht] at hm
            cases p with
            | inserted fresh job => exact hl j o hm hcj
            | ready job =>
              rcases List.mem_cons.1 hm with e | hm
              · injection e with e1 e2
                subst e1 e2
                refine bindAll_eq fun n hn => bind_some hc hi n ?_
                obtain ⟨a, ha⟩ := hcj n hn
                rcases (hi.marked n).1 (hi.covers t _ ht _ ha) with h | ⟨u, p, hu, b, hb⟩
                · exact h
                · rw [hq u p hu] at hb; cases hb
              · exact hl j o hm hcj
  refine key calls init (fun _ h => h) (inv_init _) ?_ ?_ job outcome h hcomp
  · intro t p ht; cases ht
  · intro j o hm; cases hm

example : Links (fun _ => 7) ⟨[(1, 7)], [1]⟩ (some [7]) := by
  refine C67_whole (fun _ => none) _ [.call 0 ⟨[(1, 7)], [1]⟩, .call 1 ⟨[(1, 7)], [1]⟩, .link 1, .link 0]
    ⟨?_, fun _ _ h => nomatch h⟩ _ _ (by decide) ?_
  · rintro n a ⟨t, job, hm, hs⟩
    simp [Whole.ops] at hm
    rcases hm with ⟨_, rfl⟩ | ⟨_, rfl⟩ <;> simp at hs <;> exact hs.2
  · intro n hn
    simp at hn
    subst hn
    exact ⟨7, by simp⟩

/-- **C67.** Once no thread is inside `define_builtins`, everything ever asked for is defined. -/
theorem C67_settled (exported : Sym → Option Nat) (ops : List Op) (t : Nat) (job : Job) (n : Sym) (a : Nat)
    (hr : ∃ before after, ops = before ++ .begin t job :: after ∧
      (run exported init before).threads.get t = none) (hn : (n, a) ∈ job.symbols)
    (hq : ∀ u fresh j, (run exported init ops).threads.get u ≠ some (.inserted fresh j)) :
    ∃ b, (run exported init ops).table.get n = some b := by
  obtain ⟨before, after, rfl, ht⟩ := hr
  have hmem : n ∈ (run exported init (before ++ .begin t job :: after)).defined := by
    rw [run_append]
    generalize run exported init before = s at ht
    simp only [run]
    have hmono : ∀ (ops : List Op) (s : Proc), n ∈ s.defined → n ∈ (run exported s ops).defined := by
      intro ops
      induction ops with
      | nil => exact fun _ h => h
      | cons op ops ih =>
        intro s h
        refine ih _ ?_
        cases op with
        | begin t job =>
          simp only [step]
          repeat' split
          · exact h
          · exact h
          · exact ((insertAll_spec s.defined job.symbols).1 n).2 (.inl h)
        | define t => simp only [step]; repeat' split
                      all_goals exact h
        | link t => simp only [step]; split <;> exact h
    refine hmono after _ ?_
    simp only [step, ht]
    split
    case isTrue he => rw [he] at hn; cases hn
    case isFalse => exact (insertAll_spec s.defined job.symbols).2.2.2 _ hn
  have hi := inv_from_init exported (before ++ .begin t job :: after)
  rcases (hi.marked n).1 hmem with h | ⟨u, p, hu, b, hb⟩
  · exact h
  · cases p with
    | ready j => cases hb
    | inserted fresh j => exact absurd hu (hq u fresh j)

example : ∃ b, (run (fun _ => none) init [.begin 0 ⟨[(1, 7)], [1]⟩, .begin 1 ⟨[(1, 7)], [1]⟩, .define 1, .link 1,
    .define 0, .link 0]).table.get 1 = some b := by
  refine C67_settled _ _ 1 ⟨[(1, 7)], [1]⟩ 1 7 ⟨[.begin 0 ⟨[(1, 7)], [1]⟩], _, rfl, by decide⟩ (by simp) ?_
  intro u fresh j h
  have : (run (fun _ => none) init [.begin 0 ⟨[(1, 7)], [1]⟩, .begin 1 ⟨[(1, 7)], [1]⟩, .define 1, .link 1,
    .define 0, .link 0]).threads = [] := by decide
  rw [this] at h
  cases h

/-- The interleaving of `C67_link_fails`, after the first thread has finished as well. -/
example : (run (fun _ => none) init [.begin 0 ⟨[(1, 7)], [1]⟩, .begin 1 ⟨[(1, 7)], [1]⟩, .define 1, .link 1,
    .define 0, .link 0]).links = [(⟨[(1, 7)], [1]⟩, some [7]), (⟨[(1, 7)], [1]⟩, none)] := by decide

end Verif.BuiltinSyms
