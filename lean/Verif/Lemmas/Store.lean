import Verif.Spec.Store
import Verif.Lemmas.ListExtra
/-!
# Lemmas: artifact store
-/

namespace Verif.Store

theorem hexDigit_inj : ∀ a < 16, ∀ b < 16, hexDigit a = hexDigit b → a = b := by decide +kernel

theorem hex_length (w v : Nat) : (hex w v).length = w := by
  induction w generalizing v with
  | zero => rfl
  | succ w ih => simp [hex, ih]

theorem hex_inj (w : Nat) : ∀ a b, a < 16 ^ w → b < 16 ^ w → hex w a = hex w b → a = b := by
  induction w with
  | zero => intro a b ha hb _; simp at ha hb; omega
  | succ w ih =>
    intro a b ha hb h
    simp only [hex] at h
    obtain ⟨h1, h2⟩ := List.append_inj h (by simp [hex_length])
    have h3 := ih (a / 16) (b / 16) (by rw [Nat.pow_succ] at ha; omega)
      (by rw [Nat.pow_succ] at hb; omega) h1
    have h4 := hexDigit_inj (a % 16) (Nat.mod_lt _ (by decide)) (b % 16) (Nat.mod_lt _ (by decide))
      (by simpa using h2)
    omega

theorem pathSuffix_inj : ∀ (s s' : Fin 15) (b b' : BackendSel) (o o' : Helper.OptLevel),
    pathSuffix s b o = pathSuffix s' b' o' → s = s' ∧ b = b' ∧ o = o' := by
  have key : ∀ (s s' : Fin 15), ∀ b ∈ [BackendSel.auto, .llvm], ∀ b' ∈ [BackendSel.auto, .llvm],
      ∀ o ∈ [Helper.OptLevel.none, .less, .default, .aggressive],
      ∀ o' ∈ [Helper.OptLevel.none, .less, .default, .aggressive],
      pathSuffix s b o = pathSuffix s' b' o' → s = s' ∧ b = b' ∧ o = o' := by decide +kernel
  intro s s' b b' o o'
  exact key s s' b (by cases b <;> simp) b' (by cases b' <;> simp) o (by cases o <;> simp) o'
    (by cases o' <;> simp)

theorem artifactPath_inj {k k' : Key} (h : artifactPath k = artifactPath k') : k = k' := by
  obtain ⟨h1, h2⟩ := List.append_inj h (by simp [hex_length])
  obtain ⟨hs, hb, ho⟩ := pathSuffix_inj _ _ _ _ _ _ h2
  have hh := hex_inj 64 _ _ (by have := k.codeHash.isLt; omega) (by have := k'.codeHash.isLt; omega) h1
  cases k; cases k'
  simp only [Key.mk.injEq]
  exact ⟨BitVec.eq_of_toNat_eq hh, hs, hb, ho⟩

theorem get_remove (ix : Index) (k q : Key) :
    (ix.remove k).get q = if q = k then none else ix.get q := by
  induction ix with
  | nil => simp [Index.remove, Index.get]
  | cons a r ih =>
    obtain ⟨c, st⟩ := a
    simp only [Index.remove, Index.get] at ih ⊢
    by_cases hc : c = k
    · subst hc
      rw [List.filter_cons_of_neg (by simp), ih]
      by_cases hq : q = c
      · simp [hq]
      · simp [hq, List.lookup_cons]
        have : (q == c) = false := by simpa using hq
        simp [this]
    · rw [List.filter_cons_of_pos (by simp [hc]), List.lookup_cons, List.lookup_cons, ih]
      by_cases hq : q = c
      · subst hq; simp [hc]
      · have : (q == c) = false := by simpa using hq
        simp [this]

theorem get_insert (ix : Index) (k q : Key) (st : Stored) :
    (ix.insert k st).get q = if q = k then some st else ix.get q := by
  by_cases hq : q = k
  · subst hq; simp [Index.insert, Index.get]
  · have h0 : (ix.insert k st).get q = (ix.remove k).get q := by
      have : (q == k) = false := by simpa using hq
      simp [Index.insert, Index.get, List.lookup_cons, this]
    rw [h0, get_remove, if_neg hq, if_neg hq]

theorem write_same (fs : Fs) (p : Path) (c : Option Bytes) : fs.write p c p = c := by simp [Fs.write]

theorem write_ne (fs : Fs) {p q : Path} (c : Option Bytes) (h : q ≠ p) : fs.write p c q = fs q := by
  simp [Fs.write, h]

/-- Every index entry points to its own file. -/
def PathsOk (ix : Index) : Prop := ∀ p ∈ ix, p.2.path = artifactPath p.1

theorem lookup_mem {ix : Index} {k : Key} {st : Stored} (h : ix.get k = some st) : (k, st) ∈ ix := by
  induction ix with
  | nil => simp [Index.get] at h
  | cons a r ih =>
    obtain ⟨c, st'⟩ := a
    simp only [Index.get, List.lookup_cons] at h ih
    split at h
    · rename_i hk
      have : k = c := by simpa using hk
      simp only [Option.some.injEq] at h
      subst h; subst this; exact List.mem_cons_self
    · exact List.mem_cons_of_mem _ (ih h)

theorem PathsOk.get {ix : Index} (h : PathsOk ix) {k : Key} {st : Stored} (hg : ix.get k = some st) :
    st.path = artifactPath k := h _ (lookup_mem hg)

theorem PathsOk.remove {ix : Index} (h : PathsOk ix) (k : Key) : PathsOk (ix.remove k) :=
  fun p hp => h p (List.mem_filter.mp hp).1

theorem PathsOk.insert {ix : Index} (h : PathsOk ix) (k : Key) (m : Manifest) :
    PathsOk (ix.insert k ⟨m, artifactPath k⟩) := by
  intro p hp
  simp only [Index.insert, List.mem_cons] at hp
  rcases hp with rfl | hp
  · rfl
  · exact h.remove k p hp

/-- `AgreesAt` for an index whose entries point to their own files. -/
theorem agreesAt_iff {ix : Index} (h : PathsOk ix) (fs : Fs) (m : Spec.Map) (k : Key) :
    Spec.AgreesAt ix fs m k ↔
      (ix.get k).map (·.manifest) = (m k).map (·.1) ∧
        ∀ mf b, m k = some (mf, b) → fs (artifactPath k) = some b := by
  unfold Spec.AgreesAt
  cases hg : ix.get k with
  | none => cases hm : m k <;> simp
  | some st =>
    have := h.get hg
    cases hm : m k with
    | none => simp
    | some x => obtain ⟨mf, b⟩ := x; simp [this]

/-! ## One call at a time -/

theorem apply_ok {s : State} {m : Spec.Map} (o : Op) (hp : PathsOk s.index)
    (ha : ∀ k, Spec.AgreesAt s.index s.fs m k)
    (hc : ∀ k mf b left, o = .store k mf b (.failed left) → m k = none ∨ left = s.fs (artifactPath k)) :
    PathsOk (apply s o).index ∧ ∀ k, Spec.AgreesAt (apply s o).index (apply s o).fs (Spec.apply m o) k := by
  have ha' := fun k => (agreesAt_iff hp s.fs m k).mp (ha k)
  cases o with
  | store k mf b w =>
    cases w with
    | ok =>
      have hp' := hp.insert k mf
      refine ⟨hp', fun q => (agreesAt_iff hp' _ _ q).mpr ?_⟩
      simp only [apply, store, Spec.apply, get_insert]
      by_cases hq : q = k
      · subst hq; simp [write_same]
      · simp only [hq, if_false]
        refine ⟨(ha' q).1, fun mf' b' h => ?_⟩
        rw [write_ne _ _ (fun he => hq (artifactPath_inj he))]; exact (ha' q).2 _ _ h
    | failed left =>
      refine ⟨hp, fun q => (agreesAt_iff hp _ _ q).mpr ⟨(ha' q).1, fun mf' b' h => ?_⟩⟩
      simp only [apply, store]
      by_cases hq : q = k
      · subst hq
        rw [write_same]
        have h' : m q = some (mf', b') := h
        rcases hc q mf b left rfl with h1 | h1
        · rw [h1] at h'; cases h'
        · rw [h1]; exact (ha' q).2 _ _ h
      · rw [write_ne _ _ (fun he => hq (artifactPath_inj he))]; exact (ha' q).2 _ _ h
  | delete k r =>
    simp only [apply, delete, Spec.apply]
    cases hg : s.index.get k with
    | none =>
      refine ⟨hp, fun q => (agreesAt_iff hp _ _ q).mpr ?_⟩
      by_cases hq : q = k
      · subst hq; simp [hg]
      · simp only [hq, if_false]; exact ha' q
    | some st =>
      have hp' := hp.remove k
      refine ⟨hp', fun q => (agreesAt_iff hp' _ _ q).mpr ?_⟩
      simp only [get_remove]
      by_cases hq : q = k
      · subst hq; simp
      · simp only [hq, if_false]
        refine ⟨(ha' q).1, fun mf' b' h => ?_⟩
        split
        · rw [write_ne _ _ (fun he => hq (artifactPath_inj (he.trans (hp.get hg))))]
          exact (ha' q).2 _ _ h
        · exact (ha' q).2 _ _ h
  | clear r =>
    refine ⟨fun p hp => absurd hp (by simp [apply, clear]), fun q => ?_⟩
    simp [apply, clear, Spec.apply, Spec.AgreesAt, Index.get]

/-! ## Overlapping calls -/

structure CInv (s : CState) (m : Spec.Map) : Prop where
  paths : PathsOk s.index
  manifests : ∀ k, (s.index.get k).map (·.manifest) = (m k).map (·.1)
  files : ∀ k mf b, m k = some (mf, b) → (∀ u m' b', s.thread u ≠ some (.insert k m' b')) →
    s.fs (artifactPath k) = some b
  written : ∀ u k mf b, s.thread u = some (.insert k mf b) → s.fs (artifactPath k) = some b
  removing : ∀ u ps, s.thread u = some (.rm ps) → ∀ k, artifactPath k ∈ ps → m k = none
  apart : ∀ u v p q k, u ≠ v → s.thread u = some p → s.thread v = some q → Spec.Concerns k p →
    ¬ Spec.Concerns k q

theorem cinv_init : CInv CState.init (fun _ => none) := by
  constructor <;> simp [CState.init, PathsOk, Index.get]

theorem setThread_same (th : Nat → Option Pending) (t : Nat) (p : Option Pending) :
    setThread th t p t = p := by simp [setThread]

theorem setThread_ne (th : Nat → Option Pending) {t u : Nat} (p : Option Pending) (h : u ≠ t) :
    setThread th t p u = th u := by simp [setThread, h]

/-- Replacing a thread's work by work that concerns fewer keys. -/
theorem apart_set {th : Nat → Option Pending} {t : Nat} {p' : Option Pending}
    (h : ∀ u v p q k, u ≠ v → th u = some p → th v = some q → Spec.Concerns k p → ¬ Spec.Concerns k q)
    (hn : ∀ p k, p' = some p → Spec.Concerns k p → ∀ v q, v ≠ t → th v = some q → ¬ Spec.Concerns k q) :
    ∀ u v p q k, u ≠ v → setThread th t p' u = some p → setThread th t p' v = some q →
      Spec.Concerns k p → ¬ Spec.Concerns k q := by
  intro u v p q k huv hu hv hp hq
  by_cases h1 : u = t
  · subst h1
    rw [setThread_same] at hu
    rw [setThread_ne _ _ (Ne.symm huv)] at hv
    exact hn p k hu hp v q (Ne.symm huv) hv hq
  · rw [setThread_ne _ _ h1] at hu
    by_cases h2 : v = t
    · subst h2
      rw [setThread_same] at hv
      exact hn q k hv hq u p huv hu hp
    · rw [setThread_ne _ _ h2] at hv
      exact h u v p q k huv hu hv hp hq

theorem cinv_step {s : CState} {m : Spec.Map} (h : CInv s m) (e : Ev) (hx : Spec.Exclusive s e) :
    CInv (step s e) (Spec.effect s m e) := by
  cases e with
  | startStore t k mf b =>
    simp only [step, Spec.effect]
    cases ht : s.thread t with
    | some p => exact h
    | none =>
      have hx : ∀ u p, s.thread u = some p → ¬ Spec.Concerns k p := hx
      refine ⟨h.paths, h.manifests, ?_, ?_, ?_, ?_⟩
      · intro q mf' b' hq hno
        have hqk : q ≠ k := by
          rintro rfl
          exact hno t mf b (by simp [setThread_same])
        simp only
        rw [write_ne _ _ (fun he => hqk (artifactPath_inj he))]
        refine h.files q mf' b' hq (fun u m' b'' hu => hno u m' b'' ?_)
        by_cases hut : u = t
        · subst hut; rw [ht] at hu; cases hu
        · simp only; rw [setThread_ne _ _ hut]; exact hu
      · intro u q mf' b' hu
        simp only at hu ⊢
        by_cases hut : u = t
        · subst hut
          rw [setThread_same] at hu
          simp only [Option.some.injEq, Pending.insert.injEq] at hu
          obtain ⟨rfl, rfl, rfl⟩ := hu
          exact write_same _ _ _
        · rw [setThread_ne _ _ hut] at hu
          have hqk : q ≠ k := by rintro rfl; exact hx u _ hu rfl
          rw [write_ne _ _ (fun he => hqk (artifactPath_inj he))]
          exact h.written u q mf' b' hu
      · intro u ps hu q hq
        simp only at hu
        by_cases hut : u = t
        · subst hut; rw [setThread_same] at hu; cases hu
        · rw [setThread_ne _ _ hut] at hu; exact h.removing u ps hu q hq
      · refine apart_set h.apart ?_
        intro p q hp hc v r hv hr
        simp only [Option.some.injEq] at hp
        subst hp
        have hc : k = q := hc
        subst hc
        exact hx v r hr
  | startDelete t k =>
    simp only [step, Spec.effect]
    cases ht : s.thread t with
    | some p => simpa using h
    | none =>
      have hx : ∀ u p, s.thread u = some p → ¬ Spec.Concerns k p := hx
      simp only [if_true]
      cases hg : s.index.get k with
      | none =>
        have hmk : m k = none := by
          have := h.manifests k; rw [hg] at this; simpa using this.symm
        have : (fun q => if q = k then none else m q) = m := by
          funext q; split
          · rename_i hq; rw [hq, hmk]
          · rfl
        rw [this]; exact h
      | some st =>
        have hst := h.paths.get hg
        refine ⟨h.paths.remove k, ?_, ?_, ?_, ?_, ?_⟩
        · intro q
          simp only [get_remove]
          split
          · rfl
          · exact h.manifests q
        · intro q mf' b' hq hno
          simp only at hq hno ⊢
          split at hq
          · cases hq
          · rename_i hqk
            refine h.files q mf' b' hq (fun u m' b'' hu => hno u m' b'' ?_)
            by_cases hut : u = t
            · subst hut; rw [ht] at hu; cases hu
            · rw [setThread_ne _ _ hut]; exact hu
        · intro u q mf' b' hu
          simp only at hu ⊢
          by_cases hut : u = t
          · subst hut; rw [setThread_same] at hu; cases hu
          · rw [setThread_ne _ _ hut] at hu; exact h.written u q mf' b' hu
        · intro u ps hu q hq
          simp only at hu ⊢
          split
          · rfl
          · rename_i hqk
            by_cases hut : u = t
            · subst hut; rw [setThread_same] at hu
              simp only [Option.some.injEq, Pending.rm.injEq] at hu
              subst hu
              simp only [List.mem_singleton, hst] at hq
              exact absurd (artifactPath_inj hq) hqk
            · rw [setThread_ne _ _ hut] at hu; exact h.removing u ps hu q hq
        · refine apart_set h.apart ?_
          intro p q hp hc v r hv hr
          simp only [Option.some.injEq] at hp
          subst hp
          have hc : artifactPath q ∈ [st.path] := hc
          simp only [List.mem_singleton, hst] at hc
          rw [artifactPath_inj hc]
          exact hx v r hr
  | startClear t =>
    simp only [step, Spec.effect]
    have hx : ∀ u, s.thread u = none := hx
    rw [hx t]
    refine ⟨h.paths, h.manifests, ?_, ?_, ?_, ?_⟩
    · intro q mf' b' hq _
      exact h.files q mf' b' hq (fun u _ _ hu => by rw [hx u] at hu; cases hu)
    · intro u q mf' b' hu
      simp only at hu
      by_cases hut : u = t
      · subst hut; rw [setThread_same] at hu; cases hu
      · rw [setThread_ne _ _ hut, hx u] at hu; cases hu
    · intro u ps hu
      simp only at hu
      by_cases hut : u = t
      · subst hut; rw [setThread_same] at hu; cases hu
      · rw [setThread_ne _ _ hut, hx u] at hu; cases hu
    · refine apart_set h.apart ?_
      intro p q hp hc v r hv hr
      rw [hx v] at hr; cases hr
  | cont t =>
    simp only [step, Spec.effect]
    cases ht : s.thread t with
    | none => exact h
    | some p =>
      cases p with
      | insert k mf b =>
        have hap : ∀ v q, v ≠ t → s.thread v = some q → ¬ Spec.Concerns k q := fun v q hv hq hc =>
          h.apart v t q _ k hv hq ht hc rfl
        refine ⟨h.paths.insert k mf, ?_, ?_, ?_, ?_, ?_⟩
        · intro q
          simp only [get_insert]
          by_cases hq : q = k
          · subst hq; simp
          · simp only [hq, if_false]; exact h.manifests q
        · intro q mf' b' hq hno
          simp only at hq hno ⊢
          by_cases hqk : q = k
          · subst hqk
            simp only [if_true, Option.some.injEq, Prod.mk.injEq] at hq
            obtain ⟨rfl, rfl⟩ := hq
            exact h.written t q mf b ht
          · simp only [hqk, if_false] at hq
            refine h.files q mf' b' hq (fun u m' b'' hu => ?_)
            by_cases hut : u = t
            · subst hut; rw [ht] at hu
              simp only [Option.some.injEq, Pending.insert.injEq] at hu
              exact hqk hu.1.symm
            · exact hno u m' b'' (by rw [setThread_ne _ _ hut]; exact hu)
        · intro u q mf' b' hu
          simp only at hu ⊢
          by_cases hut : u = t
          · subst hut; rw [setThread_same] at hu; cases hu
          · rw [setThread_ne _ _ hut] at hu; exact h.written u q mf' b' hu
        · intro u ps hu q hq
          simp only at hu ⊢
          by_cases hut : u = t
          · subst hut; rw [setThread_same] at hu; cases hu
          · rw [setThread_ne _ _ hut] at hu
            have hqk : q ≠ k := by rintro rfl; exact hap u _ hut hu hq
            simp only [hqk, if_false]
            exact h.removing u ps hu q hq
        · exact apart_set h.apart (by intro p q hp; cases hp)
      | clearIndex ps =>
        have hap : ∀ v q k, v ≠ t → s.thread v = some q → ¬ Spec.Concerns k q := fun v q k hv hq hc =>
          h.apart v t q _ k hv hq ht hc trivial
        refine ⟨by intro p hp; simp at hp, by intro q; simp [Index.get], by intro q _ _ hq; simp at hq, ?_,
          by intros; rfl, ?_⟩
        · intro u q mf' b' hu
          simp only at hu ⊢
          by_cases hut : u = t
          · subst hut; rw [setThread_same] at hu; cases hu
          · rw [setThread_ne _ _ hut] at hu; exact absurd rfl (hap u _ q hut hu)
        · refine apart_set h.apart ?_
          intro p q hp hc v r hv hr
          exact hap v r q hv hr
      | rm ps =>
        cases ps with
        | nil =>
          refine ⟨h.paths, h.manifests, ?_, ?_, ?_, ?_⟩
          · intro q mf' b' hq hno
            refine h.files q mf' b' hq (fun u m' b'' hu => ?_)
            by_cases hut : u = t
            · subst hut; rw [ht] at hu; cases hu
            · exact hno u m' b'' (by simp only; rw [setThread_ne _ _ hut]; exact hu)
          · intro u q mf' b' hu
            simp only at hu ⊢
            by_cases hut : u = t
            · subst hut; rw [setThread_same] at hu; cases hu
            · rw [setThread_ne _ _ hut] at hu; exact h.written u q mf' b' hu
          · intro u ps hu q hq
            simp only at hu
            by_cases hut : u = t
            · subst hut; rw [setThread_same] at hu; cases hu
            · rw [setThread_ne _ _ hut] at hu; exact h.removing u ps hu q hq
          · exact apart_set h.apart (by intro p q hp; cases hp)
        | cons p ps =>
          refine ⟨h.paths, h.manifests, ?_, ?_, ?_, ?_⟩
          · intro q mf' b' hq hno
            have hmq : m q = some (mf', b') := hq
            have hne : artifactPath q ≠ p := by
              intro he
              have := h.removing t _ ht q (by rw [he]; exact List.mem_cons_self)
              rw [this] at hmq; cases hmq
            simp only
            rw [write_ne _ _ hne]
            refine h.files q mf' b' hq (fun u m' b'' hu => ?_)
            by_cases hut : u = t
            · subst hut; rw [ht] at hu; cases hu
            · exact hno u m' b'' (by simp only; rw [setThread_ne _ _ hut]; exact hu)
          · intro u q mf' b' hu
            simp only at hu ⊢
            by_cases hut : u = t
            · subst hut; rw [setThread_same] at hu; cases hu
            · rw [setThread_ne _ _ hut] at hu
              have hne : artifactPath q ≠ p := by
                intro he
                exact h.apart u t _ _ q hut hu ht rfl (by
                  show artifactPath q ∈ p :: ps
                  rw [he]; exact List.mem_cons_self)
              rw [write_ne _ _ hne]
              exact h.written u q mf' b' hu
          · intro u ps' hu q hq
            simp only at hu
            by_cases hut : u = t
            · subst hut; rw [setThread_same] at hu
              simp only [Option.some.injEq, Pending.rm.injEq] at hu
              subst hu
              exact h.removing u _ ht q (List.mem_cons_of_mem _ hq)
            · rw [setThread_ne _ _ hut] at hu; exact h.removing u ps' hu q hq
          · refine apart_set h.apart ?_
            intro p' q hp hc v r hv hr
            simp only [Option.some.injEq] at hp
            subst hp
            have hc : artifactPath q ∈ ps := hc
            intro hr'
            exact h.apart v t r _ q hv hr ht hr' (List.mem_cons_of_mem _ hc)

theorem runBoth_fst (evs : List Ev) : (Spec.runBoth evs).1 = run CState.init evs := by
  induction evs using Verif.snocInd with
  | nil => rfl
  | append_singleton l e ih =>
    simp only [Spec.runBoth, run, List.foldl_append, List.foldl_cons, List.foldl_nil] at ih ⊢
    rw [ih]

theorem cinv_run (evs : List Ev) (h : Spec.NoOverlap evs) :
    CInv (Spec.runBoth evs).1 (Spec.runBoth evs).2 := by
  induction evs using Verif.snocInd with
  | nil => exact cinv_init
  | append_singleton l e ih =>
    have hl : Spec.NoOverlap l := fun pre e' post heq =>
      h pre e' (post ++ [e]) (by rw [heq]; simp)
    have := cinv_step (ih hl) e (by rw [runBoth_fst]; exact h l e [] (by simp))
    simpa only [Spec.runBoth, List.foldl_append, List.foldl_cons, List.foldl_nil] using this

end Verif.Store
