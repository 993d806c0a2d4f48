import Verif.Lemmas.SessionFresh
/-!
# C61: compiler sessions

What a caller of `translate`, `jit_function`, `write_object`, `free_function`, `clear_ir` and `clear`
can rely on, after any sequence of these calls on a new compiler in any process.
-/

namespace Verif.Session

/-! ## The properties -/

/-- The caller behaves: either no name is used twice before everything is freed, or the compiler is
cleared after a `jit_function` that failed. -/
def Behaved (h : History) : Prop := Careful h ∨ Distinct h

/-- **A pointer leads to the code of its id, as long as it is loaded**, however many other functions
were compiled, freed or cleared since. Missing: callers that go on after a failed `jit_function` with a
name in use, for whom it is false (`C61_pointer_fails`). -/
theorem C61_pointer_partial {aot : Bool} {j0 : Jit} (ok : j0.Ok) {h : History} {j : Jit} {c : Comp}
    (r : Reach aot j0 h j c) (hb : Behaved h) {id a : Nat} (hg : Given h id a) {code : Code}
    (hl : j.codeAt a = some code) : ∃ n g, Made h id n code g := by
  have hr : Right h j := hb.elim (fun hc => (r.good ok hc).1) (fun hd => (r.fresh ok hd).1)
  obtain ⟨s, hs, h1, h2⟩ := codeAt_some hl
  have := hr id a hg s hs h1
  rw [h2] at this
  exact ⟨_, _, this⟩

/-- A pointer is loaded when it is given out. -/
theorem C61_loaded {aot : Bool} {j0 : Jit} (ok : j0.Ok) {h : History} {j j' : Jit} {c c' : Comp}
    (r : Reach aot j0 h j c) {id a : Nat} {opt link : Bool}
    (he : exec j c (.jitFunction id opt link) = (j', c', .addr a)) : ∃ code, j'.codeAt a = some code := by
  have v' := (r.inv ok).exec he
  rw [Session.exec] at he
  rcases jit_cases j c id opt link with h3 | ⟨ha, c0, j2, c2, ok, r2, hf, hc, h3, h4⟩
  · rw [h3] at he; cases he
  · rw [h3] at he
    cases he
    rcases h4 with ⟨_, h4⟩ | ⟨_, h4 | ⟨h4, _⟩ | ⟨n, orc, a2, hn, ho, hl, h4⟩⟩
    · cases h4
    · cases h4
    · cases h4
    · cases h4
      obtain ⟨s, hs, _, _, hsa⟩ := lookup_some hl
      rw [← hsa]
      exact ⟨_, codeAt_of v'.jit hs⟩

/-- **Compiling succeeds**: with names that are not used twice, a function translated since the last clear
with nothing freed since is compiled whenever LLVM succeeds, and the pointer returned runs it. -/
theorem C61_compiles {j0 : Jit} (ok : j0.Ok) {h : History} {j : Jit} {c : Comp} (r : Reach false j0 h j c)
    (hd : Distinct h) {id : Nat} {n : Name} {code : Code} (hal : Alive h id n code) :
    ∃ j' c' a, exec j c (.jitFunction id true true) = (j', c', .addr a) ∧ j'.codeAt a = some code := by
  have v := r.inv ok
  obtain ⟨ha, w⟩ := r.waiting ok hd
  have x := (r.fresh ok hd).2.2
  have hf : ∃ c0, finalize c true = (c0, true) := by
    rw [Session.finalize]
    cases c.finalized
    · exact ⟨_, rfl⟩
    · exact ⟨_, rfl⟩
  obtain ⟨c0, hf⟩ := hf
  cases hc : Session.commit (Session.ensureOrc j c0).1 (Session.ensureOrc j c0).2 with
  | mk j2 p =>
    obtain ⟨c2, ok2⟩ := p
    obtain ⟨rfl, h2⟩ := w.commit x v ha hf hc
    obtain ⟨h3, o, h4, h5⟩ := h2 id n code hal
    obtain ⟨a, h6⟩ := lookup_of h5
    have he : exec j c (.jitFunction id true true) = (j2, c2, .addr a) := by
      rw [Session.exec, Session.jitFunction]
      simp [ha, hf, hc, h3, h4, h6]
    refine ⟨j2, c2, a, he, ?_⟩
    obtain ⟨code2, hl⟩ := C61_loaded ok r he
    obtain ⟨n2, g2, hm⟩ := C61_pointer_partial ok (.call r he) (.inr hd) ⟨true, true, List.mem_cons_self⟩ hl
    have := ((r.inv ok).exec he).one _ _ _ _ _ _ _ hm (.inl hal.made)
    rw [hl, this.2.1]

/-- **An id stands for one function**: two different calls of `translate` never return the same id, in
all of the compiler's life. -/
theorem C61_ids {aot : Bool} {j0 : Jit} (ok : j0.Ok) {h : History} {j j' : Jit} {c c' : Comp}
    (r : Reach aot j0 h j c) {n : Name} {code : Code} {p u : Bool} {id : Nat}
    (he : exec j c (.translate n code p u) = (j', c', .id id)) (n' : Name) (code' : Code) (g : Nat) :
    ¬ Made h id n' code' g := by
  have v := r.inv ok
  rw [Session.exec] at he
  rcases translate_cases j c n code p u v.built with h1 | ⟨_, _, j1, c1, b, _, _, h1⟩
  · rw [h1] at he; cases he
  · rw [h1] at he
    cases he
    intro hm
    exact Nat.lt_irrefl _ (v.ids _ _ _ _ hm)

/-- **What is loaded stays**, whatever the caller does except freeing functions or everything:
translating, compiling, writing objects, clearing the IR and handing over trackers leave every loaded
pointer as it is. -/
theorem C61_stays {aot : Bool} {j0 : Jit} (ok : j0.Ok) {h : History} {j j' : Jit} {c c' : Comp} {op : Op} {res : Res}
    (r : Reach aot j0 h j c) (he : exec j c op = (j', c', res)) (h1 : ∀ id, op ≠ .freeFunction id)
    (h2 : op ≠ .clear) {a : Nat} {code : Code} (hl : j.codeAt a = some code) : j'.codeAt a = some code := by
  have v := r.inv ok
  have v' := v.exec he
  obtain ⟨s, hs, hsa, hsc⟩ := codeAt_some hl
  suffices s ∈ j'.syms by
    rw [← hsa, ← hsc]
    exact codeAt_of v'.jit this
  cases op with
  | translate n code p u =>
    rw [Session.exec] at he
    have := translate_syms (j := j) (c := c) (n := n) (code := code) (p := p) (u := u) v.built
    rw [he] at this
    rw [this]
    exact hs
  | jitFunction id o l => rw [Session.exec] at he; exact (jit_syms he).1 s hs
  | writeObject o => cases he; exact hs
  | freeFunction id => exact absurd rfl (h1 id)
  | clearIr => cases he; exact hs
  | clear => exact absurd rfl h2
  | takeTracker => cases he; exact hs

/-- **Freeing a function frees at most what was translated since the same clear**: the pointers of
functions translated before or after another `clear_ir` stay. -/
theorem C61_free_partial {aot : Bool} {j0 : Jit} (ok : j0.Ok) {h : History} {j j' : Jit} {c c' : Comp} {res : Res}
    (r : Reach aot j0 h j c) (hb : Behaved h) {id id' a : Nat} (he : exec j c (.freeFunction id) = (j', c', res))
    (hg : Given h id' a) {n n' : Name} {co co' : Code} {g g' : Nat} (hm : Made h id n co g)
    (hm' : Made h id' n' co' g') (hne : g ≠ g') {code : Code} (hl : j.codeAt a = some code) :
    j'.codeAt a = some code := by
  have v := r.inv ok
  have v' := v.exec he
  have hr : Right h j := hb.elim (fun hc => (r.good ok hc).1) (fun hd => (r.fresh ok hd).1)
  obtain ⟨s, hs, hsa, hsc⟩ := codeAt_some hl
  suffices s ∈ j'.syms by
    rw [← hsa, ← hsc]
    exact codeAt_of v'.jit this
  rw [Session.exec] at he
  rcases free_cases j c id with ⟨_, k⟩ | ⟨o, ho, ⟨f, _, _, k⟩ | ⟨funcs, _, ⟨_, k⟩ | ⟨i, hi, ⟨_, k⟩ | ⟨t, ht, k⟩⟩⟩⟩
  · rw [k] at he; cases he; exact hs
  · rw [k] at he; cases he; exact hs
  · rw [k] at he; cases he; exact hs
  · rw [k] at he; cases he; exact hs
  · rw [k] at he
    cases he
    refine List.mem_filter.mpr ⟨hs, ?_⟩
    simp only [bne_iff_ne, ne_eq]
    intro hst
    obtain ⟨n2, c2, k1⟩ := (v.orcs o ho).group s hs id i hi (by rw [hst]; exact ht)
    have k2 := hr id' a hg s hs hsa
    exact hne (((v.one _ _ _ _ _ _ _ hm k1).2.2).trans (v.one _ _ _ _ _ _ _ k2 hm').2.2)

/-- **Memory safety and no lost function**: for a caller that behaves no call uses a function of a
module that is gone, and freeing never panics. -/
theorem C61_safe_partial {aot : Bool} {j0 : Jit} (ok : j0.Ok) {h : History} {j j' : Jit} {c c' : Comp} {op : Op}
    {res : Res} (r : Reach aot j0 h j c) (he : exec j c op = (j', c', res)) (hb : Behaved ((op, res) :: h)) :
    res ≠ .dangling ∧ ∀ id, op = .freeFunction id → res = .done := by
  have v := r.inv ok
  cases op with
  | translate n code p u =>
    refine ⟨?_, fun _ h => by cases h⟩
    rw [Session.exec] at he
    rcases translate_cases j c n code p u v.built with h1 | ⟨_, _, j1, c1, b, _, _, h1⟩
    · rw [h1] at he; cases he; simp
    · rw [h1] at he; cases he; simp
  | jitFunction id o l =>
    refine ⟨?_, fun _ h => by cases h⟩
    rw [Session.exec] at he
    rcases jit_cases j c id o l with h3 | ⟨ha, c0, j2, c2, ok, r2, hf, hc, h3, h4⟩
    · rw [h3] at he; cases he; simp
    · rw [h3] at he
      cases he
      rcases h4 with ⟨_, h4⟩ | ⟨_, h4 | ⟨h4, _⟩ | ⟨_, _, _, _, _, _, h4⟩⟩ <;> (subst h4; simp)
  | writeObject o =>
    refine ⟨?_, fun _ h => by cases h⟩
    cases he
    rw [Session.writeObject]
    cases hq : (Session.finalize c o).2 <;> simp [hq]
  | freeFunction id =>
    have hg : Good h j c := by
      rcases hb with hb | hb
      · exact (r.good ok hb.2).2 hb.1
      · exact (r.fresh ok hb).2.1
    have := (hg.freeFunction v id).2
    rw [Session.exec] at he
    rw [he] at this
    simp only at this
    refine ⟨by rw [this]; simp, fun _ _ => this⟩
  | clearIr => cases he; exact ⟨by simp, fun _ h => by cases h⟩
  | clear => cases he; exact ⟨by simp, fun _ h => by cases h⟩
  | takeTracker => cases he; exact ⟨by simp, fun _ h => by cases h⟩

/-- Has the compiler been finalised since the last clear? -/
def sealed : History → Bool
  | [] => false
  | (.clear, _) :: _ => false
  | (.clearIr, _) :: _ => false
  | (.jitFunction _ _ _, .addr _) :: _ => true
  | (.writeObject _, .object _) :: _ => true
  | _ :: h => sealed h

theorem sealed_finalized {aot : Bool} {j0 : Jit} (ok : j0.Ok) {h : History} {j : Jit} {c : Comp}
    (r : Reach aot j0 h j c) (hs : sealed h = true) : c.finalized = true := by
  induction r with
  | new => cases hs
  | @call h j c op j' c' res hr he ih =>
    have v := hr.inv ok
    have keep : c.finalized = true → ∀ n code p u, op = .translate n code p u → c'.finalized = true := by
      intro hf n code p u hop
      subst hop
      rw [Session.exec, Session.translate] at he
      simp only [hf, if_true] at he
      cases he
      exact hf
    cases op with
    | translate n code p u =>
      have : sealed h = true := by cases res <;> exact hs
      exact keep (ih this) n code p u rfl
    | jitFunction id o l =>
      rw [Session.exec] at he
      have hfin : sealed h = true ∨ ∃ a, res = .addr a := by
        cases res with
        | addr a => exact .inr ⟨a, rfl⟩
        | _ => exact .inl hs
      rcases jit_cases j c id o l with h3 | ⟨ha, c0, j2, c2, ok, r2, hf, hc, h3, h4⟩
      · rw [h3] at he
        cases he
        rcases hfin with h5 | ⟨a, h5⟩
        · exact ih h5
        · cases h5
      · rw [h3] at he
        cases he
        obtain ⟨f1, f2, f3⟩ := finalize_true hf
        have k := ensureOrc_keeps j c0
        obtain ⟨o3, ho3, _⟩ := k.2.2.2.2.2.2.2
        rcases commit_cases (j := (Session.ensureOrc j c0).1) ho3 (k.2.1.trans (f2.trans ha)) with
          ⟨_, h6⟩ | ⟨_, _, h6⟩ | ⟨_, _, h6⟩
        · rw [h6] at hc; cases hc; exact k.1.trans f1
        · rw [h6] at hc; cases hc; exact k.1.trans f1
        · rw [h6] at hc; cases hc; exact k.1.trans f1
    | writeObject o =>
      cases he
      cases hc : c.finalized with
      | true => simp [Session.writeObject, Session.finalize, hc]
      | false =>
        cases o with
        | true => simp [Session.writeObject, Session.finalize, hc]
        | false =>
          have h1 : (Session.writeObject c false).2 = .err := by
            simp [Session.writeObject, Session.finalize, hc]
          rw [h1] at hs
          have := ih hs
          rw [hc] at this
          cases this
    | freeFunction id =>
      have hs' : sealed h = true := by cases res <;> exact hs
      have hf := ih hs'
      rw [Session.exec] at he
      rcases free_cases j c id with ⟨_, k⟩ | ⟨o, ho, ⟨f, _, _, k⟩ | ⟨funcs, _, ⟨_, k⟩ | ⟨i, hi, ⟨_, k⟩ | ⟨t, ht, k⟩⟩⟩⟩ <;>
        (rw [k] at he; cases he; exact hf)
    | clearIr => cases res <;> cases hs
    | clear => cases res <;> cases hs
    | takeTracker =>
      have hs' : sealed h = true := by cases res <;> exact hs
      have hf := ih hs'
      cases he
      cases h5 : c.orc with
      | none => simp only [Session.takeTracker, h5]; exact hf
      | some o =>
        cases h6 : o.trackers.getLast? with
        | none => simp only [Session.takeTracker, h5, h6]; exact hf
        | some t => simp only [Session.takeTracker, h5, h6]; exact hf

/-- **No function can be added to a finalised module**: after `jit_function` or `write_object` succeeded
every `translate` fails and changes nothing, until the compiler is cleared. -/
theorem C61_finalized {aot : Bool} {j0 : Jit} (ok : j0.Ok) {h : History} {j : Jit} {c : Comp}
    (r : Reach aot j0 h j c) (hs : sealed h = true) (n : Name) (code : Code) (p u : Bool) :
    exec j c (.translate n code p u) = (j, c, .err) := by
  have := sealed_finalized ok r hs
  rw [Session.exec, Session.translate]
  simp only [this, if_true]

/-- **`clear` frees everything of this compiler and nothing else.** -/
theorem C61_clear {aot : Bool} {j0 : Jit} {h : History} {j : Jit} {c : Comp} (_r : Reach aot j0 h j c)
    (s : Sym) : s ∈ (exec j c .clear).1.syms ↔ s ∈ j.syms ∧ ∀ o, c.orc = some o → s.dylib ≠ o.dylib := by
  show s ∈ (Session.clear j c).1.syms ↔ _
  rw [Session.clear]
  cases ho : c.orc with
  | none => simp
  | some o => simp [Jit.clearDylib]

/-! ## The object file -/

/-- The functions translated since the last clear, oldest first. -/
def pendingFuncs : History → List (Name × Code)
  | [] => []
  | (.clear, _) :: _ => []
  | (.clearIr, _) :: _ => []
  | (.translate n code _ _, .id _) :: h => pendingFuncs h ++ [(n, code)]
  | _ :: h => pendingFuncs h

theorem aot_funcs {j0 : Jit} (ok : j0.Ok) {h : History} {j : Jit} {c : Comp} (r : Reach true j0 h j c) :
    c.aot = true ∧ c.funcs = pendingFuncs h := by
  induction r with
  | new => exact ⟨rfl, rfl⟩
  | @call h j c op j' c' res hr he ih =>
    obtain ⟨ha, hf⟩ := ih
    have v := hr.inv ok
    have ho := v.aotOrc ha
    cases op with
    | translate n code p u =>
      rw [Session.exec] at he
      rcases translate_cases j c n code p u v.built with h1 | ⟨_, _, j1, c1, b, h2, _, h1⟩
      · rw [h1] at he; cases he; exact ⟨ha, hf⟩
      · rw [h1] at he
        cases he
        simp [ha] at h2
        rw [h2.2]
        exact ⟨ha, by show c.funcs ++ _ = pendingFuncs h ++ _; rw [hf]⟩
    | jitFunction id o l =>
      rw [Session.exec, Session.jitFunction] at he
      simp only [ha, if_true] at he
      cases he
      exact ⟨ha, hf⟩
    | writeObject o =>
      cases he
      have hq : (Session.writeObject c o).1.aot = c.aot ∧ (Session.writeObject c o).1.funcs = c.funcs := by
        rw [Session.writeObject, Session.finalize]
        cases c.finalized <;> cases o <;> exact ⟨rfl, rfl⟩
      exact ⟨hq.1.trans ha, hq.2.trans hf⟩
    | freeFunction id =>
      rw [Session.exec, Session.freeFunction] at he
      simp only [ho] at he
      cases he
      exact ⟨ha, hf⟩
    | clearIr => cases he; exact ⟨ha, rfl⟩
    | clear => cases he; exact ⟨ha, rfl⟩
    | takeTracker =>
      cases he
      rw [Session.takeTracker]
      simp only [ho]
      exact ⟨ha, hf⟩

/-- **An object file contains exactly the functions translated since the last clear, in order**. -/
theorem C61_object {j0 : Jit} (ok : j0.Ok) {h : History} {j j' : Jit} {c c' : Comp} (r : Reach true j0 h j c)
    {opt : Bool} {fs : List (Name × Code)} (he : exec j c (.writeObject opt) = (j', c', .object fs)) :
    fs = pendingFuncs h := by
  obtain ⟨_, hf⟩ := aot_funcs ok r
  rw [Session.exec, Session.writeObject, Session.finalize] at he
  rw [← hf]
  cases hc : c.finalized <;> cases opt <;> simp [hc] at he <;> exact he.2.2.symm

/-- Nothing was compiled or written since the last clear. -/
def opened : History → Bool
  | [] => true
  | (.clear, _) :: _ => true
  | (.clearIr, _) :: _ => true
  | (.jitFunction _ _ _, _) :: _ => false
  | (.writeObject _, _) :: _ => false
  | _ :: h => opened h

theorem opened_inv {aot : Bool} {j0 : Jit} (ok : j0.Ok) {h : History} {j : Jit} {c : Comp}
    (r : Reach aot j0 h j c) : (∀ f ∈ c.funcs, f ∈ pendingFuncs h) ∧ (opened h = true → c.finalized = false) := by
  induction r with
  | new => exact ⟨fun _ h => (by cases h), fun _ => rfl⟩
  | @call h j c op j' c' res hr he ih =>
    obtain ⟨hf, hs⟩ := ih
    have v := hr.inv ok
    cases op with
    | translate n code p u =>
      rw [Session.exec] at he
      rcases translate_cases j c n code p u v.built with h1 | ⟨hfi, _, j1, c1, b, h2, _, h1⟩
      · rw [h1] at he; cases he; exact ⟨hf, hs⟩
      · rw [h1] at he
        cases he
        refine ⟨fun f h3 => ?_, fun _ => ?_⟩
        · rcases List.mem_append.mp h3 with h3 | h3
          · exact List.mem_append_left _ (hf f h3)
          · exact List.mem_append_right _ h3
        · cases ha : c.aot with
          | true => simp [ha] at h2; rw [h2.2]; exact hfi
          | false =>
            simp [ha] at h2
            have k := ensureOrc_keeps j c
            rw [← h2] at k
            exact k.1.trans hfi
    | jitFunction id o l =>
      have hp : pendingFuncs ((Op.jitFunction id o l, res) :: h) = pendingFuncs h := by cases res <;> rfl
      refine ⟨fun f h3 => ?_, fun h3 => by cases res <;> cases h3⟩
      rw [hp]
      rw [Session.exec] at he
      rcases jit_cases j c id o l with h4 | ⟨ha, c0, j2, c2, ok, r2, hfi, hc, h4, _⟩
      · rw [h4] at he; cases he; exact hf f h3
      · rw [h4] at he
        cases he
        obtain ⟨_, f2, f3⟩ := finalize_true hfi
        have k := ensureOrc_keeps j c0
        obtain ⟨o3, ho3, _⟩ := k.2.2.2.2.2.2.2
        rcases commit_cases (j := (Session.ensureOrc j c0).1) ho3 (k.2.1.trans (f2.trans ha)) with
          ⟨_, h6⟩ | ⟨_, _, h6⟩ | ⟨_, _, h6⟩
        · rw [h6] at hc
          cases hc
          rw [k.2.2.2.1, f3] at h3
          exact hf f h3
        · rw [h6] at hc; cases hc; cases h3
        · rw [h6] at hc; cases hc; cases h3
    | writeObject o =>
      cases he
      have hq : (Session.writeObject c o).1.funcs = c.funcs := by
        rw [Session.writeObject, Session.finalize]
        cases c.finalized <;> cases o <;> rfl
      exact ⟨fun f h3 => hf f (by rw [← hq]; exact h3), fun h3 => by cases h3⟩
    | freeFunction id =>
      rw [Session.exec] at he
      have hp : pendingFuncs ((Op.freeFunction id, res) :: h) = pendingFuncs h := by cases res <;> rfl
      have ho : opened ((Op.freeFunction id, res) :: h) = opened h := by cases res <;> rfl
      rw [hp, ho]
      rcases free_cases j c id with ⟨_, k⟩ | ⟨o, ho, ⟨f, _, _, k⟩ | ⟨funcs, hfs, ⟨_, k⟩ | ⟨i, _, ⟨_, k⟩ | ⟨t, _, k⟩⟩⟩⟩
      · rw [k] at he; cases he; exact ⟨hf, hs⟩
      · rw [k] at he; cases he; exact ⟨hf, hs⟩
      · rw [k] at he; cases he
        refine ⟨fun f h => ?_, hs⟩
        rcases hfs with ⟨_, rfl⟩ | ⟨_, _, _, rfl⟩
        · exact hf f h
        · exact hf f (List.mem_filter.mp h).1
      · rw [k] at he; cases he; exact ⟨hf, hs⟩
      · rw [k] at he; cases he
        refine ⟨fun f h => ?_, hs⟩
        rcases hfs with ⟨_, rfl⟩ | ⟨_, _, _, rfl⟩
        · exact hf f h
        · exact hf f (List.mem_filter.mp h).1
    | clearIr => cases he; exact ⟨fun _ h => (by cases h), fun _ => rfl⟩
    | clear => cases he; exact ⟨fun _ h => (by cases h), fun _ => rfl⟩
    | takeTracker =>
      cases he
      cases h5 : c.orc with
      | none => simp only [Session.takeTracker, h5]; exact ⟨hf, hs⟩
      | some o =>
        cases h6 : o.trackers.getLast? with
        | none => simp only [Session.takeTracker, h5, h6]; exact ⟨hf, hs⟩
        | some t => simp only [Session.takeTracker, h5, h6]; exact ⟨hf, hs⟩

/-- **Translating succeeds** when the bytecode parses, nothing was compiled or written since the last clear
and the name was not used since. -/
theorem C61_translates {aot : Bool} {j0 : Jit} (ok : j0.Ok) {h : History} {j : Jit} {c : Comp}
    (r : Reach aot j0 h j c) (ho : opened h = true) {n : Name} (hn : n ∉ (pendingFuncs h).map (·.1))
    (code : Code) (u : Bool) : ∃ j' c' id, exec j c (.translate n code true u) = (j', c', .id id) := by
  have v := r.inv ok
  obtain ⟨hf, hs⟩ := opened_inv ok r
  have hs := hs ho
  have hany : (c.funcs.any fun f => f.1 == n) = false := by
    rw [List.any_eq_false]
    intro f h1 h2
    exact hn (List.mem_map.mpr ⟨f, hf f h1, by simpa using h2⟩)
  rcases translate_cases j c n code true u v.built with h1 | ⟨_, _, j1, c1, b, _, _, h1⟩
  · exfalso
    rw [Session.translate] at h1
    simp only [hs, hany, Bool.not_true] at h1
    cases u with
    | false =>
      have := congrArg (·.2.2) h1
      simp at this
    | true =>
      have := congrArg (·.2.2) h1
      simp at this
      split at this
      · rename_i m _
        by_cases hm : m = (if c.aot = true then (j, c) else ensureOrc j c).2.module <;> simp [hm] at this
      · cases this
  · exact ⟨_, _, _, h1⟩

/-! ## What goes wrong, and examples -/

/-- An empty process. -/
def jit0 : Jit := ⟨0, 0, 0, []⟩

theorem jit0_ok : jit0.Ok := ⟨fun _ h => (by cases h), fun _ h => (by cases h), fun _ h => (by cases h), List.nodup_nil⟩

instance decCareful : (h : History) → Decidable (Careful h)
  | [] => .isTrue trivial
  | (.jitFunction _ _ _, _) :: h => @instDecidableAnd _ _ _ (decCareful h)
  | (.freeFunction _, _) :: h => @instDecidableAnd _ _ _ (decCareful h)
  | (.translate _ _ _ _, _) :: h => decCareful h
  | (.writeObject _, _) :: h => decCareful h
  | (.clearIr, _) :: h => decCareful h
  | (.clear, _) :: h => decCareful h
  | (.takeTracker, _) :: h => decCareful h

/-- Runs calls from a new compiler. -/
def runOps (aot : Bool) (ops : List Op) : History × Jit × Comp :=
  ops.foldl (fun (h, j, c) op => let (j', c', r) := exec j c op; ((op, r) :: h, j', c')) ([], jit0, Comp.new aot)

theorem reach_runOps (aot : Bool) (ops : List Op) :
    Reach aot jit0 (runOps aot ops).1 (runOps aot ops).2.1 (runOps aot ops).2.2 := by
  suffices ∀ (ops : List Op) (h : History) (j : Jit) (c : Comp), Reach aot jit0 h j c →
      Reach aot jit0
        (ops.foldl (fun (h, j, c) op => let (j', c', r) := exec j c op; ((op, r) :: h, j', c')) (h, j, c)).1
        (ops.foldl (fun (h, j, c) op => let (j', c', r) := exec j c op; ((op, r) :: h, j', c')) (h, j, c)).2.1
        (ops.foldl (fun (h, j, c) op => let (j', c', r) := exec j c op; ((op, r) :: h, j', c')) (h, j, c)).2.2 from
    this ops _ _ _ .new
  intro ops
  induction ops with
  | nil => intro h j c r; exact r
  | cons op ops ih =>
    intro h j c r
    exact ih _ _ _ (.call r rfl)

/-- Contract 1 is compiled as `a` and stays loaded; contract 2 is translated under the same name, and
`jit_function` for it, called twice. -/
def retryOps : List Op :=
  [.translate ['a'] 1 true true, .jitFunction 0 true true, .clearIr,
   .translate ['a'] 2 true true, .jitFunction 1 true true, .jitFunction 1 true true]

/-- **The full claim is false**: the first `jit_function` reports the clash of names, the second returns
a pointer for contract 2 that runs contract 1. -/
theorem C61_pointer_fails : ¬ ∀ (aot : Bool) (j0 : Jit) (h : History) (j : Jit) (c : Comp), j0.Ok →
    Reach aot j0 h j c → ∀ id a code, Given h id a → j.codeAt a = some code → ∃ n g, Made h id n code g := by
  intro hall
  obtain ⟨n, g, hm⟩ := hall false jit0 _ _ _ jit0_ok (reach_runOps false retryOps) 1 0 1
    ⟨true, true, by decide⟩ (by decide)
  have v := (reach_runOps false retryOps).inv jit0_ok
  have h2 : Made (runOps false retryOps).1 1 ['a'] 2 1 := .inl (.inl (.inr ⟨true, true, rfl, rfl⟩))
  have := (v.one _ _ _ _ _ _ _ hm h2).2.1
  cases this

/-- Freeing that function instead touches a function of a module that was destroyed. -/
theorem C61_safe_fails : ∃ ops, (runOps false ops).1.head? = some (.freeFunction 1, .dangling) :=
  ⟨[.translate ['a'] 1 true true, .jitFunction 0 true true, .clearIr,
    .translate ['a'] 2 true true, .jitFunction 1 true true, .freeFunction 1], by decide⟩

/-- Freeing one of two functions of a module unloads the other as well. -/
theorem C61_free_fails : ∃ ops a, Given (runOps false ops).1 1 a ∧
    (∀ r, (Op.freeFunction 1, r) ∉ (runOps false ops).1) ∧ (runOps false ops).2.1.codeAt a = none :=
  ⟨[.translate ['a'] 1 true true, .translate ['b'] 2 true true, .jitFunction 0 true true,
    .jitFunction 1 true true, .freeFunction 0], 1, ⟨true, true, by decide⟩, by
      intro r hm
      have : (Op.freeFunction 1) ∈ (runOps false [.translate ['a'] 1 true true, .translate ['b'] 2 true true,
        .jitFunction 0 true true, .jitFunction 1 true true, .freeFunction 0]).1.map (·.1) :=
        List.mem_map.mpr ⟨_, hm, rfl⟩
      revert this
      decide, by decide⟩

/-- Two contracts compiled one after the other under different names; the first is then freed and its
name used again. -/
def sampleOps : List Op :=
  [.translate ['a'] 1 true true, .jitFunction 0 true true, .clearIr,
   .translate ['b'] 2 true false, .jitFunction 1 true true, .freeFunction 0, .clearIr,
   .translate ['a'] 3 true true, .jitFunction 2 true true]

example : Behaved (runOps false sampleOps).1 := .inl (by decide)

example : (runOps false sampleOps).1.map (·.2) =
    [.addr 2, .id 2, .done, .done, .addr 1, .id 1, .done, .addr 0, .id 0] := by decide

example : (runOps false sampleOps).2.1.codeAt 0 = none ∧ (runOps false sampleOps).2.1.codeAt 1 = some 2 ∧
    (runOps false sampleOps).2.1.codeAt 2 = some 3 := by decide

example : Distinct (runOps false (sampleOps.take 5)).1 := ⟨by decide, by decide, trivial⟩

/-- Freeing function 0 leaves function 1 of a later generation. -/
example : Made (runOps false (sampleOps.take 5)).1 0 ['a'] 1 0 ∧ Made (runOps false (sampleOps.take 5)).1 1 ['b'] 2 1 :=
  ⟨.inl (.inl (.inl (.inl (.inr ⟨true, true, rfl, rfl⟩)))), .inl (.inr ⟨true, false, rfl, rfl⟩)⟩

example : Alive (runOps false [.translate ['a'] 1 true true, .translate ['b'] 2 true true, .jitFunction 0 true true]).1 1 ['b'] 2 :=
  .inl ⟨rfl, rfl, rfl⟩

example : opened (runOps false (sampleOps.take 3)).1 = true ∧
    ['a'] ∉ (pendingFuncs (runOps false (sampleOps.take 3)).1).map (·.1) := by decide

example : sealed (runOps false (sampleOps.take 5)).1 = true := by decide

example : (exec (runOps true [.translate ['a'] 1 true true, .clearIr, .translate ['b'] 2 true true, .translate ['c'] 3 true true]).2.1
    (runOps true [.translate ['a'] 1 true true, .clearIr, .translate ['b'] 2 true true, .translate ['c'] 3 true true]).2.2
    (.writeObject true)).2.2 = .object [(['b'], 2), (['c'], 3)] := by decide

end Verif.Session
