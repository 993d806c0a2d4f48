import Verif.Lemmas.SessionGood
/-!
# Lemmas: sessions in which the caller behaves
-/

namespace Verif.Session

/-- Good unless a `jit_function` failed. -/
theorem Reach.good {aot : Bool} {j0 : Jit} (ok : j0.Ok) {h : History} {j : Jit} {c : Comp}
    (r : Reach aot j0 h j c) (hc : Careful h) : Right h j ∧ (failed h = false → Good h j c) := by
  induction r with
  | new => exact ⟨fun id a ⟨_, _, hm⟩ => (by cases hm), fun _ => good_new _ _⟩
  | @call h j c op j' c' r hr he ih =>
    have v := hr.inv ok
    cases op with
    | translate n code p u =>
      obtain ⟨h1, h2⟩ := ih hc
      refine ⟨h1.exec v he (fun _ _ _ _ h3 => by cases h3), fun hf => ?_⟩
      have := ((h2 hf).translate v n code p u).1
      rw [Session.exec] at he
      rw [he] at this
      exact this
    | jitFunction id o l =>
      obtain ⟨h1, h2⟩ := ih hc.2
      have hg : r ≠ .err → Good ((Op.jitFunction id o l, r) :: h) j' c' := fun hne =>
        (h2 hc.1).jitFunction v he (.inl hne)
      refine ⟨h1.exec v he (fun _ _ _ _ _ h4 => hg (by rw [h4]; simp)), fun hf => hg ?_⟩
      intro hre
      rw [hre] at hf
      cases hf
    | writeObject o =>
      obtain ⟨h1, h2⟩ := ih hc
      refine ⟨h1.exec v he (fun _ _ _ _ h3 => by cases h3), fun hf => ?_⟩
      cases he
      exact (h2 hf).writeObject o
    | freeFunction id =>
      obtain ⟨h1, h2⟩ := ih hc.2
      refine ⟨h1.exec v he (fun _ _ _ _ h3 => by cases h3), fun hf => ?_⟩
      have := ((h2 hc.1).freeFunction v id).1
      rw [Session.exec] at he
      rw [he] at this
      exact this
    | clearIr =>
      obtain ⟨h1, _⟩ := ih hc
      refine ⟨h1.exec v he (fun _ _ _ _ h3 => by cases h3), fun _ => ?_⟩
      cases he
      exact good_clearIr _ _ _
    | clear =>
      obtain ⟨h1, _⟩ := ih hc
      refine ⟨h1.exec v he (fun _ _ _ _ h3 => by cases h3), fun _ => ?_⟩
      cases he
      exact good_clear _ _ _ _
    | takeTracker =>
      obtain ⟨h1, h2⟩ := ih hc
      refine ⟨h1.exec v he (fun _ _ _ _ h3 => by cases h3), fun hf => ?_⟩
      cases he
      exact ((h2 hf).takeTracker v).quiet (quiet_take _)

/-- Names of the module and of what is loaded, when no name is used twice. -/
structure Fresh (h : History) (j : Jit) (c : Comp) : Prop where
  syms : ∀ o, c.orc = some o → ∀ s ∈ j.syms, s.dylib = o.dylib → s.name ∈ used h
  funcs : ∀ f ∈ c.funcs, f.1 ∈ used h
  apart : ∀ o, c.orc = some o → ∀ f ∈ c.funcs, j.defined o.dylib f.1 = false

theorem defined_eq {j j' : Jit} (h : j'.syms = j.syms) (d : Nat) (n : Name) : j'.defined d n = j.defined d n := by
  rw [Jit.defined, Jit.defined, h]

theorem defined_false {j : Jit} {d : Nat} {n : Name} (h : ∀ s ∈ j.syms, s.dylib = d → s.name ≠ n) :
    j.defined d n = false := by
  cases hd : j.defined d n with
  | false => rfl
  | true =>
    obtain ⟨s, hs, h1, h2⟩ := of_defined hd
    exact absurd h2 (h s hs h1)

theorem defined_sub {j j' : Jit} (h : ∀ s ∈ j'.syms, s ∈ j.syms) {d : Nat} {n : Name}
    (hd : j.defined d n = false) : j'.defined d n = false :=
  defined_false fun _ hs h1 => not_defined hd (h _ hs) h1

theorem Fresh.sub {h h' : History} {j j' : Jit} {c c' : Comp} (w : Fresh h j c) (hu : used h' = used h)
    (ho : ∀ o', c'.orc = some o' → ∃ o, c.orc = some o ∧ o.dylib = o'.dylib)
    (hs : ∀ s ∈ j'.syms, s ∈ j.syms) (hf : ∀ f ∈ c'.funcs, f ∈ c.funcs) : Fresh h' j' c' where
  syms o' h1 s h2 h3 := by
    obtain ⟨o, h4, h5⟩ := ho o' h1
    rw [hu]
    exact w.syms o h4 s (hs s h2) (h3.trans h5.symm)
  funcs f h1 := by rw [hu]; exact w.funcs f (hf f h1)
  apart o' h1 f h2 := by
    obtain ⟨o, h4, h5⟩ := ho o' h1
    rw [← h5]
    exact defined_sub hs (w.apart o h4 f (hf f h2))

theorem Fresh.jitFunction {h : History} {j j' : Jit} {c c' : Comp} {r : Res} (w : Fresh h j c) (v : Inv h j c)
    {id : Nat} {opt link : Bool} (he : Session.jitFunction j c id opt link = (j', c', r)) :
    Fresh ((.jitFunction id opt link, r) :: h) j' c' := by
  have hu : used ((Op.jitFunction id opt link, r) :: h) = used h := by cases r <;> rfl
  rcases jit_cases j c id opt link with h1 | ⟨ha, c0, j2, c2, ok, r2, hf, hc, h1, h2⟩
  · rw [h1] at he
    cases he
    exact w.sub hu (fun o h => ⟨o, h, rfl⟩) (fun _ h => h) (fun _ h => h)
  · rw [h1] at he
    cases he
    obtain ⟨f1, f2, f3⟩ := finalize_true hf
    have k := ensureOrc_keeps j c0
    obtain ⟨o, ho, hoo⟩ := k.2.2.2.2.2.2.2
    have hsyms : ∀ s ∈ j.syms, s.dylib = o.dylib → s.name ∈ used h := by
      intro s hs hd
      rcases hoo with hoo | ⟨_, _, hoo⟩
      · rw [f3] at hoo
        exact w.syms o hoo s hs hd
      · have := v.jit.dylib s hs
        omega
    have happ : ∀ f ∈ c.funcs, j.defined o.dylib f.1 = false := by
      intro f hf
      rcases hoo with hoo | ⟨_, _, hoo⟩
      · rw [f3] at hoo
        exact w.apart o hoo f hf
      · exact defined_false fun s hs hd => by have := v.jit.dylib s hs; omega
    have hfs : (ensureOrc j c0).2.funcs = c.funcs := by rw [k.2.2.2.1, f3]
    rcases commit_cases (j := (Session.ensureOrc j c0).1) ho (k.2.1.trans (f2.trans ha)) with
      ⟨_, h3⟩ | ⟨_, ⟨f, h4, h5⟩, _⟩ | ⟨_, _, h3⟩
    · rw [h3] at hc
      cases hc
      refine ⟨fun o' h4 s hs hd => ?_, fun f h4 => ?_, fun o' h4 f h5 => ?_⟩
      · rw [ho] at h4
        cases h4
        rw [hu]
        rw [k.2.2.2.2.2.1] at hs
        exact hsyms s hs hd
      · rw [hu]
        rw [hfs] at h4
        exact w.funcs f h4
      · rw [ho] at h4
        cases h4
        rw [hfs] at h5
        rw [defined_eq k.2.2.2.2.2.1]
        exact happ f h5
    · rw [hfs] at h4
      rw [defined_eq k.2.2.2.2.2.1, happ f h4] at h5
      cases h5
    · rw [h3] at hc
      cases hc
      refine ⟨fun o' h4 s hs hd => ?_, fun f h4 => (by cases h4), fun o' h4 f h5 => (by cases h5)⟩
      cases h4
      rw [hu]
      rcases List.mem_append.mp hs with hs | hs
      · rw [k.2.2.2.2.2.1] at hs
        exact hsyms s hs hd
      · have := (mem_place hs).2.2.2.2.2
        rw [hfs] at this
        exact w.funcs _ this

/-- With names that are not used twice no commit is ever lost. -/
theorem Reach.fresh {aot : Bool} {j0 : Jit} (ok : j0.Ok) {h : History} {j : Jit} {c : Comp}
    (r : Reach aot j0 h j c) (hc : Distinct h) : Right h j ∧ Good h j c ∧ Fresh h j c := by
  induction r with
  | new =>
    exact ⟨fun id a ⟨_, _, hm⟩ => (by cases hm), good_new _ _,
      ⟨fun _ h => (by cases h), fun _ h => (by cases h), fun _ h => (by cases h)⟩⟩
  | @call h j c op j' c' r hr he ih =>
    have v := hr.inv ok
    cases op with
    | translate n code p u =>
      have hc' : Distinct h := by
        cases r with
        | id i => exact hc.2
        | _ => exact hc
      obtain ⟨h1, h2, h3⟩ := ih hc'
      have hgd := (h2.translate v n code p u).1
      refine ⟨h1.exec v he (fun _ _ _ _ h3 => by cases h3), ?_, ?_⟩
      · rw [Session.exec] at he
        rw [he] at hgd
        exact hgd
      · rw [Session.exec] at he
        rcases translate_cases j c n code p u v.built with k | ⟨hf, hn, j1, c1, b, k1, hb, k⟩
        · rw [k] at he
          cases he
          exact h3.sub rfl (fun o h => ⟨o, h, rfl⟩) (fun _ h => h) (fun _ h => h)
        · rw [k] at he
          cases he
          have hnu : n ∉ used h := hc.1
          have hj : j'.syms = j.syms := by
            cases ha : c.aot with
            | true => simp [ha] at k1; rw [k1.1]
            | false =>
              simp [ha] at k1
              have q := ensureOrc_keeps j c
              rw [← k1] at q
              exact q.2.2.2.2.2.1
          have ho : ∀ o, c1.orc = some o → c.orc = some o ∨ o.dylib = j.nextDylib := by
            intro o ho
            cases ha : c.aot with
            | true => simp [ha] at k1; rw [k1.2] at ho; exact .inl ho
            | false =>
              simp [ha] at k1
              have q := ensureOrc_keeps j c
              rw [← k1] at q
              obtain ⟨o2, q1, q2⟩ := q.2.2.2.2.2.2.2
              simp only at q1
              rw [q1] at ho
              cases ho
              rcases q2 with q2 | ⟨_, _, q2⟩
              · exact .inl q2
              · exact .inr q2
          have hsy : ∀ o, c1.orc = some o → ∀ s ∈ j.syms, s.dylib = o.dylib → s.name ∈ used h := by
            intro o h4 s hs hd
            rcases ho o h4 with h5 | h5
            · exact h3.syms o h5 s hs hd
            · have := v.jit.dylib s hs; omega
          have hap : ∀ o, c1.orc = some o → ∀ f ∈ c.funcs, j.defined o.dylib f.1 = false := by
            intro o h4 f hf
            rcases ho o h4 with h5 | h5
            · exact h3.apart o h5 f hf
            · exact defined_false fun s hs hd => by have := v.jit.dylib s hs; omega
          have hor : ∀ o', (c1.orc.map fun o => { o with staged := o.staged.insert c.counter ⟨c.module, n⟩ }) = some o' →
              ∃ o, c1.orc = some o ∧ o.dylib = o'.dylib := by
            intro o' h4
            cases h5 : c1.orc with
            | none => simp [h5] at h4
            | some o => simp [h5] at h4; exact ⟨o, rfl, by rw [← h4]⟩
          refine ⟨fun o' h4 s hs hd => ?_, fun f h4 => ?_, fun o' h4 f h5 => ?_⟩
          · obtain ⟨o, h6, h7⟩ := hor o' h4
            rw [hj] at hs
            exact List.mem_cons_of_mem _ (hsy o h6 s hs (hd.trans h7.symm))
          · rcases List.mem_append.mp h4 with h4 | h4
            · exact List.mem_cons_of_mem _ (h3.funcs f h4)
            · rw [List.mem_singleton] at h4
              rw [h4]
              exact List.mem_cons_self
          · obtain ⟨o, h6, h7⟩ := hor o' h4
            rw [← h7, defined_eq hj]
            rcases List.mem_append.mp h5 with h5 | h5
            · exact hap o h6 f h5
            · rw [List.mem_singleton] at h5
              rw [h5]
              exact defined_false fun s hs hd hsn => hnu (by have := hsy o h6 s hs hd; rw [hsn] at this; exact this)
    | jitFunction id o l =>
      obtain ⟨h1, h2, h3⟩ := ih hc
      have hg : Good ((Op.jitFunction id o l, r) :: h) j' c' := h2.jitFunction v he (.inr h3.apart)
      exact ⟨h1.exec v he (fun _ _ _ _ _ _ => hg), hg, h3.jitFunction v he⟩
    | writeObject o =>
      obtain ⟨h1, h2, h3⟩ := ih hc
      refine ⟨h1.exec v he (fun _ _ _ _ h3 => by cases h3), ?_, ?_⟩
      · cases he
        exact h2.writeObject o
      · cases he
        have hq : (Session.writeObject c o).1.orc = c.orc ∧ (Session.writeObject c o).1.funcs = c.funcs := by
          rw [Session.writeObject, Session.finalize]
          cases c.finalized <;> cases o <;> exact ⟨rfl, rfl⟩
        refine h3.sub rfl (fun o' h4 => ⟨o', ?_, rfl⟩) (fun _ h => h) (fun f h4 => ?_)
        · rw [← hq.1]; exact h4
        · rw [← hq.2]; exact h4
    | freeFunction id =>
      obtain ⟨h1, h2, h3⟩ := ih hc
      have hgd := (h2.freeFunction v id).1
      refine ⟨h1.exec v he (fun _ _ _ _ h3 => by cases h3), ?_, ?_⟩
      · rw [Session.exec] at he
        rw [he] at hgd
        exact hgd
      · have hs := free_syms j c id
        rw [Session.exec] at he
        rw [he] at hs
        have hu : used ((Op.freeFunction id, r) :: h) = used h := by cases r <;> rfl
        rcases free_cases j c id with ⟨_, k⟩ | ⟨o, ho, ⟨f, _, _, k⟩ | ⟨funcs, hfs, ⟨_, k⟩ | ⟨i, _, ⟨_, k⟩ | ⟨t, _, k⟩⟩⟩⟩
        · rw [k] at he; cases he
          exact h3.sub hu (fun o h => ⟨o, h, rfl⟩) hs (fun _ h => h)
        · rw [k] at he; cases he
          exact h3.sub hu (fun o h => ⟨o, h, rfl⟩) hs (fun _ h => h)
        · rw [k] at he; cases he
          refine h3.sub hu (fun o' h => by cases h; exact ⟨o, ho, rfl⟩) hs (fun f h => ?_)
          rcases hfs with ⟨_, rfl⟩ | ⟨_, _, _, rfl⟩
          · exact h
          · exact (List.mem_filter.mp h).1
        · rw [k] at he; cases he
          exact h3.sub hu (fun o h => ⟨o, h, rfl⟩) hs (fun _ h => h)
        · rw [k] at he; cases he
          refine h3.sub hu (fun o' h => by cases h; exact ⟨o, ho, rfl⟩) hs (fun f h => ?_)
          rcases hfs with ⟨_, rfl⟩ | ⟨_, _, _, rfl⟩
          · exact h
          · exact (List.mem_filter.mp h).1
    | clearIr =>
      obtain ⟨h1, _, h3⟩ := ih hc
      refine ⟨h1.exec v he (fun _ _ _ _ h3 => by cases h3), ?_, ?_⟩
      · cases he
        exact good_clearIr _ _ _
      · cases he
        refine h3.sub rfl (fun o' h4 => ?_) (fun _ h => h) (fun f h4 => by cases h4)
        cases h5 : c.orc with
        | none => simp [clearIr, h5] at h4
        | some o => simp [clearIr, h5] at h4; exact ⟨o, rfl, by rw [← h4]⟩
    | clear =>
      obtain ⟨h1, _, h3⟩ := ih hc
      refine ⟨h1.exec v he (fun _ _ _ _ h3 => by cases h3), ?_, ?_⟩
      · cases he
        exact good_clear _ _ _ _
      · cases he
        refine ⟨fun o' h4 s hs hd => ?_, fun f h4 => (by cases h4), fun o' h4 f h5 => (by cases h5)⟩
        exfalso
        cases h5 : c.orc with
        | none => simp [clear, h5] at h4
        | some o =>
          simp [clear, h5] at h4
          simp only [clear, h5, Jit.clearDylib] at hs
          have := (List.mem_filter.mp hs).2
          simp at this
          rw [← h4] at hd
          exact this hd
    | takeTracker =>
      obtain ⟨h1, h2, h3⟩ := ih hc
      refine ⟨h1.exec v he (fun _ _ _ _ h3 => by cases h3), ?_, ?_⟩
      · cases he
        exact (h2.takeTracker v).quiet (quiet_take _)
      · cases he
        have hq : (Session.takeTracker c).1.funcs = c.funcs ∧
            ∀ o', (Session.takeTracker c).1.orc = some o' → ∃ o, c.orc = some o ∧ o.dylib = o'.dylib := by
          cases h5 : c.orc with
          | none =>
            have e : Session.takeTracker c = (c, none) := by simp only [Session.takeTracker, h5]
            rw [e]
            exact ⟨rfl, fun o' h6 => by rw [h5] at h6; cases h6⟩
          | some o =>
            cases h6 : o.trackers.getLast? with
            | none =>
              have e : Session.takeTracker c = (c, none) := by simp only [Session.takeTracker, h5, h6]
              rw [e]
              exact ⟨rfl, fun o' h7 => by rw [h5] at h7; cases h7; exact ⟨_, rfl, rfl⟩⟩
            | some t =>
              simp only [Session.takeTracker, h5, h6]
              exact ⟨trivial, fun o' h7 => by cases h7; exact ⟨o, rfl, rfl⟩⟩
        exact h3.sub rfl hq.2 (fun _ h => h) (fun f h => by rw [← hq.1]; exact h)

/-! ## Functions waiting to be compiled -/

theorem Alive.made {h : History} {id : Nat} {n : Name} {code : Code} (ha : Alive h id n code) :
    Made h id n code (gen h) := by
  induction h with
  | nil => cases ha
  | cons e h ih =>
    obtain ⟨op, r⟩ := e
    cases op with
    | translate n' code' p u =>
      cases r with
      | id i =>
        rcases ha with ⟨rfl, rfl, rfl⟩ | ha
        · exact .inr ⟨p, u, rfl, rfl⟩
        · exact .inl (ih ha)
      | _ => exact .inl (ih ha)
    | clear => cases ha
    | clearIr => cases ha
    | freeFunction _ => cases ha
    | _ => exact .inl (ih (by cases r <;> exact ha))

/-- An alive function is staged or loaded. -/
def Waiting (h : History) (j : Jit) (c : Comp) : Prop :=
  ∀ id n code, Alive h id n code → c.names.get id = some n ∧ ∃ o, c.orc = some o ∧
    ((o.staged ≠ [] ∧ (n, code) ∈ c.funcs) ∨ j.defined o.dylib n = true)

theorem defined_of {j : Jit} {d : Nat} {n : Name} {s : Sym} (hs : s ∈ j.syms) (h1 : s.dylib = d)
    (h2 : s.name = n) : j.defined d n = true := by
  rw [Jit.defined, List.any_eq_true]
  exact ⟨s, hs, by simp [h1, h2]⟩

theorem lookup_of {j : Jit} {d : Nat} {n : Name} (h : j.defined d n = true) : ∃ a, j.lookup d n = some a := by
  obtain ⟨s, hs, h1, h2⟩ := of_defined h
  rw [Jit.lookup]
  cases hf : j.syms.find? fun s => s.dylib == d && s.name == n with
  | none =>
    rw [List.find?_eq_none] at hf
    exact absurd (by simp [h1, h2]) (hf s hs)
  | some s => exact ⟨_, rfl⟩

theorem insert_ne {m : AMap Nat FnRef} {k : Nat} {f : FnRef} : m.insert k f ≠ [] := by
  intro h
  have := AMap.get_insert m k k f
  rw [h, if_pos rfl] at this
  cases this

/-- What compiling leaves: everything alive is loaded. -/
theorem Waiting.commit {h : History} {j j2 : Jit} {c c2 : Comp} {ok : Bool} (w : Waiting h j c)
    (x : Fresh h j c) (v : Inv h j c) (ha : c.aot = false) {opt : Bool} {c0 : Comp} (hf : finalize c opt = (c0, true))
    (hc : Session.commit (Session.ensureOrc j c0).1 (Session.ensureOrc j c0).2 = (j2, c2, ok)) :
    ok = true ∧ ∀ id n code, Alive h id n code → c2.names.get id = some n ∧ ∃ o, c2.orc = some o ∧
      j2.defined o.dylib n = true := by
  obtain ⟨f1, f2, f3⟩ := finalize_true hf
  have k := ensureOrc_keeps j c0
  obtain ⟨o, ho, hoo⟩ := k.2.2.2.2.2.2.2
  have hfs : (Session.ensureOrc j c0).2.funcs = c.funcs := by rw [k.2.2.2.1, f3]
  have hns : (Session.ensureOrc j c0).2.names = c.names := by rw [k.2.2.1, f3]
  have hap : ∀ f ∈ c.funcs, (Session.ensureOrc j c0).1.defined o.dylib f.1 = false := by
    intro f hf
    rw [defined_eq k.2.2.2.2.2.1]
    rcases hoo with hoo | ⟨_, _, hoo⟩
    · rw [f3] at hoo
      exact x.apart o hoo f hf
    · exact defined_false fun s hs hd => by have := v.jit.dylib s hs; omega
  have hw : ∀ id n code, Alive h id n code → c.names.get id = some n ∧
      ((o.staged ≠ [] ∧ (n, code) ∈ c.funcs) ∨ j.defined o.dylib n = true) := by
    intro id n code hal
    obtain ⟨h1, o2, h2, h3⟩ := w id n code hal
    refine ⟨h1, ?_⟩
    rcases hoo with hoo | ⟨hoo, _, _⟩
    · rw [f3] at hoo
      change c.orc = some o at hoo
      rw [h2] at hoo
      cases hoo
      exact h3
    · rw [f3] at hoo
      change c.orc = none at hoo
      rw [h2] at hoo
      cases hoo
  rcases commit_cases (j := (Session.ensureOrc j c0).1) ho (k.2.1.trans (f2.trans ha)) with
    ⟨hst, h3⟩ | ⟨_, ⟨f, h4, h5⟩, _⟩ | ⟨_, _, h3⟩
  · rw [h3] at hc
    cases hc
    refine ⟨rfl, fun id n code hal => ?_⟩
    obtain ⟨h1, h2⟩ := hw id n code hal
    refine ⟨by rw [hns]; exact h1, o, ho, ?_⟩
    rw [defined_eq k.2.2.2.2.2.1]
    rcases h2 with ⟨h2, _⟩ | h2
    · exact absurd hst h2
    · exact h2
  · rw [hfs] at h4
    rw [hap f h4] at h5
    cases h5
  · rw [h3] at hc
    cases hc
    refine ⟨rfl, fun id n code hal => ?_⟩
    obtain ⟨h1, h2⟩ := hw id n code hal
    refine ⟨by rw [← hns] at h1; exact h1, _, rfl, ?_⟩
    rcases h2 with ⟨_, h2⟩ | h2
    · rw [← hfs] at h2
      obtain ⟨s, hs, hsn⟩ := exists_place o.dylib (Session.ensureOrc j c0).1.nextTracker
        (Session.ensureOrc j c0).2.clears _ (Session.ensureOrc j c0).1.nextAddr _ h2
      exact defined_of (List.mem_append_right _ hs) (mem_place hs).1 hsn
    · obtain ⟨s, hs, hd, hsn⟩ := of_defined h2
      exact defined_of (List.mem_append_left _ (by rw [k.2.2.2.2.2.1]; exact hs)) hd hsn

theorem Reach.waiting {j0 : Jit} (ok : j0.Ok) {h : History} {j : Jit} {c : Comp}
    (r : Reach false j0 h j c) (hd : Distinct h) : c.aot = false ∧ Waiting h j c := by
  induction r with
  | new => exact ⟨rfl, fun _ _ _ h => (by cases h)⟩
  | @call h j c op j' c' res hr he ih =>
    have v := hr.inv ok
    cases op with
    | translate n code p u =>
      have hd' : Distinct h := by
        cases res with
        | id i => exact hd.2
        | _ => exact hd
      obtain ⟨ha, w⟩ := ih hd'
      rw [Session.exec] at he
      rcases translate_cases j c n code p u v.built with h1 | ⟨hfi, hn, j1, c1, b, h2, hb, h1⟩
      · rw [h1] at he; cases he; exact ⟨ha, w⟩
      · rw [h1] at he
        cases he
        simp [ha] at h2
        have k := ensureOrc_keeps j c
        rw [← h2] at k
        obtain ⟨k1, k2, k3, k4, k5, k6, k7, o, ho, hoo⟩ := k
        simp only at k1 k2 k3 k4 k5 k6 ho
        refine ⟨k2.trans ha, fun id n' code' hal => ?_⟩
        simp only [ho, Option.map_some]
        rcases hal with ⟨rfl, rfl, rfl⟩ | hal
        · exact ⟨by rw [AMap.get_insert, if_pos rfl], _, rfl, .inl ⟨insert_ne, List.mem_append_right _ (List.mem_singleton.mpr rfl)⟩⟩
        · obtain ⟨h3, o2, h4, h5⟩ := w id n' code' hal
          have hne : id ≠ c.counter := by
            have := v.ids _ _ _ _ hal.made
            omega
          refine ⟨by rw [AMap.get_insert, if_neg hne]; exact h3, _, rfl, ?_⟩
          have : o2 = o := by
            rcases hoo with hoo | ⟨hoo, _⟩
            · rw [h4] at hoo; cases hoo; rfl
            · rw [h4] at hoo; cases hoo
          subst this
          rcases h5 with ⟨_, h5⟩ | h5
          · exact .inl ⟨insert_ne, List.mem_append_left _ h5⟩
          · right
            show j'.defined _ _ = true
            rw [defined_eq k6]
            exact h5
    | jitFunction id o l =>
      obtain ⟨ha, w⟩ := ih hd
      rw [Session.exec] at he
      have hal : ∀ i n code, Alive ((Op.jitFunction id o l, res) :: h) i n code → Alive h i n code := by
        intro i n code h; cases res <;> exact h
      rcases jit_cases j c id o l with h3 | ⟨_, c0, j2, c2, ok2, r2, hf, hc, h3, h4⟩
      · rw [h3] at he; cases he; exact ⟨ha, fun i n code h => w i n code (hal i n code h)⟩
      · rw [h3] at he
        cases he
        have := (w.commit (hr.fresh ok hd).2.2 v ha hf hc).2
        refine ⟨?_, fun i n code h => ?_⟩
        · obtain ⟨f1, f2, f3⟩ := finalize_true hf
          have k := ensureOrc_keeps j c0
          obtain ⟨o3, ho3, _⟩ := k.2.2.2.2.2.2.2
          rcases commit_cases (j := (Session.ensureOrc j c0).1) ho3 (k.2.1.trans (f2.trans ha)) with
            ⟨_, h6⟩ | ⟨_, _, h6⟩ | ⟨_, _, h6⟩ <;> (rw [h6] at hc; cases hc; exact k.2.1.trans (f2.trans ha))
        · obtain ⟨h5, o, h6, h7⟩ := this i n code (hal i n code h)
          exact ⟨h5, o, h6, .inr h7⟩
    | writeObject o =>
      obtain ⟨ha, w⟩ := ih hd
      cases he
      have hq : (Session.writeObject c o).1.orc = c.orc ∧ (Session.writeObject c o).1.funcs = c.funcs ∧
          (Session.writeObject c o).1.aot = c.aot ∧ (Session.writeObject c o).1.names = c.names := by
        rw [Session.writeObject, Session.finalize]
        cases c.finalized <;> cases o <;> exact ⟨rfl, rfl, rfl, rfl⟩
      refine ⟨hq.2.2.1.trans ha, fun i n code h => ?_⟩
      rw [hq.1, hq.2.1, hq.2.2.2]
      exact w i n code (by revert h; cases (Session.writeObject c o).2 <;> exact id)
    | freeFunction id =>
      obtain ⟨ha, w⟩ := ih hd
      rw [Session.exec] at he
      refine ⟨?_, fun i n code h => by cases res <;> cases h⟩
      rcases free_cases j c id with ⟨_, k⟩ | ⟨o, ho, ⟨f, _, _, k⟩ | ⟨funcs, hfs, ⟨_, k⟩ | ⟨i, _, ⟨_, k⟩ | ⟨t, _, k⟩⟩⟩⟩ <;>
        (rw [k] at he; cases he; exact ha)
    | clearIr => cases he; exact ⟨(ih hd).1, fun i n code h => by cases h⟩
    | clear => cases he; exact ⟨(ih hd).1, fun i n code h => by cases h⟩
    | takeTracker =>
      obtain ⟨ha, w⟩ := ih hd
      cases he
      cases h5 : c.orc with
      | none =>
        have e : Session.takeTracker c = (c, none) := by simp only [Session.takeTracker, h5]
        rw [e]
        exact ⟨ha, w⟩
      | some o =>
        cases h6 : o.trackers.getLast? with
        | none =>
          have e : Session.takeTracker c = (c, none) := by simp only [Session.takeTracker, h5, h6]
          rw [e]
          exact ⟨ha, w⟩
        | some t =>
          simp only [Session.takeTracker, h5, h6]
          refine ⟨ha, fun i n code h => ?_⟩
          obtain ⟨h1, o2, h2, h3⟩ := w i n code h
          rw [h5] at h2
          cases h2
          exact ⟨h1, _, rfl, h3⟩

end Verif.Session
