import Verif.Lemmas.Session
/-!
# Lemmas: what holds in every compiler session
-/

namespace Verif.Session

/-- The part about the loaded functions. -/
structure OrcInv (h : History) (j : Jit) (o : Orc) : Prop where
  dylib : o.dylib < j.nextDylib
  commNd : o.committed.Nodup
  trackNd : o.trackers.Nodup
  trackLt : ∀ t ∈ o.trackers, t < j.nextTracker
  commLt : ∀ id i, o.committed.get id = some i → i < o.trackers.length
  commMade : ∀ id i, o.committed.get id = some i → ∃ n code g, Made h id n code g
  stagedGen : ∀ id f, o.staged.get id = some f → ∃ n code, Made h id n code (gen h)
  group : ∀ s ∈ j.syms, ∀ id i, o.committed.get id = some i → o.trackers[i]? = some s.tracker →
    ∃ n code, Made h id n code s.gen

/-- What holds in every session. -/
structure Inv (h : History) (j : Jit) (c : Comp) : Prop where
  jit : j.Ok
  clears : c.clears = gen h
  ids : ∀ id n code g, Made h id n code g → id < c.counter
  one : ∀ id n code g n' code' g', Made h id n code g → Made h id n' code' g' →
    n = n' ∧ code = code' ∧ g = g'
  named : ∀ id n, c.names.get id = some n → ∃ code, Made h id n code (gen h)
  namesNd : c.names.Nodup
  built : ∀ m, c.builtins = some m → m = c.module ∨ c.finalized = true
  aotOrc : c.aot = true → c.orc = none
  noOrc : c.orc = none → c.aot = true ∨ (c.names = [] ∧ c.funcs = [])
  orcs : ∀ o, c.orc = some o → OrcInv h j o
  given : ∀ id a, Given h id a → a < j.nextAddr

theorem OrcInv.quiet {h : History} {j : Jit} {o : Orc} (v : OrcInv h j o) {e : Op × Res} (q : Quiet e) :
    OrcInv (e :: h) j o where
  dylib := v.dylib
  commNd := v.commNd
  trackNd := v.trackNd
  trackLt := v.trackLt
  commLt := v.commLt
  commMade id i hi := by
    obtain ⟨n, code, g, hm⟩ := v.commMade id i hi
    exact ⟨n, code, g, (q.made_iff _ _ _ _ _).mpr hm⟩
  stagedGen id f hf := by
    obtain ⟨n, code, hm⟩ := v.stagedGen id f hf
    rw [q.gen]
    exact ⟨n, code, (q.made_iff _ _ _ _ _).mpr hm⟩
  group s hs id i h1 h2 := by
    obtain ⟨n, code, hm⟩ := v.group s hs id i h1 h2
    exact ⟨n, code, (q.made_iff _ _ _ _ _).mpr hm⟩

theorem Inv.quiet {h : History} {j : Jit} {c : Comp} (v : Inv h j c) {e : Op × Res} (q : Quiet e)
    (hg : ∀ id o l a, e = (.jitFunction id o l, .addr a) → a < j.nextAddr) : Inv (e :: h) j c where
  jit := v.jit
  clears := by rw [q.gen, v.clears]
  ids id n code g hm := v.ids id n code g ((q.made_iff _ _ _ _ _).mp hm)
  one id n code g n' code' g' h1 h2 :=
    v.one id n code g n' code' g' ((q.made_iff _ _ _ _ _).mp h1) ((q.made_iff _ _ _ _ _).mp h2)
  named id n hn := by
    obtain ⟨code, hm⟩ := v.named id n hn
    rw [q.gen]
    exact ⟨code, (q.made_iff _ _ _ _ _).mpr hm⟩
  namesNd := v.namesNd
  built := v.built
  aotOrc := v.aotOrc
  noOrc := v.noOrc
  orcs o ho := (v.orcs o ho).quiet q
  given id a := by
    rintro ⟨o, l, hm⟩
    rcases List.mem_cons.mp hm with he | hm
    · exact hg id o l a he.symm
    · exact v.given id a ⟨o, l, hm⟩

/-! ## The phases -/

theorem Inv.finalize {h : History} {j : Jit} {c : Comp} (v : Inv h j c) (opt : Bool) :
    Inv h j (finalize c opt).1 := by
  rw [Session.finalize]
  cases hf : c.finalized with
  | true => exact v
  | false =>
    cases opt with
    | false => exact v
    | true =>
      exact { v with built := fun _ _ => Or.inr rfl }

theorem Jit.Ok.dylibs {j : Jit} (ok : j.Ok) : Jit.Ok { j with nextDylib := j.nextDylib + 1 } where
  dylib s hs := Nat.lt_succ_of_lt (ok.dylib s hs)
  tracker := ok.tracker
  addr := ok.addr
  addrs := ok.addrs

theorem Inv.ensureOrc {h : History} {j : Jit} {c : Comp} (v : Inv h j c) (ha : c.aot = false) :
    Inv h (ensureOrc j c).1 (ensureOrc j c).2 := by
  rw [Session.ensureOrc]
  cases ho : c.orc with
  | some o => simpa only [ho] using v
  | none =>
    simp only
    exact { v with
      jit := v.jit.dylibs
      aotOrc := fun h1 => by rw [ha] at h1; cases h1
      noOrc := fun h1 => by cases h1
      orcs := fun o h1 => by
        cases h1
        exact {
          dylib := Nat.lt_succ_self _
          commNd := AMap.nodup_nil
          trackNd := List.nodup_nil
          trackLt := fun t ht => by cases ht
          commLt := fun id i h1 => by cases h1
          commMade := fun id i h1 => by cases h1
          stagedGen := fun id f h1 => by cases h1
          group := fun s hs id i h1 => by cases h1 } }

theorem mem_keys_of_get {α : Type} {m : AMap Nat α} {k : Nat} (h : k ∈ m.keys) : ∃ v, m.get k = some v :=
  (AMap.mem_keys_iff m k).mp h

/-- What committing does, when it does something. -/
theorem commit_cases {j : Jit} {c : Comp} {o : Orc} (ho : c.orc = some o) (ha : c.aot = false) :
    (o.staged = [] ∧ commit j c = (j, c, true)) ∨
    (o.staged ≠ [] ∧ (∃ f ∈ c.funcs, j.defined o.dylib f.1 = true) ∧
      commit j c = ({ j with nextTracker := j.nextTracker + 1 }, { c with module := c.module + 1, funcs := [] }, false)) ∨
    (o.staged ≠ [] ∧ (∀ f ∈ c.funcs, j.defined o.dylib f.1 = false) ∧
      commit j c = ({ j with
          nextTracker := j.nextTracker + 1
          nextAddr := j.nextAddr + c.funcs.length
          syms := j.syms ++ Jit.place o.dylib j.nextTracker c.clears j.nextAddr c.funcs },
        { c with
          module := c.module + 1
          funcs := []
          orc := some { o with
            committed := o.staged.keys.foldl (fun m id => m.insert id o.trackers.length) o.committed
            trackers := o.trackers ++ [j.nextTracker]
            staged := [] } }, true)) := by
  cases hs : o.staged with
  | nil =>
    left
    refine ⟨rfl, ?_⟩
    rw [commit]
    simp only [ho, ha, hs, List.isEmpty_nil, Bool.or_true, if_true]
  | cons x r =>
    right
    have hne : o.staged.isEmpty = false := by rw [hs]; rfl
    cases hd : c.funcs.any fun f => Jit.defined { j with nextTracker := j.nextTracker + 1 } o.dylib f.1 with
    | true =>
      left
      refine ⟨by simp, ?_, ?_⟩
      · rw [List.any_eq_true] at hd
        exact hd
      · rw [commit]
        simp only [ho, ha, hne, Bool.or_false, Jit.add, hd, if_true]
        rfl
    | false =>
      right
      refine ⟨by simp, ?_, ?_⟩
      · rw [List.any_eq_false] at hd
        intro f hf
        have := hd f hf
        rw [Bool.not_eq_true] at this
        exact this
      · rw [commit]
        simp only [ho, ha, hne, Bool.or_false, Jit.add, hd]
        rw [← hs]
        rfl

theorem Inv.commit {h : History} {j : Jit} {c : Comp} (v : Inv h j c) (hfin : c.finalized = true)
    (ha : c.aot = false) :
    Inv h (commit j c).1 (commit j c).2.1 := by
  cases ho : c.orc with
  | none => rw [Session.commit]; simpa only [ho] using v
  | some o =>
    have w := v.orcs o ho
    rcases commit_cases (j := j) ho ha with ⟨_, hc⟩ | ⟨_, _, hc⟩ | ⟨hne, hnd, hc⟩
    · rw [hc]; exact v
    · rw [hc]
      exact { v with
        jit := ⟨v.jit.dylib, fun s hs => Nat.lt_succ_of_lt (v.jit.tracker s hs), v.jit.addr, v.jit.addrs⟩
        built := fun _ _ => Or.inr hfin
        noOrc := fun h1 => by rw [ho] at h1; cases h1
        orcs := fun o' ho' => by
          have w' := v.orcs o' ho'
          exact { w' with trackLt := fun t ht => Nat.lt_succ_of_lt (w'.trackLt t ht) } }
    · rw [hc]
      have hj : Jit.Ok { j with nextTracker := j.nextTracker + 1 } :=
        ⟨v.jit.dylib, fun s hs => Nat.lt_succ_of_lt (v.jit.tracker s hs), v.jit.addr, v.jit.addrs⟩
      exact { v with
        jit := by
          refine hj.add (d := o.dylib) (t := j.nextTracker) (g := c.clears) (fs := c.funcs) w.dylib
            (Nat.lt_succ_self _) ?_
          rw [Jit.add, if_neg]
          rw [List.any_eq_true]
          rintro ⟨f, hf, hd⟩
          change j.defined o.dylib f.1 = true at hd
          rw [hnd f hf] at hd
          cases hd
        built := fun _ _ => Or.inr hfin
        aotOrc := fun h1 => by simp only at h1; rw [ha] at h1; cases h1
        noOrc := fun h1 => by cases h1
        given := fun id a hg => Nat.lt_of_lt_of_le (v.given id a hg) (Nat.le_add_right _ _)
        orcs := fun o' ho' => by
          cases ho'
          have hlt : ∀ t ∈ o.trackers, t ≠ j.nextTracker := fun t ht => Nat.ne_of_lt (w.trackLt t ht)
          exact {
            dylib := w.dylib
            commNd := nodup_foldl_insert _ _ w.commNd
            trackNd := by
              rw [List.nodup_append]
              refine ⟨w.trackNd, by simp, ?_⟩
              intro t ht t' ht'
              rw [List.mem_singleton] at ht'
              rw [ht']
              exact hlt t ht
            trackLt := fun t ht => by
              rcases List.mem_append.mp ht with ht | ht
              · exact Nat.lt_succ_of_lt (w.trackLt t ht)
              · rw [List.mem_singleton] at ht
                rw [ht]
                exact Nat.lt_succ_self _
            commLt := fun id i hg => by
              rw [get_foldl_insert] at hg
              simp only [List.length_append, List.length_singleton]
              by_cases hk : id ∈ o.staged.keys
              · simp [hk] at hg; omega
              · simp [hk] at hg; have := w.commLt id i hg; omega
            commMade := fun id i hg => by
              rw [get_foldl_insert] at hg
              by_cases hk : id ∈ o.staged.keys
              · obtain ⟨f, hf⟩ := mem_keys_of_get hk
                obtain ⟨n, code, hm⟩ := w.stagedGen id f hf
                exact ⟨n, code, _, hm⟩
              · simp [hk] at hg
                exact w.commMade id i hg
            stagedGen := fun id f hf => by cases hf
            group := fun s hs id i hg ht => by
              rw [get_foldl_insert] at hg
              by_cases hk : id ∈ o.staged.keys
              · simp [hk] at hg
                subst hg
                simp at ht
                obtain ⟨f, hf⟩ := mem_keys_of_get hk
                rcases List.mem_append.mp hs with hs | hs
                · have := v.jit.tracker s hs; omega
                · rw [(mem_place hs).2.2.1, v.clears]
                  exact w.stagedGen id f hf
              · simp [hk] at hg
                have hi := w.commLt id i hg
                simp only at ht
                rw [List.getElem?_append_left hi] at ht
                rcases List.mem_append.mp hs with hs | hs
                · exact w.group s hs id i hg ht
                · rw [(mem_place hs).2.1] at ht
                  exact absurd rfl (hlt _ (List.mem_of_getElem? ht)) } }

/-! ## Whole calls -/

/-- What translating does. -/
theorem translate_cases (j : Jit) (c : Comp) (n : Name) (code : Code) (parsed uses : Bool)
    (hb : ∀ m, c.builtins = some m → m = c.module ∨ c.finalized = true) :
    translate j c n code parsed uses = (j, c, .err) ∨
    (c.finalized = false ∧ (∀ f ∈ c.funcs, f.1 ≠ n) ∧
      ∃ j1 c1 b, (j1, c1) = (if c.aot then (j, c) else ensureOrc j c) ∧
        (∀ m, b = some m → m = c.module) ∧
        translate j c n code parsed uses = (j1, { c1 with
          funcs := c.funcs ++ [(n, code)]
          counter := c.counter + 1
          names := c.names.insert c.counter n
          builtins := b
          orc := c1.orc.map fun o => { o with staged := o.staged.insert c.counter ⟨c.module, n⟩ } },
          .id c.counter)) := by
  cases hf : c.finalized with
  | true => left; rw [translate]; simp only [hf, if_true]
  | false =>
    cases parsed with
    | false => left; rw [translate]; simp [hf]
    | true =>
      cases hn : c.funcs.any fun f => f.1 == n with
      | true => left; rw [translate]; simp [hf, hn]
      | false =>
        right
        refine ⟨rfl, ?_, ?_⟩
        · rw [List.any_eq_false] at hn
          intro f hf he
          exact hn f hf (by simp [he])
        · have hc1 : ∀ j1 c1, (j1, c1) = (if c.aot then (j, c) else ensureOrc j c) →
              c1.funcs = c.funcs ∧ c1.counter = c.counter ∧ c1.names = c.names ∧ c1.builtins = c.builtins ∧
              c1.module = c.module := by
            intro j1 c1 h1
            cases ha : c.aot with
            | true => simp [ha] at h1; rw [h1.2]; exact ⟨rfl, rfl, rfl, rfl, rfl⟩
            | false =>
              simp [ha] at h1
              rw [ensureOrc] at h1
              cases ho : c.orc with
              | some o => simp [ho] at h1; rw [h1.2]; exact ⟨rfl, rfl, rfl, rfl, rfl⟩
              | none => simp [ho] at h1; rw [h1.2]; exact ⟨rfl, rfl, rfl, rfl, rfl⟩
          cases hp : (if c.aot then (j, c) else ensureOrc j c) with
          | mk j1 c1 =>
            obtain ⟨e1, e2, e3, e4, e5⟩ := hc1 j1 c1 hp.symm
            have hb' : ∀ m, c1.builtins = some m → m = c1.module := by
              intro m hm
              rw [e4] at hm
              rw [e5]
              rcases hb m hm with h1 | h1
              · exact h1
              · rw [hf] at h1; cases h1
            cases uses with
            | false =>
              refine ⟨j1, c1, c1.builtins, rfl, fun m hm => (hb' m hm).trans e5, ?_⟩
              rw [translate]
              simp only [hf, hn, hp, e1, e2, e3, e5, Bool.not_true, Bool.false_eq_true, if_false]
            | true =>
              cases hm : c1.builtins with
              | none =>
                refine ⟨j1, c1, some c.module, rfl, fun m hm => by cases hm; rfl, ?_⟩
                rw [translate]
                simp only [hf, hn, hp, hm, e1, e2, e3, e5, Bool.not_true, Bool.false_eq_true, if_false, if_true]
              | some m =>
                refine ⟨j1, c1, some m, rfl, fun m' hm' => by cases hm'; rw [hb' m hm, e5], ?_⟩
                rw [translate]
                have h2 : m = c.module := by rw [hb' m hm, e5]
                simp only [hf, hn, hp, hm, e1, e2, e3, e5, h2, Bool.not_true, Bool.false_eq_true, if_false,
                  if_true]

theorem quiet_jit (id : Nat) (o l : Bool) (r : Res) : Quiet (.jitFunction id o l, r) where
  made := fun _ _ _ _ _ h => by cases h
  clear := fun h => by cases h
  ir := fun h => by cases h

theorem quiet_err (op : Op) (h1 : op ≠ .clear) (h2 : op ≠ .clearIr) : Quiet (op, .err) where
  made := fun _ _ _ _ _ h => by cases h
  clear := h1
  ir := h2

theorem quiet_write (o : Bool) (r : Res) : Quiet (.writeObject o, r) where
  made := fun _ _ _ _ _ h => by cases h
  clear := fun h => by cases h
  ir := fun h => by cases h

theorem quiet_free (id : Nat) (r : Res) : Quiet (.freeFunction id, r) where
  made := fun _ _ _ _ _ h => by cases h
  clear := fun h => by cases h
  ir := fun h => by cases h

theorem quiet_take (r : Res) : Quiet (.takeTracker, r) where
  made := fun _ _ _ _ _ h => by cases h
  clear := fun h => by cases h
  ir := fun h => by cases h

/-- Recording that an id was made. -/
theorem made_new {h : History} {n : Name} {code : Code} {p u : Bool} {id : Nat} {id' n' code' g'} :
    Made ((.translate n code p u, .id id) :: h) id' n' code' g' ↔
      Made h id' n' code' g' ∨ (id' = id ∧ n' = n ∧ code' = code ∧ g' = gen h) := by
  constructor
  · rintro (hm | ⟨p', u', he, hg⟩)
    · exact .inl hm
    · cases he
      exact .inr ⟨rfl, rfl, rfl, hg⟩
  · rintro (hm | ⟨rfl, rfl, rfl, rfl⟩)
    · exact .inl hm
    · exact .inr ⟨p, u, rfl, rfl⟩

theorem given_quiet {h : History} {e : Op × Res} {id a : Nat} (hg : Given (e :: h) id a)
    (he : ∀ id o l a, e ≠ (.jitFunction id o l, .addr a)) : Given h id a := by
  obtain ⟨o, l, hm⟩ := hg
  rcases List.mem_cons.mp hm with h1 | h1
  · exact absurd h1.symm (he _ _ _ _)
  · exact ⟨o, l, h1⟩

theorem Inv.translate {h : History} {j : Jit} {c : Comp} (v : Inv h j c) (n : Name) (code : Code)
    (parsed uses : Bool) :
    Inv ((.translate n code parsed uses, (Session.translate j c n code parsed uses).2.2) :: h)
      (Session.translate j c n code parsed uses).1 (Session.translate j c n code parsed uses).2.1 := by
  rcases translate_cases j c n code parsed uses v.built with he | ⟨hf, hn, j1, c1, b, h1, hb, he⟩
  · rw [he]
    exact v.quiet (quiet_err _ (by simp) (by simp)) (fun _ _ _ _ h1 => by cases h1)
  · have v1 : Inv h j1 c1 := by
      cases ha : c.aot with
      | true => simp [ha] at h1; rw [h1.1, h1.2]; exact v
      | false =>
        simp [ha] at h1
        have := v.ensureOrc ha
        rw [← h1] at this
        exact this
    have hno : c1.orc = none → c1.aot = true := by
      intro h2
      cases ha : c.aot with
      | true => simp [ha] at h1; rw [h1.2]; exact ha
      | false =>
        simp [ha] at h1
        rw [Session.ensureOrc] at h1
        cases ho : c.orc with
        | some o => simp [ho] at h1; rw [h1.2, ho] at h2; cases h2
        | none => simp [ho] at h1; rw [h1.2] at h2; cases h2
    have e : c1.counter = c.counter ∧ c1.names = c.names ∧ c1.module = c.module := by
      cases ha : c.aot with
      | true => simp [ha] at h1; rw [h1.2]; exact ⟨rfl, rfl, rfl⟩
      | false =>
        simp [ha] at h1
        rw [Session.ensureOrc] at h1
        cases ho : c.orc with
        | some o => simp [ho] at h1; rw [h1.2]; exact ⟨rfl, rfl, rfl⟩
        | none => simp [ho] at h1; rw [h1.2]; exact ⟨rfl, rfl, rfl⟩
    obtain ⟨e1, e2, e3⟩ := e
    rw [he]
    have hgen : gen ((Op.translate n code parsed uses, Res.id c.counter) :: h) = gen h := rfl
    have hfresh : ∀ n' code' g', ¬ Made h c.counter n' code' g' := fun n' code' g' hm =>
      Nat.lt_irrefl _ (v.ids _ _ _ _ hm)
    exact {
      jit := v1.jit
      clears := v1.clears
      ids := fun id n' code' g hm => by
        rcases made_new.mp hm with hm | ⟨rfl, _⟩
        · exact Nat.lt_succ_of_lt (v.ids id n' code' g hm)
        · exact Nat.lt_succ_self _
      one := fun id n1 code1 g1 n2 code2 g2 hm1 hm2 => by
        rcases made_new.mp hm1 with k1 | ⟨i1, a1, b1, g1⟩
        · rcases made_new.mp hm2 with k2 | ⟨i2, a2, b2, g2⟩
          · exact v.one _ _ _ _ _ _ _ k1 k2
          · rw [i2] at k1
            exact absurd k1 (hfresh _ _ _)
        · rcases made_new.mp hm2 with k2 | ⟨i2, a2, b2, g2⟩
          · rw [i1] at k2
            exact absurd k2 (hfresh _ _ _)
          · rw [a1, a2, b1, b2, g1, g2]
            exact ⟨rfl, rfl, rfl⟩
      named := fun id n' hg => by
        simp only at hg
        rw [AMap.get_insert] at hg
        by_cases hid : id = c.counter
        · simp [hid] at hg
          exact ⟨code, made_new.mpr (.inr ⟨hid, hg.symm, rfl, rfl⟩)⟩
        · simp [hid] at hg
          obtain ⟨code', hm⟩ := v.named id n' hg
          exact ⟨code', .inl hm⟩
      namesNd := AMap.nodup_insert v.namesNd _ _
      built := fun m hm => .inl (by
        have := hb m hm
        simp only [e3]
        exact this)
      aotOrc := fun ha => by
        have := v1.aotOrc ha
        simp only [this, Option.map_none]
      noOrc := fun ho => by
        cases h2 : c1.orc with
        | none => exact .inl (hno h2)
        | some o => simp [h2] at ho
      orcs := fun o ho => by
        cases h2 : c1.orc with
        | none => simp [h2] at ho
        | some o1 =>
          simp [h2] at ho
          subst ho
          have w := v1.orcs o1 h2
          exact {
            dylib := w.dylib
            commNd := w.commNd
            trackNd := w.trackNd
            trackLt := w.trackLt
            commLt := w.commLt
            commMade := fun id i hi => by
              obtain ⟨n', code', g', hm⟩ := w.commMade id i hi
              exact ⟨n', code', g', .inl hm⟩
            stagedGen := fun id f hf => by
              simp only at hf
              rw [AMap.get_insert] at hf
              by_cases hid : id = c.counter
              · exact ⟨n, code, made_new.mpr (.inr ⟨hid, rfl, rfl, rfl⟩)⟩
              · simp [hid] at hf
                obtain ⟨n', code', hm⟩ := w.stagedGen id f hf
                exact ⟨n', code', .inl hm⟩
            group := fun s hs id i hg ht => by
              obtain ⟨n', code', hm⟩ := w.group s hs id i hg ht
              exact ⟨n', code', .inl hm⟩ }
      given := fun id a hg =>
        v1.given id a (given_quiet hg (fun _ _ _ _ h2 => by cases h2)) }

/-- The stages of `jit_function`. -/
theorem jit_cases (j : Jit) (c : Comp) (id : Nat) (opt link : Bool) :
    jitFunction j c id opt link = (j, c, .err) ∨
    (c.aot = false ∧ ∃ c0 j' c' ok r, finalize c opt = (c0, true) ∧
      commit (ensureOrc j c0).1 (ensureOrc j c0).2 = (j', c', ok) ∧
      jitFunction j c id opt link = (j', c', r) ∧
      ((ok = false ∧ r = .err) ∨
       (ok = true ∧ (r = .err ∨ (r = .panic ∧ (c'.names.get id = none ∨ c'.orc = none)) ∨
          ∃ n o a, c'.names.get id = some n ∧ c'.orc = some o ∧ j'.lookup o.dylib n = some a ∧
            r = .addr a)))) := by
  cases ha : c.aot with
  | true => left; rw [jitFunction]; simp only [ha, if_true]
  | false =>
    cases hf : finalize c opt with
    | mk c0 ok0 =>
      cases ok0 with
      | false =>
        left
        have : c0 = c := by
          rw [finalize] at hf
          split at hf
          · cases hf
          · split at hf <;> cases hf
            rfl
        simp [jitFunction, ha, hf, this]
      | true =>
        right
        cases he : ensureOrc j c0 with
        | mk j1 c1 =>
          cases hc : commit j1 c1 with
          | mk j2 p =>
            obtain ⟨c2, ok⟩ := p
            cases ok with
            | false =>
              exact ⟨rfl, c0, j2, c2, false, .err, rfl, by simp [he, hc], by simp [jitFunction, ha, hf, he, hc],
                .inl ⟨rfl, rfl⟩⟩
            | true =>
              cases hn : c2.names.get id with
              | none =>
                exact ⟨rfl, c0, j2, c2, true, .panic, rfl, by simp [he, hc],
                  by simp [jitFunction, ha, hf, he, hc, hn], .inr ⟨rfl, .inr (.inl ⟨rfl, .inl hn⟩)⟩⟩
              | some n =>
                cases ho : c2.orc with
                | none =>
                  exact ⟨rfl, c0, j2, c2, true, .panic, rfl, by simp [he, hc],
                    by simp [jitFunction, ha, hf, he, hc, hn, ho], .inr ⟨rfl, .inr (.inl ⟨rfl, .inr ho⟩)⟩⟩
                | some o =>
                  cases link with
                  | false =>
                    exact ⟨rfl, c0, j2, c2, true, .err, rfl, by simp [he, hc],
                      by simp [jitFunction, ha, hf, he, hc, hn, ho], .inr ⟨rfl, .inl rfl⟩⟩
                  | true =>
                    cases hl : j2.lookup o.dylib n with
                    | none =>
                      exact ⟨rfl, c0, j2, c2, true, .err, rfl, by simp [he, hc],
                        by simp [jitFunction, ha, hf, he, hc, hn, ho, hl], .inr ⟨rfl, .inl rfl⟩⟩
                    | some a =>
                      exact ⟨rfl, c0, j2, c2, true, .addr a, rfl, by simp [he, hc],
                        by simp [jitFunction, ha, hf, he, hc, hn, ho, hl],
                        .inr ⟨rfl, .inr (.inr ⟨n, o, a, hn, ho, hl, rfl⟩)⟩⟩

theorem finalize_true {c c0 : Comp} {opt : Bool} (h : finalize c opt = (c0, true)) :
    c0.finalized = true ∧ c0.aot = c.aot ∧ c0 = { c with finalized := true } := by
  rw [finalize] at h
  cases hf : c.finalized with
  | true => simp [hf] at h; subst h; exact ⟨hf, rfl, by rw [← hf]⟩
  | false =>
    cases opt with
    | false => simp [hf] at h
    | true => simp [hf] at h; subst h; exact ⟨rfl, rfl, rfl⟩

theorem ensureOrc_keeps (j : Jit) (c : Comp) : (ensureOrc j c).2.finalized = c.finalized ∧
    (ensureOrc j c).2.aot = c.aot ∧ (ensureOrc j c).2.names = c.names ∧ (ensureOrc j c).2.funcs = c.funcs ∧
    (ensureOrc j c).2.module = c.module ∧ (ensureOrc j c).1.syms = j.syms ∧
    (ensureOrc j c).1.nextAddr = j.nextAddr ∧ ∃ o, (ensureOrc j c).2.orc = some o ∧
      (c.orc = some o ∨ c.orc = none ∧ o.staged = [] ∧ o.dylib = j.nextDylib) := by
  rw [ensureOrc]
  cases ho : c.orc with
  | some o => exact ⟨rfl, rfl, rfl, rfl, rfl, rfl, rfl, o, ho, .inl rfl⟩
  | none => exact ⟨rfl, rfl, rfl, rfl, rfl, rfl, rfl, _, rfl, .inr ⟨rfl, rfl, rfl⟩⟩

theorem Inv.jitFunction {h : History} {j : Jit} {c : Comp} (v : Inv h j c) (id : Nat) (opt link : Bool) :
    Inv ((.jitFunction id opt link, (Session.jitFunction j c id opt link).2.2) :: h)
      (Session.jitFunction j c id opt link).1 (Session.jitFunction j c id opt link).2.1 := by
  rcases jit_cases j c id opt link with he | ⟨ha, c0, j', c', ok, r, hf, hc, he, hr⟩
  · rw [he]
    exact v.quiet (quiet_jit _ _ _ _) (fun _ _ _ _ h1 => by cases h1)
  · obtain ⟨h1, h2, _⟩ := finalize_true hf
    have v0 : Inv h j c0 := by
      have := v.finalize opt
      rw [hf] at this
      exact this
    have k := ensureOrc_keeps j c0
    have v1 := v0.ensureOrc (h2.trans ha)
    have v2 := v1.commit (k.1.trans h1) (k.2.1.trans (h2.trans ha))
    rw [hc] at v2
    rw [he]
    refine v2.quiet (quiet_jit _ _ _ _) ?_
    intro id' o' l' a' h3
    simp only [Prod.mk.injEq] at h3
    obtain ⟨_, h3⟩ := h3
    rcases hr with ⟨_, hr⟩ | ⟨_, hr | ⟨hr, _⟩ | ⟨n, o, a, _, _, hl, hr⟩⟩
    · rw [hr] at h3; cases h3
    · rw [hr] at h3; cases h3
    · rw [hr] at h3; cases h3
    · rw [hr] at h3
      cases h3
      obtain ⟨s, hs, _, _, hsa⟩ := lookup_some hl
      rw [← hsa]
      exact v2.jit.addr s hs

theorem Inv.writeObject {h : History} {j : Jit} {c : Comp} (v : Inv h j c) (opt : Bool) :
    Inv ((.writeObject opt, (Session.writeObject c opt).2) :: h) j (Session.writeObject c opt).1 := by
  have hq : (Session.writeObject c opt).1 = (Session.finalize c opt).1 := by
    rw [Session.writeObject]
    cases hf : Session.finalize c opt with
    | mk c0 ok => cases ok <;> rfl
  rw [hq]
  exact (v.finalize opt).quiet (quiet_write _ _) (fun _ _ _ _ h1 => by cases h1)

/-- What freeing does. -/
theorem free_cases (j : Jit) (c : Comp) (id : Nat) :
    (c.orc = none ∧ freeFunction j c id = (j, { c with names := c.names.erase id }, .done)) ∨
    ∃ o, c.orc = some o ∧
      ((∃ f, o.staged.get id = some f ∧ f.module ≠ c.module ∧ freeFunction j c id = (j, c, .dangling)) ∨
       ∃ funcs, ((o.staged.get id = none ∧ funcs = c.funcs) ∨
          ∃ f, o.staged.get id = some f ∧ f.module = c.module ∧ funcs = c.funcs.filter fun p => p.1 != f.name) ∧
        ((o.committed.get id = none ∧ freeFunction j c id =
            (j, { c with funcs, orc := some { o with staged := o.staged.erase id }, names := c.names.erase id }, .done)) ∨
         ∃ i, o.committed.get id = some i ∧
          ((o.trackers[i]? = none ∧ freeFunction j c id = (j, c, .panic)) ∨
           ∃ t, o.trackers[i]? = some t ∧ freeFunction j c id =
            (j.removeTracker t,
              { c with
                funcs
                orc := some { o with
                  staged := o.staged.erase id
                  committed := (o.committed.erase id).filter fun p => p.2 != i }
                names := AMap.erase (c.names.filter fun p => (o.committed.erase id).get p.1 != some i) id },
              .done)))) := by
  cases ho : c.orc with
  | none => left; exact ⟨rfl, by simp [freeFunction, ho]⟩
  | some o =>
    right
    refine ⟨o, rfl, ?_⟩
    have main : ∀ funcs, ((o.staged.get id = none ∧ funcs = c.funcs) ∨
        ∃ f, o.staged.get id = some f ∧ f.module = c.module ∧ funcs = c.funcs.filter fun p => p.1 != f.name) →
        ((o.committed.get id = none ∧ freeFunction j c id =
            (j, { c with funcs, orc := some { o with staged := o.staged.erase id }, names := c.names.erase id }, .done)) ∨
         ∃ i, o.committed.get id = some i ∧
          ((o.trackers[i]? = none ∧ freeFunction j c id = (j, c, .panic)) ∨
           ∃ t, o.trackers[i]? = some t ∧ freeFunction j c id =
            (j.removeTracker t,
              { c with
                funcs
                orc := some { o with
                  staged := o.staged.erase id
                  committed := (o.committed.erase id).filter fun p => p.2 != i }
                names := AMap.erase (c.names.filter fun p => (o.committed.erase id).get p.1 != some i) id },
              .done))) := by
      intro funcs hfs
      cases hk : o.committed.get id with
      | none =>
        left
        refine ⟨rfl, ?_⟩
        rw [freeFunction]
        rcases hfs with ⟨a1, rfl⟩ | ⟨f, a1, a2, rfl⟩
        · simp only [ho, a1, hk]
        · simp only [ho, a1, a2, hk, if_true]
      | some i =>
        right
        refine ⟨i, rfl, ?_⟩
        cases ht : o.trackers[i]? with
        | none =>
          left
          refine ⟨rfl, ?_⟩
          rw [freeFunction]
          rcases hfs with ⟨a1, rfl⟩ | ⟨f, a1, a2, rfl⟩
          · simp only [ho, a1, hk, ht]
          · simp only [ho, a1, a2, hk, ht, if_true]
        | some t =>
          right
          refine ⟨t, rfl, ?_⟩
          rw [freeFunction]
          rcases hfs with ⟨a1, rfl⟩ | ⟨f, a1, a2, rfl⟩
          · simp only [ho, a1, hk, ht]
          · simp only [ho, a1, a2, hk, ht, if_true]
    cases hs : o.staged.get id with
    | none => right; exact ⟨c.funcs, .inl ⟨rfl, rfl⟩, main _ (.inl ⟨hs, rfl⟩)⟩
    | some f =>
      by_cases hm : f.module = c.module
      · right
        exact ⟨_, .inr ⟨f, rfl, hm, rfl⟩, main _ (.inr ⟨f, hs, hm, rfl⟩)⟩
      · left
        refine ⟨f, rfl, hm, ?_⟩
        rw [freeFunction]
        simp only [ho, hs, hm, if_false]

theorem Inv.named_sub {h : History} {j : Jit} {c : Comp} (v : Inv h j c) (p : Nat × Name → Bool) (id k : Nat) (n : Name)
    (hg : AMap.get (AMap.erase (c.names.filter p) id) k = some n) : c.names.get k = some n ∧ k ≠ id := by
  rw [AMap.get_erase] at hg
  by_cases hk : k = id
  · simp [hk] at hg
  · simp [hk] at hg
    exact ⟨(get_of_filter v.namesNd hg).1, hk⟩

theorem Inv.freeFunction {h : History} {j : Jit} {c : Comp} (v : Inv h j c) (id : Nat) :
    Inv ((.freeFunction id, (Session.freeFunction j c id).2.2) :: h)
      (Session.freeFunction j c id).1 (Session.freeFunction j c id).2.1 := by
  suffices Inv h (Session.freeFunction j c id).1 (Session.freeFunction j c id).2.1 from
    this.quiet (quiet_free _ _) (fun _ _ _ _ h1 => by cases h1)
  have hnm : ∀ k n, (c.names.erase id).get k = some n → c.names.get k = some n := by
    intro k n hg
    rw [AMap.get_erase] at hg
    by_cases hk : k = id
    · simp [hk] at hg
    · simpa [hk] using hg
  have hst : ∀ (o : Orc) k f, (o.staged.erase id).get k = some f → o.staged.get k = some f := by
    intro o k f hg
    rw [AMap.get_erase] at hg
    by_cases hk : k = id
    · simp [hk] at hg
    · simpa [hk] using hg
  rcases free_cases j c id with ⟨hn, he⟩ | ⟨o, ho, ⟨f, _, _, he⟩ | ⟨funcs, _, ⟨hk, he⟩ | ⟨i, hk, ⟨_, he⟩ | ⟨t, ht, he⟩⟩⟩⟩
  · rw [he]
    exact { v with
      named := fun k n hg => v.named k n (hnm k n hg)
      namesNd := AMap.nodup_erase v.namesNd _
      noOrc := fun h1 => by
        rcases v.noOrc h1 with h2 | ⟨h2, h3⟩
        · exact .inl h2
        · exact .inr ⟨by simp only [h2]; rfl, h3⟩ }
  · rw [he]; exact v
  · rw [he]
    have w := v.orcs o ho
    exact { v with
      named := fun k n hg => v.named k n (hnm k n hg)
      namesNd := AMap.nodup_erase v.namesNd _
      aotOrc := fun h1 => by have := v.aotOrc h1; rw [ho] at this; cases this
      noOrc := fun h1 => by cases h1
      orcs := fun o' h1 => by
        cases h1
        exact { w with stagedGen := fun k f hf => w.stagedGen k f (hst o k f hf) } }
  · rw [he]; exact v
  · rw [he]
    have w := v.orcs o ho
    have hsub : ∀ k i', AMap.get ((o.committed.erase id).filter fun p => p.2 != i) k = some i' →
        o.committed.get k = some i' := by
      intro k i' hg
      have := (get_of_filter (AMap.nodup_erase w.commNd id) hg).1
      rw [AMap.get_erase] at this
      by_cases hk : k = id
      · simp [hk] at this
      · simpa [hk] using this
    exact { v with
      jit := v.jit.filter _
      named := fun k n hg => v.named k n (v.named_sub _ _ _ _ hg).1
      namesNd := AMap.nodup_erase (AMap.nodup_filter v.namesNd _) _
      aotOrc := fun h1 => by have := v.aotOrc h1; rw [ho] at this; cases this
      noOrc := fun h1 => by cases h1
      orcs := fun o' h1 => by
        cases h1
        exact {
          dylib := w.dylib
          commNd := AMap.nodup_filter (AMap.nodup_erase w.commNd _) _
          trackNd := w.trackNd
          trackLt := w.trackLt
          commLt := fun k i' hg => w.commLt k i' (hsub k i' hg)
          commMade := fun k i' hg => w.commMade k i' (hsub k i' hg)
          stagedGen := fun k f hf => w.stagedGen k f (hst o k f hf)
          group := fun s hs k i' hg ht' => w.group s (List.mem_filter.mp hs).1 k i' (hsub k i' hg) ht' } }

theorem made_clear {h : History} {op : Op} {r : Res} (hop : op = .clear ∨ op = .clearIr) {id n code g} :
    Made ((op, r) :: h) id n code g ↔ Made h id n code g := by
  constructor
  · rintro (hm | ⟨p, u, he, _⟩)
    · exact hm
    · rcases hop with rfl | rfl <;> cases he
  · exact Or.inl

theorem Inv.clearIr {h : History} {j : Jit} {c : Comp} (v : Inv h j c) :
    Inv ((.clearIr, .done) :: h) j (clearIr c) := by
  have hm : ∀ {id n code g}, Made ((Op.clearIr, Res.done) :: h) id n code g ↔ Made h id n code g :=
    made_clear (.inr rfl)
  exact {
    jit := v.jit
    clears := by show c.clears + 1 = gen h + 1; rw [v.clears]
    ids := fun id n code g h1 => v.ids id n code g (hm.mp h1)
    one := fun id n code g n' code' g' h1 h2 => v.one _ _ _ _ _ _ _ (hm.mp h1) (hm.mp h2)
    named := fun id n h1 => by cases h1
    namesNd := AMap.nodup_nil
    built := fun m h1 => by cases h1
    aotOrc := fun h1 => by
      have := v.aotOrc h1
      simp only [Session.clearIr, this, Option.map_none]
    noOrc := fun _ => .inr ⟨rfl, rfl⟩
    orcs := fun o h1 => by
      cases ho : c.orc with
      | none => simp [Session.clearIr, ho] at h1
      | some o1 =>
        simp [Session.clearIr, ho] at h1
        subst h1
        have w := v.orcs o1 ho
        exact { w with
          commMade := fun id i h1 => by
            obtain ⟨n, code, g, h2⟩ := w.commMade id i h1
            exact ⟨n, code, g, hm.mpr h2⟩
          stagedGen := fun id f h1 => by cases h1
          group := fun s hs id i h1 h2 => by
            obtain ⟨n, code, h3⟩ := w.group s hs id i h1 h2
            exact ⟨n, code, hm.mpr h3⟩ }
    given := fun id a hg => v.given id a (given_quiet hg (fun _ _ _ _ h2 => by cases h2)) }

theorem Inv.clear {h : History} {j : Jit} {c : Comp} (v : Inv h j c) :
    Inv ((.clear, .done) :: h) (clear j c).1 (clear j c).2 := by
  have hm : ∀ {id n code g}, Made ((Op.clear, Res.done) :: h) id n code g ↔ Made h id n code g :=
    made_clear (.inl rfl)
  have hj : (Session.clear j c).1.Ok ∧ (Session.clear j c).1.nextAddr = j.nextAddr ∧
      (Session.clear j c).1.nextDylib = j.nextDylib ∧ (Session.clear j c).1.nextTracker = j.nextTracker := by
    rw [Session.clear]
    cases ho : c.orc with
    | none => exact ⟨v.jit, rfl, rfl, rfl⟩
    | some o => exact ⟨v.jit.filter _, rfl, rfl, rfl⟩
  exact {
    jit := hj.1
    clears := by show c.clears + 1 = gen h + 1; rw [v.clears]
    ids := fun id n code g h1 => v.ids id n code g (hm.mp h1)
    one := fun id n code g n' code' g' h1 h2 => v.one _ _ _ _ _ _ _ (hm.mp h1) (hm.mp h2)
    named := fun id n h1 => by cases h1
    namesNd := AMap.nodup_nil
    built := fun m h1 => by cases h1
    aotOrc := fun h1 => by
      have := v.aotOrc h1
      simp only [Session.clear, this, Option.map_none]
    noOrc := fun _ => .inr ⟨rfl, rfl⟩
    orcs := fun o h1 => by
      cases ho : c.orc with
      | none => simp [Session.clear, ho] at h1
      | some o1 =>
        simp [Session.clear, ho] at h1
        subst h1
        have w := v.orcs o1 ho
        exact {
          dylib := by rw [hj.2.2.1]; exact w.dylib
          commNd := AMap.nodup_nil
          trackNd := List.nodup_nil
          trackLt := fun t ht => by cases ht
          commLt := fun id i h1 => by cases h1
          commMade := fun id i h1 => by cases h1
          stagedGen := fun id f h1 => by cases h1
          group := fun s hs id i h1 => by cases h1 }
    given := fun id a hg => by
      rw [hj.2.1]
      exact v.given id a (given_quiet hg (fun _ _ _ _ h2 => by cases h2)) }

theorem Inv.takeTracker {h : History} {j : Jit} {c : Comp} (v : Inv h j c) :
    Inv ((.takeTracker, .tracker (takeTracker c).2) :: h) j (takeTracker c).1 := by
  suffices Inv h j (Session.takeTracker c).1 from
    this.quiet (quiet_take _) (fun _ _ _ _ h1 => by cases h1)
  rw [Session.takeTracker]
  cases ho : c.orc with
  | none => simpa only [ho] using v
  | some o =>
    cases ht : o.trackers.getLast? with
    | none => simpa only [ho, ht] using v
    | some t =>
      simp only [ht]
      have w := v.orcs o ho
      have hsub : ∀ k i, AMap.get (o.committed.filter fun p => p.2 != o.trackers.length - 1) k = some i →
          o.committed.get k = some i ∧ i < o.trackers.dropLast.length := by
        intro k i hg
        obtain ⟨h1, h2⟩ := get_of_filter w.commNd hg
        have h3 := w.commLt k i h1
        simp at h2
        refine ⟨h1, ?_⟩
        rw [List.length_dropLast]
        omega
      exact { v with
        aotOrc := fun h1 => by have := v.aotOrc h1; rw [ho] at this; cases this
        noOrc := fun h1 => by cases h1
        orcs := fun o' h1 => by
          cases h1
          exact {
            dylib := w.dylib
            commNd := AMap.nodup_filter w.commNd _
            trackNd := w.trackNd.sublist (List.dropLast_sublist _)
            trackLt := fun t ht => w.trackLt t ((List.dropLast_sublist _).subset ht)
            commLt := fun k i hg => (hsub k i hg).2
            commMade := fun k i hg => w.commMade k i (hsub k i hg).1
            stagedGen := w.stagedGen
            group := fun s hs k i hg ht' => by
              obtain ⟨h1, h2⟩ := hsub k i hg
              simp only at ht'
              rw [List.getElem?_dropLast] at ht'
              rw [List.length_dropLast] at h2
              simp only [h2, if_true] at ht'
              exact w.group s hs k i h1 ht' } }

/-- A new compiler. -/
theorem Inv.new {aot : Bool} {j : Jit} (ok : j.Ok) : Inv [] j (Comp.new aot) where
  jit := ok
  clears := rfl
  ids := fun _ _ _ _ h => h.elim
  one := fun _ _ _ _ _ _ _ h => h.elim
  named := fun _ _ h => by cases h
  namesNd := AMap.nodup_nil
  built := fun _ h => by cases h
  aotOrc := fun _ => rfl
  noOrc := fun _ => .inr ⟨rfl, rfl⟩
  orcs := fun _ h => by cases h
  given := fun _ _ ⟨_, _, h⟩ => by cases h

theorem Inv.exec {h : History} {j j' : Jit} {c c' : Comp} {op : Op} {r : Res} (v : Inv h j c)
    (he : exec j c op = (j', c', r)) : Inv ((op, r) :: h) j' c' := by
  cases op with
  | translate n code p u =>
    have := v.translate n code p u
    rw [Session.exec] at he
    rw [he] at this
    exact this
  | jitFunction id o l =>
    have := v.jitFunction id o l
    rw [Session.exec] at he
    rw [he] at this
    exact this
  | writeObject o =>
    have := v.writeObject o
    rw [Session.exec] at he
    cases he
    exact this
  | freeFunction id =>
    have := v.freeFunction id
    rw [Session.exec] at he
    rw [he] at this
    exact this
  | clearIr => cases he; exact v.clearIr
  | clear => cases he; exact v.clear
  | takeTracker => cases he; exact v.takeTracker

theorem Reach.inv {aot : Bool} {j0 : Jit} (ok : j0.Ok) {h : History} {j : Jit} {c : Comp}
    (r : Reach aot j0 h j c) : Inv h j c := by
  induction r with
  | new => exact Inv.new ok
  | call _ he ih => exact ih.exec he

end Verif.Session
