import Verif.Lemmas.SessionInv
/-!
# Lemmas: sessions in which no commit was lost
-/

namespace Verif.Session

/-- Ids, staged functions and loaded symbols agree. -/
structure GoodOrc (h : History) (j : Jit) (c : Comp) (o : Orc) : Prop where
  inj : ∀ id id' n, c.names.get id = some n → c.names.get id' = some n → id = id'
  staged : ∀ id f, o.staged.get id = some f → f.module = c.module ∧ c.names.get id = some f.name
  disj : ∀ id f, o.staged.get id = some f → o.committed.get id = none
  named : ∀ id n code g, c.names.get id = some n → Made h id n code g →
    (o.staged.get id = some ⟨c.module, n⟩ ∧ (n, code) ∈ c.funcs) ∨
    (c.finalized = true ∧ o.staged = [] ∧
      ∀ s ∈ j.syms, s.dylib = o.dylib → s.name = n → s.code = code ∧ s.gen = g)

structure Good (h : History) (j : Jit) (c : Comp) : Prop where
  funcsNd : (c.funcs.map (·.1)).Nodup
  orcs : ∀ o, c.orc = some o → GoodOrc h j c o

theorem GoodOrc.empty {h : History} {j : Jit} {c : Comp} {o : Orc} (h1 : c.names = []) (h2 : o.staged = []) :
    GoodOrc h j c o where
  inj := fun id _ n hg => by rw [h1] at hg; cases hg
  staged := fun id f hf => by rw [h2] at hf; cases hf
  disj := fun id f hf => by rw [h2] at hf; cases hf
  named := fun id n code g hg => by rw [h1] at hg; cases hg

theorem Good.quiet {h : History} {j : Jit} {c : Comp} (w : Good h j c) {e : Op × Res} (q : Quiet e) :
    Good (e :: h) j c where
  funcsNd := w.funcsNd
  orcs o ho :=
    let u := w.orcs o ho
    { inj := u.inj
      staged := u.staged
      disj := u.disj
      named := fun id n code g hg hm => u.named id n code g hg ((q.made_iff _ _ _ _ _).mp hm) }

theorem Good.finalize {h : History} {j : Jit} {c c0 : Comp} {opt : Bool} (w : Good h j c)
    (hf : finalize c opt = (c0, true)) : Good h j c0 := by
  obtain ⟨_, _, rfl⟩ := finalize_true hf
  refine ⟨w.funcsNd, fun o ho => ?_⟩
  have u := w.orcs o ho
  refine ⟨u.inj, u.staged, u.disj, fun id n code g hg hm => ?_⟩
  rcases u.named id n code g hg hm with h1 | ⟨_, h2, h3⟩
  · exact .inl h1
  · exact .inr ⟨rfl, h2, h3⟩

theorem Good.ensureOrc {h : History} {j : Jit} {c : Comp} (w : Good h j c) (v : Inv h j c)
    (ha : c.aot = false) : Good h (ensureOrc j c).1 (ensureOrc j c).2 := by
  rw [Session.ensureOrc]
  cases ho : c.orc with
  | some o => simpa only [ho] using w
  | none =>
    refine ⟨w.funcsNd, fun o h1 => ?_⟩
    cases h1
    rcases v.noOrc ho with h1 | ⟨h1, _⟩
    · rw [ha] at h1; cases h1
    · exact .empty h1 rfl

theorem mem_unique {fs : List (Name × Code)} (h : (fs.map (·.1)).Nodup) {n : Name} {a b : Code}
    (ha : (n, a) ∈ fs) (hb : (n, b) ∈ fs) : a = b := by
  induction fs with
  | nil => cases ha
  | cons x r ih =>
    rw [List.map_cons, List.nodup_cons] at h
    rcases List.mem_cons.mp ha with ha | ha
    · rcases List.mem_cons.mp hb with hb | hb
      · have := ha.trans hb.symm
        cases this
        rfl
      · exact absurd (List.mem_map.mpr ⟨_, hb, by rw [← ha]⟩) h.1
    · rcases List.mem_cons.mp hb with hb | hb
      · exact absurd (List.mem_map.mpr ⟨_, ha, by rw [← hb]⟩) h.1
      · exact ih h.2 ha hb

theorem Good.commit {h : History} {j j' : Jit} {c c' : Comp} (w : Good h j c) (v : Inv h j c)
    (hfin : c.finalized = true) (ha : c.aot = false) (hc : commit j c = (j', c', true)) : Good h j' c' := by
  cases ho : c.orc with
  | none =>
    rw [Session.commit] at hc
    simp only [ho] at hc
    cases hc
    exact w
  | some o =>
    have u := w.orcs o ho
    rcases commit_cases (j := j) ho ha with ⟨_, h1⟩ | ⟨_, _, h1⟩ | ⟨hne, hnd, h1⟩
    · rw [h1] at hc; cases hc; exact w
    · rw [h1] at hc; cases hc
    · rw [h1] at hc
      cases hc
      refine ⟨List.nodup_nil, fun o' h2 => ?_⟩
      cases h2
      refine ⟨u.inj, fun id f hf => (by cases hf), fun id f hf => (by cases hf), fun id n code g hg hm => .inr ⟨hfin, rfl, ?_⟩⟩
      intro s hs hd hn
      rcases u.named id n code g hg hm with ⟨_, h3⟩ | ⟨_, h3, _⟩
      · rcases List.mem_append.mp hs with hs | hs
        · exact absurd hn (not_defined (hnd _ h3) hs hd)
        · obtain ⟨_, _, h4, _, _, h5⟩ := mem_place hs
          rw [hn] at h5
          refine ⟨mem_unique w.funcsNd h5 h3, ?_⟩
          rw [h4, v.clears]
          obtain ⟨code', h6⟩ := v.named id n hg
          exact (v.one _ _ _ _ _ _ _ h6 hm).2.2
      · exact absurd h3 hne

theorem Good.translate {h : History} {j : Jit} {c : Comp} (w : Good h j c) (v : Inv h j c) (n : Name)
    (code : Code) (parsed uses : Bool) :
    Good ((.translate n code parsed uses, (Session.translate j c n code parsed uses).2.2) :: h)
      (Session.translate j c n code parsed uses).1 (Session.translate j c n code parsed uses).2.1 ∧
    (Session.translate j c n code parsed uses).2.2 ≠ .dangling := by
  rcases translate_cases j c n code parsed uses v.built with he | ⟨hf, hn, j1, c1, b, h1, hb, he⟩
  · rw [he]
    exact ⟨w.quiet (quiet_err _ (by simp) (by simp)), by simp⟩
  · have v1 : Inv h j1 c1 := by
      cases ha : c.aot with
      | true => simp [ha] at h1; rw [h1.1, h1.2]; exact v
      | false =>
        simp [ha] at h1
        have := v.ensureOrc ha
        rw [← h1] at this
        exact this
    have w1 : Good h j1 c1 := by
      cases ha : c.aot with
      | true => simp [ha] at h1; rw [h1.1, h1.2]; exact w
      | false =>
        simp [ha] at h1
        have := w.ensureOrc v ha
        rw [← h1] at this
        exact this
    have e : c1.finalized = c.finalized ∧ c1.names = c.names ∧ c1.module = c.module ∧ c1.funcs = c.funcs := by
      cases ha : c.aot with
      | true => simp [ha] at h1; rw [h1.2]; exact ⟨rfl, rfl, rfl, rfl⟩
      | false =>
        simp [ha] at h1
        have k := ensureOrc_keeps j c
        rw [← h1] at k
        exact ⟨k.1, k.2.2.1, k.2.2.2.2.1, k.2.2.2.1⟩
    obtain ⟨e1, e2, e3, e4⟩ := e
    rw [he]
    refine ⟨⟨?_, fun o ho => ?_⟩, by simp⟩
    · show ((c.funcs ++ [(n, code)]).map (·.1)).Nodup
      rw [List.map_append, List.nodup_append]
      refine ⟨w.funcsNd, by simp, ?_⟩
      intro a ha b hb hab
      obtain ⟨f, hf, rfl⟩ := List.mem_map.mp ha
      simp at hb
      exact hn f hf (hab.trans hb)
    · cases h2 : c1.orc with
      | none => simp [h2] at ho
      | some o1 =>
        simp [h2] at ho
        subst ho
        have u := w1.orcs o1 h2
        -- every named id is in the module
        have hall : ∀ id n', c.names.get id = some n' →
            o1.staged.get id = some ⟨c.module, n'⟩ ∧ ∃ code', Made h id n' code' (gen h) ∧ (n', code') ∈ c.funcs := by
          intro id n' hg
          obtain ⟨code', hm⟩ := v.named id n' hg
          rcases u.named id n' code' _ (by rw [e2]; exact hg) hm with ⟨h3, h4⟩ | ⟨h3, _⟩
          · rw [e3] at h3
            rw [e4] at h4
            exact ⟨h3, code', hm, h4⟩
          · rw [e1, hf] at h3; cases h3
        have hold : ∀ id, c.names.get id = some n → False := by
          intro id hg
          obtain ⟨_, code', _, h3⟩ := hall id n hg
          exact hn _ h3 rfl
        refine ⟨?_, ?_, ?_, ?_⟩
        · intro id id' n' hg hg'
          simp only at hg hg'
          rw [AMap.get_insert] at hg hg'
          by_cases k1 : id = c.counter
          · by_cases k2 : id' = c.counter
            · rw [k1, k2]
            · simp [k1] at hg
              simp [k2] at hg'
              subst hg
              exact (hold _ hg').elim
          · by_cases k2 : id' = c.counter
            · simp [k2] at hg'
              simp [k1] at hg
              subst hg'
              exact (hold _ hg).elim
            · simp [k1] at hg
              simp [k2] at hg'
              exact u.inj id id' n' (by rw [e2]; exact hg) (by rw [e2]; exact hg')
        · intro id f hf'
          simp only at hf'
          rw [AMap.get_insert] at hf'
          by_cases k1 : id = c.counter
          · simp [k1] at hf'
            subst hf'
            refine ⟨e3.symm, ?_⟩
            simp only
            rw [AMap.get_insert]
            simp [k1]
          · simp [k1] at hf'
            obtain ⟨k2, k3⟩ := u.staged id f hf'
            refine ⟨k2, ?_⟩
            simp only
            rw [AMap.get_insert]
            simp [k1]
            rw [← e2]
            exact k3
        · intro id f hf'
          simp only at hf'
          rw [AMap.get_insert] at hf'
          by_cases k1 : id = c.counter
          · cases k2 : o1.committed.get id with
            | none => rfl
            | some i =>
              obtain ⟨n', code', g', k3⟩ := (v1.orcs o1 h2).commMade id i k2
              rw [k1] at k3
              exact absurd (v.ids _ _ _ _ k3) (Nat.lt_irrefl _)
          · simp [k1] at hf'
            exact u.disj id f hf'
        · intro id n' code' g' hg hm
          left
          simp only at hg
          rw [AMap.get_insert] at hg
          by_cases k1 : id = c.counter
          · simp [k1] at hg
            subst hg
            have : code' = code := by
              rcases made_new.mp hm with k2 | ⟨_, _, k2, _⟩
              · rw [k1] at k2
                exact absurd (v.ids _ _ _ _ k2) (Nat.lt_irrefl _)
              · exact k2
            rw [this]
            refine ⟨?_, by simp⟩
            simp only
            rw [AMap.get_insert, e3]
            simp [k1]
          · simp [k1] at hg
            have hm' : Made h id n' code' g' := by
              rcases made_new.mp hm with k2 | ⟨k2, _⟩
              · exact k2
              · exact absurd k2 k1
            obtain ⟨k2, code'', k3, k4⟩ := hall id n' hg
            have := (v.one _ _ _ _ _ _ _ k3 hm').2.1
            subst this
            refine ⟨?_, List.mem_append_left _ k4⟩
            simp only
            rw [AMap.get_insert, e3]
            simpa [k1] using k2

theorem Good.freeFunction {h : History} {j : Jit} {c : Comp} (w : Good h j c) (v : Inv h j c) (id : Nat) :
    Good ((.freeFunction id, (Session.freeFunction j c id).2.2) :: h)
      (Session.freeFunction j c id).1 (Session.freeFunction j c id).2.1 ∧
    (Session.freeFunction j c id).2.2 = .done := by
  -- the module without the freed function
  have hdel : ∀ o funcs, c.orc = some o →
      ((o.staged.get id = none ∧ funcs = c.funcs) ∨
        ∃ f, o.staged.get id = some f ∧ f.module = c.module ∧ funcs = c.funcs.filter fun p => p.1 != f.name) →
      (funcs.map (·.1)).Nodup ∧
      ∀ k n code g, k ≠ id → c.names.get k = some n → Made h k n code g →
        ((o.staged.erase id).get k = some ⟨c.module, n⟩ ∧ (n, code) ∈ funcs) ∨
        (c.finalized = true ∧ o.staged.erase id = [] ∧
          ∀ s ∈ j.syms, s.dylib = o.dylib → s.name = n → s.code = code ∧ s.gen = g) := by
    intro o funcs ho hfs
    have u := w.orcs o ho
    constructor
    · rcases hfs with ⟨_, rfl⟩ | ⟨f, _, _, rfl⟩
      · exact w.funcsNd
      · exact w.funcsNd.sublist (List.filter_sublist.map _)
    · intro k n code g hk hg hm
      rcases u.named k n code g hg hm with ⟨h1, h2⟩ | ⟨h1, h2, h3⟩
      · left
        refine ⟨by rw [AMap.get_erase]; simpa [hk] using h1, ?_⟩
        rcases hfs with ⟨_, rfl⟩ | ⟨f, h3, _, rfl⟩
        · exact h2
        · rw [List.mem_filter]
          refine ⟨h2, ?_⟩
          simp only [bne_iff_ne, ne_eq]
          intro hn
          have h4 := (u.staged id f h3).2
          rw [← hn] at h4
          exact hk (u.inj _ _ _ hg h4)
      · right
        exact ⟨h1, by rw [h2]; rfl, h3⟩
  have hst : ∀ o, c.orc = some o → ∀ k f, (o.staged.erase id).get k = some f →
      k ≠ id ∧ f.module = c.module ∧ c.names.get k = some f.name := by
    intro o ho k f hg
    rw [AMap.get_erase] at hg
    by_cases hk : k = id
    · simp [hk] at hg
    · simp [hk] at hg
      exact ⟨hk, (w.orcs o ho).staged k f hg⟩
  have hdj : ∀ o, c.orc = some o → ∀ k f, (o.staged.erase id).get k = some f → o.committed.get k = none := by
    intro o ho k f hg
    rw [AMap.get_erase] at hg
    by_cases hk : k = id
    · simp [hk] at hg
    · simp [hk] at hg
      exact (w.orcs o ho).disj k f hg
  have hgn : ∀ k n, (c.names.erase id).get k = some n → k ≠ id ∧ c.names.get k = some n := by
    intro k n hg
    rw [AMap.get_erase] at hg
    by_cases hk : k = id
    · simp [hk] at hg
    · simp [hk] at hg
      exact ⟨hk, hg⟩
  rcases free_cases j c id with ⟨hn, he⟩ | ⟨o, ho, ⟨f, hf, hm, he⟩ | ⟨funcs, hfs, ⟨hk, he⟩ | ⟨i, hk, ⟨ht, he⟩ | ⟨t, ht, he⟩⟩⟩⟩
  · rw [he]
    refine ⟨Good.quiet (h := h) (j := j) (c := { c with names := c.names.erase id })
      ⟨w.funcsNd, fun o ho => ?_⟩ (quiet_free _ _), rfl⟩
    simp only at ho
    rw [hn] at ho
    cases ho
  · exact absurd ((w.orcs o ho).staged id f hf).1 hm
  · rw [he]
    obtain ⟨h1, h2⟩ := hdel o funcs ho hfs
    refine ⟨Good.quiet ⟨h1, fun o' ho' => ?_⟩ (quiet_free _ _), rfl⟩
    cases ho'
    refine ⟨?_, ?_, ?_, ?_⟩
    · intro k k' n hg hg'
      exact (w.orcs o ho).inj k k' n (hgn _ _ hg).2 (hgn _ _ hg').2
    · intro k f hg
      obtain ⟨h3, h4, h5⟩ := hst o ho k f hg
      refine ⟨h4, ?_⟩
      simp only
      rw [AMap.get_erase]
      simpa [h3] using h5
    · intro k f hg
      exact hdj o ho k f hg
    · intro k n code g hg hm
      obtain ⟨h3, h4⟩ := hgn _ _ hg
      exact h2 k n code g h3 h4 hm
  · have := (v.orcs o ho).commLt id i hk
    rw [List.getElem?_eq_none_iff] at ht
    omega
  · rw [he]
    obtain ⟨h1, h2⟩ := hdel o funcs ho hfs
    refine ⟨Good.quiet ⟨h1, fun o' ho' => ?_⟩ (quiet_free _ _), rfl⟩
    cases ho'
    refine ⟨?_, ?_, ?_, ?_⟩
    · intro k k' n hg hg'
      exact (w.orcs o ho).inj k k' n (v.named_sub _ _ _ _ hg).1 (v.named_sub _ _ _ _ hg').1
    · intro k f hg
      obtain ⟨h3, h4, h5⟩ := hst o ho k f hg
      refine ⟨h4, ?_⟩
      simp only
      rw [AMap.get_erase]
      simp only [h3, if_false]
      refine AMap.get_of_mem (AMap.nodup_filter v.namesNd _) (List.mem_filter.mpr ⟨AMap.mem_of_get h5, ?_⟩)
      simp only
      rw [AMap.get_erase, hdj o ho k f hg]
      simp [h3]
    · intro k f hg
      have h3 := hdj o ho k f hg
      simp only
      cases h4 : AMap.get ((o.committed.erase id).filter fun p => p.2 != i) k with
      | none => rfl
      | some i' =>
        have h5 := (get_of_filter (AMap.nodup_erase (v.orcs o ho).commNd id) h4).1
        rw [AMap.get_erase, h3] at h5
        split at h5 <;> cases h5
    · intro k n code g hg hm
      obtain ⟨h4, h3⟩ := v.named_sub _ _ _ _ hg
      rcases h2 k n code g h3 h4 hm with h5 | ⟨h5, h6, h7⟩
      · exact .inl h5
      · exact .inr ⟨h5, h6, fun s hs => h7 s (List.mem_filter.mp hs).1⟩

theorem Good.jitFunction {h : History} {j j' : Jit} {c c' : Comp} {r : Res} (w : Good h j c) (v : Inv h j c)
    {id : Nat} {opt link : Bool} (he : Session.jitFunction j c id opt link = (j', c', r))
    (hr : r ≠ .err ∨ ∀ o, c.orc = some o → ∀ f ∈ c.funcs, j.defined o.dylib f.1 = false) :
    Good ((.jitFunction id opt link, r) :: h) j' c' := by
  rcases jit_cases j c id opt link with h1 | ⟨ha, c0, j2, c2, ok, r2, hf, hc, h1, h2⟩
  · rw [h1] at he
    cases he
    exact w.quiet (quiet_jit _ _ _ _)
  · rw [h1] at he
    cases he
    obtain ⟨f1, f2, f3⟩ := finalize_true hf
    have v0 : Inv h j c0 := by
      have := v.finalize opt
      rw [hf] at this
      exact this
    have k := ensureOrc_keeps j c0
    have v1 := v0.ensureOrc (f2.trans ha)
    have w1 := (w.finalize hf).ensureOrc v0 (f2.trans ha)
    have hok : ok = true := by
      cases ok with
      | true => rfl
      | false =>
        rcases hr with hr | hr
        · rcases h2 with ⟨_, h2⟩ | ⟨h2, _⟩
          · exact absurd h2 hr
          · cases h2
        · obtain ⟨o, ho, hoo⟩ := k.2.2.2.2.2.2.2
          rcases commit_cases (j := (Session.ensureOrc j c0).1) ho (k.2.1.trans (f2.trans ha)) with
            ⟨_, h3⟩ | ⟨h4, ⟨f, hf1, hf2⟩, h3⟩ | ⟨_, _, h3⟩
          · rw [h3] at hc; cases hc
          · rcases hoo with hoo | ⟨_, hoo, _⟩
            · rw [f3] at hoo
              rw [k.2.2.2.1, f3] at hf1
              have h5 := hr o hoo f hf1
              rw [Jit.defined] at h5 hf2
              rw [k.2.2.2.2.2.1] at hf2
              rw [h5] at hf2
              cases hf2
            · exact absurd hoo h4
          · rw [h3] at hc; cases hc
    rw [hok] at hc
    exact (w1.commit v1 (k.1.trans f1) (k.2.1.trans (f2.trans ha)) hc).quiet (quiet_jit _ _ _ _)

theorem Good.writeObject {h : History} {j : Jit} {c : Comp} (w : Good h j c) (opt : Bool) :
    Good ((.writeObject opt, (Session.writeObject c opt).2) :: h) j (Session.writeObject c opt).1 := by
  rw [Session.writeObject]
  cases hf : Session.finalize c opt with
  | mk c0 ok =>
    cases ok with
    | true => exact (w.finalize hf).quiet (quiet_write _ _)
    | false =>
      have : c0 = c := by
        rw [Session.finalize] at hf
        split at hf
        · cases hf
        · split at hf <;> cases hf
          rfl
      rw [this]
      exact w.quiet (quiet_write _ _)

theorem good_clearIr (h : History) (j : Jit) (c : Comp) : Good h j (clearIr c) where
  funcsNd := List.nodup_nil
  orcs o ho := by
    cases h1 : c.orc with
    | none => simp [clearIr, h1] at ho
    | some o1 =>
      simp [clearIr, h1] at ho
      subst ho
      exact .empty rfl rfl

theorem good_clear (h : History) (j j' : Jit) (c : Comp) : Good h j (clear j' c).2 where
  funcsNd := List.nodup_nil
  orcs o ho := by
    cases h1 : c.orc with
    | none => simp [clear, h1] at ho
    | some o1 =>
      simp [clear, h1] at ho
      subst ho
      exact .empty rfl rfl

theorem Good.takeTracker {h : History} {j : Jit} {c : Comp} (w : Good h j c) (v : Inv h j c) :
    Good h j (takeTracker c).1 := by
  rw [Session.takeTracker]
  cases ho : c.orc with
  | none => simpa only [ho] using w
  | some o =>
    cases ht : o.trackers.getLast? with
    | none => simpa only [ho, ht] using w
    | some t =>
      simp only [ht]
      refine ⟨w.funcsNd, fun o' h1 => ?_⟩
      cases h1
      have u := w.orcs o ho
      refine ⟨u.inj, u.staged, fun k f hf => ?_, u.named⟩
      cases h4 : AMap.get (o.committed.filter fun p => p.2 != o.trackers.length - 1) k with
      | none => rfl
      | some i =>
        have h5 := (get_of_filter (v.orcs o ho).commNd h4).1
        rw [u.disj k f hf] at h5
        cases h5

theorem good_new (j : Jit) (aot : Bool) : Good [] j (Comp.new aot) :=
  ⟨List.nodup_nil, fun _ h => by cases h⟩

/-! ## Pointers -/

/-- Every pointer given out that is still loaded leads to the code of its id. -/
def Right (h : History) (j : Jit) : Prop :=
  ∀ id a, Given h id a → ∀ s ∈ j.syms, s.addr = a → Made h id s.name s.code s.gen

theorem Right.mono {h : History} {j j' : Jit} {e : Op × Res} (hr : Right h j)
    (hs : ∀ s ∈ j'.syms, s ∈ j.syms ∨ ∀ id, ¬ Given h id s.addr)
    (he : ∀ id o l a, e ≠ (.jitFunction id o l, .addr a)) : Right (e :: h) j' := by
  intro id a hg s h1 h2
  have hg' := given_quiet hg he
  rcases hs s h1 with h3 | h3
  · exact .inl (hr id a hg' s h3 h2)
  · rw [← h2] at hg'
    exact absurd hg' (h3 id)

/-- What a commit does to the symbols. -/
theorem commit_syms {j j' : Jit} {c c' : Comp} {ok : Bool} (hc : commit j c = (j', c', ok)) :
    ∀ s, s ∈ j.syms → s ∈ j'.syms := by
  intro s hs
  cases ho : c.orc with
  | none => simp [commit, ho] at hc; rw [← hc.1]; exact hs
  | some o =>
    cases ha : c.aot with
    | true => simp [commit, ho, ha] at hc; rw [← hc.1]; exact hs
    | false =>
      rcases commit_cases (j := j) ho ha with ⟨_, h3⟩ | ⟨_, _, h3⟩ | ⟨_, _, h3⟩
      · rw [h3] at hc; cases hc; exact hs
      · rw [h3] at hc; cases hc; exact hs
      · rw [h3] at hc; cases hc; exact List.mem_append_left _ hs

theorem commit_new {j j' : Jit} {c c' : Comp} {ok : Bool} (hc : commit j c = (j', c', ok)) :
    ∀ s ∈ j'.syms, s ∈ j.syms ∨ j.nextAddr ≤ s.addr := by
  intro s hs
  cases ho : c.orc with
  | none => simp [commit, ho] at hc; rw [← hc.1] at hs; exact .inl hs
  | some o =>
    cases ha : c.aot with
    | true => simp [commit, ho, ha] at hc; rw [← hc.1] at hs; exact .inl hs
    | false =>
      rcases commit_cases (j := j) ho ha with ⟨_, h3⟩ | ⟨_, _, h3⟩ | ⟨_, _, h3⟩
      · rw [h3] at hc; cases hc; exact .inl hs
      · rw [h3] at hc; cases hc; exact .inl hs
      · rw [h3] at hc
        cases hc
        rcases List.mem_append.mp hs with hs | hs
        · exact .inl hs
        · exact .inr (mem_place hs).2.2.2.1

theorem jit_syms {j j' : Jit} {c c' : Comp} {r : Res} {id : Nat} {opt link : Bool}
    (he : jitFunction j c id opt link = (j', c', r)) :
    (∀ s ∈ j.syms, s ∈ j'.syms) ∧ ∀ s ∈ j'.syms, s ∈ j.syms ∨ j.nextAddr ≤ s.addr := by
  rcases jit_cases j c id opt link with h1 | ⟨ha, c0, j2, c2, ok, r2, hf, hc, h1, h2⟩
  · rw [h1] at he; cases he; exact ⟨fun _ h => h, fun _ h => .inl h⟩
  · rw [h1] at he
    cases he
    have k := ensureOrc_keeps j c0
    have h3 := commit_syms hc
    have h4 := commit_new hc
    rw [k.2.2.2.2.2.1] at h3 h4
    rw [k.2.2.2.2.2.2.1] at h4
    exact ⟨h3, h4⟩

theorem translate_syms {j : Jit} {c : Comp} {n : Name} {code : Code} {p u : Bool}
    (hb : ∀ m, c.builtins = some m → m = c.module ∨ c.finalized = true) :
    (translate j c n code p u).1.syms = j.syms := by
  rcases translate_cases j c n code p u hb with he | ⟨_, _, j1, c1, b, h1, _, he⟩
  · rw [he]
  · rw [he]
    cases ha : c.aot with
    | true => simp [ha] at h1; rw [h1.1]
    | false =>
      simp [ha] at h1
      have k := ensureOrc_keeps j c
      rw [← h1] at k
      exact k.2.2.2.2.2.1

theorem free_syms (j : Jit) (c : Comp) (id : Nat) : ∀ s ∈ (freeFunction j c id).1.syms, s ∈ j.syms := by
  intro s hs
  rcases free_cases j c id with ⟨_, he⟩ | ⟨o, _, ⟨f, _, _, he⟩ | ⟨funcs, _, ⟨_, he⟩ | ⟨i, _, ⟨_, he⟩ | ⟨t, _, he⟩⟩⟩⟩
  · rw [he] at hs; exact hs
  · rw [he] at hs; exact hs
  · rw [he] at hs; exact hs
  · rw [he] at hs; exact hs
  · rw [he] at hs; exact (List.mem_filter.mp hs).1

theorem clear_syms (j : Jit) (c : Comp) : ∀ s ∈ (clear j c).1.syms, s ∈ j.syms := by
  intro s hs
  rw [clear] at hs
  cases ho : c.orc with
  | none => simpa [ho] using hs
  | some o => simp only [ho] at hs; exact (List.mem_filter.mp hs).1

theorem Right.exec {h : History} {j j' : Jit} {c c' : Comp} {op : Op} {r : Res} (hr : Right h j) (v : Inv h j c)
    (he : exec j c op = (j', c', r))
    (hg : ∀ id o l a, op = .jitFunction id o l → r = .addr a → Good ((op, r) :: h) j' c') :
    Right ((op, r) :: h) j' := by
  cases op with
  | translate n code p u =>
    rw [Session.exec] at he
    have := translate_syms (j := j) (c := c) (n := n) (code := code) (p := p) (u := u) v.built
    rw [he] at this
    refine hr.mono (fun s hs => .inl (by rw [← this]; exact hs)) (fun _ _ _ _ h1 => by cases h1)
  | jitFunction id o l =>
    rw [Session.exec] at he
    obtain ⟨h1, h2⟩ := jit_syms he
    have hold : ∀ s ∈ j'.syms, s ∈ j.syms ∨ ∀ id, ¬ Given h id s.addr := by
      intro s hs
      rcases h2 s hs with h3 | h3
      · exact .inl h3
      · refine .inr fun id hg => ?_
        have := v.given id _ hg
        omega
    cases r with
    | addr a =>
      have g := hg id o l a rfl rfl
      intro id' a' hg' s hs hsa
      obtain ⟨o', l', hm⟩ := hg'
      rcases List.mem_cons.mp hm with hm | hm
      · cases hm
        rcases jit_cases j c id o l with h3 | ⟨ha, c0, j2, c2, ok, r2, hf, hc, h3, h4⟩
        · rw [h3] at he; cases he
        · rw [h3] at he
          cases he
          rcases h4 with ⟨_, h4⟩ | ⟨hok, h4 | ⟨h4, _⟩ | ⟨n, orc, a2, hn, ho, hl, h4⟩⟩
          · cases h4
          · cases h4
          · cases h4
          · cases h4
            have v' : Inv ((Op.jitFunction id o l, Res.addr a) :: h) j' c' := by
              have := v.jitFunction id o l
              rw [h3] at this
              exact this
            obtain ⟨s', hs', hd', hn', ha'⟩ := lookup_some hl
            have hss := eq_of_addr v'.jit hs hs' (hsa.trans ha'.symm)
            subst hss
            obtain ⟨code, hm⟩ := v'.named id n hn
            rcases (g.orcs orc ho).named id n code _ hn hm with ⟨hst, _⟩ | ⟨_, _, hall⟩
            · exfalso
              -- nothing stays staged after a successful commit
              have hso : ∀ o2, c'.orc = some o2 → o2.staged = [] := by
                intro o2 ho2
                obtain ⟨f1, f2, f3⟩ := finalize_true hf
                have k := ensureOrc_keeps j c0
                obtain ⟨o3, ho3, _⟩ := k.2.2.2.2.2.2.2
                rcases commit_cases (j := (Session.ensureOrc j c0).1) ho3 (k.2.1.trans (f2.trans ha)) with
                  ⟨h5, h6⟩ | ⟨_, _, h6⟩ | ⟨_, _, h6⟩
                · rw [h6] at hc
                  cases hc
                  rw [ho3] at ho2
                  cases ho2
                  exact h5
                · rw [h6] at hc
                  simp only [Prod.mk.injEq] at hc
                  rw [← hc.2.2] at hok
                  cases hok
                · rw [h6] at hc
                  cases hc
                  cases ho2
                  rfl
              rw [hso orc ho] at hst
              cases hst
            · obtain ⟨k1, k2⟩ := hall s hs hd' hn'
              rw [hn', k1, k2]
              exact hm
      · have hg2 : Given h id' a' := ⟨o', l', hm⟩
        rcases hold s hs with h3 | h3
        · exact .inl (hr id' a' hg2 s h3 hsa)
        · rw [← hsa] at hg2
          exact absurd hg2 (h3 id')
    | done => exact hr.mono hold (fun _ _ _ _ h1 => by cases h1)
    | id n => exact hr.mono hold (fun _ _ _ _ h1 => by cases h1)
    | object fs => exact hr.mono hold (fun _ _ _ _ h1 => by cases h1)
    | tracker t => exact hr.mono hold (fun _ _ _ _ h1 => by cases h1)
    | err => exact hr.mono hold (fun _ _ _ _ h1 => by cases h1)
    | panic => exact hr.mono hold (fun _ _ _ _ h1 => by cases h1)
    | dangling => exact hr.mono hold (fun _ _ _ _ h1 => by cases h1)
  | writeObject o =>
    cases he
    exact hr.mono (fun s hs => .inl hs) (fun _ _ _ _ h1 => by cases h1)
  | freeFunction id =>
    rw [Session.exec] at he
    have := free_syms j c id
    rw [he] at this
    exact hr.mono (fun s hs => .inl (this s hs)) (fun _ _ _ _ h1 => by cases h1)
  | clearIr =>
    cases he
    exact hr.mono (fun s hs => .inl hs) (fun _ _ _ _ h1 => by cases h1)
  | clear =>
    cases he
    exact hr.mono (fun s hs => .inl (clear_syms j c s hs)) (fun _ _ _ _ h1 => by cases h1)
  | takeTracker =>
    cases he
    exact hr.mono (fun s hs => .inl hs) (fun _ _ _ _ h1 => by cases h1)

end Verif.Session
