import Verif.Model.Dedup
import Verif.Spec.Redirect
import Verif.Lemmas.AMap
import Verif.Lemmas.FlowCfg
/-!
# Redirects: following, compressing, and the rounds that create them
-/

namespace Verif

theorem followFuel_ends {m : Redirects} (hm : Earlier m.get) (n t : Nat) (h : t < n) :
    ∃ e, followFuel m n t = some e ∧ Ends m.get t e := by
  induction n generalizing t with
  | zero => omega
  | succ n ih =>
    rw [followFuel]
    cases hg : m.get t with
    | none => exact ⟨t, rfl, .stop hg⟩
    | some v =>
      obtain ⟨e, h1, h2⟩ := ih v (by have := hm t v hg; omega)
      exact ⟨e, h1, .hop hg h2⟩

theorem follow_ends {m : Redirects} (hm : Earlier m.get) (t : Nat) :
    ∃ e, follow m t = some e ∧ Ends m.get t e :=
  followFuel_ends hm _ t (by omega)

/-- What compression keeps and establishes after the keys `ks` have been handled. -/
structure Compressed (m m' : Redirects) (ks : List Nat) : Prop where
  earlier : Earlier m'.get
  keys : ∀ k, (m'.get k).isSome = (m.get k).isSome
  ends : ∀ t e, Ends m'.get t e ↔ Ends m.get t e
  direct : ∀ k ∈ ks, ∀ v, m'.get k = some v → m'.get v = none

theorem compress_step {m : Redirects} (hm : Earlier m.get) {k t e : Nat} (hk : m.get k = some t)
    (he : Ends m.get t e) (hfin : ∀ q, (m.insert k e).get q = if q = k then some e else m.get q) :
    Compressed m (m.insert k e) [k] := by
  have hen := he.unredirected
  have hke : Ends m.get k e := .hop hk he
  have hlt : e < k := by
    have h1 : ∀ x y, Ends m.get x y → y ≤ x := by
      intro x y h
      induction h with
      | stop _ => exact Nat.le_refl _
      | hop h1 _ ih => have := hm _ _ h1; omega
    have := h1 _ _ he; have := hm _ _ hk; omega
  have hdec : Earlier (m.insert k e).get := by
    intro q v hq
    rw [hfin] at hq
    by_cases h : q = k
    · rw [if_pos h] at hq; cases hq; subst h; exact hlt
    · rw [if_neg h] at hq; exact hm q v hq
  have hfwd : ∀ x y, Ends m.get x y → Ends (m.insert k e).get x y := by
    intro x y h
    induction h with
    | @stop x h =>
      refine .stop ?_
      rw [hfin, if_neg (fun hx => by rw [hx, hk] at h; simp at h)]; exact h
    | @hop x n y h1 h2 ih =>
      by_cases hx : x = k
      · subst hx
        rw [hk] at h1; cases h1
        have := h2.unique he
        subst this
        exact .hop (by rw [hfin, if_pos rfl]) (.stop (by rw [hfin, if_neg (by omega)]; exact hen))
      · exact .hop (by rw [hfin, if_neg hx]; exact h1) ih
  refine ⟨hdec, fun q => ?_, fun x y => ⟨fun h => ?_, hfwd x y⟩, fun q hq v hv => ?_⟩
  · rw [hfin]
    by_cases h : q = k
    · rw [if_pos h, h, hk]; rfl
    · rw [if_neg h]
  · obtain ⟨y', _, h'⟩ := follow_ends hm x
    rw [h.unique (hfwd x y' h')]; exact h'
  · simp only [List.mem_singleton] at hq; subst hq
    rw [hfin, if_pos rfl] at hv; cases hv
    rw [hfin, if_neg (by omega)]; exact hen

/-- Compression keeps directness of keys already handled. -/
theorem compressLoop_ok (ks : List Nat) : ∀ m : Redirects, Earlier m.get →
    (∀ k ∈ ks, (m.get k).isSome = true) →
    ∃ m', compressLoop ks m = some m' ∧ Compressed m m' ks ∧
      ∀ k v, m.get k = some v → m.get v = none → m'.get k = some v := by
  induction ks with
  | nil =>
    intro m hm _
    exact ⟨m, rfl, ⟨hm, fun _ => rfl, fun _ _ => Iff.rfl, fun k hk => by simp at hk⟩, fun _ _ h _ => h⟩
  | cons k ks ih =>
    intro m hm hks
    obtain ⟨t, ht⟩ := Option.isSome_iff_exists.1 (hks k List.mem_cons_self)
    obtain ⟨e, he1, he2⟩ := follow_ends hm t
    rw [compressLoop, ht]
    simp only [he1, Option.bind_some]
    have hstep : Compressed m (if e ≠ t then m.insert k e else m) [k] ∧
        ∀ q v, m.get q = some v → m.get v = none → AMap.get (if e ≠ t then m.insert k e else m) q = some v := by
      by_cases h : e = t
      · rw [if_neg (by simpa using h)]
        subst h
        refine ⟨⟨hm, fun _ => rfl, fun _ _ => Iff.rfl, fun q hq v hv => ?_⟩, fun _ _ h _ => h⟩
        simp only [List.mem_singleton] at hq; subst hq
        rw [ht] at hv; cases hv; exact he2.unredirected
      · rw [if_pos h]
        refine ⟨compress_step hm ht he2 (fun q => AMap.get_insert m k q e), fun q v h1 h2 => ?_⟩
        rw [AMap.get_insert]
        by_cases hq : q = k
        · subst hq
          rw [ht] at h1; cases h1
          exact absurd (he2.unique (.stop h2)) h
        · rw [if_neg hq]; exact h1
    obtain ⟨c, d⟩ := hstep
    revert c d
    generalize (if e ≠ t then m.insert k e else m) = m1
    intro c d
    obtain ⟨m', g1, g2, g3⟩ := ih m1 c.earlier (fun q hq => by
      rw [c.keys]; exact hks q (List.mem_cons_of_mem _ hq))
    refine ⟨m', g1, ⟨g2.earlier, fun q => by rw [g2.keys, c.keys], fun x y => by rw [g2.ends, c.ends],
      fun q hq v hv => ?_⟩, fun q v h1 h2 => ?_⟩
    · rcases List.mem_cons.1 hq with rfl | hq
      · obtain ⟨w, hw⟩ := Option.isSome_iff_exists.1 (by rw [c.keys, ht]; rfl : (m1.get q).isSome = true)
        have hw0 := c.direct q (by simp) w hw
        have := g3 q w hw hw0
        rw [this] at hv; cases hv
        have hk2 := g2.keys v
        rw [hw0] at hk2
        cases hg : m'.get v with
        | none => rfl
        | some _ => rw [hg] at hk2; simp at hk2
      · exact g2.direct q hq v hv
    · refine g3 q v (d q v h1 h2) ?_
      have := c.keys v
      rw [h2] at this
      cases hg : m1.get v with
      | none => rfl
      | some _ => rw [hg] at this; simp at this

theorem compress_ok {m : Redirects} (hm : Earlier m.get) :
    ∃ m', compress m = some m' ∧ Compressed m m' m.keys := by
  obtain ⟨m', h1, h2, _⟩ := compressLoop_ok m.keys m hm (fun k hk => by
    obtain ⟨v, hv⟩ := (AMap.mem_keys_iff m k).1 hk
    rw [hv]; rfl)
  exact ⟨m', h1, h2⟩

/-! ## The groups of a round -/

/-- Group lists are increasing and below `n`. -/
def GroupsBelow (n : Nat) (gs : List (DedupKey × List Nat)) : Prop :=
  ∀ g ∈ gs, g.2.Pairwise (· < ·) ∧ ∀ b ∈ g.2, b < n

theorem pushGroup_mem {k : DedupKey} {b : Nat} {gs : List (DedupKey × List Nat)} {g : DedupKey × List Nat}
    (h : g ∈ pushGroup k b gs) : g ∈ gs ∨ g = (k, [b]) ∨ ∃ l, (k, l) ∈ gs ∧ g = (k, l ++ [b]) := by
  induction gs with
  | nil => rw [pushGroup, List.mem_singleton] at h; exact .inr (.inl h)
  | cons a r ih =>
    obtain ⟨k', l⟩ := a
    rw [pushGroup] at h
    by_cases hk : k' = k
    · rw [if_pos hk] at h
      subst hk
      rcases List.mem_cons.1 h with rfl | h
      · exact .inr (.inr ⟨l, List.mem_cons_self, rfl⟩)
      · exact .inl (List.mem_cons_of_mem _ h)
    · rw [if_neg hk] at h
      rcases List.mem_cons.1 h with rfl | h
      · exact .inl List.mem_cons_self
      · rcases ih h with h | h | ⟨l', h1, h2⟩
        · exact .inl (List.mem_cons_of_mem _ h)
        · exact .inr (.inl h)
        · exact .inr (.inr ⟨l', List.mem_cons_of_mem _ h1, h2⟩)

/-- The facts a round relies on about its groups. -/
structure GroupsOk (key : Nat × Nat → Option DedupKey) (bs : List (Nat × Nat)) (n : Nat)
    (gs : List (DedupKey × List Nat)) : Prop where
  below : GroupsBelow n gs
  keys : ∀ g ∈ gs, ∀ b ∈ g.2, ∃ x, bs[b]? = some x ∧ key x = some g.1
  distinct : gs.Pairwise fun g g' => g.1 ≠ g'.1

theorem pushGroup_ok {key : Nat × Nat → Option DedupKey} {bs : List (Nat × Nat)} {n : Nat}
    {gs : List (DedupKey × List Nat)} (h : GroupsOk key bs n gs) {k : DedupKey} {x : Nat × Nat}
    (hx : bs[n]? = some x) (hk : key x = some k) : GroupsOk key bs (n + 1) (pushGroup k n gs) := by
  refine ⟨fun g hg => ?_, fun g hg b hb => ?_, ?_⟩
  · rcases pushGroup_mem hg with h1 | rfl | ⟨l, h1, rfl⟩
    · obtain ⟨a, b⟩ := h.below g h1
      exact ⟨a, fun q hq => Nat.lt_succ_of_lt (b q hq)⟩
    · simp
    · obtain ⟨a, b⟩ := h.below _ h1
      refine ⟨?_, fun q hq => ?_⟩
      · rw [List.pairwise_append]
        refine ⟨a, by simp, fun p hp q hq => ?_⟩
        simp only [List.mem_singleton] at hq; subst hq
        exact b p hp
      · rcases List.mem_append.1 hq with hq | hq
        · exact Nat.lt_succ_of_lt (b q hq)
        · simp only [List.mem_singleton] at hq; omega
  · rcases pushGroup_mem hg with h1 | rfl | ⟨l, h1, rfl⟩
    · exact h.keys g h1 b hb
    · simp only [List.mem_singleton] at hb; subst hb
      exact ⟨x, hx, hk⟩
    · rcases List.mem_append.1 hb with hb | hb
      · exact h.keys _ h1 b hb
      · simp only [List.mem_singleton] at hb; subst hb
        exact ⟨x, hx, hk⟩
  · have hd := h.distinct
    clear h
    induction gs with
    | nil => simp [pushGroup]
    | cons a r ih =>
      obtain ⟨k', l⟩ := a
      rw [List.pairwise_cons] at hd
      rw [pushGroup]
      by_cases hk' : k' = k
      · rw [if_pos hk', List.pairwise_cons]
        exact ⟨hd.1, hd.2⟩
      · rw [if_neg hk', List.pairwise_cons]
        refine ⟨fun g hg => ?_, ih hd.2⟩
        rcases pushGroup_mem hg with h1 | rfl | ⟨l', h1, rfl⟩
        · exact hd.1 g h1
        · exact hk'
        · exact hk'

theorem groups_ok (s : DState) (bs : List (Nat × Nat)) : GroupsOk (s.key bs) bs bs.length (s.groups bs) := by
  suffices h : ∀ (l : List (Nat × Nat)) (n : Nat) (gs : List (DedupKey × List Nat)), l = bs.drop n →
      n ≤ bs.length → GroupsOk (s.key bs) bs n gs →
      GroupsOk (s.key bs) bs bs.length ((l.zipIdx n).foldl (fun gs x => match s.key bs x.1 with
        | none => gs
        | some k => pushGroup k x.2 gs) gs) by
    exact h bs 0 [] (by simp) (by omega) ⟨fun g hg => by simp at hg, fun g hg => by simp at hg, by simp⟩
  intro l
  induction l with
  | nil =>
    intro n gs hl hn h
    have : bs.length ≤ n := by
      have := congrArg List.length hl
      rw [List.length_nil, List.length_drop] at this; omega
    have : n = bs.length := by omega
    subst this; exact h
  | cons x l ih =>
    intro n gs hl hn h
    have hnl : n < bs.length := by
      have := congrArg List.length hl
      rw [List.length_cons, List.length_drop] at this; omega
    have hget : bs[n]? = some x := by
      have := congrArg (fun l => l[0]?) hl
      simp only [List.getElem?_cons_zero, List.getElem?_drop, Nat.add_zero] at this
      exact this.symm
    rw [List.zipIdx_cons, List.foldl_cons]
    refine ih (n + 1) _ (by
      have := congrArg List.tail hl
      rw [List.tail_cons, List.tail_drop] at this
      exact this) (by omega) ?_
    show GroupsOk _ _ _ (match s.key bs x with
        | none => gs
        | some k => pushGroup k n gs)
    cases hk : s.key bs x with
    | none =>
      exact ⟨fun g hg => ⟨(h.below g hg).1, fun b hb => Nat.lt_succ_of_lt ((h.below g hg).2 b hb)⟩,
        h.keys, h.distinct⟩
    | some k => exact pushGroup_ok h hget hk

/-- No block is in two groups. -/
theorem groups_disjoint {s : DState} {bs : List (Nat × Nat)} :
    (s.groups bs).Pairwise fun g g' => ∀ b ∈ g.2, b ∉ g'.2 := by
  have h := groups_ok s bs
  refine (List.Pairwise.and_mem.1 h.distinct).imp ?_
  rintro g g' ⟨hg, hg', hne⟩ b hb hb'
  obtain ⟨x, h1, h2⟩ := h.keys g hg b hb
  obtain ⟨y, h3, h4⟩ := h.keys g' hg' b hb'
  rw [h1] at h3; cases h3
  rw [h2] at h4
  exact hne (Option.some.inj h4)

/-! ## The redirects a round adds -/

/-- The redirects one group adds: from every later block to the first. -/
def groupEdges (bs : List (Nat × Nat)) : List Nat → List (Nat × Nat)
  | c :: d :: rest => (d :: rest).filterMap fun b =>
      match bs[b]?, bs[c]? with
      | some x, some y => some (x.1, y.1)
      | _, _ => none
  | _ => []

/-- Inserting a list of redirects. -/
def insertAll (m : Redirects) (l : List (Nat × Nat)) : Redirects := l.foldl (fun m e => m.insert e.1 e.2) m

theorem merge_redirects {s s' : DState} {preds : List (Nat × Nat)} {canon dup : Nat × Nat}
    (h : s.merge preds canon dup = some s') : s'.redirects = s.redirects.insert dup.1 canon.1 ∧ s'.ai = s.ai := by
  unfold DState.merge at h
  dsimp only at h
  obtain ⟨p, _, rfl⟩ := Option.map_eq_some_iff.1 h
  exact ⟨rfl, rfl⟩

theorem mergeAll_redirects {bs : List (Nat × Nat)} {succ : Nat × Nat → List Nat} {canon : Nat × Nat} {c : Nat}
    (hc : bs[c]? = some canon) (l : List Nat) : ∀ {s s' : DState},
    DState.mergeAll bs succ canon l s = some s' →
      s'.redirects = insertAll s.redirects (l.filterMap fun b =>
        match bs[b]?, bs[c]? with
        | some x, some y => some (x.1, y.1)
        | _, _ => none) ∧ s'.ai = s.ai := by
  induction l with
  | nil => intro s s' h; rw [DState.mergeAll] at h; cases h; exact ⟨rfl, rfl⟩
  | cons b rest ih =>
    intro s s' h
    rw [DState.mergeAll] at h
    cases hb : bs[b]? with
    | none => rw [hb] at h; simp at h
    | some dup =>
      rw [hb] at h
      obtain ⟨s1, h1, h2⟩ := Option.bind_eq_some_iff.1 h
      obtain ⟨r1, r2⟩ := merge_redirects h1
      obtain ⟨q1, q2⟩ := ih h2
      rw [q1, q2, r1, r2, List.filterMap_cons, hb, hc]
      exact ⟨rfl, rfl⟩

theorem mergeGroup_redirects {loc : AIState} {bs : List (Nat × Nat)} {succ : Nat × Nat → List Nat}
    {g : List Nat} {s s' : DState} (h : s.mergeGroup loc bs succ g = some s') :
    s'.redirects = insertAll s.redirects (groupEdges bs g) := by
  unfold DState.mergeGroup at h
  match g, h with
  | [], h => cases h; rfl
  | [_], h => cases h; rfl
  | c :: d :: rest, h =>
    dsimp only at h
    cases hc : bs[c]? with
    | none => rw [hc] at h; simp at h
    | some canon =>
      rw [hc] at h
      exact (mergeAll_redirects hc _ h).1

theorem mergeGroups_redirects {loc : AIState} {bs : List (Nat × Nat)} {succ : Nat × Nat → List Nat}
    (gs : List (List Nat)) : ∀ {s s' : DState}, DState.mergeGroups loc bs succ gs s = some s' →
    s'.redirects = insertAll s.redirects (gs.flatMap (groupEdges bs)) := by
  induction gs with
  | nil => intro s s' h; rw [DState.mergeGroups] at h; cases h; rfl
  | cons g gs ih =>
    intro s s' h
    rw [DState.mergeGroups] at h
    obtain ⟨s1, h1, h2⟩ := Option.bind_eq_some_iff.1 h
    rw [ih h2, mergeGroup_redirects h1, List.flatMap_cons, insertAll, insertAll, insertAll, List.foldl_append]

theorem insertAll_earlier (l : List (Nat × Nat)) : ∀ {m : Redirects}, Earlier m.get →
    (∀ e ∈ l, e.2 < e.1) → Earlier (insertAll m l).get := by
  induction l with
  | nil => intro m hm _; exact hm
  | cons e l ih =>
    intro m hm hl
    refine ih (m := m.insert e.1 e.2) (fun k v h => ?_) (fun e' he => hl e' (List.mem_cons_of_mem _ he))
    rw [AMap.get_insert] at h
    by_cases hk : k = e.1
    · rw [if_pos hk] at h; cases h; rw [hk]; exact hl e List.mem_cons_self
    · rw [if_neg hk] at h; exact hm k v h

theorem groupEdges_earlier {p : Prog} {g : List Nat} (hg : g.Pairwise (· < ·)) {e : Nat × Nat}
    (he : e ∈ groupEdges p.blocks g) : e.2 < e.1 := by
  match g, hg, he with
  | [], _, he => simp [groupEdges] at he
  | [_], _, he => simp [groupEdges] at he
  | c :: d :: rest, hg, he =>
    obtain ⟨b, hb, hx⟩ := List.mem_filterMap.1 he
    have hcb := (List.pairwise_cons.1 hg).1 b hb
    cases h1 : p.blocks[b]? with
    | none => rw [h1] at hx; simp at hx
    | some x =>
      cases h2 : p.blocks[c]? with
      | none => rw [h1, h2] at hx; simp at hx
      | some y =>
        rw [h1, h2] at hx
        cases hx
        have := p.blocks_lt h2 h1 hcb
        have := (p.blocks_ok.range y (List.mem_of_getElem? h2)).2.1
        show y.1 < x.1
        omega

theorem once_earlier {loc : AIState} {s s' : DState} {n : Nat} (h : s.once loc = some (s', n))
    (hm : Earlier s.redirects.get) : Earlier s'.redirects.get := by
  unfold DState.once at h
  dsimp only at h
  obtain ⟨s1, h1, h2⟩ := Option.map_eq_some_iff.1 h
  cases h2
  rw [mergeGroups_redirects _ h1]
  refine insertAll_earlier _ hm (fun e he => ?_)
  obtain ⟨g, hg, he⟩ := List.mem_flatMap.1 he
  obtain ⟨g', hg', rfl⟩ := List.mem_map.1 hg
  exact groupEdges_earlier ((groups_ok s _).below g' hg').1 he

theorem refresh_compress {s s' : DState} (h : s.refresh = some s') : compress s.redirects = some s'.redirects := by
  unfold DState.refresh at h
  obtain ⟨p, _, h⟩ := Option.bind_eq_some_iff.1 h
  obtain ⟨p', _, h⟩ := Option.bind_eq_some_iff.1 h
  obtain ⟨m, h1, rfl⟩ := Option.map_eq_some_iff.1 h
  exact h1

/-- No group has a second block when a round reports no merge. -/
theorem once_zero {loc : AIState} {s s' : DState} (h : s.once loc = some (s', 0)) :
    s'.redirects = s.redirects := by
  unfold DState.once at h
  dsimp only at h
  obtain ⟨s1, h1, h2⟩ := Option.map_eq_some_iff.1 h
  have hs : s1 = s' := congrArg Prod.fst h2
  have hz : (((s.groups s.prog.blocks).map (·.2)).map (·.length - 1)).sum = 0 := congrArg Prod.snd h2
  subst hs
  rw [mergeGroups_redirects _ h1]
  have : ((s.groups s.prog.blocks).map (·.2)).flatMap (groupEdges s.prog.blocks) = [] := by
    rw [List.flatMap_eq_nil_iff]
    intro g hg
    have : g.length - 1 = 0 := by
      have h0 := List.sum_eq_zero_iff_forall_eq_nat.1 hz
      exact h0 _ (List.mem_map.2 ⟨g, hg, rfl⟩)
    match g, this with
    | [], _ => rfl
    | [_], _ => rfl
    | _ :: _ :: _, h => simp at h
  rw [this]; rfl

end Verif
