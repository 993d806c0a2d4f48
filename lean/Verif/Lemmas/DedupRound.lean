import Verif.Props.Dedup
/-!
# One round of deduplication, in closed form
-/

namespace Verif
open Spec

/-- One merge of a round: the blocks before the duplicate, the kept block, the duplicate. -/
structure Merge where
  preds : List (Nat × Nat)
  canon : Nat × Nat
  dup : Nat × Nat

/-- What a merge does to the program. -/
def mergeProg (p : Prog) (x : Merge) : Option Prog :=
  (mergeTargets (killed { prog := p } x.canon x.dup) (x.canon.2 - 1) (x.dup.2 - 1)).map fun q =>
    x.preds.foldl (retarget x.dup.1 x.canon.1) q

/-- All merges of a round. -/
def mergeProgs : List Merge → Prog → Option Prog
  | [], p => some p
  | x :: xs, p => (mergeProg p x).bind (mergeProgs xs)

/-- The merges of one group. -/
def groupMerges (bs : List (Nat × Nat)) (succ : Nat × Nat → List Nat) : List Nat → List Merge
  | c :: d :: rest => (d :: rest).filterMap fun b =>
      match bs[b]?, bs[c]? with
      | some x, some y => some ⟨predBlocks bs succ b, y, x⟩
      | _, _ => none
  | _ => []

/-- The merges of a round. -/
def roundMerges (s : DState) : List Merge :=
  ((s.groups s.prog.blocks).map (·.2)).flatMap (groupMerges s.prog.blocks (s.succs s.prog.blocks))

theorem mergeProgs_append (a b : List Merge) : ∀ p, mergeProgs (a ++ b) p = (mergeProgs a p).bind (mergeProgs b) := by
  induction a with
  | nil => intro p; rfl
  | cons x a ih =>
    intro p
    show (mergeProg p x).bind (mergeProgs (a ++ b)) = ((mergeProg p x).bind (mergeProgs a)).bind _
    cases mergeProg p x with
    | none => rfl
    | some q => exact ih q

theorem mergeAll_prog {bs : List (Nat × Nat)} {succ : Nat × Nat → List Nat} {canon : Nat × Nat} {c : Nat}
    (hc : bs[c]? = some canon) (l : List Nat) : ∀ {s s' : DState},
    DState.mergeAll bs succ canon l s = some s' →
      mergeProgs (l.filterMap fun b =>
        match bs[b]?, bs[c]? with
        | some x, some y => some ⟨predBlocks bs succ b, y, x⟩
        | _, _ => none) s.prog = some s'.prog := by
  induction l with
  | nil => intro s s' h; rw [DState.mergeAll] at h; cases h; rfl
  | cons b rest ih =>
    intro s s' h
    rw [DState.mergeAll] at h
    cases hb : bs[b]? with
    | none => rw [hb] at h; simp at h
    | some dup =>
      rw [hb] at h
      obtain ⟨s1, h1, h2⟩ := Option.bind_eq_some_iff.1 h
      rw [List.filterMap_cons, hb, hc]
      show (mergeProg s.prog ⟨_, canon, dup⟩).bind _ = _
      have : mergeProg s.prog ⟨predBlocks bs succ b, canon, dup⟩ = some s1.prog := by
        rw [merge_eq] at h1
        obtain ⟨p, g1, rfl⟩ := Option.map_eq_some_iff.1 h1
        exact Option.map_eq_some_iff.2 ⟨p, g1, rfl⟩
      rw [this, Option.bind_some, ← hc]
      exact ih h2

theorem mergeGroup_prog {loc : AIState} {bs : List (Nat × Nat)} {succ : Nat × Nat → List Nat}
    {g : List Nat} {s s' : DState} (h : s.mergeGroup loc bs succ g = some s') :
    mergeProgs (groupMerges bs succ g) s.prog = some s'.prog := by
  unfold DState.mergeGroup at h
  match g, h with
  | [], h => cases h; rfl
  | [_], h => cases h; rfl
  | c :: d :: rest, h =>
    dsimp only at h
    cases hc : bs[c]? with
    | none => rw [hc] at h; simp at h
    | some canon =>
      rw [hc] at h
      exact mergeAll_prog (s := { s with ai := restore s.ai loc fun i => decide (canon.1 ≤ i) && decide (i < canon.2) })
        hc _ h

theorem mergeGroups_prog {loc : AIState} {bs : List (Nat × Nat)} {succ : Nat × Nat → List Nat}
    (gs : List (List Nat)) : ∀ {s s' : DState}, DState.mergeGroups loc bs succ gs s = some s' →
    mergeProgs (gs.flatMap (groupMerges bs succ)) s.prog = some s'.prog := by
  induction gs with
  | nil => intro s s' h; rw [DState.mergeGroups] at h; cases h; rfl
  | cons g gs ih =>
    intro s s' h
    rw [DState.mergeGroups] at h
    obtain ⟨s1, h1, h2⟩ := Option.bind_eq_some_iff.1 h
    rw [List.flatMap_cons, mergeProgs_append, mergeGroup_prog h1]
    exact ih h2

theorem once_groups {loc : AIState} {s s' : DState} {n : Nat} (h : s.once loc = some (s', n)) :
    DState.mergeGroups loc s.prog.blocks (s.succs s.prog.blocks)
      ((s.groups s.prog.blocks).map (·.2)) s = some s' := by
  unfold DState.once at h
  dsimp only at h
  obtain ⟨s1, h1, h2⟩ := Option.map_eq_some_iff.1 h
  have hs1 : s1 = s' := congrArg Prod.fst h2
  rw [hs1] at h1
  exact h1

theorem once_prog {loc : AIState} {s s' : DState} {n : Nat} (h : s.once loc = some (s', n)) :
    mergeProgs (roundMerges s) s.prog = some s'.prog := mergeGroups_prog _ (once_groups h)

/-! ## The merges of a round -/

theorem mem_groupMerges {bs : List (Nat × Nat)} {succ : Nat × Nat → List Nat} {g : List Nat} {m : Merge}
    (h : m ∈ groupMerges bs succ g) :
    ∃ c b, g.head? = some c ∧ b ∈ g.tail ∧ bs[b]? = some m.dup ∧ bs[c]? = some m.canon ∧
      m.preds = predBlocks bs succ b := by
  match g, h with
  | [], h => simp [groupMerges] at h
  | [_], h => simp [groupMerges] at h
  | c :: d :: rest, h =>
    obtain ⟨b, hb, hx⟩ := List.mem_filterMap.1 h
    cases h1 : bs[b]? with
    | none => rw [h1] at hx; simp at hx
    | some x =>
      cases h2 : bs[c]? with
      | none => rw [h1, h2] at hx; simp at hx
      | some y =>
        rw [h1, h2] at hx
        cases hx
        exact ⟨c, b, rfl, hb, h1, h2, rfl⟩

theorem mem_roundMerges {s : DState} {m : Merge} (h : m ∈ roundMerges s) :
    ∃ g ∈ s.groups s.prog.blocks, ∃ c b, g.2.head? = some c ∧ b ∈ g.2.tail ∧
      s.prog.blocks[b]? = some m.dup ∧ s.prog.blocks[c]? = some m.canon ∧
      m.preds = predBlocks s.prog.blocks (s.succs s.prog.blocks) b := by
  obtain ⟨g, hg, he⟩ := List.mem_flatMap.1 h
  obtain ⟨g', hg', rfl⟩ := List.mem_map.1 hg
  exact ⟨g', hg', mem_groupMerges he⟩

theorem roundMerges_edge {s : DState} {m : Merge} (h : m ∈ roundMerges s) :
    (m.dup.1, m.canon.1) ∈ roundEdges s := by
  obtain ⟨g, hg, he⟩ := List.mem_flatMap.1 h
  refine List.mem_flatMap.2 ⟨g, hg, ?_⟩
  match g, he with
  | [], h => simp [groupMerges] at h
  | [_], h => simp [groupMerges] at h
  | c :: d :: rest, h =>
    obtain ⟨b, hb, hx⟩ := List.mem_filterMap.1 h
    refine List.mem_filterMap.2 ⟨b, hb, ?_⟩
    cases h1 : s.prog.blocks[b]? with
    | none => rw [h1] at hx; simp at hx
    | some x =>
      cases h2 : s.prog.blocks[c]? with
      | none => rw [h1, h2] at hx; simp at hx
      | some y =>
        rw [h1, h2] at hx
        cases hx
        rfl

theorem edge_roundMerges {s : DState} {k v : Nat} (h : (k, v) ∈ roundEdges s) :
    ∃ m ∈ roundMerges s, m.dup.1 = k ∧ m.canon.1 = v := by
  obtain ⟨g, hg, he⟩ := List.mem_flatMap.1 h
  match g, hg, he with
  | [], _, h => simp [groupEdges] at h
  | [_], _, h => simp [groupEdges] at h
  | c :: d :: rest, hg, h =>
    obtain ⟨b, hb, hx⟩ := List.mem_filterMap.1 h
    cases h1 : s.prog.blocks[b]? with
    | none => rw [h1] at hx; simp at hx
    | some x =>
      cases h2 : s.prog.blocks[c]? with
      | none => rw [h1, h2] at hx; simp at hx
      | some y =>
        rw [h1, h2] at hx
        cases hx
        refine ⟨⟨predBlocks s.prog.blocks (s.succs s.prog.blocks) b, y, x⟩, ?_, rfl, rfl⟩
        exact List.mem_flatMap.2 ⟨_, hg, List.mem_filterMap.2 ⟨b, hb, by rw [h1, h2]⟩⟩

/-- The facts about one merge of a round. -/
structure MergeOk (s : DState) (m : Merge) : Prop where
  dupIn : m.dup ∈ s.prog.blocks
  canonIn : m.canon ∈ s.prog.blocks
  before : m.canon.2 ≤ m.dup.1
  key : ∃ k, s.key s.prog.blocks m.dup = some k ∧ s.key s.prog.blocks m.canon = some k
  preds : ∃ b, s.prog.blocks[b]? = some m.dup ∧ m.preds = predBlocks s.prog.blocks (s.succs s.prog.blocks) b

theorem mergeOk {s : DState} {m : Merge} (h : m ∈ roundMerges s) : MergeOk s m := by
  obtain ⟨g, hg, c, b, h1, h2, h3, h4, h5⟩ := mem_roundMerges h
  have hok := groups_ok s s.prog.blocks
  obtain ⟨x, x1, hkd⟩ := hok.keys g hg b (List.mem_of_mem_tail h2)
  rw [h3] at x1; cases x1
  obtain ⟨x, x1, hkc⟩ := hok.keys g hg c (List.mem_of_mem_head? h1)
  rw [h4] at x1; cases x1
  have hlt : c < b := by
    have := (hok.below g hg).1
    match hq : g.2, h1, h2 with
    | c' :: rest, h1, h2 =>
      rw [hq, List.pairwise_cons] at this
      rw [List.head?_cons] at h1; cases h1
      exact this.1 b (by simpa using h2)
  exact ⟨List.mem_of_getElem? h3, List.mem_of_getElem? h4, s.prog.blocks_lt h4 h3 hlt, ⟨_, hkd, hkc⟩, b, h3, h5⟩

/-- The kept block of a merge is no duplicate. -/
theorem canon_ne_dup {s : DState} {m m' : Merge} (h : m ∈ roundMerges s) (h' : m' ∈ roundMerges s) :
    m.canon ≠ m'.dup := by
  intro he
  obtain ⟨g, hg, c, b, h1, h2, h3, h4, h5⟩ := mem_roundMerges h
  obtain ⟨g', hg', c', b', h1', h2', h3', h4', h5'⟩ := mem_roundMerges h'
  rw [he] at h4
  have := s.prog.block_start_inj h4 h3' rfl
  subst this
  have := group_unique hg hg' (List.mem_of_mem_head? h1) (List.mem_of_mem_tail h2')
  subst this
  have hp := ((groups_ok s s.prog.blocks).below g hg).1
  match hq : g.2, h1, h2' with
  | c' :: rest, h1, h2' =>
    rw [hq, List.pairwise_cons] at hp
    rw [List.head?_cons] at h1; cases h1
    have := hp.1 _ (by simpa using h2')
    omega

/-- Two merges of the same duplicate are the same. -/
theorem merge_unique {s : DState} {m m' : Merge} (h : m ∈ roundMerges s) (h' : m' ∈ roundMerges s)
    (he : m.dup.1 = m'.dup.1) : m.dup = m'.dup ∧ m.canon = m'.canon := by
  obtain ⟨g, hg, c, b, h1, h2, h3, h4, h5⟩ := mem_roundMerges h
  obtain ⟨g', hg', c', b', h1', h2', h3', h4', h5'⟩ := mem_roundMerges h'
  have := s.prog.block_start_inj h3 h3' he
  subst this
  have := group_unique hg hg' (List.mem_of_mem_tail h2) (List.mem_of_mem_tail h2')
  subst this
  rw [h1] at h1'; cases h1'
  rw [h3] at h3'; rw [h4] at h4'
  exact ⟨Option.some.inj h3', Option.some.inj h4'⟩

/-! ## What a round does to an instruction -/

/-- A static jump with one valid target. -/
def Single (d : InstData) : Bool := d.isStaticJump && !d.flags.invalidJump && !d.flags.multiJump

/-- The target of a jump after one merge. -/
def hitData (i : Nat) (single : Bool) (t : Nat) (x : Merge) : Nat :=
  if single && t == x.dup.1 && x.preds.any (fun b => b.2 - 1 == i) then x.canon.1 else t

/-- Instruction `i` is in a duplicate. -/
def inDup (ms : List Merge) (i : Nat) : Bool := ms.any fun m => decide (m.dup.1 ≤ i) && decide (i < m.dup.2)

/-- Instruction `i` before (`d`) and after (`d'`) the merges `ms`, up to the reachable bit. -/
structure Merged (ms : List Merge) (i : Nat) (d d' : InstData) : Prop where
  op : d'.opcode = d.opcode
  io : d'.stackIo = d.stackIo
  gas : d'.baseGas = d.baseGas
  flags : d'.flags = { d.flags with deadCode := d.flags.deadCode || inDup ms i }
  data : d'.data = ms.foldl (hitData i (Single d)) d.data

theorem retarget_get (dup canon : Nat) (p : Prog) (x : Nat × Nat) (i : Nat) :
    (retarget dup canon p x).insts[i]? = (p.insts[i]?).map fun d =>
      if x.2 - 1 = i ∧ Single d = true ∧ d.data = dup then { d with data := canon } else d := by
  unfold retarget Prog.modify
  dsimp only
  rw [List.getElem?_modify]
  cases p.insts[i]? with
  | none => rfl
  | some d =>
    rw [Option.map_eq_map, Option.map_some, Option.map_some]
    congr 1
    by_cases h : x.2 - 1 = i
    · unfold Single InstData.staticJumpTarget
      simp only [h, true_and, if_true]
      by_cases h2 : (d.isStaticJump && !d.flags.invalidJump && !d.flags.multiJump) = true
      · rw [h2]
        by_cases h3 : d.data = dup
        · simp [h3]
        · simp [h3]
      · have : (d.isStaticJump && !d.flags.invalidJump && !d.flags.multiJump) = false := by simpa using h2
        rw [this]; simp
    · simp [h]

theorem retargets_get {dup canon : Nat} (hne : canon ≠ dup) (l : List (Nat × Nat)) : ∀ (p : Prog) (i : Nat),
    (l.foldl (retarget dup canon) p).insts[i]? = (p.insts[i]?).map fun d =>
      if (l.any fun b => b.2 - 1 == i) = true ∧ Single d = true ∧ d.data = dup then { d with data := canon } else d := by
  induction l with
  | nil =>
    intro p i
    simp
  | cons x l ih =>
    intro p i
    rw [List.foldl_cons, ih, retarget_get, Option.map_map]
    congr 1
    funext d
    rw [Function.comp_apply, List.any_cons]
    by_cases h1 : x.2 - 1 = i ∧ Single d = true ∧ d.data = dup
    · rw [if_pos h1]
      have hs : ({ d with data := canon } : InstData).data = canon := rfl
      rw [if_neg (fun h => hne (hs.symm.trans h.2.2)), if_pos]
      exact ⟨by simp [h1.1], h1.2⟩
    · rw [if_neg h1]
      by_cases h2 : x.2 - 1 = i
      · have h3 : ¬ (Single d = true ∧ d.data = dup) := fun h => h1 ⟨h2, h⟩
        rw [if_neg (fun h => h3 h.2), if_neg (fun h => h3 h.2)]
      · have : (x.2 - 1 == i) = false := by simpa using h2
        rw [this, Bool.false_or]

theorem killed_get (s : DState) (canon dup : Nat × Nat) {i : Nat} {d : InstData} (hd : s.prog.insts[i]? = some d) :
    ∃ d', (killed s canon dup).insts[i]? = some d' ∧ d'.opcode = d.opcode ∧ d'.stackIo = d.stackIo ∧
      d'.baseGas = d.baseGas ∧
      d'.flags = { d.flags with deadCode := d.flags.deadCode || (decide (dup.1 ≤ i) && decide (i < dup.2)) } ∧
      d'.data = d.data := by
  have h1 : ∃ d', (s.prog.insts.mapIdx fun i d =>
      if dup.1 ≤ i ∧ i < dup.2 then { d with flags := { d.flags with deadCode := true } } else d)[i]? = some d' ∧
      d'.opcode = d.opcode ∧ d'.stackIo = d.stackIo ∧ d'.baseGas = d.baseGas ∧
      d'.flags = { d.flags with deadCode := d.flags.deadCode || (decide (dup.1 ≤ i) && decide (i < dup.2)) } ∧
      d'.data = d.data := by
    rw [List.getElem?_mapIdx, hd, Option.map_some]
    refine ⟨_, rfl, ?_⟩
    by_cases h : dup.1 ≤ i ∧ i < dup.2
    · rw [if_pos h]
      refine ⟨rfl, rfl, rfl, ?_, rfl⟩
      simp [h.1, h.2]
    · rw [if_neg h]
      refine ⟨rfl, rfl, rfl, ?_, rfl⟩
      have : (decide (dup.1 ≤ i) && decide (i < dup.2)) = false := by
        rw [← Bool.decide_and]; exact decide_eq_false h
      rw [this, Bool.or_false]
  unfold killed
  dsimp only
  split
  · obtain ⟨d', a, b⟩ := h1
    unfold Prog.modify
    dsimp only
    rw [List.getElem?_modify, a]
    refine ⟨_, rfl, ?_⟩
    split <;> exact b
  · exact h1

theorem mergeProg_merged {p p' : Prog} {x : Merge} (h : mergeProg p x = some p')
    (hne : x.canon.1 ≠ x.dup.1) (hterm : x.canon.2 - 1 ≠ x.dup.2 - 1) {i : Nat} {d : InstData} (hd : p.insts[i]? = some d) :
    ∃ d', p'.insts[i]? = some d' ∧ Merged [x] i d d' := by
  obtain ⟨q, h1, rfl⟩ := Option.map_eq_some_iff.1 h
  obtain ⟨a, _, _⟩ := mergeTargets_keeps hterm h1
  obtain ⟨d1, g1, g2, g3, g4, g5, g6⟩ := killed_get { prog := p } x.canon x.dup hd
  rw [retargets_get hne, a, g1, Option.map_some]
  refine ⟨_, rfl, ?_⟩
  have hs : Single d1 = Single d := by
    unfold Single InstData.isStaticJump InstData.isJump
    rw [g2, g5]
  have hdup : inDup [x] i = (decide (x.dup.1 ≤ i) && decide (i < x.dup.2)) := by simp [inDup]
  by_cases hc : (x.preds.any fun b => b.2 - 1 == i) = true ∧ Single d1 = true ∧ d1.data = x.dup.1
  · rw [if_pos hc]
    refine ⟨g2, g3, g4, by rw [hdup]; exact g5, ?_⟩
    show x.canon.1 = hitData i (Single d) d.data x
    unfold hitData
    rw [← hs, ← g6, hc.1, hc.2.1, hc.2.2]
    simp
  · rw [if_neg hc]
    refine ⟨g2, g3, g4, by rw [hdup]; exact g5, ?_⟩
    show d1.data = hitData i (Single d) d.data x
    unfold hitData
    rw [if_neg, g6]
    intro h
    simp only [Bool.and_eq_true, beq_iff_eq] at h
    exact hc ⟨h.2, by rw [hs]; exact h.1.1, by rw [g6]; exact h.1.2⟩

theorem mergeProg_len {p p' : Prog} {x : Merge} (h : mergeProg p x = some p')
    (hterm : x.canon.2 - 1 ≠ x.dup.2 - 1) : p'.insts.length = p.insts.length := by
  obtain ⟨q, h1, rfl⟩ := Option.map_eq_some_iff.1 h
  obtain ⟨a, _, _⟩ := mergeTargets_keeps hterm h1
  have h2 := (retargets_mono x.dup.1 x.canon.1 x.preds q).1.len
  rw [h2, a]
  exact (killed_mono { prog := p } x.canon x.dup).1.len

theorem Merged.single {ms : List Merge} {i : Nat} {d d' : InstData} (h : Merged ms i d d') : Single d' = Single d := by
  unfold Single InstData.isStaticJump InstData.isJump
  rw [h.op, h.flags]

theorem mergeProgs_merged (ms : List Merge) : ∀ {p p' : Prog}, mergeProgs ms p = some p' →
    (∀ x ∈ ms, x.canon.1 ≠ x.dup.1 ∧ x.canon.2 - 1 ≠ x.dup.2 - 1) →
    p'.insts.length = p.insts.length ∧ ∀ (i : Nat) d, p.insts[i]? = some d →
      ∃ d', p'.insts[i]? = some d' ∧ Merged ms i d d' := by
  induction ms with
  | nil =>
    intro p p' h _
    cases h
    refine ⟨rfl, fun i d hd => ⟨d, hd, rfl, rfl, rfl, ?_, rfl⟩⟩
    simp [inDup]
  | cons x ms ih =>
    intro p p' h hx
    obtain ⟨p1, h1, h2⟩ := Option.bind_eq_some_iff.1 (show (mergeProg p x).bind (mergeProgs ms) = some p' from h)
    obtain ⟨e1, e2⟩ := hx x List.mem_cons_self
    obtain ⟨g1, g2⟩ := ih h2 (fun y hy => hx y (List.mem_cons_of_mem _ hy))
    refine ⟨g1.trans (mergeProg_len h1 e2), fun i d hd => ?_⟩
    obtain ⟨d1, a1, a2⟩ := mergeProg_merged h1 e1 e2 hd
    obtain ⟨d2, b1, b2⟩ := g2 i d1 a1
    refine ⟨d2, b1, b2.op.trans a2.op, b2.io.trans a2.io, b2.gas.trans a2.gas, ?_, ?_⟩
    · rw [b2.flags, a2.flags]
      simp [inDup, Bool.or_assoc]
    · rw [b2.data, a2.single, a2.data]
      rfl

/-! ## Where the targets go -/

/-- Targets are left alone, or sent from a duplicate to its kept block. -/
theorem foldl_hit (ms : List Merge) (hcd : ∀ x ∈ ms, ∀ y ∈ ms, x.canon.1 ≠ y.dup.1) (i : Nat) (sg : Bool) :
    ∀ t, ms.foldl (hitData i sg) t = t ∨
      (sg = true ∧ ∃ x ∈ ms, t = x.dup.1 ∧ ms.foldl (hitData i sg) t = x.canon.1) := by
  induction ms with
  | nil => intro t; exact .inl rfl
  | cons x ms ih =>
    intro t
    have ih := ih (fun a ha b hb => hcd a (List.mem_cons_of_mem _ ha) b (List.mem_cons_of_mem _ hb))
    rw [List.foldl_cons]
    by_cases hc : (sg && t == x.dup.1 && x.preds.any (fun b => b.2 - 1 == i)) = true
    · have hh : hitData i sg t x = x.canon.1 := by unfold hitData; rw [if_pos hc]
      rw [hh]
      simp only [Bool.and_eq_true, beq_iff_eq] at hc
      right
      refine ⟨hc.1.1, x, List.mem_cons_self, hc.1.2, ?_⟩
      rcases ih x.canon.1 with h | ⟨_, y, hy, h1, _⟩
      · exact h
      · exact absurd h1 (hcd x List.mem_cons_self y (List.mem_cons_of_mem _ hy))
    · have hh : hitData i sg t x = t := by unfold hitData; rw [if_neg hc]
      rw [hh]
      rcases ih t with h | ⟨h0, y, hy, h1, h2⟩
      · exact .inl h
      · exact .inr ⟨h0, y, List.mem_cons_of_mem _ hy, h1, h2⟩

/-- The targets of jumps before a duplicate are not left alone. -/
theorem foldl_hit_pred (ms : List Merge) (hcd : ∀ x ∈ ms, ∀ y ∈ ms, x.canon.1 ≠ y.dup.1) (i : Nat) :
    ∀ t, (∃ x ∈ ms, t = x.dup.1 ∧ x.preds.any (fun b => b.2 - 1 == i) = true) →
      ∃ x ∈ ms, t = x.dup.1 ∧ ms.foldl (hitData i true) t = x.canon.1 := by
  induction ms with
  | nil => rintro t ⟨x, hx, _⟩; simp at hx
  | cons x ms ih =>
    rintro t ⟨y, hy, h1, h2⟩
    have hcd' : ∀ a ∈ ms, ∀ b ∈ ms, a.canon.1 ≠ b.dup.1 := fun a ha b hb =>
      hcd a (List.mem_cons_of_mem _ ha) b (List.mem_cons_of_mem _ hb)
    rw [List.foldl_cons]
    by_cases hc : (true && t == x.dup.1 && x.preds.any (fun b => b.2 - 1 == i)) = true
    · have hh : hitData i true t x = x.canon.1 := by unfold hitData; rw [if_pos hc]
      rw [hh]
      simp only [Bool.and_eq_true, beq_iff_eq] at hc
      refine ⟨x, List.mem_cons_self, hc.1.2, ?_⟩
      rcases foldl_hit ms hcd' i true x.canon.1 with h | ⟨_, z, hz, h3, _⟩
      · exact h
      · exact absurd h3 (hcd x List.mem_cons_self z (List.mem_cons_of_mem _ hz))
    · have hh : hitData i true t x = t := by unfold hitData; rw [if_neg hc]
      rw [hh]
      have : ∃ x ∈ ms, t = x.dup.1 ∧ x.preds.any (fun b => b.2 - 1 == i) = true := by
        rcases List.mem_cons.1 hy with rfl | hy
        · exact absurd (by rw [h1, h2]; simp) hc
        · exact ⟨y, hy, h1, h2⟩
      obtain ⟨z, hz, h3, h4⟩ := ih hcd' t this
      exact ⟨z, List.mem_cons_of_mem _ hz, h3, h4⟩

/-! ## What a round does to jumps with several targets -/

/-- The recorded targets. -/
def multiAt (p : Prog) (j : Nat) : List Nat := (p.multi.lookup j).getD []

/-- Instruction `j` is flagged as a jump with several targets. -/
def flaggedMulti (p : Prog) (j : Nat) : Bool := (p.insts[j]?).any (·.flags.multiJump)

theorem mem_foldl_addSucc_iff (ts : List Nat) : ∀ (cs : List Nat) (a : Nat),
    a ∈ ts.foldl addSucc cs ↔ a ∈ cs ∨ a ∈ ts := by
  induction ts with
  | nil => intro cs a; simp
  | cons t ts ih =>
    intro cs a
    rw [List.foldl_cons, ih]
    have : a ∈ addSucc cs t ↔ a ∈ cs ∨ a = t := by
      refine ⟨fun h => ?_, mem_addSucc_of⟩
      unfold addSucc at h
      split at h
      · exact .inl h
      · simpa using h
    rw [this, List.mem_cons, or_assoc]

theorem mergeProg_multi {p p' : Prog} {x : Merge} (h : mergeProg p x = some p')
    (hne : x.canon.2 - 1 ≠ x.dup.2 - 1) :
    (∀ j, flaggedMulti p' j = flaggedMulti p j) ∧
    (∀ j, j ≠ x.dup.2 - 1 → (p'.multi.lookup j).isSome = (p.multi.lookup j).isSome ∧
      ∀ t, t ∈ multiAt p' j ↔ t ∈ multiAt p j ∨
        (x.canon.2 - 1 = j ∧ flaggedMulti p (x.dup.2 - 1) = true ∧ t ∈ multiAt p (x.dup.2 - 1))) ∧
    (∀ t, t ∈ multiAt p' (x.dup.2 - 1) → t ∈ multiAt p (x.dup.2 - 1)) := by
  have hk1 : ∀ {q : Prog}, mergeTargets (killed { prog := p } x.canon x.dup) (x.canon.2 - 1) (x.dup.2 - 1) = some q →
      q.insts = (killed { prog := p } x.canon x.dup).insts := fun hq => (mergeTargets_keeps hne hq).1
  obtain ⟨q, h1, rfl⟩ := Option.map_eq_some_iff.1 h
  obtain ⟨k1, k2, _⟩ := killed_mono { prog := p } x.canon x.dup
  obtain ⟨r1, r2⟩ := retargets_mono x.dup.1 x.canon.1 x.preds q
  have hfl : ∀ j, (q.insts[j]?).any (·.flags.multiJump) = flaggedMulti p j := fun j => by
    rw [hk1 h1, k1.any_multi]; rfl
  have hm : ∀ j, multiAt (x.preds.foldl (retarget x.dup.1 x.canon.1) q) j = multiAt q j := fun j => by
    unfold multiAt; rw [r2]
  refine ⟨fun j => ?_, ?_⟩
  · unfold flaggedMulti
    rw [r1.any_multi]
    exact hfl j
  simp only [hm, r2]
  clear r1 r2 hm
  unfold mergeTargets at h1
  rw [k1.any_multi, k2] at h1
  by_cases hf : flaggedMulti p (x.dup.2 - 1) = true
  · rw [if_pos (show Option.any _ _ = true from hf)] at h1
    cases hl : p.multi.lookup (x.dup.2 - 1) with
    | none =>
      rw [show List.lookup (x.dup.2 - 1) ({ prog := p } : DState).prog.multi = none from hl] at h1
      cases h1
      have hq : ∀ j, multiAt (killed { prog := p } x.canon x.dup) j = multiAt p j := fun j => by
        unfold multiAt; rw [k2]
      have he : multiAt p (x.dup.2 - 1) = [] := by unfold multiAt; rw [hl]; rfl
      refine ⟨fun j _ => ⟨by rw [k2], fun t => ?_⟩, fun t ht => by rw [← hq]; exact ht⟩
      rw [hq, he]; simp
    | some ts =>
      rw [show List.lookup (x.dup.2 - 1) ({ prog := p } : DState).prog.multi = some ts from hl] at h1
      dsimp only at h1
      rw [lookup_multiRemove, if_neg hne] at h1
      cases hc : p.multi.lookup (x.canon.2 - 1) with
      | none => rw [hc] at h1; simp at h1
      | some cs =>
        rw [hc] at h1
        cases h1
        have he : multiAt p (x.dup.2 - 1) = ts := by unfold multiAt; rw [hl]; rfl
        refine ⟨fun j hj => ?_, fun t ht => ?_⟩
        · unfold multiAt
          show (List.lookup j (multiInsert (multiRemove p.multi (x.dup.2 - 1)) (x.canon.2 - 1) _)).isSome = _ ∧
            ∀ t, t ∈ (List.lookup j (multiInsert (multiRemove p.multi (x.dup.2 - 1)) (x.canon.2 - 1) _)).getD [] ↔ _
          rw [lookup_multiInsert, hl]
          by_cases hjc : j = x.canon.2 - 1
          · rw [if_pos hjc]
            subst hjc
            rw [hc]
            refine ⟨rfl, fun t => ?_⟩
            rw [Option.getD_some, mem_foldl_addSucc_iff]
            simp [hf]
          · rw [if_neg hjc, lookup_multiRemove, if_neg hj]
            refine ⟨rfl, fun t => ?_⟩
            exact ⟨.inl, fun h => h.elim id fun h => absurd h.1.symm hjc⟩
        · exfalso
          unfold multiAt at ht
          have ht : t ∈ (List.lookup (x.dup.2 - 1)
            (multiInsert (multiRemove p.multi (x.dup.2 - 1)) (x.canon.2 - 1) (ts.foldl addSucc cs))).getD [] := ht
          rw [lookup_multiInsert, if_neg (fun h => hne h.symm), lookup_multiRemove, if_pos rfl] at ht
          simp at ht
  · rw [if_neg (show ¬ Option.any _ _ = true from hf)] at h1
    cases h1
    have hq : ∀ j, multiAt (killed { prog := p } x.canon x.dup) j = multiAt p j := fun j => by
      unfold multiAt; rw [k2]
    refine ⟨fun j _ => ⟨by rw [k2], fun t => ?_⟩, fun t ht => by rw [← hq]; exact ht⟩
    rw [hq]
    simp [hf]

theorem mergeProgs_multi (ms : List Merge) : ∀ {p p' : Prog}, mergeProgs ms p = some p' →
    (∀ x ∈ ms, ∀ y ∈ ms, x.canon.2 - 1 ≠ y.dup.2 - 1) →
    (∀ x ∈ ms, ∀ y ∈ ms, x.dup.2 - 1 = y.dup.2 - 1 → x.canon.2 - 1 = y.canon.2 - 1) →
    ∀ j, (∀ x ∈ ms, j ≠ x.dup.2 - 1) → (p'.multi.lookup j).isSome = (p.multi.lookup j).isSome ∧
      ∀ t, t ∈ multiAt p' j ↔ t ∈ multiAt p j ∨ ∃ x ∈ ms, x.canon.2 - 1 = j ∧
        flaggedMulti p (x.dup.2 - 1) = true ∧ t ∈ multiAt p (x.dup.2 - 1) := by
  induction ms with
  | nil =>
    intro p p' h _ _ j _
    cases h
    simp
  | cons x ms ih =>
    intro p p' h hcd hu j hj
    obtain ⟨p1, h1, h2⟩ := Option.bind_eq_some_iff.1 (show (mergeProg p x).bind (mergeProgs ms) = some p' from h)
    obtain ⟨a1, a2, a3⟩ := mergeProg_multi h1 (hcd x List.mem_cons_self x List.mem_cons_self)
    obtain ⟨b1, b2⟩ := ih h2 (fun a ha b hb => hcd a (List.mem_cons_of_mem _ ha) b (List.mem_cons_of_mem _ hb))
      (fun a ha b hb => hu a (List.mem_cons_of_mem _ ha) b (List.mem_cons_of_mem _ hb)) j
      (fun y hy => hj y (List.mem_cons_of_mem _ hy))
    obtain ⟨c1, c2⟩ := a2 j (hj x List.mem_cons_self)
    refine ⟨b1.trans c1, fun t => ?_⟩
    rw [b2, c2, or_assoc]
    constructor
    · rintro (h | ⟨h3, h4, h5⟩ | ⟨y, hy, h3, h4, h5⟩)
      · exact .inl h
      · exact .inr ⟨x, List.mem_cons_self, h3, h4, h5⟩
      · refine .inr ⟨y, List.mem_cons_of_mem _ hy, h3, by rw [← a1]; exact h4, ?_⟩
        by_cases he : y.dup.2 - 1 = x.dup.2 - 1
        · rw [he] at h5 ⊢; exact a3 t h5
        · rcases ((a2 _ he).2 t).1 h5 with h | ⟨h, _⟩
          · exact h
          · exact absurd h (hcd x List.mem_cons_self y (List.mem_cons_of_mem _ hy))
    · rintro (h | ⟨y, hy, h3, h4, h5⟩)
      · exact .inl h
      · rcases List.mem_cons.1 hy with rfl | hy'
        · exact .inr (.inl ⟨h3, h4, h5⟩)
        · by_cases he : y.dup.2 - 1 = x.dup.2 - 1
          · refine .inr (.inl ⟨(hu x List.mem_cons_self y hy he.symm).trans h3, ?_, ?_⟩)
            · rw [← he]; exact h4
            · rw [← he]; exact h5
          · exact .inr (.inr ⟨y, hy', h3, by rw [a1]; exact h4, ((a2 _ he).2 t).2 (.inl h5)⟩)

end Verif
