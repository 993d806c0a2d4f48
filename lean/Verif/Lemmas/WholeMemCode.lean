import Verif.Lemmas.WholeMemPath
import Verif.Lemmas.WholeGasCode
import Verif.Lemmas.WholeGasInv
import Verif.Model.WholeMem
/-!
# The compiled instructions and the tables of the memory analysis
-/

namespace Verif
open Spec

/-! ## Tables -/

theorem lookup_flatMap {α β : Type} {f : α → List (Nat × β)} {i : Nat} {v : β} : ∀ {l : List α} {a : α}, a ∈ l →
    (f a).lookup i = some v → (∀ b ∈ l, (f b).lookup i = none ∨ (f b).lookup i = some v) →
    (l.flatMap f).lookup i = some v
  | x :: l, a, ha, hv, ho => by
    rw [List.flatMap_cons, List.lookup_append]
    rcases ho x (by simp) with h | h
    · rw [h]
      rcases List.mem_cons.1 ha with rfl | ha
      · rw [hv] at h; cases h
      · exact lookup_flatMap ha hv fun b hb => ho b (List.mem_cons_of_mem _ hb)
    · rw [h]; rfl

/-- A list whose keys are consecutive. -/
theorem lookup_range {β : Type} : ∀ {l : List (Nat × β)} {s : Nat}, l.map Prod.fst = List.range' s l.length →
    ∀ i, l.lookup i = if s ≤ i then (l[i - s]?).map Prod.snd else none
  | [], s, _, i => by simp
  | (k, v) :: l, s, h, i => by
    rw [List.length_cons, List.range'_succ, List.map_cons] at h
    have hk : k = s := (List.cons.inj h).1
    have ih := lookup_range (List.cons.inj h).2 i
    subst hk
    rw [List.lookup_cons]
    rcases Nat.lt_trichotomy i k with h1 | h1 | h1
    · rw [if_neg (by omega)]
      rw [if_neg (by omega)] at ih
      rw [ih]
      have : (i == k) = false := by simp; omega
      rw [this]
    · subst h1
      simp
    · have : (i == k) = false := by simp; omega
      rw [this, ih, if_pos (by omega), if_pos (by omega)]
      rw [show i - k = (i - (k + 1)) + 1 by omega]
      rfl

/-! ## Sections -/

/-- The first instructions of the sections. -/
def headsOf (spec : SpecId) (l : List (Nat × InstData)) : List Nat :=
  (splitSections spec l).filterMap fun s => s.head?.map Prod.fst

theorem headsOf_cons (spec : SpecId) (p : Nat × InstData) (l : List (Nat × InstData)) :
    headsOf spec (p :: l) = p.1 :: if p.2.endsSection spec then headsOf spec l else (headsOf spec l).tail := by
  unfold headsOf
  rw [splitSections]
  split
  · rfl
  · cases hs : splitSections spec l with
    | nil => rfl
    | cons s ss =>
      cases s with
      | nil =>
        exfalso
        have := (split_at spec l [] [] ss hs).1
        exact this rfl
      | cons q s => rfl

theorem heads_after {spec : SpecId} {l : List (Nat × InstData)} {j : Nat} {p q : Nat × InstData}
    (hp : l[j]? = some p) (he : p.2.endsSection spec = true) (hq : l[j + 1]? = some q) :
    q.1 ∈ (headsOf spec l).tail := by
  induction l generalizing j with
  | nil => simp at hp
  | cons x l ih =>
    rw [headsOf_cons, List.tail_cons]
    rw [List.getElem?_cons_succ] at hq
    cases j with
    | zero =>
      rw [List.getElem?_cons_zero] at hp
      have hx := Option.some.inj hp
      rw [hx, if_pos he]
      cases l with
      | nil => simp at hq
      | cons y l =>
        rw [List.getElem?_cons_zero] at hq
        rw [headsOf_cons, Option.some.inj hq]
        exact List.mem_cons_self
    | succ j =>
      rw [List.getElem?_cons_succ] at hp
      have hm := ih hp hq
      split
      · exact List.mem_of_mem_tail hm
      · exact hm

/-! ## Marks -/

theorem dse_marks {o : WOpts} {code : Code} {st : AIState} {l l' : List (Nat × InstData)}
    (hn : ∀ p ∈ l, p.2.flags.noop = false)
    (he : (if o.dse then dseBlock o.inspect code st l else some l) = some l') : Marked l l' := by
  split at he
  · unfold dseBlock at he
    dsimp only at he
    split at he
    · cases he
      exact marked_refl l hn
    · obtain ⟨⟨l2, L⟩, h1, h2⟩ := Option.map_eq_some_iff.1 he
      cases h2
      obtain ⟨h3, h4⟩ := walk_marks l hn h1
      exact ⟨h3, h4⟩
  · cases he
    exact marked_refl l hn

theorem compileBlocks_from {o : WOpts} {code : Code} {p : Prog} {ai : AIState} :
    ∀ {bs : List (Nat × Nat)} {out : List CBlock}, compileBlocks o code p ai bs = some out →
      ∀ x ∈ out, ∃ b ∈ bs, x.start = b.1 ∧ x.stop = b.2 ∧
        (if o.dse then dseBlock o.inspect code ai (p.blockInsts b) else some (p.blockInsts b)) = some x.insts
  | [], out, h, x, hx => by
    unfold compileBlocks at h
    cases h
    simp at hx
  | a :: bs, out, h, x, hx => by
    unfold compileBlocks at h
    obtain ⟨y, hy, h⟩ := Option.bind_eq_some_iff.1 h
    obtain ⟨ys, hys, rfl⟩ := Option.map_eq_some_iff.1 h
    rcases List.mem_cons.1 hx with rfl | hx
    · unfold compileBlock at hy
      obtain ⟨l', hl, hy⟩ := Option.bind_eq_some_iff.1 hy
      split at hy
      · cases hy
        exact ⟨a, by simp, rfl, rfl, hl⟩
      · cases hy
    · obtain ⟨b, hb, h⟩ := compileBlocks_from hys x hx
      exact ⟨b, List.mem_cons_of_mem _ hb, h⟩

theorem slice_keys {p : Prog} {s : Nat} : ∀ {n : Nat}, s + n ≤ p.insts.length →
    (p.slice s n).map Prod.fst = List.range' s n
  | 0, _ => by unfold Prog.slice; simp
  | n + 1, h => by
    obtain ⟨d, hd⟩ : ∃ d, p.insts[s + n]? = some d := ⟨_, List.getElem?_eq_getElem (by omega)⟩
    rw [slice_succ hd, List.map_append, slice_keys (by omega), List.range'_concat]
    simp

theorem Marked.keys {l l' : List (Nat × InstData)} (h : Marked l l') : l'.map Prod.fst = l.map Prod.fst := by
  apply List.ext_getElem?
  intro j
  rw [List.getElem?_map, List.getElem?_map]
  cases hp : l'[j]? with
  | none =>
    have : l'.length ≤ j := List.getElem?_eq_none_iff.1 hp
    rw [List.getElem?_eq_none (by rw [← h.length]; exact this)]
  | some p' =>
    obtain ⟨p, b, h1, h2, _⟩ := h.at_ j p' hp
    rw [h1, h2]
    rfl

/-- Blocks do not overlap. -/
theorem blocks_inj {p : Prog} {a b : Nat} {x y : Nat × Nat} (hx : p.blocks[a]? = some x) (hy : p.blocks[b]? = some y)
    {i : Nat} (h1 : x.1 ≤ i) (h2 : i < x.2) (h3 : y.1 ≤ i) (h4 : i < y.2) : a = b := by
  have e1 := (instToBlock_iff p i a).2 ⟨x, hx, h1, h2⟩
  have e2 := (instToBlock_iff p i b).2 ⟨y, hy, h3, h4⟩
  rw [e1] at e2
  exact Option.some.inj e2

section code
variable {base : List InstData} {ok : Nat → List Word → Prop} {o : WOpts} {C : Compiled} (G : GoodC base ok o C)
include G

theorem GoodC.block {b : Nat × Nat} (hb : b ∈ C.prog.blocks) : ∃ x ∈ C.blocks, x.start = b.1 ∧ x.stop = b.2 := by
  obtain ⟨l', _, h⟩ := G.find hb
  exact ⟨_, List.mem_of_find?_eq_some h, rfl, rfl⟩

/-- A compiled block. -/
theorem GoodC.marks {x : CBlock} (hx : x ∈ C.blocks) : ∃ (a : Nat) (blk : Nat × Nat), C.prog.blocks[a]? = some blk ∧ x.start = blk.1 ∧
    x.stop = blk.2 ∧ Marked (C.prog.blockInsts blk) x.insts ∧
    x.insts.map Prod.fst = List.range' blk.1 x.insts.length ∧ x.insts.length = blk.2 - blk.1 ∧
    (if o.dse then dseBlock o.inspect C.code C.ai (C.prog.blockInsts blk) else some (C.prog.blockInsts blk)) =
      some x.insts := by
  obtain ⟨blk, hb, h1, h2, h3⟩ := compileBlocks_from G.blocks x hx
  obtain ⟨a, ha⟩ := List.getElem?_of_mem hb
  have hrg := C.prog.blocks_ok.range blk hb
  have hm := dse_marks (fun p hp => (G.inst p.1 p.2 (mem_slice hp).1).noop) h3
  have hl : x.insts.length = blk.2 - blk.1 := by
    rw [hm.length]
    exact slice_len' (by omega)
  refine ⟨a, blk, ha, h1, h2, hm, ?_, hl, h3⟩
  rw [hm.keys, hl]
  exact slice_keys (by omega)

/-- The compiled form of an instruction of a block. -/
theorem GoodC.instAt {a : Nat} {blk : Nat × Nat} (ha : C.prog.blocks[a]? = some blk) {i : Nat} (hle : blk.1 ≤ i)
    (hlt : i < blk.2) {d : InstData} (hd : C.prog.insts[i]? = some d) :
    ∃ b, C.instAt i = some (mark b d) ∧ (b = true → canSkipWhenDead d.opcode = true ∧ d.isBranching = false) := by
  obtain ⟨x, hx, e1, e2⟩ := G.block (List.mem_of_getElem? ha)
  obtain ⟨a', blk', ha', q1, q2, hm, hk, hl, hdse⟩ := G.marks hx
  have e : blk' = blk := by
    apply Prod.ext
    · rw [← q1, e1]
    · rw [← q2, e2]
  subst e
  have hrg := C.prog.blocks_ok.range blk' (List.mem_of_getElem? ha)
  have hlk := lookup_range hk i
  rw [if_pos hle] at hlk
  obtain ⟨p', hp'⟩ : ∃ p', x.insts[i - blk'.1]? = some p' := ⟨_, List.getElem?_eq_getElem (by omega)⟩
  obtain ⟨p, b, h1, h2, h3⟩ := hm.at_ _ _ hp'
  have hsl := slice_at (p := C.prog) (s := blk'.1) (n := blk'.2 - blk'.1) (j := i - blk'.1) (d := d) (by omega) (by omega)
    (by rw [show blk'.1 + (i - blk'.1) = i by omega]; exact hd)
  unfold Prog.blockInsts at h1
  rw [hsl] at h1
  have hpe := Option.some.inj h1
  rw [← hpe] at h2 h3
  refine ⟨b, ?_, h3⟩
  unfold Compiled.instAt
  rw [hp', h2] at hlk
  refine lookup_flatMap hx hlk fun y hy => ?_
  obtain ⟨c, blk2, hc, r1, r2, _, rk, rl, rdse⟩ := G.marks hy
  have hlk2 := lookup_range rk i
  rw [hlk2]
  split
  · rename_i hge
    rcases Nat.lt_or_ge i blk2.2 with hlt2 | hge2
    · right
      have heq := blocks_inj hc ha hge hlt2 hle hlt
      subst heq
      rw [ha] at hc
      cases hc
      rw [hdse] at rdse
      rw [← Option.some.inj rdse, hp', h2]
      rfl
    · left
      rw [List.getElem?_eq_none (by omega)]
      rfl
  · exact .inl rfl

/-- The first instruction of a block begins a section. -/
theorem GoodC.head_start {a : Nat} {blk : Nat × Nat} (ha : C.prog.blocks[a]? = some blk) : blk.1 ∈ C.heads := by
  obtain ⟨x, hx, e1, e2⟩ := G.block (List.mem_of_getElem? ha)
  obtain ⟨a', blk', ha', q1, q2, hm, hk, hl, hdse⟩ := G.marks hx
  have hrg := C.prog.blocks_ok.range blk' (List.mem_of_getElem? ha')
  unfold Compiled.heads
  refine List.mem_flatMap.2 ⟨x, hx, ?_⟩
  show blk.1 ∈ headsOf C.spec x.insts
  rw [← e1, q1]
  cases hxi : x.insts with
  | nil => rw [hxi] at hl; simp at hl; omega
  | cons p l =>
    rw [headsOf_cons]
    rw [hxi, List.length_cons, List.range'_succ, List.map_cons] at hk
    rw [(List.cons.inj hk).1]
    exact List.mem_cons_self

/-- So does the instruction after one that ends a section. -/
theorem GoodC.head_next {a : Nat} {blk : Nat × Nat} (ha : C.prog.blocks[a]? = some blk) {i : Nat} (hle : blk.1 ≤ i)
    (hlt : i + 1 < blk.2) {d : InstData} (hd : C.prog.insts[i]? = some d) (he : d.endsSection C.spec = true) :
    i + 1 ∈ C.heads := by
  obtain ⟨x, hx, e1, e2⟩ := G.block (List.mem_of_getElem? ha)
  obtain ⟨a', blk', ha', q1, q2, hm, hk, hl, hdse⟩ := G.marks hx
  have e : blk' = blk := by
    apply Prod.ext
    · rw [← q1, e1]
    · rw [← q2, e2]
  subst e
  have hrg := C.prog.blocks_ok.range blk' (List.mem_of_getElem? ha')
  unfold Compiled.heads
  refine List.mem_flatMap.2 ⟨x, hx, ?_⟩
  show i + 1 ∈ headsOf C.spec x.insts
  obtain ⟨p', hp'⟩ : ∃ p', x.insts[i - blk'.1]? = some p' := ⟨_, List.getElem?_eq_getElem (by omega)⟩
  obtain ⟨q', hq'⟩ : ∃ q', x.insts[i - blk'.1 + 1]? = some q' := ⟨_, List.getElem?_eq_getElem (by omega)⟩
  obtain ⟨p, b, h1, h2, h3⟩ := hm.at_ _ _ hp'
  have hsl := slice_at (p := C.prog) (s := blk'.1) (n := blk'.2 - blk'.1) (j := i - blk'.1) (d := d) (by omega) (by omega)
    (by rw [show blk'.1 + (i - blk'.1) = i by omega]; exact hd)
  unfold Prog.blockInsts at h1
  rw [hsl] at h1
  have hpe := Option.some.inj h1
  rw [← hpe] at h2
  have hends : p'.2.endsSection C.spec = true := by
    rw [h2, (mark_flags (m := b) (d := d)).2.2.2]
    exact he
  have hmem := heads_after hp' hends hq'
  have hq1 : q'.1 = i + 1 := by
    have := congrArg (fun l => l[i - blk'.1 + 1]?) hk
    simp only [List.getElem?_map, hq'] at this
    rw [List.getElem?_range' (by omega)] at this
    simp only [Option.map_some, Option.some.injEq] at this
    omega
  rw [← hq1]
  exact List.mem_of_mem_tail hmem

end code

/-! ## The table of the analysis -/

theorem saveInsts_keys (st : AIState) : ∀ (l : List (Nat × InstData)) (s : MemState),
    (saveInsts st l s).map Prod.fst = l.map Prod.fst
  | [], _ => rfl
  | p :: l, s => by
    rw [saveInsts]
    simp only [List.map_cons]
    rw [saveInsts_keys st l]

theorem saveBlock_keys (st : AIState) (b : MBlock) (s : MemState) :
    (saveBlock st b s).map Prod.fst = b.insts.map Prod.fst := by
  unfold saveBlock
  split
  · rw [List.map_map]; rfl
  · exact saveInsts_keys st _ _

/-- The entry of an instruction of a block is the one of its block. -/
theorem memTable_lookup {C : Compiled} {fuel : Nat} {states : List MemState}
    (hst : memStates C.ai C.prog.memBlocks fuel = some states) {tbl : List (Nat × MemSection)}
    (ht : C.memTable fuel = some tbl) {b : Nat} {blk : Nat × Nat} (hb : C.prog.blocks[b]? = some blk) {i : Nat}
    (hle : blk.1 ≤ i) (hlt : i < blk.2) :
    ∃ mb, C.prog.memBlocks[b]? = some mb ∧ mb.insts = C.prog.blockInsts blk ∧
      (saveBlock C.ai mb ((states[b]?).getD {}))[i - blk.1]? = some (i, (tbl.lookup i).getD {}) := by
  have key : ∀ {b : Nat} {blk : Nat × Nat}, C.prog.blocks[b]? = some blk → ∃ mb, C.prog.memBlocks[b]? = some mb ∧
      mb.insts = C.prog.blockInsts blk ∧
      (saveBlock C.ai mb ((states[b]?).getD {})).map Prod.fst =
        List.range' blk.1 (saveBlock C.ai mb ((states[b]?).getD {})).length ∧
      (saveBlock C.ai mb ((states[b]?).getD {})).length = blk.2 - blk.1 := by
    intro b blk hb
    have hrg := C.prog.blocks_ok.range blk (List.mem_of_getElem? hb)
    refine ⟨_, memBlocks_get hb, rfl, ?_⟩
    have hk := saveBlock_keys C.ai (MBlock.mk (C.prog.blockInsts blk) (C.prog.succs C.prog.blocks blk)
        (C.prog.hasDyn && (C.prog.insts[blk.2 - 1]?).any fun d => d.isJump && !d.isStaticJump && !d.flags.invalidJump)
        (C.prog.hasDyn && (C.prog.insts[blk.1]?).any fun d => d.isReachableJumpdest true)) ((states[b]?).getD {})
    have hk2 : (C.prog.blockInsts blk).map Prod.fst = List.range' blk.1 (blk.2 - blk.1) := slice_keys (by omega)
    have hk3 := hk.trans hk2
    have hl := congrArg List.length hk3
    rw [List.length_map, List.length_range'] at hl
    refine ⟨?_, hl⟩
    rw [hk3, hl]
  obtain ⟨mb, hmb, hin, hk, hl⟩ := key hb
  refine ⟨mb, hmb, hin, ?_⟩
  obtain ⟨e, he⟩ : ∃ e, (saveBlock C.ai mb ((states[b]?).getD {}))[i - blk.1]? = some e :=
    ⟨_, List.getElem?_eq_getElem (by omega)⟩
  have he1 : e.1 = i := by
    have := congrArg (fun l => l[i - blk.1]?) hk
    simp only [List.getElem?_map, he] at this
    rw [List.getElem?_range' (by omega)] at this
    simp only [Option.map_some, Option.some.injEq] at this
    omega
  have hlk := lookup_range hk i
  rw [if_pos hle, he] at hlk
  have hres : tbl.lookup i = some e.2 := by
    unfold Compiled.memTable at ht
    rw [hst] at ht
    cases ht
    have hbl : b < C.prog.memBlocks.length := (List.getElem?_eq_some_iff.1 hmb).1
    refine lookup_flatMap (a := b) (List.mem_range.2 hbl) ?_ ?_
    · rw [hmb]; exact hlk
    · intro b2 hb2
      have hb2 := List.mem_range.1 hb2
      obtain ⟨blk2, hblk2⟩ : ∃ blk2, C.prog.blocks[b2]? = some blk2 :=
        ⟨_, List.getElem?_eq_getElem (by
          have : C.prog.memBlocks.length = C.prog.blocks.length := by unfold Prog.memBlocks; rw [List.length_map]
          omega)⟩
      obtain ⟨mb2, hmb2, _, hk2, hl2⟩ := key hblk2
      rw [hmb2]
      show (saveBlock C.ai mb2 _).lookup i = none ∨ _
      rw [lookup_range hk2 i]
      split
      · rename_i hge
        rcases Nat.lt_or_ge i blk2.2 with hlt2 | hge2
        · right
          have heq := blocks_inj hblk2 hb hge hlt2 hle hlt
          subst heq
          rw [hb] at hblk2
          cases hblk2
          rw [hmb] at hmb2
          cases hmb2
          exact hlk
        · left
          rw [List.getElem?_eq_none (by omega)]
          rfl
      · exact .inl rfl
  rw [he, hres, ← he1]
  rfl

end Verif
