import Verif.Lemmas.Suspend
/-!
# Frames and programs with round trips in one step
-/

namespace Verif
open Spec
variable {E F : Type}

/-- How the blocks of a compiled program lie. -/
structure Layout (C : Compiled) : Prop where
  range : ∀ x ∈ C.blocks, x.start < x.stop ∧ x.insts.map Prod.fst = List.range' x.start (x.stop - x.start)
  inj : ∀ x ∈ C.blocks, ∀ y ∈ C.blocks, ∀ i, x.start ≤ i → i < x.stop → y.start ≤ i → i < y.stop → x = y
  inst : ∀ x ∈ C.blocks, ∀ p ∈ x.insts, ∃ m d, C.prog.insts[p.1]? = some d ∧ p.2 = mark m d

theorem GoodC.layout {base : List InstData} {ok : Nat → List Word → Prop} {o : WOpts} {C : Compiled}
    (G : GoodC base ok o C) : Layout C := by
  refine ⟨fun x hx => ?_, fun x hx y hy i h1 h2 h3 h4 => ?_, fun x hx p hp => ?_⟩
  · obtain ⟨a, blk, ha, q1, q2, hm, hk, hl, _⟩ := G.marks hx
    have hrg := C.prog.blocks_ok.range blk (List.mem_of_getElem? ha)
    rw [q1, q2, hk, hl]
    exact ⟨by omega, rfl⟩
  · obtain ⟨a, blk, ha, q1, q2, _, _, _, hd⟩ := G.marks hx
    obtain ⟨a', blk', ha', q1', q2', _, _, _, hd'⟩ := G.marks hy
    have := blocks_inj ha ha' (i := i) (by omega) (by omega) (by omega) (by omega)
    subst this
    rw [ha] at ha'
    cases ha'
    rw [hd] at hd'
    cases x
    cases y
    simp only at q1 q2 q1' q2' hd'
    subst q1 q2 q1' q2'
    rw [Option.some.inj hd']
  · obtain ⟨a, blk, ha, q1, q2, hm, hk, hl, _⟩ := G.marks hx
    obtain ⟨j, hj⟩ := List.getElem?_of_mem hp
    obtain ⟨q, b, h1, h2, _⟩ := hm.at_ _ _ hj
    refine ⟨b, q.2, ?_, by rw [h2]⟩
    rw [h2]
    exact (mem_slice (List.mem_of_getElem? h1)).1

theorem suspends_facts {C : Compiled} {x : Nat × InstData} (h : C.suspends x = true) :
    (x.2.flags.disabled || x.2.flags.unknown) = false ∧ x.2.flags.noop = false ∧
      (0 < x.2.stackIo.2 → C.ai.constOutput x.1 = none) ∧ x.2.maySuspend = true ∧ x.2.isJump = false ∧
      x.2.isDiverging = false := by
  unfold Compiled.suspends at h
  simp only [Bool.and_eq_true, Bool.not_eq_true', Bool.and_eq_false_iff, decide_eq_false_iff_not,
    Option.isSome_eq_false_iff, Option.isNone_iff_eq_none] at h
  obtain ⟨⟨⟨h1, h2⟩, h3⟩, h4⟩ := h
  refine ⟨h1, h2, fun hp => h3.resolve_left (by omega), h4, ?_, ?_⟩
  · unfold InstData.maySuspend at h4
    unfold InstData.isJump
    simp only [List.contains_iff_mem, List.mem_cons, List.not_mem_nil, or_false] at h4
    rcases h4 with h | h | h | h | h | h <;> rw [h] <;> rfl
  · unfold InstData.maySuspend at h4
    unfold InstData.isDiverging
    rw [Bool.or_assoc, Bool.or_assoc, ← Bool.or_assoc x.2.flags.disabled, h1]
    simp only [List.contains_iff_mem, List.mem_cons, List.not_mem_nil, or_false] at h4
    rcases h4 with h | h | h | h | h | h <;> rw [h] <;> rfl

theorem suspending_toT {C : Compiled} {act : Nat → List Word → List Word × E} {clob : Nat → Int → Word} :
    Suspending C (toT C.code C.ai act clob) := by
  intro x hx
  obtain ⟨h1, h2, h3, h4, h5, h6⟩ := suspends_facts hx
  refine ⟨?_, h2, h3⟩
  show lowerOf C.code C.ai x.1 x.2 = .suspend
  unfold lowerOf
  dsimp only
  rw [h1, h5, h4]
  rfl

/-! ## Positions -/

theorem keys_at {l A B : List (Nat × InstData)} {x : Nat × InstData} {s n : Nat} (hk : l.map Prod.fst = List.range' s n)
    (hl : l = A ++ x :: B) : x.1 = s + A.length ∧ A.length + 1 + B.length = n := by
  have hn : l.length = n := by
    have := congrArg List.length hk
    rw [List.length_map, List.length_range'] at this
    exact this
  have hlen : l.length = A.length + 1 + B.length := by rw [hl]; simp; omega
  refine ⟨?_, by omega⟩
  have h1 : (l.map Prod.fst)[A.length]? = some x.1 := by
    rw [hl, List.map_append, List.getElem?_append_right (by simp)]
    simp
  rw [hk, List.getElem?_range' (by omega)] at h1
  simp only [Option.some.injEq] at h1
  omega

theorem getLast_split {α : Type} {s : List α} {x : α} (h : s.getLast? = some x) : s = s.dropLast ++ [x] := by
  obtain ⟨hne, hx⟩ := List.getLast?_eq_some_iff.1 h |> fun ⟨ys, hy⟩ => (⟨by rw [hy]; simp, ⟨ys, hy⟩⟩ : s ≠ [] ∧ ∃ ys, s = ys ++ [x])
  obtain ⟨ys, rfl⟩ := hx
  simp

theorem drop_pre {spec : SpecId} {l : List (Nat × InstData)} {s n i : Nat} (hk : l.map Prod.fst = List.range' s n)
    {pre ss : List (List (Nat × InstData))} (hs : splitSections spec l = pre ++ ss)
    (hi : (ss.head?.bind List.head?).map Prod.fst = some i) :
    (splitSections spec l).dropWhile (fun q => q.head?.map Prod.fst != some i) = ss := by
  have hfl : l = pre.flatten ++ ss.flatten := by rw [← List.flatten_append, ← hs, split_flatten]
  cases ss with
  | nil => simp at hi
  | cons t ts =>
    cases t with
    | nil => simp at hi
    | cons y t =>
      simp only [List.head?_cons, Option.bind_some, Option.map_some, Option.some.injEq] at hi
      have hy := (keys_at hk (A := pre.flatten) (x := y) (B := t ++ ts.flatten) (by rw [hfl]; rfl)).1
      rw [hs, List.dropWhile_append_of_pos]
      · rw [List.dropWhile_cons_of_neg (by simp [hi])]
      · intro q hq
        obtain ⟨p1, p2, rfl⟩ := List.append_of_mem hq
        have hne := (split_at spec l p1 q (p2 ++ (y :: t) :: ts) (by rw [hs]; simp)).1
        cases q with
        | nil => exact absurd rfl hne
        | cons z q =>
          have hz := (keys_at hk (A := p1.flatten) (x := z) (B := q ++ p2.flatten ++ (y :: t) ++ ts.flatten)
            (by rw [hfl]; simp)).1
          simp only [List.head?_cons, Option.map_some, bne_iff_ne, ne_eq, Option.some.injEq]
          simp only [List.flatten_append, List.flatten_cons, List.length_append, List.length_cons] at hy
          omega

/-! ## Ends of blocks -/

/-- What becomes of a block. -/
def Compiled.close (C : Compiled) (k : Nat) (b : CBlock) : FRes (Option F) → COut F
  | .finished cx => C.leave k b cx
  | .fail f cx => .stackError f cx
  | .bad i cx => .badImmediate i cx
  | .suspended _ _ _ => .panic
  | .panic => .panic

/-- The code of a block. -/
def Compiled.codeOf (C : Compiled) (env : Env F) (junk : Nat → Int → Word) (k : Nat) (b : CBlock) :
    Nat × InstData → TInst (Option F) :=
  toT C.code C.ai (actOf C.code C.prog env k b.start) (clobAt junk k b.start)

theorem core_trace {cx cx' : SCx E} (h : cx.core = cx'.core) : cx.trace = cx'.trace := by
  have := congrArg (fun c : SCx E => c.trace) h
  exact this

theorem leave_core {C : Compiled} {k : Nat} {b : CBlock} {cx cx' : SCx (Option F)} (h : cx.core = cx'.core) :
    (C.leave k b cx).core = (C.leave k b cx').core := by
  unfold Compiled.leave
  rw [core_trace h]
  cases C.prog.insts[b.stop - 1]? with
  | none => rfl
  | some d =>
    dsimp only
    split
    · show COut.halted _ _ = COut.halted _ _; rw [h]
    · split
      · cases cx'.trace.head? with
        | none => rfl
        | some e =>
          cases e with
          | branched t c =>
            dsimp only
            split
            · show COut.running _ _ _ = COut.running _ _ _; rw [h]
            · show COut.invalidJump _ = COut.invalidJump _; rw [h]
          | _ => rfl
      · split
        · show COut.halted _ _ = COut.halted _ _; rw [h]
        · show COut.running _ _ _ = COut.running _ _ _; rw [h]

theorem core_final (q : COut F) : q.core.final = q.final := by cases q <;> rfl

theorem close_core {C : Compiled} {k : Nat} {b : CBlock} {r r' : FRes (Option F)} (h : r.core = r'.core) :
    (C.close k b r).core = (C.close k b r').core := by
  cases r <;> cases r' <;> simp only [FRes.core, reduceCtorEq, FRes.finished.injEq, FRes.fail.injEq, FRes.bad.injEq] at h
  · exact leave_core h
  · show COut.stackError _ _ = COut.stackError _ _; rw [h.1, h.2]
  · show COut.badImmediate _ _ = COut.badImmediate _ _; rw [h.1, h.2]
  · rfl
  · rfl

section frames
variable {C : Compiled} (L : Layout C)
include L

theorem Layout.find {b : CBlock} (hb : b ∈ C.blocks) : (C.blocks.find? fun x => x.start == b.start) = some b := by
  cases h : C.blocks.find? fun x => x.start == b.start with
  | none =>
    have := List.find?_eq_none.1 h b hb
    simp at this
  | some y =>
    have h1 := List.mem_of_find?_eq_some h
    have h2 := List.find?_some h
    simp only [beq_iff_eq] at h2
    rw [L.inj y h1 b hb b.start (by omega) (by have := (L.range y h1).1; omega) (by omega) (L.range b hb).1]

theorem Layout.find_range {b : CBlock} (hb : b ∈ C.blocks) {i : Nat} (h1 : b.start ≤ i) (h2 : i < b.stop) :
    (C.blocks.find? fun x => decide (x.start ≤ i ∧ i < x.stop)) = some b := by
  cases h : C.blocks.find? fun x => decide (x.start ≤ i ∧ i < x.stop) with
  | none =>
    have := List.find?_eq_none.1 h b hb
    simp only [decide_eq_true_eq] at this
    omega
  | some y =>
    have h3 := List.mem_of_find?_eq_some h
    have h4 := List.find?_some h
    simp only [decide_eq_true_eq] at h4
    rw [L.inj y h3 b hb i h4.1 h4.2 h1 h2]

theorem Layout.block (env : Env F) (junk : Nat → Int → Word) (k : Nat) {b : CBlock} (hb : b ∈ C.blocks)
    (cx : SCx (Option F)) : C.block env junk k b.start cx =
      C.close k b (C.wholeSections (C.codeOf env junk k b) (splitSections C.spec b.insts) cx) := by
  unfold Compiled.block
  rw [L.find hb]
  dsimp only
  rw [wholeSections_eq, split_flatten]
  have he : (splitSections C.spec b.insts).map (List.map (C.codeOf env junk k b)) = C.secs env junk k b := rfl
  rw [he]
  cases hf : b.insts.findIdx? (badImm C.code) with
  | none => cases checkedSections (C.secs env junk k b) cx <;> rfl
  | some n =>
    dsimp only
    have hlt : n < b.insts.length := by
      rw [List.findIdx?_eq_some_iff_getElem] at hf
      exact hf.1
    rw [List.getElem?_eq_getElem hlt]
    have hkey := (keys_at (L.range b hb).2 (A := b.insts.take n) (x := b.insts[n]) (B := b.insts.drop (n + 1))
      (by rw [List.getElem_cons_drop, List.take_append_drop])).1
    rw [List.length_take, Nat.min_eq_left (by omega)] at hkey
    cases checkedPrefix n (C.secs env junk k b) cx with
    | done cx => dsimp only; rw [hkey]; rfl
    | _ => rfl

variable {inspect : Bool} {env : Env F} {junk : Nat → Int → Word} {mem : Int → Word}

omit L in
/-- The frame is at instruction `i` of block `b`, before the sections `ss`, and the program is at its start. -/
structure Stage (C : Compiled) (env : Env F) (junk : Nat → Int → Word) (mem : Int → Word) (n k0 : Nat) (b : CBlock)
    (ss : List (List (Nat × InstData))) (k i : Nat) (cx : SCx (Option F)) : Prop where
  blk : b ∈ C.blocks
  le : b.start ≤ i
  lt : i < b.stop
  cnt : k = k0 + (i - b.start)
  head : (ss.head?.bind List.head?).map Prod.fst = some i
  pre : ∃ pre, splitSections C.spec b.insts = pre ++ ss
  run : ∃ cxb, C.run env junk mem n = .running k0 b.start cxb ∧
    (C.wholeSections (C.codeOf env junk k0 b) ss cx).core =
      (C.wholeSections (C.codeOf env junk k0 b) (splitSections C.spec b.insts) cxb).core

omit L in
theorem run_succ {n k i : Nat} {cx : SCx (Option F)} (h : C.run env junk mem n = .running k i cx) :
    C.run env junk mem (n + 1) = C.block env junk k i cx := by
  show (match C.run env junk mem n with | .running k i cx => C.block env junk k i cx | o => o) = _
  rw [h]

omit L in
/-- Called back after suspending in the instruction `x`. -/
theorem enter_back {c : Caller} {x : Nat × InstData} {cx : SCx (Option F)} {w : Word} {ws : List Word} {p : Nat}
    {j : Int → Word} (hb : ∃ b ∈ C.blocks, x ∈ b.insts) (hx : C.suspends x = true) (hp : C.point x.1 = some p)
    (hw : w = ws.headD 0) :
    C.enter inspect j (((c.save inspect p cx).push j) w) (.suspended (c.save inspect p cx).stack :: cx.trace) =
      some (x.1 + 1, (SCx.back j cx ws).core) := by
  subst hw
  unfold Compiled.point at hp
  obtain ⟨q, hq, rfl⟩ := Option.map_eq_some_iff.1 hp
  obtain ⟨b, hb, hxb⟩ := hb
  have hms : C.maySuspend = true :=
    List.any_eq_true.2 ⟨x, List.mem_flatMap.2 ⟨b, hb, hxb⟩, (suspends_facts hx).2.2.2.1⟩
  have hr : C.resumes[q]? = some (x.1 + 1) := by
    rw [List.findIdx?_eq_some_iff_getElem] at hq
    obtain ⟨hlt, h1, _⟩ := hq
    unfold Compiled.resumes
    rw [List.getElem?_map, List.getElem?_eq_getElem hlt]
    simp only [beq_iff_eq] at h1
    rw [h1]
    rfl
  have hst : (c.save inspect (q + 1) cx).stack = (List.range cx.lenVar.toNat).map fun (k : Nat) => cx.mem k := by
    unfold Caller.stack
    apply List.map_congr_left
    intro a ha
    have ha : a < cx.lenVar.toNat := List.mem_range.1 ha
    show (if inspect then cx.mem else fun a => if a < cx.lenVar then cx.mem a else c.buf a) a = cx.mem a
    cases inspect with
    | true => rfl
    | false => exact if_pos (by omega)
  rw [hst]
  unfold Compiled.enter
  dsimp only
  rw [if_neg (by rw [hms]; show ¬ (true = false ∨ q + 1 = 0); simp)]
  show (C.resumes[q + 1 - 1]?).map _ = _
  rw [Nat.add_sub_cancel, hr]
  simp only [Option.map_some, Option.some.injEq, Prod.mk.injEq, true_and]
  unfold SCx.back SCx.core
  simp only [SCx.mk.injEq, true_and, and_true]
  refine ⟨?_, rfl⟩
  funext a
  unfold Caller.push Caller.save
  cases inspect with
  | true =>
    simp only [if_true]
    rcases Int.lt_trichotomy a cx.lenVar with h | h | h
    · rw [if_pos h, if_neg (by omega), if_neg (by omega)]
    · rw [if_neg (by omega), if_pos h, if_pos h]
    · rw [if_neg (by omega), if_neg (by omega), if_neg (by omega), if_pos h]
  | false =>
    simp only [Bool.false_eq_true, if_false]
    rcases Int.lt_trichotomy a cx.lenVar with h | h | h
    · rw [if_pos (by omega), if_pos h, if_pos h, if_neg (by omega), if_neg (by omega)]
    · rw [if_pos (by omega), if_neg (by omega), if_pos h, if_pos h]
    · rw [if_neg (by omega), if_neg (by omega), if_pos h]

omit L in
/-- At the start of a block, as the program; or, if the caller has just called back, behind a block. -/
def AtStart (C : Compiled) (env : Env F) (junk : Nat → Int → Word) (mem : Int → Word) (n : Nat) (resumed : Bool)
    (k i : Nat) (cx : SCx (Option F)) : Prop :=
  (∃ cxb, C.run env junk mem n = .running k i cxb ∧ cx.core = cxb.core) ∧
    (resumed = true → ∃ b ∈ C.blocks, b.stop = i)

omit L in
/-- What a step of a frame leads to, with the program after `n` blocks and `m` sections left: the end; the start of
the next block; or a suspension, from which it comes back with fewer sections left or behind the block. -/
def Stepped (C : Compiled) (inspect : Bool) (env : Env F) (junk : Nat → Int → Word) (mem : Int → Word) (n m : Nat)
    (k0 : Nat) (b : CBlock) : Act F → Prop
  | .done o => o.final = true ∧ (C.run env junk mem (n + 1)).core = o.core
  | .inside r _ k i cx => r = false ∧ AtStart C env junk mem (n + 1) false k i cx
  | .outside c k w tr => ∃ c' i cx, C.frameStep inspect env junk (.outside c k w tr) = .inside true c' k i cx ∧
      ((∃ ss, ss.length < m ∧ Stage C env junk mem n k0 b ss k i cx) ∨ AtStart C env junk mem (n + 1) true k i cx)

theorem Stage.step {n k0 k i : Nat} {b : CBlock} {ss : List (List (Nat × InstData))} {cx : SCx (Option F)}
    (S : Stage C env junk mem n k0 b ss k i cx) {r : Bool} (hr : r = true ∨ i = b.start) (c : Caller) :
    Stepped C inspect env junk mem n ss.length k0 b (C.blockFrom inspect env junk r c k i cx) := by
  have hfind : (C.blocks.find? fun b => if r then decide (b.start ≤ i ∧ i < b.stop) else b.start == i) = some b := by
    cases r with
    | true => exact L.find_range S.blk S.le S.lt
    | false =>
      have : i = b.start := hr.resolve_left (by simp)
      subst this
      exact L.find S.blk
  have hk := (L.range b S.blk).2
  obtain ⟨pre, hpre⟩ := S.pre
  obtain ⟨cxb, hrun, hcore⟩ := S.run
  have hne : ss ≠ [] := by
    intro h
    have := S.head
    rw [h] at this
    simp at this
  have hk0 : k - (i - b.start) = k0 := by have := S.cnt; omega
  unfold Compiled.blockFrom
  rw [hfind]
  dsimp only
  rw [hk0, drop_pre hk hpre S.head, if_neg hne]
  have hsec : ∀ s ∈ ss, ∀ x ∈ s.dropLast, C.suspends x = false := by
    intro s hs x hx
    obtain ⟨p1, p2, rfl⟩ := List.append_of_mem hs
    have h1 := (split_at C.spec b.insts (pre ++ p1) s p2 (by rw [hpre]; simp)).2.1 x hx
    cases h : C.suspends x with
    | false => rfl
    | true =>
      unfold InstData.endsSection at h1
      rw [(suspends_facts h).2.2.2.1] at h1
      simp at h1
  have hf := frameSections_spec (C := C) (f := C.codeOf env junk k0 b) suspending_toT ss cx hsec
  have hnext : (C.run env junk mem (n + 1)).core =
      (C.close k0 b (C.wholeSections (C.codeOf env junk k0 b) ss cx)).core := by
    rw [run_succ hrun, L.block env junk k0 S.blk]
    exact close_core hcore.symm
  show Stepped C inspect env junk mem n ss.length k0 b (match C.frameSections (C.codeOf env junk k0 b) ss cx with
    | .finished cx => (match C.leave k0 b cx with
      | .running k i cx => .inside false c k i cx
      | o => .done o)
    | .fail f cx => .done (.stackError f cx)
    | .bad i cx => .done (.badImmediate i cx)
    | .panic => .done .panic
    | .suspended j cx ws => (match C.point j with
      | none => .done .panic
      | some point => .outside (c.save inspect point cx) (k0 + (j - b.start) + 1) (ws.headD 0)
          (.suspended (c.save inspect point cx).stack :: cx.trace)))
  revert hf
  cases hfs : C.frameSections (C.codeOf env junk k0 b) ss cx with
  | finished cx' =>
    intro hf
    dsimp only at hf ⊢
    rw [hf] at hnext
    change (C.run env junk mem (n + 1)).core = (C.leave k0 b cx').core at hnext
    revert hnext
    generalize C.leave k0 b cx' = out
    intro hnext
    cases out with
    | running k1 i1 cx1 =>
      refine ⟨rfl, ?_, fun h => by cases h⟩
      revert hnext
      generalize C.run env junk mem (n + 1) = q
      intro hq
      cases q <;> simp only [COut.core, reduceCtorEq, COut.running.injEq] at hq
      obtain ⟨rfl, rfl, hq⟩ := hq
      exact ⟨_, rfl, hq.symm⟩
    | _ => exact ⟨rfl, hnext⟩
  | fail f cx' => intro hf; dsimp only at hf ⊢; rw [hf] at hnext; exact ⟨rfl, hnext⟩
  | bad j cx' => intro hf; dsimp only at hf ⊢; rw [hf] at hnext; exact ⟨rfl, hnext⟩
  | panic => intro hf; dsimp only at hf ⊢; rw [hf] at hnext; exact ⟨rfl, hnext⟩
  | suspended j cx' ws =>
    rintro ⟨pre', s, rest, x, hss, hlast, rfl, hx, hwh⟩
    dsimp only
    have hfl : b.insts = ((pre ++ pre').flatten ++ s.dropLast) ++ x :: rest.flatten := by
      conv => lhs; rw [← split_flatten C.spec b.insts, hpre, hss]
      conv => lhs; rw [getLast_split hlast]
      simp
    obtain ⟨hxp, hlen⟩ := keys_at hk hfl
    have hxb : x ∈ b.insts := by rw [hfl]; simp
    obtain ⟨p, hp⟩ : ∃ p, C.point x.1 = some p := by
      have hin : x.1 ∈ C.suspending :=
        List.mem_map_of_mem (List.mem_filter.2 ⟨List.mem_flatMap.2 ⟨b, S.blk, hxb⟩, hx⟩)
      unfold Compiled.point
      cases h : C.suspending.findIdx? (· == x.1) with
      | none =>
        rw [List.findIdx?_eq_none_iff] at h
        have := h x.1 hin
        simp at this
      | some q => exact ⟨q + 1, rfl⟩
    rw [hp]
    dsimp only
    have hkx : k0 + (x.1 - b.start) + 1 - 1 = k0 + (x.1 - b.start) := by omega
    have hent := enter_back (inspect := inspect) (c := c) (cx := cx') (w := ws.headD 0) (ws := ws) (j := junk (k0 + (x.1 - b.start)))
      ⟨b, S.blk, hxb⟩ hx hp rfl
    refine ⟨(c.save inspect p cx').push (junk (k0 + (x.1 - b.start))) (ws.headD 0), x.1 + 1,
      (SCx.back (junk (k0 + (x.1 - b.start))) cx' ws).core, ?_, ?_⟩
    · show (match C.enter inspect (junk (k0 + (x.1 - b.start) + 1 - 1))
          ((c.save inspect p cx').push (junk (k0 + (x.1 - b.start) + 1 - 1)) (ws.headD 0))
          (.suspended (c.save inspect p cx').stack :: cx'.trace) with
        | none => Act.done .panic
        | some (i, cx) => .inside true ((c.save inspect p cx').push (junk (k0 + (x.1 - b.start) + 1 - 1)) (ws.headD 0))
            (k0 + (x.1 - b.start) + 1) i cx) = _
      rw [hkx, hent]
    · have hclob : ((C.codeOf env junk k0 b) x).clob = junk (k0 + (x.1 - b.start)) := rfl
      rw [hclob] at hwh
      cases rest with
      | nil =>
        right
        rw [List.flatten_nil, List.length_nil] at hlen
        have hst : x.1 + 1 = b.stop := by have := (L.range b S.blk).1; omega
        rw [hwh] at hnext
        change (C.run env junk mem (n + 1)).core = (C.leave k0 b (SCx.back _ cx' ws)).core at hnext
        refine ⟨?_, fun _ => ⟨b, S.blk, hst.symm⟩⟩
        have hlv : C.leave k0 b (SCx.back (junk (k0 + (x.1 - b.start))) cx' ws) =
            .running (k0 + (x.1 - b.start) + 1) (x.1 + 1) (SCx.back (junk (k0 + (x.1 - b.start))) cx' ws) := by
          obtain ⟨m, d, hd, hxd⟩ := L.inst b S.blk x hxb
          obtain ⟨f1, _, _, _, f5, f6⟩ := suspends_facts hx
          rw [hxd] at f1 f5 f6
          have g1 : (d.flags.disabled || d.flags.unknown) = false := by cases m <;> exact f1
          have g5 : d.isJump = false := by cases m <;> exact f5
          have g6 : d.isDiverging = false := by cases m <;> exact f6
          unfold Compiled.leave
          rw [← hst, Nat.add_sub_cancel, hd]
          dsimp only
          rw [g1, g5, g6]
          simp only [Bool.false_eq_true, if_false]
          rw [show k0 + (x.1 + 1 - b.start) = k0 + (x.1 - b.start) + 1 by omega]
        rw [hlv] at hnext
        revert hnext
        generalize C.run env junk mem (n + 1) = q
        intro hq
        cases q <;> simp only [COut.core, reduceCtorEq, COut.running.injEq] at hq
        obtain ⟨rfl, rfl, hq⟩ := hq
        exact ⟨_, rfl, by rw [core_core]; exact hq.symm⟩
      | cons t ts =>
        left
        have ht := (split_at C.spec b.insts (pre ++ pre' ++ [s]) t ts (by rw [hpre, hss]; simp)).1
        cases t with
        | nil => exact absurd rfl ht
        | cons y t =>
          have hy := (keys_at hk (A := (pre ++ pre').flatten ++ s.dropLast ++ [x]) (x := y) (B := t ++ ts.flatten)
            (by rw [hfl]; simp)).1
          rw [List.length_append, List.length_singleton] at hy
          refine ⟨(y :: t) :: ts, by rw [hss]; simp; omega, S.blk, by omega, ?_, by omega, ?_,
            ⟨pre ++ pre' ++ [s], by rw [hpre, hss]; simp⟩, cxb, hrun, ?_⟩
          · simp only [List.flatten_cons, List.length_append, List.length_cons] at hlen hxp
            omega
          · show some y.1 = some (x.1 + 1)
            rw [hy, hxp]
            rfl
          · rw [← hcore, hwh]
            exact wholeSections_core _ _ _ (core_core _)

theorem AtStart.step {n k i : Nat} {r : Bool} {cx : SCx (Option F)} (A : AtStart C env junk mem n r k i cx) (c : Caller) :
    ∃ m b, Stepped C inspect env junk mem n m k b (C.blockFrom inspect env junk r c k i cx) := by
  obtain ⟨⟨cxb, hrun, hcore⟩, hres⟩ := A
  by_cases hb : ∃ b ∈ C.blocks, b.start = i
  · obtain ⟨b, hb, rfl⟩ := hb
    obtain ⟨hlt, hk⟩ := L.range b hb
    refine ⟨_, b, Stage.step L (ss := splitSections C.spec b.insts) ?_ (.inr rfl) c⟩
    refine ⟨hb, Nat.le_refl _, hlt, by omega, ?_, ⟨[], rfl⟩, cxb, hrun, wholeSections_core _ _ _ hcore⟩
    cases hs : splitSections C.spec b.insts with
    | nil =>
      have h1 := split_flatten C.spec b.insts
      rw [hs] at h1
      rw [← h1] at hk
      have := congrArg List.length hk
      simp at this
      omega
    | cons t ts =>
      have ht := (split_at C.spec b.insts [] t ts (by rw [hs]; rfl)).1
      cases t with
      | nil => exact absurd rfl ht
      | cons y t =>
        have hy := (keys_at hk (A := []) (x := y) (B := t ++ ts.flatten)
          (by rw [← split_flatten C.spec b.insts, hs]; rfl)).1
        show some y.1 = some b.start
        rw [hy]
        rfl
  · have hno : (C.blocks.find? fun b => if r then decide (b.start ≤ i ∧ i < b.stop) else b.start == i) = none := by
      rw [List.find?_eq_none]
      intro b hbb h
      cases r with
      | false =>
        simp only [Bool.false_eq_true, if_false, beq_iff_eq] at h
        exact hb ⟨b, hbb, h⟩
      | true =>
        simp only [if_true, decide_eq_true_eq] at h
        obtain ⟨b', hb', rfl⟩ := hres rfl
        have h1 := (L.range b' hb').1
        rcases Nat.lt_or_ge b.start b'.stop with h2 | h2
        · have := L.inj b hbb b' hb' (b'.stop - 1) (by omega) (by omega) (by omega) (by omega)
          subst this
          omega
        · exact hb ⟨b, hbb, by omega⟩
    refine ⟨0, { start := 0, stop := 0, insts := [] }, ?_⟩
    have hp : C.run env junk mem (n + 1) = .panic := by
      rw [run_succ hrun]
      unfold Compiled.block
      have : (C.blocks.find? fun b => b.start == i) = none := by
        rw [List.find?_eq_none]
        intro b hbb h
        exact hb ⟨b, hbb, by simpa using h⟩
      rw [this]
    unfold Compiled.blockFrom
    rw [hno]
    exact ⟨rfl, by rw [hp]⟩

omit L in
/-- A frame and the program after `n` blocks. -/
def Related (C : Compiled) (inspect : Bool) (env : Env F) (junk : Nat → Int → Word) (mem : Int → Word) (n : Nat) :
    Act F → Prop
  | .done o => o.final = true ∧ (C.run env junk mem n).core = o.core
  | .inside r _ k i cx => AtStart C env junk mem n r k i cx ∨
      (r = true ∧ ∃ k0 b ss, Stage C env junk mem n k0 b ss k i cx)
  | .outside c k w tr => ∃ c' i cx, C.frameStep inspect env junk (.outside c k w tr) = .inside true c' k i cx ∧
      (AtStart C env junk mem n true k i cx ∨ ∃ k0 b ss, Stage C env junk mem n k0 b ss k i cx)

omit L in
theorem Stepped.related {n m k0 : Nat} {b : CBlock} {a : Act F} (h : Stepped C inspect env junk mem n m k0 b a) :
    Related C inspect env junk mem n a ∨ Related C inspect env junk mem (n + 1) a := by
  cases a with
  | done o => exact .inr h
  | inside r c k i cx =>
    obtain ⟨rfl, h⟩ := h
    exact .inr (.inl h)
  | outside c k w tr =>
    obtain ⟨c', i, cx, h1, ⟨ss, _, h2⟩ | h2⟩ := h
    · exact .inl ⟨c', i, cx, h1, .inr ⟨k0, b, ss, h2⟩⟩
    · exact .inr ⟨c', i, cx, h1, .inl h2⟩

omit L in
theorem frame_zero (fresh buf : Int → Word) : C.frame inspect env junk fresh buf 0 =
    .inside false { buf } 0 0 { mem := if inspect then buf else fresh } := by
  unfold Compiled.frame
  have : C.enter inspect fresh { buf } [] =
      some (0, ({ mem := if inspect then buf else fresh } : SCx (Option F))) := by
    unfold Compiled.enter
    dsimp only
    rw [if_pos (Or.inr rfl)]
    cases inspect <;> rfl
  rw [this]

/-- A frame has executed some number of whole blocks. -/
theorem Layout.frame (fresh buf : Int → Word) : ∀ m, ∃ n,
    Related C inspect env junk (if inspect then buf else fresh) n (C.frame inspect env junk fresh buf m)
  | 0 => by
    refine ⟨0, ?_⟩
    rw [frame_zero]
    exact .inl ⟨⟨_, rfl, rfl⟩, fun h => by cases h⟩
  | m + 1 => by
    obtain ⟨n, h⟩ := Layout.frame fresh buf m
    show ∃ n, Related C inspect env junk _ n (C.frameStep inspect env junk (C.frame inspect env junk fresh buf m))
    revert h
    generalize C.frame inspect env junk fresh buf m = a
    intro h
    cases a with
    | done o => exact ⟨n, h⟩
    | inside r c k i cx =>
      rcases h with h | ⟨rfl, k0, b, ss, h⟩
      · obtain ⟨_, _, h⟩ := h.step L (inspect := inspect) c
        rcases h.related with h | h
        · exact ⟨_, h⟩
        · exact ⟨_, h⟩
      · rcases (h.step L (inspect := inspect) (.inl rfl) c).related with h | h
        · exact ⟨_, h⟩
        · exact ⟨_, h⟩
    | outside c k w tr =>
      obtain ⟨c', i, cx, h1, h2⟩ := h
      rw [h1]
      rcases h2 with h2 | h2
      · exact ⟨n, .inl h2⟩
      · exact ⟨n, .inr ⟨rfl, h2⟩⟩

omit L in
/-- `j` steps of a frame. -/
def Compiled.steps (C : Compiled) (inspect : Bool) (env : Env F) (junk : Nat → Int → Word) : Nat → Act F → Act F
  | 0, a => a
  | j + 1, a => C.steps inspect env junk j (C.frameStep inspect env junk a)

omit L in
theorem steps_succ (j : Nat) (a : Act F) :
    C.steps inspect env junk (j + 1) a = C.steps inspect env junk j (C.frameStep inspect env junk a) := rfl

omit L in
theorem steps_zero (a : Act F) : C.steps inspect env junk 0 a = a := rfl

omit L in
theorem frame_steps (fresh buf : Int → Word) (m : Nat) : ∀ j,
    C.steps inspect env junk j (C.frame inspect env junk fresh buf m) = C.frame inspect env junk fresh buf (m + j)
  | 0 => rfl
  | j + 1 => by
    show C.steps inspect env junk j (C.frame inspect env junk fresh buf (m + 1)) = _
    rw [frame_steps fresh buf (m + 1) j, Nat.add_right_comm]
    rfl

theorem Stage.advance {n k0 : Nat} {b : CBlock} : ∀ (l : Nat) {ss : List (List (Nat × InstData))} {k i : Nat}
    {cx : SCx (Option F)}, ss.length ≤ l → Stage C env junk mem n k0 b ss k i cx → ∀ c, ∃ j,
      Related C inspect env junk mem (n + 1) (C.steps inspect env junk j (.inside true c k i cx))
  | 0, ss, k, i, cx, hl, S, c => by
    have : ss = [] := List.eq_nil_of_length_eq_zero (by omega)
    have h := S.head
    rw [this] at h
    simp at h
  | l + 1, ss, k, i, cx, hl, S, c => by
    have h := S.step L (inspect := inspect) (.inl rfl : true = true ∨ _) c
    have h1 : C.frameStep inspect env junk (.inside true c k i cx) = C.blockFrom inspect env junk true c k i cx := rfl
    rw [← h1] at h
    cases ha : C.frameStep inspect env junk (.inside true c k i cx) with
    | done o => rw [ha] at h; exact ⟨1, by rw [steps_succ, steps_zero, ha]; exact h⟩
    | inside r c k i cx =>
      rw [ha] at h
      obtain ⟨rfl, h⟩ := h
      exact ⟨1, by rw [steps_succ, steps_zero, ha]; exact .inl h⟩
    | outside c k w tr =>
      rw [ha] at h
      obtain ⟨c', i, cx, h2, ⟨ss', h3, h4⟩ | h4⟩ := h
      · obtain ⟨j, hj⟩ := Stage.advance (n := n) (k0 := k0) (b := b) l (by omega) h4 c'
        refine ⟨j + 2, ?_⟩
        rw [steps_succ, steps_succ, ha, h2]
        exact hj
      · refine ⟨2, ?_⟩
        rw [steps_succ, steps_succ, steps_zero, ha, h2]
        exact .inl h4

theorem Related.advance {n : Nat} {a : Act F} (h : Related C inspect env junk mem n a) : ∃ j,
    Related C inspect env junk mem (n + 1) (C.steps inspect env junk j a) := by
  have start : ∀ {r k i cx}, AtStart C env junk mem n r k i cx → ∀ c, ∃ j,
      Related C inspect env junk mem (n + 1) (C.steps inspect env junk j (.inside r c k i cx)) := by
    intro r k i cx A c
    obtain ⟨m, b, h⟩ := A.step L (inspect := inspect) c
    have h1 : C.frameStep inspect env junk (.inside r c k i cx) = C.blockFrom inspect env junk r c k i cx := rfl
    rw [← h1] at h
    cases ha : C.frameStep inspect env junk (.inside r c k i cx) with
    | done o => rw [ha] at h; exact ⟨1, by rw [steps_succ, steps_zero, ha]; exact h⟩
    | inside r c k i cx =>
      rw [ha] at h
      obtain ⟨rfl, h⟩ := h
      exact ⟨1, by rw [steps_succ, steps_zero, ha]; exact .inl h⟩
    | outside c k w tr =>
      rw [ha] at h
      obtain ⟨c', i, cx, h2, ⟨ss', h3, h4⟩ | h4⟩ := h
      · obtain ⟨j, hj⟩ := Stage.advance L (inspect := inspect) _ (Nat.le_refl _) h4 c'
        refine ⟨j + 2, ?_⟩
        rw [steps_succ, steps_succ, ha, h2]
        exact hj
      · refine ⟨2, ?_⟩
        rw [steps_succ, steps_succ, steps_zero, ha, h2]
        exact .inl h4
  cases a with
  | done o =>
    refine ⟨0, h.1, ?_⟩
    have hf : (C.run env junk mem n).final = true := by
      rw [← core_final, h.2, core_final]
      exact h.1
    rw [run_final hf 1]
    exact h.2
  | inside r c k i cx =>
    rcases h with h | ⟨rfl, k0, b, ss, h⟩
    · exact start h c
    · exact h.advance L _ (Nat.le_refl _) c
  | outside c k w tr =>
    obtain ⟨c', i, cx, h1, h2⟩ := h
    have : ∃ j, Related C inspect env junk mem (n + 1) (C.steps inspect env junk j (.inside true c' k i cx)) := by
      rcases h2 with h2 | ⟨k0, b, ss, h2⟩
      · exact start h2 c'
      · exact h2.advance L _ (Nat.le_refl _) c'
    obtain ⟨j, hj⟩ := this
    refine ⟨j + 1, ?_⟩
    rw [steps_succ, h1]
    exact hj

/-- A frame gets as far as the program. -/
theorem Layout.reaches (fresh buf : Int → Word) : ∀ n, ∃ m,
    Related C inspect env junk (if inspect then buf else fresh) n (C.frame inspect env junk fresh buf m)
  | 0 => by
    refine ⟨0, ?_⟩
    rw [frame_zero]
    exact .inl ⟨⟨_, rfl, rfl⟩, fun h => by cases h⟩
  | n + 1 => by
    obtain ⟨m, h⟩ := Layout.reaches fresh buf n
    obtain ⟨j, hj⟩ := Related.advance L h
    rw [frame_steps] at hj
    exact ⟨m + j, hj⟩

end frames

end Verif
