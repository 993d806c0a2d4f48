import Verif.Lemmas.SuspendCalls
/-!
# Resume points
-/

namespace Verif
open Spec
variable {E F : Type}

theorem parseLoop_len (infos : UInt8 → OpcodeInfo) (bytes : List UInt8) (pc : Nat)
    (it : Interner) : (parseLoop infos bytes pc it).1.length ≤ bytes.length := by
  fun_induction parseLoop infos bytes pc it with
  | case1 => simp
  | case2 pc it o rest _ di _ r ih =>
    have h2 := loopNext_length infos o rest
    have h3 : r.1.length ≤ (loopNext infos o rest).length := ih
    simp only [List.length_cons]
    omega

theorem parse_len (g : UInt8 → BitVec 16) (spec : SpecId) (bytes : List UInt8) :
    (parse g spec bytes).toProg.insts.length ≤ bytes.length + 1 := by
  obtain ⟨pad, h1, h2⟩ := parse_insts g spec bytes
  have h3 := parseLoop_len (makeMap g spec) bytes 0 []
  unfold Parsed.toProg
  rw [List.length_map, h1, List.length_append]
  rcases h2 with ⟨h, _⟩ | ⟨h, _⟩ <;> rw [h] <;> simp <;> omega

theorem sorted_len : ∀ {l : List Nat} {a n : Nat}, l.Pairwise (· < ·) → (∀ x ∈ l, a ≤ x ∧ x < n) → l.length ≤ n - a
  | [], a, n, _, _ => by simp
  | x :: l, a, n, h, hx => by
    rw [List.pairwise_cons] at h
    have h1 := hx x (by simp)
    have := sorted_len (l := l) (a := x + 1) (n := n) h.2 (fun y hy => by
      have := h.1 y hy
      have := (hx y (by simp [hy])).2
      omega)
    rw [List.length_cons]
    omega

theorem compileBlocks_map {o : WOpts} {code : Code} {p : Prog} {ai : AIState} :
    ∀ {bs : List (Nat × Nat)} {out : List CBlock}, compileBlocks o code p ai bs = some out →
      out.map (fun x => (x.start, x.stop)) = bs
  | [], out, h => by cases h; rfl
  | b :: bs, out, h => by
    unfold compileBlocks at h
    obtain ⟨y, hy, h⟩ := Option.bind_eq_some_iff.1 h
    obtain ⟨ys, hys, rfl⟩ := Option.map_eq_some_iff.1 h
    rw [List.map_cons, compileBlocks_map hys]
    unfold compileBlock at hy
    obtain ⟨l', hl, hy⟩ := Option.bind_eq_some_iff.1 hy
    split at hy
    · cases hy
      rfl
    · cases hy

section points
variable {base : List InstData} {ok : Nat → List Word → Prop} {o : WOpts} {C : Compiled} (G : GoodC base ok o C)
include G

theorem GoodC.suspending_sorted : C.suspending.Pairwise (· < ·) := by
  have L := G.layout
  unfold Compiled.suspending
  rw [List.pairwise_map]
  refine List.Pairwise.filter _ ?_
  rw [List.pairwise_flatMap]
  constructor
  · intro b hb
    have h := (L.range b hb).2
    have h2 : (b.insts.map Prod.fst).Pairwise (· < ·) := by rw [h]; exact List.pairwise_lt_range'
    rw [List.pairwise_map] at h2
    exact h2
  · have hm := compileBlocks_map G.blocks
    have hs := C.prog.blocks_ok.sorted
    rw [← hm, List.pairwise_map] at hs
    refine List.Pairwise.imp_of_mem ?_ hs
    intro x y hx hy hxy p hp q hq
    have keys : ∀ b ∈ C.blocks, ∀ p ∈ b.insts, b.start ≤ p.1 ∧ p.1 < b.stop := by
      intro b hb p hp
      have h := List.mem_map_of_mem (f := Prod.fst) hp
      rw [(L.range b hb).2, List.mem_range'_1] at h
      omega
    have h1 := keys x hx p hp
    have h2 := keys y hy q hq
    have : x.stop ≤ y.start := hxy
    omega

theorem GoodC.suspending_at {i : Nat} (hi : i ∈ C.suspending) : ∃ d, base[i]? = some d ∧ ¬ Halts d ∧
    d.maySuspend = true ∧ i + 1 < base.length := by
  unfold Compiled.suspending at hi
  obtain ⟨x, hx, rfl⟩ := List.mem_map.1 hi
  obtain ⟨hx, hs⟩ := List.mem_filter.1 hx
  obtain ⟨b, hb, hx⟩ := List.mem_flatMap.1 hx
  obtain ⟨m, d, hd, hxd⟩ := G.layout.inst b hb x hx
  obtain ⟨f1, _, _, f4, f5, f6⟩ := suspends_facts hs
  rw [hxd] at f1 f4
  have g1 : (d.flags.disabled || d.flags.unknown) = false := by cases m <;> exact f1
  have g4 : d.maySuspend = true := by cases m <;> exact f4
  have hlt : x.1 < base.length := by
    rw [← G.sound.ev.len]
    exact (List.getElem?_eq_some_iff.1 hd).1
  have he := G.sound.ev.inst x.1 _ d (List.getElem?_eq_getElem hlt) hd
  have e4 : (base[x.1]).maySuspend = true := by
    unfold InstData.maySuspend at g4 ⊢
    rw [← he.op]
    exact g4
  have e1 : ((base[x.1]).flags.disabled || (base[x.1]).flags.unknown) = false := by rw [← he.dis, ← he.unk]; exact g1
  have hops : (base[x.1]).opcode.toNat ∈ [0xf0, 0xf1, 0xf2, 0xf4, 0xf5, 0xfa] := by
    unfold InstData.maySuspend at e4
    simp only [List.contains_iff_mem, List.mem_cons, List.not_mem_nil, or_false] at e4
    rcases e4 with h | h | h | h | h | h <;> rw [h] <;> decide
  have hnh : ¬ Halts (base[x.1]) := by
    rintro (h | h | h)
    · rw [h] at e1; simp at e1
    · rw [h] at e1; simp at e1
    · simp only [List.mem_cons, List.not_mem_nil, or_false] at h hops
      omega
  refine ⟨base[x.1], List.getElem?_eq_getElem hlt, hnh, e4, ?_⟩
  rcases Nat.lt_or_ge (x.1 + 1) base.length with h | h
  · exact h
  · rcases G.wf.last x.1 _ (List.getElem?_eq_getElem hlt) (by omega) with h | h
    · exact absurd h hnh
    · rw [h] at hops
      exact absurd hops (by decide)

theorem GoodC.point_le {i p : Nat} (h : C.point i = some p) : 1 ≤ p ∧ p + 1 ≤ base.length := by
  unfold Compiled.point at h
  obtain ⟨q, hq, rfl⟩ := Option.map_eq_some_iff.1 h
  rw [List.findIdx?_eq_some_iff_getElem] at hq
  have h1 := hq.1
  have h2 := sorted_len (a := 0) (n := base.length - 1) G.suspending_sorted (fun x hx => by
    obtain ⟨_, _, _, _, h⟩ := G.suspending_at hx
    omega)
  omega

end points

/-! ## Suspended frames -/

theorem frameSteps_susp {C : Compiled} {f : Nat × InstData → TInst E} : ∀ {s : List (Nat × InstData)} {cx cx' : SCx E}
    {j : Nat} {ws : List Word}, C.frameSteps f s cx = .suspended j cx' ws → ∃ x ∈ s, x.1 = j ∧ C.suspends x = true
  | [], cx, cx', j, ws, h => by cases h
  | x :: xs, cx, cx', j, ws, h => by
    unfold Compiled.frameSteps at h
    split at h
    · cases h
    · split at h
      · cases h
        exact ⟨x, by simp, rfl, ‹_›⟩
      · split at h
        · cases h
        · split at h
          · cases h
          · obtain ⟨y, h1, h2⟩ := frameSteps_susp h
            exact ⟨y, List.mem_cons_of_mem _ h1, h2⟩

theorem frameSections_susp {C : Compiled} {f : Nat × InstData → TInst E} : ∀ {ss : List (List (Nat × InstData))}
    {cx cx' : SCx E} {j : Nat} {ws : List Word}, C.frameSections f ss cx = .suspended j cx' ws →
      ∃ s ∈ ss, ∃ x ∈ s, x.1 = j ∧ C.suspends x = true
  | [], cx, cx', j, ws, h => by cases h
  | s :: rest, cx, cx', j, ws, h => by
    unfold Compiled.frameSections at h
    split at h
    · cases h
    · split at h
      · obtain ⟨t, h1, h2⟩ := frameSections_susp h
        exact ⟨t, List.mem_cons_of_mem _ h1, h2⟩
      · rename_i r hr
        obtain ⟨x, h1, h2⟩ := frameSteps_susp h
        exact ⟨s, by simp, x, h1, h2⟩

/-- How a frame gets to be suspended. -/
theorem outside_from {C : Compiled} {inspect : Bool} {env : Env F} {junk : Nat → Int → Word} {a : Act F} {c : Caller}
    {k : Nat} {w : Word} {tr : List (Ev (Option F))} (h : C.frameStep inspect env junk a = .outside c k w tr) :
    ∃ b ∈ C.blocks, ∃ x ∈ b.insts, C.suspends x = true ∧ ∃ c0 p cx ws, C.point x.1 = some p ∧
      c = Caller.save inspect c0 p cx ∧ w = List.headD ws 0 ∧ tr = .suspended c.stack :: cx.trace := by
  cases a with
  | done o => cases h
  | outside c k w tr =>
    change (match C.enter inspect (junk (k - 1)) (c.push (junk (k - 1)) w) tr with
      | none => Act.done .panic
      | some (i, cx) => .inside true (c.push (junk (k - 1)) w) k i cx) = _ at h
    split at h <;> cases h
  | inside r c0 k0 i cx =>
    change C.blockFrom inspect env junk r c0 k0 i cx = _ at h
    unfold Compiled.blockFrom at h
    split at h
    · cases h
    · rename_i b hb
      dsimp only at h
      split at h
      · cases h
      · split at h
        · split at h <;> cases h
        · cases h
        · cases h
        · cases h
        · rename_i j c1 ws hfs
          split at h
          · cases h
          · rename_i p hp
            obtain ⟨s, hs, x, hx, rfl, hsu⟩ := frameSections_susp hfs
            refine ⟨b, List.mem_of_find?_eq_some hb, x, ?_, hsu, c0, p, c1, ws, hp, ?_⟩
            · rw [← split_flatten C.spec b.insts]
              exact List.mem_flatten.2 ⟨s, List.dropWhile_sublist _ |>.mem hs, hx⟩
            · cases h
              exact ⟨rfl, rfl, rfl⟩

end Verif
