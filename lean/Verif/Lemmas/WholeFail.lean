import Verif.Lemmas.WholeInv
/-!
# Blocks that fail
-/

namespace Verif
open Spec
variable {F : Type}

section sections
variable {E : Type}

theorem fails_of : ∀ {as : List (TInst E)} {S : List Word} {bs : List (Nat × Nat)}, RunOk as S →
    stackFails (run as S).length bs → stackFails S.length (as.map (fun t => (t.inp, t.out)) ++ bs)
  | [], _, _, _, h => h
  | t :: as, S, bs, hok, h => by
    have h1 := hok.1.operands
    have h2 := next_length hok.1
    have h6 : (next t S).length = S.length - t.inp + t.out := by omega
    have := fails_of (as := as) hok.2 h
    rw [h6] at this
    exact .inr (.inr this)

/-- The check at the head of a section some instruction of which fails. -/
theorem headCheck_fails {as bs : List (TInst E)} {t : TInst E} {S : List Word} {cx : SCx E} (hok : RunOk as S)
    (hS : S.length ≤ 1024)
    (hf : stackFails (run as S).length [(t.inp, t.out)]) (hcx : cx.lenVar = S.length) :
    ∃ f, headCheck (as ++ t :: bs) cx = some f := by
  rw [← Option.isSome_iff_exists]
  unfold headCheck
  have hm := StackAcc.mono ((as ++ t :: bs).map fun t => (t.inp, t.out)) {}
  have hi := StackAcc.fold_iff ((as ++ t :: bs).map fun t => (t.inp, t.out)) {} S.length S.length (by simp)
  rw [List.foldl_map] at hm hi
  rw [hcx, Int.toNat_natCast]
  rw [check_isSome _ _ hm.1 hm.2 hS, hi]
  right; right
  have h2 := fails_of (bs := [(t.inp, t.out)] ++ bs.map fun t => (t.inp, t.out)) hok (by
    have hx : ∀ {h : Nat} {p : Nat × Nat} {q : List (Nat × Nat)}, stackFails h [p] → stackFails h ([p] ++ q) := by
      intro h p q hp
      rcases hp with hp | hp | hp
      · exact .inl hp
      · exact .inr (.inl hp)
      · exact hp.elim
    exact hx hf)
  rw [List.map_append, List.map_cons]
  exact h2

theorem under_inputs : ∀ (as bs : List (TInst E)) (t : TInst E) (a : StackAcc) (S : List Word) (L : Int),
    RunOk as S → a.diff = S.length - L → (run as S).length < t.inp →
    L < ((as ++ t :: bs).foldl (fun a t => a.process t.inp t.out) a).inputs
  | [], bs, t, a, S, L, _, hd, hu => by
    rw [List.nil_append, List.foldl_cons]
    have hm := StackAcc.mono (bs.map fun t => (t.inp, t.out)) (a.process t.inp t.out)
    rw [List.foldl_map] at hm
    dsimp only at hm
    have h1 : L < (a.process t.inp t.out).inputs := by
      unfold StackAcc.process
      change S.length < t.inp at hu
      dsimp only
      omega
    omega
  | x :: as, bs, t, a, S, L, hok, hd, hu => by
    rw [List.cons_append, List.foldl_cons]
    refine under_inputs as bs t _ (next x S) L hok.2 ?_ hu
    have h1 := hok.1.operands
    have h2 := next_length hok.1
    unfold StackAcc.process
    dsimp only
    omega

theorem check_under {a : StackAcc} {h : Nat} (hh : h ≤ 1024) (hu : (h : Int) < a.inputs) :
    checkStackBounds a.section h = some .underflow := by
  unfold checkStackBounds
  have h1 : h < a.section.inputs := by
    unfold StackAcc.section
    dsimp only
    split <;> omega
  have h2 : a.section.inputs > 0 := by omega
  simp [h1, h2]

theorem headCheck_under {as bs : List (TInst E)} {t : TInst E} {S : List Word} {cx : SCx E} (hok : RunOk as S)
    (hS : S.length ≤ 1024) (hf : (run as S).length < t.inp) (hcx : cx.lenVar = S.length) :
    headCheck (as ++ t :: bs) cx = some .underflow := by
  unfold headCheck
  rw [hcx, Int.toNat_natCast]
  exact check_under hS (under_inputs as bs t {} S S.length hok (by simp) hf)

/-- The shape of the sections of a block. -/
def SecsOk (secs : List (List (TInst E))) : Prop :=
  ∀ ts ∈ secs, ts ≠ [] ∧ Shape ts ∧
      (ts.foldl (fun a t => a.process t.inp t.out) ({} : StackAcc)).inputs ≤ 65535 ∧
      (ts.foldl (fun a t => a.process t.inp t.out) ({} : StackAcc)).maxGrowth ≤ 32767 ∧
      ∀ t ∈ ts.dropLast, t.lower.leaves = false

theorem split_nth {α : Type} {l : List α} {m : Nat} {t : α} (h : l[m]? = some t) :
    l = l.take m ++ t :: l.drop (m + 1) := by
  obtain ⟨hlt, rfl⟩ := List.getElem?_eq_some_iff.1 h
  rw [List.getElem_cons_drop, List.take_append_drop]

theorem take_len_add {α : Type} (a b : List α) (j : Nat) : (a ++ b).take (a.length + j) = a ++ b.take j := by
  rw [List.take_append, List.take_of_length_le (l := a) (by omega), show a.length + j - a.length = j by omega]

/-- An instruction of the block has a stack error: the section it belongs to is not entered. -/
theorem checked_fail {cx : SCx E} {S : List Word} {G : List Bool} (secs : List (List (TInst E))) (m : Nat)
    (N : Option Nat) (hN : ∀ n, N = some n → m ≤ n)
    (hsec : SecsOk secs) (h : HoldsM cx S G) (hm : G.length = S.length)
    (hok : RunOk (secs.flatten.take m) S) (hl : Low (secs.flatten.take m) S)
    (hr : RunReadable (secs.flatten.take m) G) {t : TInst E} (ht : secs.flatten[m]? = some t)
    (hf : stackFails (run (secs.flatten.take m) S).length [(t.inp, t.out)]) :
    ∃ f cx' j, j ≤ m ∧ (match N with | none => checkedSections secs cx | some n => checkedPrefix n secs cx) =
        .fail f cx' ∧
      cx'.trace = runEvents (secs.flatten.take j) S ++ cx.trace ∧
      ((run (secs.flatten.take m) S).length < t.inp → f = .underflow) := by
  induction secs generalizing cx S G m N with
  | nil => simp at ht
  | cons ts secs ih =>
    rw [List.flatten_cons] at hok hr hl ht hf ⊢
    obtain ⟨h1, h2, h3, h4, _⟩ := hsec ts (by simp)
    by_cases hle : ts.length ≤ m
    · rw [List.take_append, List.take_of_length_le hle] at hok hr hl hf ⊢
      rw [List.getElem?_append_right hle] at ht
      obtain ⟨o1, o2⟩ := (runOk_append _ _ _).1 hok
      obtain ⟨r1, r2⟩ := (runReadable_append _ _ _).1 hr
      obtain ⟨c1, e1, m1, tr1⟩ := section_ok ts h1 h hm o1 h2 h3 h4 r1
      have hck := headCheck_ok o1 hl.left h.1
      rw [run_append] at hf ⊢
      obtain ⟨f, c2, j, hj, e2, tr2, hu⟩ := ih (m - ts.length) (N.map (· - ts.length))
        (fun n hn => by
          obtain ⟨n', h1, rfl⟩ := Option.map_eq_some_iff.1 hn
          have := hN n' h1
          omega) (fun ts hts => hsec ts (by simp [hts])) m1
        (maskRun_length ts S G o1 hm) o2 hl.right r2 ht hf
      refine ⟨f, c2, ts.length + j, by omega, ?_, ?_, hu⟩
      · cases N with
        | none =>
          simp only [Option.map_none] at e2
          simp only [checkedSections, hck, e1, e2]
        | some n =>
          have := hN n rfl
          simp only [Option.map_some] at e2
          simp only [checkedPrefix, hck, e1]
          rw [if_pos (by omega)]
          exact e2
      · rw [tr2, tr1, take_len_add, runEvents_append, List.append_assoc]
    · have hlt : m < ts.length := by omega
      rw [List.take_append_of_le_length (by omega)] at hok hr hl hf ⊢
      rw [List.getElem?_append_left hlt] at ht
      have hs := split_nth ht
      obtain ⟨f, hck⟩ := headCheck_fails (bs := ts.drop (m + 1)) hok hl.head hf h.1
      rw [← hs] at hck
      refine ⟨f, cx, 0, by omega, ?_, by simp [runEvents], ?_⟩
      · cases N with
        | none => simp only [checkedSections, hck]
        | some n => simp only [checkedPrefix, hck]
      · intro hu
        have := headCheck_under (bs := ts.drop (m + 1)) hok hl.head hu h.1
        rw [← hs, hck] at this
        exact Option.some.inj this

/-- An instruction of the block has no decodable immediate: it is reached, unless a later instruction of its section
has a stack error. -/
theorem prefix_stop {cx : SCx E} {S : List Word} {G : List Bool} (secs : List (List (TInst E))) (m : Nat)
    (hsec : SecsOk secs) (h : HoldsM cx S G) (hm : G.length = S.length)
    (hok : RunOk (secs.flatten.take m) S) (hl : Low (secs.flatten.take m) S)
    (hr : RunReadable (secs.flatten.take m) G) :
    (∃ cx', checkedPrefix m secs cx = .done cx' ∧ cx'.trace = runEvents (secs.flatten.take m) S ++ cx.trace) ∨
    ∃ f cx' j, j ≤ m ∧ checkedPrefix m secs cx = .fail f cx' ∧
      cx'.trace = runEvents (secs.flatten.take j) S ++ cx.trace := by
  induction secs generalizing cx S G m with
  | nil => exact .inl ⟨cx, by cases m <;> rfl, by simp [runEvents]⟩
  | cons ts secs ih =>
    rw [List.flatten_cons] at hok hr hl ⊢
    obtain ⟨h1, h2, h3, h4, h5⟩ := hsec ts (by simp)
    by_cases hle : ts.length ≤ m
    · rw [List.take_append, List.take_of_length_le hle] at hok hr hl ⊢
      obtain ⟨o1, o2⟩ := (runOk_append _ _ _).1 hok
      obtain ⟨r1, r2⟩ := (runReadable_append _ _ _).1 hr
      obtain ⟨c1, e1, m1, tr1⟩ := section_ok ts h1 h hm o1 h2 h3 h4 r1
      have hck := headCheck_ok o1 hl.left h.1
      have hgo : checkedPrefix m (ts :: secs) cx = checkedPrefix (m - ts.length) secs c1 := by
        simp only [checkedPrefix, hck, e1]
        rw [if_pos hle]
      rw [hgo]
      rcases ih (m - ts.length) (fun ts hts => hsec ts (by simp [hts])) m1
        (maskRun_length ts S G o1 hm) o2 hl.right r2 with ⟨c2, e2, tr2⟩ | ⟨f, c2, j, hj, e2, tr2⟩
      · exact .inl ⟨c2, e2, by rw [tr2, tr1, runEvents_append, List.append_assoc]⟩
      · refine .inr ⟨f, c2, ts.length + j, by omega, e2, ?_⟩
        rw [tr2, tr1, take_len_add, runEvents_append, List.append_assoc]
    · rw [List.take_append_of_le_length (by omega)] at hok hr hl ⊢
      cases hck : headCheck ts cx with
      | some f => exact .inr ⟨f, cx, 0, by omega, by simp only [checkedPrefix, hck], by simp [runEvents]⟩
      | none =>
        left
        have hin : (ts.foldl (fun a t => a.process t.inp t.out) ({} : StackAcc)).inputs ≤ (S.length : Int) := by
          unfold headCheck at hck
          rw [h.1, Int.toNat_natCast] at hck
          have hmm := StackAcc.mono (ts.map fun t => (t.inp, t.out)) {}
          rw [List.foldl_map] at hmm
          dsimp only at hmm
          have := (check_isSome _ _ hmm.1 hmm.2 hl.head).not.1 (by rw [hck]; simp)
          omega
        obtain ⟨I, M, hf, hi, hb, hc, ht, _, htr⟩ := head_of ts h hm hin h3 h4
        rw [← List.take_append_drop m ts] at hf
        obtain ⟨c2, e2, tr2⟩ := part_ok (ts.take m) (ts.drop m) hi hok (fun t ht => h5 t (by
          rw [List.dropLast_eq_take]
          exact (List.take_subset_take_left ts (by omega)) ht)) hf hr hb hc ht
        refine ⟨c2, ?_, ?_⟩
        · simp only [checkedPrefix, hck]
          rw [if_neg hle, e2]
        · rw [tr2, htr]

end sections

theorem slice_len' {p : Prog} {s : Nat} : ∀ {n : Nat}, s + n ≤ p.insts.length → (p.slice s n).length = n
  | 0, _ => by unfold Prog.slice; simp
  | n + 1, h => by
    obtain ⟨d, hd⟩ : ∃ d, p.insts[s + n]? = some d := ⟨_, List.getElem?_eq_getElem (by omega)⟩
    rw [slice_succ hd, List.length_append, slice_len' (by omega)]; rfl

section part
variable {C : Compiled} {env : Env F} {clob : Nat → Int → Word} {mem : Int → Word} {b : Nat × Nat}
  {n k0 : Nat} {c0 : List Word} {cx : SCx (Option F)} {k i : Nat} {c : List Word} {tr : List (Obs F)}
  {d : InstData} {base : List InstData} {ok : Nat → List Word → Prop} {o : WOpts}

/-- The instructions of the block before `i`. -/
theorem Part.take (P : Part C env clob mem b n k0 c0 cx k i c tr) (hi : i < b.2) (hd : C.prog.insts[i]? = some d) :
    (C.prog.blockInsts b).take (i - b.1) = C.prog.slice b.1 (i - b.1) ∧
      (C.prog.blockInsts b)[i - b.1]? = some (i, d) := by
  have hle := P.le
  have hr := C.prog.blocks_ok.range b P.blk
  have hlen := slice_len' (p := C.prog) (s := b.1) (n := i - b.1) (by omega)
  have hs := slice_split (p := C.prog) (s := b.1) (n := b.2 - b.1) (k := i - b.1) (d := d)
    (by rw [show b.1 + (i - b.1) = i by omega]; exact hd) (by omega)
  rw [show b.1 + (i - b.1) = i by omega] at hs
  unfold Prog.blockInsts
  rw [hs]
  constructor
  · rw [List.take_left' hlen]
  · rw [List.getElem?_append_right (by omega), hlen, Nat.sub_self]; rfl

/-- What the compiled code of the first instructions of the block shows. -/
theorem Part.shows (G : GoodC base ok o C) (hw : WorldX C.ai base env)
    (P : Part C env clob mem b n k0 c0 cx k i c tr) (hi : i < b.2) (hd : C.prog.insts[i]? = some d)
    (hfit : (blockAcc (C.prog.blockInsts b)).inputs + (blockAcc (C.prog.blockInsts b)).maxGrowth ≤ 32767)
    {l' : List (Nat × InstData)}
    (he : (if o.dse then dseBlock o.inspect C.code C.ai (C.prog.blockInsts b) else some (C.prog.blockInsts b)) = some l')
    {j : Nat} (hj : j ≤ i - b.1) :
    Marked (C.prog.blockInsts b) l' ∧ (∀ p', l'.getLast? = some p' → p'.2.flags.noop = false) ∧
    RunReadable ((l'.take j).map (toT C.code C.ai (actOf C.code C.prog env k0 b.1) (clobAt clob k0 b.1))) (List.replicate c0.length true) ∧
    RunOk ((l'.take j).map (toT C.code C.ai (actOf C.code C.prog env k0 b.1) (clobAt clob k0 b.1))) c0 ∧
    Low ((l'.take j).map (toT C.code C.ai (actOf C.code C.prog env k0 b.1) (clobAt clob k0 b.1))) c0 ∧
    (j = i - b.1 → Spec.run ((l'.take j).map (toT C.code C.ai (actOf C.code C.prog env k0 b.1) (clobAt clob k0 b.1))) c0 = c) ∧
    shown (runEvents ((l'.take j).map (toT C.code C.ai (actOf C.code C.prog env k0 b.1) (clobAt clob k0 b.1))) c0 ++ cx.trace) <:+ tr ∧
    (j = i - b.1 → shown (runEvents ((l'.take j).map (toT C.code C.ai (actOf C.code C.prog env k0 b.1) (clobAt clob k0 b.1))) c0 ++
      cx.trace) = tr) := by
  have hw' := G.world hw
  have hwf : ∀ x ∈ C.prog.blockInsts b, Wf C.code x := fun x hx => G.inst x.1 x.2 (mem_slice hx).1
  have htake := (P.take hi hd).1
  have hpre : (C.prog.blockInsts b).take j = (C.prog.slice b.1 (i - b.1)).take j := by
    rw [← htake, List.take_take, Nat.min_eq_left hj]
  have hcut : C.prog.slice b.1 (i - b.1) = (C.prog.blockInsts b).take j ++ (C.prog.slice b.1 (i - b.1)).drop j := by
    rw [hpre, List.take_append_drop]
  have hpure : ∀ x ∈ C.prog.blockInsts b, stackOnly x.2.opcode.toNat = true → ∀ args,
      (actOf C.code C.prog env k0 b.1 x.1 args).2 = none := fun x hx hso args => by
    rw [actOf_snd]
    exact hw'.quiet _ _ _ _ (mem_slice hx).1 (stackOnly_mute _ hso)
  have hok := P.ok
  have hlow := P.low
  have hobs := P.obs
  have hstk := P.stack
  unfold Compiled.part at hok hlow hobs hstk
  have hok' := hok
  have hlow' := hlow
  rw [hcut, List.map_append] at hok' hlow'
  have hok1 := ((runOk_append _ _ _).1 hok').1
  have hsnap : ∀ p ∈ (C.prog.blockInsts b).take j, FullSnap C.ai p := fun p hp =>
    P.snap p (by rw [hpre] at hp; exact List.mem_of_mem_take hp)
  obtain ⟨b1, b2, b3, b4, b5, b6, _⟩ := block_ok' (act := actOf C.code C.prog env k0 b.1) (clob := clobAt clob k0 b.1) o j hwf hsnap
    hfit hpure hok1 he
  have b8 := low_marked (act := actOf C.code C.prog env k0 b.1) (clob := clobAt clob k0 b.1) o j hwf hsnap hfit hpure hok1 hlow'.left he
  have b9 := congrArg shown b6
  rw [shown_visible, shown_visible] at b9
  refine ⟨b1, b2, b3, b4, b8, ?_, ?_, ?_⟩
  · intro h
    rw [b5, h, htake]; exact hstk
  · rw [shown_append, b9, ← hobs, hcut, List.map_append, runEvents_append, shown_append, List.append_assoc]
    exact List.suffix_append _ _
  · intro h
    rw [shown_append, b9, h, htake]; exact hobs

theorem findIdx_ge {α : Type} {p : α → Bool} {l : List α} {m n : Nat} (h : l.findIdx? p = some n)
    (hm : ∀ (j : Nat) x, j < m → l[j]? = some x → p x = false) : m ≤ n := by
  obtain ⟨h1, h2, _⟩ := List.findIdx?_eq_some_iff_getElem.1 h
  rcases Nat.lt_or_ge n m with hlt | hge
  · have := hm n _ hlt (List.getElem?_eq_getElem h1)
    rw [h2] at this; cases this
  · exact hge

/-- An instruction of the block has a stack error. -/
theorem Part.stackFail (G : GoodC base ok o C) (hw : WorldX C.ai base env)
    (P : Part C env clob mem b n k0 c0 cx k i c tr) (hi : i < b.2) (hd : C.prog.insts[i]? = some d)
    (hfit : (blockAcc (C.prog.blockInsts b)).inputs + (blockAcc (C.prog.blockInsts b)).maxGrowth ≤ 32767)
    (hf : stackFails c.length [d.stackIo]) :
    ∃ f cx', C.run env clob mem (n + 1) = .stackError f cx' ∧ shown cx'.trace <:+ tr ∧
      (c.length < d.stackIo.1 → f = .underflow) := by
  obtain ⟨l', he, hfind⟩ := G.find P.blk
  obtain ⟨s1, s2, s3, s4, s5, s6, _, _⟩ := P.shows G hw hi hd hfit he (Nat.le_refl _)
  have s6 := s6 rfl
  have hwf : ∀ x ∈ C.prog.blockInsts b, Wf C.code x := fun x hx => G.inst x.1 x.2 (mem_slice hx).1
  have hm : (List.replicate c0.length true).length = c0.length := by simp
  have hfl : ((splitSections C.spec l').map (List.map (toT C.code C.ai (actOf C.code C.prog env k0 b.1) (clobAt clob k0 b.1)))).flatten =
      l'.map (toT C.code C.ai (actOf C.code C.prog env k0 b.1) (clobAt clob k0 b.1)) := by rw [← List.map_flatten, split_flatten]
  have hat := (P.take hi hd).2
  obtain ⟨p', hp'⟩ : ∃ p', l'[i - b.1]? = some p' := by
    refine ⟨_, List.getElem?_eq_getElem ?_⟩
    rw [s1.length]
    exact (List.getElem?_eq_some_iff.1 hat).1
  obtain ⟨y, m, h1, h2, _⟩ := s1.at_ _ _ hp'
  rw [hat] at h1; cases h1
  have hio : p'.2.stackIo = d.stackIo := by rw [h2]; cases m <;> rfl
  obtain ⟨f, cx', j, hj, e1, e2, e3⟩ := checked_fail
    ((splitSections C.spec l').map (List.map (toT C.code C.ai (actOf C.code C.prog env k0 b.1) (clobAt clob k0 b.1)))) (i - b.1)
    (l'.findIdx? (badImm C.code))
    (fun nn hnn => findIdx_ge hnn (fun q x hq hx => by
      obtain ⟨y, m, h1, h2, _⟩ := s1.at_ q x hx
      rw [h2, badImm_mark]
      refine P.imm y ?_
      rw [← (P.take hi hd).1]
      exact List.mem_of_getElem? (by rw [List.getElem?_take_of_lt hq]; exact h1)))
    (sections_shape C.spec s1 (fun p hp => (hwf p hp).noop) hfit s2)
    ((holds_iff hm (allTrue _)).2 P.holds) hm
    (by rw [hfl, ← List.map_take]; exact s4) (by rw [hfl, ← List.map_take]; exact s5)
    (by rw [hfl, ← List.map_take]; exact s3) (t := toT C.code C.ai (actOf C.code C.prog env k0 b.1) (clobAt clob k0 b.1) p')
    (by rw [hfl, List.getElem?_map, hp']; rfl)
    (by
      rw [hfl, ← List.map_take, s6]
      show stackFails c.length [(p'.2.stackIo.1, p'.2.stackIo.2)]
      rw [hio]; exact hf)
  rw [hfl, ← List.map_take] at e2
  obtain ⟨_, _, _, _, _, _, t7, _⟩ := P.shows G hw hi hd hfit he hj
  refine ⟨f, cx', ?_, by rw [e2]; exact t7, fun hu => e3 ?_⟩
  · show (match C.run env clob mem n with | .running k i cx => C.block env clob k i cx | o => o) = _
    rw [P.run]
    show C.block env clob k0 b.1 cx = _
    unfold Compiled.block
    rw [hfind]
    dsimp only
    unfold Compiled.secs
    dsimp only
    revert e1
    cases l'.findIdx? (badImm C.code) with
    | none => intro e1; dsimp only at e1 ⊢; rw [e1]
    | some nn => intro e1; dsimp only at e1 ⊢; rw [e1]
  · rw [hfl, ← List.map_take, s6]
    show c.length < p'.2.stackIo.1
    rw [hio]; exact hu

/-- An instruction of the block has no decodable immediate. -/
theorem Part.immFail (G : GoodC base ok o C) (hw : WorldX C.ai base env)
    (P : Part C env clob mem b n k0 c0 cx k i c tr) (hi : i < b.2) (hd : C.prog.insts[i]? = some d)
    (hfit : (blockAcc (C.prog.blockInsts b)).inputs + (blockAcc (C.prog.blockInsts b)).maxGrowth ≤ 32767)
    (hf : badImm C.code (i, d) = true) :
    (∃ cx', C.run env clob mem (n + 1) = .badImmediate i cx' ∧ shown cx'.trace = tr) ∨
    ∃ f cx', C.run env clob mem (n + 1) = .stackError f cx' ∧ shown cx'.trace <:+ tr := by
  obtain ⟨l', he, hfind⟩ := G.find P.blk
  obtain ⟨s1, s2, s3, s4, s5, s6, _, s8⟩ := P.shows G hw hi hd hfit he (Nat.le_refl _)
  have hwf : ∀ x ∈ C.prog.blockInsts b, Wf C.code x := fun x hx => G.inst x.1 x.2 (mem_slice hx).1
  have hm : (List.replicate c0.length true).length = c0.length := by simp
  have hfl : ((splitSections C.spec l').map (List.map (toT C.code C.ai (actOf C.code C.prog env k0 b.1) (clobAt clob k0 b.1)))).flatten =
      l'.map (toT C.code C.ai (actOf C.code C.prog env k0 b.1) (clobAt clob k0 b.1)) := by rw [← List.map_flatten, split_flatten]
  have hat := (P.take hi hd).2
  have hlt : i - b.1 < l'.length := by
    rw [s1.length]
    exact (List.getElem?_eq_some_iff.1 hat).1
  have hidx : l'.findIdx? (badImm C.code) = some (i - b.1) := by
    rw [List.findIdx?_eq_some_iff_getElem]
    refine ⟨hlt, ?_, ?_⟩
    · obtain ⟨y, m, h1, h2, _⟩ := s1.at_ _ _ (List.getElem?_eq_getElem hlt)
      rw [hat] at h1; cases h1
      rw [h2, badImm_mark (x := (i, d))]; exact hf
    · intro q hq
      obtain ⟨y, m, h1, h2, _⟩ := s1.at_ q _ (List.getElem?_eq_getElem (by omega))
      rw [h2, badImm_mark]
      rw [P.imm y ?_]; simp
      rw [← (P.take hi hd).1]
      exact List.mem_of_getElem? (by rw [List.getElem?_take_of_lt hq]; exact h1)
  have hgo : ∀ r, checkedPrefix (i - b.1)
      ((splitSections C.spec l').map (List.map (toT C.code C.ai (actOf C.code C.prog env k0 b.1) (clobAt clob k0 b.1)))) cx = r →
      C.run env clob mem (n + 1) = match r with
        | .done cx => .badImmediate (b.1 + (i - b.1)) cx
        | .fail f cx => .stackError f cx
        | .panic => .panic := by
    rintro r rfl
    show (match C.run env clob mem n with | .running k i cx => C.block env clob k i cx | o => o) = _
    rw [P.run]
    show C.block env clob k0 b.1 cx = _
    unfold Compiled.block
    rw [hfind]
    dsimp only
    rw [hidx]
    rfl
  have hle := P.le
  rcases prefix_stop
    ((splitSections C.spec l').map (List.map (toT C.code C.ai (actOf C.code C.prog env k0 b.1) (clobAt clob k0 b.1)))) (i - b.1)
    (sections_shape C.spec s1 (fun p hp => (hwf p hp).noop) hfit s2)
    ((holds_iff hm (allTrue _)).2 P.holds) hm
    (by rw [hfl, ← List.map_take]; exact s4) (by rw [hfl, ← List.map_take]; exact s5)
    (by rw [hfl, ← List.map_take]; exact s3) with ⟨cx', e1, e2⟩ | ⟨f, cx', j, hj, e1, e2⟩
  · left
    refine ⟨cx', ?_, ?_⟩
    · rw [hgo _ e1]
      show COut.badImmediate (b.1 + (i - b.1)) cx' = _
      rw [show b.1 + (i - b.1) = i by omega]
    · rw [e2, hfl, ← List.map_take]; exact s8 rfl
  · right
    refine ⟨f, cx', hgo _ e1, ?_⟩
    rw [e2, hfl, ← List.map_take]
    exact (P.shows G hw hi hd hfit he hj).2.2.2.2.2.2.1

end part

end Verif
