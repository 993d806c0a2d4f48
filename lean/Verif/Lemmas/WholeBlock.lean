import Verif.Lemmas.WholeProg
import Verif.Lemmas.DseBlock
import Verif.Props.Sections
/-!
# Executing a block of a whole program
-/

namespace Verif
open Spec
variable {F : Type}

/-! ## Heights -/

section low
variable {E : Type}

/-- The stack never exceeds 1024 words. -/
def Low (ts : List (TInst E)) (S : List Word) : Prop := ∀ n, (run (ts.take n) S).length ≤ 1024

theorem Low.head {ts : List (TInst E)} {S : List Word} (h : Low ts S) : S.length ≤ 1024 := by
  have := h 0
  simpa [run] using this

theorem low_nil {S : List Word} (h : S.length ≤ 1024) : Low ([] : List (TInst E)) S := by
  intro n; simpa [run] using h

theorem Low.left {as bs : List (TInst E)} {S : List Word} (h : Low (as ++ bs) S) : Low as S := by
  intro n
  rcases Nat.le_total n as.length with hn | hn
  · have := h n
    rwa [List.take_append_of_le_length hn] at this
  · have := h as.length
    rw [List.take_append_of_le_length (Nat.le_refl _), List.take_length] at this
    rwa [List.take_of_length_le hn]

theorem Low.right {as bs : List (TInst E)} {S : List Word} (h : Low (as ++ bs) S) : Low bs (run as S) := by
  intro n
  have := h (as.length + n)
  rw [List.take_append, List.take_of_length_le (by omega), run_append,
    show as.length + n - as.length = n by omega] at this
  exact this

theorem low_append {as bs : List (TInst E)} {S : List Word} (h1 : Low as S) (h2 : Low bs (run as S)) :
    Low (as ++ bs) S := by
  intro n
  rcases Nat.le_total n as.length with hn | hn
  · rw [List.take_append_of_le_length hn]; exact h1 n
  · rw [List.take_append, List.take_of_length_le hn, run_append]; exact h2 _

theorem low_snoc {as : List (TInst E)} {t : TInst E} {S : List Word} (h1 : Low as S)
    (h2 : (next t (run as S)).length ≤ 1024) : Low (as ++ [t]) S := by
  refine low_append h1 fun n => ?_
  cases n with
  | zero =>
    have := h1 as.length
    rw [List.take_length] at this
    simpa [run] using this
  | succ n => simpa [run] using h2

theorem low_fails : ∀ {ts : List (TInst E)} {S : List Word}, RunOk ts S → Low ts S →
    ¬ stackFails S.length (ts.map fun t => (t.inp, t.out))
  | [], _, _, _ => fun h => h
  | t :: ts, S, hok, hl => by
    have h1 := hok.1.operands
    have h2 := next_length hok.1
    have h3 := low_fails hok.2 (hl.right (as := [t]))
    have h4 := (hl.right (as := [t])).head
    have h5 : run [t] S = next t S := rfl
    rw [h5] at h4
    have h6 : (next t S).length = S.length - t.inp + t.out := by omega
    rintro (h | h | h)
    · omega
    · omega
    · rw [← h6] at h; exact h3 h

/-- The check at the head of a section that is executed without a stack error. -/
theorem headCheck_ok {ts : List (TInst E)} {S : List Word} {cx : SCx E} (hok : RunOk ts S) (hl : Low ts S)
    (hcx : cx.lenVar = S.length) : headCheck ts cx = none := by
  unfold headCheck
  have := C20_no_spurious (ts.map fun t => (t.inp, t.out)) S.length hl.head (low_fails hok hl)
  rw [List.foldl_map] at this
  rw [hcx, Int.toNat_natCast]
  exact this

theorem checked_ok {cx : SCx E} {S : List Word} {G : List Bool} (secs : List (List (TInst E)))
    (hsec : ∀ ts ∈ secs, ts ≠ [] ∧ Shape ts ∧
      (ts.foldl (fun a t => a.process t.inp t.out) ({} : StackAcc)).inputs ≤ 65535 ∧
      (ts.foldl (fun a t => a.process t.inp t.out) ({} : StackAcc)).maxGrowth ≤ 32767)
    (h : HoldsM cx S G) (hm : G.length = S.length) (hok : RunOk secs.flatten S) (hl : Low secs.flatten S)
    (hr : RunReadable secs.flatten G) :
    ∃ cx', checkedSections secs cx = .done cx' ∧
      HoldsM cx' (run secs.flatten S) (maskRun secs.flatten G) ∧
      cx'.trace = runEvents secs.flatten S ++ cx.trace := by
  induction secs generalizing cx S G with
  | nil => exact ⟨cx, rfl, h, by simp [runEvents]⟩
  | cons ts secs ih =>
    rw [List.flatten_cons] at hok hr hl ⊢
    obtain ⟨h1, h2, h3, h4⟩ := hsec ts (by simp)
    obtain ⟨o1, o2⟩ := (runOk_append _ _ _).1 hok
    obtain ⟨r1, r2⟩ := (runReadable_append _ _ _).1 hr
    obtain ⟨c1, e1, m1, tr1⟩ := section_ok ts h1 h hm o1 h2 h3 h4 r1
    obtain ⟨c2, e2, m2, tr2⟩ := ih (fun ts hts => hsec ts (by simp [hts])) m1
      (maskRun_length ts S G o1 hm) o2 hl.right r2
    refine ⟨c2, ?_, ?_, ?_⟩
    · simp only [checkedSections, headCheck_ok o1 hl.left h.1, e1, e2]
    · rw [run_append, maskRun_append]; exact m2
    · rw [tr2, tr1, runEvents_append, List.append_assoc]

end low

/-! ## A block after dead-store elimination -/

theorem marked_refl (l : List (Nat × InstData)) (hn : ∀ p ∈ l, p.2.flags.noop = false) : Marked l l := by
  refine ⟨rfl, fun j p h => ⟨p, false, h, ?_, by simp⟩⟩
  have := hn p (List.mem_of_getElem? h)
  obtain ⟨i, d⟩ := p
  unfold mark
  simp

/-- `block_ok` with or without the pass. -/
theorem block_ok' {code : Code} {st : AIState} {act : Nat → List Word → List Word × Option F}
    {clob : Nat → Int → Word} (o : WOpts) (n : Nat) {l l' : List (Nat × InstData)}
    {S : List Word} (wf : ∀ p ∈ l, Wf code p) (snap : ∀ p ∈ l.take n, FullSnap st p)
    (hw : (blockAcc l).inputs + (blockAcc l).maxGrowth ≤ 32767)
    (hpure : ∀ p ∈ l, stackOnly p.2.opcode.toNat = true → ∀ args, (act p.1 args).2 = none)
    (hok : RunOk ((l.take n).map (toT code st act clob)) S)
    (he : (if o.dse then dseBlock o.inspect code st l else some l) = some l') :
    Marked l l' ∧ (∀ p', l'.getLast? = some p' → p'.2.flags.noop = false) ∧
      RunReadable ((l'.take n).map (toT code st act clob)) (List.replicate S.length true) ∧
      RunOk ((l'.take n).map (toT code st act clob)) S ∧
      run ((l'.take n).map (toT code st act clob)) S = run ((l.take n).map (toT code st act clob)) S ∧
      visible (runEvents ((l'.take n).map (toT code st act clob)) S) =
        visible (runEvents ((l.take n).map (toT code st act clob)) S) ∧
      (l.length ≤ n → (o.dse = true → termDiverges o.inspect l = false) →
        ∀ d, d < (maskRun ((l'.take n).map (toT code st act clob)) (List.replicate S.length true)).length →
          (maskRun ((l'.take n).map (toT code st act clob)) (List.replicate S.length true))[d]? = some true) := by
  cases hd : o.dse with
  | true =>
    rw [hd, if_pos rfl] at he
    obtain ⟨b1, b2, b3, b4, b5, b6, b7⟩ := block_ok (act := act) (clob := clob) o.inspect n wf snap hw hpure hok he
    exact ⟨b1, b2, b3, b4, b5, b6, fun h1 h2 => b7 h1 (h2 rfl)⟩
  | false =>
    rw [hd, if_neg (by simp)] at he
    cases he
    have hn : ∀ p ∈ l, p.2.flags.noop = false := fun p hp => (wf p hp).noop
    obtain ⟨m1, m2⟩ := masks_all ((l.take n).map (toT code st act clob)) S (List.replicate S.length true) hok
      (fun t ht => by
        obtain ⟨p, hp, rfl⟩ := List.mem_map.1 ht
        exact hn p (List.mem_of_mem_take hp)) (by simp) (allTrue _)
    exact ⟨marked_refl l hn, fun p' hp => hn p' (List.mem_of_getLast? hp), m1, hok, rfl, rfl, fun _ _ => m2⟩

/-- A block that is executed to its end fits the types of the section analysis. -/
theorem acc_small {code : Code} {st : AIState} {act : Nat → List Word → List Word × Option F}
    {clob : Nat → Int → Word} {l : List (Nat × InstData)} {S : List Word}
    (hok : RunOk (l.map (toT code st act clob)) S) (hl : Low (l.map (toT code st act clob)) S) :
    (blockAcc l).inputs + (blockAcc l).maxGrowth ≤ 32767 := by
  have h1 := low_fails hok hl
  rw [List.map_map] at h1
  have h2 := StackAcc.fold_iff (l.map fun p => (p.2.stackIo.1, p.2.stackIo.2)) {} S.length S.length (by simp)
  rw [List.foldl_map] at h2
  have h3 : ¬ ((S.length : Int) < (blockAcc l).inputs ∨ 1024 < (S.length : Int) + (blockAcc l).maxGrowth) := by
    intro h
    rcases h2.1 h with h | h | h
    · change (S.length : Int) < 0 at h; omega
    · change 1024 < (S.length : Int) + 0 at h
      have := hl.head
      omega
    · exact h1 h
  omega

theorem low_marked {code : Code} {st : AIState} {act : Nat → List Word → List Word × Option F}
    {clob : Nat → Int → Word} (o : WOpts) {l l' : List (Nat × InstData)}
    {S : List Word} (m : Nat) (wf : ∀ p ∈ l, Wf code p) (snap : ∀ p ∈ l.take m, FullSnap st p)
    (hw : (blockAcc l).inputs + (blockAcc l).maxGrowth ≤ 32767)
    (hpure : ∀ p ∈ l, stackOnly p.2.opcode.toNat = true → ∀ args, (act p.1 args).2 = none)
    (hok : RunOk ((l.take m).map (toT code st act clob)) S)
    (hl : Low ((l.take m).map (toT code st act clob)) S)
    (he : (if o.dse then dseBlock o.inspect code st l else some l) = some l') :
    Low ((l'.take m).map (toT code st act clob)) S := by
  intro n
  have hpre : ∀ x : List (Nat × InstData), (x.take m).take n = x.take (min n m) := fun x => by
    rw [List.take_take]
  have hok' : RunOk ((l.take (min n m)).map (toT code st act clob)) S := by
    rw [← hpre]
    have := hok
    rw [← List.take_append_drop n (l.take m), List.map_append] at this
    exact ((runOk_append _ _ _).1 this).1
  obtain ⟨_, _, _, _, h5, _, _⟩ := block_ok' (act := act) (clob := clob) o (min n m) wf
    (fun p hp => snap p (by rw [← hpre] at hp; exact List.mem_of_mem_take hp)) hw hpure hok' he
  rw [← List.map_take, hpre, h5]
  have := hl n
  rwa [← List.map_take, hpre] at this

/-- The sections of a block, from its start to its end. -/
theorem checked_block (o : WOpts) (spec : SpecId) {code : Code} {st : AIState}
    {act : Nat → List Word → List Word × Option F} {clob : Nat → Int → Word} {l l' : List (Nat × InstData)}
    {S : List Word} {cx : SCx (Option F)} (wf : ∀ p ∈ l, Wf code p) (snap : ∀ p ∈ l, FullSnap st p)
    (hpure : ∀ p ∈ l, stackOnly p.2.opcode.toNat = true → ∀ args, (act p.1 args).2 = none)
    (he : (if o.dse then dseBlock o.inspect code st l else some l) = some l')
    (hok : RunOk (l.map (toT code st act clob)) S) (hl : Low (l.map (toT code st act clob)) S) (h : Holds cx S) :
    ∃ cx', checkedSections ((splitSections spec l').map (List.map (toT code st act clob))) cx = .done cx' ∧
      visible cx'.trace = visible (runEvents (l.map (toT code st act clob)) S) ++ visible cx.trace ∧
      cx'.lenVar = (run (l.map (toT code st act clob)) S).length ∧
      cx'.trace = runEvents (l'.map (toT code st act clob)) S ++ cx.trace ∧
      visible (runEvents (l'.map (toT code st act clob)) S) = visible (runEvents (l.map (toT code st act clob)) S) ∧
      Marked l l' ∧
      (∀ p', l'.getLast? = some p' → p'.2.flags.noop = false) ∧
      ((o.dse = true → termDiverges o.inspect l = false) → Holds cx' (run (l.map (toT code st act clob)) S)) := by
  have hm : (List.replicate S.length true).length = S.length := by simp
  have hw := acc_small hok hl
  have tk : ∀ x : List (Nat × InstData), x.length = l.length → x.take l.length = x := fun x hx => by
    rw [← hx, List.take_length]
  obtain ⟨b1, b2, b3, b4, b5, b6, b7⟩ := block_ok' (act := act) (clob := clob) o l.length wf
    (fun p hp => snap p (List.mem_of_mem_take hp)) hw hpure
    (by rw [List.take_length]; exact hok) he
  have b8 := low_marked (act := act) (clob := clob) o l.length wf
    (fun p hp => snap p (List.mem_of_mem_take hp)) hw hpure
    (by rw [List.take_length]; exact hok) (by rw [List.take_length]; exact hl) he
  rw [tk l' b1.length] at b3 b4 b5 b6 b7 b8
  rw [List.take_length] at b5 b6
  have hfl : ((splitSections spec l').map (List.map (toT code st act clob))).flatten =
      l'.map (toT code st act clob) := by rw [← List.map_flatten, split_flatten]
  obtain ⟨c, e, hh, tr⟩ := checked_ok ((splitSections spec l').map (List.map (toT code st act clob)))
    (fun ts hts => by
      obtain ⟨s1, s2, s3, s4, _⟩ := sections_shape (act := act) (clob := clob) spec b1 (fun p hp => (wf p hp).noop)
        hw b2 ts hts
      exact ⟨s1, s2, s3, s4⟩) ((holds_iff hm (allTrue _)).2 h) hm
    (by rw [hfl]; exact b4) (by rw [hfl]; exact b8) (by rw [hfl]; exact b3)
  rw [hfl] at hh tr
  refine ⟨c, e, ?_, ?_, tr, b6, b1, b2, fun ht => ?_⟩
  · rw [tr, visible_append, b6]
  · rw [hh.1, b5]
  · rw [← b5]
    refine (holds_iff (maskRun_length _ _ _ b4 hm) ?_).1 hh
    exact b7 (Nat.le_refl _) ht

/-- A jump at the end of the block is decided on what it reads. -/
theorem branch_head {code : Code} {st : AIState} {act : Nat → List Word → List Word × Option F}
    {clob : Nat → Int → Word} {l l' : List (Nat × InstData)} {S : List Word} {x : Nat × InstData}
    (hm : Marked l l') (hn : ∀ p', l'.getLast? = some p' → p'.2.flags.noop = false)
    (hno : ∀ p ∈ l, p.2.flags.noop = false)
    (hv : visible (runEvents (l'.map (toT code st act clob)) S) = visible (runEvents (l.map (toT code st act clob)) S))
    (hx : l.getLast? = some x) {rt j rc : Bool} (hlow : lowerOf code st x.1 x.2 = .branch rt j rc)
    (ho : x.2.stackIo.2 = 0) {c : List Word} (hc : c = run (l.dropLast.map (toT code st act clob)) S) (rest : List (Ev (Option F))) :
    (runEvents (l'.map (toT code st act clob)) S ++ rest).head? =
      some (.branched (if rt then c[0]? else none) (if j && rc then c[1]? else none)) := by
  obtain ⟨ys, rfl⟩ := List.getLast?_eq_some_iff.1 hx
  have hlen : l'.length = ys.length + 1 := by rw [hm.length]; simp
  obtain ⟨p', hp'⟩ : ∃ p', l'[ys.length]? = some p' := ⟨_, List.getElem?_eq_getElem (by omega)⟩
  have hlast : l'.getLast? = some p' := by
    rw [List.getLast?_eq_getElem?, hlen]; exact hp'
  obtain ⟨p, b, h1, h2, h3⟩ := hm.at_ _ _ hp'
  rw [List.getElem?_append_right (Nat.le_refl _), Nat.sub_self] at h1
  cases h1
  have hb : b = false := by
    have := hn _ hlast
    rw [h2] at this
    cases b with
    | false => rfl
    | true => simp [mark] at this
  have hp : p' = x := by rw [h2, hb]; rfl
  subst hp
  obtain ⟨ys', rfl⟩ := List.getLast?_eq_some_iff.1 hlast
  have hev : ∀ T, events (toT code st act clob p') T =
      [.branched (if rt then T[0]? else none) (if j && rc then T[1]? else none)] := by
    intro T
    have hcmp : compiled (toT code st act clob p') = true := by
      unfold compiled toT
      dsimp only
      rw [hno p' (by simp), ho]; simp
    have hl : (toT code st act clob p').lower = .branch rt j rc := by
      unfold toT; exact hlow
    unfold events
    rw [hcmp, hl]; rfl
  have hdec : ∀ (zs : List (Nat × InstData)), runEvents ((zs ++ [p']).map (toT code st act clob)) S =
      .branched (if rt then (run (zs.map (toT code st act clob)) S)[0]? else none)
        (if j && rc then (run (zs.map (toT code st act clob)) S)[1]? else none) ::
        runEvents (zs.map (toT code st act clob)) S := by
    intro zs
    rw [List.map_append, runEvents_append, List.map_cons, List.map_nil]
    simp only [runEvents, hev, List.nil_append, List.singleton_append]
  rw [hdec, hdec] at hv
  rw [hdec]
  unfold visible at hv
  rw [List.filter_cons_of_pos rfl, List.filter_cons_of_pos rfl] at hv
  rw [List.dropLast_concat] at hc
  rw [hc]
  exact congrArg some (List.cons.inj hv).1

end Verif
