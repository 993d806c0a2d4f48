import Verif.Lemmas.VStackSeq
/-!
# Sections on the deferred stack
-/

namespace Verif
open Spec
variable {E : Type}

/-- Correctly represented positions after a run. -/
def maskRun : List (TInst E) → List Bool → List Bool
  | [], G => G
  | t :: ts, G => maskRun ts (maskNext t G)

/-- Every instruction of a run can read its operands. -/
def RunReadable : List (TInst E) → List Bool → Prop
  | [], _ => True
  | t :: ts, G => Readable t G ∧ RunReadable ts (maskNext t G)

theorem Inv.keep {cx cx' : SCx E} {S : List Word} {G : List Bool} (h : Inv cx S G) (k : Keep cx cx') :
    Inv cx' S G := by
  refine ⟨k.good h.good, ?_, ?_, ?_, ?_, h.mask, ?_⟩
  · rw [k.frame.secOff, k.top]; exact h.sec
  · rw [k.frame.startLen, k.top]; exact h.len
  · rw [k.frame.startLen, k.frame.base]; exact h.nonneg
  · rw [k.frame.lenVar, k.frame.startLen, k.frame.storedOff]; exact h.stored
  · intro d w hg hw
    rw [k.val, k.top]; exact h.val d w hg hw

theorem holdsM_of_inv {cx : SCx E} {S : List Word} {G : List Bool} (h : Inv cx S G)
    (hl : cx.lenVar = S.length) : HoldsM cx.materializeLive S G := by
  refine ⟨hl, fun d w hg hw => ?_⟩
  have := h.len
  rw [show (S.length : Int) - 1 - d = cx.startLen + (cx.vs.top - 1 - d) by omega,
    live_mem cx _ (by omega)]
  exact h.val d w hg hw

/-- The bounds of a section: `I` inputs and `M` growth are enough for every instruction. -/
def Fits (ts : List (TInst E)) (a : StackAcc) (I M : Int) : Prop :=
  (ts.foldl (fun a t => a.process t.inp t.out) a).inputs ≤ I ∧
    (ts.foldl (fun a t => a.process t.inp t.out) a).maxGrowth ≤ M

theorem fold_mono (ts : List (TInst E)) (a : StackAcc) :
    a.inputs ≤ (ts.foldl (fun a t => a.process t.inp t.out) a).inputs ∧
      a.maxGrowth ≤ (ts.foldl (fun a t => a.process t.inp t.out) a).maxGrowth := by
  induction ts generalizing a with
  | nil => exact ⟨Int.le_refl _, Int.le_refl _⟩
  | cons t ts ih =>
    have := ih (a.process t.inp t.out)
    have h1 : (a.process t.inp t.out).inputs = max a.inputs ((t.inp : Int) - a.diff) := rfl
    have h2 : (a.process t.inp t.out).maxGrowth = max a.maxGrowth (a.diff + ((t.out : Int) - t.inp)) := rfl
    simp only [List.foldl_cons]
    omega

theorem Fits.head {t : TInst E} {ts : List (TInst E)} {a : StackAcc} {I M : Int} (h : Fits (t :: ts) a I M) :
    (t.inp : Int) - a.diff ≤ I ∧ a.diff + ((t.out : Int) - t.inp) ≤ M ∧ Fits ts (a.process t.inp t.out) I M := by
  have hm := fold_mono ts (a.process t.inp t.out)
  have h1 : (a.process t.inp t.out).inputs = max a.inputs ((t.inp : Int) - a.diff) := rfl
  have h2 : (a.process t.inp t.out).maxGrowth = max a.maxGrowth (a.diff + ((t.out : Int) - t.inp)) := rfl
  obtain ⟨h3, h4⟩ := h
  simp only [List.foldl_cons] at h3 h4
  exact ⟨by omega, by omega, h3, h4⟩

/-- A stack on which every instruction of the section has its operands has the section's inputs. -/
theorem inputs_le (ts : List (TInst E)) (a : StackAcc) (S : List Word) (L : Int) (h : RunOk ts S)
    (hi : a.inputs ≤ L) (hd : a.diff = S.length - L) :
    (ts.foldl (fun a t => a.process t.inp t.out) a).inputs ≤ L := by
  induction ts generalizing a S with
  | nil => exact hi
  | cons t ts ih =>
    obtain ⟨h1, h2⟩ := h
    have := h1.operands; have hn := next_length h1
    have e1 : (a.process t.inp t.out).inputs = max a.inputs ((t.inp : Int) - a.diff) := rfl
    have e2 : (a.process t.inp t.out).diff = a.diff + ((t.out : Int) - t.inp) := rfl
    exact ih (a.process t.inp t.out) (next t S) h2 (by omega) (by omega)

theorem head_of {cx : SCx E} {S : List Word} {G : List Bool} (ts : List (TInst E)) (h : HoldsM cx S G)
    (hm : G.length = S.length)
    (hin : (ts.foldl (fun a t => a.process t.inp t.out) ({} : StackAcc)).inputs ≤ S.length)
    (hI : (ts.foldl (fun a t => a.process t.inp t.out) ({} : StackAcc)).inputs ≤ 65535)
    (hM : (ts.foldl (fun a t => a.process t.inp t.out) ({} : StackAcc)).maxGrowth ≤ 32767) :
    ∃ I M : Int, Fits ts {} I M ∧ Inv (SCx.head ts cx) S G ∧ (SCx.head ts cx).vs.base = -I ∧
      (SCx.head ts cx).vs.cap = I + M ∧ (SCx.head ts cx).vs.top = 0 ∧
      (SCx.head ts cx).lenVar = S.length ∧ (SCx.head ts cx).trace = cx.trace := by
  have hmono := fold_mono ts ({} : StackAcc)
  have e0 : ({} : StackAcc).inputs = 0 := rfl
  have e1 : ({} : StackAcc).maxGrowth = 0 := rfl
  obtain ⟨a, ha⟩ : ∃ a, a = ts.foldl (fun a t => a.process t.inp t.out) ({} : StackAcc) := ⟨_, rfl⟩
  have hs : (a.section).inputs = a.inputs.toNat ∧ (a.section).maxGrowth = a.maxGrowth := by
    unfold StackAcc.section
    rw [← ha] at hmono hI hM
    simp only
    rw [if_pos (by omega), if_pos (by omega)]; simp
  have hb : (SCx.head ts cx).vs.base = -a.inputs := by
    unfold SCx.head VStack.reset
    simp only [← ha, hs.1]; rw [← ha] at hmono; omega
  have hcap : (SCx.head ts cx).vs.cap = a.inputs + a.maxGrowth := by
    unfold SCx.head VStack.reset
    simp only [← ha, hs.1, hs.2]; rw [← ha] at hmono; omega
  rw [← ha] at hmono hin
  refine ⟨a.inputs, a.maxGrowth, ⟨by rw [ha]; exact Int.le_refl _, by rw [ha]; exact Int.le_refl _⟩,
    ⟨⟨?_, ?_, ?_⟩, rfl, ?_, ?_, ?_, hm, ?_⟩, hb, hcap, rfl, h.1, rfl⟩
  · rw [hb]; show _ ≤ (0 : Int); omega
  · rw [hb, hcap]; show (0 : Int) - _ ≤ _; omega
  · intro i h0 h1
    rw [hb] at h1
    have h1 : i < 0 - -a.inputs := h1
    unfold SCx.head VStack.reset
    simp only [← ha, hs.1]
    rw [if_pos (by omega)]; rfl
  · show cx.lenVar + 0 = _; rw [h.1]; omega
  · rw [hb]; show 0 ≤ cx.lenVar + _; rw [h.1]; omega
  · show cx.lenVar = cx.lenVar + 0; omega
  · intro d w hg hw
    have := h.2 d w hg hw
    have hp : (SCx.head ts cx).vs.pendingAt ((SCx.head ts cx).vs.top - 1 - d) = none := by
      unfold VStack.pendingAt SCx.head VStack.reset
      simp only
      split
      · split
        · rename_i hx; split at hx <;> simp at hx
        · rfl
      · rfl
    unfold valAt
    rw [hp, Option.getD_none]
    show cx.mem (cx.lenVar + ((0 : Int) - 1 - d)) = w
    rw [h.1, ← this]
    congr 1; omega

theorem head_ok {cx : SCx E} {S : List Word} {G : List Bool} (ts : List (TInst E)) (h : HoldsM cx S G)
    (hm : G.length = S.length) (hr : RunOk ts S)
    (hI : (ts.foldl (fun a t => a.process t.inp t.out) ({} : StackAcc)).inputs ≤ 65535)
    (hM : (ts.foldl (fun a t => a.process t.inp t.out) ({} : StackAcc)).maxGrowth ≤ 32767) :
    ∃ I M : Int, Fits ts {} I M ∧ Inv (SCx.head ts cx) S G ∧ (SCx.head ts cx).vs.base = -I ∧
      (SCx.head ts cx).vs.cap = I + M ∧ (SCx.head ts cx).vs.top = 0 ∧
      (SCx.head ts cx).lenVar = S.length ∧ (SCx.head ts cx).trace = cx.trace :=
  head_of ts h hm (inputs_le ts {} S S.length hr (by simp) (by simp)) hI hM

/-- Only the last instruction may leave the section, and it is not skipped. -/
def Shape : List (TInst E) → Prop
  | [] => True
  | [t] => t.noop = false
  | t :: t' :: ts => t.lower.leaves = false ∧ Shape (t' :: ts)

theorem steps_ok (ts : List (TInst E)) (hne : ts ≠ []) {cx : SCx E} {S : List Word} {G : List Bool}
    {a : StackAcc} {I M : Int} (h : Inv cx S G) (hok : RunOk ts S) (hsh : Shape ts) (hf : Fits ts a I M)
    (hr : RunReadable ts G) (hb : cx.vs.base = -I) (hc : cx.vs.cap = I + M) (ht : cx.vs.top = a.diff) :
    ∃ cx', SCx.steps ts cx = some cx' ∧ HoldsM cx' (run ts S) (maskRun ts G) ∧
      cx'.trace = runEvents ts S ++ cx.trace := by
  induction ts generalizing cx S G a with
  | nil => exact absurd rfl hne
  | cons t ts ih =>
    obtain ⟨hf1, hf2, hf3⟩ := hf.head
    cases ts with
    | nil =>
      cases hlv : t.lower.leaves with
      | true =>
        obtain ⟨c1, e1, m1, tr1⟩ := step_leave hlv h hok.1 (by omega) hr.1
        refine ⟨c1, ?_, m1, ?_⟩
        · simp [SCx.steps, e1, hlv]
        · rw [tr1]; simp [runEvents]
      | false =>
        obtain ⟨c1, e1, s1⟩ := step_ok hlv h hok.1 (by omega) (by omega) hr.1
        refine ⟨c1.materializeLive, ?_, holdsM_of_inv s1.inv (s1.stored hsh), ?_⟩
        · simp [SCx.steps, e1, hlv]
        · show c1.trace = _
          rw [s1.trace]; simp [runEvents]
    | cons t' ts =>
      obtain ⟨c1, e1, s1⟩ := step_ok hsh.1 h hok.1 (by omega) (by omega) hr.1
      have k := relieve_keep c1
      have e2 : (a.process t.inp t.out).diff = a.diff + ((t.out : Int) - t.inp) := rfl
      obtain ⟨c2, e2, m2, tr2⟩ := ih (by simp) (s1.inv.keep k) hok.2 hsh.2 hf3 hr.2
        (by rw [k.frame.base, s1.base]; exact hb) (by rw [k.frame.cap, s1.cap]; exact hc)
        (by rw [k.top, s1.top]; omega)
      refine ⟨c2, ?_, m2, ?_⟩
      · rw [SCx.steps, e1]; exact e2
      · rw [tr2, k.trace, s1.trace]
        show _ = (runEvents (t' :: ts) (next t S) ++ events t S) ++ cx.trace
        rw [List.append_assoc]

theorem maskRun_length (ts : List (TInst E)) (S : List Word) (G : List Bool) (h : RunOk ts S)
    (hm : G.length = S.length) : (maskRun ts G).length = (run ts S).length := by
  induction ts generalizing S G with
  | nil => exact hm
  | cons t ts ih => exact ih _ _ h.2 (mask_length h.1 hm)

/-- One section. -/
theorem section_ok {cx : SCx E} {S : List Word} {G : List Bool} (ts : List (TInst E)) (hne : ts ≠ [])
    (h : HoldsM cx S G) (hm : G.length = S.length) (hok : RunOk ts S) (hsh : Shape ts)
    (hI : (ts.foldl (fun a t => a.process t.inp t.out) ({} : StackAcc)).inputs ≤ 65535)
    (hM : (ts.foldl (fun a t => a.process t.inp t.out) ({} : StackAcc)).maxGrowth ≤ 32767)
    (hr : RunReadable ts G) :
    ∃ cx', SCx.runSection ts cx = some cx' ∧ HoldsM cx' (run ts S) (maskRun ts G) ∧
      cx'.trace = runEvents ts S ++ cx.trace := by
  obtain ⟨I, M, hf, hi, hb, hc, ht, _, htr⟩ := head_ok ts h hm hok hI hM
  obtain ⟨c1, e1, m1, tr1⟩ := steps_ok ts hne hi hok hsh hf hr hb hc ht
  exact ⟨c1, e1, m1, by rw [tr1, htr]⟩

/-- Part of a section. -/
theorem part_ok (ts suf : List (TInst E)) {cx : SCx E} {S : List Word} {G : List Bool}
    {a : StackAcc} {I M : Int} (h : Inv cx S G) (hok : RunOk ts S)
    (hlv : ∀ t ∈ ts, t.lower.leaves = false) (hf : Fits (ts ++ suf) a I M)
    (hr : RunReadable ts G) (hb : cx.vs.base = -I) (hc : cx.vs.cap = I + M) (ht : cx.vs.top = a.diff) :
    ∃ cx', SCx.partSection ts cx = some cx' ∧ cx'.trace = runEvents ts S ++ cx.trace := by
  induction ts generalizing cx S G a with
  | nil => exact ⟨cx, rfl, by simp [runEvents]⟩
  | cons t ts ih =>
    obtain ⟨hf1, hf2, hf3⟩ := Fits.head (t := t) (ts := ts ++ suf) hf
    obtain ⟨c1, e1, s1⟩ := step_ok (hlv t (by simp)) h hok.1 (by omega) (by omega) hr.1
    have k := relieve_keep c1
    have e2 : (a.process t.inp t.out).diff = a.diff + ((t.out : Int) - t.inp) := rfl
    obtain ⟨c2, e2, tr2⟩ := ih (s1.inv.keep k) hok.2 (fun u hu => hlv u (by simp [hu])) hf3 hr.2
      (by rw [k.frame.base, s1.base]; exact hb) (by rw [k.frame.cap, s1.cap]; exact hc)
      (by rw [k.top, s1.top]; omega)
    refine ⟨c2, ?_, ?_⟩
    · simp [SCx.partSection, e1, e2]
    · rw [tr2, k.trace, s1.trace]; simp [runEvents]

theorem run_append (as bs : List (TInst E)) (S : List Word) : run (as ++ bs) S = run bs (run as S) := by
  induction as generalizing S with
  | nil => rfl
  | cons a as ih => exact ih _

theorem runEvents_append (as bs : List (TInst E)) (S : List Word) :
    runEvents (as ++ bs) S = runEvents bs (run as S) ++ runEvents as S := by
  induction as generalizing S with
  | nil => simp [runEvents, run]
  | cons a as ih => simp [runEvents, run, ih]

theorem runOk_append (as bs : List (TInst E)) (S : List Word) :
    RunOk (as ++ bs) S ↔ RunOk as S ∧ RunOk bs (run as S) := by
  induction as generalizing S with
  | nil => simp [RunOk, run]
  | cons a as ih => simp [RunOk, run, ih, and_assoc]

theorem maskRun_append (as bs : List (TInst E)) (G : List Bool) :
    maskRun (as ++ bs) G = maskRun bs (maskRun as G) := by
  induction as generalizing G with
  | nil => rfl
  | cons a as ih => exact ih _

theorem runReadable_append (as bs : List (TInst E)) (G : List Bool) :
    RunReadable (as ++ bs) G ↔ RunReadable as G ∧ RunReadable bs (maskRun as G) := by
  induction as generalizing G with
  | nil => simp [RunReadable, maskRun]
  | cons a as ih => simp [RunReadable, maskRun, ih, and_assoc]

/-- A sequence of sections. -/
theorem sections_ok {cx : SCx E} {S : List Word} {G : List Bool} (secs : List (List (TInst E)))
    (hsec : ∀ ts ∈ secs, ts ≠ [] ∧ Shape ts ∧
      (ts.foldl (fun a t => a.process t.inp t.out) ({} : StackAcc)).inputs ≤ 65535 ∧
      (ts.foldl (fun a t => a.process t.inp t.out) ({} : StackAcc)).maxGrowth ≤ 32767)
    (h : HoldsM cx S G) (hm : G.length = S.length) (hok : RunOk secs.flatten S)
    (hr : RunReadable secs.flatten G) :
    ∃ cx', SCx.runSections secs cx = some cx' ∧
      HoldsM cx' (run secs.flatten S) (maskRun secs.flatten G) ∧
      cx'.trace = runEvents secs.flatten S ++ cx.trace := by
  induction secs generalizing cx S G with
  | nil => exact ⟨cx, rfl, h, by simp [runEvents]⟩
  | cons ts secs ih =>
    rw [List.flatten_cons] at hok hr ⊢
    obtain ⟨h1, h2, h3, h4⟩ := hsec ts (by simp)
    obtain ⟨o1, o2⟩ := (runOk_append _ _ _).1 hok
    obtain ⟨r1, r2⟩ := (runReadable_append _ _ _).1 hr
    obtain ⟨c1, e1, m1, tr1⟩ := section_ok ts h1 h hm o1 h2 h3 h4 r1
    obtain ⟨c2, e2, m2, tr2⟩ := ih (fun ts hts => hsec ts (by simp [hts])) m1
      (maskRun_length ts S G o1 hm) o2 r2
    refine ⟨c2, ?_, ?_, ?_⟩
    · simp [SCx.runSections, e1, e2]
    · rw [run_append, maskRun_append]; exact m2
    · rw [tr2, tr1, runEvents_append, List.append_assoc]

/-- The first `n` instructions of a sequence of sections; the section in which the execution stops
has passed its stack check. -/
theorem prefix_ok {cx : SCx E} {S : List Word} {G : List Bool} (n : Nat) (secs : List (List (TInst E)))
    (hsec : ∀ ts ∈ secs, ts ≠ [] ∧ Shape ts ∧
      (ts.foldl (fun a t => a.process t.inp t.out) ({} : StackAcc)).inputs ≤ 65535 ∧
      (ts.foldl (fun a t => a.process t.inp t.out) ({} : StackAcc)).maxGrowth ≤ 32767 ∧
      ∀ t ∈ ts.dropLast, t.lower.leaves = false)
    (hchk : ∀ pre ts post, secs = pre ++ ts :: post → pre.flatten.length < n →
      n < pre.flatten.length + ts.length →
      (ts.foldl (fun a t => a.process t.inp t.out) ({} : StackAcc)).inputs ≤ ((run pre.flatten S).length : Int))
    (h : HoldsM cx S G) (hm : G.length = S.length) (hok : RunOk (secs.flatten.take n) S)
    (hr : RunReadable (secs.flatten.take n) G) :
    ∃ cx', SCx.runPrefix n secs cx = some cx' ∧
      cx'.trace = runEvents (secs.flatten.take n) S ++ cx.trace := by
  induction secs generalizing cx S G n with
  | nil => exact ⟨cx, by cases n <;> rfl, by simp [runEvents]⟩
  | cons ts secs ih =>
    cases n with
    | zero => exact ⟨cx, rfl, by simp [runEvents]⟩
    | succ n =>
      obtain ⟨h1, h2, h3, h4, h5⟩ := hsec ts (by simp)
      rw [List.flatten_cons] at hok hr ⊢
      by_cases hle : ts.length ≤ n + 1
      · rw [List.take_append, List.take_of_length_le hle] at hok hr ⊢
        obtain ⟨o1, o2⟩ := (runOk_append _ _ _).1 hok
        obtain ⟨r1, r2⟩ := (runReadable_append _ _ _).1 hr
        obtain ⟨c1, e1, m1, tr1⟩ := section_ok ts h1 h hm o1 h2 h3 h4 r1
        obtain ⟨c2, e2, tr2⟩ := ih (n + 1 - ts.length) (fun ts hts => hsec ts (by simp [hts]))
          (fun pre us post hs hl hg => by
            have := hchk (ts :: pre) us post (by rw [hs]; rfl)
              (by rw [List.flatten_cons, List.length_append]; omega)
              (by rw [List.flatten_cons, List.length_append]; omega)
            rw [List.flatten_cons, run_append] at this
            exact this) m1
          (maskRun_length ts S G o1 hm) o2 r2
        refine ⟨c2, ?_, ?_⟩
        · rw [SCx.runPrefix, if_pos hle, e1]; exact e2
        · rw [tr2, tr1, runEvents_append, List.append_assoc]
      · rw [List.take_append_of_le_length (by omega)] at hok hr ⊢
        have hck := hchk [] ts secs rfl (by simp) (by simp; omega)
        obtain ⟨I, M, hf, hi, hb, hc, ht, _, htr⟩ := head_of ts h hm hck h3 h4
        rw [← List.take_append_drop (n + 1) ts] at hf
        obtain ⟨c2, e2, tr2⟩ := part_ok (ts.take (n + 1)) (ts.drop (n + 1)) hi hok (fun t ht => h5 t (by
          rw [List.dropLast_eq_take]
          exact (List.take_subset_take_left ts (by omega)) ht)) hf hr hb hc ht
        refine ⟨c2, ?_, ?_⟩
        · rw [SCx.runPrefix, if_neg hle]; exact e2
        · rw [tr2, htr]

/-- With nothing skipped every position stays represented. -/
theorem mask_all {t : TInst E} {S : List Word} {G : List Bool} (hok : Ok t S) (hn : t.noop = false)
    (hm : G.length = S.length) (hg : ∀ d, d < G.length → G[d]? = some true) :
    Readable t G ∧ ∀ d, d < (maskNext t G).length → (maskNext t G)[d]? = some true := by
  have hop := hok.operands
  have hshape := hok.shape
  have hG : G = List.replicate G.length true := by
    apply List.ext_getElem?
    intro d
    rcases Nat.lt_or_ge d G.length with h | h
    · rw [hg d h, List.getElem?_replicate, if_pos h]
    · rw [List.getElem?_eq_none h, List.getElem?_eq_none (by simpa using h)]
  obtain ⟨n, hGn⟩ : ∃ n, G = List.replicate n true := ⟨_, hG⟩
  have hGl : G.length = n := by rw [hGn]; simp
  constructor
  · intro _
    have rd : ∀ d, d < t.inp → (t.constIn d).isSome = true ∨ G[d]? = some true :=
      fun d hd => .inr (hg d (by omega))
    cases hlow : t.lower with
    | suspend => exact ⟨rd, fun d _ h => hg d h⟩
    | expFold c => rw [hlow] at hshape; exact rd 1 (by have : t.inp = 2 := hshape.1; omega)
    | branch a b c =>
      rw [hlow] at hshape
      have hshape : t.inp = if b then 2 else 1 := hshape
      refine ⟨fun _ => rd 0 (by rw [hshape]; split <;> omega), fun hb _ => rd 1 (by rw [hshape, if_pos hb]; omega)⟩
    | inline => exact rd
    | builtin => exact rd
    | expInline => exact rd
    | _ => trivial
  · intro d hd
    have hall : ∃ k, maskNext t G = List.replicate k true := by
      unfold maskNext
      simp only [hn, Bool.false_eq_true, if_false]
      have gen : List.replicate t.out true ++ G.drop t.inp = List.replicate (t.out + (n - t.inp)) true := by
        rw [hGn, List.drop_replicate, List.replicate_append_replicate]
      cases hlow : t.lower with
      | dup k =>
        rw [hlow] at hshape
        obtain ⟨s1, s2⟩ : 1 ≤ k ∧ t.inp = k := hshape
        simp only
        have : G.getD (k - 1) false = true := by
          rw [List.getD_eq_getElem?_getD, hg _ (by omega)]; rfl
        rw [this, hGn]
        split
        · exact ⟨n + 1, by simp [List.replicate_succ]⟩
        · exact ⟨n + 1, by simp [List.replicate_succ]⟩
      | exchange k m =>
        rw [hlow] at hshape
        obtain ⟨s1, s2⟩ : 1 ≤ m ∧ t.inp = k + m + 1 := hshape
        simp only
        have e1 : G.getD k false = true := by
          rw [List.getD_eq_getElem?_getD, hg _ (by omega)]; rfl
        have e2 : G.getD (k + m) false = true := by
          rw [List.getD_eq_getElem?_getD, hg _ (by omega)]; rfl
        split
        · exact ⟨_, gen⟩
        · refine ⟨n, ?_⟩
          rw [e1, e2, hGn]
          simp only [Bool.or_true]
          apply List.ext_getElem?
          intro i
          rw [List.getElem?_set, List.getElem?_set]
          simp only [List.length_set, List.length_replicate, List.getElem?_replicate]
          split
          · rename_i hi; subst hi; split <;> rfl
          · split
            · rename_i hi; subst hi; split <;> rfl
            · rfl
      | _ => simp only; exact ⟨_, by split <;> exact gen⟩
    obtain ⟨k, hk⟩ := hall
    rw [hk] at hd ⊢
    rw [List.length_replicate] at hd
    rw [List.getElem?_replicate, if_pos hd]

theorem masks_all (ts : List (TInst E)) (S : List Word) (G : List Bool) (hok : RunOk ts S)
    (hn : ∀ t ∈ ts, t.noop = false) (hm : G.length = S.length)
    (hg : ∀ d, d < G.length → G[d]? = some true) :
    RunReadable ts G ∧ ∀ d, d < (maskRun ts G).length → (maskRun ts G)[d]? = some true := by
  induction ts generalizing S G with
  | nil => exact ⟨trivial, hg⟩
  | cons t ts ih =>
    obtain ⟨h1, h2⟩ := mask_all hok.1 (hn t (by simp)) hm hg
    obtain ⟨h3, h4⟩ := ih (next t S) (maskNext t G) hok.2 (fun u hu => hn u (by simp [hu]))
      (mask_length hok.1 hm) h2
    exact ⟨⟨h1, h3⟩, h4⟩

theorem holds_iff {cx : SCx E} {S : List Word} {G : List Bool} (hm : G.length = S.length)
    (hg : ∀ d, d < G.length → G[d]? = some true) : HoldsM cx S G ↔ Holds cx S := by
  constructor
  · rintro ⟨h1, h2⟩
    refine ⟨h1, fun d w hw => h2 d w ?_ hw⟩
    have : d < S.length := by
      rcases Nat.lt_or_ge d S.length with h | h
      · exact h
      · rw [List.getElem?_eq_none h] at hw; simp at hw
    exact hg d (by omega)
  · rintro ⟨h1, h2⟩
    exact ⟨h1, fun d w _ hw => h2 d w hw⟩

theorem shape_of (ts : List (TInst E)) (h : ∀ t ∈ ts.dropLast, t.lower.leaves = false)
    (hn : ∀ t, ts.getLast? = some t → t.noop = false) : Shape ts := by
  induction ts with
  | nil => trivial
  | cons t ts ih =>
    cases ts with
    | nil => exact hn t rfl
    | cons t' ts =>
      rw [List.dropLast_cons_cons] at h
      exact ⟨h t (by simp), ih (fun u hu => h u (by simp [hu]))
        (fun u hu => hn u (by rw [List.getLast?_cons_cons]; exact hu))⟩

theorem allTrue (n : Nat) : ∀ d, d < (List.replicate n true).length →
    (List.replicate n true)[d]? = some true := by
  intro d hd
  rw [List.length_replicate] at hd
  rw [List.getElem?_replicate, if_pos hd]

end Verif
