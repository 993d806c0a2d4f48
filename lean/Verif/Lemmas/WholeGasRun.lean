import Verif.Lemmas.WholeGasNum
import Verif.Lemmas.WholeFail
/-!
# Straight-line code with gas
-/

namespace Verif
open Spec
variable {F : Type}

theorem spent_append (a b : List (Ev (Option (Paid F)))) : spent (a ++ b) = spent a + spent b := by
  induction a with
  | nil => simp [spent]
  | cons x a ih =>
    match x with
    | .ran (some p) => simp only [List.cons_append, spent, ih]; omega
    | .ran none => simpa [spent] using ih
    | .suspended _ => simpa [spent] using ih
    | .branched _ _ => simpa [spent] using ih

/-- The costs of the instructions when they are executed on `S`; `se` gives what the head of the section charges. -/
def gitems (se : Nat → Nat × Nat) : List (GInst F) → List Word → List GItem
  | [], _ => []
  | x :: xs, S => { st := (se x.idx).1, ex := (se x.idx).2, ch := spent (events x.t S), k := x.k, rd := x.reads } ::
      gitems se xs (next x.t S)

theorem gitems_cons (se : Nat → Nat × Nat) (x : GInst F) (xs : List (GInst F)) (S : List Word) :
    gitems se (x :: xs) S =
      { st := (se x.idx).1, ex := (se x.idx).2, ch := spent (events x.t S), k := x.k, rd := x.reads } ::
        gitems se xs (next x.t S) := rfl

/-- What the head of a section charges. -/
def headOf (se : Nat → Nat × Nat) (xs : List (GInst F)) : Nat := (xs.map fun x => (se x.idx).1 + (se x.idx).2).sum

section lists
variable {se : Nat → Nat × Nat}

theorem headGas_gitems : ∀ (xs : List (GInst F)) (S : List Word), headGas (gitems se xs S) = headOf se xs
  | [], _ => rfl
  | x :: xs, S => by
    have := headGas_gitems xs (next x.t S)
    unfold gitems
    rw [headGas_cons, this]
    simp [headOf]

theorem gitems_append : ∀ (a b : List (GInst F)) (S : List Word),
    gitems se (a ++ b) S = gitems se a S ++ gitems se b (run (a.map GInst.t) S)
  | [], _, _ => rfl
  | x :: a, b, S => by
    rw [List.cons_append, gitems_cons, gitems_cons, gitems_append a b, List.cons_append]
    rfl

theorem headOf_append (a b : List (GInst F)) : headOf se (a ++ b) = headOf se a + headOf se b := by
  simp [headOf, List.map_append, List.sum_append]

theorem gitems_ch : ∀ (xs : List (GInst F)) (S : List Word),
    ((gitems se xs S).map (·.ch)).sum = spent (runEvents (xs.map GInst.t) S)
  | [], _ => rfl
  | x :: xs, S => by
    have := gitems_ch xs (next x.t S)
    rw [List.map_cons]
    unfold gitems runEvents
    rw [List.map_cons, List.sum_cons, this, spent_append]
    exact Nat.add_comm _ _

theorem gitems_cost (xs : List (GInst F)) (S : List Word) :
    costOf (gitems se xs S) = headOf se xs + spent (runEvents (xs.map GInst.t) S) := by
  rw [costOf_eq, headGas_gitems, gitems_ch]

theorem gitems_length : ∀ (xs : List (GInst F)) (S : List Word), (gitems se xs S).length = xs.length
  | [], _ => rfl
  | x :: xs, S => by
    unfold gitems
    rw [List.length_cons, gitems_length xs, List.length_cons]

theorem payEach_some : ∀ (l : List GItem) (g : Nat) (r : List (Nat × Nat)), costOf l ≤ g →
    ∃ r', payEach l g r = some (g - costOf l, r')
  | [], g, r, _ => ⟨r, by simp [payEach, costOf]⟩
  | x :: l, g, r, h => by
    have hc : costOf (x :: l) = x.st + (x.ex + x.ch) + costOf l := by simp [costOf]
    obtain ⟨r', h'⟩ := payEach_some l (g - x.st - (x.ex + x.ch)) (if x.rd then (x.k, g - x.st) :: r else r) (by omega)
    refine ⟨r', ?_⟩
    rw [payEach_cons, if_neg (by omega), h']
    congr 2
    omega

theorem payEach_lt (l : List GItem) (g : Nat) (r : List (Nat × Nat)) (h : g < costOf l) : payEach l g r = none := by
  cases hp : payEach l g r with
  | none => rfl
  | some q =>
    have := payEach_cost l g r (g' := q.1) (r' := q.2) hp
    omega

end lists

section machine
variable {se : Nat → Nat × Nat}

/-- The instructions of a section. -/
theorem gasSteps_ok (xs : List (GInst F)) (hne : xs ≠ []) {cx : SCx (Option (Paid F))} {S : List Word} {G : List Bool}
    {a : StackAcc} {I M : Int} (h : Inv cx S G) (hok : RunOk (xs.map GInst.t) S) (hsh : Shape (xs.map GInst.t))
    (hf : Fits (xs.map GInst.t) a I M) (hr : RunReadable (xs.map GInst.t) G) (hb : cx.vs.base = -I)
    (hc : cx.vs.cap = I + M) (ht : cx.vs.top = a.diff) (hbad : ∀ x ∈ xs, x.bad = false) (g : Nat)
    (rd : List (Nat × Nat)) :
    ∃ cx', SCx.steps (xs.map GInst.t) cx = some cx' ∧
      HoldsM cx' (run (xs.map GInst.t) S) (maskRun (xs.map GInst.t) G) ∧
      cx'.trace = runEvents (xs.map GInst.t) S ++ cx.trace ∧
      gasSteps xs cx g rd = match paySteps (gitems se xs S) g rd with
        | some (g', rd') => .done cx' g' rd'
        | none => .outOfGas := by
  induction xs generalizing cx S G a g rd with
  | nil => exact absurd rfl hne
  | cons x xs ih =>
    have hbx := hbad x (by simp)
    have hp : ∀ g, paySteps (gitems se (x :: xs) S) g rd =
        if g < spent (events x.t S) then none
        else paySteps (gitems se xs (next x.t S)) (g - spent (events x.t S))
          (if x.reads then (x.k, g) :: rd else rd) := fun _ => rfl
    have hch : ∀ {c1 : SCx (Option (Paid F))}, c1.trace = events x.t S ++ cx.trace →
        spent c1.trace - spent cx.trace = spent (events x.t S) := by
      intro c1 h1
      rw [h1, spent_append]; omega
    obtain ⟨hf1, hf2, hf3⟩ := hf.head
    cases xs with
    | nil =>
      cases hlv : x.t.lower.leaves with
      | true =>
        obtain ⟨c1, e1, m1, tr1⟩ := step_leave hlv h hok.1 (by omega) hr.1
        refine ⟨c1, ?_, m1, ?_, ?_⟩
        · simp [SCx.steps, e1, hlv]
        · rw [tr1]; simp [runEvents]
        · rw [hp]
          unfold gasSteps
          rw [hbx, e1]
          dsimp only
          rw [hch tr1]
          unfold chargeGas
          by_cases hg : g < spent (events x.t S)
          · simp [hg]
          · simp [hg, hlv, paySteps, gitems]
      | false =>
        obtain ⟨c1, e1, s1⟩ := step_ok hlv h hok.1 (by omega) (by omega) hr.1
        refine ⟨c1.materializeLive, ?_, holdsM_of_inv s1.inv (s1.stored hsh), ?_, ?_⟩
        · simp [SCx.steps, e1, hlv]
        · show c1.trace = _
          rw [s1.trace]; simp [runEvents]
        · rw [hp]
          unfold gasSteps
          rw [hbx, e1]
          dsimp only
          rw [hch s1.trace]
          unfold chargeGas
          by_cases hg : g < spent (events x.t S)
          · simp [hg]
          · simp [hg, hlv, paySteps, gitems]
    | cons x' xs =>
      obtain ⟨c1, e1, s1⟩ := step_ok hsh.1 h hok.1 (by omega) (by omega) hr.1
      have k := relieve_keep c1
      have e2 : (a.process x.t.inp x.t.out).diff = a.diff + ((x.t.out : Int) - x.t.inp) := rfl
      obtain ⟨c2, e2, m2, tr2, gs2⟩ := ih (by simp) (s1.inv.keep k) hok.2 hsh.2 hf3 hr.2
        (by rw [k.frame.base, s1.base]; exact hb) (by rw [k.frame.cap, s1.cap]; exact hc)
        (by rw [k.top, s1.top]; omega) (fun y hy => hbad y (by simp [hy]))
        (g - spent (events x.t S)) (if x.reads then (x.k, g) :: rd else rd)
      refine ⟨c2, ?_, m2, ?_, ?_⟩
      · rw [List.map_cons, List.map_cons, SCx.steps, e1]; exact e2
      · rw [tr2, k.trace, s1.trace]
        show _ = (runEvents ((x' :: xs).map GInst.t) (next x.t S) ++ events x.t S) ++ cx.trace
        rw [List.append_assoc]
      · rw [hp]
        rw [gasSteps.eq_def]
        dsimp only
        rw [hbx, e1]
        dsimp only
        rw [hch s1.trace]
        unfold chargeGas
        by_cases hg : g < spent (events x.t S)
        · simp [hg]
        · rw [if_neg hg, if_neg hg]
          simp only [Bool.false_eq_true, if_false, List.isEmpty_cons]
          exact gs2

/-- The shape of the sections of a block, and what matters for gas. -/
structure GSec (se : Nat → Nat × Nat) (s : Nat × List (GInst F)) : Prop where
  ne : s.2 ≠ []
  shape : Shape (s.2.map GInst.t)
  inputs : ((s.2.map GInst.t).foldl (fun a t => a.process t.inp t.out) ({} : StackAcc)).inputs ≤ 65535
  growth : ((s.2.map GInst.t).foldl (fun a t => a.process t.inp t.out) ({} : StackAcc)).maxGrowth ≤ 32767
  stays : ∀ t ∈ (s.2.map GInst.t).dropLast, t.lower.leaves = false
  last : ∀ x ∈ s.2.dropLast, x.reads = false
  pays : ∀ x ∈ s.2, x.reads = true → (se x.idx).2 = 0

theorem GSec.readsLast {s : Nat × List (GInst F)} (h : GSec se s) (S : List Word) : ReadsLast (gitems se s.2 S) := by
  have h1 := h.last
  have h2 := h.pays
  clear h
  revert h1 h2 S
  generalize s.2 = xs
  induction xs with
  | nil => intro S _ _; exact ⟨by simp [gitems], by simp [gitems]⟩
  | cons x xs ih =>
    intro S h1 h2
    unfold gitems
    cases xs with
    | nil =>
      refine ⟨by simp [gitems], fun y hy hr => ?_⟩
      simp only [gitems, List.mem_singleton] at hy
      subst hy
      exact h2 x (by simp) hr
    | cons x' xs =>
      have hx : x.reads = false := h1 x (by rw [List.dropLast_cons_of_ne_nil (by simp)]; simp)
      obtain ⟨i1, i2⟩ := ih (next x.t S) (fun y hy => h1 y (by
        rw [List.dropLast_cons_of_ne_nil (by simp)]; exact List.mem_cons_of_mem _ hy)) (fun y hy => h2 y (by simp [hy]))
      have hne : gitems se (x' :: xs) (next x.t S) ≠ [] := by unfold gitems; simp
      refine ⟨fun y hy => ?_, fun y hy hr => ?_⟩
      · rw [List.dropLast_cons_of_ne_nil hne] at hy
        rcases List.mem_cons.1 hy with rfl | hy
        · exact hx
        · exact i1 y hy
      · rcases List.mem_cons.1 hy with rfl | hy
        · rw [show ((GItem.mk (se x.idx).1 (se x.idx).2 (spent (events x.t S)) x.k x.reads).rd) = x.reads from rfl] at hr
          rw [hx] at hr; cases hr
        · exact i2 y hy hr

theorem gasSections_cons (st : Nat) (xs : List (GInst F)) (rest : List (Nat × List (GInst F)))
    (cx : SCx (Option (Paid F))) (g : Nat) (rd : List (Nat × Nat)) :
    gasSections ((st, xs) :: rest) cx g rd = match chargeGas g st with
      | none => .outOfGas
      | some g => match headCheck (xs.map GInst.t) cx with
        | some f => .fail f cx
        | none => match gasSteps xs (SCx.head (xs.map GInst.t) cx) g rd with
          | .done cx g rd => gasSections rest cx g rd
          | o => o := rfl

/-- One section that is executed to its end. -/
theorem gasSection_ok {s : Nat × List (GInst F)} (hs : GSec se s) (hst : s.1 = headOf se s.2)
    {cx : SCx (Option (Paid F))} {S : List Word} {G : List Bool} (h : HoldsM cx S G) (hm : G.length = S.length)
    (hok : RunOk (s.2.map GInst.t) S) (hl : Low (s.2.map GInst.t) S) (hr : RunReadable (s.2.map GInst.t) G)
    (hbad : ∀ x ∈ s.2, x.bad = false) (g : Nat) (rd : List (Nat × Nat)) (rest : List (Nat × List (GInst F))) :
    ∃ cx', SCx.runSection (s.2.map GInst.t) cx = some cx' ∧
      HoldsM cx' (run (s.2.map GInst.t) S) (maskRun (s.2.map GInst.t) G) ∧
      cx'.trace = runEvents (s.2.map GInst.t) S ++ cx.trace ∧ headCheck (s.2.map GInst.t) cx = none ∧
      gasSections (s :: rest) cx g rd = match payEach (gitems se s.2 S) g rd with
        | some (g', rd') => gasSections rest cx' g' rd'
        | none => .outOfGas := by
  obtain ⟨I, M, hf, hi, hb, hc, ht, _, htr⟩ := head_ok (s.2.map GInst.t) h hm hok hs.inputs hs.growth
  have hck := headCheck_ok hok hl h.1
  obtain ⟨c1, e1, m1, tr1, g1⟩ := gasSteps_ok (se := se) s.2 hs.ne hi hok hs.shape hf hr hb hc ht hbad
    (g - headOf se s.2) rd
  refine ⟨c1, e1, m1, by rw [tr1, htr], hck, ?_⟩
  obtain ⟨st, xs⟩ := s
  dsimp only at *
  rw [gasSections_cons]
  unfold chargeGas
  by_cases hg : g < st
  · rw [if_pos hg, payEach_none (gitems se xs S) g rd (by rw [headGas_gitems]; omega)]
  · rw [if_neg hg]
    dsimp only
    rw [hck]
    dsimp only
    rw [hst, g1, paySteps_each _ _ _ (hs.readsLast S), headGas_gitems,
      show g - headOf se xs + headOf se xs = g by omega]
    cases payEach (gitems se xs S) g rd with
    | none => rfl
    | some q => rfl

/-- The sections of a block that is executed to its end. -/
theorem gasSections_ok (secs : List (Nat × List (GInst F))) (hsec : ∀ s ∈ secs, GSec se s)
    (hst : ∀ s ∈ secs, s.1 = headOf se s.2) {cx : SCx (Option (Paid F))} {S : List Word} {G : List Bool}
    (h : HoldsM cx S G) (hm : G.length = S.length) (hok : RunOk ((secs.map Prod.snd).flatten.map GInst.t) S)
    (hl : Low ((secs.map Prod.snd).flatten.map GInst.t) S) (hr : RunReadable ((secs.map Prod.snd).flatten.map GInst.t) G)
    (hbad : ∀ x ∈ (secs.map Prod.snd).flatten, x.bad = false) (g : Nat) (rd : List (Nat × Nat)) :
    ∃ cx', checkedSections (secs.map fun s => s.2.map GInst.t) cx = .done cx' ∧
      gasSections secs cx g rd = match payEach (gitems se (secs.map Prod.snd).flatten S) g rd with
        | some (g', rd') => .done cx' g' rd'
        | none => .outOfGas := by
  induction secs generalizing cx S G g rd with
  | nil => exact ⟨cx, rfl, rfl⟩
  | cons s secs ih =>
    rw [List.map_cons, List.flatten_cons] at hok hl hr hbad
    rw [List.map_append] at hok hl hr
    rw [show ((s :: secs).map Prod.snd).flatten = s.2 ++ (secs.map Prod.snd).flatten from rfl]
    obtain ⟨o1, o2⟩ := (runOk_append _ _ _).1 hok
    obtain ⟨r1, r2⟩ := (runReadable_append _ _ _).1 hr
    obtain ⟨c1, e1, m1, tr1, hck, g1⟩ := gasSection_ok (hsec s (by simp)) (hst s (by simp)) h hm o1 hl.left r1
      (fun x hx => hbad x (by simp [hx])) g rd secs
    have hm' := maskRun_length (s.2.map GInst.t) S G o1 hm
    obtain ⟨c2, e2, _⟩ := ih (fun s hs => hsec s (by simp [hs])) (fun s hs => hst s (by simp [hs])) m1 hm' o2 hl.right r2
      (fun x hx => hbad x (by rw [List.mem_append]; exact .inr hx)) 0 []
    refine ⟨c2, ?_, ?_⟩
    · rw [List.map_cons]
      simp only [checkedSections, hck, e1, e2]
    · rw [g1, gitems_append, payEach_append]
      cases hp : payEach (gitems se s.2 S) g rd with
      | none => rfl
      | some q =>
        obtain ⟨c3, e3, g3⟩ := ih (fun s hs => hsec s (by simp [hs])) (fun s hs => hst s (by simp [hs])) m1 hm' o2
          hl.right r2 (fun x hx => hbad x (by rw [List.mem_append]; exact .inr hx)) q.1 q.2
        rw [e2] at e3
        cases e3
        exact g3

/-- Some instructions of a section. -/
theorem gasSteps_part : ∀ (as bs : List (GInst F)), bs ≠ [] → ∀ {cx : SCx (Option (Paid F))} {S : List Word}
    {G : List Bool} {a : StackAcc} {I M : Int}, Inv cx S G → RunOk (as.map GInst.t) S →
    (∀ x ∈ as, x.t.lower.leaves = false) → Fits ((as ++ bs).map GInst.t) a I M → RunReadable (as.map GInst.t) G →
    cx.vs.base = -I → cx.vs.cap = I + M → cx.vs.top = a.diff → (∀ x ∈ as, x.bad = false) →
    ∀ (g : Nat) (rd : List (Nat × Nat)), gasSteps (as ++ bs) cx g rd = .outOfGas ∨
      ∃ cx' a' g' rd', gasSteps (as ++ bs) cx g rd = gasSteps bs cx' g' rd' ∧
        Inv cx' (run (as.map GInst.t) S) (maskRun (as.map GInst.t) G) ∧ Fits (bs.map GInst.t) a' I M ∧ cx'.vs.base = -I ∧
        cx'.vs.cap = I + M ∧ cx'.vs.top = a'.diff ∧ g = g' + spent (runEvents (as.map GInst.t) S)
  | [], bs, _, cx, S, G, a, I, M, h, _, _, hf, _, hb, hc, ht, _, g, rd =>
    .inr ⟨cx, a, g, rd, rfl, h, hf, hb, hc, ht, by simp [runEvents, spent]⟩
  | x :: as, bs, hne, cx, S, G, a, I, M, h, hok, hlv, hf, hr, hb, hc, ht, hbad, g, rd => by
    obtain ⟨hf1, hf2, hf3⟩ := Fits.head (t := x.t) (ts := (as ++ bs).map GInst.t) (a := a) (I := I) (M := M) hf
    obtain ⟨c1, e1, s1⟩ := step_ok (hlv x (by simp)) h hok.1 (by omega) (by omega) hr.1
    have k := relieve_keep c1
    have e2 : (a.process x.t.inp x.t.out).diff = a.diff + ((x.t.out : Int) - x.t.inp) := rfl
    have hch : spent c1.trace - spent cx.trace = spent (events x.t S) := by
      rw [s1.trace, spent_append]; omega
    have hem : (as ++ bs).isEmpty = false := by
      cases as with
      | nil => cases bs with
        | nil => exact absurd rfl hne
        | cons => rfl
      | cons => rfl
    have hgo : gasSteps (x :: as ++ bs) cx g rd = if g < spent (events x.t S) then .outOfGas
        else gasSteps (as ++ bs) c1.relieve (g - spent (events x.t S)) (if x.reads then (x.k, g) :: rd else rd) := by
      rw [List.cons_append, gasSteps.eq_def]
      dsimp only
      rw [hbad x (by simp), e1]
      dsimp only
      rw [hch, hem]
      unfold chargeGas
      by_cases hg : g < spent (events x.t S)
      · simp [hg]
      · simp [hg]
    rw [hgo]
    by_cases hg : g < spent (events x.t S)
    · rw [if_pos hg]; exact .inl rfl
    · rw [if_neg hg]
      rcases gasSteps_part as bs hne (s1.inv.keep k) hok.2 (fun y hy => hlv y (by simp [hy])) hf3 hr.2
        (by rw [k.frame.base, s1.base]; exact hb) (by rw [k.frame.cap, s1.cap]; exact hc)
        (by rw [k.top, s1.top]; omega) (fun y hy => hbad y (by simp [hy]))
        (g - spent (events x.t S)) (if x.reads then (x.k, g) :: rd else rd) with h' | ⟨cx', a', g', rd', h1, h2, h3, h4, h5, h6, h7⟩
      · exact .inl h'
      · refine .inr ⟨cx', a', g', rd', h1, h2, h3, h4, h5, h6, ?_⟩
        rw [List.map_cons]
        unfold runEvents
        rw [spent_append]
        omega

/-- Why the EVM stops at instruction `x` on stack `c`, having executed `as` before it, with `g` gas at the start. -/
def Stops (se : Nat → Nat × Nat) (as : List (GInst F)) (x : GInst F) (S : List Word) (G : List Bool) (g : Nat) : Prop :=
  stackFails (run (as.map GInst.t) S).length [(x.t.inp, x.t.out)] ∨ x.bad = true ∨
    g < costOf (gitems se as S) + ((se x.idx).1 + (se x.idx).2) ∨
    (Ok x.t (run (as.map GInst.t) S) ∧ Readable x.t (maskRun (as.map GInst.t) G) ∧ g < costOf (gitems se (as ++ [x]) S))

/-- The compiled code does not get past `x`. -/
theorem gasSections_stop (secs : List (Nat × List (GInst F))) (m : Nat) {x : GInst F} {cx : SCx (Option (Paid F))}
    {S : List Word} {G : List Bool} (hsec : ∀ s ∈ secs, GSec se s) (h : HoldsM cx S G) (hm : G.length = S.length)
    (hst : ∀ A s B, secs = A ++ s :: B → (A.map Prod.snd).flatten.length ≤ m →
      ((A.map Prod.snd).flatten.length + s.2.length ≤ m → s.1 = headOf se s.2) ∧
      headOf se (s.2.take (m + 1 - (A.map Prod.snd).flatten.length)) ≤ s.1)
    (hx : (secs.map Prod.snd).flatten[m]? = some x)
    (hok : RunOk (((secs.map Prod.snd).flatten.take m).map GInst.t) S) (hl : Low (((secs.map Prod.snd).flatten.take m).map GInst.t) S)
    (hr : RunReadable (((secs.map Prod.snd).flatten.take m).map GInst.t) G)
    (hbad : ∀ y ∈ (secs.map Prod.snd).flatten.take m, y.bad = false) (g : Nat) (rd : List (Nat × Nat))
    (hstop : Stops se ((secs.map Prod.snd).flatten.take m) x S G g) :
    gasSections secs cx g rd = .outOfGas ∨ (∃ f cx', gasSections secs cx g rd = .fail f cx') ∨
      (x.bad = true ∧
        costOf (gitems se ((secs.map Prod.snd).flatten.take m) S) + ((se x.idx).1 + (se x.idx).2) ≤ g ∧
        ∃ cx', gasSections secs cx g rd = .bad x.idx cx') := by
  induction secs generalizing cx S G g rd m with
  | nil => simp at hx
  | cons s secs ih =>
    rw [List.map_cons, List.flatten_cons] at hx hok hl hr hbad hstop ⊢
    have hs := hsec s (by simp)
    obtain ⟨hst1, hst2⟩ := hst [] s secs rfl (by simp)
    simp only [List.map_nil, List.flatten_nil, List.length_nil, Nat.zero_add, Nat.sub_zero] at hst1 hst2
    by_cases hle : s.2.length ≤ m
    · have htk : (s.2 ++ (secs.map Prod.snd).flatten).take m = s.2 ++ (secs.map Prod.snd).flatten.take (m - s.2.length) := by
        rw [List.take_append, List.take_of_length_le hle]
      rw [List.getElem?_append_right hle] at hx
      rw [htk] at hbad hstop ⊢
      rw [htk, List.map_append] at hok hl hr
      obtain ⟨o1, o2⟩ := (runOk_append _ _ _).1 hok
      obtain ⟨r1, r2⟩ := (runReadable_append _ _ _).1 hr
      obtain ⟨c1, e1, m1, tr1, hck, g1⟩ := gasSection_ok hs (hst1 hle) h hm o1 hl.left r1
        (fun x hx => hbad x (by simp [hx])) g rd secs
      have hm' := maskRun_length (s.2.map GInst.t) S G o1 hm
      rw [g1]
      cases hp : payEach (gitems se s.2 S) g rd with
      | none => exact .inl rfl
      | some q =>
        have hcost := payEach_cost _ _ _ hp
        rw [gitems_append, costOf_append]
        suffices hI : _ ∨ _ ∨ (x.bad = true ∧
            costOf (gitems se ((secs.map Prod.snd).flatten.take (m - s.2.length)) (run (s.2.map GInst.t) S)) +
              ((se x.idx).1 + (se x.idx).2) ≤ q.1 ∧ _) by
          rcases hI with h | h | ⟨h1, h2, h3⟩
          · exact .inl h
          · exact .inr (.inl h)
          · exact .inr (.inr ⟨h1, by omega, h3⟩)
        refine ih (m - s.2.length) (fun s hs => hsec s (by simp [hs])) m1 hm' ?_ hx o2 hl.right r2
          (fun x hx => hbad x (by rw [List.mem_append]; exact .inr hx)) q.1 q.2 ?_
        · intro A s' B hA hAm
          have := hst (s :: A) s' B (by rw [hA]; rfl) (by
            rw [List.map_cons, List.flatten_cons, List.length_append]; omega)
          rw [List.map_cons, List.flatten_cons, List.length_append] at this
          rw [show m + 1 - (s.2.length + (A.map Prod.snd).flatten.length) =
            m - s.2.length + 1 - (A.map Prod.snd).flatten.length by omega] at this
          exact ⟨fun h => this.1 (by omega), this.2⟩
        · unfold Stops at hstop ⊢
          rw [List.map_append, run_append, maskRun_append, List.append_assoc, gitems_append, costOf_append,
            gitems_append (se := se), costOf_append] at hstop
          rcases hstop with h | h | h | ⟨h2, h3, h⟩
          · exact .inl h
          · exact .inr (.inl h)
          · exact .inr (.inr (.inl (by omega)))
          · exact .inr (.inr (.inr ⟨h2, h3, by omega⟩))
    · have hlt : m < s.2.length := by omega
      rw [List.getElem?_append_left hlt] at hx
      rw [List.take_append_of_le_length (by omega)] at hok hl hr hbad hstop ⊢
      have hsp := split_nth hx
      have hsp1 : s.2.take (m + 1) = s.2.take m ++ [x] := by
        rw [List.take_add_one, hx]; rfl
      rw [hsp1] at hst2
      have hgo : gasSections (s :: secs) cx g rd = match chargeGas g s.1 with
          | none => .outOfGas
          | some g => match headCheck (s.2.map GInst.t) cx with
            | some f => .fail f cx
            | none => match gasSteps s.2 (SCx.head (s.2.map GInst.t) cx) g rd with
              | .done cx g rd => gasSections secs cx g rd
              | o => o := rfl
      rw [hgo]
      unfold chargeGas
      by_cases hg : g < s.1
      · rw [if_pos hg]; exact .inl rfl
      rw [if_neg hg]
      dsimp only
      cases hck : headCheck (s.2.map GInst.t) cx with
      | some f => exact .inr (.inl ⟨f, cx, rfl⟩)
      | none =>
        dsimp only
        have hin : ((s.2.map GInst.t).foldl (fun a t => a.process t.inp t.out) ({} : StackAcc)).inputs ≤ (S.length : Int) := by
          unfold headCheck at hck
          rw [h.1, Int.toNat_natCast] at hck
          have hmm := StackAcc.mono ((s.2.map GInst.t).map fun t => (t.inp, t.out)) {}
          rw [List.foldl_map] at hmm
          dsimp only at hmm
          have := (check_isSome _ _ hmm.1 hmm.2 hl.head).not.1 (by rw [hck]; simp)
          omega
        obtain ⟨I, M, hf, hi, hb, hc, ht, _, htr⟩ := head_of (s.2.map GInst.t) h hm hin hs.inputs hs.growth
        have hlv : ∀ y ∈ s.2.take m, y.t.lower.leaves = false := by
          intro y hy
          refine hs.stays y.t ?_
          rw [← List.map_dropLast]
          refine List.mem_map_of_mem ?_
          rw [List.dropLast_eq_take]
          exact (List.take_subset_take_left s.2 (by omega)) hy
        have hpart := gasSteps_part (s.2.take m) (x :: s.2.drop (m + 1)) (by simp) hi hok hlv (by rw [← hsp]; exact hf)
          hr hb hc ht hbad (g - s.1) rd
        rw [← hsp] at hpart
        rcases hpart with hpart | ⟨c', a', g', rd', h1, h2, h3, h4, h5, h6, h7⟩
        · rw [hpart]; exact .inl rfl
        · rw [h1]
          have hgs : ∀ o, gasSteps (x :: s.2.drop (m + 1)) c' g' rd' = o → (∀ c g r, o ≠ .done c g r) →
              (match gasSteps (x :: s.2.drop (m + 1)) c' g' rd' with
              | .done cx g rd => gasSections secs cx g rd
              | o => o) = o := by
            rintro o rfl ho
            generalize gasSteps (x :: s.2.drop (m + 1)) c' g' rd' = o at ho ⊢
            cases o with
            | done c g r => exact absurd rfl (ho c g r)
            | _ => rfl
          by_cases hxb : x.bad = true
          · right; right
            refine ⟨hxb, ?_, c', hgs _ ?_ (by simp)⟩
            · rw [gitems_cost]
              rw [headOf_append] at hst2
              have : headOf se [x] = (se x.idx).1 + (se x.idx).2 := by simp [headOf]
              omega
            unfold gasSteps
            rw [hxb]; rfl
          · rcases hstop with hst' | hst' | hst' | ⟨q1, q2, q3⟩
            · exfalso
              obtain ⟨f, hf'⟩ := headCheck_fails (bs := (s.2.drop (m + 1)).map GInst.t) hok hl.head hst' h.1
              rw [← List.map_cons, ← List.map_append, ← hsp, hck] at hf'
              cases hf'
            · exact absurd hst' hxb
            · exfalso
              rw [gitems_cost] at hst'
              rw [headOf_append] at hst2
              have : headOf se [x] = (se x.idx).1 + (se x.idx).2 := by simp [headOf]
              omega
            · left
              refine hgs _ ?_ (by simp)
              obtain ⟨hf1, hf2, _⟩ := Fits.head (t := x.t) (ts := (s.2.drop (m + 1)).map GInst.t) h3
              obtain ⟨c2, e2, tr2⟩ : ∃ c2, SCx.step x.t c' = some c2 ∧
                  c2.trace = events x.t (run ((s.2.take m).map GInst.t) S) ++ c'.trace := by
                cases hlv : x.t.lower.leaves with
                | true =>
                  obtain ⟨c2, e2, _, t2⟩ := step_leave hlv h2 q1 (by omega) q2
                  exact ⟨c2, e2, t2⟩
                | false =>
                  obtain ⟨c2, e2, s2⟩ := step_ok hlv h2 q1 (by omega) (by omega) q2
                  exact ⟨c2, e2, s2.trace⟩
              rw [gitems_cost, List.map_append, runEvents_append, spent_append] at q3
              simp only [List.map_cons, List.map_nil, runEvents, List.nil_append] at q3
              rw [gasSteps.eq_def]
              dsimp only
              rw [if_neg hxb, e2]
              dsimp only
              rw [tr2, spent_append]
              unfold chargeGas
              rw [if_pos (by omega)]

end machine

end Verif
