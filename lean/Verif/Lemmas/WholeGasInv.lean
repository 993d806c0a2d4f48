import Verif.Lemmas.WholeGasSec
import Verif.Lemmas.WholeGasRun
/-!
# Whole programs with gas: costs, statics of sections, the code of a block
-/

namespace Verif
open Spec
variable {F : Type}

/-! ## Costs -/

/-- The charges among observations. -/
def costObs : List (Obs (Paid F)) → Nat
  | [] => 0
  | .effect x :: l => x.2 + costObs l
  | .called _ :: l => costObs l

theorem costObs_append (a b : List (Obs (Paid F))) : costObs (a ++ b) = costObs a + costObs b := by
  induction a with
  | nil => simp [costObs]
  | cons x a ih => cases x <;> simp only [List.cons_append, costObs, ih] <;> omega

theorem spent_shown (evs : List (Ev (Option (Paid F)))) : spent evs = costObs (shown evs) := by
  induction evs with
  | nil => rfl
  | cons x evs ih =>
    match x with
    | .ran (some p) =>
      show p.2 + spent evs = costObs (Obs.effect p :: shown evs)
      rw [ih]; rfl
    | .ran none => exact ih
    | .suspended s =>
      show spent evs = costObs (Obs.called s :: shown evs)
      rw [ih]; rfl
    | .branched _ _ => exact ih

section costs
variable {C : Compiled} {env : Env F} {dyn : Nat → Nat → List Word → Nat} {expCost : Word → Nat}

theorem gasEnv_obs (k i : Nat) (args : List Word) :
    costObs ((C.gasEnv env dyn k i args).2.toList.map Obs.effect) = C.charge dyn k i args ∧
      effects ((C.gasEnv env dyn k i args).2.toList.map Obs.effect) = (env k i args).2.toList.map Obs.effect := by
  unfold Compiled.gasEnv
  cases h : (env k i args).2 <;> cases h' : C.charge dyn k i args <;> exact ⟨rfl, rfl⟩

theorem effects_append (a b : List (Obs (Option F × Nat))) : effects (a ++ b) = effects a ++ effects b := by
  unfold effects; rw [List.filterMap_append]

theorem observed_cost {k i : Nat} {d : InstData} {c : List Word} (h : (d.flags.disabled || d.flags.unknown) = false) :
    costObs (observed (C.gasEnv env dyn) k i d c) = C.charge dyn k i (c.take d.stackIo.1) := by
  unfold observed
  rw [h]
  simp only [Bool.false_eq_true, if_false]
  rw [costObs_append, (gasEnv_obs k i _).1]
  split <;> simp [costObs]

theorem observed_effects {k i : Nat} {d : InstData} {c : List Word} :
    effects (observed (C.gasEnv env dyn) k i d c) = observed env k i d c := by
  unfold observed
  split
  · rfl
  · rw [effects_append, (gasEnv_obs k i _).2]
    split <;> rfl

theorem worldX_gas {base : List InstData} {ok : Nat → List Word → Prop} {o : WOpts} (G : GoodC base ok o C)
    (hw : World base env) (hc : Costs base dyn expCost) : WorldX C.ai base (C.gasEnv env dyn) := by
  have hcharge : ∀ k i d args, base[i]? = some d → d.opcode.toNat ≠ 0x0a → C.charge dyn k i args = dyn k i args := by
    intro k i d args hd hne
    obtain ⟨d1, hd1, he⟩ := G.sound.ev.get hd
    unfold Compiled.charge
    rw [hd1]
    dsimp only
    have : (d1.opcode == op.EXP) = false := by
      rw [beq_eq_false_iff_ne]
      intro h
      rw [he.op] at h
      rw [h] at hne
      exact hne rfl
    rw [this]; simp
  have hnone : ∀ k i args, (env k i args).2 = none → C.charge dyn k i args = 0 → (C.gasEnv env dyn k i args).2 = none := by
    intro k i args h1 h2
    unfold Compiled.gasEnv
    rw [h1, h2]
    rfl
  constructor
  · intro k i d args hd
    exact hw.len k i d args hd
  · intro k i d args hd hm
    unfold mute at hm
    simp only [Bool.and_eq_true, bne_iff_ne] at hm
    refine hnone k i args (hw.quiet k i d args hd hm.1) ?_
    rw [hcharge k i d args hd hm.2]
    exact hc.quiet k i d args hd hm.1 hm.2
  · intro k i d args hd ho hp
    refine hnone k i args (hw.quiet k i d args hd (by rw [ho]; rfl)) ?_
    obtain ⟨d1, hd1, he⟩ := G.sound.ev.get hd
    unfold Compiled.charge
    rw [hd1]
    dsimp only
    rw [he.op, ho, hp]; rfl
  · intro k i d x y hd ho
    have h1 := hw.hash k i d x y hd ho
    have h2 : C.charge dyn k i [x, 0] = C.charge dyn k i [y, 0] := by
      rw [hcharge k i d _ hd (by omega), hcharge k i d _ hd (by omega)]
      exact hc.hash k i d x y hd ho
    unfold Compiled.gasEnv
    rw [h1, h2]

/-- The static cost of instruction `i` and the dynamic cost that is folded into its section. -/
def Compiled.se (C : Compiled) (expCost : Word → Nat) (i : Nat) : Nat × Nat :=
  match C.prog.insts[i]? with
  | none => (0, 0)
  | some d => if d.flags.disabled || d.flags.unknown then (0, 0) else (d.baseGas, (C.extra expCost i).getD 0)

theorem se_on {i : Nat} {d : InstData} (hd : C.prog.insts[i]? = some d)
    (h : (d.flags.disabled || d.flags.unknown) = false) : C.se expCost i = (d.baseGas, (C.extra expCost i).getD 0) := by
  unfold Compiled.se
  rw [hd]
  dsimp only
  rw [h]; rfl

theorem se_le {i : Nat} {d : InstData} (hd : C.prog.insts[i]? = some d) :
    (C.se expCost i).1 + (C.se expCost i).2 ≤ d.baseGas + (C.extra expCost i).getD 0 := by
  unfold Compiled.se
  rw [hd]
  dsimp only
  split
  · exact Nat.zero_le _
  · exact Nat.le_refl _

theorem extra_none {i : Nat} {d : InstData} (hd : C.prog.insts[i]? = some d) (h : d.opcode ≠ op.EXP) :
    C.extra expCost i = none := by
  unfold Compiled.extra
  rw [hd]
  show expExtra d.opcode _ _ _ = none
  unfold expExtra
  rw [beq_eq_false_iff_ne.2 h]; rfl

/-- The dynamic cost of an instruction is charged once. -/
theorem GoodC.split_cost {base : List InstData} {ok : Nat → List Word → Prop} {o : WOpts} (G : GoodC base ok o C)
    (hc : Costs base dyn expCost) {k i : Nat} {c : List Word} {d0 d : InstData} (hr : Reach C.code base ok i c)
    (h0 : base[i]? = some d0) (hd : C.prog.insts[i]? = some d) (hl : d.stackIo.1 ≤ c.length)
    (hoff : (d.flags.disabled || d.flags.unknown) = false) :
    (C.se expCost i).2 + C.charge dyn k i (c.take d.stackIo.1) = dyn k i (c.take d.stackIo.1) := by
  have he := G.sound.ev.inst _ _ _ h0 hd
  rw [se_on hd hoff]
  unfold Compiled.charge
  rw [hd]
  dsimp only
  by_cases hx : d.opcode = op.EXP
  · have hio : d.stackIo = (2, 1) := by
      rw [(G.inst i d hd).io hoff, hx]; rfl
    have hsn := G.snapAt hr hd hl
    have hcon := snapAt_const hsn hl
    rw [hio] at hsn hcon hl ⊢
    obtain ⟨a, h1, _, h3⟩ := (hsn (by decide)).snap
    have hlen : (C.ai.inputs i).length = 2 := by
      rw [h1, List.length_reverse, List.length_take]; omega
    have hout := G.exp i d0 h0 (by rw [← he.op]; exact hx) (by rw [← he.io]; exact hio) hlen
    have honce := C21_exp_once (C.ai.constOperand i 0) (C.ai.constOperand i 1) (C.ai.constOutput i) expCost none none hout
    have hext : C.extra expCost i = expExtra op.EXP (C.ai.constOperand i 1) (C.ai.constOutput i) expCost := by
      unfold Compiled.extra
      rw [hd]
      show expExtra d.opcode _ _ _ = _
      rw [hx]
    rw [← hext] at honce
    change _ = !expPaid C.ai i at honce
    rw [hx]
    cases hp : expPaid C.ai i with
    | true =>
      rw [hp] at honce
      cases hxx : C.extra expCost i with
      | none => simp
      | some n => rw [hxx] at honce; simp at honce
    | false =>
      rw [hp] at honce
      cases hxx : C.extra expCost i with
      | none => rw [hxx] at honce; simp at honce
      | some n =>
        rw [hext] at hxx
        obtain ⟨_, e, h5, rfl⟩ := C21_exp_amount _ _ _ _ _ hxx
        have h6 := hcon 1 e (by decide) h5
        match c, hl, h6 with
        | x :: y :: r, _, h6 =>
          simp only [List.getElem?_cons_succ, List.getElem?_cons_zero, Option.some.injEq] at h6
          subst h6
          have := hc.exp k i d0 x y h0 (by rw [← he.op, hx]; rfl)
          simp only [List.take_succ_cons, List.take_zero]
          rw [this]; simp
  · rw [extra_none hd hx, beq_eq_false_iff_ne.2 hx]; simp

end costs

/-! ## The statics of sections -/

theorem slice_at {p : Prog} {s n j : Nat} (hn : s + n ≤ p.insts.length) (hj : j < n) {d : InstData}
    (hd : p.insts[s + j]? = some d) : (p.slice s n)[j]? = some (s + j, d) := by
  have hs := slice_split (p := p) (s := s) (n := n) (k := j) (d := d) hd hj
  rw [hs, List.getElem?_append_right (by rw [slice_len' (by omega)]; exact Nat.le_refl _), slice_len' (by omega),
    Nat.sub_self]
  rfl

theorem slice_take {p : Prog} {s : Nat} : ∀ {n j : Nat}, s + n ≤ p.insts.length → j ≤ n →
    (p.slice s n).take j = p.slice s j := by
  intro n j hn hj
  unfold Prog.slice
  apply List.ext_getElem?
  intro q
  by_cases hq : q < j
  · obtain ⟨d, hd⟩ : ∃ d, p.insts[s + q]? = some d := ⟨_, List.getElem?_eq_getElem (by omega)⟩
    rw [List.getElem?_take_of_lt hq]
    have h1 := slice_at (p := p) (s := s) (n := n) (j := q) hn (by omega) hd
    have h2 := slice_at (p := p) (s := s) (n := j) (j := q) (by omega) hq hd
    unfold Prog.slice at h1 h2
    rw [h1, h2]
  · have h2 := slice_len' (p := p) (s := s) (n := j) (by omega)
    unfold Prog.slice at h2
    rw [List.getElem?_eq_none (by rw [List.length_take]; omega), List.getElem?_eq_none (by omega)]

theorem freshAt_succ {insts : List InstData} {spec : SpecId} {i : Nat} {d : InstData} (hd : insts[i]? = some d)
    (hl : d.flags.deadCode = false) : freshAt insts spec (i + 1) = d.endsSection spec := by
  show (match insts[i]? with
        | some d => if d.flags.deadCode then freshAt insts spec i else d.endsSection spec
        | none => freshAt insts spec i) = _
  rw [hd]
  dsimp only
  rw [hl]; rfl

theorem inside_not_entry {p : Prog} {b : Nat × Nat} (hb : b ∈ p.blocks) {j : Nat} {d : InstData} (h1 : b.1 < j)
    (h2 : j < b.2) (hd : p.insts[j]? = some d) : d.isReachableJumpdest p.hasDyn = false := by
  have := p.blocks_ok.inside b hb j h1 h2
  unfold Prog.isLeader at this
  rw [hd] at this
  simp only [Option.any_some, Bool.or_eq_false_iff] at this
  exact this.1.2

section statics
variable {C : Compiled} {expCost : Word → Nat}

/-- No section charges more than fits the type of its gas. -/
def SumsFit (C : Compiled) (expCost : Word → Nat) : Prop :=
  ∀ (j : Nat) S, (Spec.table C.prog.insts C.spec C.prog.hasDyn)[j]?.join = some S →
    (S.map fun p => p.1.baseGas + (C.extra expCost p.2).getD 0).sum < 2 ^ 32

theorem ends_off {spec : SpecId} {d : InstData} (h : (d.flags.disabled || d.flags.unknown) = true) :
    d.endsSection spec = true := by
  unfold InstData.endsSection InstData.isBranching InstData.isDiverging
  simp only [Bool.or_eq_true] at h
  rcases h with h | h <;> simp [h]

theorem se_sum_le : ∀ (l : List (Nat × InstData)), (∀ x ∈ l, C.prog.insts[x.1]? = some x.2) →
    (l.map fun x => (C.se expCost x.1).1 + (C.se expCost x.1).2).sum ≤
      (l.map fun x => x.2.baseGas + (C.extra expCost x.1).getD 0).sum
  | [], _ => Nat.le_refl _
  | x :: l, h => by
    have h1 := se_le (expCost := expCost) (h x (by simp))
    have h2 := se_sum_le l (fun y hy => h y (by simp [hy]))
    simp only [List.map_cons, List.sum_cons]
    omega

theorem se_sum_eq : ∀ (l : List (Nat × InstData)), (∀ x ∈ l, C.prog.insts[x.1]? = some x.2) →
    (∀ x ∈ l, (x.2.flags.disabled || x.2.flags.unknown) = false) →
    (l.map fun x => (C.se expCost x.1).1 + (C.se expCost x.1).2).sum =
      (l.map fun x => x.2.baseGas + (C.extra expCost x.1).getD 0).sum
  | [], _, _ => rfl
  | x :: l, h, ho => by
    have h1 := se_on (expCost := expCost) (h x (by simp)) (ho x (by simp))
    have h2 := se_sum_eq l (fun y hy => h y (by simp [hy])) (fun y hy => ho y (by simp [hy]))
    simp only [List.map_cons, List.sum_cons, h1, h2]

/-- What the head of a section charges covers its executed instructions, and is exactly their cost if all are. -/
theorem sec_static (hfit : SumsFit C expCost) {b : Nat × Nat} (hb : b ∈ C.prog.blocks)
    (hhead : SecHead C.prog.insts C.spec C.prog.hasDyn b.1) {A B : List (List (Nat × InstData))}
    {s : List (Nat × InstData)} (hs : splitSections C.spec (C.prog.blockInsts b) = A ++ s :: B) {e : Nat}
    (hq : A.flatten.length < e) (hlive : ∀ x ∈ (C.prog.blockInsts b).take e, x.2.flags.deadCode = false) :
    ((s.take (e - A.flatten.length)).map fun x => (C.se expCost x.1).1 + (C.se expCost x.1).2).sum ≤
      C.sectionGas expCost s ∧
    (A.flatten.length + s.length ≤ e →
      ((∃ y, s.getLast? = some y ∧ y.2.endsSection C.spec = true) ∨
        (B = [] ∧ specRest C.spec C.prog.hasDyn (C.prog.insts.drop b.2) b.2 = [])) →
      (∀ x ∈ s, (x.2.flags.disabled || x.2.flags.unknown) = false) →
      C.sectionGas expCost s = (s.map fun x => (C.se expCost x.1).1 + (C.se expCost x.1).2).sum) := by
  have hrange := C.prog.blocks_ok.range b hb
  have hlenb : (C.prog.blockInsts b).length = b.2 - b.1 := slice_len' (by omega)
  obtain ⟨c1, c2, c3, c4⟩ := split_cut hs
  have hfl := split_flatten C.spec (C.prog.blockInsts b)
  rw [hs] at hfl
  simp only [List.flatten_append, List.flatten_cons] at hfl
  have hcon : Consec C.prog.insts b.1 (C.prog.blockInsts b) := consec_slice (by omega)
  rw [← hfl, Consec.append, Consec.append] at hcon
  obtain ⟨hcA, hcS, hcB⟩ := hcon
  have hsl : A.flatten.length + s.length ≤ b.2 - b.1 := by
    rw [← hlenb, ← hfl]; simp only [List.length_append]; omega
  obtain ⟨r, hr⟩ : ∃ r, e = A.flatten.length + r + 1 := ⟨e - A.flatten.length - 1, by omega⟩
  have htk : (C.prog.blockInsts b).take e = A.flatten ++ (s ++ B.flatten).take (r + 1) := by
    rw [← hfl, hr, Nat.add_assoc, take_len_add]
  rw [htk] at hlive
  have hmem : ∀ x ∈ s, C.prog.insts[x.1]? = some x.2 ∧ b.1 ≤ x.1 ∧ x.1 < b.2 := by
    intro x hx
    have hxm : x ∈ C.prog.blockInsts b := by rw [← hfl]; simp [hx]
    obtain ⟨h1, h2, h3⟩ := mem_slice hxm
    exact ⟨h1, h2, by omega⟩
  -- the position of the head
  have hfresh : SecHead C.prog.insts C.spec C.prog.hasDyn (b.1 + A.flatten.length) := by
    rcases c1 with h | ⟨y, h1, h2⟩
    · rw [h]; exact hhead
    · left
      obtain ⟨ys, hys⟩ := List.getLast?_eq_some_iff.1 h1
      have hl' := hlive y (by rw [hys]; simp)
      rw [hys, Consec.append] at hcA
      obtain ⟨_, hy1, hy2, _⟩ := hcA
      rw [hys, List.length_append, List.length_singleton, show b.1 + (ys.length + 1) = b.1 + ys.length + 1 by omega,
        freshAt_succ hy2 hl', h2]
  obtain ⟨x, s', rfl⟩ : ∃ x s', s = x :: s' := by
    cases s with
    | nil => exact absurd rfl c3
    | cons x s' => exact ⟨x, s', rfl⟩
  rw [show e - A.flatten.length = r + 1 by omega]
  have htk2 : ∀ y ∈ (x :: s').take (r + 1), y.2.flags.deadCode = false := by
    intro y hy
    refine hlive y ?_
    rw [List.mem_append]; right
    rw [List.take_append, List.mem_append]
    exact .inl hy
  have hentry : ∀ y ∈ s', y.2.isReachableJumpdest C.prog.hasDyn = false := by
    intro y hy
    obtain ⟨j, hj⟩ := List.mem_iff_getElem?.1 hy
    have hget : ∀ (l : List (Nat × InstData)) (i j : Nat) y, Consec C.prog.insts i l → l[j]? = some y → y.1 = i + j := by
      intro l
      induction l with
      | nil => intro i j y _ h; simp at h
      | cons z l ih =>
        intro i j y hc h
        cases j with
        | zero => simp only [List.getElem?_cons_zero, Option.some.injEq] at h; subst h; exact hc.1
        | succ j =>
          have := ih (i + 1) j y hc.2.2 (by simpa using h)
          omega
    have hy1 := hget _ _ _ _ hcS.2.2 hj
    obtain ⟨h1, h2, h3⟩ := hmem y (by simp [hy])
    exact inside_not_entry hb (by omega) h3 h1
  -- the section of the analysis
  have hsome : ∀ S, (Spec.table C.prog.insts C.spec C.prog.hasDyn)[b.1 + A.flatten.length]?.join = some S →
      (x.2.flags.disabled || x.2.flags.unknown) = false →
      C.sectionGas expCost (x :: s') = (S.map fun p => p.1.baseGas + (C.extra expCost p.2).getD 0).sum := by
    intro S hS ho
    have hx1 : x.1 = b.1 + A.flatten.length := hcS.1
    obtain ⟨xi, xd⟩ := x
    dsimp only at hx1 ho
    unfold Compiled.sectionGas
    dsimp only
    rw [ho, C21_section_sum, hx1, hS]
    have := hfit _ S hS
    simp only [Bool.false_eq_true, if_false]
    exact Nat.min_eq_left (by omega)
  have hmapsum : ∀ l : List (Nat × InstData), ((l.map fun x => (x.2, x.1)).map fun p => p.1.baseGas + (C.extra expCost p.2).getD 0) =
      l.map fun x => x.2.baseGas + (C.extra expCost x.1).getD 0 := by
    intro l; rw [List.map_map]; rfl
  have hconT : ∀ n, Consec C.prog.insts (b.1 + A.flatten.length) ((x :: s').take (n + 1)) := by
    intro n
    have := hcS
    rw [← List.take_append_drop (n + 1) (x :: s'), Consec.append] at this
    exact this.1
  constructor
  · by_cases ho : (x.2.flags.disabled || x.2.flags.unknown) = true
    · have hs0 : s' = [] := by
        cases s' with
        | nil => rfl
        | cons z s' =>
          have := c2 x (by rw [List.dropLast_cons_of_ne_nil (by simp)]; simp)
          rw [ends_off ho] at this; cases this
      subst hs0
      have : C.se expCost x.1 = (0, 0) := by
        unfold Compiled.se
        rw [(hmem x (by simp)).1]
        dsimp only
        rw [ho]; rfl
      simp [this]
    · have ho : (x.2.flags.disabled || x.2.flags.unknown) = false := by simpa using ho
      have ht := table_consec (spec := C.spec) (dyn := C.prog.hasDyn) (x := x) (l := s'.take r) (hconT r) hfresh htk2
        (fun y hy => hentry y (List.mem_of_mem_take hy)) (fun y hy => by
          refine c2 y ?_
          rw [List.dropLast_eq_take] at hy ⊢
          have : (x :: s'.take r).length - 1 ≤ (x :: s').length - 1 := by simp; omega
          refine (List.take_subset_take_left (x :: s') this) ?_
          have e1 : (x :: s'.take r) = (x :: s').take (r + 1) := rfl
          rw [e1, List.take_take] at hy
          exact (List.take_subset_take_left _ (Nat.min_le_left _ _)) hy)
      have h1 := hsome _ ht ho
      rw [h1, List.map_append, List.sum_append, hmapsum]
      have h2 := se_sum_le (C := C) (expCost := expCost) ((x :: s').take (r + 1))
        (fun y hy => (hmem y (List.mem_of_mem_take hy)).1)
      have e1 : (x :: s'.take r) = (x :: s').take (r + 1) := rfl
      rw [e1]
      omega
  · intro hle hend hoff
    have hall : (x :: s').take (r + 1) = x :: s' := List.take_of_length_le (by omega)
    rw [hall] at htk2
    have ht := table_consec (spec := C.spec) (dyn := C.prog.hasDyn) hcS hfresh htk2 hentry c2
    have hrest : (if (x :: s').getLast?.any (fun x => x.2.endsSection C.spec) then []
        else specRest C.spec C.prog.hasDyn (C.prog.insts.drop (b.1 + A.flatten.length + (x :: s').length))
          (b.1 + A.flatten.length + (x :: s').length)) = ([] : List (InstData × Nat)) := by
      rcases hend with ⟨y, h1, h2⟩ | ⟨h1, h2⟩
      · rw [h1, Option.any_some, h2]; rfl
      · split
        · rfl
        · have : A.flatten.length + (x :: s').length = b.2 - b.1 := by
            rw [← hlenb, ← hfl, h1]; simp
          rw [show b.1 + A.flatten.length + (x :: s').length = b.2 by omega]
          exact h2
    rw [hrest, List.append_nil] at ht
    rw [hsome _ ht (hoff x (by simp)), hmapsum, se_sum_eq _ (fun y hy => (hmem y hy).1) hoff]

end statics

end Verif
