import Verif.Lemmas.Calls
/-!
# Properties C41 (call gas) and C42 (static calls)
-/

namespace Verif.Builtins



/-! ## C41 -/

/-- C41: what a successful CALL/CALLCODE/DELEGATECALL/STATICCALL does to gas. `charge` is everything
paid before forwarding. The forwarded amount plus what is left equals the gas before forwarding; from
Tangerine Whistle on it is capped by all but one 64th; the stipend is added to the child's limit only,
and only for a CALL/CALLCODE with value. -/
theorem C41_call (env : Env) (kind : CallKind) (req : Word) (to : Nat)
    (value inOff inLen outOff outLen : Word) (s s' : Ecx)
    (hmono : ∀ a b, a ≤ b → env.memCost a ≤ env.memCost b) (hdiv : env.stipendDiv = 64)
    (h : call env kind req to value inOff inLen outOff outLen s = .ok () s') :
    let v := if kind = .call ∨ kind = .callCode then value.toNat else 0
    let words := Spec.touched (Spec.touched s.words inOff inLen) outOff outLen
    ∃ dyn st child, env.loadDelegated to (v ≠ 0) (kind = .call) = .ok (dyn, st) ∧
      s'.nextAction = some child ∧
      let charge := (env.memCost words - env.memCost s.words) +
        (if v ≠ 0 then env.transferValueCost else 0) + dyn + (st - s.reservoir)
      let forwarded := if SpecId.TANGERINE ≤ env.spec
        then min ((s.gas - charge) - (s.gas - charge) / 64) (min req.toNat (2 ^ 64 - 1))
        else min req.toNat (2 ^ 64 - 1)
      charge ≤ s.gas ∧ s'.gas + forwarded = s.gas - charge ∧
      child.gasLimit = (if v ≠ 0 then min (forwarded + env.callStipend) (2 ^ 64 - 1) else forwarded) := by
  unfold call at h
  obtain ⟨s0, s1, h1, h2⟩ := bind_ok.1 h
  obtain ⟨rfl, rfl⟩ := get_ok.1 h1
  generalize hv : (if kind = .call ∨ kind = .callCode then value.toNat else 0) = v at h2 ⊢
  obtain ⟨_, s1, h0, h2'⟩ := bind_ok.1 h2
  obtain ⟨_, rfl⟩ := cond_throw_ok.1 h0
  · obtain ⟨_, s1, h3, h4⟩ := bind_ok.1 h2'
    obtain ⟨hg1, rfl⟩ := callRange_ok h3
    obtain ⟨_, s2, h5, h6⟩ := bind_ok.1 h4
    obtain ⟨hg2, rfl⟩ := callRange_ok h5
    dsimp only at hg1 hg2 h6
    have hm1 := hmono _ _ (touched_le s.words inOff inLen)
    have hm2 := hmono _ _ (touched_le (Spec.touched s.words inOff inLen) outOff outLen)
    generalize Spec.touched s.words inOff inLen = w1 at *
    generalize Spec.touched w1 outOff outLen = w2 at *
    obtain ⟨dyn, st, child, hload, hact, hc⟩ := callTail_ok hdiv h6
    have hvk : v ≠ 0 → kind = .call ∨ kind = .callCode := by
      intro h0
      by_cases hk : kind = .call ∨ kind = .callCode
      · exact hk
      · rw [if_neg hk] at hv; exact absurd hv.symm h0
    have hk : ((kind = .call ∨ kind = .callCode) ∧ v ≠ 0) = (v ≠ 0) :=
      propext ⟨fun h => h.2, fun h => ⟨hvk h, h⟩⟩
    refine ⟨dyn, st, child, hload, hact, ?_⟩
    dsimp only at hc ⊢
    have e : s.gas - (env.memCost w1 - env.memCost s.words) - (env.memCost w2 - env.memCost w1) -
        ((if v ≠ 0 then env.transferValueCost else 0) + dyn + (st - s.reservoir)) =
        s.gas - (env.memCost w2 - env.memCost s.words +
          (if v ≠ 0 then env.transferValueCost else 0) + dyn + (st - s.reservoir)) := by omega
    rw [e] at hc
    obtain ⟨c1, c2, c3⟩ := hc
    unfold satUsize at c2 c3
    refine ⟨by omega, c2, ?_⟩
    rw [c3]
    simp only [hk, satAdd]

/-- C41: a failing call forwards nothing: no child frame is requested. -/
theorem C41_failed_call (env : Env) (kind : CallKind) (req : Word) (to : Nat)
    (value inOff inLen outOff outLen : Word) (s s' : Ecx) (e : Err)
    (h : call env kind req to value inOff inLen outOff outLen s = .error e s') :
    s'.nextAction = s.nextAction ∧ s'.host = s.host ∧ s'.isStatic = s.isStatic := by
  have := call_error h
  exact ⟨this.2.2.2.2, this.2.2.2.1, this.1⟩

/-- C41: before Tangerine Whistle the full requested amount must be payable, otherwise the call fails
with out of gas. -/
theorem C41_call_unpayable (env : Env) (kind : CallKind) (req : Word) (to : Nat)
    (value inOff inLen outOff outLen : Word) (s : Ecx)
    (hmono : ∀ a b, a ≤ b → env.memCost a ≤ env.memCost b) (hdiv : env.stipendDiv = 64)
    (hspec : env.spec < SpecId.TANGERINE) (hreq : s.gas < min req.toNat (2 ^ 64 - 1)) :
    ∃ e s', call env kind req to value inOff inLen outOff outLen s = .error e s' ∧
      s'.nextAction = s.nextAction := by
  cases h : call env kind req to value inOff inLen outOff outLen s with
  | ok u s' =>
    obtain ⟨dyn, st, child, _, _, hc⟩ := C41_call env kind req to value inOff inLen outOff outLen s s'
      hmono hdiv h
    dsimp only at hc
    rw [if_neg (Nat.not_le.2 hspec)] at hc
    omega
  | error e s' => exact ⟨e, s', rfl, (C41_failed_call env kind req to value _ _ _ _ s s' e h).1⟩

/-- C41: CREATE/CREATE2: conservation and the all-but-one-64th rule; no stipend. -/
theorem C41_create (env : Env) (is2 : Bool) (value codeOff len : Word) (s s' : Ecx)
    (hdiv : env.stipendDiv = 64) (h : create env is2 value codeOff len s = .ok () s') :
    let words := Spec.touched s.words codeOff len
    let charge := (if len ≠ 0 ∧ SpecId.SHANGHAI ≤ env.spec then env.initcodeCost len.toNat else 0) +
      (env.memCost words - env.memCost s.words) +
      (if is2 then env.create2Cost len.toNat else env.createCost) +
      (if env.eip8037 then env.createStateGas - s.reservoir else 0)
    let forwarded := if SpecId.TANGERINE ≤ env.spec
      then (s.gas - charge) - (s.gas - charge) / 64 else s.gas - charge
    ∃ child, s'.nextAction = some child ∧ charge ≤ s.gas ∧ s'.gas + forwarded = s.gas - charge ∧
      child.gasLimit = forwarded := by
  unfold create at h
  obtain ⟨_, s1, h1, g3⟩ := bind_ok.1 h
  obtain ⟨_, rfl⟩ := ensureNonStatic_ok.1 h1
  obtain ⟨l, s2, h2, g4⟩ := bind_ok.1 g3
  obtain ⟨_, rfl, rfl⟩ := tryUsize_ok.1 h2
  obtain ⟨_, s3, h3, g5⟩ := bind_ok.1 g4
  obtain ⟨c1, rfl⟩ := createCode_ok h3
  obtain ⟨_, s4, h4, g6⟩ := bind_ok.1 g5
  obtain ⟨c2, rfl⟩ := chargeGas_ok.1 h4
  obtain ⟨_, s5, h5, g7⟩ := bind_ok.1 g6
  obtain ⟨_, s6, h6, g8⟩ := bind_ok.1 g7
  obtain ⟨rfl, rfl⟩ := get_ok.1 h6
  obtain ⟨_, s7, h7, g9⟩ := bind_ok.1 g8
  obtain ⟨c3, rfl⟩ := chargeGas_ok.1 h7
  obtain rfl := setAction_ok.1 g9
  dsimp only at c1 c2 c3 h5 ⊢
  simp only [enabled, stipendReduction, hdiv, decide_eq_true_eq] at c3 ⊢
  generalize (if len ≠ 0 ∧ SpecId.SHANGHAI ≤ env.spec then env.initcodeCost len.toNat else 0) = a at *
  generalize env.memCost (Spec.touched s.words codeOff len) - env.memCost s.words = b at *
  generalize (if is2 = true then env.create2Cost len.toNat else env.createCost) = c at *
  refine ⟨_, rfl, ?_⟩
  dsimp only
  by_cases he : env.eip8037 = true
  · rw [cond_pos he] at h5
    obtain ⟨c4, rfl⟩ := chargeState_ok.1 h5
    dsimp only at c4 c3 ⊢
    rw [if_pos he]
    have e : s.gas - (a + b) - c - (env.createStateGas - s.reservoir) =
      s.gas - (a + b + c + (env.createStateGas - s.reservoir)) := by omega
    rw [e] at c3 ⊢
    exact ⟨by omega, by omega, rfl⟩
  · rw [cond_neg he] at h5
    obtain ⟨_, rfl⟩ := pure_ok.1 h5
    dsimp only at c3 ⊢
    rw [if_neg he]
    have e : s.gas - (a + b) - c = s.gas - (a + b + c + 0) := by omega
    rw [e] at c3 ⊢
    exact ⟨by omega, by omega, rfl⟩

/-- A value-bearing CALL asking for all gas, with 64 bytes of input: 100000 gas, 11506 charged. -/
example : call (mainnet SpecId.CANCUN) .call (BitVec.ofNat 256 (2 ^ 256 - 1)) 7 1 0 64 0 0
      { isStatic := false, gas := 100000, self := 5 } =
    .ok () { isStatic := false, gas := 1382, words := 2, self := 5,
             nextAction := some { gasLimit := 87112 + 2300, isStatic := false, target := 7, caller := 5,
                                  transfer := 1, isCreate := false } } := by decide +kernel

/-- The same request in Frontier is not payable. -/
example : call (mainnet SpecId.FRONTIER) .call 100000#256 7 1 0 64 0 0
      { isStatic := false, gas := 100000, self := 5 } =
    .error .OutOfGas { isStatic := false, gas := 88494, words := 2, self := 5 } := by decide +kernel

example : create (mainnet SpecId.CANCUN) true 0 0 32 { isStatic := false, gas := 64000, self := 5 } =
    .ok () { isStatic := false, gas := 499, words := 1, self := 5,
             nextAction := some { gasLimit := 31490, isStatic := false, target := 0, caller := 5,
                                  transfer := 0, isCreate := true } } := by decide +kernel

/-! ## C42 -/

/-- C42: in a static context each state-changing builtin fails at once, with nothing changed: no gas
taken, no host request, no child frame. -/
theorem C42_guards (env : Env) (s : Ecx) (hs : s.isStatic = true) :
    (∀ k v, sstore env k v s = .error .StateChangeDuringStaticCall s) ∧
    (∀ k v, tstore k v s = .error .StateChangeDuringStaticCall s) ∧
    (∀ n off len, log env n off len s = .error .StateChangeDuringStaticCall s) ∧
    (∀ t, selfdestruct env t s = .error .StateChangeDuringStaticCall s) ∧
    (∀ is2 v off len, create env is2 v off len s = .error .StateChangeDuringStaticCall s) ∧
    (∀ req to v a b c d, v ≠ 0#256 →
      call env .call req to v a b c d s = .error .CallNotAllowedInsideStatic s) := by
  have hn : ensureNonStatic s = .error .StateChangeDuringStaticCall s := by
    unfold ensureNonStatic; rw [if_pos hs]
  refine ⟨?_, ?_, ?_, ?_, ?_, ?_⟩
  · intro k v; exact bind_error.2 (Or.inl hn)
  · intro k v; exact bind_error.2 (Or.inl hn)
  · intro n off len; exact bind_error.2 (Or.inl hn)
  · intro t; exact bind_error.2 (Or.inl hn)
  · intro is2 v off len; exact bind_error.2 (Or.inl hn)
  · intro req to v a b c d hv
    have hv' : v.toNat ≠ 0 := fun h => hv (BitVec.eq_of_toNat_eq h)
    refine bind_error.2 (Or.inr ⟨s, s, rfl, ?_⟩)
    refine bind_error.2 (Or.inl ?_)
    rw [cond_pos ⟨rfl, hs, by simpa using hv'⟩]
    rfl

/-- C42: a sub-call is static iff its caller is or it is a STATICCALL; a successful call from a static
context moves no value from one account to another. -/
theorem C42_child_static (env : Env) (kind : CallKind) (req : Word) (to : Nat)
    (value inOff inLen outOff outLen : Word) (s s' : Ecx)
    (h : call env kind req to value inOff inLen outOff outLen s = .ok () s') :
    s'.isStatic = s.isStatic ∧ s'.self = s.self ∧ s'.caller = s.caller ∧ s'.host = s.host ∧
    ∃ c, s'.nextAction = some c ∧ c.isCreate = false ∧
      (c.isStatic = true ↔ s.isStatic = true ∨ kind = .staticCall) ∧
      (s.isStatic = true → c.transfer ≠ 0 → c.caller = c.target) := by
  unfold call at h
  obtain ⟨s0, s1, h1, h2⟩ := bind_ok.1 h
  obtain ⟨rfl, rfl⟩ := get_ok.1 h1
  obtain ⟨_, s1, h0, h2'⟩ := bind_ok.1 h2
  obtain ⟨hc, rfl⟩ := cond_throw_ok.1 h0
  obtain ⟨_, s1, h3, h4⟩ := bind_ok.1 h2'
  obtain ⟨hg1, rfl⟩ := callRange_ok h3
  obtain ⟨_, s2, h5, h6⟩ := bind_ok.1 h4
  obtain ⟨hg2, rfl⟩ := callRange_ok h5
  obtain ⟨a1, a2, a3, a4, c, b1, b2, b3, b4, b5, b6⟩ := callTail_child h6
  refine ⟨a1, a2, a3, a4, c, b1, b3, ?_, ?_⟩
  · rw [b2]; simp
  · intro hs ht
    rw [b4, b5]
    rw [b6] at ht
    cases kind <;> simp_all

/-- C42: a static frame and everything it calls, at any depth, requests no state change. -/
theorem C42_static_tree (env : Env) (t : Tree) (s : Ecx) (hs : s.isStatic = true) :
    run env t s = [] := by
  induction t generalizing s with
  | done => rfl
  | sstore k v next ih =>
    have := (C42_guards env { s with host := [] } hs).1 k v
    simp only [run, this, writes]; rfl
  | tstore k v next ih =>
    have := (C42_guards env { s with host := [] } hs).2.1 k v
    simp only [run, this, writes]; rfl
  | log n off len next ih =>
    have := (C42_guards env { s with host := [] } hs).2.2.1 n off len
    simp only [run, this, writes]; rfl
  | selfdestruct t =>
    have := (C42_guards env { s with host := [] } hs).2.2.2.1 t
    simp only [run, this, writes]; rfl
  | create is2 v off len child back next ih1 ih2 =>
    have := (C42_guards env { s with host := [], nextAction := none } hs).2.2.2.2.1 is2 v off len
    simp only [run, this]; rfl
  | call kind req to v a b c d child back next ih1 ih2 =>
    unfold run
    cases h : call env kind req to v a b c d { s with host := [], nextAction := none } with
    | error e s' =>
      have := (C41_failed_call env kind req to v a b c d _ s' e h).2.1
      simp only [this]; rfl
    | ok u s' =>
      obtain ⟨h1, _, _, _, c, hc, hcr, hst, htr⟩ := C42_child_static env kind req to v a b c d _ s' h
      have hcs : c.isStatic = true := hst.2 (Or.inl hs)
      simp only [hc]
      rw [ih1 _ hcs, ih2 _ (by simpa using h1.trans hs)]
      simp only [entering, hcr, List.append_nil, Bool.false_eq_true, if_false]
      rw [if_neg]
      rintro ⟨h2, h3⟩
      exact h3 (htr hs h2)

/-- C42: the child of a STATICCALL made by any frame requests no state change. -/
theorem C42_staticcall_child (env : Env) (req : Word) (to : Nat) (v a b c d : Word) (child : Tree)
    (s s' : Ecx) (ch : Child) (h : call env .staticCall req to v a b c d s = .ok () s')
    (hc : s'.nextAction = some ch) :
    run env child { isStatic := ch.isStatic, gas := ch.gasLimit, self := ch.target, caller := ch.caller }
      = [] := by
  obtain ⟨_, _, _, _, c', hc', _, hst, _⟩ := C42_child_static env .staticCall req to v a b c d s s' h
  rw [hc] at hc'
  cases hc'
  exact C42_static_tree env child _ (hst.2 (Or.inr rfl))

/-- Non-static: a store and a value call are seen; the same frame under static makes no change, nor
does the STATICCALL child. -/
example :
    let child := Tree.sstore 1 2 .done
    let t := Tree.sstore 7 8 (.call .call 5000 9 3 0 0 0 0 child 0
      (.call .staticCall 5000 9 0 0 0 0 0 child 0 (.tstore 1 1 .done)))
    run (mainnet SpecId.CANCUN) t { isStatic := false, gas := 1000000, self := 5 } =
      [.write (.sstore 5 7 8), .transfer 5 9 3, .write (.sstore 9 1 2), .write (.tstore 5 1 1)] ∧
    run (mainnet SpecId.CANCUN) t { isStatic := true, gas := 1000000, self := 5 } = [] := by
  decide +kernel

end Verif.Builtins
