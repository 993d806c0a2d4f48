import Verif.Spec.Calls
/-!
# Lemmas: call gas and static calls
-/

namespace Verif.Builtins

theorem callRange_ok {env : Env} {off len : Word} {u : Unit} {s s' : Ecx}
    (h : callRange env off len s = .ok u s') :
    env.memCost (Spec.touched s.words off len) - env.memCost s.words ≤ s.gas ∧
    s' = { s with gas := s.gas - (env.memCost (Spec.touched s.words off len) - env.memCost s.words),
                  words := Spec.touched s.words off len } := by
  unfold callRange at h
  obtain ⟨l, s1, h1, h2⟩ := bind_ok.1 h
  obtain ⟨hl, rfl, rfl⟩ := tryUsize_ok.1 h1
  unfold Spec.touched
  by_cases h0 : len.toNat = 0
  · have : len = 0 := BitVec.eq_of_toNat_eq h0
    rw [cond_neg (by simpa using h0)] at h2
    obtain ⟨_, rfl⟩ := pure_ok.1 h2
    simp [this]
  · have : len ≠ 0 := fun hc => h0 (by rw [hc]; rfl)
    rw [cond_pos h0] at h2
    obtain ⟨o, s2, h3, h4⟩ := bind_ok.1 h2
    obtain ⟨ho, rfl, rfl⟩ := tryUsize_ok.1 h3
    rw [if_neg this]
    exact ensureMemory_ok.1 h4

theorem touched_le (w : Nat) (off len : Word) : w ≤ Spec.touched w off len := by
  unfold Spec.touched; split <;> omega

theorem callTail_ok {env : Env} {kind : CallKind} {req to v : Nat} {s s' : Ecx} {u : Unit}
    (hdiv : env.stipendDiv = 64) (h : callTail env kind req to v s = .ok u s') :
    ∃ dyn st child, env.loadDelegated to (v ≠ 0) (kind = .call) = .ok (dyn, st) ∧
      s'.nextAction = some child ∧
      let charge := (if v ≠ 0 then env.transferValueCost else 0) + dyn + (st - s.reservoir)
      let forwarded := if SpecId.TANGERINE ≤ env.spec
        then min ((s.gas - charge) - (s.gas - charge) / 64) req else req
      charge ≤ s.gas ∧ s'.gas + forwarded = s.gas - charge ∧
      child.gasLimit = (if (kind = .call ∨ kind = .callCode) ∧ v ≠ 0
        then satAdd forwarded env.callStipend else forwarded) := by
  unfold callTail at h
  obtain ⟨_, s1, h1, h2⟩ := bind_ok.1 h
  obtain ⟨g1, rfl⟩ := cond_charge_ok.1 h1
  cases hl : env.loadDelegated to (decide (v ≠ 0)) (decide (kind = .call)) with
  | error e => rw [hl] at h2; exact (throw_ok.1 h2).elim
  | ok p =>
    obtain ⟨dyn, st⟩ := p
    rw [hl] at h2
    dsimp only at h2
    obtain ⟨_, s2, h3, h4⟩ := bind_ok.1 h2
    obtain ⟨g2, rfl⟩ := chargeGas_ok.1 h3
    obtain ⟨_, s3, h5, h6⟩ := bind_ok.1 h4
    obtain ⟨g3, rfl⟩ := chargeState_ok.1 h5
    obtain ⟨_, s4, h7, h8⟩ := bind_ok.1 h6
    obtain ⟨rfl, rfl⟩ := get_ok.1 h7
    obtain ⟨_, s5, h9, h10⟩ := bind_ok.1 h8
    obtain ⟨g4, rfl⟩ := chargeGas_ok.1 h9
    obtain rfl := setAction_ok.1 h10
    dsimp only at g1 g2 g3 g4 ⊢
    refine ⟨dyn, st, _, rfl, rfl, ?_⟩
    dsimp only
    simp only [enabled, stipendReduction, hdiv, decide_eq_true_eq] at g4 ⊢
    have e : s.gas - (if v ≠ 0 then env.transferValueCost else 0) - dyn - (st - s.reservoir) =
      s.gas - ((if v ≠ 0 then env.transferValueCost else 0) + dyn + (st - s.reservoir)) := by omega
    rw [e] at g4 ⊢
    refine ⟨by omega, ?_, rfl⟩
    omega

theorem callTail_error {env : Env} {kind : CallKind} {req to v : Nat} {s s' : Ecx} {e : Err}
    (h : callTail env kind req to v s = .error e s') :
    s'.isStatic = s.isStatic ∧ s'.self = s.self ∧ s'.caller = s.caller ∧ s'.host = s.host ∧
      s'.nextAction = s.nextAction := by
  unfold callTail at h
  rcases bind_error.1 h with h1 | ⟨_, s1, h1, h2⟩
  · exact (Keeps.cond (Keeps.chargeGas _)) _ _ (Or.inr ⟨_, h1⟩)
  have k1 := (Keeps.cond (Keeps.chargeGas _)) _ _ (Or.inl ⟨_, h1⟩)
  cases hl : env.loadDelegated to (decide (v ≠ 0)) (decide (kind = .call)) with
  | error e => rw [hl] at h2; have := throw_error.1 h2; rw [← this.2]; exact k1
  | ok p =>
    rw [hl] at h2
    dsimp only at h2
    rcases bind_error.1 h2 with h3 | ⟨_, s2, h3, h4⟩
    · have := Keeps.chargeGas _ _ _ (Or.inr ⟨_, h3⟩); simp_all
    have k2 := Keeps.chargeGas _ _ _ (Or.inl ⟨_, h3⟩)
    rcases bind_error.1 h4 with h5 | ⟨_, s3, h5, h6⟩
    · have := Keeps.chargeState _ _ _ (Or.inr ⟨_, h5⟩); simp_all
    have k3 := Keeps.chargeState _ _ _ (Or.inl ⟨_, h5⟩)
    rcases bind_error.1 h6 with h7 | ⟨_, s4, h7, h8⟩
    · exact (get_error.1 h7).elim
    have k4 := Keeps.get _ _ (Or.inl ⟨_, h7⟩)
    rcases bind_error.1 h8 with h9 | ⟨_, s5, h9, h10⟩
    · have := Keeps.chargeGas _ _ _ (Or.inr ⟨_, h9⟩); simp_all
    · cases h10

theorem call_error {env : Env} {kind : CallKind} {req : Word} {to : Nat}
    {value inOff inLen outOff outLen : Word} {s s' : Ecx} {e : Err}
    (h : call env kind req to value inOff inLen outOff outLen s = .error e s') :
    s'.isStatic = s.isStatic ∧ s'.self = s.self ∧ s'.caller = s.caller ∧ s'.host = s.host ∧
      s'.nextAction = s.nextAction := by
  unfold call at h
  rcases bind_error.1 h with h1 | ⟨s0, s1, h1, h2⟩
  · exact (get_error.1 h1).elim
  obtain ⟨rfl, rfl⟩ := get_ok.1 h1
  have rest : ∀ s1, (do
      callRange env inOff inLen
      callRange env outOff outLen
      callTail env kind (satUsize req) to
        (if kind = .call ∨ kind = .callCode then value.toNat else 0) : M Unit) s1 = .error e s' →
      s'.isStatic = s1.isStatic ∧ s'.self = s1.self ∧ s'.caller = s1.caller ∧ s'.host = s1.host ∧
        s'.nextAction = s1.nextAction := by
    intro s1 h
    rcases bind_error.1 h with h1 | ⟨_, s2, h1, h2⟩
    · exact Keeps.callRange _ _ _ _ _ (Or.inr ⟨_, h1⟩)
    have k1 := Keeps.callRange _ _ _ _ _ (Or.inl ⟨_, h1⟩)
    rcases bind_error.1 h2 with h3 | ⟨_, s3, h3, h4⟩
    · have := Keeps.callRange _ _ _ _ _ (Or.inr ⟨_, h3⟩); simp_all
    have k2 := Keeps.callRange _ _ _ _ _ (Or.inl ⟨_, h3⟩)
    have := callTail_error h4
    simp_all
  rcases bind_error.1 h2 with h3 | ⟨_, s1, h3, h4⟩
  · exact (Keeps.cond (Keeps.throw _)) _ _ (Or.inr ⟨_, h3⟩)
  · obtain ⟨_, rfl⟩ := cond_throw_ok.1 h3
    exact rest _ h4

theorem createCode_ok {env : Env} {codeOff len : Word} {u : Unit} {s s' : Ecx}
    (h : cond (len.toNat ≠ 0) (do
      cond (enabled env SpecId.SHANGHAI) do
        cond (env.maxInitcode < len.toNat) (throw .CreateInitCodeSizeLimit)
        chargeGas (env.initcodeCost len.toNat)
      let off ← tryUsize codeOff
      ensureMemory env off len.toNat) s = .ok u s') :
    (if len ≠ 0 ∧ SpecId.SHANGHAI ≤ env.spec then env.initcodeCost len.toNat else 0) +
      (env.memCost (Spec.touched s.words codeOff len) - env.memCost s.words) ≤ s.gas ∧
    s' = { s with
      gas := s.gas - ((if len ≠ 0 ∧ SpecId.SHANGHAI ≤ env.spec then env.initcodeCost len.toNat else 0) +
        (env.memCost (Spec.touched s.words codeOff len) - env.memCost s.words))
      words := Spec.touched s.words codeOff len } := by
  unfold Spec.touched
  by_cases h0 : len.toNat = 0
  · have hl : len = 0 := BitVec.eq_of_toNat_eq h0
    rw [cond_neg (by simpa using h0)] at h
    obtain ⟨_, rfl⟩ := pure_ok.1 h
    simp [hl]
  · have hl : len ≠ 0 := fun hc => h0 (by rw [hc]; rfl)
    rw [cond_pos h0] at h
    obtain ⟨_, s1, h1, g1⟩ := bind_ok.1 h
    obtain ⟨o, s2, h2, g2⟩ := bind_ok.1 g1
    obtain ⟨_, rfl, rfl⟩ := tryUsize_ok.1 h2
    obtain ⟨m1, rfl⟩ := ensureMemory_ok.1 g2
    rw [if_neg hl]
    have key : s1 = { s with gas := s.gas - (if SpecId.SHANGHAI ≤ env.spec then env.initcodeCost len.toNat else 0) }
        ∧ (if SpecId.SHANGHAI ≤ env.spec then env.initcodeCost len.toNat else 0) ≤ s.gas := by
      by_cases hs : SpecId.SHANGHAI ≤ env.spec
      · rw [cond_pos (by simpa [enabled] using hs)] at h1
        obtain ⟨_, s3, h3, h4⟩ := bind_ok.1 h1
        obtain ⟨_, rfl⟩ := cond_throw_ok.1 h3
        obtain ⟨c, rfl⟩ := chargeGas_ok.1 h4
        simp [hs, c]
      · rw [cond_neg (by simpa [enabled] using hs)] at h1
        obtain ⟨_, rfl⟩ := pure_ok.1 h1
        simp [hs]
    obtain ⟨rfl, hk⟩ := key
    simp only [hl, ne_eq, not_false_eq_true, true_and] at m1 ⊢
    generalize (if SpecId.SHANGHAI ≤ env.spec then env.initcodeCost len.toNat else 0) = a at *
    have hg : grown { s with gas := s.gas - a } codeOff.toNat len.toNat =
      max s.words ((min (codeOff.toNat + len.toNat) (2 ^ 64 - 1) + 31) / 32) := rfl
    rw [hg] at m1 ⊢
    refine ⟨by omega, ?_⟩
    congr 1
    omega

theorem callTail_child {env : Env} {kind : CallKind} {req to v : Nat} {s s' : Ecx} {u : Unit}
    (h : callTail env kind req to v s = .ok u s') :
    s'.isStatic = s.isStatic ∧ s'.self = s.self ∧ s'.caller = s.caller ∧ s'.host = s.host ∧
    ∃ c, s'.nextAction = some c ∧
      c.isStatic = (s.isStatic || decide (kind = .staticCall)) ∧ c.isCreate = false ∧
      c.target = (if kind = .delegateCall ∨ kind = .callCode then s.self else to) ∧
      c.caller = (if kind = .delegateCall then s.caller else s.self) ∧
      c.transfer = (if kind = .delegateCall then 0 else v) := by
  unfold callTail at h
  obtain ⟨_, s1, h1, h2⟩ := bind_ok.1 h
  obtain ⟨g1, rfl⟩ := cond_charge_ok.1 h1
  cases hl : env.loadDelegated to (decide (v ≠ 0)) (decide (kind = .call)) with
  | error e => rw [hl] at h2; exact (throw_ok.1 h2).elim
  | ok p =>
    rw [hl] at h2
    dsimp only at h2
    obtain ⟨_, s2, h3, h4⟩ := bind_ok.1 h2
    obtain ⟨g2, rfl⟩ := chargeGas_ok.1 h3
    obtain ⟨_, s3, h5, h6⟩ := bind_ok.1 h4
    obtain ⟨g3, rfl⟩ := chargeState_ok.1 h5
    obtain ⟨_, s4, h7, h8⟩ := bind_ok.1 h6
    obtain ⟨rfl, rfl⟩ := get_ok.1 h7
    obtain ⟨_, s5, h9, h10⟩ := bind_ok.1 h8
    obtain ⟨g4, rfl⟩ := chargeGas_ok.1 h9
    obtain rfl := setAction_ok.1 h10
    exact ⟨rfl, rfl, rfl, rfl, _, rfl, rfl, rfl, rfl, rfl, rfl⟩

end Verif.Builtins
