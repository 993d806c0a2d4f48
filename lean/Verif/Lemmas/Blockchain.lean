import Verif.Spec.Blockchain
import Verif.Lemmas.AMap
/-!
# Lemmas on the blockchain-test runner
-/

namespace Verif.Chain

open Spec

variable {T : Type}

theorem calls_append {evm : Evm T} {env : BEnv} {hs : AMap Nat Nat} : ∀ {cs ds : List (Nat × Option Nat)} {a c : Accts},
    Calls evm env hs (cs ++ ds) a c ↔ ∃ b, Calls evm env hs cs a b ∧ Calls evm env hs ds b c
  | [], ds, a, c => ⟨fun h => ⟨a, .nil a, h⟩, fun ⟨b, h1, h2⟩ => by cases h1; exact h2⟩
  | x :: cs, ds, a, c => by
    constructor
    · intro h
      cases h with
      | cons h1 h2 =>
        obtain ⟨b, h3, h4⟩ := calls_append.1 h2
        exact ⟨b, .cons h1 h3, h4⟩
    · rintro ⟨b, h1, h2⟩
      cases h1 with
      | cons h3 h4 => exact .cons h3 (calls_append.2 ⟨b, h4, h2⟩)

theorem calls_nil {evm : Evm T} {env : BEnv} {hs : AMap Nat Nat} {a c : Accts} : Calls evm env hs [] a c ↔ a = c :=
  ⟨fun h => by cases h; rfl, fun h => h ▸ .nil a⟩

theorem calls_cons {evm : Evm T} {env : BEnv} {hs : AMap Nat Nat} {x : Nat × Option Nat} {cs : List (Nat × Option Nat)}
    {a c : Accts} : Calls evm env hs (x :: cs) a c ↔ ∃ b, evm.sys env hs a x.1 x.2 = some b ∧ Calls evm env hs cs b c :=
  ⟨fun h => by cases h with | cons h1 h2 => exact ⟨_, h1, h2⟩, fun ⟨_, h1, h2⟩ => .cons h1 h2⟩

theorem preBlock_iff (evm : Evm T) (spec : SpecId) (env : BEnv) (hs : AMap Nat Nat) (parent beacon : Option Nat)
    (a c : Accts) : preBlock evm spec env hs parent beacon a = some c ↔
      Calls evm env hs (callsBefore spec env.number parent beacon) a c := by
  unfold preBlock callsBefore
  by_cases h0 : env.number = 0
  · rw [if_pos h0, if_pos h0, calls_nil, Option.some.injEq]
  · rw [if_neg h0, if_neg h0, calls_append]
    cases parent <;> cases beacon <;> by_cases h1 : SpecId.PRAGUE ≤ spec <;> by_cases h2 : SpecId.CANCUN ≤ spec <;>
      simp [h1, h2, calls_nil, calls_cons, Option.bind_eq_some_iff]

theorem reward_ether (spec : SpecId) : blockReward spec 0 = rewardEther spec * ether := by
  unfold blockReward rewardEther
  rw [show oneEther = ether by decide]
  generalize ether = e
  revert spec
  show ∀ spec : Nat, (if 9 ≤ spec then 0 else
    (if 5 ≤ spec then e * 2 else if 4 ≤ spec then e * 3 else e * 5) +
      ((if 5 ≤ spec then e * 2 else if 4 ≤ spec then e * 3 else e * 5) >>> 5) * 0) =
    (if spec < 4 then 5 else if spec < 5 then 3 else if spec < 9 then 2 else 0) * e
  intro spec
  rw [Nat.mul_zero, Nat.add_zero]
  by_cases h9 : 9 ≤ spec
  · rw [if_pos h9, if_neg (by omega), if_neg (by omega), if_neg (by omega), Nat.zero_mul]
  · rw [if_neg h9]
    by_cases h5 : 5 ≤ spec
    · rw [if_pos h5, if_neg (by omega), if_neg (by omega), if_pos (by omega), Nat.mul_comm]
    · by_cases h4 : 4 ≤ spec
      · rw [if_neg h5, if_pos h4, if_neg (by omega), if_pos (by omega), Nat.mul_comm]
      · rw [if_neg h5, if_neg h4, if_pos (by omega), Nat.mul_comm]

theorem reward_merge : ∀ spec : Nat, 9 ≤ spec → rewardEther spec = 0 := by
  intro spec h
  show (if spec < 4 then 5 else if spec < 5 then 3 else if spec < 9 then 2 else 0) = 0
  rw [if_neg (by omega), if_neg (by omega), if_neg (by omega)]

theorem postBlock_iff (evm : Evm T) (spec : SpecId) (env : BEnv) (hs : AMap Nat Nat) (ws : List (Nat × Nat))
    (a c : Accts) : postBlock evm spec env hs ws a = some c ↔
      Calls evm env hs (callsAfter spec)
        ((payments spec env.beneficiary ws).foldl (fun a w => balanceIncr a w.1 w.2) a) c := by
  have hpay : (payments spec env.beneficiary ws).foldl (fun a w => balanceIncr a w.1 w.2) a =
      (if SpecId.SHANGHAI ≤ spec then
        ws.foldl (fun a w => balanceIncr a w.1 (min (w.2 * oneGwei) maxWord))
          (if blockReward spec 0 ≠ 0 then balanceIncr a env.beneficiary (blockReward spec 0) else a)
        else (if blockReward spec 0 ≠ 0 then balanceIncr a env.beneficiary (blockReward spec 0) else a)) := by
    rw [reward_ether, payments, List.foldl_append, show oneGwei = gwei by decide]
    have hpos : ether ≠ 0 := by decide
    have h1 : (if rewardEther spec = 0 then [] else [(env.beneficiary, rewardEther spec * ether)]).foldl
        (fun a (w : Nat × Nat) => balanceIncr a w.1 w.2) a =
        if rewardEther spec * ether ≠ 0 then balanceIncr a env.beneficiary (rewardEther spec * ether) else a := by
      by_cases h : rewardEther spec = 0
      · simp [h]
      · rw [if_neg h, if_pos (Nat.mul_ne_zero h hpos)]; rfl
    rewrite [h1]
    generalize (if rewardEther spec * ether ≠ 0 then balanceIncr a env.beneficiary (rewardEther spec * ether) else a) = x
    generalize SpecId.SHANGHAI = k
    by_cases h : k ≤ spec
    · rw [if_pos h, if_pos h, List.foldl_map]
    · rw [if_neg h, if_neg h, List.foldl_nil]
  rw [hpay]
  unfold postBlock callsAfter
  by_cases h : SpecId.PRAGUE ≤ spec
  · simp only [if_pos h, calls_cons, calls_nil, Option.bind_eq_some_iff]
    simp
  · simp only [if_neg h, calls_nil, Option.bind_some, Option.some.injEq]

/-- The sums the loop has reached. -/
def Gas.plus (g : Gas) (gs : List Gas) : Gas :=
  ⟨g.tx + (gs.map (·.tx)).sum, g.regular + (gs.map (·.regular)).sum, g.state + (gs.map (·.state)).sum⟩

theorem runTxs_done {evm : Evm T} {env : BEnv} {hs : AMap Nat Nat} : ∀ {ts : List (TTx T)} {a : Accts} {gs : List Gas}
    {a' : Accts}, Txs evm env hs ts a gs a' → ∀ g, runTxs evm env hs false ts a g = (true, a', g.plus gs)
  | [], a, gs, a', h, g => by cases h; rfl
  | t :: ts, a, gs, a', h, g => by
    cases h with
    | cons h1 h2 h3 h4 =>
      rw [runTxs, if_neg (by rw [h1]; decide), h2]
      dsimp only
      rw [h3]
      dsimp only
      rw [if_neg (by decide), runTxs_done h4]
      simp [Gas.plus, Nat.add_assoc]

theorem runTxs_total {evm : Evm T} {env : BEnv} {hs : AMap Nat Nat} (he : ∀ env hs a x, (evm.tx env hs a x).isSome = true) :
    ∀ (ts : List (TTx T)) (a : Accts), (∀ t ∈ ts, t.sender = true ∧ t.env.isSome = true) →
      ∃ gs a', Txs evm env hs ts a gs a'
  | [], a, _ => ⟨[], a, .nil a⟩
  | t :: ts, a, ht => by
    obtain ⟨x, hx⟩ := Option.isSome_iff_exists.1 (ht t (by simp)).2
    obtain ⟨⟨g, a1⟩, h1⟩ := Option.isSome_iff_exists.1 (he env hs a x)
    obtain ⟨gs, a2, h2⟩ := runTxs_total he ts a1 (fun t h => ht t (List.mem_cons_of_mem _ h))
    exact ⟨g :: gs, a2, .cons (ht t (by simp)).1 hx h1 h2⟩

theorem block_gas (spec : SpecId) (gs : List Gas) : (Gas.plus {} gs).block spec = gasOf spec gs := by
  simp [Gas.block, Gas.plus, gasOf]

/-- A block whose transactions all succeed. -/
theorem runBlock_iff {evm : Evm T} {spec : SpecId} {s : St} {b : TBlock T} {h : BHeader} (hh : b.header = some h)
    (hf : b.shouldFail = false) (hd : ∀ a env hs, preBlock evm spec env s.hashes s.parent h.beacon s.accts = some a →
      ∃ gs a', Txs evm env hs b.txs a gs a') (s' : St) :
    runBlock evm spec s b = .ok s' ↔ ∃ a', BlockOk evm spec s b h a' ∧
      s' = ⟨a', s.hashes.insert h.number h.hash, some h.hash, h.excess.getD 0, ⟨h.number, h.beneficiary, s.excess⟩⟩ := by
  unfold runBlock BlockOk
  simp only [hh, hf, Option.bind_some, Option.map_some, Option.getD_some, Bool.not_false, Bool.and_true]
  have hpre := preBlock_iff evm spec ⟨h.number, h.beneficiary, s.excess⟩ s.hashes s.parent h.beacon s.accts
  have hdone := fun a => hd a ⟨h.number, h.beneficiary, s.excess⟩ s.hashes
  revert hpre hdone
  generalize preBlock evm spec ⟨h.number, h.beneficiary, s.excess⟩ s.hashes s.parent h.beacon s.accts = r
  intro hpre hdone
  cases r with
  | none =>
    constructor
    · intro h; cases h
    · rintro ⟨a', ⟨a1, a2, gs, h1, _⟩, _⟩
      exact absurd ((hpre a1).2 h1) (by simp)
  | some a =>
    obtain ⟨gs, a2, ht⟩ := hdone a rfl
    have hrun := runTxs_done ht {}
    dsimp only
    rw [hrun]
    dsimp only
    rw [block_gas, Bool.true_and]
    have uniq : ∀ gs' a2', Txs evm ⟨h.number, h.beneficiary, s.excess⟩ s.hashes b.txs a gs' a2' →
        a2' = a2 ∧ gasOf spec gs' = gasOf spec gs := by
      intro gs' a2' h'
      have := runTxs_done h' {}
      rw [hrun] at this
      simp only [Prod.mk.injEq, true_and] at this
      exact ⟨this.1.symm, by rw [← block_gas, ← block_gas, this.2]⟩
    by_cases hg : gasOf spec gs = h.gasUsed
    · rw [if_neg (by simp [hg])]
      have hpost := postBlock_iff evm spec ⟨h.number, h.beneficiary, s.excess⟩ s.hashes b.withdrawals a2
      revert hpost
      generalize postBlock evm spec ⟨h.number, h.beneficiary, s.excess⟩ s.hashes b.withdrawals a2 = q
      intro hpost
      cases q with
      | none =>
        constructor
        · intro h; cases h
        · rintro ⟨a', ⟨a1, a3, gs', h1, h2, h3, h4⟩, _⟩
          have e1 : a = a1 := Option.some.inj ((hpre a1).2 h1)
          subst e1
          obtain ⟨e2, _⟩ := uniq _ _ h2
          subst e2
          exact absurd ((hpost a').2 h4) (by simp)
      | some a' =>
        constructor
        · intro h
          cases h
          exact ⟨a', ⟨a, a2, gs, (hpre a).1 rfl, ht, hg, (hpost a').1 rfl⟩, rfl⟩
        · rintro ⟨a'', ⟨a1, a3, gs', h1, h2, h3, h4⟩, rfl⟩
          have e1 : a = a1 := Option.some.inj ((hpre a1).2 h1)
          subst e1
          obtain ⟨e2, _⟩ := uniq _ _ h2
          subst e2
          have e3 : a' = a'' := Option.some.inj ((hpost a'').2 h4)
          subst e3
          rfl
    · rw [if_pos (by simp [hg])]
      constructor
      · intro h; cases h
      · rintro ⟨a', ⟨a1, a3, gs', h1, h2, h3, h4⟩, _⟩
        have e1 : a = a1 := Option.some.inj ((hpre a1).2 h1)
        subst e1
        obtain ⟨_, e2⟩ := uniq _ _ h2
        exact absurd (e2 ▸ h3) hg

theorem runBlock_valid {evm : Evm T} {spec : SpecId} {s : St} {b : TBlock T} {h : BHeader} (hh : b.header = some h)
    (hf : b.shouldFail = false) {a' : Accts} (hok : BlockOk evm spec s b h a') :
    runBlock evm spec s b =
      .ok ⟨a', s.hashes.insert h.number h.hash, some h.hash, h.excess.getD 0, ⟨h.number, h.beneficiary, s.excess⟩⟩ := by
  obtain ⟨a1, a2, gs, h1, h2, h3, h4⟩ := hok
  have hpre := (preBlock_iff evm spec ⟨h.number, h.beneficiary, s.excess⟩ s.hashes s.parent h.beacon s.accts a1).2 h1
  have hpost := (postBlock_iff evm spec ⟨h.number, h.beneficiary, s.excess⟩ s.hashes b.withdrawals a2 a').2 h4
  unfold runBlock
  simp only [hh, hf, Option.bind_some, Option.map_some, Option.getD_some, Bool.not_false, Bool.and_true, hpre,
    runTxs_done h2 {}, block_gas, h3, hpost]
  simp

theorem runBlocks_valid {evm : Evm T} {spec : SpecId} : ∀ {bs : List (TBlock T)} {s s' : St},
    ChainOk evm spec s bs s' → (∀ b ∈ bs, b.shouldFail = false) → runBlocks evm spec s bs = .ok s'
  | [], s, s', h, _ => by cases h; rfl
  | b :: bs, s, s', h, hf => by
    cases h with
    | cons h1 h2 h3 =>
      rw [runBlocks, runBlock_valid h1 (hf b (by simp)) h2]
      exact runBlocks_valid h3 (fun b hb => hf b (List.mem_cons_of_mem _ hb))

theorem runBlocks_sound {evm : Evm T} {spec : SpecId} (he : ∀ env hs a x, (evm.tx env hs a x).isSome = true) :
    ∀ {bs : List (TBlock T)} {s s' : St}, Plain bs → (∀ b ∈ bs, ∀ t ∈ b.txs, t.sender = true ∧ t.env.isSome = true) →
      runBlocks evm spec s bs = .ok s' → ChainOk evm spec s bs s'
  | [], s, s', _, _, h => by rw [runBlocks] at h; cases h; exact .nil s
  | b :: bs, s, s', hp, ht, h => by
    obtain ⟨hd, hh⟩ := Option.isSome_iff_exists.1 (hp b (by simp)).1
    rw [runBlocks] at h
    cases hb : runBlock evm spec s b with
    | error e => rw [hb] at h; cases h
    | ok s1 =>
      rw [hb] at h
      obtain ⟨a', h1, rfl⟩ := (runBlock_iff hh (hp b (by simp)).2 (fun a env hs _ => runTxs_total he b.txs a (ht b (by simp))) s1).1 hb
      exact .cons hh h1 (runBlocks_sound he (fun b hb => hp b (List.mem_cons_of_mem _ hb))
        (fun b hb => ht b (List.mem_cons_of_mem _ hb)) h)

theorem validateAccount_iff (e : Expected) (a : Option Acct) (ha : ∀ x, a = some x → x.storage.keys.Nodup)
    (hn : e.storage.keys.Nodup) : validateAccount e a = .ok () ↔ Agrees e a := by
  have hslot : ∀ k, slotOf a k = a.elim 0 (fun a => value a.storage k) := by
    intro k
    cases a <;> rfl
  have h1 : ((a.getD {}).balance = a.elim 0 (·.balance)) ∧ ((a.getD {}).nonce = a.elim 0 (·.nonce)) ∧
      ((a.getD {}).code = a.bind (·.code)) := by cases a <;> exact ⟨rfl, rfl, rfl⟩
  have hnd : (a.getD {}).storage.keys.Nodup := by
    cases a with
    | none => exact List.nodup_nil
    | some x => exact ha x rfl
  have hst : (((a.getD {}).storage.any fun p => (e.storage.get p.1).isNone && decide (p.2 ≠ 0)) = false ∧
      (e.storage.any fun p => decide (slotOf a p.1 ≠ p.2)) = false) ↔
      ∀ k, a.elim 0 (fun a => value a.storage k) = value e.storage k := by
    simp only [List.any_eq_false, Bool.and_eq_true, decide_eq_true_eq, ← hslot]
    constructor
    · rintro ⟨u, v⟩ k
      unfold value
      cases hk : e.storage.get k with
      | some w =>
        have := v (k, w) (AMap.mem_of_get hk)
        simpa using this
      | none =>
        unfold slotOf
        cases hg : (a.getD {}).storage.get k with
        | none => rfl
        | some w =>
          have := u (k, w) (AMap.mem_of_get hg)
          simp only [hk, Option.isNone_none, true_and] at this
          simpa using this
    · intro u
      constructor
      · rintro ⟨k, w⟩ hm ⟨hk, hw⟩
        have := u k
        unfold slotOf value at this
        rw [AMap.get_of_mem hnd hm] at this
        rw [Option.isNone_iff_eq_none.1 hk] at this
        exact hw this
      · rintro ⟨k, w⟩ hm hw
        apply hw
        rw [u k]
        unfold value
        rw [AMap.get_of_mem hn hm]
        rfl
  unfold validateAccount
  dsimp only
  constructor
  · intro h
    split at h
    · cases h
    · split at h
      · cases h
      · split at h
        · cases h
        · split at h
          · cases h
          · split at h
            · cases h
            · rename_i c1 c2 c3 c4 c5
              refine ⟨h1.1 ▸ Classical.not_not.1 c1, h1.2.1 ▸ Classical.not_not.1 c2, fun hc => ?_, hst.1 ⟨by simpa using c4, by simpa using c5⟩⟩
              rw [← h1.2.2]
              exact Classical.not_not.1 fun h => c3 ⟨hc, h⟩
  · intro h
    have := hst.2 h.storage
    rw [if_neg (by rw [h1.1, h.balance]; simp), if_neg (by rw [h1.2.1, h.nonce]; simp),
      if_neg (by rw [h1.2.2]; exact fun hc => hc.2 (h.code hc.1)), this.1, this.2]
    rfl

theorem validatePost_iff (a : Accts) : ∀ (p : List (Nat × Expected)), Tidy a p →
    (validatePost a p = .ok () ↔ PostOk a p)
  | [], _ => by simp [validatePost, PostOk]
  | (k, e) :: r, ht => by
    have h1 := validateAccount_iff e (a.get k) (fun x hx => ht.1 k x hx) (ht.2 (k, e) (by simp))
    have h2 := validatePost_iff a r ⟨ht.1, fun e he => ht.2 e (List.mem_cons_of_mem _ he)⟩
    unfold PostOk at *
    rw [validatePost]
    cases hv : validateAccount e (a.get k) with
    | error x =>
      rw [hv] at h1
      constructor
      · intro h; cases h
      · intro h
        cases h1.2 (h (k, e) (by simp))
    | ok u =>
      cases u
      rw [hv] at h1
      dsimp only
      rw [h2]
      simp [h1.1 rfl]

/-- Without duplicate keys nothing is needed to see the listed values. -/
theorem validatePost_sound (a : Accts) (p : List (Nat × Expected)) (h : validatePost a p = .ok ()) :
    ∀ x ∈ p, validateAccount x.2 (a.get x.1) = .ok () := by
  induction p with
  | nil => simp
  | cons y r ih =>
    obtain ⟨k, e⟩ := y
    rw [validatePost] at h
    cases hv : validateAccount e (a.get k) with
    | error x => rw [hv] at h; cases h
    | ok u =>
      rw [hv] at h
      intro x hx
      rcases List.mem_cons.1 hx with rfl | hx
      · exact hv
      · exact ih h x hx

theorem runFile_iff (evm : Evm T) : ∀ (l : List (TCase T)) (n k : Nat),
    runFile evm l n = some k ↔ (∀ c ∈ l, runCase evm c = .ok ()) ∧ k = n + l.length
  | [], n, k => by simp [runFile, eq_comm]
  | c :: cs, n, k => by
    rw [runFile]
    cases h : runCase evm c with
    | error e => simp [h]
    | ok u =>
      cases u
      simp only [runFile_iff evm cs, List.mem_cons, forall_eq_or_imp, h, true_and, List.length_cons]
      rw [show n + 1 + cs.length = n + (cs.length + 1) by omega]

end Verif.Chain
