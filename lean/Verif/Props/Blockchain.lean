import Verif.Lemmas.Blockchain
/-!
# C69: the verdict of the blockchain-test runner
-/

namespace Verif.Chain

open Spec

variable {T : Type}

/-! ## The final state -/

/-- **C69.** The comparison of the final state passes exactly if every listed account has the expected balance, nonce
and storage, slot by slot, and the expected code unless none is given. -/
theorem C69_post (a : Accts) (p : List (Nat × Expected)) (ht : Tidy a p) : validatePost a p = .ok () ↔ PostOk a p :=
  validatePost_iff a p ht

/-- Slot 2 is zero and may be left out by either side. -/
example : validatePost [(7, ⟨10, 1, some [0x60], [(1, 5), (2, 0)]⟩)] [(7, ⟨10, 1, [0x60], [(1, 5)]⟩), (8, ⟨0, 0, [], [(3, 0)]⟩)] =
    .ok () := rfl

/-- A slot nobody expects. -/
example : validatePost [(7, ⟨10, 1, some [0x60], [(1, 5), (2, 9)]⟩)] [(7, ⟨10, 1, [0x60], [(1, 5)]⟩)] =
    .error .unexpectedSlot := rfl

example : Tidy [(7, ⟨10, 1, some [0x60], [(1, 5), (2, 9)]⟩)] [(7, ⟨10, 1, [0x60], [(1, 5)]⟩)] := by
  refine ⟨fun k x h => ?_, fun e he => ?_⟩
  · simp only [AMap.get] at h
    split at h
    · cases h; decide
    · cases h
  · simp only [List.mem_singleton] at he
    subst he
    decide

/-! ## Valid chains -/

/-- A chain and a test demand the same. -/
def C69_verdict : Prop := ∀ (evm : Evm Nat) (c : TCase Nat), c.network.skipped = false → Plain c.blocks →
  runCase evm c = .ok () → CaseOk evm c

/-- **C69.** A test of valid blocks passes if there is such a chain: every transaction succeeds, the gas of each block
is that of its header, rewards, withdrawals and system calls are as the fork has them, and the final state is as
expected. -/
theorem C69_passes (evm : Evm T) (c : TCase T) (hp : Plain c.blocks) (hok : CaseOk evm c)
    (ht : ∀ s p, ChainOk evm c.network.spec (genesis c) c.blocks s → c.post = some p → Tidy s.accts p) :
    runCase evm c = .ok () := by
  obtain ⟨s, h1, h2⟩ := hok
  unfold runCase
  split
  · rfl
  · rw [show c.start = genesis c from rfl, runBlocks_valid h1 (fun b hb => (hp b hb).2)]
    cases hc : c.post with
    | none => rfl
    | some p => exact (validatePost_iff s.accts p (ht s p h1 hc)).2 (h2 p hc)

/-- **C69.** Conversely, if no transaction is refused by the EVM, a passed test has such a chain. Missing for the full
claim (`C69_verdict`): refused transactions are only printed, see `C69_verdict_fails`. -/
theorem C69_verdict_partial (evm : Evm T) (c : TCase T) (hskip : c.network.skipped = false) (hp : Plain c.blocks)
    (hn : NeverRefuses evm c.blocks)
    (ht : ∀ s p, ChainOk evm c.network.spec (genesis c) c.blocks s → c.post = some p → Tidy s.accts p)
    (h : runCase evm c = .ok ()) : CaseOk evm c := by
  unfold runCase at h
  rw [hskip] at h
  simp only [Bool.false_eq_true, if_false] at h
  cases hb : runBlocks evm c.network.spec c.start c.blocks with
  | error e => rw [hb] at h; cases h
  | ok s =>
    rw [hb] at h
    have h1 := runBlocks_sound hn.evm hp hn.txs hb
    refine ⟨s, h1, fun p hc => ?_⟩
    dsimp only at h
    rw [hc] at h
    exact (validatePost_iff s.accts p (ht s p h1 hc)).1 h

/-- An EVM for the examples: a transaction `n` adds `n` to the balance of account `n` and costs 21000; transaction 0 is
refused. -/
def demoEvm : Evm Nat where
  tx := fun _ _ a n => if n = 0 then none else some (⟨21000, 21000, 0⟩, balanceIncr a n n)
  sys := fun _ _ a _ _ => some a

/-- One Paris block with two transactions. -/
def demoCase : TCase Nat where
  network := .paris
  pre := []
  genesisHash := 100
  genesisExcess := 0
  genesisEnv := ⟨0, 0, 0⟩
  blocks := [⟨false, [⟨true, some 5⟩, ⟨true, some 5⟩], some ⟨101, none, 1, 9, 42000, none⟩, []⟩]
  post := some [(5, ⟨10, 0, [], []⟩)]

theorem demo_chain : ChainOk demoEvm demoCase.network.spec (genesis demoCase) demoCase.blocks
    ⟨[(5, { balance := 10 })], [(1, 101), (0, 100)], some 101, 0, ⟨1, 9, 0⟩⟩ :=
  .cons (a' := [(5, { balance := 10 })]) rfl
    ⟨[], [(5, { balance := 10 })], [⟨21000, 21000, 0⟩, ⟨21000, 21000, 0⟩], .nil _,
      .cons rfl rfl rfl (.cons rfl rfl rfl (.nil _)), rfl, .nil _⟩ (.nil _)

example : runCase demoEvm demoCase = .ok () := rfl

example : CaseOk demoEvm demoCase := by
  refine ⟨_, demo_chain, fun p hp => ?_⟩
  cases hp
  refine (validatePost_iff _ _ ⟨fun k x h => ?_, fun e he => ?_⟩).1 rfl
  · simp only [AMap.get] at h
    split at h
    · cases h; exact List.nodup_nil
    · cases h
  · simp only [List.mem_singleton] at he
    subst he
    exact List.nodup_nil

/-- An EVM that never refuses. -/
example : NeverRefuses { demoEvm with tx := fun _ _ a n => some (⟨21000, 21000, 0⟩, balanceIncr a n n) } demoCase.blocks :=
  ⟨by decide, fun _ _ _ _ => rfl⟩

/-- With one transaction less the gas is wrong. -/
example : runCase demoEvm { demoCase with blocks := [⟨false, [⟨true, some 10⟩], some ⟨101, none, 1, 9, 42000, none⟩, []⟩] } =
    .error .gasUsed := rfl

/-- **C69** does not hold as it stands: a valid block whose transaction the EVM refuses is passed over, and without
its effects the test still passes. -/
theorem C69_verdict_fails : ¬ C69_verdict := by
  intro h
  have := h demoEvm { demoCase with blocks := [⟨false, [⟨true, some 0⟩], some ⟨101, none, 1, 9, 42000, none⟩, []⟩], post := none }
    rfl (by intro b hb; simp only [List.mem_singleton] at hb; subst hb; exact ⟨rfl, rfl⟩) rfl
  obtain ⟨s, h1, _⟩ := this
  cases h1 with
  | cons e1 e2 _ =>
    obtain ⟨a1, a2, gs, _, h2, _⟩ := e2
    cases h2 with
    | cons _ e3 e4 _ =>
      cases e3
      cases e4

/-! ## Blocks that must be rejected -/

/-- A block that must be rejected, and none of whose transactions is accepted, is as if it were not there. -/
def C69_rejected : Prop := ∀ (evm : Evm Nat) (spec : SpecId) (s s' : St) (b : TBlock Nat), b.shouldFail = true →
  (∀ env hs a x, evm.tx env hs a x = none) → runBlock evm spec s b = .ok s' → s'.accts = s.accts

theorem runTxs_refused {evm : Evm T} {env : BEnv} {hs : AMap Nat Nat} :
    ∀ (ts : List (TTx T)) (a : Accts) (g : Gas), (runTxs evm env hs true ts a g).2 = (a, g)
  | [], _, _ => rfl
  | t :: ts, a, g => by
    rw [runTxs]
    split
    · rfl
    · split
      · exact runTxs_refused ts a g
      · split
        · rfl
        · exact runTxs_refused ts a g

/-- **C69.** Whatever the EVM does, the transactions of a block that must be rejected never change the accounts; after
the merge and before Cancun, and without withdrawals, the block does not change them at all. Missing for the full claim
(`C69_rejected`): reward, withdrawals and system calls are made for rejected blocks as well. -/
theorem C69_rejected_partial (evm : Evm T) (spec : SpecId) (s s' : St) (b : TBlock T) (hf : b.shouldFail = true)
    (h1 : SpecId.MERGE ≤ spec) (h2 : spec < SpecId.CANCUN) (hw : b.withdrawals = [])
    (h : runBlock evm spec s b = .ok s') : s'.accts = s.accts := by
  have hpre : ∀ env p q, preBlock evm spec env s.hashes p q s.accts = some s.accts := by
    intro env p q
    rw [preBlock_iff]
    unfold callsBefore
    have n1 : ¬ SpecId.PRAGUE ≤ spec := fun h => absurd (Nat.lt_of_lt_of_le h2 (Nat.le_trans (by decide) h)) (Nat.lt_irrefl _)
    have n2 : ¬ SpecId.CANCUN ≤ spec := Nat.not_le.2 h2
    rw [if_neg n1, if_neg n2]
    simp only [List.append_nil, ite_self]
    exact .nil _
  have hpost : ∀ env a, postBlock evm spec env s.hashes [] a = some a := by
    intro env a
    rw [postBlock_iff]
    have n1 : ¬ SpecId.PRAGUE ≤ spec := fun h => absurd (Nat.lt_of_lt_of_le h2 (Nat.le_trans (by decide) h)) (Nat.lt_irrefl _)
    unfold callsAfter payments
    rw [if_neg n1, if_pos (reward_merge spec h1)]
    simp only [List.map_nil, ite_self, List.append_nil, List.foldl_nil]
    exact .nil _
  unfold runBlock at h
  dsimp only at h
  rw [hpre] at h
  dsimp only at h
  rw [hf, runTxs_refused, hw, hpost] at h
  cases hh : b.header with
  | none =>
    rw [hh] at h
    simp only [Bool.false_eq_true, if_false] at h
    cases h
    rfl
  | some hd =>
    rw [hh] at h
    simp only [Bool.not_true, Bool.and_false, Bool.false_and, Bool.false_eq_true, if_false] at h
    cases h
    rfl

/-- A rejected Shanghai block with a transaction the EVM would accept. -/
example : (runBlock demoEvm SpecId.SHANGHAI demoCase.start ⟨true, [⟨true, some 5⟩], none, []⟩).toOption.map (·.accts.map (·.1)) =
    some [] := by decide

/-- **C69** does not hold as it stands: in Frontier the beneficiary is paid five ether for a rejected block. -/
theorem C69_rejected_fails : ¬ C69_rejected := by
  intro h
  have := h ⟨fun _ _ _ _ => none, fun _ _ a _ _ => some a⟩ SpecId.FRONTIER demoCase.start _ ⟨true, [⟨true, some 5⟩], none, []⟩
    rfl (fun _ _ _ _ => rfl) rfl
  exact absurd (congrArg List.length this) (by decide)

/-! ## Block hashes -/

/-- After the blocks, the hash recorded under the number of every block with a header is that of its header, if the
numbers are distinct. -/
def C69_hashes : Prop := ∀ (evm : Evm Nat) (spec : SpecId) (s s' : St) (bs : List (TBlock Nat)),
  (bs.filterMap fun b => b.header.map (·.number)).Nodup → runBlocks evm spec s bs = .ok s' →
  ∀ b ∈ bs, ∀ h, b.header = some h → s'.hashes.get h.number = some h.hash

theorem runBlock_hashes {evm : Evm T} {spec : SpecId} {s s' : St} {b : TBlock T} {h : BHeader} (hh : b.header = some h)
    (hr : runBlock evm spec s b = .ok s') : s'.hashes = s.hashes.insert h.number h.hash := by
  unfold runBlock at hr
  simp only [hh, Option.bind_some, Option.map_some, Option.getD_some] at hr
  split at hr
  · cases hr
  · split at hr
    · cases hr
    · split at hr
      · cases hr
      · cases hr
        rfl

/-- **C69.** If every block has a header, the recorded hashes are those of the headers. Missing for the full claim
(`C69_hashes`): a block without header, as rejected blocks are given, overwrites the hash of the block before it. -/
theorem C69_hashes_partial (evm : Evm T) (spec : SpecId) : ∀ (bs : List (TBlock T)) (s s' : St),
    (∀ b ∈ bs, b.header.isSome = true) → (bs.filterMap fun b => b.header.map (·.number)).Nodup →
    runBlocks evm spec s bs = .ok s' →
    (∀ b ∈ bs, ∀ h, b.header = some h → s'.hashes.get h.number = some h.hash) ∧
    ∀ k, (∀ b ∈ bs, ∀ h, b.header = some h → h.number ≠ k) → s'.hashes.get k = s.hashes.get k
  | [], s, s', _, _, h => by
    rw [runBlocks] at h
    cases h
    exact ⟨by simp, fun _ _ => rfl⟩
  | b :: bs, s, s', hh, hn, h => by
    obtain ⟨hd, hb⟩ := Option.isSome_iff_exists.1 (hh b (by simp))
    rw [runBlocks] at h
    cases hr : runBlock evm spec s b with
    | error e => rw [hr] at h; cases h
    | ok s1 =>
      rw [hr] at h
      have e1 := runBlock_hashes hb hr
      simp only [List.filterMap_cons, hb, Option.map_some, List.nodup_cons, List.mem_filterMap, not_exists, not_and] at hn
      obtain ⟨i1, i2⟩ := C69_hashes_partial evm spec bs s1 s' (fun b hb => hh b (List.mem_cons_of_mem _ hb)) hn.2 h
      refine ⟨fun c hc k hk => ?_, fun k hk => ?_⟩
      · rcases List.mem_cons.1 hc with rfl | hc
        · rw [hb] at hk
          cases hk
          rw [i2 hd.number (fun c hc h he e => hn.1 c hc (by rw [he, Option.map_some, e])), e1, AMap.get_insert, if_pos rfl]
        · exact i1 c hc k hk
      · rw [i2 k (fun c hc => hk c (List.mem_cons_of_mem _ hc)), e1, AMap.get_insert,
          if_neg (Ne.symm (hk b (by simp) hd hb))]

example : (runBlocks demoEvm SpecId.MERGE demoCase.start
    [⟨false, [], some ⟨101, none, 1, 9, 0, none⟩, []⟩, ⟨false, [], some ⟨102, none, 2, 9, 0, none⟩, []⟩]).toOption.map (·.hashes) =
      some [(2, 102), (1, 101), (0, 100)] := by decide

/-- **C69** does not hold as it stands: block 1 is followed by a rejected block without header, and its hash becomes
zero. -/
theorem C69_hashes_fails : ¬ C69_hashes := by
  intro h
  have := h demoEvm SpecId.MERGE demoCase.start _ [⟨false, [], some ⟨101, none, 1, 9, 0, none⟩, []⟩, ⟨true, [⟨true, some 0⟩], none, []⟩]
    (by decide) rfl _ (List.mem_cons_self ..) _ rfl
  revert this
  decide

/-! ## Rewards, forks, files -/

/-- **C69.** A payment adds to the balance, up to the largest word, and changes nothing else; an account that is not
there is made. -/
theorem C69_pays (a : Accts) (addr amount k : Nat) (hfit : ((a.get addr).elim 0 (·.balance)) + amount < 2 ^ 256) :
    (balanceIncr a addr amount).get k =
      if k = addr then some { ((a.get addr).getD {}) with balance := (a.get addr).elim 0 (·.balance) + amount }
      else a.get k := by
  unfold balanceIncr
  dsimp only
  rw [AMap.get_insert]
  have : ((a.get addr).getD {}).balance = (a.get addr).elim 0 (·.balance) := by cases a.get addr <;> rfl
  rw [this, Nat.min_eq_left (by rw [show maxWord = 2 ^ 256 - 1 from rfl]; omega)]

example : (balanceIncr [(3, { balance := 7, nonce := 2 })] 3 5).get 3 = some { balance := 12, nonce := 2 } := rfl

/-- **C69.** The reward of a block: five, three, two or no ether by fork, and one thirty-second of it per ommer. -/
theorem C69_reward (spec : SpecId) (ommers : Nat) :
    32 * blockReward spec ommers = rewardEther spec * ether * (32 + ommers) := by
  have h0 := reward_ether spec
  have hs : blockReward spec ommers = blockReward spec 0 + blockReward spec 0 / 32 * ommers := by
    unfold blockReward
    by_cases h : SpecId.MERGE ≤ spec
    · rw [if_pos h, if_pos h]
      simp
    · rw [if_neg h, if_neg h]
      simp only [Nat.mul_zero, Nat.add_zero, Nat.shiftRight_eq_div_pow]
  have hd : 32 ∣ blockReward spec 0 := by
    rw [h0]
    exact Nat.dvd_trans (by decide : 32 ∣ ether) (Nat.dvd_mul_left _ _)
  obtain ⟨q, hq⟩ := hd
  rw [hs, ← h0, hq, Nat.mul_div_cancel_left q (by decide), Nat.mul_add, Nat.mul_add]
  congr 1
  · rw [Nat.mul_comm]
  · rw [Nat.mul_assoc]

example : blockReward SpecId.LONDON 2 = 2125000000000000000 := by decide

/-- The fork a test without transition is for. -/
def ofName : Fork → Option SpecId
  | .frontier => some 0 | .homestead => some 1 | .eip150 => some 2 | .eip158 => some 3 | .byzantium => some 4
  | .constantinople | .constantinopleFix => some 5 | .istanbul => some 6 | .berlin => some 7 | .london => some 8
  | .paris => some 9 | .shanghai => some 10 | .cancun => some 11 | .prague => some 12 | .osaka => some 13
  | .amsterdam => some 14
  | _ => none

/-- **C69.** A test for a single fork is run, and with the rules of that fork. -/
theorem C69_fork (f : Fork) (s : SpecId) (h : ofName f = some s) : f.skipped = false ∧ f.spec = s := by
  revert h
  cases f <;> simp [ofName, Fork.skipped, Fork.spec] <;> intro h <;> exact h

example : ofName .cancun = some SpecId.CANCUN := rfl

/-- What a file comes to: none if it cannot be read or one of its tests fails. -/
def filePasses (evm : Evm T) : TFile T → Prop
  | .skip => True
  | .bad => False
  | .cases l => ∀ c ∈ l, runCase evm c = .ok ()

/-- How many tests a file has, skipped ones not counted. -/
def testsIn : TFile T → Nat
  | .cases l => l.length
  | _ => 0

theorem run_passes (evm : Evm T) (f : TFile T) : f.run evm = .failed ↔ ¬ filePasses evm f := by
  cases f with
  | skip => simp [TFile.run, filePasses]
  | bad => simp [TFile.run, filePasses]
  | cases l =>
    simp only [TFile.run, filePasses]
    cases hr : runFile evm l 0 with
    | none =>
      simp only [true_iff]
      intro h
      have := (runFile_iff evm l 0 (0 + l.length)).2 ⟨h, rfl⟩
      rw [hr] at this
      cases this
    | some k =>
      have := ((runFile_iff evm l 0 k).1 hr).1
      simpa using this

theorem run_counts (evm : Evm T) (f : TFile T) : (f.run evm = .skipped → testsIn f = 0) ∧
    ∀ k, f.run evm = .passed k → testsIn f = k := by
  cases f with
  | skip => simp [TFile.run, testsIn]
  | bad => simp [TFile.run]
  | cases l =>
    simp only [TFile.run, testsIn]
    cases hr : runFile evm l 0 with
    | none => simp
    | some k =>
      have := ((runFile_iff evm l 0 k).1 hr).2
      simp only [reduceCtorEq, false_implies, true_and, FileEnd.passed.injEq]
      intro k' e
      omega

theorem runFiles_spec (evm : Evm T) (kg : Bool) : ∀ (fs : List (TFile T)) (n : Tally),
    ((runFiles evm kg fs n).2 = true ↔ n.failed = 0 ∧ ∀ f ∈ fs, filePasses evm f) ∧
    ((∀ f ∈ fs, filePasses evm f) → ∃ t, (runFiles evm kg fs n).1 = some t ∧ t.passed = n.passed + (fs.map testsIn).sum)
  | [], n => by
    rw [runFiles]
    exact ⟨by simp, fun _ => ⟨n, rfl, by simp⟩⟩
  | f :: fs, n => by
    have hp := run_passes evm f
    have hc := run_counts evm f
    rw [runFiles]
    cases hr : f.run evm with
    | skipped =>
      rw [hr] at hp hc
      have hf : filePasses evm f := Classical.not_not.1 fun h => by cases hp.2 h
      obtain ⟨h1, h2⟩ := runFiles_spec evm kg fs { n with skipped := n.skipped + 1 }
      refine ⟨?_, fun h => ?_⟩
      · dsimp only
        rw [h1]
        simp [hf]
      · obtain ⟨t, e1, e2⟩ := h2 (fun f hf => h f (List.mem_cons_of_mem _ hf))
        exact ⟨t, e1, by rw [e2, List.map_cons, List.sum_cons, hc.1 rfl, Nat.zero_add]⟩
    | passed k =>
      rw [hr] at hp hc
      have hf : filePasses evm f := Classical.not_not.1 fun h => by cases hp.2 h
      obtain ⟨h1, h2⟩ := runFiles_spec evm kg fs { n with passed := n.passed + k }
      refine ⟨?_, fun h => ?_⟩
      · dsimp only
        rw [h1]
        simp [hf]
      · obtain ⟨t, e1, e2⟩ := h2 (fun f hf => h f (List.mem_cons_of_mem _ hf))
        exact ⟨t, e1, by rw [e2, List.map_cons, List.sum_cons, hc.2 k rfl, Nat.add_assoc]⟩
    | failed =>
      have hf := hp.1 hr
      obtain ⟨h1, h2⟩ := runFiles_spec evm kg fs { n with failed := n.failed + 1 }
      refine ⟨?_, fun h => absurd (h f (by simp)) hf⟩
      dsimp only
      split
      · rw [h1]
        simp [hf]
      · simp [hf]

/-- **C69.** A run is a success exactly if every file that is not skipped can be read and all its tests pass, whether
or not it is to keep going; then all tests are counted. -/
theorem C69_files (evm : Evm T) (kg : Bool) (fs : List (TFile T)) :
    ((runFiles evm kg fs {}).2 = true ↔ ∀ f ∈ fs, filePasses evm f) ∧
    ((∀ f ∈ fs, filePasses evm f) → ∃ t, (runFiles evm kg fs {}).1 = some t ∧ t.passed = (fs.map testsIn).sum) := by
  obtain ⟨h1, h2⟩ := runFiles_spec evm kg fs {}
  refine ⟨by rw [h1]; simp, fun h => ?_⟩
  obtain ⟨t, e1, e2⟩ := h2 h
  exact ⟨t, e1, by rw [e2]; exact Nat.zero_add _⟩

example : runFiles demoEvm true [.skip, .cases [demoCase, demoCase], .bad, .cases [demoCase]] {} = (some ⟨3, 1, 1⟩, false) := by
  decide

example : runFiles demoEvm false [.skip, .cases [demoCase, demoCase]] {} = (some ⟨2, 0, 1⟩, true) := by
  decide

end Verif.Chain
