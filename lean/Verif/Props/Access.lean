import Verif.Lemmas.AccessAsk
/-!
# C59: state access instructions

`verdictOf` reads off the outcome of a builtin; `code` gives an instruction its opcode and operands.
-/

namespace Verif.Access

open Verif.Builtins (Err)
open Verif.Frames (atSp)
open Verif.Spec

/-- The specification's surroundings for this environment. -/
def Env.around (env : Env) : Surroundings where
  fork := env.spec
  self := env.self
  static := env.isStatic
  difficulty := env.difficulty
  prevRandao := env.prevRandao.getD 0
  blobs := env.blobs
  stateGas := env.eip8037
  slotState o c n := env.sstoreState ⟨o, c, n⟩
  slotBack o c n := env.sstoreRefill ⟨o, c, n⟩
  accountState := env.newAccountState

/-- The specification's machine. -/
def Cx.machine (s : Cx) : Machine := { gas := s.gas, refund := s.refund, reservoir := s.reservoir, world := s.world }

/-- The outcome of a builtin; `none` for a panic or a failing database. -/
def verdictOf : EStateM.Result Stop Cx (Option Word) → Option Verdict
  | .ok a s => some (.goesOn a s.machine)
  | .error (.err .SelfDestruct) s => some (.ends s.machine)
  | .error (.err .OutOfGas) _ => some .exceptional
  | .error (.err .ReentrancySentryOOG) _ => some .exceptional
  | .error (.err .StateChangeDuringStaticCall) _ => some .exceptional
  | _ => none

/-- Opcode and operands, the topmost first. -/
def code : Access → UInt8 × List Word
  | .balance a => (0x31, [a])
  | .extcodesize a => (0x3b, [a])
  | .extcodehash a => (0x3f, [a])
  | .selfbalance => (0x47, [])
  | .difficulty => (0x44, [])
  | .blobhash i => (0x49, [i])
  | .sload k => (0x54, [k])
  | .sstore k v => (0x55, [k, v])
  | .tload k => (0x5c, [k])
  | .tstore k v => (0x5d, [k, v])
  | .selfdestruct b => (0xff, [b])

/-- What the analysis may know about an instruction: its only operand. -/
def Known (known : Option Word) (args : List Word) : Prop := ∀ k, known = some k → args = [k]

/-- What the builtins rely on: the database answers, the executing account has been accessed, there is a random value
from the Merge on, and the number of blobs fits a machine word. -/
structure Relies (env : Env) (s : Cx) : Prop where
  db : ∀ q, env.db q = true
  self : s.world.accessed env.self = true
  randao : SpecId.MERGE ≤ env.spec → env.prevRandao.isSome = true
  blobs : env.blobs.length < 2 ^ 64

theorem toAddress_eq (w : Word) : toAddress w = addressOf w := by
  simp [toAddress, addressOf, BitVec.truncate_eq_setWidth, BitVec.toNat_setWidth]

/-- Reading an account: what `load_account` does after the base gas. -/
theorem loadAccount_run {env : Env} (h : ∀ q, env.db q = true) (a : Nat) (s : Cx) :
    let c := if SpecId.BERLIN ≤ env.spec then 2500 else 0
    (loadAccount env a s = .error (.err .OutOfGas) s ∧ s.world.accessed a = false ∧ s.gas < c) ∨
    (∃ q, loadAccount env a s = .ok () { s with
        gas := s.gas - (if s.world.accessed a then 0 else c), world := s.world.touch a, queries := q } ∧
      (if s.world.accessed a then 0 else c) ≤ s.gas) := by
  intro c
  have hc : (GasParams.of env.spec).coldAccountAdditional = c := by
    unfold GasParams.of
    show _ = if SpecId.BERLIN ≤ env.spec then 2500 else 0
    by_cases h1 : SpecId.BERLIN ≤ env.spec <;> by_cases h2 : SpecId.LONDON ≤ env.spec <;>
      by_cases h3 : SpecId.ISTANBUL ≤ env.spec <;> by_cases h4 : SpecId.TANGERINE ≤ env.spec <;> simp [h1, h2, h3, h4]
  unfold loadAccount
  simp only [bind_run, get_run, hostLoadAccount_run h, hc]
  by_cases hw : s.world.accessed a = true
  · right
    refine ⟨s.queries, ?_, by simp [hw]⟩
    simp [hw, pure_run, touch_accessed hw]
  · by_cases hg : s.gas < c
    · left
      refine ⟨?_, by simpa using hw, hg⟩
      simp [hw, hg]
    · right
      refine ⟨s.queries ++ [.account a], ?_, by simp [hw]; omega⟩
      simp [hw, hg, charge_run]

theorem read_verdict {env : Env} (h : ∀ q, env.db q = true) {base cost : Nat} {a : Nat} {f : Ledger → Word} (s : Cx)
    (hcost : cost = base + if s.world.accessed a then 0 else if SpecId.BERLIN ≤ env.spec then 2500 else 0)
    (hf : ∀ w : Ledger, f (w.touch a) = f w) :
    verdictOf ((do charge base; loadAccount env a; let s ← get; pure (some (f s.world)) : M (Option Word)) s)
      = some (readAccount s.machine a cost f) := by
  simp only [bind_run, charge_run]
  unfold readAccount Machine.pay Cx.machine
  by_cases hb : base ≤ s.gas
  · rw [if_pos hb]
    dsimp only
    rcases loadAccount_run h a { s with gas := s.gas - base } with ⟨h1, h2, h3⟩ | ⟨q, h1, h2⟩
    · rw [h1]
      dsimp only at h2 h3 ⊢
      have : ¬ cost ≤ s.gas := by rw [hcost, if_neg (by simp [h2])]; omega
      rw [if_neg this]
      rfl
    · rw [h1]
      dsimp only at h2 ⊢
      have : cost ≤ s.gas := by omega
      rw [if_pos this]
      simp only [get_run, pure_run, verdictOf, orOutOfGas, Cx.machine, hf]
      have hg : s.gas - base - (if s.world.accessed a then 0 else if SpecId.BERLIN ≤ env.spec then 2500 else 0)
          = s.gas - cost := by omega
      rw [hg]
  · have : ¬ cost ≤ s.gas := by omega
    rw [if_neg hb, if_neg this]
    rfl

theorem sload_run {env : Env} (h : ∀ q, env.db q = true) (k : Word) (s : Cx) :
    let c := if SpecId.BERLIN ≤ env.spec then 2000 else 0
    (sload env k s = .error (.err .OutOfGas) s ∧ s.world.accessedSlot env.self k = false ∧ s.gas < c) ∨
    (∃ q, sload env k s = .ok (some (s.world.storage env.self k)) { s with
        gas := s.gas - (if s.world.accessedSlot env.self k then 0 else c)
        world := s.world.touchSlot env.self k, queries := q } ∧
      (if s.world.accessedSlot env.self k then 0 else c) ≤ s.gas) := by
  intro c
  unfold sload enabled
  by_cases hB : SpecId.BERLIN ≤ env.spec
  · have hc : (GasParams.of env.spec).coldStorageAdditional = c := by
      have h3 : SpecId.ISTANBUL ≤ env.spec := Nat.le_trans (by decide) hB
      have h4 : SpecId.TANGERINE ≤ env.spec := Nat.le_trans (by decide) hB
      show _ = if SpecId.BERLIN ≤ env.spec then 2000 else 0
      unfold GasParams.of
      by_cases h2 : SpecId.LONDON ≤ env.spec <;> simp [hB, h2, h3, h4]
    simp only [hB, decide_true, if_true, bind_run, get_run, hostSload_run h, hc]
    by_cases hw : s.world.accessedSlot env.self k = true
    · right
      refine ⟨s.queries, ?_, by simp [hw]⟩
      simp [hw, pure_run, touchSlot_accessed hw]
    · by_cases hg : s.gas < c
      · left
        refine ⟨?_, by simpa using hw, hg⟩
        simp [hw, hg]
      · right
        refine ⟨s.queries ++ [.slot env.self k], ?_, by simp [hw]; omega⟩
        rw [if_neg hw, if_neg (by simp [hg])]
        simp only [bind_run, if_true, charge_run, pure_run]
        rw [if_pos (by omega), if_neg hw]
  · have hc : c = 0 := if_neg hB
    right
    simp only [hB, decide_false, bind_run, hostSload_run h, hc, Nat.zero_le, if_false, Bool.false_eq_true]
    by_cases hw : s.world.accessedSlot env.self k = true
    · refine ⟨s.queries, ?_, by simp⟩
      simp [hw, pure_run, touchSlot_accessed hw]
    · refine ⟨s.queries ++ [.slot env.self k], ?_, by simp⟩
      simp [hw, pure_run]

theorem sloadOp_eq {env : Env} {known : Option Word} {k : Word} (h : Known known [k]) :
    sloadOp env known [k] = sload env k := by
  unfold sloadOp
  cases known with
  | none => rfl
  | some k' =>
    have : k = k' := by simpa using h k' rfl
    subst this
    dsimp only
    by_cases hk : k.toNat < 2 ^ 64
    · rw [if_pos hk]
      unfold sloadC
      congr 1
      apply BitVec.eq_of_toNat_eq
      simp [BitVec.truncate_eq_setWidth, BitVec.toNat_setWidth]
      omega
    · rw [if_neg hk]
      rfl

theorem chargeState_run (n : Nat) (s : Cx) : chargeState n s =
    if n ≤ s.reservoir + s.gas then
      .ok () { s with reservoir := s.reservoir - n, gas := s.gas - (n - s.reservoir) }
    else .error (.err .OutOfGas) s := by
  unfold chargeState
  by_cases h1 : n ≤ s.reservoir
  · have h2 : n - s.reservoir = 0 := by omega
    rw [if_pos h1, if_pos (by omega), h2]
    rfl
  · by_cases h2 : n - s.reservoir ≤ s.gas
    · rw [if_neg h1, if_pos h2, if_pos (by omega)]
      have h3 : s.reservoir - n = 0 := by omega
      rw [h3]
    · rw [if_neg h1, if_neg h2, if_neg (by omega)]

theorem dynamic_eq (f : SpecId) (o c n : Word) (cold : Bool) :
    (GasParams.of f).sstoreStatic + (GasParams.of f).sstoreDynamic (decide (SpecId.ISTANBUL ≤ f)) ⟨o, c, n⟩ cold
      = sstoreGas f (!cold) o c n := by
  unfold GasParams.of GasParams.sstoreDynamic sstoreGas
  by_cases h1 : SpecId.BERLIN ≤ f <;> by_cases h2 : SpecId.LONDON ≤ f <;>
    by_cases h3 : SpecId.ISTANBUL ≤ f <;> by_cases h4 : SpecId.TANGERINE ≤ f <;>
    first
    | (exfalso; simp only [SpecId.BERLIN, SpecId.LONDON, SpecId.ISTANBUL, SpecId.TANGERINE] at *; omega)
    | (simp only [h1, h2, h3, h4]; cases cold <;> grind)

theorem refund_eq (f : SpecId) (o c n : Word) :
    (GasParams.of f).sstoreRefund (decide (SpecId.ISTANBUL ≤ f)) ⟨o, c, n⟩ = sstoreRefund f o c n := by
  unfold GasParams.of GasParams.sstoreRefund sstoreRefund
  by_cases h1 : SpecId.BERLIN ≤ f <;> by_cases h2 : SpecId.LONDON ≤ f <;>
    by_cases h3 : SpecId.ISTANBUL ≤ f <;> by_cases h4 : SpecId.TANGERINE ≤ f <;>
    first
    | (exfalso; simp only [SpecId.BERLIN, SpecId.LONDON, SpecId.ISTANBUL, SpecId.TANGERINE] at *; omega)
    | (simp only [h1, h2, h3, h4]; grind)

theorem hostSstore_run {env : Env} (h : ∀ q, env.db q = true) (a : Nat) (k v : Word) (skip : Bool) (s : Cx) :
    (hostSstore env a k v skip s = .error (.err .OutOfGas) s ∧ s.world.accessedSlot a k = false ∧ skip = true) ∨
    (∃ q, hostSstore env a k v skip s =
        .ok (⟨s.world.original a k, s.world.storage a k, v⟩, !s.world.accessedSlot a k)
          { s with world := (s.world.touchSlot a k).write a k v, queries := q } ∧
      (s.world.accessedSlot a k = true ∨ skip = false)) := by
  unfold hostSstore
  simp only [bind_run, hostSload_run h]
  by_cases hw : s.world.accessedSlot a k = true
  · right
    refine ⟨s.queries, ?_, Or.inl hw⟩
    simp only [hw, if_true, get_run, ite_run, pure_run, bind_run, modify_run, touchSlot_accessed hw, Bool.not_true]
    by_cases hv : s.world.storage a k = v
    · rw [if_pos (by simpa using hv), write_same hv]
    · rw [if_neg (by simpa using hv)]
  · cases hs : skip with
    | true =>
      left
      refine ⟨?_, by simpa using hw, rfl⟩
      simp [hw]
    | false =>
      right
      refine ⟨s.queries ++ [.slot a k], ?_, Or.inr rfl⟩
      simp only [hw, if_false, Bool.false_eq_true, get_run, ite_run, pure_run, bind_run, modify_run]
      have hcur : (s.world.touchSlot a k).storage a k = s.world.storage a k := rfl
      by_cases hv : s.world.storage a k = v
      · rw [if_pos (by simpa using hv), write_same (hcur.trans hv)]
        simp [hw, Ledger.touchSlot]
      · rw [if_neg (by simpa using hv)]
        simp [hw, Ledger.touchSlot]

/-- What is left of SSTORE after the write, in the specification. -/
def settled (env : Env) (o c v : Word) (m : Machine) : Verdict :=
  orOutOfGas (if env.eip8037 then m.payState (env.sstoreState ⟨o, c, v⟩) else some m) fun m =>
    .goesOn none { m with
      reservoir := m.reservoir + (if env.eip8037 then env.sstoreRefill ⟨o, c, v⟩ else 0)
      refund := m.refund + sstoreRefund env.spec o c v }

theorem settle_run (env : Env) (o c v : Word) (cold : Bool) (s : Cx) :
    verdictOf (sstoreSettle env ⟨o, c, v⟩ cold s) =
      some (orOutOfGas (s.machine.pay
          ((GasParams.of env.spec).sstoreDynamic (decide (SpecId.ISTANBUL ≤ env.spec)) ⟨o, c, v⟩ cold))
        (settled env o c v)) := by
  unfold sstoreSettle
  simp only [bind_run, charge_run, enabled, refund_eq]
  generalize (GasParams.of env.spec).sstoreDynamic (decide (SpecId.ISTANBUL ≤ env.spec)) ⟨o, c, v⟩ cold = n
  unfold Machine.pay
  by_cases hn : n ≤ s.gas
  · rw [if_pos hn, if_pos (show n ≤ s.machine.gas from hn)]
    dsimp only [orOutOfGas, settled]
    by_cases he : env.eip8037 = true
    · simp only [he, if_true, bind_run, chargeState_run]
      unfold Machine.payState
      by_cases hr : env.sstoreState ⟨o, c, v⟩ ≤ s.reservoir + (s.gas - n)
      · rw [if_pos hr, if_pos (show _ ≤ s.machine.reservoir + (s.machine.gas - n) from hr)]
        by_cases hz : env.sstoreRefill ⟨o, c, v⟩ > 0
        · simp only [hz, if_true, modify_run, pure_run]
          rfl
        · have hz0 : env.sstoreRefill ⟨o, c, v⟩ = 0 := by omega
          simp only [hz0, Nat.lt_irrefl, gt_iff_lt, if_false, modify_run, pure_run]
          rfl
      · rw [if_neg hr, if_neg (show ¬ _ ≤ s.machine.reservoir + (s.machine.gas - n) from hr)]
        rfl
    · simp only [he, if_false, modify_run, pure_run, Bool.false_eq_true]
      rfl
  · rw [if_neg hn, if_neg (show ¬ n ≤ s.machine.gas from hn)]
    rfl

theorem sstore_run {env : Env} (h : ∀ q, env.db q = true) (k v : Word) (s : Cx) :
    verdictOf (sstore env [k, v] s) = some (access env.around s.machine (.sstore k v)) := by
  have hst : (GasParams.of env.spec).callStipend = 2300 := by
    unfold GasParams.of
    by_cases h1 : SpecId.BERLIN ≤ env.spec <;> by_cases h2 : SpecId.LONDON ≤ env.spec <;>
      by_cases h3 : SpecId.ISTANBUL ≤ env.spec <;> by_cases h4 : SpecId.TANGERINE ≤ env.spec <;> simp [h1, h2, h3, h4]
  have hcold : SpecId.BERLIN ≤ env.spec → (GasParams.of env.spec).coldStorageAdditional = 2000 := by
    intro hB
    have h3 : SpecId.ISTANBUL ≤ env.spec := Nat.le_trans (by decide) hB
    have h4 : SpecId.TANGERINE ≤ env.spec := Nat.le_trans (by decide) hB
    unfold GasParams.of
    by_cases h2 : SpecId.LONDON ≤ env.spec <;> simp [hB, h2, h3, h4]
  have hspec : access env.around s.machine (.sstore k v) =
      if env.isStatic then .exceptional
      else if SpecId.ISTANBUL ≤ env.spec ∧ s.gas ≤ 2300 then .exceptional
      else
        let o := s.world.original env.self k
        let c := s.world.storage env.self k
        orOutOfGas (s.machine.pay (sstoreGas env.spec (s.world.accessedSlot env.self k) o c v)) fun m =>
          settled env o c v { m with world := (m.world.touchSlot env.self k).write env.self k v } := by
    by_cases hs : env.isStatic = true
    · rw [if_pos hs]
      unfold access
      exact if_pos hs
    · by_cases hg : SpecId.ISTANBUL ≤ env.spec ∧ s.gas ≤ 2300
      · rw [if_neg hs, if_pos hg]
        unfold access
        exact (if_neg hs).trans (if_pos hg)
      · rw [if_neg hs, if_neg hg]
        unfold access
        refine (if_neg hs).trans ((if_neg hg).trans ?_)
        dsimp only [Env.around, Cx.machine]
        refine congrArg (orOutOfGas _) ?_
        funext m
        unfold settled
        by_cases he : env.eip8037 = true
        · simp only [he, if_true]
          unfold Machine.payState
          dsimp only
          split <;> rfl
        · simp only [he, if_false, Bool.false_eq_true]
          rfl
  rw [hspec]
  have hk : atSp [k, v] 1 = k := rfl
  have hv : atSp [k, v] 0 = v := rfl
  unfold sstore ensureNonStatic
  simp only [hk, hv, bind_run, ite_run, throw_run, pure_run, get_run]
  by_cases hs : env.isStatic = true
  · simp [hs, verdictOf]
  · simp only [hs, if_false, Bool.false_eq_true, enabled, decide_eq_true_eq, hst]
    by_cases hg : SpecId.ISTANBUL ≤ env.spec ∧ s.gas ≤ 2300
    · rw [if_pos hg, if_pos hg]
      rfl
    · rw [if_neg hg, if_neg hg]
      simp only [charge_run]
      generalize hn : (GasParams.of env.spec).sstoreStatic = n
      have hcost := dynamic_eq env.spec (s.world.original env.self k) (s.world.storage env.self k) v
        (!s.world.accessedSlot env.self k)
      rw [Bool.not_not, hn] at hcost
      rw [← hcost]
      unfold Machine.pay
      by_cases hc : n ≤ s.gas
      · rw [if_pos hc]
        dsimp only
        have hw : sstoreWrite env k v { s with gas := s.gas - n } =
            hostSstore env env.self k v (decide (SpecId.BERLIN ≤ env.spec ∧ s.gas - n < 2000)) { s with gas := s.gas - n } := by
          unfold sstoreWrite enabled
          by_cases hB : SpecId.BERLIN ≤ env.spec
          · simp only [hB, decide_true, if_true, bind_run, get_run, hcold hB, true_and]
          · simp [hB]
        rw [hw]
        rcases hostSstore_run h env.self k v (decide (SpecId.BERLIN ≤ env.spec ∧ s.gas - n < 2000))
          { s with gas := s.gas - n } with ⟨h1, h2, h3⟩ | ⟨q, h1, h2⟩
        · rw [h1]
          dsimp only at h2 ⊢
          have h3 := of_decide_eq_true h3
          have hI : SpecId.ISTANBUL ≤ env.spec := Nat.le_trans (by decide) h3.1
          have hT : SpecId.TANGERINE ≤ env.spec := Nat.le_trans (by decide) h3.1
          have hd : 2100 ≤ (GasParams.of env.spec).sstoreDynamic (decide (SpecId.ISTANBUL ≤ env.spec))
              ⟨s.world.original env.self k, s.world.storage env.self k, v⟩ (!s.world.accessedSlot env.self k) := by
            unfold GasParams.sstoreDynamic
            simp only [hI, decide_true, Bool.not_true, Bool.false_eq_true, if_false, h2, Bool.not_false, if_true]
            have : (GasParams.of env.spec).coldStorage = 2100 := by
              unfold GasParams.of
              by_cases h2 : SpecId.LONDON ≤ env.spec <;> simp [h3.1, h2, hI, hT]
            omega
          rw [if_neg (show ¬ _ ≤ s.machine.gas from by show ¬ _ ≤ s.gas; omega)]
          rfl
        · rw [h1]
          dsimp only
          rw [settle_run]
          unfold Machine.pay Cx.machine
          dsimp only
          generalize (GasParams.of env.spec).sstoreDynamic (decide (SpecId.ISTANBUL ≤ env.spec))
            ⟨s.world.original env.self k, s.world.storage env.self k, v⟩ (!s.world.accessedSlot env.self k) = d
          by_cases hd : n + d ≤ s.gas
          · rw [if_pos hd, if_pos (show d ≤ s.gas - n by omega)]
            have : s.gas - n - d = s.gas - (n + d) := by omega
            simp only [orOutOfGas, this]
          · rw [if_neg hd, if_neg (show ¬ d ≤ s.gas - n by omega)]
            rfl
      · rw [if_neg hc, if_neg (show ¬ _ ≤ s.machine.gas from by show ¬ _ ≤ s.gas; omega)]
        rfl

theorem hostSelfdestruct_run {env : Env} (h : ∀ q, env.db q = true) (a t : Nat) (skip : Bool) (s : Cx) :
    (hostSelfdestruct env a t skip s = .error (.err .OutOfGas) s ∧ s.world.accessed t = false ∧ skip = true) ∨
    (∃ q, hostSelfdestruct env a t skip s = .ok
        { hadValue := s.world.balance a != 0
          targetExists := if enabled env SpecId.SPURIOUS_DRAGON then !s.world.empty t else !s.world.missing t
          previously := s.world.destroyed.any fun x => x.1 == a
          cold := !s.world.accessed t }
        { s with world := { (s.world.touch t) with destroyed := (a, t) :: s.world.destroyed }, queries := q }) := by
  unfold hostSelfdestruct
  simp only [bind_run, hostLoadAccount_run h]
  by_cases hw : s.world.accessed t = true
  · right
    refine ⟨s.queries, ?_⟩
    simp [hw, get_run, modify_run, pure_run, touch_accessed hw]
  · cases skip with
    | true =>
      left
      refine ⟨?_, by simpa using hw, rfl⟩
      simp [hw]
    | false =>
      right
      refine ⟨s.queries ++ [.account t], ?_⟩
      simp only [hw, if_false, Bool.false_eq_true, get_run, modify_run, pure_run, Ledger.touch, Bool.not_false]

theorem selfdestruct_eq (f : SpecId) (topup cold : Bool) :
    (if SpecId.TANGERINE ≤ f then 5000 else 0) + (GasParams.of f).selfdestruct topup cold
      = selfdestructGas f (!cold) topup := by
  unfold GasParams.of GasParams.selfdestruct GasParams.selfdestructCold selfdestructGas
  by_cases h1 : SpecId.BERLIN ≤ f <;> by_cases h2 : SpecId.LONDON ≤ f <;>
    by_cases h3 : SpecId.ISTANBUL ≤ f <;> by_cases h4 : SpecId.TANGERINE ≤ f <;>
    first
    | (exfalso; simp only [SpecId.BERLIN, SpecId.LONDON, SpecId.ISTANBUL, SpecId.TANGERINE] at *; omega)
    | (simp only [h1, h2, h3, h4]; cases cold <;> cases topup <;> simp)

theorem selfdestructCold_eq (f : SpecId) :
    (GasParams.of f).selfdestructCold = if SpecId.BERLIN ≤ f then 2600 else 0 := by
  unfold GasParams.of GasParams.selfdestructCold
  by_cases h1 : SpecId.BERLIN ≤ f <;> by_cases h2 : SpecId.LONDON ≤ f <;>
    by_cases h3 : SpecId.ISTANBUL ≤ f <;> by_cases h4 : SpecId.TANGERINE ≤ f <;> simp [h1, h2, h3, h4]

theorem selfdestructRefund_eq (f : SpecId) :
    (GasParams.of f).selfdestructRefund = if SpecId.LONDON ≤ f then 0 else 24000 := by
  unfold GasParams.of
  by_cases h1 : SpecId.BERLIN ≤ f <;> by_cases h2 : SpecId.LONDON ≤ f <;>
    by_cases h3 : SpecId.ISTANBUL ≤ f <;> by_cases h4 : SpecId.TANGERINE ≤ f <;> simp [h1, h2, h3, h4]

theorem selfdestruct_run {env : Env} (h : ∀ q, env.db q = true) (b : Word) (s : Cx) :
    verdictOf ((do charge (baseGas env.spec op.SELFDESTRUCT); selfdestruct env [b] : M (Option Word)) s)
      = some (access env.around s.machine (.selfdestruct b)) := by
  have hb : baseGas env.spec op.SELFDESTRUCT = if SpecId.TANGERINE ≤ env.spec then 5000 else 0 := by
    rw [baseGas_eq (by decide)]
    rw [if_neg (by decide)]
    show (if SpecId.TANGERINE ≤ env.spec then (5000 : BitVec 16) else 0).toNat = _
    split <;> rfl
  have hat : atSp [b] 0 = b := rfl
  rw [hb]
  unfold selfdestruct ensureNonStatic
  simp only [hat, bind_run, charge_run, ite_run, throw_run, pure_run, get_run, toAddress_eq]
  by_cases hs : env.isStatic = true
  · have : access env.around s.machine (.selfdestruct b) = .exceptional := by
      unfold access
      exact if_pos hs
    rw [this]
    simp only [hs, if_true]
    by_cases hg : (if SpecId.TANGERINE ≤ env.spec then 5000 else 0) ≤ s.gas
    · rw [if_pos hg]; rfl
    · rw [if_neg hg]; rfl
  · generalize ht : addressOf b = t
    have hspec : access env.around s.machine (.selfdestruct b) =
        orOutOfGas (s.machine.pay (selfdestructGas env.spec (s.world.accessed t)
          (createsAccount env.spec s.world env.self t))) fun m =>
        orOutOfGas (if env.eip8037 && createsAccount env.spec s.world env.self t then
          m.payState env.newAccountState else some m) fun m =>
          .ends { m with
            refund := m.refund +
              (if SpecId.LONDON ≤ env.spec ∨ (m.world.destroyed.any fun x => x.1 == env.self) then 0 else 24000)
            world := { (m.world.touch t) with destroyed := (env.self, t) :: m.world.destroyed } } := by
      unfold access
      subst ht
      exact if_neg hs
    rw [hspec]
    simp only [hs, if_false, Bool.false_eq_true]
    generalize hbase : (if SpecId.TANGERINE ≤ env.spec then 5000 else 0) = base
    have htop : (if enabled env SpecId.SPURIOUS_DRAGON = true then
          (s.world.balance env.self != 0) &&
            !(if enabled env SpecId.SPURIOUS_DRAGON = true then !s.world.empty t else !s.world.missing t)
        else !(if enabled env SpecId.SPURIOUS_DRAGON = true then !s.world.empty t else !s.world.missing t))
        = createsAccount env.spec s.world env.self t := by
      unfold enabled createsAccount
      by_cases hd : SpecId.SPURIOUS_DRAGON ≤ env.spec <;> simp [hd]
    generalize createsAccount env.spec s.world env.self t = new at htop
    have hcost := selfdestruct_eq env.spec new (!s.world.accessed t)
    rw [Bool.not_not, hbase] at hcost
    rw [← hcost]
    unfold Machine.pay
    by_cases hg : base ≤ s.gas
    · rw [if_pos hg]
      dsimp only
      rw [selfdestructCold_eq]
      rcases hostSelfdestruct_run h env.self t
        (decide (s.gas - base < if SpecId.BERLIN ≤ env.spec then 2600 else 0))
        { s with gas := s.gas - base } with ⟨h1, h2, h3⟩ | ⟨q, h1⟩
      · rw [h1]
        dsimp only at h2 ⊢
        have h3 := of_decide_eq_true h3
        have hd : (if SpecId.BERLIN ≤ env.spec then 2600 else 0)
            ≤ (GasParams.of env.spec).selfdestruct new (!s.world.accessed t) := by
          unfold GasParams.selfdestruct
          rw [selfdestructCold_eq, h2]
          simp
        rw [if_neg (show ¬ _ ≤ s.machine.gas from by show ¬ _ ≤ s.gas; omega)]
        rfl
      · rw [h1]
        dsimp only
        rw [htop]
        generalize (GasParams.of env.spec).selfdestruct new (!s.world.accessed t) = d
        unfold Cx.machine
        dsimp only
        by_cases hd : base + d ≤ s.gas
        · rw [if_pos hd, if_pos (show d ≤ s.gas - base by omega)]
          have hsub : s.gas - base - d = s.gas - (base + d) := by omega
          have hrefund : ∀ r : Int, (r + if SpecId.LONDON ≤ env.spec ∨
              (s.world.destroyed.any fun x => x.1 == env.self) = true then 0 else 24000) =
              if (!s.world.destroyed.any fun x => x.1 == env.self) = true then
                r + ((GasParams.of env.spec).selfdestructRefund : Int) else r := by
            intro r
            rw [selfdestructRefund_eq]
            by_cases hl : SpecId.LONDON ≤ env.spec <;>
              cases (s.world.destroyed.any fun x => x.1 == env.self) <;> simp [hl]
          dsimp only [orOutOfGas]
          rw [hsub]
          unfold Machine.payState
          by_cases hn : (env.eip8037 && new) = true
          · simp only [hn, if_true, bind_run, chargeState_run]
            by_cases hr : env.newAccountState ≤ s.reservoir + (s.gas - (base + d))
            · rw [if_pos hr, if_pos hr]
              dsimp only [orOutOfGas]
              rw [hrefund]
              cases (s.world.destroyed.any fun x => x.1 == env.self) <;> rfl
            · rw [if_neg hr, if_neg hr]
              rfl
          · simp only [hn, if_false, Bool.false_eq_true]
            rw [hrefund]
            cases (s.world.destroyed.any fun x => x.1 == env.self) <;> rfl
        · rw [if_neg hd, if_neg (show ¬ d ≤ s.gas - base by omega)]
          rfl
    · rw [if_neg hg, if_neg (show ¬ _ ≤ s.machine.gas from by show ¬ _ ≤ s.gas; omega)]
      rfl

/-- C59: for every fork, operand and state, a state access instruction of compiled code (the base gas of its section
and its builtin, also the one chosen for a constant storage key) ends as the EVM's: same answer, gas, refund, state and
accessed sets, and exceptionally exactly when the EVM does. -/
theorem C59_access {env : Env} {s : Cx} (h : Relies env s) (i : Access) {known : Option Word}
    (hk : Known known (code i).2) :
    verdictOf (exec env known (code i).1 (code i).2 s) = some (access env.around s.machine i) := by
  unfold exec
  have hbase : ∀ {o : UInt8}, (opTable o).isSome = true → FULLY_DYNAMIC.contains o = false →
      baseGas env.spec o = (staticGas env.spec o).toNat := by
    intro o h1 h2
    rw [baseGas_eq h1, h2]
    rfl
  cases i with
  | balance a =>
    show verdictOf ((do charge (baseGas env.spec op.BALANCE); balance env [a] : M (Option Word)) s) = _
    unfold balance
    have hat : toAddress (atSp [a] 0) = addressOf a := toAddress_eq a
    rw [hat]
    refine read_verdict h.db s ?_ (f := fun w => w.balance (addressOf a)) (fun _ => rfl)
    rw [hbase (by decide) (by decide)]
    show accountGas env.spec 20 400 700 (s.world.accessed (addressOf a)) = _
    unfold accountGas staticGas
    simp only [if_true]
    by_cases h1 : SpecId.BERLIN ≤ env.spec <;> by_cases h2 : SpecId.ISTANBUL ≤ env.spec <;>
      by_cases h3 : SpecId.TANGERINE ≤ env.spec <;> cases s.world.accessed (addressOf a) <;> simp [h1, h2, h3]
  | extcodesize a =>
    show verdictOf ((do charge (baseGas env.spec op.EXTCODESIZE); extcodesize env [a] : M (Option Word)) s) = _
    unfold extcodesize
    have hat : toAddress (atSp [a] 0) = addressOf a := toAddress_eq a
    rw [hat]
    refine read_verdict h.db s ?_ (f := fun w => BitVec.ofNat 256 (w.code (addressOf a)).length) (fun _ => rfl)
    rw [hbase (by decide) (by decide)]
    show accountGas env.spec 20 700 700 (s.world.accessed (addressOf a)) = _
    unfold accountGas
    have : staticGas env.spec op.EXTCODESIZE = if SpecId.BERLIN ≤ env.spec then 100 else
      if SpecId.TANGERINE ≤ env.spec then 700 else 20 := rfl
    rw [this]
    by_cases h1 : SpecId.BERLIN ≤ env.spec <;> by_cases h2 : SpecId.ISTANBUL ≤ env.spec <;>
      by_cases h3 : SpecId.TANGERINE ≤ env.spec <;> cases s.world.accessed (addressOf a) <;>
      first
      | exact absurd (Nat.le_trans (by decide) h2) h3
      | simp [h1, h2, h3]
  | extcodehash a =>
    show verdictOf ((do charge (baseGas env.spec op.EXTCODEHASH); extcodehash env [a] : M (Option Word)) s) = _
    unfold extcodehash
    have hat : toAddress (atSp [a] 0) = addressOf a := toAddress_eq a
    rw [hat]
    refine read_verdict h.db s ?_
      (f := fun w => if w.empty (addressOf a) then 0 else w.codeHash (addressOf a)) (fun _ => rfl)
    rw [hbase (by decide) (by decide)]
    show accountGas env.spec 400 400 700 (s.world.accessed (addressOf a)) = _
    unfold accountGas
    have : staticGas env.spec op.EXTCODEHASH = if SpecId.BERLIN ≤ env.spec then 100 else
      if SpecId.ISTANBUL ≤ env.spec then 700 else 400 := rfl
    rw [this]
    by_cases h1 : SpecId.BERLIN ≤ env.spec <;> by_cases h2 : SpecId.ISTANBUL ≤ env.spec <;>
      by_cases h3 : SpecId.TANGERINE ≤ env.spec <;> cases s.world.accessed (addressOf a) <;> simp [h1, h2, h3]
  | selfbalance =>
    show verdictOf ((do charge (baseGas env.spec op.SELFBALANCE); selfBalance env : M (Option Word)) s) = _
    rw [hbase (by decide) (by decide)]
    show verdictOf ((do charge 5; selfBalance env : M (Option Word)) s) = some (orOutOfGas (s.machine.pay 5) _)
    unfold selfBalance Machine.pay
    simp only [bind_run, charge_run, hostLoadAccount_run h.db]
    by_cases hg : 5 ≤ s.gas
    · rw [if_pos hg, if_pos (show 5 ≤ s.machine.gas from hg)]
      simp only [h.self, if_true]
      rfl
    · rw [if_neg hg, if_neg (show ¬ 5 ≤ s.machine.gas from hg)]
      rfl
  | difficulty =>
    show verdictOf ((do charge (baseGas env.spec op.DIFFICULTY); difficulty env : M (Option Word)) s) = _
    rw [hbase (by decide) (by decide)]
    show verdictOf ((do charge 2; difficulty env : M (Option Word)) s) = some (orOutOfGas (s.machine.pay 2) fun m =>
      .goesOn (some (if SpecId.MERGE ≤ env.spec then env.prevRandao.getD 0 else env.difficulty)) m)
    unfold difficulty Machine.pay enabled
    simp only [bind_run, charge_run]
    by_cases hg : 2 ≤ s.gas
    · rw [if_pos hg, if_pos (show 2 ≤ s.machine.gas from hg)]
      by_cases hm : SpecId.MERGE ≤ env.spec
      · obtain ⟨w, hw⟩ := Option.isSome_iff_exists.mp (h.randao hm)
        simp only [hm, decide_true, if_true, hw]
        rfl
      · simp only [hm, decide_false, Bool.false_eq_true, if_false]
        rfl
    · rw [if_neg hg, if_neg (show ¬ 2 ≤ s.machine.gas from hg)]
      rfl
  | blobhash j =>
    show verdictOf ((do charge (baseGas env.spec op.BLOBHASH); blobHash env [j] : M (Option Word)) s) = _
    rw [hbase (by decide) (by decide)]
    show verdictOf ((do charge 3; blobHash env [j] : M (Option Word)) s) = some (orOutOfGas (s.machine.pay 3) fun m =>
      .goesOn (some (env.blobs[j.toNat]?.getD 0)) m)
    have hj : env.blobs[Builtins.satUsize j]? = env.blobs[j.toNat]? := by
      unfold Builtins.satUsize
      have := h.blobs
      by_cases hl : j.toNat ≤ 2 ^ 64 - 1
      · rw [Nat.min_eq_left hl]
      · rw [List.getElem?_eq_none (by omega), List.getElem?_eq_none (by omega)]
    unfold blobHash Machine.pay
    have hat : atSp [j] 0 = j := rfl
    simp only [bind_run, charge_run, hat, hj]
    by_cases hg : 3 ≤ s.gas
    · rw [if_pos hg, if_pos (show 3 ≤ s.machine.gas from hg)]
      rfl
    · rw [if_neg hg, if_neg (show ¬ 3 ≤ s.machine.gas from hg)]
      rfl
  | sload k =>
    show verdictOf ((do charge (baseGas env.spec op.SLOAD); sloadOp env known [k] : M (Option Word)) s) = _
    rw [sloadOp_eq hk, hbase (by decide) (by decide)]
    have hst : staticGas env.spec op.SLOAD = if SpecId.BERLIN ≤ env.spec then 100 else
      if SpecId.ISTANBUL ≤ env.spec then 800 else if SpecId.TANGERINE ≤ env.spec then 200 else 50 := rfl
    have hcost : sloadGas env.spec (s.world.accessedSlot env.self k) = (staticGas env.spec op.SLOAD).toNat +
        if s.world.accessedSlot env.self k then 0 else if SpecId.BERLIN ≤ env.spec then 2000 else 0 := by
      unfold sloadGas
      rw [hst]
      by_cases h1 : SpecId.BERLIN ≤ env.spec <;> by_cases h2 : SpecId.ISTANBUL ≤ env.spec <;>
        by_cases h3 : SpecId.TANGERINE ≤ env.spec <;> cases s.world.accessedSlot env.self k <;> simp [h1, h2, h3]
    show _ = some (orOutOfGas (s.machine.pay (sloadGas env.spec (s.world.accessedSlot env.self k))) fun m =>
      .goesOn (some (m.world.storage env.self k)) { m with world := m.world.touchSlot env.self k })
    generalize (staticGas env.spec op.SLOAD).toNat = base at hcost
    unfold Machine.pay Cx.machine
    simp only [bind_run, charge_run]
    by_cases hb : base ≤ s.gas
    · rw [if_pos hb]
      dsimp only
      rcases sload_run h.db k { s with gas := s.gas - base } with ⟨h1, h2, h3⟩ | ⟨q, h1, h2⟩
      · rw [h1]
        dsimp only at h2 h3 ⊢
        have : ¬ sloadGas env.spec (s.world.accessedSlot env.self k) ≤ s.gas := by
          rw [hcost, if_neg (by simp [h2])]; omega
        rw [if_neg this]
        rfl
      · rw [h1]
        dsimp only at h2 ⊢
        have : sloadGas env.spec (s.world.accessedSlot env.self k) ≤ s.gas := by omega
        rw [if_pos this]
        have hg : s.gas - base - (if s.world.accessedSlot env.self k then 0 else
            if SpecId.BERLIN ≤ env.spec then 2000 else 0)
            = s.gas - sloadGas env.spec (s.world.accessedSlot env.self k) := by omega
        rw [hg]
        rfl
    · have : ¬ sloadGas env.spec (s.world.accessedSlot env.self k) ≤ s.gas := by omega
      rw [if_neg hb, if_neg this]
      rfl
  | sstore k v =>
    show verdictOf ((do charge (baseGas env.spec op.SSTORE); sstore env [k, v] : M (Option Word)) s) = _
    rw [baseGas_eq (by decide), if_pos (by decide)]
    simp only [bind_run, charge_run, Nat.zero_le, if_true, Nat.sub_zero]
    exact sstore_run h.db k v s
  | tload k =>
    show verdictOf ((do charge (baseGas env.spec op.TLOAD); tload env [k] : M (Option Word)) s) = _
    rw [hbase (by decide) (by decide)]
    show verdictOf ((do charge 100; tload env [k] : M (Option Word)) s) = some (orOutOfGas (s.machine.pay 100) _)
    unfold tload Machine.pay
    simp only [bind_run, charge_run]
    by_cases hg : 100 ≤ s.gas
    · rw [if_pos hg, if_pos (show 100 ≤ s.machine.gas from hg)]
      rfl
    · rw [if_neg hg, if_neg (show ¬ 100 ≤ s.machine.gas from hg)]
      rfl
  | tstore k v =>
    show verdictOf ((do charge (baseGas env.spec op.TSTORE); tstore env [k, v] : M (Option Word)) s) = _
    rw [hbase (by decide) (by decide)]
    show verdictOf ((do charge 100; tstore env [k, v] : M (Option Word)) s) = _
    unfold tstore ensureNonStatic access
    simp only [bind_run, charge_run, ite_run, throw_run]
    by_cases hs : env.isStatic = true
    · rw [show (if env.around.static = true then Verdict.exceptional else _) = Verdict.exceptional from if_pos hs]
      simp only [hs, if_true]
      by_cases hg : 100 ≤ s.gas
      · rw [if_pos hg]; rfl
      · rw [if_neg hg]; rfl
    · refine Eq.trans ?_ (congrArg some (if_neg hs).symm)
      unfold Machine.pay
      simp only [hs, if_false, Bool.false_eq_true]
      by_cases hg : 100 ≤ s.gas
      · rw [if_pos hg, if_pos (show 100 ≤ s.machine.gas from hg)]
        rfl
      · rw [if_neg hg, if_neg (show ¬ 100 ≤ s.machine.gas from hg)]
        rfl
  | selfdestruct b =>
    exact selfdestruct_run h.db b s

/-- Executes a run of instructions, each with the operand the analysis may know. -/
def execAll (env : Env) : Cx → List (Option Word × Access) → List (Option Word) × Option Verdict
  | s, [] => ([], some (.goesOn none s.machine))
  | s, (known, i) :: is => match exec env known (code i).1 (code i).2 s with
    | .ok a s => let r := execAll env s is; (a :: r.1, r.2)
    | r => ([], verdictOf r)

theorem access_keeps {S : Surroundings} {m m' : Machine} {i : Access} {a : Option Word} {x : Nat}
    (hx : m.world.accessed x = true) (h : access S m i = .goesOn a m') : m'.world.accessed x = true := by
  have hpay : ∀ {n : Nat} {m1 : Machine}, m.pay n = some m1 → m1.world = m.world := by
    intro n m1 h
    unfold Machine.pay at h
    split at h
    · cases h; rfl
    · cases h
  have hstate : ∀ {n : Nat} {m1 m2 : Machine}, m1.payState n = some m2 → m2.world = m1.world := by
    intro n m1 m2 h
    unfold Machine.payState at h
    split at h
    · cases h; rfl
    · cases h
  have horn : ∀ {o : Option Machine} {k : Machine → Verdict}, orOutOfGas o k = .goesOn a m' →
      ∃ m1, o = some m1 ∧ k m1 = .goesOn a m' := by
    intro o k h
    cases o with
    | none => cases h
    | some m1 => exact ⟨m1, rfl, h⟩
  have htouch : ∀ {w : Ledger} {y : Nat}, w.accessed x = true → (w.touch y).accessed x = true := by
    intro w y hw
    show (if x = y then true else w.accessed x) = true
    split
    · rfl
    · exact hw
  cases i with
  | balance _ | extcodesize _ | extcodehash _ =>
    obtain ⟨m1, h1, h2⟩ := horn h
    cases h2
    exact htouch (by rw [hpay h1]; exact hx)
  | selfbalance | difficulty | blobhash _ | tload _ =>
    obtain ⟨m1, h1, h2⟩ := horn h
    cases h2
    rw [hpay h1]
    exact hx
  | sload _ =>
    obtain ⟨m1, h1, h2⟩ := horn h
    cases h2
    show m1.world.accessed x = true
    rw [hpay h1]
    exact hx
  | sstore _ _ =>
    unfold access at h
    dsimp only at h
    split at h
    · cases h
    · split at h
      · cases h
      · obtain ⟨m1, h1, h2⟩ := horn h
        obtain ⟨m2, h3, h4⟩ := horn h2
        cases h4
        show m2.world.accessed x = true
        split at h3
        · rw [hstate h3, hpay h1]; exact hx
        · cases h3; rw [hpay h1]; exact hx
  | tstore _ _ =>
    unfold access at h
    dsimp only at h
    split at h
    · cases h
    · obtain ⟨m1, h1, h2⟩ := horn h
      cases h2
      show m1.world.accessed x = true
      rw [hpay h1]; exact hx
  | selfdestruct _ =>
    unfold access at h
    dsimp only at h
    split at h
    · cases h
    · obtain ⟨m1, h1, h2⟩ := horn h
      obtain ⟨m2, h3, h4⟩ := horn h2
      cases h4

/-- C59: and so for any run of such instructions within a frame. -/
theorem C59_run {env : Env} (is : List (Option Word × Access)) (hk : ∀ x ∈ is, Known x.1 (code x.2).2) : ∀ {s : Cx},
    Relies env s →
    execAll env s is =
      ((accessAll env.around s.machine (is.map (·.2))).1, some (accessAll env.around s.machine (is.map (·.2))).2) := by
  induction is with
  | nil => intro s _; rfl
  | cons x is ih =>
    intro s h
    obtain ⟨known, i⟩ := x
    have hi := C59_access h i (hk _ List.mem_cons_self)
    rw [List.map_cons]
    unfold execAll accessAll
    dsimp only at hi ⊢
    generalize exec env known (code i).1 (code i).2 s = r at hi
    cases r with
    | ok a s' =>
      have ha : access env.around s.machine i = .goesOn a s'.machine := by
        simpa [verdictOf] using hi.symm
      rw [ha]
      dsimp only
      rw [ih (fun y hy => hk y (List.mem_cons_of_mem _ hy))
        ⟨h.db, access_keeps (x := env.self) h.self ha, h.randao, h.blobs⟩]
    | error e s' =>
      have hne : ∀ a m, access env.around s.machine i ≠ .goesOn a m := by
        intro a m ha
        rw [ha] at hi
        unfold verdictOf at hi
        split at hi <;> simp_all
      dsimp only
      rw [hi]
      split
      · rename_i a m ha
        exact absurd ha (hne a m)
      · rfl

/-- A request worth making: for something not accessed yet and, from Berlin on, with gas for the cold access. -/
def Worth (env : Env) (s : Cx) : Query → Prop
  | .account a => s.world.accessed a = false ∧ (SpecId.BERLIN ≤ env.spec → 2600 ≤ s.gas)
  | .slot a k => a = env.self ∧ s.world.accessedSlot a k = false ∧ (SpecId.BERLIN ≤ env.spec → 2100 ≤ s.gas)

theorem params_berlin {spec : SpecId} (h : SpecId.BERLIN ≤ spec) :
    (GasParams.of spec).coldAccountAdditional = 2500 ∧ (GasParams.of spec).coldStorageAdditional = 2000 ∧
      (GasParams.of spec).sstoreStatic = 100 ∧ (GasParams.of spec).warmStorageRead = 100 := by
  unfold GasParams.of
  by_cases h2 : SpecId.LONDON ≤ spec <;> by_cases h3 : SpecId.ISTANBUL ≤ spec <;>
    by_cases h4 : SpecId.TANGERINE ≤ spec <;> simp [h, h2, h3, h4]

/-- C59: whether or not the database works, an instruction makes at most one request to it; never for something already
accessed and, from Berlin on, never when the access cannot be paid; and it fails fatally only if that request failed. -/
theorem C59_lookups {env : Env} {s : Cx} (hself : s.world.accessed env.self = true) (i : Access) {known : Option Word}
    (hk : Known known (code i).2) :
    Asks env (Worth env s) (exec env known (code i).1 (code i).2) s := by
  have hbase : ∀ {o : UInt8}, (opTable o).isSome = true → FULLY_DYNAMIC.contains o = false →
      baseGas env.spec o = (staticGas env.spec o).toNat := by
    intro o h1 h2
    rw [baseGas_eq h1, h2]
    rfl
  have hread : ∀ (o : UInt8) (a : Nat) (f : Cx → Word), (opTable o).isSome = true → FULLY_DYNAMIC.contains o = false →
      (SpecId.BERLIN ≤ env.spec → (staticGas env.spec o).toNat = 100) →
      Asks env (Worth env s) (do
        charge (baseGas env.spec o)
        loadAccount env a
        let s ← get
        pure (some (f s)) : M (Option Word)) s := by
    intro o a f h1 h2 h3
    refine asks_charge fun hg => Asks.bind (asks_loadAccount fun hw hc => ⟨hw, fun hB => ?_⟩) fun _ =>
      Quiet.bind quiet_get fun _ => quiet_pure _
    rw [hbase h1 h2, h3 hB] at hg hc
    rw [(params_berlin hB).1] at hc
    dsimp only at hc
    omega
  cases i with
  | balance a =>
    exact hread op.BALANCE (toAddress a) (fun s => s.world.balance (toAddress a)) (by decide) (by decide)
      fun hB => by simp [staticGas, hB]
  | extcodesize a =>
    exact hread op.EXTCODESIZE (toAddress a) (fun s => BitVec.ofNat 256 (s.world.code (toAddress a)).length) (by decide)
      (by decide) fun hB => by simp [staticGas, hB, op.EXTCODESIZE, op.BALANCE]
  | extcodehash a =>
    exact hread op.EXTCODEHASH (toAddress a)
      (fun s => if s.world.empty (toAddress a) then 0 else s.world.codeHash (toAddress a)) (by decide)
      (by decide) fun hB => by simp [staticGas, hB, op.EXTCODESIZE, op.BALANCE, op.EXTCODEHASH]
  | selfbalance =>
    show Asks env (Worth env s) (do charge (baseGas env.spec op.SELFBALANCE); selfBalance env : M (Option Word)) s
    refine asks_charge fun hg => ?_
    unfold selfBalance
    refine Asks.bind (asks_account fun hw _ => ?_) fun _ => Quiet.bind quiet_get fun _ => quiet_pure _
    rw [show s.world.accessed env.self = false from hw] at hself
    cases hself
  | difficulty =>
    refine Quiet.asks ?_
    show Quiet (do charge (baseGas env.spec op.DIFFICULTY); difficulty env : M (Option Word))
    refine Quiet.bind (quiet_charge _) fun _ => ?_
    unfold difficulty
    refine quiet_ite ?_ (quiet_pure _)
    split
    · exact quiet_throw (by simp)
    · exact quiet_pure _
  | blobhash i =>
    refine Quiet.asks ?_
    show Quiet (do charge (baseGas env.spec op.BLOBHASH); blobHash env [i] : M (Option Word))
    exact Quiet.bind (quiet_charge _) fun _ => quiet_pure _
  | sload k =>
    show Asks env (Worth env s) (do charge (baseGas env.spec op.SLOAD); sloadOp env known [k] : M (Option Word)) s
    refine asks_charge fun hg => ?_
    rw [sloadOp_eq hk]
    refine asks_sload fun hw hc => ⟨rfl, hw, fun hB => ?_⟩
    have h3 : (staticGas env.spec op.SLOAD).toNat = 100 := by
      simp [staticGas, hB, op.EXTCODESIZE, op.BALANCE, op.EXTCODEHASH, op.SLOAD]
    have hc := hc hB
    rw [hbase (by decide) (by decide), h3] at hg hc
    rw [(params_berlin hB).2.1] at hc
    dsimp only at hc
    omega
  | sstore k v =>
    show Asks env (Worth env s) (do charge (baseGas env.spec op.SSTORE); sstore env [k, v] : M (Option Word)) s
    refine asks_charge fun hg => ?_
    refine asks_sstore fun hw hc => ⟨rfl, hw, fun hB => ?_⟩
    have hc := hc hB
    rw [(params_berlin hB).2.1, (params_berlin hB).2.2.1] at hc
    dsimp only at hc
    omega
  | tload k =>
    refine Quiet.asks ?_
    show Quiet (do charge (baseGas env.spec op.TLOAD); tload env [k] : M (Option Word))
    exact Quiet.bind (quiet_charge _) fun _ => Quiet.bind quiet_get fun _ => quiet_pure _
  | tstore k v =>
    refine Quiet.asks ?_
    show Quiet (do charge (baseGas env.spec op.TSTORE); tstore env [k, v] : M (Option Word))
    refine Quiet.bind (quiet_charge _) fun _ => Quiet.bind ?_ fun _ =>
      Quiet.bind (quiet_modify fun _ => rfl) fun _ => quiet_pure _
    exact quiet_ite (quiet_throw (by simp)) (quiet_pure _)
  | selfdestruct b =>
    show Asks env (Worth env s) (do charge (baseGas env.spec op.SELFDESTRUCT); selfdestruct env [b] : M (Option Word)) s
    refine asks_charge fun hg => ?_
    refine asks_selfdestruct fun hw hc => ⟨hw, fun hB => ?_⟩
    unfold GasParams.selfdestructCold at hc
    rw [(params_berlin hB).1, (params_berlin hB).2.2.2] at hc
    dsimp only at hc
    omega

/-! ## Concrete cases -/

/-- Two accounts; contract 7 with balance 5, and 3 in slot 1 from before the transaction. -/
def sampleLedger : Ledger where
  balance a := if a = 7 then 5 else 0
  code a := if a = 7 then [0x54, 0x55] else []
  codeHash a := if a = 7 then 99 else 0
  missing a := a ≠ 7
  empty a := a ≠ 7
  original a k := if a = 7 ∧ k = 1 then 3 else 0
  storage a k := if a = 7 ∧ k = 1 then 3 else 0
  transient _ _ := 0
  accessed a := a = 7
  accessedSlot _ _ := false
  destroyed := []

def sampleEnv (works : Bool) : Env where
  spec := SpecId.CANCUN
  self := 7
  isStatic := false
  difficulty := 0
  prevRandao := some 42
  blobs := [11, 12]
  db _ := works
  eip8037 := false
  sstoreState _ := 0
  sstoreRefill _ := 0
  newAccountState := 0

def sampleCx (gas : Nat) : Cx := { gas, refund := 0, reservoir := 0, world := sampleLedger, queries := [] }

example : Relies (sampleEnv true) (sampleCx 100000) :=
  ⟨fun _ => rfl, by decide, fun _ => rfl, by decide⟩

/-- Slot 1 is read by a constant key, cleared, set again and read back; then the blob hash, the random value and the
balance of an untouched account. -/
def sampleRun : List (Option Word × Access) :=
  [(some 1, .sload 1), (none, .sstore 1 0), (none, .sstore 1 3), (none, .sload 1), (none, .blobhash 1),
   (none, .difficulty), (some 9, .balance 9), (none, .balance 9)]

example : ∀ x ∈ sampleRun, Known x.1 (code x.2).2 := by
  intro x hx
  simp only [sampleRun, List.mem_cons, List.not_mem_nil, or_false] at hx
  rcases hx with rfl | rfl | rfl | rfl | rfl | rfl | rfl | rfl <;> intro k hk <;> first | cases hk; rfl | cases hk

/-- The gas and refund at the end. -/
def summary : List (Option Word) × Option Verdict → List (Option Word) × Option (Nat × Int)
  | (as, some (.goesOn _ m)) => (as, some (m.gas, m.refund))
  | (as, _) => (as, none)

example : summary (execAll (sampleEnv true) (sampleCx 100000) sampleRun) =
    ([some 3, none, none, some 3, some 12, some 42, some 0, some 0],
     some (100000 - (2100 + 2900 + 100 + 100 + 3 + 2 + 2600 + 100), 4800 - 4800 + 2800)) := by decide

example : (ending (exec (sampleEnv true) (some 1) 0x54 [1] (sampleCx 2100))).queries = [.slot 7 1] := by decide
example : (ending (exec (sampleEnv true) (some 1) 0x54 [1] (sampleCx 2099))).queries = [] := by decide
example : (match exec (sampleEnv false) none 0x31 [9] (sampleCx 5000) with
    | .error e s => some (e, s.queries)
    | _ => none) = some (.err .FatalExternalError, [.account 9]) := by decide

end Verif.Access
