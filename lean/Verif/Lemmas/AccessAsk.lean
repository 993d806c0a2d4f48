import Verif.Lemmas.Access
/-! # Which requests the state access builtins make to the database -/

namespace Verif.Access

open Verif.Builtins (Err)
open Verif.Frames (atSp)
open Verif.Spec

/-- The state a computation ends with. -/
def ending {α : Type} : EStateM.Result Stop Cx α → Cx
  | .ok _ s => s
  | .error _ s => s

/-- Makes no request and does not fail fatally. -/
def Quiet {α : Type} (m : M α) : Prop := ∀ s, (ending (m s)).queries = s.queries ∧
  ∀ s', m s ≠ .error (.err .FatalExternalError) s'

/-- Makes at most one request, satisfying `P`, and fails fatally only if the database does not answer it. -/
structure Asks {α : Type} (env : Env) (P : Query → Prop) (m : M α) (s : Cx) : Prop where
  one : (ending (m s)).queries = s.queries ∨ ∃ q, P q ∧ (ending (m s)).queries = s.queries ++ [q]
  fatal : ∀ s', m s = .error (.err .FatalExternalError) s' → ∃ q, s'.queries = s.queries ++ [q] ∧ env.db q = false

theorem Quiet.asks {α : Type} {env : Env} {P : Query → Prop} {m : M α} {s : Cx} (h : Quiet m) : Asks env P m s :=
  ⟨Or.inl (h s).1, fun s' h' => absurd h' ((h s).2 s')⟩

theorem quiet_pure {α : Type} (a : α) : Quiet (pure a : M α) := fun _ => ⟨rfl, fun _ h => by cases h⟩
theorem quiet_get : Quiet (get : M Cx) := fun _ => ⟨rfl, fun _ h => by cases h⟩
theorem quiet_throw {α : Type} {e : Stop} (he : e ≠ .err .FatalExternalError) : Quiet (throw e : M α) :=
  fun _ => ⟨rfl, fun _ h => by cases h; exact he rfl⟩
theorem quiet_modify {f : Cx → Cx} (hf : ∀ s, (f s).queries = s.queries) : Quiet (modify f : M Unit) :=
  fun s => ⟨hf s, fun _ h => by cases h⟩

theorem quiet_charge (n : Nat) : Quiet (charge n) := by
  intro s
  unfold charge
  split
  · exact ⟨rfl, fun _ h => by cases h⟩
  · exact ⟨rfl, fun _ h => by cases h⟩

theorem quiet_chargeState (n : Nat) : Quiet (chargeState n) := by
  intro s
  unfold chargeState
  split
  · exact ⟨rfl, fun _ h => by cases h⟩
  · split
    · exact ⟨rfl, fun _ h => by cases h⟩
    · exact ⟨rfl, fun _ h => by cases h⟩

theorem quiet_ite {α : Type} {c : Prop} [Decidable c] {x y : M α} (hx : Quiet x) (hy : Quiet y) :
    Quiet (if c then x else y) := by split <;> assumption

theorem Asks.bind {α β : Type} {env : Env} {P : Query → Prop} {m : M α} {f : α → M β} {s : Cx}
    (h : Asks env P m s) (hf : ∀ a, Quiet (f a)) : Asks env P (m >>= f) s := by
  have h1 := h.one
  have h2 := h.fatal
  constructor
  · rw [bind_run]
    cases hm : m s with
    | ok a s' =>
      rw [hm] at h1
      show (ending (f a s')).queries = _ ∨ _
      rw [(hf a s').1]
      exact h1
    | error e s' =>
      rw [hm] at h1
      exact h1
  · intro s'' hr
    rw [bind_run] at hr
    cases hm : m s with
    | ok a s' =>
      rw [hm] at hr
      exact absurd hr ((hf a s').2 s'')
    | error e s' =>
      rw [hm] at hr
      cases hr
      exact h2 s'' hm

theorem Quiet.bind {α β : Type} {m : M α} {f : α → M β} (hm : Quiet m) (hf : ∀ a, Quiet (f a)) : Quiet (m >>= f) := by
  intro s
  rw [bind_run]
  have h1 := hm s
  cases hms : m s with
  | ok a s' =>
    rw [hms] at h1
    exact ⟨(hf a s').1.trans h1.1, (hf a s').2⟩
  | error e s' =>
    rw [hms] at h1
    exact ⟨h1.1, fun s'' h => h1.2 s'' (by cases h; rfl)⟩

theorem asks_charge {α : Type} {env : Env} {P : Query → Prop} {n : Nat} {m : Unit → M α} {s : Cx}
    (h : n ≤ s.gas → Asks env P (m ()) { s with gas := s.gas - n }) : Asks env P (charge n >>= m) s := by
  by_cases hn : n ≤ s.gas
  · have hr : (charge n >>= m) s = m () { s with gas := s.gas - n } := by
      rw [bind_run, charge_run, if_pos hn]
    constructor
    · rw [hr]; exact (h hn).one
    · rw [hr]; exact (h hn).fatal
  · have hr : (charge n >>= m) s = .error (.err .OutOfGas) s := by
      rw [bind_run, charge_run, if_neg hn]
    constructor
    · rw [hr]; exact Or.inl rfl
    · rw [hr]; intro s' h; cases h

theorem asks_get {α : Type} {env : Env} {P : Query → Prop} {m : Cx → M α} {s : Cx} (h : Asks env P (m s) s) :
    Asks env P (get >>= m) s := ⟨h.one, h.fatal⟩

theorem asks_check {α : Type} {env : Env} {P : Query → Prop} {m : Unit → M α} {s : Cx} (h : Asks env P (m ()) s) :
    Asks env P (ensureNonStatic env >>= m) s := by
  unfold ensureNonStatic
  by_cases hs : env.isStatic = true
  · rw [if_pos hs]
    exact ⟨Or.inl rfl, fun _ h => by cases h⟩
  · rw [if_neg hs]
    exact ⟨h.one, h.fatal⟩

theorem asks_account {env : Env} {P : Query → Prop} {a : Nat} {skip : Bool} {s : Cx}
    (h : s.world.accessed a = false → skip = false → P (.account a)) : Asks env P (hostLoadAccount env a skip) s := by
  have hrun : hostLoadAccount env a skip s =
      if s.world.accessed a then .ok false s
      else if skip then .error (.err .OutOfGas) s
      else if env.db (.account a) then
        .ok true { s with queries := s.queries ++ [.account a], world := s.world.touch a }
      else .error (.err .FatalExternalError) { s with queries := s.queries ++ [.account a] } := by
    unfold hostLoadAccount
    simp only [bind_run, get_run, ite_run, pure_run, throw_run, modify_run]
    unfold ask
    cases env.db (.account a) <;> rfl
  cases hw : s.world.accessed a with
  | true =>
    rw [hw] at hrun
    exact ⟨by rw [hrun]; exact Or.inl rfl, by rw [hrun]; intro _ h; cases h⟩
  | false =>
    cases hs : skip with
    | true =>
      rw [hw, hs] at hrun
      exact ⟨by rw [hrun]; exact Or.inl rfl, by rw [hrun]; intro _ h; cases h⟩
    | false =>
      rw [hw, hs] at hrun
      cases hd : env.db (.account a) with
      | true =>
        rw [hd] at hrun
        exact ⟨by rw [hrun]; exact Or.inr ⟨_, h hw hs, rfl⟩, by rw [hrun]; intro _ h; cases h⟩
      | false =>
        rw [hd] at hrun
        exact ⟨by rw [hrun]; exact Or.inr ⟨_, h hw hs, rfl⟩, by rw [hrun]; intro _ h; cases h; exact ⟨_, rfl, hd⟩⟩

theorem asks_slot {env : Env} {P : Query → Prop} {a : Nat} {k : Word} {skip : Bool} {s : Cx}
    (h : s.world.accessedSlot a k = false → skip = false → P (.slot a k)) : Asks env P (hostSload env a k skip) s := by
  have hrun : hostSload env a k skip s =
      if s.world.accessedSlot a k then .ok (s.world.storage a k, false) s
      else if skip then .error (.err .OutOfGas) s
      else if env.db (.slot a k) then
        .ok (s.world.storage a k, true) { s with queries := s.queries ++ [.slot a k], world := s.world.touchSlot a k }
      else .error (.err .FatalExternalError) { s with queries := s.queries ++ [.slot a k] } := by
    unfold hostSload
    simp only [bind_run, get_run, ite_run, pure_run, throw_run, modify_run]
    unfold ask
    cases env.db (.slot a k) <;> rfl
  cases hw : s.world.accessedSlot a k with
  | true =>
    rw [hw] at hrun
    exact ⟨by rw [hrun]; exact Or.inl rfl, by rw [hrun]; intro _ h; cases h⟩
  | false =>
    cases hs : skip with
    | true =>
      rw [hw, hs] at hrun
      exact ⟨by rw [hrun]; exact Or.inl rfl, by rw [hrun]; intro _ h; cases h⟩
    | false =>
      rw [hw, hs] at hrun
      cases hd : env.db (.slot a k) with
      | true =>
        rw [hd] at hrun
        exact ⟨by rw [hrun]; exact Or.inr ⟨_, h hw hs, rfl⟩, by rw [hrun]; intro _ h; cases h⟩
      | false =>
        rw [hd] at hrun
        exact ⟨by rw [hrun]; exact Or.inr ⟨_, h hw hs, rfl⟩, by rw [hrun]; intro _ h; cases h; exact ⟨_, rfl, hd⟩⟩

theorem asks_loadAccount {env : Env} {P : Query → Prop} {a : Nat} {s : Cx}
    (h : s.world.accessed a = false → (GasParams.of env.spec).coldAccountAdditional ≤ s.gas → P (.account a)) :
    Asks env P (loadAccount env a) s := by
  unfold loadAccount
  refine asks_get (Asks.bind (asks_account fun h1 h2 => h h1 ?_) fun b => ?_)
  · simpa using h2
  · split
    · exact quiet_charge _
    · exact quiet_pure _

theorem asks_sload {env : Env} {P : Query → Prop} {k : Word} {s : Cx}
    (h : s.world.accessedSlot env.self k = false →
      (SpecId.BERLIN ≤ env.spec → (GasParams.of env.spec).coldStorageAdditional ≤ s.gas) → P (.slot env.self k)) :
    Asks env P (sload env k) s := by
  unfold sload enabled
  by_cases hB : SpecId.BERLIN ≤ env.spec
  · simp only [hB, decide_true, if_true]
    refine asks_get (Asks.bind (asks_slot fun h1 h2 => h h1 fun _ => by simpa using h2) fun r => ?_)
    obtain ⟨v, cold⟩ := r
    dsimp only
    split
    · exact Quiet.bind (quiet_charge _) fun _ => quiet_pure _
    · exact Quiet.bind (quiet_pure _) fun _ => quiet_pure _
  · simp only [hB, decide_false, Bool.false_eq_true, if_false]
    exact Asks.bind (asks_slot fun h1 _ => h h1 fun h3 => absurd h3 hB) fun r => quiet_pure _

theorem asks_sstore {env : Env} {P : Query → Prop} {args : List Word} {s : Cx}
    (h : s.world.accessedSlot env.self (atSp args 1) = false →
      (SpecId.BERLIN ≤ env.spec → (GasParams.of env.spec).sstoreStatic +
        (GasParams.of env.spec).coldStorageAdditional ≤ s.gas) → P (.slot env.self (atSp args 1))) :
    Asks env P (sstore env args) s := by
  unfold sstore
  refine asks_check (asks_get ?_)
  dsimp only
  split
  · exact ⟨Or.inl rfl, fun _ h => by cases h⟩
  · refine asks_charge fun hn => ?_
    refine Asks.bind ?_ fun r => ?_
    · have hs : ∀ skip : Bool, (SpecId.BERLIN ≤ env.spec → skip = false →
          (GasParams.of env.spec).sstoreStatic + (GasParams.of env.spec).coldStorageAdditional ≤ s.gas) →
          Asks env P (hostSstore env env.self (atSp args 1) (atSp args 0) skip)
            { s with gas := s.gas - (GasParams.of env.spec).sstoreStatic } := by
        intro skip hsk
        unfold hostSstore
        refine Asks.bind (asks_slot fun h1 h2 => h h1 fun h3 => hsk h3 h2) fun r => ?_
        refine Quiet.bind quiet_get fun s' => ?_
        dsimp only
        split
        · exact quiet_pure _
        · exact Quiet.bind (quiet_modify fun _ => rfl) fun _ => quiet_pure _
      unfold sstoreWrite enabled
      by_cases hB : SpecId.BERLIN ≤ env.spec
      · simp only [hB, decide_true, if_true]
        refine asks_get (hs _ fun _ h2 => ?_)
        have := of_decide_eq_false h2
        dsimp only at this
        omega
      · simp only [hB, decide_false, Bool.false_eq_true, if_false]
        exact hs _ fun h3 => absurd h3 hB
    · obtain ⟨r, cold⟩ := r
      dsimp only
      unfold sstoreSettle
      refine Quiet.bind (quiet_charge _) fun _ => ?_
      have hend : Quiet (do
          modify fun s : Cx => { s with refund := s.refund +
            (GasParams.of env.spec).sstoreRefund (enabled env SpecId.ISTANBUL) r }
          pure none : M (Option Word)) := Quiet.bind (quiet_modify fun _ => rfl) fun _ => quiet_pure _
      dsimp only
      split
      · refine Quiet.bind (quiet_chargeState _) fun _ => ?_
        split
        · exact Quiet.bind (quiet_modify fun _ => rfl) fun _ => hend
        · exact hend
      · exact hend

theorem asks_selfdestruct {env : Env} {P : Query → Prop} {args : List Word} {s : Cx}
    (h : s.world.accessed (toAddress (atSp args 0)) = false →
      (GasParams.of env.spec).selfdestructCold ≤ s.gas → P (.account (toAddress (atSp args 0)))) :
    Asks env P (selfdestruct env args) s := by
  unfold selfdestruct
  refine asks_check (asks_get (Asks.bind ?_ fun r => ?_))
  · unfold hostSelfdestruct
    refine Asks.bind (asks_account fun h1 h2 => h h1 ?_) fun b => ?_
    · simpa using h2
    · exact Quiet.bind quiet_get fun _ => Quiet.bind (quiet_modify fun _ => rfl) fun _ => quiet_pure _
  · refine Quiet.bind (quiet_charge _) fun _ => ?_
    have hend : Quiet (do
        if !r.previously then
          modify fun s : Cx => { s with refund := s.refund + (GasParams.of env.spec).selfdestructRefund }
        throw (.err .SelfDestruct) : M (Option Word)) := by
      dsimp only
      split
      · exact Quiet.bind (quiet_modify fun _ => rfl) fun _ => quiet_throw (by simp)
      · exact quiet_throw (by simp)
    dsimp only at hend ⊢
    exact quiet_ite (Quiet.bind (quiet_chargeState _) fun _ => hend) hend

end Verif.Access
