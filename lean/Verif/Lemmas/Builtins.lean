import Verif.Model.Builtins
/-!
# Inversion lemmas for the builtin monad
-/

namespace Verif.Builtins

instance {ε σ α : Type} [DecidableEq ε] [DecidableEq σ] [DecidableEq α] :
    DecidableEq (EStateM.Result ε σ α)
  | .ok a s, .ok b t =>
    if h : a = b ∧ s = t then isTrue (by rw [h.1, h.2])
    else isFalse (fun e => h (by cases e; exact ⟨rfl, rfl⟩))
  | .error a s, .error b t =>
    if h : a = b ∧ s = t then isTrue (by rw [h.1, h.2])
    else isFalse (fun e => h (by cases e; exact ⟨rfl, rfl⟩))
  | .ok _ _, .error _ _ => isFalse (fun e => by cases e)
  | .error _ _, .ok _ _ => isFalse (fun e => by cases e)

theorem bind_ok {α β : Type} {m : M α} {f : α → M β} {s s'' : Ecx} {b : β} :
    (m >>= f) s = .ok b s'' ↔ ∃ a s', m s = .ok a s' ∧ f a s' = .ok b s'' := by
  show EStateM.bind m f s = _ ↔ _
  unfold EStateM.bind
  cases h : m s with
  | ok a s' =>
    constructor
    · intro h'; exact ⟨a, s', rfl, h'⟩
    · rintro ⟨a', s1, h1, h2⟩; cases h1; exact h2
  | error e s' =>
    constructor
    · intro h'; cases h'
    · rintro ⟨_, _, h1, _⟩; cases h1

theorem bind_error {α β : Type} {m : M α} {f : α → M β} {s s'' : Ecx} {e : Err} :
    (m >>= f) s = .error e s'' ↔
      m s = .error e s'' ∨ ∃ a s', m s = .ok a s' ∧ f a s' = .error e s'' := by
  show EStateM.bind m f s = _ ↔ _
  unfold EStateM.bind
  cases h : m s with
  | ok a s' =>
    constructor
    · intro h'; exact Or.inr ⟨a, s', rfl, h'⟩
    · rintro (h' | ⟨a', s1, h1, h2⟩)
      · cases h'
      · cases h1; exact h2
  | error e s' =>
    constructor
    · intro h'; cases h'; exact Or.inl rfl
    · rintro (h' | ⟨_, _, h1, _⟩)
      · cases h'; rfl
      · cases h1

theorem pure_ok {α : Type} {a b : α} {s s' : Ecx} :
    (pure a : M α) s = .ok b s' ↔ a = b ∧ s = s' := by
  show EStateM.Result.ok a s = _ ↔ _
  constructor
  · intro h; cases h; exact ⟨rfl, rfl⟩
  · rintro ⟨rfl, rfl⟩; rfl

theorem pure_error {α : Type} {a : α} {e : Err} {s s' : Ecx} :
    (pure a : M α) s = .error e s' ↔ False := by
  constructor
  · intro h; cases h
  · exact False.elim

theorem throw_ok {α : Type} {e : Err} {b : α} {s s' : Ecx} :
    (throw e : M α) s = .ok b s' ↔ False := by
  constructor
  · intro h; cases h
  · exact False.elim

theorem throw_error {α : Type} {e e' : Err} {s s' : Ecx} :
    (throw e : M α) s = .error e' s' ↔ e = e' ∧ s = s' := by
  show EStateM.Result.error e s = _ ↔ _
  constructor
  · intro h; cases h; exact ⟨rfl, rfl⟩
  · rintro ⟨rfl, rfl⟩; rfl

theorem get_ok {b s s' : Ecx} : (get : M Ecx) s = .ok b s' ↔ s = b ∧ s = s' := by
  show EStateM.Result.ok s s = _ ↔ _
  constructor
  · intro h; cases h; exact ⟨rfl, rfl⟩
  · rintro ⟨rfl, rfl⟩; rfl

theorem get_error {e : Err} {s s' : Ecx} : (get : M Ecx) s = .error e s' ↔ False := by
  constructor
  · intro h; cases h
  · exact False.elim

theorem chargeGas_ok {n : Nat} {u : Unit} {s s' : Ecx} :
    chargeGas n s = .ok u s' ↔ n ≤ s.gas ∧ s' = { s with gas := s.gas - n } := by
  unfold chargeGas
  split <;> rename_i h
  · constructor
    · intro h'; cases h'; exact ⟨h, rfl⟩
    · rintro ⟨_, rfl⟩; rfl
  · constructor
    · intro h'; cases h'
    · rintro ⟨h', _⟩; exact absurd h' h

theorem chargeGas_error {n : Nat} {e : Err} {s s' : Ecx} :
    chargeGas n s = .error e s' ↔ s.gas < n ∧ e = .OutOfGas ∧ s' = s := by
  unfold chargeGas
  split <;> rename_i h
  · constructor
    · intro h'; cases h'
    · rintro ⟨h', _⟩; omega
  · constructor
    · intro h'; cases h'; exact ⟨by omega, rfl, rfl⟩
    · rintro ⟨_, rfl, rfl⟩; rfl

/-- Regular gas taken by a state-gas charge of `n` with reservoir `r`. -/
theorem chargeState_ok {n : Nat} {u : Unit} {s s' : Ecx} :
    chargeState n s = .ok u s' ↔ n - s.reservoir ≤ s.gas ∧
      s' = { s with gas := s.gas - (n - s.reservoir), reservoir := s.reservoir - n } := by
  unfold chargeState
  split
  · rename_i h
    have : n - s.reservoir = 0 := by omega
    constructor
    · intro h'; cases h'; rw [this]; exact ⟨by omega, rfl⟩
    · rintro ⟨_, rfl⟩; rw [this]; rfl
  · rename_i h
    have : s.reservoir - n = 0 := by omega
    split
    · rename_i h2
      constructor
      · intro h'; cases h'; rw [this]; exact ⟨h2, rfl⟩
      · rintro ⟨_, rfl⟩; rw [this]
    · rename_i h2
      constructor
      · intro h'; cases h'
      · rintro ⟨h', _⟩; exact absurd h' h2

theorem ensureNonStatic_ok {u : Unit} {s s' : Ecx} :
    ensureNonStatic s = .ok u s' ↔ s.isStatic = false ∧ s = s' := by
  unfold ensureNonStatic
  cases h : s.isStatic <;> simp

theorem tryUsize_ok {w : Word} {n : Nat} {s s' : Ecx} :
    tryUsize w s = .ok n s' ↔ w.toNat < 2 ^ 64 ∧ w.toNat = n ∧ s = s' := by
  unfold tryUsize
  split <;> rename_i h
  · constructor
    · intro h'; cases h'; exact ⟨h, rfl, rfl⟩
    · rintro ⟨_, rfl, rfl⟩; rfl
  · constructor
    · intro h'; cases h'
    · rintro ⟨h', _⟩; exact absurd h' h

theorem setAction_ok {c : Child} {u : Unit} {s s' : Ecx} :
    setAction c s = .ok u s' ↔ s' = { s with nextAction := some c } := by
  unfold setAction
  constructor
  · intro h; cases h; rfl
  · rintro rfl; rfl

/-- Memory words after `ensure_memory`. -/
def grown (s : Ecx) (off len : Nat) : Nat := max s.words (numWords (satAdd off len))

theorem ensureMemory_ok {env : Env} {off len : Nat} {u : Unit} {s s' : Ecx} :
    ensureMemory env off len s = .ok u s' ↔
      env.memCost (grown s off len) - env.memCost s.words ≤ s.gas ∧
      s' = { s with gas := s.gas - (env.memCost (grown s off len) - env.memCost s.words),
                    words := grown s off len } := by
  unfold ensureMemory grown
  dsimp only
  split <;> rename_i h
  · have : max s.words (numWords (satAdd off len)) = numWords (satAdd off len) := by omega
    rw [this]
    split <;> rename_i h2
    · constructor
      · intro h'; cases h'; exact ⟨h2, rfl⟩
      · rintro ⟨_, rfl⟩; rfl
    · constructor
      · intro h'; cases h'
      · rintro ⟨h', _⟩; exact absurd h' h2
  · have : max s.words (numWords (satAdd off len)) = s.words := by omega
    rw [this, Nat.sub_self]
    constructor
    · intro h'; cases h'; exact ⟨Nat.zero_le _, rfl⟩
    · rintro ⟨_, rfl⟩; rfl

/-- `m` changes nothing but gas and memory size, whether it succeeds or fails. -/
def Keeps {α : Type} (m : M α) : Prop := ∀ s s',
  ((∃ a, m s = .ok a s') ∨ (∃ e, m s = .error e s')) →
    s'.isStatic = s.isStatic ∧ s'.self = s.self ∧ s'.caller = s.caller ∧ s'.host = s.host ∧
      s'.nextAction = s.nextAction

theorem Keeps.bind {α β : Type} {m : M α} {f : α → M β} (hm : Keeps m) (hf : ∀ a, Keeps (f a)) :
    Keeps (m >>= f) := by
  intro s s' h
  rcases h with ⟨b, h⟩ | ⟨e, h⟩
  · obtain ⟨a, s1, h1, h2⟩ := bind_ok.1 h
    have k1 := hm s s1 (Or.inl ⟨a, h1⟩)
    have k2 := hf a s1 s' (Or.inl ⟨b, h2⟩)
    simp_all
  · rcases bind_error.1 h with h1 | ⟨a, s1, h1, h2⟩
    · exact hm s s' (Or.inr ⟨e, h1⟩)
    · have k1 := hm s s1 (Or.inl ⟨a, h1⟩)
      have k2 := hf a s1 s' (Or.inr ⟨e, h2⟩)
      simp_all

theorem Keeps.pure {α : Type} (a : α) : Keeps (Pure.pure a : M α) := by
  rintro s s' (⟨b, h⟩ | ⟨e, h⟩) <;> cases h <;> simp

theorem Keeps.throw {α : Type} (e : Err) : Keeps (throw e : M α) := by
  rintro s s' (⟨b, h⟩ | ⟨e, h⟩) <;> cases h <;> simp

theorem Keeps.get : Keeps (get : M Ecx) := by
  rintro s s' (⟨b, h⟩ | ⟨e, h⟩) <;> cases h <;> simp

theorem Keeps.chargeGas (n : Nat) : Keeps (chargeGas n) := by
  intro s s' h
  unfold Builtins.chargeGas at h
  split at h <;> (rcases h with ⟨b, h⟩ | ⟨e, h⟩ <;> cases h <;> simp)

theorem Keeps.chargeState (n : Nat) : Keeps (chargeState n) := by
  intro s s' h
  unfold Builtins.chargeState at h
  split at h
  · rcases h with ⟨b, h⟩ | ⟨e, h⟩ <;> cases h <;> simp
  · split at h <;> (rcases h with ⟨b, h⟩ | ⟨e, h⟩ <;> cases h <;> simp)

theorem Keeps.ensureNonStatic : Keeps ensureNonStatic := by
  intro s s' h
  unfold Builtins.ensureNonStatic at h
  split at h <;> (rcases h with ⟨b, h⟩ | ⟨e, h⟩ <;> cases h <;> simp)

theorem Keeps.tryUsize (w : Word) : Keeps (tryUsize w) := by
  intro s s' h
  unfold Builtins.tryUsize at h
  split at h <;> (rcases h with ⟨b, h⟩ | ⟨e, h⟩ <;> cases h <;> simp)

theorem Keeps.ensureMemory (env : Env) (off len : Nat) : Keeps (ensureMemory env off len) := by
  intro s s' h
  unfold Builtins.ensureMemory at h
  dsimp only at h
  split at h
  · split at h <;> (rcases h with ⟨b, h⟩ | ⟨e, h⟩ <;> cases h <;> simp)
  · rcases h with ⟨b, h⟩ | ⟨e, h⟩ <;> cases h <;> simp

theorem Keeps.ite {α : Type} {c : Prop} [Decidable c] {m n : M α} (hm : Keeps m) (hn : Keeps n) :
    Keeps (if c then m else n) := by
  split <;> assumption

theorem Keeps.cond {c : Prop} [Decidable c] {m : M Unit} (hm : Keeps m) : Keeps (cond c m) :=
  Keeps.ite hm (Keeps.pure _)

theorem cond_pos {c : Prop} [Decidable c] (h : c) (m : M Unit) : cond c m = m := if_pos h
theorem cond_neg {c : Prop} [Decidable c] (h : ¬ c) (m : M Unit) : cond c m = pure () := if_neg h

theorem cond_throw_ok {c : Prop} [Decidable c] {e : Err} {u : Unit} {s s' : Ecx} :
    cond c (throw e) s = .ok u s' ↔ ¬ c ∧ s = s' := by
  by_cases h : c
  · rw [cond_pos h, throw_ok]; simp [h]
  · rw [cond_neg h, pure_ok]; simp [h]

theorem cond_charge_ok {c : Prop} [Decidable c] {n : Nat} {u : Unit} {s s' : Ecx} :
    cond c (chargeGas n) s = .ok u s' ↔
    (if c then n else 0) ≤ s.gas ∧ s' = { s with gas := s.gas - (if c then n else 0) } := by
  by_cases h : c
  · rw [cond_pos h, chargeGas_ok]; simp [h]
  · rw [cond_neg h, pure_ok]
    simp only [h, if_false, Nat.zero_le, true_and, Nat.sub_zero]
    exact eq_comm

theorem Keeps.callRange (env : Env) (off len : Word) : Keeps (callRange env off len) := by
  unfold Builtins.callRange
  refine (Keeps.tryUsize len).bind fun l => ?_
  refine Keeps.cond ?_
  exact (Keeps.tryUsize off).bind fun o => Keeps.ensureMemory env o l

end Verif.Builtins
