import Verif.Lemmas.Imm

/-!
# Property C06 (constant handles)
-/

namespace Verif

/-- A session that creates handles for the values in order, starting from pool `it`
(repeated `U256Imm::new`, mod.rs:91-104). -/
def handleAll : List Word → Interner → List U256Imm × Interner
  | [], it => ([], it)
  | v :: vs, it =>
    let (h, it') := U256Imm.new v it
    let r := handleAll vs it'
    (h :: r.1, r.2)

theorem handleAll_prefix (vs : List Word) (it : Interner) : it <+: (handleAll vs it).2 := by
  induction vs generalizing it with
  | nil => exact List.prefix_refl _
  | cons v vs ih => exact (U256Imm.new_prefix v it).trans (ih _)

theorem handleAll_ok (vs : List Word) {it : Interner} (h : it.Ok) : (handleAll vs it).2.Ok := by
  induction vs generalizing it with
  | nil => exact h
  | cons v vs ih => exact ih (U256Imm.new_ok h v)

theorem handleAll_get (vs : List Word) (it : Interner)
    (hlen : (handleAll vs it).2.length ≤ 2 ^ 31) (i : Nat) (v : Word) (hv : vs[i]? = some v) :
    ∃ h, (handleAll vs it).1[i]? = some h ∧ h.get (handleAll vs it).2 = some v ∧ h.raw < 2 ^ 32 := by
  induction vs generalizing it i with
  | nil => simp at hv
  | cons w vs ih =>
    cases i with
    | zero =>
      simp only [List.getElem?_cons_zero, Option.some.injEq] at hv
      subst hv
      have hp := handleAll_prefix vs (U256Imm.new w it).2
      have hl : (U256Imm.new w it).2.length ≤ 2 ^ 31 := Nat.le_trans hp.length_le hlen
      have hg := U256Imm.new_get w it hl
      refine ⟨(U256Imm.new w it).1, rfl, U256Imm.get_mono hp hg, ?_⟩
      unfold U256Imm.new
      split
      · rename_i hc; simp only [U256Imm.TAG] at *; omega
      · rename_i hc
        have hi := (List.getElem?_eq_some_iff.1 (Interner.intern_get it w)).1
        simp only [U256Imm.new, if_neg hc] at hl
        simp only; omega
    | succ i =>
      simp only [List.getElem?_cons_succ] at hv
      obtain ⟨h, h1, h2⟩ := ih (U256Imm.new w it).2 hlen i hv
      exact ⟨h, h1, h2⟩

/-- C06: in any session of constant insertions (with a pool of at most 2^31 entries, which the code
asserts in debug builds), every handle handed out still reads back exactly the value it was created
for at the end of the session. -/
theorem C06_handle_stable (vs : List Word)
    (hlen : (handleAll vs []).2.length ≤ 2 ^ 31) (i : Nat) (v : Word) (hv : vs[i]? = some v) :
    ∃ h, (handleAll vs []).1[i]? = some h ∧ h.get (handleAll vs []).2 = some v := by
  obtain ⟨h, h1, h2, _⟩ := handleAll_get vs [] hlen i v hv
  exact ⟨h, h1, h2⟩

/-- C06: two handles of the same session are equal exactly when their values are equal. -/
theorem C06_handle_eq_iff (vs : List Word)
    (hlen : (handleAll vs []).2.length ≤ 2 ^ 31) (i j : Nat) (v w : Word)
    (hv : vs[i]? = some v) (hw : vs[j]? = some w) :
    (handleAll vs []).1[i]? = (handleAll vs []).1[j]? ↔ v = w := by
  obtain ⟨h, h1, h2, h3⟩ := handleAll_get vs [] hlen i v hv
  obtain ⟨k, k1, k2, k3⟩ := handleAll_get vs [] hlen j w hw
  rw [h1, k1]
  constructor
  · intro e
    cases e
    rw [h2] at k2
    exact Option.some.inj k2
  · intro e
    subst e
    rw [U256Imm.get_inj (handleAll_ok vs Interner.ok_nil) h2 k2 h3 k3]

/-- A session with an inlined value, the first interned value (2^31) and a repeated one. -/
example :
    let r := handleAll [5, 0x80000000, 0xffffffffff, 0x80000000] []
    r.2.length ≤ 2 ^ 31 ∧ r.1.map (·.raw) = [0x80000005, 0, 1, 0] := by decide

end Verif
