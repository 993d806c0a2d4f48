import Verif.Lemmas.WholeGasNum
import Verif.Lemmas.WholeEnd
/-!
# The sections of a block are those of the section analysis
-/

namespace Verif

section
variable (insts : List InstData) (spec : SpecId) (dyn : Bool)

/-- Whether a new section has to start at `i`: the last live instruction before ended one, or there is none. -/
def freshAt : Nat → Bool
  | 0 => true
  | i + 1 => match insts[i]? with
    | some d => if d.flags.deadCode then freshAt i else d.endsSection spec
    | none => freshAt i

/-- A section starts at `i`. -/
def SecHead (i : Nat) : Prop :=
  freshAt insts spec i = true ∨ ∃ d, insts[i]? = some d ∧ d.isReachableJumpdest dyn = true

theorem specSecs_drop : ∀ i, i ≤ insts.length →
    (specSecs spec dyn true insts 0).drop i = specSecs spec dyn (freshAt insts spec i) (insts.drop i) i
  | 0, _ => rfl
  | i + 1, h => by
    have ih := specSecs_drop i (by omega)
    have hd : insts[i]? = some (insts[i]'(by omega)) := List.getElem?_eq_getElem (by omega)
    rw [← List.drop_drop, ih, ← List.getElem_cons_drop (show i < insts.length by omega), specSecs_cons]
    have he : freshAt insts spec (i + 1) = if (insts[i]'(by omega)).flags.deadCode then freshAt insts spec i
        else (insts[i]'(by omega)).endsSection spec := by
      show (match insts[i]? with
        | some d => if d.flags.deadCode then freshAt insts spec i else d.endsSection spec
        | none => freshAt insts spec i) = _
      rw [hd]
    rw [he]
    split <;> rfl

theorem table_at {i : Nat} {d : InstData} (hd : insts[i]? = some d) (hl : d.flags.deadCode = false)
    (h : SecHead insts spec dyn i) : (Spec.table insts spec dyn)[i]?.join =
      some ((d, i) :: if d.endsSection spec then [] else specRest spec dyn (insts.drop (i + 1)) (i + 1)) := by
  obtain ⟨hlt, hdi⟩ := List.getElem?_eq_some_iff.1 hd
  have h1 := specSecs_drop insts spec dyn i (by omega)
  have h2 : (Spec.table insts spec dyn)[i]? = ((specSecs spec dyn true insts 0).drop i)[0]? := by
    rw [List.getElem?_drop]; rfl
  rw [h2, h1, ← List.getElem_cons_drop hlt, hdi, specSecs_cons_live _ _ _ hl, List.getElem?_cons_zero]
  have h3 : (freshAt insts spec i || d.isReachableJumpdest dyn) = true := by
    rcases h with h | ⟨d', h, h'⟩
    · rw [h]; rfl
    · rw [hd] at h; cases h; rw [h']; simp
  rw [h3]
  rfl

end

/-- Consecutive instructions of a program. -/
def Consec (insts : List InstData) : Nat → List (Nat × InstData) → Prop
  | _, [] => True
  | i, x :: l => x.1 = i ∧ insts[i]? = some x.2 ∧ Consec insts (i + 1) l

theorem Consec.append {insts : List InstData} : ∀ {i : Nat} {a b : List (Nat × InstData)},
    Consec insts i (a ++ b) ↔ Consec insts i a ∧ Consec insts (i + a.length) b
  | i, [], b => by simp [Consec]
  | i, x :: a, b => by
    have := Consec.append (insts := insts) (i := i + 1) (a := a) (b := b)
    simp only [List.cons_append, Consec, this, List.length_cons]
    rw [show i + 1 + a.length = i + (a.length + 1) by omega]
    constructor
    · rintro ⟨h1, h2, h3, h4⟩; exact ⟨⟨h1, h2, h3⟩, h4⟩
    · rintro ⟨⟨h1, h2, h3⟩, h4⟩; exact ⟨h1, h2, h3, h4⟩

theorem consec_slice {p : Prog} {s : Nat} : ∀ {n : Nat}, s + n ≤ p.insts.length → Consec p.insts s (p.slice s n)
  | 0, _ => by unfold Prog.slice; simp [Consec]
  | n + 1, h => by
    obtain ⟨d, hd⟩ : ∃ d, p.insts[s + n]? = some d := ⟨_, List.getElem?_eq_getElem (by omega)⟩
    rw [slice_succ hd, Consec.append]
    refine ⟨consec_slice (by omega), ?_⟩
    rw [slice_len' (by omega)]
    exact ⟨rfl, hd, trivial⟩

/-- The rest of a section: live instructions that no jump reaches, only the last of which may end the section. -/
theorem specRest_consec {insts : List InstData} {spec : SpecId} {dyn : Bool} :
    ∀ {i : Nat} {l : List (Nat × InstData)}, Consec insts i l → (∀ x ∈ l, x.2.flags.deadCode = false) →
      (∀ x ∈ l, x.2.isReachableJumpdest dyn = false) → (∀ x ∈ l.dropLast, x.2.endsSection spec = false) →
      specRest spec dyn (insts.drop i) i = l.map (fun x => (x.2, x.1)) ++
        if l.getLast?.any (fun x => x.2.endsSection spec) then []
        else specRest spec dyn (insts.drop (i + l.length)) (i + l.length)
  | i, [], _, _, _, _ => by simp
  | i, x :: l, hc, h1, h2, h3 => by
    obtain ⟨e1, e2, hc'⟩ := hc
    obtain ⟨hlt, hdi⟩ := List.getElem?_eq_some_iff.1 e2
    rw [← List.getElem_cons_drop hlt, hdi, specRest_cons_live _ _ (h1 x (by simp)), h2 x (by simp)]
    simp only [Bool.false_eq_true, if_false]
    cases l with
    | nil =>
      simp only [List.map_cons, List.map_nil, List.getLast?_singleton, Option.any_some, List.length_cons,
        List.length_nil, e1]
      rfl
    | cons y l =>
      have ih := specRest_consec (spec := spec) (dyn := dyn) hc' (fun z hz => h1 z (by simp [hz]))
        (fun z hz => h2 z (by simp [hz])) (fun z hz => h3 z (by
          rw [List.dropLast_cons_of_ne_nil (by simp)]; exact List.mem_cons_of_mem _ hz))
      rw [h3 x (by rw [List.dropLast_cons_of_ne_nil (by simp)]; simp)]
      simp only [Bool.false_eq_true, if_false]
      rw [ih]
      simp only [List.map_cons, e1, List.cons_append, List.getLast?_cons_cons, List.length_cons]
      rw [show i + 1 + (l.length + 1) = i + (l.length + 1 + 1) by omega]

/-- A section, from its head. -/
theorem table_consec {insts : List InstData} {spec : SpecId} {dyn : Bool} {i : Nat} {x : Nat × InstData}
    {l : List (Nat × InstData)} (hc : Consec insts i (x :: l)) (h0 : SecHead insts spec dyn i)
    (h1 : ∀ y ∈ x :: l, y.2.flags.deadCode = false)
    (h2 : ∀ y ∈ l, y.2.isReachableJumpdest dyn = false) (h3 : ∀ y ∈ (x :: l).dropLast, y.2.endsSection spec = false) :
    (Spec.table insts spec dyn)[i]?.join = some ((x :: l).map (fun x => (x.2, x.1)) ++
        if (x :: l).getLast?.any (fun x => x.2.endsSection spec) then []
        else specRest spec dyn (insts.drop (i + (x :: l).length)) (i + (x :: l).length)) := by
  obtain ⟨e1, e2, hc'⟩ := hc
  rw [table_at insts spec dyn e2 (h1 x (by simp)) h0]
  cases l with
  | nil =>
    simp only [List.map_cons, List.map_nil, List.getLast?_singleton, Option.any_some, List.length_cons,
      List.length_nil, e1]
    rfl
  | cons y l =>
    rw [h3 x (by rw [List.dropLast_cons_of_ne_nil (by simp)]; simp)]
    simp only [Bool.false_eq_true, if_false]
    rw [specRest_consec hc' (fun z hz => h1 z (by simp [hz])) h2 (fun z hz => h3 z (by
          rw [List.dropLast_cons_of_ne_nil (by simp)]; exact List.mem_cons_of_mem _ hz))]
    simp only [List.map_cons, e1, List.cons_append, List.getLast?_cons_cons, List.length_cons]
    rw [show i + 1 + (l.length + 1) = i + (l.length + 1 + 1) by omega]

/-- Before a jump target nothing belongs to the section. -/
theorem specRest_entry {insts : List InstData} {spec : SpecId} {dyn : Bool} {i : Nat} {d : InstData}
    (hd : insts[i]? = some d) (hl : d.flags.deadCode = false) (h : d.isReachableJumpdest dyn = true) :
    specRest spec dyn (insts.drop i) i = [] := by
  obtain ⟨hlt, hdi⟩ := List.getElem?_eq_some_iff.1 hd
  rw [← List.getElem_cons_drop hlt, hdi, specRest_cons_live _ _ hl, h]
  rfl

/-! ## Cutting a block -/

theorem split_ne {spec : SpecId} : ∀ {l : List (Nat × InstData)}, l ≠ [] → splitSections spec l ≠ []
  | [], h => absurd rfl h
  | x :: l, _ => by
    unfold splitSections
    split
    · simp
    · split <;> simp

/-- How a block is cut. -/
theorem split_cut {spec : SpecId} : ∀ {l : List (Nat × InstData)} {A B : List (List (Nat × InstData))}
    {s : List (Nat × InstData)}, splitSections spec l = A ++ s :: B →
      (A.flatten = [] ∨ ∃ y, A.flatten.getLast? = some y ∧ y.2.endsSection spec = true) ∧
      (∀ x ∈ s.dropLast, x.2.endsSection spec = false) ∧ s ≠ [] ∧
      (B = [] ∨ ∃ y, s.getLast? = some y ∧ y.2.endsSection spec = true)
  | [], A, B, s, h => by simp [splitSections] at h
  | x :: l, A, B, s, h => by
    unfold splitSections at h
    split at h
    · rename_i hx
      cases A with
      | nil =>
        simp only [List.nil_append, List.cons.injEq] at h
        obtain ⟨rfl, rfl⟩ := h
        exact ⟨.inl rfl, by simp, by simp, .inr ⟨x, rfl, hx⟩⟩
      | cons a A =>
        simp only [List.cons_append, List.cons.injEq] at h
        obtain ⟨rfl, h⟩ := h
        obtain ⟨h1, h2, h3, h4⟩ := split_cut h
        refine ⟨.inr ?_, h2, h3, h4⟩
        rcases h1 with h1 | ⟨y, h1, h1'⟩
        · exact ⟨x, by simp [h1], hx⟩
        · refine ⟨y, ?_, h1'⟩
          rw [List.flatten_cons, List.getLast?_append, h1]; rfl
    · rename_i hx
      split at h
      · rename_i hs
        cases A with
        | nil =>
          simp only [List.nil_append, List.cons.injEq] at h
          obtain ⟨rfl, rfl⟩ := h
          exact ⟨.inl rfl, by simp, by simp, .inl rfl⟩
        | cons a A => simp at h
      · rename_i s0 ss hs
        cases A with
        | nil =>
          simp only [List.nil_append, List.cons.injEq] at h
          obtain ⟨rfl, rfl⟩ := h
          obtain ⟨h1, h2, h3, h4⟩ := split_cut (A := []) (s := s0) (B := ss) hs
          refine ⟨.inl rfl, ?_, by simp, ?_⟩
          · intro y hy
            rw [List.dropLast_cons_of_ne_nil h3] at hy
            rcases List.mem_cons.1 hy with rfl | hy
            · simpa using hx
            · exact h2 y hy
          · rcases h4 with h4 | ⟨y, h4, h5⟩
            · exact .inl h4
            · refine .inr ⟨y, ?_, h5⟩
              rw [List.getLast?_cons, h4]; rfl
        | cons a A =>
          simp only [List.cons_append, List.cons.injEq] at h
          obtain ⟨rfl, h⟩ := h
          obtain ⟨h1, h2, h3, h4⟩ := split_cut (A := s0 :: A) (s := s) (B := B) (l := l) (by rw [hs, h]; rfl)
          refine ⟨.inr ?_, h2, h3, h4⟩
          rcases h1 with h1 | ⟨y, h1, h1'⟩
          · exfalso
            have := split_cut (A := []) (s := s0) (B := A ++ s :: B) (l := l) (by rw [hs, h]; rfl)
            rw [List.flatten_cons] at h1
            exact this.2.2.1 (List.append_eq_nil_iff.1 h1).1
          · refine ⟨y, ?_, h1'⟩
            rw [List.flatten_cons] at h1 ⊢
            rw [List.cons_append, List.getLast?_cons, h1]; rfl

/-- Skipping instructions does not change the cuts. -/
theorem split_mark {spec : SpecId} : ∀ {l l' : List (Nat × InstData)}, l'.length = l.length →
    (∀ (j : Nat) p', l'[j]? = some p' → ∃ p m, l[j]? = some p ∧ p' = (p.1, mark m p.2)) →
    (splitSections spec l').map List.length = (splitSections spec l).map List.length
  | [], [], _, _ => rfl
  | [], _ :: _, h, _ => by simp at h
  | _ :: _, [], h, _ => by simp at h
  | x :: l, x' :: l', h, hm => by
    have ih := split_mark (spec := spec) (l := l) (l' := l') (by simpa using h) (fun j p' hp => by
      have := hm (j + 1) p' (by simpa using hp)
      simpa using this)
    obtain ⟨p, m, h1, h2⟩ := hm 0 x' rfl
    simp only [List.getElem?_cons_zero, Option.some.injEq] at h1
    subst h1
    have he : x'.2.endsSection spec = x.2.endsSection spec := by
      rw [h2]; cases m <;> rfl
    unfold splitSections
    rw [he]
    split
    · simp [ih]
    · revert ih
      cases splitSections spec l' <;> cases splitSections spec l <;> intro ih
      · rfl
      · simp at ih
      · simp at ih
      · simp only [List.map_cons, List.cons.injEq] at ih ⊢
        exact ⟨by simp [ih.1], ih.2⟩

end Verif
