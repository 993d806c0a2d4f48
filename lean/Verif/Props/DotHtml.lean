import Verif.Model.DotHtml
/-!
# Properties: the page that shows a control-flow graph (C80)
-/

namespace Verif.DotHtml

/-- How a browser reads a template literal after its first backquote (ECMAScript, template literal lexical
components): the value and the rest of the script, or `none` if there is a substitution, an escape other than of a
character that stands for itself, or no end. Carriage returns are read as line feeds. -/
def cook : List Char → Option (List Char × List Char)
  | [] => none
  | '`' :: r => some ([], r)
  | '$' :: '{' :: _ => none
  | '\\' :: c :: r =>
    if c = '\\' ∨ c = '`' ∨ c = '$' then (cook r).map fun p => (c :: p.1, p.2) else none
  | '\r' :: '\n' :: r => (cook r).map fun p => ('\n' :: p.1, p.2)
  | c :: r => (cook r).map fun p => ((if c = '\r' then '\n' else c) :: p.1, p.2)

/-- The escaping in one pass. -/
def esc : List Char → List Char
  | [] => []
  | '\\' :: r => '\\' :: '\\' :: esc r
  | '`' :: r => '\\' :: '`' :: esc r
  | '$' :: '{' :: r => '\\' :: '$' :: '{' :: esc r
  | c :: r => c :: esc r

theorem replaceOpen_cons {c : Char} {r : List Char} (h : c = '$' → r.head? ≠ some '{') :
    replaceOpen (c :: r) = c :: replaceOpen r := by
  rw [replaceOpen]
  rintro x rfl rfl
  exact h rfl rfl

/-- The two first replacements together. -/
def mid (s : List Char) : List Char := replaceChar '`' ['\\', '`'] (replaceChar '\\' ['\\', '\\'] s)

theorem mid_cons (c : Char) (s : List Char) :
    mid (c :: s) = (if c = '\\' then ['\\', '\\'] else if c = '`' then ['\\', '`'] else [c]) ++ mid s := by
  simp only [mid, replaceChar, List.flatMap_cons, List.flatMap_append]
  congr 1
  by_cases h : c = '\\'
  · subst h; decide
  · by_cases h2 : c = '`'
    · subst h2; decide
    · simp [h, h2]

theorem mid_head (s : List Char) : (mid s).head? = some '{' → s.head? = some '{' := by
  cases s with
  | nil => intro h; simp [mid, replaceChar] at h
  | cons c r =>
    rw [mid_cons]
    split
    · intro h; simp at h
    · split
      · intro h; simp at h
      · simp

theorem escape_eq (s : List Char) : escape s = esc s := by
  show replaceOpen (mid s) = esc s
  fun_induction esc s with
  | case1 => rfl
  | case2 r ih =>
    rw [mid_cons, if_pos rfl]
    simp only [List.cons_append, List.nil_append]
    rw [replaceOpen_cons (by intro h; exact absurd h (by decide)), replaceOpen_cons (by intro h; exact absurd h (by decide)), ih]
  | case3 r ih =>
    rw [mid_cons, if_neg (by decide), if_pos rfl]
    simp only [List.cons_append, List.nil_append]
    rw [replaceOpen_cons (by intro h; exact absurd h (by decide)), replaceOpen_cons (by intro h; exact absurd h (by decide)), ih]
  | case4 r ih =>
    rw [mid_cons, mid_cons, if_neg (by decide), if_neg (by decide), if_neg (by decide), if_neg (by decide)]
    simp only [List.cons_append, List.nil_append]
    rw [replaceOpen, ih]
  | case5 c r h1 h2 h3 ih =>
    rw [mid_cons, if_neg (by rintro rfl; exact h1 rfl), if_neg (by rintro rfl; exact h2 rfl)]
    simp only [List.cons_append, List.nil_append]
    rw [replaceOpen_cons, ih]
    intro hc hh
    have := mid_head r hh
    cases r with
    | nil => cases this
    | cons d t =>
      simp only [List.head?_cons, Option.some.injEq] at this
      exact h3 t hc (by rw [this])

theorem esc_head (s r : List Char) : (esc s ++ '`' :: r).head? = some '{' → s.head? = some '{' := by
  fun_cases esc s <;> simp

/-- C80, what holds: whatever the source is, without carriage returns, the browser reads back that source, without
ending the literal early and without evaluating anything in it. Missing from the full claim: carriage returns, and
the `script` element around the literal. -/
theorem C80_source_partial (s r : List Char) (h : '\r' ∉ s) : cook (escape s ++ '`' :: r) = some (s, r) := by
  rw [escape_eq]
  fun_induction esc s with
  | case1 => rfl
  | case2 t ih => simp [cook, ih (fun hm => h (List.mem_cons_of_mem _ hm))]
  | case3 t ih => simp [cook, ih (fun hm => h (List.mem_cons_of_mem _ hm))]
  | case4 t ih =>
    simp [cook, ih (fun hm => h (List.mem_cons_of_mem _ (List.mem_cons_of_mem _ hm)))]
  | case5 c t h1 h2 h3 ih =>
    have ih := ih (fun hm => h (List.mem_cons_of_mem _ hm))
    have hr : c ≠ '\r' := by rintro rfl; exact h List.mem_cons_self
    simp only [List.cons_append]
    rw [cook, ih]
    · simp [hr]
    · rintro rfl; exact h2 rfl
    · intro x hc hx
      have := esc_head t r (by rw [hx]; rfl)
      cases t with
      | nil => cases this
      | cons d u =>
        simp only [List.head?_cons, Option.some.injEq] at this
        exact h3 u hc (by rw [this])
    · intro d x hc; exact absurd hc (by rintro rfl; exact h1 rfl)
    · intro x hc; exact absurd hc hr

/-- All that must be escaped, next to each other. -/
example :
    escape "a\\${b}`$`{\\".toList = "a\\\\\\${b}\\`$\\`{\\\\".toList ∧
    cook (escape "a\\${b}`$`{\\".toList ++ "`);".toList) = some ("a\\${b}`$`{\\".toList, ");".toList) := by decide

/-- With carriage returns it is not the source that is read. -/
theorem C80_return_fails : cook (escape ['\r'] ++ ['`']) = some (['\n'], []) := by decide

/-- The literal is inside a `script` element, which the browser ends at `</script` before it reads the script, and
that is not escaped. -/
theorem C80_script_fails : ¬ ∀ s : List Char, ¬ "</script".toList <:+: escape s := fun h =>
  h "</script".toList ⟨[], [], by decide⟩

end Verif.DotHtml
