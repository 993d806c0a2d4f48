import Verif.Spec.AsmText
/-!
# The tokenizer meets its specification
-/

namespace Verif.Asm
open Spec

theorem tokenize_some {cs : List Char} {x : Token × List Char} (h : nextToken cs = some x) :
    tokenize cs = x.1 :: tokenize x.2 := by
  rw [tokenize]
  split
  · rename_i h'; rw [h] at h'; cases h'
  · rename_i y h'; rw [h] at h'; cases h'; rfl

theorem tokenize_nil : tokenize [] = [] := by
  rw [tokenize]
  split
  · rfl
  · rename_i y h'; cases h'

theorem codeTokens_nil : codeTokens [] = [] := by rw [codeTokens, tokenize_nil]; rfl

theorem codeTokens_some {cs : List Char} {x : Token × List Char} (h : nextToken cs = some x) :
    codeTokens cs = if x.1.isCode then x.1 :: codeTokens x.2 else codeTokens x.2 := by
  rw [codeTokens, tokenize_some h, List.filter_cons]; rfl

theorem span_eq {p : Char → Bool} {w r : List Char} (h : ∀ c ∈ w, p c = true) (hr : NextNot r p) :
    (w ++ r).takeWhile p = w ∧ (w ++ r).dropWhile p = r := by
  induction w with
  | nil =>
    cases r with
    | nil => exact ⟨rfl, rfl⟩
    | cons c r =>
      have := hr c rfl
      exact ⟨List.takeWhile_cons_of_neg (by rw [this]; decide),
        List.dropWhile_cons_of_neg (by rw [this]; decide)⟩
  | cons c w ih =>
    obtain ⟨h1, h2⟩ := ih (fun c hc => h c (List.mem_cons_of_mem _ hc))
    have hc := h c List.mem_cons_self
    rw [List.cons_append, List.takeWhile_cons_of_pos hc, List.dropWhile_cons_of_pos hc, h1, h2]
    exact ⟨rfl, rfl⟩

theorem span_spec (p : Char → Bool) (cs : List Char) :
    cs.takeWhile p ++ cs.dropWhile p = cs ∧ (∀ c ∈ cs.takeWhile p, p c = true) ∧
      NextNot (cs.dropWhile p) p := by
  refine ⟨List.takeWhile_append_dropWhile, ?_, ?_⟩
  · intro c hc
    exact List.all_eq_true.1 List.all_takeWhile c hc
  · intro c hc
    induction cs with
    | nil => cases hc
    | cons d cs ih =>
      by_cases hd : p d = true
      · rw [List.dropWhile_cons_of_pos hd] at hc; exact ih hc
      · rw [List.dropWhile_cons_of_neg hd] at hc
        cases hc
        exact Bool.not_eq_true _ ▸ hd

/-! ## Character classes -/

theorem isWs_cases {c : Char} (h : isWs c = true) :
    c = ' ' ∨ c = '\t' ∨ c = '\n' ∨ c = '\r' ∨ c = Char.ofNat 0x0c := by
  simp only [isWs, Bool.or_eq_true, beq_iff_eq] at h
  rcases h with (((h | h) | h) | h) | h <;> simp [h]

theorem ne_of_class {p : Char → Bool} {c d : Char} (hc : p c = true) (hd : p d = false) :
    (c == d) = false := by
  rw [beq_eq_false_iff_ne]; intro h; subst h; rw [hc] at hd; cases hd

theorem isWs_of_class {p : Char → Bool} {c : Char} (hc : p c = true)
    (hp : p ' ' = false ∧ p '\t' = false ∧ p '\n' = false ∧ p '\r' = false ∧ p (Char.ofNat 0x0c) = false) :
    isWs c = false := by
  cases h : isWs c with
  | false => rfl
  | true =>
    obtain ⟨h1, h2, h3, h4, h5⟩ := hp
    rcases isWs_cases h with rfl | rfl | rfl | rfl | rfl
    · rw [h1] at hc; cases hc
    · rw [h2] at hc; cases hc
    · rw [h3] at hc; cases hc
    · rw [h4] at hc; cases hc
    · rw [h5] at hc; cases hc

theorem isDigit_iff (c : Char) : isDigit c = true ↔ 48 ≤ c.toNat ∧ c.toNat ≤ 57 := by
  simp only [isDigit, Bool.and_eq_true, decide_eq_true_eq, Char.le_def, UInt32.le_iff_toNat_le]
  exact Iff.rfl

theorem isAlpha_iff (c : Char) :
    isAlpha c = true ↔ (97 ≤ c.toNat ∧ c.toNat ≤ 122) ∨ (65 ≤ c.toNat ∧ c.toNat ≤ 90) := by
  simp only [isAlpha, Bool.and_eq_true, Bool.or_eq_true, decide_eq_true_eq, Char.le_def,
    UInt32.le_iff_toNat_le]
  exact Iff.rfl

theorem isDigit_not_alpha {c : Char} (h : isDigit c = true) : isAlpha c = false := by
  cases h' : isAlpha c with
  | false => rfl
  | true => rw [isDigit_iff] at h; rw [isAlpha_iff] at h'; omega

/-! ## One token -/

theorem next_digit {c : Char} {r : List Char} (h : isDigit c = true) :
    nextToken (c :: r) = some (readNumber (c :: r)) := by
  have hw : isWs c = false := isWs_of_class h (by decide)
  have h1 : (c == ';') = false := ne_of_class h (by decide)
  have h2 : (c == '%') = false := ne_of_class h (by decide)
  have h3 : (c == '$') = false := ne_of_class h (by decide)
  have h4 : (c == ',') = false := ne_of_class h (by decide)
  have h5 : (c == '(') = false := ne_of_class h (by decide)
  have h6 : (c == ')') = false := ne_of_class h (by decide)
  simp only [nextToken, hw, h1, h2, h3, h4, h5, h6, h, Bool.false_eq_true, if_false, if_true]

/-- The first characters of names. -/
def isStart (c : Char) : Bool := isAlpha c || c == '_'

theorem next_start {c : Char} {r : List Char} (h : isStart c = true) :
    nextToken (c :: r) = some (readWord (c :: r)) := by
  have hw : isWs c = false := isWs_of_class h (by decide)
  have h1 : (c == ';') = false := ne_of_class h (by decide)
  have h2 : (c == '%') = false := ne_of_class h (by decide)
  have h3 : (c == '$') = false := ne_of_class h (by decide)
  have h4 : (c == ',') = false := ne_of_class h (by decide)
  have h5 : (c == '(') = false := ne_of_class h (by decide)
  have h6 : (c == ')') = false := ne_of_class h (by decide)
  have h7 : isDigit c = false := by
    cases h' : isDigit c with
    | false => rfl
    | true =>
      simp only [isStart, Bool.or_eq_true, beq_iff_eq] at h
      rcases h with h | h
      · rw [isDigit_not_alpha h'] at h; cases h
      · subst h; cases h'
  have h8 : (isAlpha c || c == '_') = true := h
  simp only [nextToken, hw, h1, h2, h3, h4, h5, h6, h7, h8, Bool.false_eq_true, if_false, if_true]

theorem next_junk {c : Char} {r : List Char} (h : isKnown c = false) :
    nextToken (c :: r) = some (Token.mk (String.ofList ((c :: r).takeWhile fun c => !isKnown c)) .unknown, (c :: r).dropWhile fun c => !isKnown c) := by
  simp only [isKnown, Bool.or_eq_false_iff] at h
  obtain ⟨⟨⟨⟨⟨⟨⟨⟨⟨⟨h1, h2⟩, h3⟩, h4⟩, h5⟩, h6⟩, h7⟩, h8⟩, h9⟩, h10⟩, h11⟩ := h
  simp only [nextToken, h1, h2, h3, h4, h5, h6, h7, h8, h9, h10, h11, Bool.false_eq_true, if_false,
    Bool.or_false]

theorem next_ws {c : Char} {r : List Char} (h : isWs c = true) :
    nextToken (c :: r) = some ({ src := String.ofList ((c :: r).takeWhile isWs), kind := .whitespace },
      (c :: r).dropWhile isWs) := by
  simp only [nextToken, h, if_true]

theorem name_head {w : List Char} (h : Name w) : ∃ c w', w = c :: w' ∧ isStart c = true := by
  obtain ⟨⟨hne, hw⟩, hd⟩ := h
  cases w with
  | nil => exact absurd rfl hne
  | cons c w' =>
    refine ⟨c, w', rfl, ?_⟩
    have h1 := hw c List.mem_cons_self
    have h2 := hd c rfl
    simp only [isWord, h2, Bool.or_false] at h1
    exact h1

theorem start_word {c : Char} (h : isStart c = true) : isWord c = true := by
  simp only [isStart, Bool.or_eq_true] at h
  simp only [isWord, Bool.or_eq_true]
  rcases h with h | h
  · exact Or.inl (Or.inl h)
  · exact Or.inr h

theorem Spec.NextNot.mono {r : List Char} {p q : Char → Bool} (h : NextNot r p)
    (hq : ∀ c, q c = true → p c = true) : NextNot r q := by
  intro c hc
  have := h c hc
  cases hx : q c with
  | false => rfl
  | true => rw [hq c hx] at this; cases this

theorem readNumber_literal {w r : List Char} {n : Nat} (h : Literal w r n) :
    readNumber (w ++ r) = (numberToken w n, r) := by
  cases h with
  | decimal hne hd hr h0 =>
    obtain ⟨hd, rfl⟩ := hd
    obtain ⟨h1, h2⟩ := span_eq hd hr
    have key : readNumber (w ++ r) =
        (numberToken ((w ++ r).takeWhile isDigit) (digits 10 ((w ++ r).takeWhile isDigit)),
          (w ++ r).dropWhile isDigit) := by
      unfold readNumber
      split
      · rename_i r' heq
        exfalso
        cases w with
        | nil => exact hne rfl
        | cons c w =>
          cases w with
          | nil =>
            simp only [List.cons_append, List.nil_append, List.cons.injEq] at heq
            obtain ⟨rfl, rfl⟩ := heq
            have := h0 rfl 'x' rfl
            cases this
          | cons d w =>
            simp only [List.cons_append, List.cons.injEq] at heq
            obtain ⟨rfl, rfl, _⟩ := heq
            have := hd 'x' (by simp)
            cases this
      · rename_i r' heq
        exfalso
        cases w with
        | nil => exact hne rfl
        | cons c w =>
          cases w with
          | nil =>
            simp only [List.cons_append, List.nil_append, List.cons.injEq] at heq
            obtain ⟨rfl, rfl⟩ := heq
            have := h0 rfl 'X' rfl
            cases this
          | cons d w =>
            simp only [List.cons_append, List.cons.injEq] at heq
            obtain ⟨rfl, rfl, _⟩ := heq
            have := hd 'X' (by simp)
            cases this
      · rfl
    rw [key, h1, h2]; rfl
  | hex hx hd hr =>
    obtain ⟨hd, rfl⟩ := hd
    obtain ⟨h1, h2⟩ := span_eq hd hr
    rcases hx with rfl | rfl
    · simp only [List.cons_append, readNumber, h1, h2]; rfl
    · simp only [List.cons_append, readNumber, h1, h2]; rfl

theorem literal_head {w r : List Char} {n : Nat} (h : Literal w r n) :
    ∃ c w', w = c :: w' ∧ isDigit c = true := by
  cases h with
  | decimal hne hd hr h0 =>
    cases w with
    | nil => exact absurd rfl hne
    | cons c w => exact ⟨c, w, rfl, hd.1 c List.mem_cons_self⟩
  | hex => exact ⟨_, _, rfl, by decide⟩

/-- A lexeme at the front of the text is the next token. -/
theorem next_lexeme {w r : List Char} {t : Token} (h : Lexeme w r t) :
    nextToken (w ++ r) = some (t, r) := by
  cases h with
  | ident hn hr =>
    obtain ⟨c, w', rfl, hc⟩ := name_head hn
    obtain ⟨h1, h2⟩ := span_eq hn.1.2 (hr.mono fun c hc => by simp [hc])
    rw [List.cons_append, next_start hc]
    rw [List.cons_append] at h1 h2
    simp only [readWord, h1, h2]
    split
    · rename_i r'; exact absurd (hr ':' rfl) (by decide)
    · rfl
  | label hn =>
    rename_i w
    obtain ⟨c, w', rfl, hc⟩ := name_head hn
    have hr : NextNot (':' :: r) isWord := by intro c hc; cases hc; decide
    obtain ⟨h1, h2⟩ := span_eq hn.1.2 hr
    rw [List.append_assoc, List.cons_append, next_start hc]
    rw [List.cons_append] at h1 h2
    simp only [readWord, List.singleton_append, h1, h2]
  | emptyLabel => rfl
  | labelRef hw hr =>
    rename_i w
    obtain ⟨h1, h2⟩ := span_eq hw.2 hr
    show some (readRef '%' .labelRef (w ++ r)) = _
    simp only [readRef, h1, h2, if_neg hw.1]
  | paramRef hw hr =>
    rename_i w
    obtain ⟨h1, h2⟩ := span_eq hw.2 hr
    show some (readRef '$' .paramRef (w ++ r)) = _
    simp only [readRef, h1, h2, if_neg hw.1]
  | number hl hn =>
    obtain ⟨c, w', rfl, hc⟩ := literal_head hl
    rw [List.cons_append, next_digit hc, ← List.cons_append, readNumber_literal hl, numberToken,
      if_pos hn]
  | comma => rfl
  | lparen => rfl
  | rparen => rfl
  | huge hl hn =>
    obtain ⟨c, w', rfl, hc⟩ := literal_head hl
    rw [List.cons_append, next_digit hc, ← List.cons_append, readNumber_literal hl, numberToken,
      if_neg (by omega)]
  | sigil hc hr =>
    have h1 := (span_eq (w := []) (by simp) hr).1
    rw [List.nil_append] at h1
    rcases hc with rfl | rfl
    · show some (readRef '%' .labelRef r) = _
      simp only [readRef, h1, if_true]
    · show some (readRef '$' .paramRef r) = _
      simp only [readRef, h1, if_true]
  | junk hne hw hr =>
    cases w with
    | nil => exact absurd rfl hne
    | cons c w =>
      obtain ⟨h1, h2⟩ := span_eq (p := fun c => !isKnown c) (fun c hc => by rw [hw c hc]; rfl) hr
      rw [List.cons_append, next_junk (hw c List.mem_cons_self), ← List.cons_append, h1, h2]

theorem lexeme_code {w r : List Char} {t : Token} (h : Lexeme w r t) : t.isCode = true := by
  cases h <;> rfl

theorem literal_readNumber {c : Char} {r : List Char} (h : isDigit c = true) :
    ∃ w r' n, c :: r = w ++ r' ∧ Literal w r' n ∧ readNumber (c :: r) = (numberToken w n, r') := by
  unfold readNumber
  split
  · rename_i s heq
    obtain ⟨h1, h2, h3⟩ := span_spec isHex s
    refine ⟨'0' :: 'x' :: s.takeWhile isHex, s.dropWhile isHex, _, ?_, .hex (.inl rfl) ⟨h2, rfl⟩ h3, rfl⟩
    rw [heq, List.cons_append, List.cons_append, h1]
  · rename_i s heq
    obtain ⟨h1, h2, h3⟩ := span_spec isHex s
    refine ⟨'0' :: 'X' :: s.takeWhile isHex, s.dropWhile isHex, _, ?_, .hex (.inr rfl) ⟨h2, rfl⟩ h3, rfl⟩
    rw [heq, List.cons_append, List.cons_append, h1]
  · rename_i hx hX
    obtain ⟨h1, h2, h3⟩ := span_spec isDigit (c :: r)
    refine ⟨_, _, _, h1.symm, .decimal ?_ ⟨h2, rfl⟩ h3 ?_, rfl⟩
    · rw [List.takeWhile_cons_of_pos h]; exact fun h => by cases h
    · intro h0 d hd
      have hcr : c :: r = '0' :: (c :: r).dropWhile isDigit := by
        conv => lhs; rw [← h1]
        rw [h0]; rfl
      cases hdr : (c :: r).dropWhile isDigit with
      | nil => rw [hdr] at hd; cases hd
      | cons e s =>
        rw [hdr] at hd hcr
        cases hd
        show (d == 'x' || d == 'X') = false
        cases hb : (d == 'x' || d == 'X') with
        | false => rfl
        | true =>
          exfalso
          simp only [Bool.or_eq_true, beq_iff_eq] at hb
          rcases hb with rfl | rfl
          · exact hx _ hcr
          · exact hX _ hcr

/-- The next token is a lexeme, blanks or a comment. -/
theorem next_spec {cs : List Char} {x : Token × List Char} (h : nextToken cs = some x) :
    (x.1.isCode = true ∧ ∃ w, cs = w ++ x.2 ∧ Lexeme w x.2 x.1) ∨
    (x.1.isCode = false ∧ ∃ w, cs = w ++ x.2 ∧ ∀ c ∈ w, isWs c = true) ∨
    (x.1.isCode = false ∧ ∃ w, cs = ';' :: w ++ x.2 ∧ (∀ c ∈ w, c ≠ '\n') ∧
      (x.2 = [] ∨ x.2.head? = some '\n')) := by
  cases cs with
  | nil => cases h
  | cons c r =>
    by_cases hws : isWs c = true
    · rw [next_ws hws] at h; cases h
      obtain ⟨h1, h2, _⟩ := span_spec isWs (c :: r)
      exact .inr (.inl ⟨rfl, _, h1.symm, h2⟩)
    by_cases hdig : isDigit c = true
    · rw [next_digit hdig] at h
      obtain ⟨w, r', n, h1, h2, h3⟩ := literal_readNumber (r := r) hdig
      rw [h3] at h; cases h
      left
      have hl : Lexeme w r' (numberToken w n) := by
        unfold numberToken
        by_cases hn : n < 2 ^ 256
        · rw [if_pos hn]; exact .number h2 hn
        · rw [if_neg hn]; exact .huge h2 (by omega)
      exact ⟨lexeme_code hl, w, h1, hl⟩
    by_cases hst : isStart c = true
    · rw [next_start hst] at h
      left
      obtain ⟨h1, h2, h3⟩ := span_spec isWord (c :: r)
      have hname : Name ((c :: r).takeWhile isWord) := by
        rw [List.takeWhile_cons_of_pos (start_word hst)] at h2 ⊢
        refine ⟨⟨by simp, h2⟩, ?_⟩
        intro d hd; cases hd; exact Bool.not_eq_true _ ▸ hdig
      unfold readWord at h
      split at h
      · rename_i r' heq
        cases h
        refine ⟨rfl, (c :: r).takeWhile isWord ++ [':'], ?_, .label hname⟩
        show c :: r = _
        rw [List.append_assoc, List.singleton_append, ← heq, h1]
      · rename_i hn
        cases h
        refine ⟨rfl, _, h1.symm, .ident hname ?_⟩
        intro d hd
        show (isWord d || d == ':') = false
        rw [h3 d hd, Bool.false_or]
        cases hb : d == ':' with
        | false => rfl
        | true =>
          exfalso
          rw [beq_iff_eq] at hb; subst hb
          change ((c :: r).dropWhile isWord).head? = _ at hd
          cases hdr : (c :: r).dropWhile isWord with
          | nil => rw [hdr] at hd; cases hd
          | cons e s => rw [hdr] at hd; cases hd; exact hn _ hdr
    by_cases hknown : isKnown c = false
    · rw [next_junk hknown] at h; cases h
      obtain ⟨h1, h2, h3⟩ := span_spec (fun c => !isKnown c) (c :: r)
      refine .inl ⟨rfl, _, h1.symm, .junk ?_ ?_ h3⟩
      · rw [List.takeWhile_cons_of_pos (by rw [hknown]; rfl)]; exact fun h => by cases h
      · intro d hd; have := h2 d hd; cases hk : isKnown d <;> simp_all
    have hsig : ∀ (sigil : Char) (kind : TokenKind), sigil = '%' ∨ sigil = '$' →
        (∀ (w r' : List Char), Word' w → NextNot r' isWord → Lexeme (sigil :: w) r' ⟨String.ofList w, kind⟩) →
        (readRef sigil kind r).1.isCode = true ∧
          ∃ w, sigil :: r = w ++ (readRef sigil kind r).2 ∧
            Lexeme w (readRef sigil kind r).2 (readRef sigil kind r).1 := by
      intro sigil kind hs hk
      obtain ⟨h1, h2, h3⟩ := span_spec isWord r
      unfold readRef
      split
      · rename_i he
        have hr : r = r.dropWhile isWord := by have h1' := h1; rw [he] at h1'; exact h1'.symm
        exact ⟨rfl, [sigil], rfl, .sigil hs (hr ▸ h3)⟩
      · rename_i he
        have := hk _ _ ⟨he, h2⟩ h3
        exact ⟨lexeme_code this, sigil :: r.takeWhile isWord, by rw [List.cons_append, h1], this⟩
    simp only [isKnown, Bool.or_eq_true, Bool.not_eq_false, beq_iff_eq] at hknown
    simp only [isStart, Bool.or_eq_true, beq_iff_eq, not_or] at hst
    rcases hknown with (((((((((hk | hk) | hk) | hk) | hk) | hk) | hk) | hk) | hk) | hk) | hk
    · exact absurd hk hws
    · exact absurd hk hst.1
    · exact absurd hk hdig
    · exact absurd hk hst.2
    · subst hk
      obtain ⟨h1, h2, h3⟩ := span_spec (· != '\n') r
      have h' : nextToken (';' :: r) = some (Token.mk (String.ofList ((';' :: r).takeWhile (· != '\n'))) .comment, (';' :: r).dropWhile (· != '\n')) := rfl
      rw [h'] at h; cases h
      refine .inr (.inr ⟨rfl, r.takeWhile (· != '\n'), ?_, ?_, ?_⟩)
      · show ';' :: r = ';' :: (_ ++ _)
        rw [List.dropWhile_cons_of_pos (by decide), h1]
      · intro d hd; have := h2 d hd; simpa using this
      · show (';' :: r).dropWhile (· != '\n') = [] ∨ _
        rw [List.dropWhile_cons_of_pos (by decide)]
        cases hdr : r.dropWhile (· != '\n') with
        | nil => exact .inl rfl
        | cons e s =>
          right
          have := h3 e (by rw [hdr]; rfl)
          have : e = '\n' := by simpa using this
          rw [this]; rfl
    · subst hk
      have h' : nextToken ('%' :: r) = some (readRef '%' .labelRef r) := rfl
      rw [h'] at h; cases h
      exact .inl (hsig '%' .labelRef (.inl rfl) fun w r' a b => .labelRef a b)
    · subst hk
      have h' : nextToken ('$' :: r) = some (readRef '$' .paramRef r) := rfl
      rw [h'] at h; cases h
      exact .inl (hsig '$' .paramRef (.inr rfl) fun w r' a b => .paramRef a b)
    · subst hk; cases h; exact .inl ⟨rfl, [','], rfl, .comma⟩
    · subst hk; cases h; exact .inl ⟨rfl, ['('], rfl, .lparen⟩
    · subst hk; cases h; exact .inl ⟨rfl, [')'], rfl, .rparen⟩
    · subst hk; cases h; exact .inl ⟨rfl, [':'], rfl, .emptyLabel⟩

/-! ## All tokens -/

theorem codeTokens_dropWs (r : List Char) : codeTokens (r.dropWhile isWs) = codeTokens r := by
  cases r with
  | nil => rfl
  | cons c r =>
    by_cases h : isWs c = true
    · rw [codeTokens_some (next_ws h)]; rfl
    · rw [List.dropWhile_cons_of_neg h]

theorem codeTokens_ws {c : Char} {r : List Char} (h : isWs c = true) :
    codeTokens (c :: r) = codeTokens r := by
  rw [← codeTokens_dropWs (c :: r), List.dropWhile_cons_of_pos h, codeTokens_dropWs]

theorem codeTokens_comment {c r : List Char} (hc : ∀ x ∈ c, x ≠ '\n')
    (hr : r = [] ∨ r.head? = some '\n') : codeTokens (';' :: c ++ r) = codeTokens r := by
  have hn : NextNot r (· != '\n') := by
    intro d hd
    rcases hr with rfl | hr
    · cases hd
    · rw [hr] at hd; cases hd; rfl
  have h1 := (span_eq (p := (· != '\n')) (w := ';' :: c) (fun d hd => by
    rcases List.mem_cons.1 hd with rfl | hd
    · decide
    · simpa using hc d hd) hn).2
  have h' : nextToken (';' :: c ++ r) = some (Token.mk (String.ofList ((';' :: c ++ r).takeWhile (· != '\n'))) .comment, (';' :: c ++ r).dropWhile (· != '\n')) := rfl
  rw [codeTokens_some h', if_neg (by simp [Token.isCode])]
  exact congrArg codeTokens h1

theorem codeTokens_lexeme {w r : List Char} {t : Token} (h : Lexeme w r t) :
    codeTokens (w ++ r) = t :: codeTokens r := by
  rw [codeTokens_some (next_lexeme h), if_pos (lexeme_code h)]

theorem lexed_codeTokens {cs : List Char} {ts : List Token} (h : Lexed cs ts) :
    codeTokens cs = ts := by
  induction h with
  | nil => exact codeTokens_nil
  | blank hc _ ih => rw [codeTokens_ws hc, ih]
  | comment hc hr _ ih => rw [codeTokens_comment hc hr, ih]
  | lexeme hl _ ih => rw [codeTokens_lexeme hl, ih]

theorem lexed_blanks {w r : List Char} {ts : List Token} (hw : ∀ c ∈ w, isWs c = true)
    (h : Lexed r ts) : Lexed (w ++ r) ts := by
  induction w with
  | nil => exact h
  | cons c w ih =>
    exact .blank (hw c List.mem_cons_self) (ih fun c hc => hw c (List.mem_cons_of_mem _ hc))

theorem codeTokens_lexed (cs : List Char) : Lexed cs (codeTokens cs) := by
  induction hn : cs.length using Nat.strongRecOn generalizing cs with
  | ind n ih =>
    cases hx : nextToken cs with
    | none =>
      cases cs with
      | nil => rw [codeTokens_nil]; exact .nil
      | cons c r =>
        exfalso
        simp only [nextToken] at hx
        repeat' split at hx
        all_goals cases hx
    | some x =>
      have hlt := nextToken_lt hx
      have ih' := ih _ (hn ▸ hlt) x.2 rfl
      rw [codeTokens_some hx]
      rcases next_spec hx with ⟨h1, w, h2, h3⟩ | ⟨h1, w, h2, h3⟩ | ⟨h1, w, h2, h3, h4⟩
      · rw [if_pos h1, h2]; exact .lexeme h3 ih'
      · rw [h1, h2]; exact lexed_blanks h3 ih'
      · rw [h1, h2]; exact .comment h3 h4 ih'

/-! ## Lines -/

theorem nextNot_append {r s : List Char} {w : Char} {p : Char → Bool} (h : NextNot r p)
    (hw : p w = false) : NextNot (r ++ w :: s) p := by
  intro c hc
  cases r with
  | nil => cases hc; exact hw
  | cons d r => exact h c hc

theorem Spec.Literal.append {a r s : List Char} {n : Nat} {w : Char} (hw : isWs w = true)
    (h : Literal a r n) : Literal a (r ++ w :: s) n := by
  cases h with
  | decimal h1 h2 h3 h4 =>
    refine .decimal h1 h2 (nextNot_append h3 ?_) fun h0 => nextNot_append (h4 h0) ?_
    · rcases isWs_cases hw with rfl | rfl | rfl | rfl | rfl <;> decide
    · rcases isWs_cases hw with rfl | rfl | rfl | rfl | rfl <;> decide
  | hex h1 h2 h3 =>
    refine .hex h1 h2 (nextNot_append h3 ?_)
    rcases isWs_cases hw with rfl | rfl | rfl | rfl | rfl <;> decide

theorem Spec.Lexeme.append {a r s : List Char} {t : Token} {w : Char} (hw : isWs w = true)
    (h : Lexeme a r t) : Lexeme a (r ++ w :: s) t := by
  have hword : isWord w = false := by
    rcases isWs_cases hw with rfl | rfl | rfl | rfl | rfl <;> decide
  cases h with
  | ident h1 h2 =>
    refine .ident h1 (nextNot_append h2 ?_)
    rcases isWs_cases hw with rfl | rfl | rfl | rfl | rfl <;> decide
  | label h1 => exact .label h1
  | emptyLabel => exact .emptyLabel
  | labelRef h1 h2 => exact .labelRef h1 (nextNot_append h2 hword)
  | paramRef h1 h2 => exact .paramRef h1 (nextNot_append h2 hword)
  | number h1 h2 => exact .number (h1.append hw) h2
  | comma => exact .comma
  | lparen => exact .lparen
  | rparen => exact .rparen
  | huge h1 h2 => exact .huge (h1.append hw) h2
  | sigil h1 h2 => exact .sigil h1 (nextNot_append h2 hword)
  | junk h1 h2 h3 =>
    refine .junk h1 h2 (nextNot_append h3 ?_)
    rcases isWs_cases hw with rfl | rfl | rfl | rfl | rfl <;> decide

/-- Tokens do not cross the end of a line. -/
theorem lexed_newline {a b : List Char} {ts us : List Token} (ha : Lexed a ts) (hb : Lexed b us) :
    Lexed (a ++ '\n' :: b) (ts ++ us) := by
  induction ha with
  | nil => exact .blank (by decide) hb
  | blank hc _ ih => exact .blank hc ih
  | comment hc hr _ ih =>
    rename_i c r ts _
    rw [List.append_assoc]
    refine .comment hc ?_ ih
    rcases hr with rfl | hr
    · exact .inr rfl
    · right
      cases r with
      | nil => cases hr
      | cons d r => exact hr
  | lexeme hl _ ih =>
    rw [List.append_assoc]
    exact .lexeme (hl.append (by decide)) ih

/-- A blank at the end does not matter. -/
theorem lexed_blank_end {a : List Char} {ts : List Token} {w : Char} (hw : isWs w = true)
    (ha : Lexed a ts) : Lexed (a ++ [w]) ts := by
  induction ha with
  | nil => exact .blank hw .nil
  | blank hc _ ih => exact .blank hc ih
  | comment hc hr hx ih =>
    rename_i c r ts
    rw [List.append_assoc]
    rcases hr with rfl | hr
    · by_cases hn : w = '\n'
      · subst hn
        exact .comment hc (.inr rfl) ih
      · have hnil : ts = [] := by
          have := lexed_codeTokens hx
          rw [codeTokens_nil] at this; exact this.symm
        subst hnil
        have := Lexed.comment (c := c ++ [w]) (r := []) (ts := []) (fun x hx => by
          rcases List.mem_append.1 hx with h | h
          · exact hc x h
          · rw [List.mem_singleton.1 h]; exact hn) (.inl rfl) .nil
        simpa using this
    · refine .comment hc (.inr ?_) ih
      cases r with
      | nil => cases hr
      | cons d r => exact hr
  | lexeme hl _ ih =>
    rw [List.append_assoc]
    exact .lexeme (hl.append hw) ih

theorem codeTokens_newline (a b : List Char) :
    codeTokens (a ++ '\n' :: b) = codeTokens a ++ codeTokens b :=
  lexed_codeTokens (lexed_newline (codeTokens_lexed a) (codeTokens_lexed b))

theorem codeTokens_blank_end {a : List Char} {w : Char} (hw : isWs w = true) :
    codeTokens (a ++ [w]) = codeTokens a :=
  lexed_codeTokens (lexed_blank_end hw (codeTokens_lexed a))

theorem linesFrom_newline (r cur : List Char) :
    linesFrom ('\n' :: r) cur = (match cur with | '\r' :: c => c | c => c).reverse :: linesFrom r [] := rfl

theorem linesFrom_cons {c : Char} (h : c ≠ '\n') (r cur : List Char) :
    linesFrom (c :: r) cur = linesFrom r (c :: cur) := by
  rw [linesFrom]
  exact h

theorem codeTokens_linesFrom (cs cur : List Char) :
    (linesFrom cs cur).flatMap codeTokens = codeTokens (cur.reverse ++ cs) := by
  induction cs generalizing cur with
  | nil =>
    rw [linesFrom, List.append_nil]
    split
    · rename_i h; subst h; rw [List.reverse_nil, codeTokens_nil]; rfl
    · simp
  | cons c cs ih =>
    by_cases hc : c = '\n'
    · subst hc
      rw [linesFrom_newline, List.flatMap_cons, ih, codeTokens_newline, List.reverse_nil, List.nil_append]
      congr 1
      split
      · rename_i c'
        rw [List.reverse_cons, codeTokens_blank_end (by decide)]
      · rfl
    · rw [linesFrom_cons hc, ih, List.reverse_cons, List.append_assoc, List.singleton_append]

theorem codeTokens_lines (cs : List Char) : (lines cs).flatMap codeTokens = codeTokens cs :=
  codeTokens_linesFrom cs []

theorem codeTokens_trim {cs : List Char} (h : PlainBlanks cs) : codeTokens (trim cs) = codeTokens cs := by
  have h1 : ∀ l : List Char, PlainBlanks l → codeTokens (l.dropWhile isUniWs) = codeTokens l := by
    intro l hl
    induction l with
    | nil => rfl
    | cons c l ih =>
      by_cases hc : isUniWs c = true
      · rw [List.dropWhile_cons_of_pos hc, codeTokens_ws (hl c List.mem_cons_self hc)]
        exact ih fun d hd => hl d (List.mem_cons_of_mem _ hd)
      · rw [List.dropWhile_cons_of_neg hc]
  have h2 : ∀ l : List Char, PlainBlanks l →
      codeTokens ((l.dropWhile isUniWs).reverse) = codeTokens l.reverse := by
    intro l hl
    induction l with
    | nil => rfl
    | cons c l ih =>
      by_cases hc : isUniWs c = true
      · rw [List.dropWhile_cons_of_pos hc, List.reverse_cons,
          codeTokens_blank_end (hl c List.mem_cons_self hc)]
        exact ih fun d hd => hl d (List.mem_cons_of_mem _ hd)
      · rw [List.dropWhile_cons_of_neg hc]
  rw [trim, h2, List.reverse_reverse, h1 cs h]
  intro c hc
  exact h c (List.dropWhile_sublist _ |>.subset (List.mem_reverse.1 hc))

theorem mem_linesFrom {cs cur l : List Char} {c : Char} (hl : l ∈ linesFrom cs cur) (hc : c ∈ l) :
    c ∈ cs ∨ c ∈ cur := by
  induction cs generalizing cur with
  | nil =>
    rw [linesFrom] at hl
    split at hl
    · cases hl
    · rw [List.mem_singleton.1 hl] at hc; exact .inr (List.mem_reverse.1 hc)
  | cons d cs ih =>
    by_cases hd : d = '\n'
    · subst hd
      rw [linesFrom_newline] at hl
      rcases List.mem_cons.1 hl with rfl | hl
      · right
        rw [List.mem_reverse] at hc
        split at hc
        · exact List.mem_cons_of_mem _ hc
        · exact hc
      · rcases ih hl with h | h
        · exact .inl (List.mem_cons_of_mem _ h)
        · cases h
    · rw [linesFrom_cons hd] at hl
      rcases ih hl with h | h
      · exact .inl (List.mem_cons_of_mem _ h)
      · rcases List.mem_cons.1 h with rfl | h
        · exact .inl List.mem_cons_self
        · exact .inr h

theorem mem_lines {cs l : List Char} {c : Char} (hl : l ∈ lines cs) (hc : c ∈ l) : c ∈ cs := by
  rcases mem_linesFrom hl hc with h | h
  · exact h
  · cases h

theorem mem_trim {cs : List Char} {c : Char} (h : c ∈ trim cs) : c ∈ cs := by
  rw [trim, List.mem_reverse] at h
  exact (List.dropWhile_sublist _).subset (List.mem_reverse.1 ((List.dropWhile_sublist _).subset h))

theorem defineBody_hash {l : List Char} {r : List Char} (h : defineBody l = some r) : '#' ∈ l := by
  unfold defineBody at h
  split at h
  · exact List.mem_cons_self
  · cases h

theorem splitDefines_none {ls : List (List Char)} (ms : Macros)
    (h : ∀ l ∈ ls, defineBody (trim l) = none) : splitDefines ls ms = .ok (ms, ls.map trim) := by
  induction ls with
  | nil => rfl
  | cons l ls ih =>
    simp only [splitDefines, h l List.mem_cons_self, ih fun l hl => h l (List.mem_cons_of_mem _ hl),
      List.map_cons]

/-- Without `#` the text is just its lexemes. -/
theorem preprocess_plain {cs : List Char} (hh : '#' ∉ cs) (hp : PlainBlanks cs) :
    preprocess cs = expandMacros builtinMacros (codeTokens cs) := by
  unfold preprocess
  rw [splitDefines_none]
  · show expandMacros builtinMacros _ = _
    rw [← codeTokens_lines cs, List.flatMap_map]
    congr 1
    have : ∀ ls : List (List Char), (∀ l ∈ ls, PlainBlanks l) →
        ls.flatMap (fun l => codeTokens (trim l)) = ls.flatMap codeTokens := by
      intro ls hls
      induction ls with
      | nil => rfl
      | cons l ls ih =>
        rw [List.flatMap_cons, List.flatMap_cons, codeTokens_trim (hls l List.mem_cons_self),
          ih fun l hl => hls l (List.mem_cons_of_mem _ hl)]
    exact this _ fun l hl c hc => hp c (mem_lines hl hc)
  · intro l hl
    cases hd : defineBody (trim l) with
    | none => rfl
    | some r => exact absurd (mem_lines hl (mem_trim (defineBody_hash hd))) hh

end Verif.Asm
