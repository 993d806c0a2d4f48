import Verif.Lemmas.AsmMacro
/-!
# `#define` lines meet their specification
-/

namespace Verif.Asm
open Spec

theorem readParams_iff (ts : List Token) (x : List String × List Token) :
    readParams ts = .ok x ↔ ParamToks ts x.1 x.2 := by
  constructor
  · intro h
    fun_induction readParams ts generalizing x with
    | case1 p s r => cases h; exact .last (p := ⟨p, .ident⟩) (r := ⟨s, .rparen⟩) rfl rfl
    | case2 p s r y hy ih =>
      cases h
      exact .more (p := ⟨p, .ident⟩) (c := ⟨s, .comma⟩) rfl rfl (ih y hy)
    | case3 p s r e hy ih => cases h
    | case4 ts h1 h2 => cases h
  · intro h
    obtain ⟨ps, body⟩ := x
    simp only at h
    induction h with
    | last h1 h2 =>
      rename_i p r body
      obtain ⟨p, k⟩ := p; obtain ⟨r, k'⟩ := r
      simp only at h1 h2; subst h1 h2
      rw [readParams]
    | more h1 h2 _ ih =>
      rename_i p c ts body ps _
      obtain ⟨p, k⟩ := p; obtain ⟨r, k'⟩ := c
      simp only at h1 h2; subst h1 h2
      rw [readParams, ih]

theorem name_ident {w r : List Char} {n : String} (h : Lexeme w r ⟨n, .ident⟩) :
    Name w ∧ n = String.ofList w ∧ NextNot r (fun c => isWord c || c == ':') := by
  generalize ht : (⟨n, .ident⟩ : Token) = t at h
  cases h <;> cases ht
  rename_i h1 h2
  exact ⟨h1, rfl, h2⟩

/-- The name, with blanks in front. -/
theorem define_head {after : List Char} (hn : '\n' ∉ after) {n : String} {ts : List Token}
    (h : codeTokens after = ⟨n, .ident⟩ :: ts) :
    ∃ b w r, after = b ++ (w ++ r) ∧ (∀ c ∈ b, isWs c = true) ∧ Name w ∧ n = String.ofList w ∧
      NextNot r (fun c => isWord c || c == ':') ∧ ts = codeTokens r := by
  obtain ⟨h1, h2, h3⟩ := span_spec isWs after
  rw [← codeTokens_dropWs] at h
  cases hx : nextToken (after.dropWhile isWs) with
  | none =>
    rw [codeTokens, tokenize] at h
    split at h
    · cases h
    · rename_i y hy; rw [hx] at hy; cases hy
  | some x =>
    have hd := h
    rw [codeTokens_some hx] at h
    rcases next_spec hx with ⟨c1, w, c2, c3⟩ | ⟨c1, w, c2, c3⟩ | ⟨c1, w, c2, c3, c4⟩
    · rw [if_pos c1] at h
      obtain ⟨hx1, hx2⟩ := List.cons.inj h
      rw [hx1] at c3
      obtain ⟨e1, e2, e3⟩ := name_ident c3
      exact ⟨_, w, x.2, by rw [← c2, h1], h2, e1, e2, e3, hx2.symm⟩
    · exfalso
      cases w with
      | nil =>
        have := nextToken_lt hx
        rw [c2] at this
        exact absurd this (by simp)
      | cons c w =>
        have := h3 c (by rw [c2]; rfl)
        rw [c3 c List.mem_cons_self] at this
        cases this
    · exfalso
      rw [c1] at h
      rcases c4 with c4 | c4
      · rw [c4, codeTokens_nil] at h
        cases h
      · apply hn
        rw [← h1, c2]
        refine List.mem_append_right _ (List.mem_append_right _ ?_)
        exact List.mem_of_mem_head? (by rw [c4]; rfl)

theorem parenFollows_eq {b w r : List Char} (hb : ∀ c ∈ b, isWs c = true) (hw : Name w)
    (hr : NextNot r isWord) : parenFollows (b ++ (w ++ r)) = (r.head? == some '(') := by
  have hs : NextNot (w ++ r) isWs := by
    obtain ⟨c, w', rfl, hc⟩ := name_head hw
    intro d hd
    cases hd
    exact isWs_of_class hc (by decide)
  rw [parenFollows, (span_eq hb hs).2, (span_eq hw.1.2 hr).2]

theorem readDefine_false (ts : List Token) : readDefine false ts = .ok ([], ts) := by
  simp [readDefine]

theorem readDefine_niladic {l c : Token} (hl : l.kind = .lparen) (hc : c.kind = .rparen)
    (body : List Token) : readDefine true (l :: c :: body) = .ok ([], body) := by
  obtain ⟨l, k⟩ := l; obtain ⟨c, k'⟩ := c
  simp only at hl hc; subst hl hc
  simp [readDefine]

theorem readDefine_fn {l : Token} (hl : l.kind = .lparen) (ts : List Token)
    (hts : ∀ c r, ts = c :: r → c.kind ≠ .rparen) : readDefine true (l :: ts) = readParams ts := by
  obtain ⟨l, k⟩ := l
  simp only at hl; subst hl
  simp only [readDefine, if_true]
  split
  · rename_i h; cases h; exact absurd rfl (hts _ _ rfl)
  · rename_i h; cases h; rfl
  · rename_i h1 h2; exact absurd rfl (h2 _ _)

theorem paramToks_head {ts body : List Token} {ps : List String} (h : ParamToks ts ps body) :
    ∀ c r, ts = c :: r → c.kind ≠ .rparen := by
  intro c r hc
  cases h with
  | last h1 _ => cases hc; rw [h1]; decide
  | more h1 _ _ => cases hc; rw [h1]; decide

theorem codeTokens_name {b w r : List Char} (hb : ∀ c ∈ b, isWs c = true) (hw : Name w)
    (hr : NextNot r (fun c => isWord c || c == ':')) :
    codeTokens (b ++ (w ++ r)) = ⟨String.ofList w, .ident⟩ :: codeTokens r :=
  lexed_codeTokens (lexed_blanks hb (.lexeme (.ident hw hr) (codeTokens_lexed r)))

theorem codeTokens_paren (r : List Char) :
    codeTokens ('(' :: r) = ⟨String.ofList ['('], .lparen⟩ :: codeTokens r :=
  codeTokens_lexeme (w := ['(']) .lparen

theorem nextNot_word {r : List Char} (h : NextNot r (fun c => isWord c || c == ':')) :
    NextNot r isWord := h.mono fun c hc => by simp [hc]

/-- A definition line. -/
theorem parseDefine_iff {after : List Char} (hn : '\n' ∉ after) (ms ms' : Macros) :
    parseDefine after ms = .ok ms' ↔ ∃ n m, Definition after n m ∧ ms' = (n, m) :: ms := by
  constructor
  · intro h
    unfold parseDefine at h
    split at h
    · rename_i n ts htok
      obtain ⟨b, w, r, e, hb, hw, rfl, hr, rfl⟩ := define_head hn htok
      have hp : parenFollows after = (r.head? == some '(') := by
        rw [e]; exact parenFollows_eq hb hw (nextNot_word hr)
      rw [hp] at h
      cases hpar : r.head? == some '(' with
      | false =>
        rw [hpar, readDefine_false] at h
        cases h
        refine ⟨_, _, e ▸ .object hb hw ?_ (codeTokens_lexed r), rfl⟩
        intro c hc
        have h1 : (isWord c || c == ':') = false := hr c hc
        have h2 : (c == '(') = false := by
          cases hx : c == '(' with
          | false => rfl
          | true =>
            rw [beq_iff_eq] at hx; subst hx
            rw [hc] at hpar; simp at hpar
        show (isWord c || c == ':' || c == '(') = false
        rw [h1, h2]; rfl
      | true =>
        cases r with
        | nil => simp at hpar
        | cons c r =>
          have hc : c = '(' := by simpa using hpar
          subst hc
          rw [hpar, codeTokens_paren] at h
          cases hct : codeTokens r with
          | nil =>
            rw [hct, readDefine_fn rfl [] (fun c r h => by cases h)] at h
            simp [readParams] at h
          | cons t ts =>
            rw [hct] at h
            by_cases ht : t.kind = .rparen
            · rw [readDefine_niladic rfl ht] at h
              cases h
              exact ⟨_, _, e ▸ .niladic hb hw ht (hct ▸ codeTokens_lexed r), rfl⟩
            · rw [readDefine_fn rfl _ (fun c r h => by cases h; exact ht)] at h
              cases hrp : readParams (t :: ts) with
              | error e => rw [hrp] at h; cases h
              | ok x =>
                rw [hrp] at h; cases h
                exact ⟨_, _, e ▸ .function hb hw (codeTokens_lexed r)
                  (hct ▸ (readParams_iff _ _).1 hrp), rfl⟩
    · cases h
  · rintro ⟨n, m, hd, rfl⟩
    unfold parseDefine
    cases hd with
    | object hb hw hr hl =>
      rename_i b w r body
      have hr' : NextNot r (fun c => isWord c || c == ':') := hr.mono fun c hc => by
        simp only [hc, Bool.true_or]
      rw [codeTokens_name hb hw hr', parenFollows_eq hb hw (nextNot_word hr'), lexed_codeTokens hl]
      have : (r.head? == some '(') = false := by
        cases r with
        | nil => rfl
        | cons c r =>
          have := hr c rfl
          simp only [Bool.or_eq_false_iff] at this
          simpa using this.2
      simp only [this, readDefine_false]
    | niladic hb hw hc hl =>
      rename_i b w r c body
      have hr' : NextNot ('(' :: r) (fun c => isWord c || c == ':') := by
        intro c hc; cases hc; decide
      rw [codeTokens_name hb hw hr', parenFollows_eq hb hw (nextNot_word hr'), codeTokens_paren,
        lexed_codeTokens hl]
      have : (('(' :: r).head? == some '(') = true := by simp
      simp only [this, readDefine_niladic (l := ⟨String.ofList ['('], .lparen⟩) rfl hc]
    | function hb hw hl hp =>
      rename_i b w r ts body ps
      have hr' : NextNot ('(' :: r) (fun c => isWord c || c == ':') := by
        intro c hc; cases hc; decide
      rw [codeTokens_name hb hw hr', parenFollows_eq hb hw (nextNot_word hr'), codeTokens_paren,
        lexed_codeTokens hl]
      have : (('(' :: r).head? == some '(') = true := by simp
      simp only [this, readDefine_fn (l := ⟨String.ofList ['('], .lparen⟩) rfl ts (paramToks_head hp),
        (readParams_iff ts (ps, body)).2 hp]

/-! ## Sources -/

theorem defineBody_iff (l after : List Char) : defineBody l = some after ↔ Directive l after := by
  have hd : "#define".toList = ['#', 'd', 'e', 'f', 'i', 'n', 'e'] := by simp
  unfold Directive
  rw [hd]
  constructor
  · intro h
    unfold defineBody at h
    split at h
    · rename_i r
      split at h
      · cases h; exact ⟨rfl, fun c hc => by cases hc⟩
      · rename_i c r'
        split at h
        · rename_i hc
          cases h
          exact ⟨rfl, fun d hd => by cases hd; exact hc⟩
        · cases h
    · cases h
  · rintro ⟨rfl, h⟩
    cases after with
    | nil => rfl
    | cons c r =>
      show (if isWs c = true then some (c :: r) else none) = _
      rw [if_pos (h c rfl)]

theorem defineBody_none (l : List Char) : defineBody l = none ↔ ∀ after, ¬ Directive l after := by
  constructor
  · intro h after hd
    rw [(defineBody_iff l after).2 hd] at h; cases h
  · intro h
    cases hd : defineBody l with
    | none => rfl
    | some a => exact absurd ((defineBody_iff l a).1 hd) (h a)

theorem mem_linesFrom_newline {cs cur l : List Char} (hcur : '\n' ∉ cur)
    (hl : l ∈ linesFrom cs cur) : '\n' ∉ l := by
  induction cs generalizing cur with
  | nil =>
    rw [linesFrom] at hl
    split at hl
    · cases hl
    · rw [List.mem_singleton.1 hl]; exact fun h => hcur (List.mem_reverse.1 h)
  | cons d cs ih =>
    by_cases hd : d = '\n'
    · subst hd
      rw [linesFrom_newline] at hl
      rcases List.mem_cons.1 hl with rfl | hl
      · rw [List.mem_reverse]
        split
        · exact fun h => hcur (List.mem_cons_of_mem _ h)
        · exact hcur
      · exact ih (by simp) hl
    · rw [linesFrom_cons hd] at hl
      refine ih ?_ hl
      intro h
      rcases List.mem_cons.1 h with h | h
      · exact hd h.symm
      · exact hcur h

theorem splitDefines_iff (ls : List (List Char)) (hls : ∀ l ∈ ls, '\n' ∉ l) (ms : Macros)
    (x : Macros × List (List Char)) :
    splitDefines ls ms = .ok x →
      ∃ ds raw, Source ls ds raw ∧ x.1 = ds.reverse ++ ms ∧ x.2.flatMap codeTokens = raw := by
  intro h
  induction ls generalizing ms x with
  | nil => cases h; exact ⟨[], [], .nil, rfl, rfl⟩
  | cons l ls ih =>
    have hls' : ∀ l ∈ ls, '\n' ∉ l := fun l hl => hls l (List.mem_cons_of_mem _ hl)
    rw [splitDefines] at h
    split at h
    · rename_i after hb
      split at h
      · rename_i ms' hp
        have hn : '\n' ∉ after := by
          intro hx
          refine hls l List.mem_cons_self (mem_trim ?_)
          rw [((defineBody_iff _ _).1 hb).1]
          exact List.mem_append_right _ hx
        obtain ⟨n, m, hd, rfl⟩ := (parseDefine_iff hn _ _).1 hp
        obtain ⟨ds, raw, h1, h2, h3⟩ := ih hls' _ _ h
        exact ⟨(n, m) :: ds, raw, .define ((defineBody_iff _ _).1 hb) hd h1, by rw [h2]; simp, h3⟩
      · cases h
    · rename_i hb
      split at h
      · rename_i y hy
        cases h
        obtain ⟨ds, raw, h1, h2, h3⟩ := ih hls' _ _ hy
        refine ⟨ds, codeTokens (trim l) ++ raw, .code ((defineBody_none _).1 hb) (codeTokens_lexed _) h1, h2, ?_⟩
        rw [List.flatMap_cons, h3]
      · cases h

theorem splitDefines_source {ls : List (List Char)} (hls : ∀ l ∈ ls, '\n' ∉ l)
    {ds : List (String × MacroDef)} {raw : List Token} (h : Source ls ds raw) (ms : Macros) :
    ∃ rest, splitDefines ls ms = .ok (ds.reverse ++ ms, rest) ∧ rest.flatMap codeTokens = raw := by
  induction h generalizing ms with
  | nil => exact ⟨[], rfl, rfl⟩
  | define h1 h2 _ ih =>
    rename_i l after ls n m ds raw _
    obtain ⟨rest, e1, e2⟩ := ih (fun l hl => hls l (List.mem_cons_of_mem _ hl)) ((n, m) :: ms)
    have hn : '\n' ∉ after := by
      intro hx
      refine hls l List.mem_cons_self (mem_trim ?_)
      rw [h1.1]
      exact List.mem_append_right _ hx
    refine ⟨rest, ?_, e2⟩
    rw [splitDefines, (defineBody_iff _ _).2 h1]
    simp only
    rw [(parseDefine_iff hn ms _).2 ⟨n, m, h2, rfl⟩]
    simp only
    rw [e1]; simp
  | code h1 h2 _ ih =>
    rename_i l ls ts ds raw _
    obtain ⟨rest, e1, e2⟩ := ih (fun l hl => hls l (List.mem_cons_of_mem _ hl)) ms
    refine ⟨trim l :: rest, ?_, by rw [List.flatMap_cons, e2, lexed_codeTokens h2]⟩
    rw [splitDefines, (defineBody_none _).2 h1]
    simp only
    rw [e1]

theorem lookup_find (l : Macros) (b : Macros) (n : String) :
    (l ++ b).lookup n = match l.find? (·.1 == n) with
      | some d => some d.2
      | none => b.lookup n := by
  induction l with
  | nil => rfl
  | cons d l ih =>
    rw [List.cons_append, List.lookup_cons, List.find?_cons]
    by_cases h : d.1 = n
    · subst h; simp
    · have h1 : (d.1 == n) = false := by simpa using h
      have h2 : (n == d.1) = false := by simpa using fun h' => h h'.symm
      rw [h1, h2]; simp only; exact ih

theorem lookup_meaning (ds : List (String × MacroDef)) (n : String) :
    (ds.reverse ++ builtinMacros).lookup n = meaning ds n := by
  rw [lookup_find, meaning]
  split
  · rename_i h; rw [h]
  · rename_i h
    rw [h]
    simp only [builtinMacros, builtin, List.lookup_cons, List.lookup_nil]
    by_cases hn : n = "RET_WORD"
    · subst hn; simp
    · have : (n == "RET_WORD") = false := by simpa using hn
      rw [this, if_neg hn]

end Verif.Asm
