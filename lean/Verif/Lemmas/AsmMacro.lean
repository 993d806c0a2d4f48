import Verif.Lemmas.AsmText
/-!
# Macro expansion meets its specification
-/

namespace Verif.Asm
open Spec

/-! ## Arguments -/

theorem readArgs_token {t : Token} {r : List Token} {depth : Nat} {done : List (List Token)}
    {cur : List Token} (h1 : t.kind ≠ .lparen) (h2 : t.kind ≠ .rparen)
    (h3 : t.kind = .comma → depth ≠ 1) :
    readArgs (t :: r) depth done cur = readArgs r depth done (t :: cur) := by
  simp only [readArgs]
  split
  · rename_i h; exact absurd h h1
  · rename_i h; exact absurd h h2
  · rename_i h; rw [if_neg (h3 h)]
  · rfl

theorem readArgs_lparen {t : Token} {r : List Token} {depth : Nat} {done : List (List Token)}
    {cur : List Token} (h : t.kind = .lparen) :
    readArgs (t :: r) depth done cur = readArgs r (depth + 1) done (t :: cur) := by
  simp only [readArgs, h]

theorem readArgs_rparen {t : Token} {r : List Token} {depth : Nat} {done : List (List Token)}
    {cur : List Token} (h : t.kind = .rparen) :
    readArgs (t :: r) depth done cur =
      if depth = 1 then .ok ((cur.reverse :: done).reverse, r)
      else readArgs r (depth - 1) done (t :: cur) := by
  simp only [readArgs, h]

theorem readArgs_comma {t : Token} {r : List Token} {done : List (List Token)}
    {cur : List Token} (h : t.kind = .comma) :
    readArgs (t :: r) 1 done cur = readArgs r 1 (cur.reverse :: done) [] := by
  simp only [readArgs, h, if_true]

/-- Balanced tokens inside parentheses are passed over. -/
theorem readArgs_balanced {b : List Token} (hb : Balanced b) (s : List Token) (d : Nat) (hd : 2 ≤ d)
    (done : List (List Token)) (cur : List Token) :
    readArgs (b ++ s) d done cur = readArgs s d done (b.reverse ++ cur) := by
  induction hb generalizing s d cur with
  | nil => rfl
  | token h1 h2 _ ih =>
    rw [List.cons_append, readArgs_token h1 h2 (fun _ => by omega), ih s d hd]
    simp
  | group h1 h2 _ _ iha ihb =>
    rename_i l r a b _ _
    rw [List.append_assoc, List.cons_append, readArgs_lparen h1, iha _ _ (by omega), List.cons_append,
      readArgs_rparen h2, if_neg (by omega)]
    show readArgs (b ++ s) (d + 1 - 1) _ _ = _
    rw [Nat.add_sub_cancel, ihb s d hd]
    simp

theorem readArgs_arg {a : List Token} (ha : Arg a) (s : List Token)
    (done : List (List Token)) (cur : List Token) :
    readArgs (a ++ s) 1 done cur = readArgs s 1 done (a.reverse ++ cur) := by
  induction ha generalizing s cur with
  | nil => rfl
  | token h1 h2 h3 _ ih =>
    rw [List.cons_append, readArgs_token h1 h2 (fun h => absurd h h3), ih s]
    simp
  | group h1 h2 hb _ ih =>
    rename_i l r a b _
    rw [List.append_assoc, List.cons_append, readArgs_lparen h1, readArgs_balanced hb _ _ (by omega),
      List.cons_append, readArgs_rparen h2, if_neg (by omega)]
    show readArgs (b ++ s) 1 _ _ = _
    rw [ih s]
    simp

theorem readArgs_list {ts : List Token} {as : List (List Token)} (h : ArgList ts as) (r : Token)
    (hr : r.kind = .rparen) (rest : List Token) (done : List (List Token)) :
    readArgs (ts ++ r :: rest) 1 done [] = .ok (done.reverse ++ as, rest) := by
  induction h generalizing done with
  | one ha =>
    rw [readArgs_arg ha, readArgs_rparen hr, if_pos rfl]
    simp
  | more ha hc _ ih =>
    rw [List.append_assoc, readArgs_arg ha, List.cons_append, readArgs_comma hc, ih]
    simp

/-- What is read inside parentheses is balanced. -/
theorem readArgs_close (n : Nat) : ∀ (ts : List Token), ts.length ≤ n → ∀ (d : Nat), 1 ≤ d →
    ∀ (done : List (List Token)) (cur : List Token) (x : List (List Token) × List Token),
    readArgs ts (d + 1) done cur = .ok x →
    ∃ bal r rest, ts = bal ++ r :: rest ∧ Balanced bal ∧ r.kind = .rparen ∧
      readArgs rest d done (r :: (bal.reverse ++ cur)) = .ok x := by
  induction n with
  | zero =>
    intro ts hts d hd done cur x h
    cases ts with
    | nil => cases h
    | cons t ts => simp only [List.length_cons] at hts; omega
  | succ n ih =>
    intro ts hts d hd done cur x h
    cases ts with
    | nil => cases h
    | cons t ts =>
      simp only [List.length_cons] at hts
      by_cases h1 : t.kind = .lparen
      · rw [readArgs_lparen h1] at h
        obtain ⟨b1, r1, s1, e1, hb1, hr1, h'⟩ := ih ts (by omega) (d + 1) (by omega) _ _ _ h
        have hlen : s1.length ≤ n := by
          rw [e1] at hts; simp only [List.length_append, List.length_cons] at hts; omega
        obtain ⟨b2, r2, s2, e2, hb2, hr2, h''⟩ := ih s1 hlen d hd _ _ _ h'
        refine ⟨t :: b1 ++ r1 :: b2, r2, s2, by rw [e1, e2]; simp, .group h1 hr1 hb1 hb2, hr2, ?_⟩
        rw [← h'']; simp
      · by_cases h2 : t.kind = .rparen
        · rw [readArgs_rparen h2, if_neg (by omega)] at h
          exact ⟨[], t, ts, rfl, .nil, h2, by simpa using h⟩
        · rw [readArgs_token h1 h2 (fun _ => by omega)] at h
          obtain ⟨b1, r1, s1, e1, hb1, hr1, h'⟩ := ih ts (by omega) d hd _ _ _ h
          exact ⟨t :: b1, r1, s1, by rw [e1]; rfl, .token h1 h2 hb1, hr1, by rw [← h']; simp⟩

theorem argList_token {t : Token} {ts a : List Token} {as : List (List Token)} (h1 : t.kind ≠ .lparen)
    (h2 : t.kind ≠ .rparen) (h3 : t.kind ≠ .comma) (h : ArgList ts (a :: as)) :
    ArgList (t :: ts) ((t :: a) :: as) := by
  cases h with
  | one ha => exact .one (.token h1 h2 h3 ha)
  | more ha hc hr => exact ArgList.more (a := t :: a) (.token h1 h2 h3 ha) hc hr

theorem argList_group {l r : Token} {b ts a : List Token} {as : List (List Token)}
    (h1 : l.kind = .lparen) (h2 : r.kind = .rparen) (hb : Balanced b) (h : ArgList ts (a :: as)) :
    ArgList (l :: b ++ r :: ts) ((l :: b ++ r :: a) :: as) := by
  cases h with
  | one ha => exact .one (.group h1 h2 hb ha)
  | more ha hc hr =>
    rename_i ts' c
    have := ArgList.more (a := l :: b ++ r :: a) (.group h1 h2 hb ha) hc hr
    simpa using this

/-- What is read as arguments is an argument list followed by a closing parenthesis. -/
theorem readArgs_sound (n : Nat) : ∀ (ts : List Token), ts.length ≤ n →
    ∀ (done : List (List Token)) (cur : List Token) (x : List (List Token) × List Token),
    readArgs ts 1 done cur = .ok x →
    ∃ inner r a as, ts = inner ++ r :: x.2 ∧ r.kind = .rparen ∧ ArgList inner (a :: as) ∧
      x.1 = done.reverse ++ (cur.reverse ++ a) :: as := by
  induction n with
  | zero =>
    intro ts hts done cur x h
    cases ts with
    | nil => cases h
    | cons t ts => simp only [List.length_cons] at hts; omega
  | succ n ih =>
    intro ts hts done cur x h
    cases ts with
    | nil => cases h
    | cons t ts =>
      simp only [List.length_cons] at hts
      by_cases h1 : t.kind = .lparen
      · rw [readArgs_lparen h1] at h
        obtain ⟨b1, r1, s1, e1, hb1, hr1, h'⟩ := readArgs_close n ts (by omega) 1 (by omega) _ _ _ h
        have hlen : s1.length ≤ n := by
          rw [e1] at hts; simp only [List.length_append, List.length_cons] at hts; omega
        obtain ⟨inner, r, a, as, e2, hr, ha, hx⟩ := ih s1 hlen _ _ _ h'
        refine ⟨t :: b1 ++ r1 :: inner, r, _, as, by rw [e1, e2]; simp, hr, argList_group h1 hr1 hb1 ha, ?_⟩
        rw [hx]; simp
      · by_cases h2 : t.kind = .rparen
        · rw [readArgs_rparen h2, if_pos rfl] at h
          cases h
          exact ⟨[], t, [], [], rfl, h2, .one .nil, by simp⟩
        · by_cases h3 : t.kind = .comma
          · rw [readArgs_comma h3] at h
            obtain ⟨inner, r, a, as, e2, hr, ha, hx⟩ := ih ts (by omega) _ _ _ h
            refine ⟨t :: inner, r, [], a :: as, by rw [e2]; rfl, hr, ?_, by rw [hx]; simp⟩
            exact ArgList.more (a := []) .nil h3 ha
          · rw [readArgs_token h1 h2 (fun h => absurd h h3)] at h
            obtain ⟨inner, r, a, as, e2, hr, ha, hx⟩ := ih ts (by omega) _ _ _ h
            refine ⟨t :: inner, r, t :: a, as, by rw [e2]; rfl, hr, argList_token h1 h2 h3 ha, ?_⟩
            rw [hx]; simp

/-! ## Bodies -/

theorem idxOf?_some {l : List String} {a : String} {i : Nat} (h : l.idxOf? a = some i) :
    l[i]? = some a ∧ ∀ j : Nat, j < i → l[j]? ≠ some a := by
  induction l generalizing i with
  | nil => simp [List.idxOf?] at h
  | cons b l ih =>
    rw [List.idxOf?_cons] at h
    by_cases hb : (b == a) = true
    · rw [if_pos hb] at h; cases h
      rw [beq_iff_eq] at hb; subst hb
      exact ⟨rfl, fun j hj => by omega⟩
    · rw [if_neg hb] at h
      cases hl : l.idxOf? a with
      | none => rw [hl] at h; cases h
      | some k =>
        rw [hl] at h; cases h
        obtain ⟨h1, h2⟩ := ih hl
        refine ⟨h1, ?_⟩
        intro j hj
        cases j with
        | zero =>
          rw [beq_iff_eq] at hb
          simpa using hb
        | succ j =>
          rw [List.getElem?_cons_succ]
          exact h2 j (by simp only at hj; omega)

theorem idxOf?_none {l : List String} {a : String} (h : l.idxOf? a = none) : a ∉ l := by
  simpa using h

/-- The first position is unique. -/
theorem idxOf?_eq {l : List String} {a : String} {i : Nat} (h : l[i]? = some a)
    (hj : ∀ j : Nat, j < i → l[j]? ≠ some a) : l.idxOf? a = some i := by
  cases hl : l.idxOf? a with
  | none =>
    exact absurd (List.mem_of_getElem? h) (idxOf?_none hl)
  | some k =>
    obtain ⟨h1, h2⟩ := idxOf?_some hl
    rcases Nat.lt_trichotomy i k with hlt | rfl | hlt
    · exact absurd h (h2 i hlt)
    · rfl
    · exact absurd h1 (hj k hlt)

theorem substTok_iff {params : List String} {args : List (List Token)} {t : Token} {a : List Token}
    (hlen : params.length ≤ args.length) :
    SubstTok params args t a ↔ a = match t.kind with
      | .paramRef =>
        match params.idxOf? t.src with
        | some i => (args[i]?).getD []
        | none => [t]
      | _ => [t] := by
  constructor
  · intro h
    cases h with
    | param h1 h2 h3 h4 => rw [h1, idxOf?_eq h2 h3]; simp only [h4]; rfl
    | other h1 =>
      split
      · rename_i hk
        have : params.idxOf? t.src = none := by simpa using h1 hk
        rw [this]
      · rfl
  · intro h
    split at h
    · rename_i hk
      split at h
      · rename_i i hi
        obtain ⟨h1, h2⟩ := idxOf?_some hi
        have hlt : i < args.length := by
          have := (List.getElem?_eq_some_iff.1 h1).1; omega
        rw [List.getElem?_eq_getElem hlt] at h
        exact .param hk h1 h2 (by rw [h, List.getElem?_eq_getElem hlt]; rfl)
      · rename_i hi
        subst h
        exact .other fun _ => idxOf?_none hi
    · rename_i hk
      subst h
      exact .other fun h => absurd h hk

theorem subst_iff {params : List String} {args : List (List Token)} {body out : List Token}
    (hlen : params.length ≤ args.length) :
    Subst params args body out ↔ out = substitute params args body := by
  constructor
  · intro h
    induction h with
    | nil => rfl
    | cons h1 _ ih => rw [(substTok_iff hlen).1 h1, ih]; rfl
  · intro h
    subst h
    induction body with
    | nil => exact .nil
    | cons t body ih => exact .cons ((substTok_iff hlen).2 rfl) ih

/-! ## Expansion -/

theorem expand_nil (ms : Macros) : expandMacros ms [] = .ok [] := by rw [expandMacros]

theorem expand_keep {ms : Macros} {t : Token} {r : List Token}
    (h : (if t.kind = .ident then ms.lookup t.src else none) = none) :
    expandMacros ms (t :: r) = match expandMacros ms r with
      | .ok out => .ok (t :: out)
      | .error e => .error e := by
  rw [expandMacros, h]
  simp only
  cases expandMacros ms r <;> rfl

theorem expand_object {ms : Macros} {t : Token} {r : List Token} {m : MacroDef}
    (h : (if t.kind = .ident then ms.lookup t.src else none) = some m) (hf : m.isFn = false) :
    expandMacros ms (t :: r) = match expandMacros ms r with
      | .ok out => .ok (m.body ++ out)
      | .error e => .error e := by
  rw [expandMacros, h]
  simp only [hf, Bool.false_eq_true, if_false]
  cases expandMacros ms r <;> rfl

theorem expand_call {ms : Macros} {t : Token} {s : String} {r : List Token} {m : MacroDef}
    (h : (if t.kind = .ident then ms.lookup t.src else none) = some m) (hf : m.isFn = true) :
    expandMacros ms (t :: ⟨s, .lparen⟩ :: r) = match readArgs r 1 [] [] with
      | .error e => .error e
      | .ok x =>
        if arityOk m.params x.1 then
          match expandMacros ms x.2 with
          | .ok out => .ok (substitute m.params x.1 m.body ++ out)
          | .error e => .error e
        else .error .badMacro := by
  rw [expandMacros, h]
  simp only [hf, if_true]
  split
  · rename_i heq; rw [heq]
  · rename_i x heq
    rw [heq]
    show _ = if arityOk m.params x.1 = true then _ else _
    split
    · cases expandMacros ms x.2 <;> rfl
    · rfl

theorem expand_bare {ms : Macros} {t : Token} {r : List Token} {m : MacroDef}
    (h : (if t.kind = .ident then ms.lookup t.src else none) = some m) (hf : m.isFn = true)
    (hr : ∀ l r', r = l :: r' → l.kind ≠ .lparen) :
    expandMacros ms (t :: r) = .error .badMacro := by
  rw [expandMacros, h]
  simp only [hf, if_true]
  split
  · rename_i s r'; exact absurd rfl (hr _ _ rfl)
  · rfl

theorem argList_nil {as : List (List Token)} (h : ArgList [] as) : as = [[]] := by
  generalize hx : ([] : List Token) = x at h
  cases h with
  | one _ => subst hx; rfl
  | more _ _ _ => simp at hx

theorem argList_empty {ts : List Token} (h : ArgList ts [[]]) : ts = [] := by
  cases h with
  | one _ => rfl
  | more _ _ hr => cases hr

theorem argList_ne {ts : List Token} {as : List (List Token)} (h : ArgList ts as) : as ≠ [] := by
  cases h <;> simp

theorem arityOk_iff {params : List String} {as : List (List Token)} {inner : List Token}
    (h : ArgList inner as) :
    arityOk params as = true ↔
      (params = [] → inner = []) ∧ (params ≠ [] → as.length = params.length) := by
  unfold arityOk
  by_cases hp : params = []
  · rw [if_pos hp]
    constructor
    · intro h'
      have : as = [[]] := by simpa using h'
      subst this
      exact ⟨fun _ => argList_empty h, fun h => absurd hp h⟩
    · intro h'
      have := h'.1 hp
      subst this
      rw [argList_nil h]; decide
  · rw [if_neg hp]
    constructor
    · intro h'
      exact ⟨fun h => absurd h hp, fun _ => by simpa using h'⟩
    · intro h'
      simpa using h'.2 hp

theorem arity_len {params : List String} {as : List (List Token)} {inner : List Token}
    (h : ArgList inner as) (ha : arityOk params as = true) : params.length ≤ as.length := by
  by_cases hp : params = []
  · subst hp; exact Nat.zero_le _
  · exact Nat.le_of_eq (((arityOk_iff h).1 ha).2 hp).symm

theorem expand_complete {ms : Macros} {ts out : List Token} (h : Expands (fun n => ms.lookup n) ts out) :
    expandMacros ms ts = .ok out := by
  induction h with
  | nil => exact expand_nil ms
  | keep h1 _ ih =>
    rw [expand_keep, ih]
    split
    · rename_i hk; exact h1 hk
    · rfl
  | object h1 h2 h3 _ ih => rw [expand_object (by rw [if_pos h1]; exact h2) h3, ih]
  | call h1 h2 h3 h4 h5 h6 h7 h8 h9 _ ih =>
    rename_i t l r m as inner sub ts out _
    obtain ⟨s, k⟩ := l
    simp only at h4
    subst h4
    have hok := (arityOk_iff h6).2 ⟨h7, h8⟩
    rw [List.cons_append, List.cons_append, expand_call (by rw [if_pos h1]; exact h2) h3,
      readArgs_list h6 r h5 ts []]
    show (if arityOk m.params as = true then _ else _) = _
    rw [if_pos hok]
    show (match expandMacros ms ts with
      | .ok out => Except.ok (substitute m.params as m.body ++ out)
      | .error e => .error e) = _
    rw [ih, (subst_iff (arity_len h6 hok)).1 h9]

theorem expand_sound (n : Nat) (ms : Macros) : ∀ (ts out : List Token), ts.length ≤ n →
    expandMacros ms ts = .ok out → Expands (fun n => ms.lookup n) ts out := by
  induction n with
  | zero =>
    intro ts out hts h
    cases ts with
    | nil => rw [expand_nil] at h; cases h; exact .nil
    | cons t ts => simp only [List.length_cons] at hts; omega
  | succ n ih =>
    intro ts out hts h
    cases ts with
    | nil => rw [expand_nil] at h; cases h; exact .nil
    | cons t ts =>
      simp only [List.length_cons] at hts
      cases hm : (if t.kind = .ident then ms.lookup t.src else none) with
      | none =>
        rw [expand_keep hm] at h
        cases hr : expandMacros ms ts with
        | error e => rw [hr] at h; cases h
        | ok o =>
          rw [hr] at h; cases h
          refine .keep ?_ (ih ts o (by omega) hr)
          intro hk; rw [if_pos hk] at hm; exact hm
      | some m =>
        have hk : t.kind = .ident := by
          by_cases hk : t.kind = .ident
          · exact hk
          · rw [if_neg hk] at hm; cases hm
        have hl : ms.lookup t.src = some m := by rw [if_pos hk] at hm; exact hm
        cases hf : m.isFn with
        | false =>
          rw [expand_object hm hf] at h
          cases hr : expandMacros ms ts with
          | error e => rw [hr] at h; cases h
          | ok o =>
            rw [hr] at h; cases h
            exact .object hk hl hf (ih ts o (by omega) hr)
        | true =>
          cases ts with
          | nil => rw [expand_bare hm hf (fun l r' h => by cases h)] at h; cases h
          | cons l r =>
            obtain ⟨s, k⟩ := l
            by_cases hlp : k = .lparen
            · subst hlp
              rw [expand_call hm hf] at h
              cases hx : readArgs r 1 [] [] with
              | error e => rw [hx] at h; cases h
              | ok x =>
                rw [hx] at h
                simp only at h
                obtain ⟨inner, c, a, as, e1, hc, hal, e2⟩ := readArgs_sound _ r (Nat.le_refl _) _ _ _ hx
                simp only [List.reverse_nil, List.nil_append] at e2
                rw [← e2] at hal
                split at h
                · rename_i hok
                  have hlt := readArgs_lt hx
                  simp only [List.length_cons] at hts
                  cases hr : expandMacros ms x.2 with
                  | error e => rw [hr] at h; cases h
                  | ok o =>
                    rw [hr] at h; cases h
                    obtain ⟨a1, a2⟩ := (arityOk_iff hal).1 hok
                    have := Expands.call (ms := fun n => ms.lookup n) (l := ⟨s, .lparen⟩) hk hl hf rfl hc hal
                      a1 a2 ((subst_iff (arity_len hal hok)).2 rfl) (ih x.2 o (by omega) hr)
                    rw [e1]; exact this
                · cases h
            · rw [expand_bare hm hf (fun l' r' h => by cases h; exact hlp)] at h; cases h

end Verif.Asm
