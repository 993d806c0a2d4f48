import Verif.Model.ReadCode
import Verif.Spec.ReadCode
/-!
# Lemmas on reading hex
-/

namespace Verif.ReadCode
open Spec

theorem digit_iff (c : Char) (n : Nat) : digit c = some n ↔ IsDigit c n := by
  unfold digit IsDigit
  split
  · simp only [Option.some.injEq]; omega
  · split
    · simp only [Option.some.injEq]; omega
    · split
      · simp only [Option.some.injEq]; omega
      · simp only [reduceCtorEq, false_iff]; omega

theorem isDigit_lt {c : Char} {n : Nat} (h : IsDigit c n) : n < 16 := by unfold IsDigit at h; omega

theorem pairs_iff (cs : List Char) (bs : List UInt8) : pairs cs = some bs ↔ Hex cs bs := by
  fun_induction pairs cs generalizing bs with
  | case1 =>
    constructor
    · intro h; cases h; exact .nil
    · intro h; cases h; rfl
  | case2 => constructor <;> intro h <;> cases h
  | case3 c d cs x y bs' hb hy hx ih =>
    have hx' := (digit_iff _ _).1 hx
    have hy' := (digit_iff _ _).1 hy
    have hb' := (ih bs').1 hb
    have hl1 := isDigit_lt hx'
    have hl2 := isDigit_lt hy'
    constructor
    · intro h
      cases h
      exact .cons hx' hy' (by rw [UInt8.toNat_ofNat']; omega) hb'
    · intro h
      cases h with
      | cons h1 h2 h3 h4 =>
        have e1 := (digit_iff _ _).2 h1
        have e2 := (digit_iff _ _).2 h2
        have e4 := (ih _).2 h4
        rw [hx] at e1; rw [hy] at e2; rw [hb] at e4
        cases e1; cases e2; cases e4
        congr 2
        apply UInt8.toNat_inj.1
        rw [h3, UInt8.toNat_ofNat']; omega
  | case4 c d cs hn ih =>
    constructor
    · intro h; cases h
    · intro h
      cases h with
      | cons h1 h2 h3 h4 => exact (hn _ _ _ ((digit_iff _ _).2 h1) ((digit_iff _ _).2 h2) ((ih _).2 h4)).elim

theorem x_no_digit (n : Nat) : ¬ IsDigit 'x' n := by
  unfold IsDigit
  have : 'x'.toNat = 120 := rfl
  omega

theorem decode_iff (t : List Char) (b : List UInt8) :
    decode t = some b ↔ Hex t b ∨ ∃ cs, t = '0' :: 'x' :: cs ∧ Hex cs b := by
  unfold decode
  split
  · rename_i cs
    rw [pairs_iff]
    constructor
    · intro h; exact .inr ⟨cs, rfl, h⟩
    · rintro (h | ⟨cs', e, h⟩)
      · cases h with
        | cons _ h _ _ => exact absurd h (x_no_digit _)
      · cases e; exact h
  · rename_i hn
    rw [pairs_iff]
    constructor
    · exact .inl
    · rintro (h | ⟨cs', e, _⟩)
      · exact h
      · exact (hn cs' e).elim

theorem digit_ws {c : Char} {n : Nat} (h : IsDigit c n) : isWs c = false ∧ c ≠ '\n' := by
  have hc : ∀ m, c.toNat = m → 14 ≤ m → m ≠ 32 → isWs c = false ∧ c ≠ '\n' := by
    intro m hm h1 h2
    have h3 : c ≠ ' ' := by rintro rfl; exact h2 (by rw [← hm]; rfl)
    have h4 : c ≠ '\n' := by rintro rfl; have : '\n'.toNat = 10 := rfl; omega
    refine ⟨?_, h4⟩
    unfold isWs
    simp only [h3, decide_false, Bool.false_or, Bool.and_eq_false_iff, decide_eq_false_iff_not]
    omega
  unfold IsDigit at h
  rcases h with ⟨_, h⟩ | ⟨_, _, h | h⟩
  · exact hc _ h (by omega) (by omega)
  · exact hc _ h (by omega) (by omega)
  · exact hc _ h (by omega) (by omega)

theorem hex_ws {cs : List Char} {b : List UInt8} (h : Hex cs b) : ∀ c ∈ cs, isWs c = false ∧ c ≠ '\n' := by
  induction h with
  | nil => simp
  | cons h1 h2 _ _ ih =>
    intro c hc
    rcases List.mem_cons.1 hc with rfl | hc
    · exact digit_ws h1
    · rcases List.mem_cons.1 hc with rfl | hc
      · exact digit_ws h2
      · exact ih c hc

theorem dropWhile_none {p : Char → Bool} {a : List Char} (h : ∀ c ∈ a, p c = false) : a.dropWhile p = a := by
  cases a with
  | nil => rfl
  | cons c cs => rw [List.dropWhile_cons_of_neg (by simp [h c (by simp)])]

theorem dropWhile_all {p : Char → Bool} {a : List Char} (h : ∀ c ∈ a, p c = true) : a.dropWhile p = [] := by
  induction a with
  | nil => rfl
  | cons c cs ih => rw [List.dropWhile_cons_of_pos (h c (by simp))]; exact ih fun c hc => h c (by simp [hc])

/-- Trimming the end. -/
def rtrim (s : List Char) : List Char := (s.reverse.dropWhile isWs).reverse

theorem rtrim_append {a : List Char} (x : List Char) (h : ∀ c ∈ a, isWs c = false) : rtrim (a ++ x) = a ++ rtrim x := by
  unfold rtrim
  rw [List.reverse_append, List.dropWhile_append]
  split
  · rename_i he
    rw [List.isEmpty_iff.1 he, dropWhile_none (by simpa using h)]
    simp
  · rw [List.reverse_append, List.reverse_reverse]

theorem trim_append {a : List Char} (x : List Char) (hne : a ≠ []) (h : ∀ c ∈ a, isWs c = false) :
    trim (a ++ x) = a ++ rtrim x := by
  have : (a ++ x).dropWhile isWs = a ++ x := by
    cases a with
    | nil => exact absurd rfl hne
    | cons c cs => rw [List.cons_append, List.dropWhile_cons_of_neg (by simp [h c (by simp)])]
  unfold trim
  rw [this]
  exact rtrim_append x h

theorem rtrim_prefix (s : List Char) : rtrim s <+: s := by
  unfold rtrim
  have := List.reverse_prefix.2 (List.dropWhile_suffix (p := isWs) (l := s.reverse))
  simpa using this

theorem line_ws (ws rest p : List Char) (hws : ∀ c ∈ ws, isWs c = true) (hr : rest = [] ∨ ∃ r, rest = '\n' :: r)
    (hp : p <+: ws ++ rest) : ∀ x ∈ p.takeWhile (· ≠ '\n'), isWs x = true := by
  induction ws generalizing p with
  | nil =>
    rw [List.nil_append] at hp
    cases p with
    | nil => simp
    | cons c cs =>
      rcases hr with rfl | ⟨r, rfl⟩
      · simp at hp
      · have : c = '\n' := (List.cons_prefix_cons.1 hp).1
        simp [this]
  | cons w ws ih =>
    cases p with
    | nil => simp
    | cons c cs =>
      rw [List.cons_append] at hp
      obtain ⟨hcw, hp'⟩ := List.cons_prefix_cons.1 hp
      subst hcw
      intro x hx
      rw [List.takeWhile_cons] at hx
      split at hx
      · rcases List.mem_cons.1 hx with rfl | hx
        · exact hws _ (by simp)
        · exact ih cs (fun c hc => hws c (by simp [hc])) hp' x hx
      · simp at hx

theorem firstLine_trim {a ws rest : List Char} (hne : a ≠ []) (h : ∀ c ∈ a, isWs c = false ∧ c ≠ '\n')
    (hws : ∀ c ∈ ws, isWs c = true) (hr : rest = [] ∨ ∃ r, rest = '\n' :: r) : firstLine (trim (a ++ (ws ++ rest))) = a := by
  rw [trim_append _ hne fun c hc => (h c hc).1]
  unfold firstLine
  have hz := line_ws ws rest _ hws hr (rtrim_prefix _)
  rw [List.takeWhile_append_of_pos (by intro c hc; simpa using (h c hc).2), trim_append _ hne fun c hc => (h c hc).1]
  have : rtrim ((rtrim (ws ++ rest)).takeWhile (· ≠ '\n')) = [] := by
    unfold rtrim at hz ⊢
    rw [dropWhile_all (by intro c hc; exact hz c (List.mem_reverse.1 hc))]
    rfl
  rw [this, List.append_nil]

theorem digits_length {cs : List Char} {ds : List Nat} (h : Digits cs ds) : cs.length = ds.length := by
  induction h with
  | nil => rfl
  | cons _ _ ih => simp [ih]

theorem radix_eq (bits acc : Nat) {cs : List Char} {ds : List Nat} (h : Digits cs ds) (ha : acc < 2 ^ bits) :
    radix bits acc cs = if acc * 16 ^ ds.length + number 16 ds < 2 ^ bits then
      some (acc * 16 ^ ds.length + number 16 ds) else none := by
  induction h generalizing acc with
  | nil => simp [radix, number, ha]
  | cons hd hs ih =>
    rename_i c n cs ns
    rw [radix, (digit_iff _ _).2 hd]
    dsimp only
    have he : acc * 16 ^ (n :: ns).length + number 16 (n :: ns) = (16 * acc + n) * 16 ^ ns.length + number 16 ns := by
      rw [number, List.length_cons, Nat.pow_succ, Nat.add_mul]
      have : acc * (16 ^ ns.length * 16) = 16 * acc * 16 ^ ns.length := by
        rw [Nat.mul_comm (16 ^ ns.length) 16, ← Nat.mul_assoc, Nat.mul_comm acc 16]
      omega
    rw [he]
    split
    · rename_i hl
      exact ih _ hl.2
    · rename_i hl
      rw [if_neg]
      intro hlt
      apply hl
      have h1 : 1 ≤ 16 ^ ns.length := Nat.one_le_pow _ _ (by omega)
      have h2 : (16 * acc + n) * 1 ≤ (16 * acc + n) * 16 ^ ns.length := Nat.mul_le_mul_left _ h1
      omega

theorem radix_digits (bits acc v : Nat) (cs : List Char) (h : radix bits acc cs = some v) : ∃ ds, Digits cs ds := by
  induction cs generalizing acc with
  | nil => exact ⟨[], .nil⟩
  | cons c cs ih =>
    rw [radix] at h
    split at h
    · cases h
    · rename_i d hd
      split at h
      · obtain ⟨ds, hds⟩ := ih _ h
        exact ⟨d :: ds, .cons ((digit_iff _ _).1 hd) hds⟩
      · cases h

theorem hex_digits {cs : List Char} {b : List UInt8} (h : Hex cs b) : ∃ ds, Digits cs ds := by
  induction h with
  | nil => exact ⟨[], .nil⟩
  | cons h1 h2 _ _ ih => obtain ⟨ds, h⟩ := ih; exact ⟨_, .cons h1 (.cons h2 h)⟩

theorem digits_hex : ∀ (ds : List Nat) {cs : List Char}, Digits cs ds → ds.length % 2 = 0 →
    ∃ b, Hex cs b ∧ number 256 (b.map (·.toNat)) = number 16 ds ∧ 2 * b.length = ds.length
  | [], cs, h, _ => by cases h; exact ⟨[], .nil, rfl, rfl⟩
  | [_], cs, h, he => by simp at he
  | x :: y :: ds, cs, h, he => by
    cases h with
    | cons hx h =>
      cases h with
      | cons hy h =>
        obtain ⟨b, h1, h2, h3⟩ := digits_hex ds h (by simp only [List.length_cons] at he; omega)
        have hl1 := isDigit_lt hx
        have hl2 := isDigit_lt hy
        have hn : (UInt8.ofNat (16 * x + y)).toNat = 16 * x + y := by rw [UInt8.toNat_ofNat']; omega
        refine ⟨UInt8.ofNat (16 * x + y) :: b, .cons hx hy hn h1, ?_, by simp only [List.length_cons]; omega⟩
        rw [List.map_cons, number, number, number, hn, h2, List.length_map, List.length_cons, ← h3, Nat.pow_succ]
        have hp : 256 ^ b.length = 16 ^ (2 * b.length) := by rw [Nat.pow_mul]
        rw [hp]
        generalize 16 ^ (2 * b.length) = q
        rw [Nat.add_mul]
        have : 16 * x * q = x * (q * 16) := by rw [Nat.mul_comm 16 x, Nat.mul_assoc, Nat.mul_comm 16 q]
        omega

theorem number_zeros (n : Nat) (ds : List Nat) (base : Nat) : number base (List.replicate n 0 ++ ds) = number base ds := by
  induction n with
  | zero => rfl
  | succ n ih => rw [List.replicate_succ, List.cons_append, number, ih]; omega

theorem zero_digit : IsDigit '0' 0 := .inl ⟨by omega, rfl⟩

theorem parseBytes_eq {s : List Char} {ds : List Nat} (h : Digits (strip0x (trim s)) ds) :
    ∃ b, parseBytes s = some b ∧ number 256 (b.map (·.toNat)) = number 16 ds ∧ b.length = (ds.length + 1) / 2 := by
  unfold parseBytes
  dsimp only
  generalize strip0x (trim s) = t at h
  have hl := digits_length h
  split
  · rename_i he
    rw [List.isEmpty_iff.1 he] at h
    cases h
    exact ⟨[], rfl, rfl, rfl⟩
  · split
    · obtain ⟨b, h1, h2, h3⟩ := digits_hex ds h (by omega)
      exact ⟨b, (decode_iff _ _).2 (.inl h1), h2, by omega⟩
    · obtain ⟨b, h1, h2, h3⟩ := digits_hex (0 :: ds) (.cons zero_digit h) (by simp only [List.length_cons]; omega)
      refine ⟨b, (decode_iff _ _).2 (.inl h1), ?_, by simp only [List.length_cons] at h3; omega⟩
      rw [h2, number]; omega

theorem isWs_iff (c : Char) : isWs c = true ↔ White c := by
  unfold isWs White
  have : c = ' ' ↔ c.toNat = 32 := by
    constructor
    · rintro rfl; rfl
    · intro h; rw [← Char.ofNat_toNat c, h]
  simp [this]

theorem digits_ws {cs : List Char} {ds : List Nat} (h : Digits cs ds) : ∀ c ∈ cs, isWs c = false := by
  induction h with
  | nil => simp
  | cons h _ ih =>
    intro c hc
    rcases List.mem_cons.1 hc with rfl | hc
    · exact (digit_ws h).1
    · exact ih c hc

theorem trim_white (w x : List Char) (h : ∀ c ∈ w, isWs c = true) : trim (w ++ x) = trim x := by
  unfold trim
  congr 3
  rw [List.dropWhile_append, dropWhile_all h]
  simp

theorem mem_takeWhile_ws {p : Char → Bool} {l : List Char} {c : Char} (h : c ∈ l.takeWhile p) : p c = true := by
  have := List.all_takeWhile (p := p) (l := l)
  exact List.all_eq_true.1 this c h

theorem trim_split (s : List Char) : ∃ w w', (∀ c ∈ w, isWs c = true) ∧ (∀ c ∈ w', isWs c = true) ∧ s = w ++ (trim s ++ w') := by
  refine ⟨s.takeWhile isWs, ((s.dropWhile isWs).reverse.takeWhile isWs).reverse, ?_, ?_, ?_⟩
  · intro c hc; exact mem_takeWhile_ws hc
  · intro c hc; exact mem_takeWhile_ws (List.mem_reverse.1 hc)
  · unfold trim
    rw [← List.reverse_append, List.takeWhile_append_dropWhile, List.reverse_reverse, List.takeWhile_append_dropWhile]

theorem strip_digits {cs : List Char} {ds : List Nat} (h : Digits cs ds) : strip0x cs = cs := by
  unfold strip0x
  split
  · cases h with
    | cons _ h => cases h with
      | cons h _ => exact absurd h (x_no_digit _)
  · cases h with
    | cons _ h => cases h with
      | cons h _ =>
        unfold IsDigit at h
        have : 'X'.toNat = 88 := rfl
        omega
  · rfl

/-- What the trimmed text is. -/
theorem trim_written {w p cs w' : List Char} {ds : List Nat} (hw : ∀ c ∈ w, White c) (hw' : ∀ c ∈ w', White c)
    (hp : p = [] ∨ p = ['0', 'x'] ∨ p = ['0', 'X']) (hd : Digits cs ds) : trim (w ++ (p ++ cs ++ w')) = p ++ cs := by
  have hr : rtrim w' = [] := by
    unfold rtrim
    rw [dropWhile_all (by intro c hc; exact (isWs_iff c).2 (hw' c (List.mem_reverse.1 hc)))]
    rfl
  rw [trim_white _ _ fun c hc => (isWs_iff c).2 (hw c hc)]
  by_cases hne : p ++ cs = []
  · rw [hne, List.nil_append]
    unfold trim
    rw [dropWhile_all fun c hc => (isWs_iff c).2 (hw' c hc)]
    rfl
  · rw [trim_append _ hne, hr, List.append_nil]
    intro c hc
    rcases List.mem_append.1 hc with hc | hc
    · rcases hp with rfl | rfl | rfl
      · simp at hc
      · simp only [List.mem_cons, List.not_mem_nil, or_false] at hc
        rcases hc with rfl | rfl <;> rfl
      · simp only [List.mem_cons, List.not_mem_nil, or_false] at hc
        rcases hc with rfl | rfl <;> rfl
    · exact digits_ws hd c hc

theorem written_iff (s : List Char) (ds : List Nat) : Written s ds ↔ Digits (strip0x (trim s)) ds := by
  constructor
  · rintro ⟨w, p, cs, w', hw, hw', hp, hd, rfl⟩
    rw [trim_written hw hw' hp hd]
    rcases hp with rfl | rfl | rfl
    · rw [List.nil_append, strip_digits hd]; exact hd
    · exact hd
    · exact hd
  · intro h
    obtain ⟨w, w', hw, hw', hs⟩ := trim_split s
    have : ∃ p, (p = [] ∨ p = ['0', 'x'] ∨ p = ['0', 'X']) ∧ trim s = p ++ strip0x (trim s) := by
      unfold strip0x
      split
      · rename_i e; exact ⟨['0', 'x'], by simp, e⟩
      · rename_i e; exact ⟨['0', 'X'], by simp, e⟩
      · exact ⟨[], by simp, rfl⟩
    obtain ⟨p, hp, e⟩ := this
    exact ⟨w, p, strip0x (trim s), w', fun c hc => (isWs_iff c).1 (hw c hc), fun c hc => (isWs_iff c).1 (hw' c hc), hp, h,
      by rw [← e]; exact hs⟩

end Verif.ReadCode
