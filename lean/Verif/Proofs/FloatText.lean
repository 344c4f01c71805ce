import Verif.Model.FloatText
import Verif.Spec.FloatGrammar
import Mathlib.Tactic.IntervalCases
import Mathlib.Tactic.Ring
import Mathlib.Tactic.FieldSimp
import Mathlib.Tactic.NormNum
import Mathlib.Tactic.Linarith

/-!
The parser of the model accepts exactly the texts of the grammar.
-/

namespace GaussQuad.FloatText
open Spec

theorem digit_iff (c : Char) (d : ℕ) : Digit c d ↔ c.isDigit = true ∧ d = c.toNat - 48 := by
  constructor
  · rintro (_ | _) <;> exact ⟨by decide, by decide⟩
  · rintro ⟨h, rfl⟩
    have h1 : 48 ≤ c.toNat ∧ c.toNat ≤ 57 := by
      simp only [Char.isDigit, Bool.and_eq_true, decide_eq_true_eq, ge_iff_le] at h
      exact ⟨h.1, h.2⟩
    obtain ⟨k, hk⟩ : ∃ k, c.toNat = k := ⟨_, rfl⟩
    have hc : c = Char.ofNat k := by rw [← hk, Char.ofNat_toNat]
    rw [hk] at h1
    obtain ⟨a, b⟩ := h1
    rw [hc]
    clear hc hk h
    interval_cases k
    · exact .d0
    · exact .d1
    · exact .d2
    · exact .d3
    · exact .d4
    · exact .d5
    · exact .d6
    · exact .d7
    · exact .d8
    · exact .d9

theorem foldl_digits (s : List Char) : ∀ a : ℕ, s.foldl (fun a c => 10 * a + (c.toNat - 48)) a = a * 10 ^ s.length + digitsValue s := by
  induction s with
  | nil => intro a; simp [digitsValue]
  | cons c t ih =>
    intro a
    have h0 : digitsValue (c :: t) = (c.toNat - 48) * 10 ^ t.length + digitsValue t := by
      rw [digitsValue, List.foldl_cons, ih]; ring
    rw [List.foldl_cons, ih, h0, List.length_cons]; ring

theorem digitsValue_cons (c : Char) (t : List Char) : digitsValue (c :: t) = (c.toNat - 48) * 10 ^ t.length + digitsValue t := by
  rw [digitsValue, List.foldl_cons, foldl_digits]; ring

theorem digitsValue_append (s t : List Char) : digitsValue (s ++ t) = digitsValue s * 10 ^ t.length + digitsValue t := by
  rw [digitsValue, List.foldl_append, foldl_digits]; rfl

theorem digits_iff (s : List Char) : ∀ n : ℕ, Digits s n ↔ s.all Char.isDigit = true ∧ n = digitsValue s := by
  induction s with
  | nil => intro n; constructor
           · intro h; cases h; exact ⟨rfl, rfl⟩
           · rintro ⟨-, rfl⟩; exact .nil
  | cons c t ih =>
    intro n
    constructor
    · intro h
      cases h with
      | cons h1 h2 =>
        obtain ⟨a, rfl⟩ := (digit_iff _ _).1 h1
        obtain ⟨b, rfl⟩ := (ih _).1 h2
        exact ⟨by rw [List.all_cons, a, b]; rfl, (digitsValue_cons c t).symm⟩
    · rintro ⟨h, rfl⟩
      rw [List.all_cons, Bool.and_eq_true] at h
      rw [digitsValue_cons]
      exact .cons ((digit_iff _ _).2 ⟨h.1, rfl⟩) ((ih _).2 ⟨h.2, rfl⟩)

/-- a text that does not go on with a digit -/
def NoDigit (s : List Char) : Prop := ∀ c ∈ s.head?, c.isDigit = false

theorem split_digits {i r : List Char} (hi : i.all Char.isDigit = true) (hr : NoDigit r) : (i ++ r).takeWhile Char.isDigit = i ∧ (i ++ r).dropWhile Char.isDigit = r := by
  have hi' : ∀ a ∈ i, Char.isDigit a = true := List.all_eq_true.1 hi
  rw [List.takeWhile_append_of_pos hi', List.dropWhile_append_of_pos hi']
  cases r with
  | nil => simp
  | cons c t =>
    have := hr c (by simp)
    simp [this]

theorem noDigit_drop (s : List Char) : NoDigit (s.dropWhile Char.isDigit) := by
  intro c hc
  have := List.head?_dropWhile_not Char.isDigit s
  cases h : s.dropWhile Char.isDigit with
  | nil => rw [h] at hc; simp at hc
  | cons d t => rw [h] at hc this; simp at hc; subst hc; simpa using this

theorem all_takeWhile (s : List Char) : (s.takeWhile Char.isDigit).all Char.isDigit = true := by
  rw [List.all_eq_true]; exact fun x hx => by simpa using List.all_eq_true.1 (List.all_takeWhile (l := s) (p := Char.isDigit)) x hx

theorem not_digit {c d : Char} (hc : c.isDigit = true) (hd : d.isDigit = false) : c ≠ d := by rintro rfl; rw [hc] at hd; cases hd

/-- a text that does not start with a sign -/
def NoSign (s : List Char) : Prop := ∀ c ∈ s.head?, c ≠ '-' ∧ c ≠ '+'

theorem splitSign_spec (s : List Char) : ∃ a, SignText a (splitSign s).1 ∧ s = a ++ (splitSign s).2 := by
  unfold splitSign
  split
  · exact ⟨_, .minus, rfl⟩
  · exact ⟨_, .plus, rfl⟩
  · exact ⟨_, .none, rfl⟩

theorem splitSign_append {a d : List Char} {neg : Bool} (ha : SignText a neg) (hd : NoSign d) : splitSign (a ++ d) = (neg, d) := by
  cases ha with
  | none =>
    unfold splitSign
    split
    · rename_i h; simp only [List.nil_append] at h; subst h; exact absurd rfl (hd '-' (by simp)).1
    · rename_i h; simp only [List.nil_append] at h; subst h; exact absurd rfl (hd '+' (by simp)).2
    · rfl
  | plus => rfl
  | minus => rfl

theorem digits_noSign {d : List Char} {n : ℕ} (h : Digits d n) : NoSign d := by
  intro c hc
  cases h with
  | nil => simp at hc
  | cons h1 h2 =>
    simp at hc; subst hc
    have := ((digit_iff _ _).1 h1).1
    exact ⟨not_digit this (by decide), not_digit this (by decide)⟩

theorem parseScientific_iff (s : List Char) (k : ℤ) :
    parseScientific s = some k ↔ ∃ a d neg n, SignText a neg ∧ Digits d n ∧ d ≠ [] ∧ s = a ++ d ∧ k = if neg then -(n : ℤ) else n := by
  constructor
  · intro h
    unfold parseScientific at h
    obtain ⟨a, ha, hs⟩ := splitSign_spec s
    dsimp only at h
    split at h
    · rename_i hc
      rw [Bool.and_eq_true] at hc
      exact ⟨a, _, _, _, ha, (digits_iff _ _).2 ⟨hc.2, rfl⟩, by simpa using hc.1, hs, (Option.some.inj h).symm⟩
    · cases h
  · rintro ⟨a, d, neg, n, h1, h2, h3, rfl, rfl⟩
    unfold parseScientific
    rw [splitSign_append h1 (digits_noSign h2)]
    obtain ⟨h5, rfl⟩ := (digits_iff _ _).1 h2
    dsimp only
    rw [if_pos (by rw [Bool.and_eq_true]; exact ⟨by simpa using h3, h5⟩)]

theorem parseExponent_iff (s : List Char) (k : ℤ) : parseExponent s = some k ↔ Exponent s k := by
  constructor
  · intro h
    cases s with
    | nil => cases h; exact .none
    | cons c t =>
      rw [parseExponent] at h
      split at h
      · rename_i hc
        obtain ⟨a, d, neg, n, h1, h2, h3, rfl, rfl⟩ := (parseScientific_iff _ _).1 h
        exact .some hc h1 h2 h3
      · cases h
  · intro h
    cases h with
    | none => rfl
    | some h1 h2 h3 h4 =>
      rw [parseExponent, if_pos h1]
      exact (parseScientific_iff _ _).2 ⟨_, _, _, _, h2, h3, h4, rfl, rfl⟩

theorem exponent_head {s : List Char} {k : ℤ} (h : Exponent s k) : NoDigit s ∧ ∀ t, s ≠ '.' :: t := by
  cases h with
  | none => exact ⟨fun c hc => by simp at hc, fun t => by simp⟩
  | some h1 =>
    refine ⟨fun c hc => ?_, fun t ht => ?_⟩
    · simp at hc; subst hc; rcases h1 with rfl | rfl <;> decide
    · have := (List.cons.inj ht).1; subst this; rcases h1 with h | h <;> exact absurd h (by decide)

theorem scaled_eq (n m : ℕ) (l : ℕ) (e : ℤ) : ((n * 10 ^ l + m : ℕ) : ℚ) * 10 ^ (e - (l : ℤ)) = (n + m / 10 ^ l) * 10 ^ e := by
  rw [zpow_sub₀ (by norm_num), zpow_natCast]
  push_cast
  have : (10 : ℚ) ^ l ≠ 0 := by positivity
  field_simp

theorem splitPoint_point (t : List Char) : splitPoint ('.' :: t) = (t.takeWhile Char.isDigit, t.dropWhile Char.isDigit) := rfl

theorem splitPoint_other {s : List Char} (h : ∀ t, s ≠ '.' :: t) : splitPoint s = ([], s) := by
  unfold splitPoint
  split
  · exact absurd rfl (h _)
  · rfl

/-- the text of a number splits into its parts in the way the parser does -/
theorem parseNumber_iff (s : List Char) (q : ℚ) : parseNumber s = some q ↔ Number s q := by
  constructor
  · intro h
    unfold parseNumber at h
    have hs : s.takeWhile Char.isDigit ++ s.dropWhile Char.isDigit = s := List.takeWhile_append_dropWhile
    have hi := all_takeWhile s
    generalize s.takeWhile Char.isDigit = i at *
    generalize s.dropWhile Char.isDigit = s1 at *
    subst hs
    dsimp only at h
    split at h
    · cases h
    rename_i hne
    rw [Option.map_eq_some_iff] at h
    obtain ⟨e, he, rfl⟩ := h
    have hE := (parseExponent_iff _ _).1 he
    have hI := (digits_iff i _).2 ⟨hi, rfl⟩
    by_cases hp : ∃ t, s1 = '.' :: t
    · obtain ⟨t, rfl⟩ := hp
      rw [splitPoint_point] at *
      have ht : t.takeWhile Char.isDigit ++ t.dropWhile Char.isDigit = t := List.takeWhile_append_dropWhile
      have hF := (digits_iff _ _).2 ⟨all_takeWhile t, rfl⟩
      have hM : Mantissa (i ++ '.' :: t.takeWhile Char.isDigit) _ := .point hI hF (by
        by_contra hcon
        push Not at hcon
        rw [hcon.1, hcon.2] at hne
        exact hne rfl)
      have := Number.mk hM hE
      rw [digitsValue_append, scaled_eq]
      rwa [List.append_assoc, List.cons_append, ht] at this
    · push Not at hp
      rw [splitPoint_other hp] at *
      have := Number.mk (.whole hI (by
        rintro rfl
        exact hne rfl)) hE
      simpa using this
  · intro h
    cases h with
    | @mk m e q k hM hE =>
      obtain ⟨hd, hp⟩ := exponent_head hE
      have hE' := (parseExponent_iff _ _).2 hE
      cases hM with
      | whole hI hne =>
        obtain ⟨hi, rfl⟩ := (digits_iff _ _).1 hI
        obtain ⟨h1, h2⟩ := split_digits hi hd
        unfold parseNumber
        rw [h1, h2, splitPoint_other hp]
        dsimp only
        rw [if_neg (by simpa using hne), hE']
        simp
      | @point i f n n' hI hF hne =>
        obtain ⟨hi, rfl⟩ := (digits_iff _ _).1 hI
        obtain ⟨hf, rfl⟩ := (digits_iff _ _).1 hF
        obtain ⟨h1, h2⟩ := split_digits (i := i) (r := '.' :: (f ++ e)) hi (fun c hc => by simp at hc; subst hc; decide)
        obtain ⟨h3, h4⟩ := split_digits hf hd
        unfold parseNumber
        rw [List.append_assoc, List.cons_append, h1, h2, splitPoint_point, h3, h4]
        dsimp only
        rw [if_neg (by
          intro h0
          rcases hne with h | h <;> exact h (List.eq_nil_of_length_eq_zero (by omega))), hE', Option.map_some, digitsValue_append, scaled_eq]

/-- a number starts with a digit or a point -/
theorem number_head {s : List Char} {q : ℚ} (h : Number s q) : ∃ c t, s = c :: t ∧ (c.isDigit = true ∨ c = '.') := by
  have dig : ∀ {i : List Char} {n : ℕ} (r : List Char), Digits i n → i ≠ [] → ∃ c t, i ++ r = c :: t ∧ (c.isDigit = true ∨ c = '.') := by
    intro i n r hI hne
    cases hI with
    | nil => exact absurd rfl hne
    | cons h1 h2 => exact ⟨_, _, rfl, .inl ((digit_iff _ _).1 h1).1⟩
  cases h with
  | mk hM hE =>
    cases hM with
    | whole hI hne => exact dig _ hI hne
    | @point i f n m hI hF hne =>
      cases i with
      | nil => exact ⟨'.', _, rfl, .inr rfl⟩
      | cons c t => rw [List.append_assoc]; exact dig _ hI (by simp)

theorem number_nonneg {s : List Char} {q : ℚ} (h : Number s q) : 0 ≤ q := by
  cases h with
  | mk hM hE =>
    refine mul_nonneg ?_ (zpow_nonneg (by norm_num) _)
    cases hM with
    | whole => exact Nat.cast_nonneg _
    | point => exact add_nonneg (Nat.cast_nonneg _) (div_nonneg (Nat.cast_nonneg _) (by norm_num))

/-- the texts of the infinities and NaN after the sign -/
theorem special_head {u : List Char} (h : u.map Char.toLower = ['i', 'n', 'f'] ∨ u.map Char.toLower = ['i', 'n', 'f', 'i', 'n', 'i', 't', 'y'] ∨ u.map Char.toLower = ['n', 'a', 'n']) :
    ∃ c t, u = c :: t ∧ c.isDigit = false ∧ c ≠ '.' ∧ c ≠ '-' ∧ c ≠ '+' := by
  cases u with
  | nil => simp at h
  | cons c t =>
    have hc : c.toLower = 'i' ∨ c.toLower = 'n' := by
      rcases h with h | h | h <;> simp at h <;> simp [h.1]
    refine ⟨c, t, rfl, ?_, ?_, ?_, ?_⟩
    · by_contra hd
      have hd : c.isDigit = true := by simpa using hd
      obtain ⟨d, hd⟩ : ∃ d, Digit c d := ⟨_, (digit_iff _ _).2 ⟨hd, rfl⟩⟩
      cases hd <;> revert hc <;> decide
    all_goals rintro rfl; revert hc; decide

theorem number_noSign {s : List Char} {q : ℚ} (h : Number s q) : NoSign s ∧ s ≠ [] := by
  obtain ⟨c, t, rfl, hc⟩ := number_head h
  refine ⟨fun d hd => ?_, by simp⟩
  simp at hd; subst hd
  constructor <;> rintro rfl <;> rcases hc with h | h <;> revert h <;> decide

theorem parseChars_number {s : List Char} {neg : Bool} {q : ℚ} (h : Denotes s neg q) : parseChars s = .ok (F64.round (if neg then -q else q) neg) := by
  cases h with
  | @mk a t _ _ hs hn =>
    obtain ⟨h1, h2⟩ := number_noSign hn
    unfold parseChars
    rw [if_neg (by simp [h2]), splitSign_append hs h1]
    dsimp only
    rw [if_neg h2, (parseNumber_iff _ _).2 hn]

theorem parseChars_special {s u : List Char} {neg : Bool} (hs : SignText s neg)
    (h : u.map Char.toLower = ['i', 'n', 'f'] ∨ u.map Char.toLower = ['i', 'n', 'f', 'i', 'n', 'i', 't', 'y'] ∨ u.map Char.toLower = ['n', 'a', 'n']) :
    parseChars (s ++ u) = .ok (if u.map Char.toLower = ['n', 'a', 'n'] then F64.nan else F64.inf neg) := by
  obtain ⟨c, t, rfl, h1, h2, h3, h4⟩ := special_head h
  have hp : parseNumber (c :: t) = none := by
    cases hq : parseNumber (c :: t) with
    | none => rfl
    | some q =>
      obtain ⟨c', t', he, hc⟩ := number_head ((parseNumber_iff _ _).1 hq)
      cases he
      rcases hc with hc | hc
      · rw [hc] at h1; cases h1
      · exact absurd hc h2
  have hi : parseInfNan (c :: t) neg = some (if (c :: t).map Char.toLower = ['n', 'a', 'n'] then F64.nan else F64.inf neg) := by
    unfold parseInfNan
    rcases h with h | h | h <;> simp only [h] <;> simp
  unfold parseChars
  rw [if_neg (by simp), splitSign_append hs (fun d hd => by simp at hd; subst hd; exact ⟨h3, h4⟩)]
  dsimp only
  rw [if_neg (by simp), hp, hi]

theorem parseChars_cases (s : List Char) :
    (∃ neg q, Denotes s neg q) ∨ IsSpecial s ∨ parseChars s = .error (if s = [] then .empty else .invalid) := by
  by_cases h0 : s = []
  · subst h0; right; right; rfl
  obtain ⟨a, hs, he⟩ := splitSign_spec s
  unfold parseChars
  rw [if_neg h0, if_neg h0]
  dsimp only
  by_cases hu : (splitSign s).2 = []
  · rw [if_pos hu]; exact .inr (.inr rfl)
  rw [if_neg hu]
  cases hn : parseNumber (splitSign s).2 with
  | some q => 
    left
    refine ⟨(splitSign s).1, q, ?_⟩
    have := Denotes.mk hs ((parseNumber_iff _ _).1 hn)
    rwa [← he] at this
  | none =>
    right
    cases hi : parseInfNan (splitSign s).2 (splitSign s).1 with
    | none => exact .inr rfl
    | some v =>
      refine .inl ⟨a, _, _, hs, he, ?_⟩
      unfold parseInfNan at hi
      dsimp only at hi
      split at hi
      · rename_i h; rcases h with h | h
        · exact .inl h
        · exact .inr (.inl h)
      · split at hi
        · rename_i h; exact .inr (.inr h)
        · cases hi

end GaussQuad.FloatText
