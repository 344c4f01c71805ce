import Verif.Proofs.FloatPrint
import Verif.Props.Param

/-!
# C101: which texts are parameters, and what is printed for one
-/

set_option exponentiation.threshold 3000

namespace GaussQuad.Props
open Spec F64 FiniteAboveNegOne

variable [L : Libm]

/-- the number with the given sign and absolute value -/
def withSign (neg : Bool) (q : ℚ) : ℚ := if neg then -q else q

omit L in
/-- C101, the parser of the standard library in the model: numbers are rounded to nearest, the special texts are not finite, anything else is an error -/
theorem C101_parse (s : String) :
    (∀ neg q, Denotes s.toList neg q → ∃ v, FloatText.parse s = .ok v ∧ RoundedResult (withSign neg q) neg v) ∧
    (IsSpecial s.toList → ∃ v, FloatText.parse s = .ok v ∧ v.isFinite = false) ∧
    ((∀ neg q, ¬ Denotes s.toList neg q) → ¬ IsSpecial s.toList → FloatText.parse s = .error (if s = "" then .empty else .invalid)) := by
  refine ⟨fun neg q h => ⟨_, FloatText.parseChars_number h, round_rounded _ _⟩, ?_, fun h1 h2 => ?_⟩
  · rintro ⟨a, u, neg, ha, he, hu⟩
    refine ⟨_, by rw [FloatText.parse, he]; exact FloatText.parseChars_special ha hu, ?_⟩
    split
    · decide
    · cases neg <;> decide
  · rcases FloatText.parseChars_cases s.toList with ⟨neg, q, h⟩ | h | h
    · exact absurd h (h1 neg q)
    · exact absurd h h2
    · rw [FloatText.parse, h]
      have : s.toList = [] ↔ s = "" := by rw [← String.toList_inj]; simp
      simp only [this]

omit L in
/-- where the rounded number is finite and above -1 -/
theorem rounded_valid {x : ℚ} {zs : Bool} {r : F64} (h : RoundedResult x zs r) : Valid r ↔ -1 + 1 / 2 ^ 54 < x ∧ x < 2 ^ 1024 - 2 ^ 970 := by
  have hfin : r.isFinite = true ↔ |x| < overflowThreshold := by
    rcases h with ⟨h0, h⟩ | ⟨h0, -, ⟨h1, h2⟩ | ⟨h1, h2, -⟩⟩
    · rw [h, h0]; simp only [zero_isFinite, abs_zero, true_iff]
      unfold overflowThreshold; norm_num
    · constructor
      · intro hf; rw [isInf_of_finite hf] at h2; exact absurd h2 (by simp)
      · intro hn; exact absurd h1 (not_le.2 hn)
    · exact ⟨fun _ => h1, fun _ => h2⟩
  have hr := roundedResult_eq h
  constructor
  · rintro ⟨h1, h2⟩
    refine ⟨?_, (abs_lt.1 (hfin.1 h1)).2⟩
    by_contra hcon
    push Not at hcon
    have hk := round_key_mono hcon zs false
    have he : F64.round (-1 + 1 / 2 ^ 54) false = F64.ofBits 0xBFF0000000000000 := by decide +kernel
    rw [← hr, he, key_le_iff] at hk
    have hv : (F64.ofBits 0xBFF0000000000000).val = -1 := by decide +kernel
    rw [hv] at hk
    linarith
  · rintro ⟨h1, h2⟩
    have habs : |x| < overflowThreshold := abs_lt.2 ⟨by unfold overflowThreshold; refine lt_trans ?_ h1; norm_num, h2⟩
    refine ⟨hfin.2 habs, ?_⟩
    rcases h with ⟨h0, h⟩ | ⟨h0, -, ⟨h3, -⟩ | ⟨-, -, h4, -⟩⟩
    · rw [h, val_zero]; norm_num
    · exact absurd habs (not_lt.2 h3)
    · have hy : (F64.ofBits 0xBFEFFFFFFFFFFFFF).val = -1 + 1 / 2 ^ 53 := by decide +kernel
      have h5 := h4 (F64.ofBits 0xBFEFFFFFFFFFFFFF) (by decide +kernel)
      rw [hy] at h5
      by_contra hcon
      push Not at hcon
      have e : (1 : ℚ) / 2 ^ 53 = 2 * (1 / 2 ^ 54) := by norm_num
      rw [e] at h5
      rw [abs_of_nonneg (by have : (0 : ℚ) < 1 / 2 ^ 54 := by positivity
                            linarith)] at h5
      rcases abs_cases (x - (-1 + 2 * (1 / 2 ^ 54))) with ⟨e1, -⟩ | ⟨e1, -⟩ <;> rw [e1] at h5 <;> linarith [show (0 : ℚ) < 1 / 2 ^ 54 by positivity]

/-- C101: a text of the grammar that stands for `x` is accepted exactly if `-1 + 2^-54 < x < 2^1024 - 2^970`, and the parameter is then `x` rounded to nearest.  (So some
texts of numbers above -1 are rejected: those that are rounded to -1.)  All other texts of numbers give `InvalidValue`. -/
theorem C101_accepts (s : String) {neg : Bool} {q : ℚ} (h : Denotes s.toList neg q) :
    (-1 + 1 / 2 ^ 54 < withSign neg q ∧ withSign neg q < 2 ^ 1024 - 2 ^ 970 →
      ∃ p : FiniteAboveNegOne F64, fromStr FloatText.parse s = .ok p ∧ RoundedResult (withSign neg q) neg p.toF64) ∧
    (¬ (-1 + 1 / 2 ^ 54 < withSign neg q ∧ withSign neg q < 2 ^ 1024 - 2 ^ 970) →
      fromStr (F := F64) FloatText.parse s = .error (.invalidValue .mk)) := by
  obtain ⟨v, hv, hr⟩ := (C101_parse s).1 neg q h
  constructor
  · intro hx
    have hval := (rounded_valid hr).2 hx
    exact ⟨⟨v⟩, ((C04_from_str FloatText.parse s).2.2 ⟨v⟩).2 ⟨hv, hval⟩, hr⟩
  · intro hx
    exact (C04_from_str FloatText.parse s).2.1.2 ⟨v, hv, fun hval => hx ((rounded_valid hr).1 hval)⟩

/-- C101: the texts of the infinities and of NaN give `InvalidValue`, texts outside of the grammar `ParseError` -/
theorem C101_rejects (s : String) :
    (IsSpecial s.toList → fromStr (F := F64) FloatText.parse s = .error (.invalidValue .mk)) ∧
    ((∀ neg q, ¬ Denotes s.toList neg q) → ¬ IsSpecial s.toList →
      fromStr (F := F64) FloatText.parse s = .error (.parseError (if s = "" then .empty else .invalid))) := by
  constructor
  · intro h
    obtain ⟨v, hv, hf⟩ := (C101_parse s).2.1 h
    exact (C04_from_str FloatText.parse s).2.1.2 ⟨v, hv, fun hval => by rw [hval.1] at hf; cases hf⟩
  · intro h1 h2
    exact ((C04_from_str FloatText.parse s).1 _).2 ((C101_parse s).2.2 h1 h2)

omit L in
theorem std_round_trip {dig : F64 → ℕ × ℤ} (hd : FloatText.ShortestDigits dig) (v : F64) (hv : v.isNaN = false) :
    FloatText.parse (FloatText.display dig v) = .ok v ∧ FloatText.parse (FloatText.lowerExp dig v) = .ok v ∧ FloatText.parse (FloatText.upperExp dig v) = .ok v := by
  have h0 : Number ['0'] 0 := by
    have := FloatText.mantissa_number (.whole (.cons .d0 .nil) (by simp))
    simpa using this
  have hE : ∀ c, c = 'e' ∨ c = 'E' → Number ['0', c, '0'] 0 := fun c hc => by
    have := Number.mk (.whole (.cons .d0 .nil) (by simp)) (.some hc .none (.cons .d0 .nil) (by simp))
    simpa using this
  exact ⟨FloatText.parse_format hd h0 FloatText.toDecStr_number v hv,
    FloatText.parse_format hd (hE 'e' (.inl rfl)) (fun h1 h2 e => FloatText.toExpStr_number h1 h2 e false) v hv,
    FloatText.parse_format hd (hE 'E' (.inr rfl)) (fun h1 h2 e => FloatText.toExpStr_number h1 h2 e true) v hv⟩

/-- C101: printed with the shortest digits that are read as the same number, in any of the three forms, every parameter is read back with the same bits.  This is the
assumption on the standard library in C06 and C76. -/
theorem C101_round_trip {dig : F64 → ℕ × ℤ} (hd : FloatText.ShortestDigits dig) (x : FiniteAboveNegOne F64) (hx : Valid x.get) :
    fromStr FloatText.parse (x.format (FloatText.display dig)) = .ok x ∧ fromStr FloatText.parse (x.format (FloatText.lowerExp dig)) = .ok x ∧
    fromStr FloatText.parse (x.format (FloatText.upperExp dig)) = .ok x := by
  obtain ⟨h1, h2, h3⟩ := std_round_trip hd x.val (isNaN_of_finite hx.1)
  exact ⟨((C04_from_str FloatText.parse _).2.2 x).2 ⟨h1, hx⟩, ((C04_from_str FloatText.parse _).2.2 x).2 ⟨h2, hx⟩, ((C04_from_str FloatText.parse _).2.2 x).2 ⟨h3, hx⟩⟩

omit L in
/-- C101: at most seventeen digits are printed, `{:e}` and `{:E}` need at most 24 characters and `{}` at most 343 -/
theorem C101_length {dig : F64 → ℕ × ℤ} (hd : FloatText.ShortestDigits dig) :
    (∀ v : F64, v.isFinite = true → v.mag ≠ 0 → (dig v).1 < 10 ^ 17) ∧
    ∀ x : FiniteAboveNegOne F64, (x.format (FloatText.lowerExp dig)).length ≤ 24 ∧ (x.format (FloatText.upperExp dig)).length ≤ 24 ∧
      (x.format (FloatText.display dig)).length ≤ 343 := by
  refine ⟨fun v hv h0 => ?_, fun x => ⟨?_, ?_, ?_⟩⟩
  · by_contra hcon
    exact absurd (FloatText.shortest_le hd hv h0) (not_le.2 ((Nat.lt_digits_length_iff (by norm_num) _).2 (not_lt.1 hcon)))
  · exact FloatText.format_length hd (N := 23) (by norm_num) (by simp) (fun buf _ h1 h2 h3 => (FloatText.toExpStr_length buf h1 h2 false).trans (by omega)) _
  · exact FloatText.format_length hd (N := 23) (by norm_num) (by simp) (fun buf _ h1 h2 h3 => (FloatText.toExpStr_length buf h1 h2 true).trans (by omega)) _
  · exact FloatText.format_length hd (N := 342) (by norm_num) (by simp) (fun buf _ h1 h2 h3 => FloatText.toDecStr_length buf h1 h2 h3) _

/-- sign, one digit, further digits after a point if there are any, the letter `e`, the exponent -/
def SciText (e : Char) (neg : Bool) (s : List Char) : Prop :=
  ∃ d t x, ∃ xneg : Bool, d.isDigit = true ∧ t.all Char.isDigit = true ∧ x ≠ [] ∧ x.all Char.isDigit = true ∧
    s = (if neg then ['-'] else []) ++ d :: ((if t = [] then [] else '.' :: t) ++ e :: ((if xneg then ['-'] else []) ++ x))

/-- sign, digits, further digits after a point if there are any -/
def DecText (neg : Bool) (s : List Char) : Prop :=
  ∃ i t, i ≠ [] ∧ i.all Char.isDigit = true ∧ t.all Char.isDigit = true ∧
    s = (if neg then ['-'] else []) ++ (i ++ if t = [] then [] else '.' :: t)

omit L in
theorem intText_form (k : ℤ) : ∃ x, ∃ xneg : Bool, x ≠ [] ∧ x.all Char.isDigit = true ∧ FloatText.intText k = (if xneg then ['-'] else []) ++ x := by
  obtain ⟨h1, h2⟩ := FloatText.natText_digits k.natAbs
  refine ⟨_, decide (k < 0), h2, ((FloatText.digits_iff _ _).1 h1).1, ?_⟩
  unfold FloatText.intText
  by_cases h : k < 0 <;> simp [h]

omit L in
theorem toExpStr_form {buf : List Char} (h0 : buf ≠ []) (h : buf.all Char.isDigit = true) (exp : ℤ) (up neg : Bool) :
    SciText (if up then 'E' else 'e') neg ((if neg then ['-'] else []) ++ FloatText.toExpStr buf exp up) := by
  obtain ⟨x, xneg, x1, x2, x3⟩ := intText_form (exp - 1)
  rcases buf with _ | ⟨d, _ | ⟨d', t⟩⟩
  · exact absurd rfl h0
  · exact ⟨d, [], x, xneg, by simpa using h, rfl, x1, x2, by simp [FloatText.toExpStr, x3]⟩
  · rw [List.all_cons, Bool.and_eq_true] at h
    exact ⟨d, d' :: t, x, xneg, h.1, h.2, x1, x2, by simp [FloatText.toExpStr, x3]⟩

omit L in
theorem toDecStr_form {buf : List Char} (h0 : buf ≠ []) (h : buf.all Char.isDigit = true) (exp : ℤ) (neg : Bool) :
    DecText neg ((if neg then ['-'] else []) ++ FloatText.toDecStr buf exp) := by
  have hz := fun n => (FloatText.zeros_digits n).1
  unfold FloatText.toDecStr
  by_cases h1 : exp ≤ 0
  · refine ⟨['0'], List.replicate (-exp).toNat '0' ++ buf, by simp, rfl, by rw [List.all_append, hz, h]; rfl, ?_⟩
    simp [h1, h0]
  by_cases h2 : exp < buf.length
  · refine ⟨buf.take exp.toNat, buf.drop exp.toNat, ?_, ?_, ?_, ?_⟩
    · rw [Ne, List.take_eq_nil_iff]; push Not; exact ⟨by omega, h0⟩
    · exact List.all_eq_true.2 fun c hc => List.all_eq_true.1 h c (List.mem_of_mem_take hc)
    · exact List.all_eq_true.2 fun c hc => List.all_eq_true.1 h c (List.mem_of_mem_drop hc)
    · have h3 : buf.drop exp.toNat ≠ [] := by rw [Ne, List.drop_eq_nil_iff]; omega
      simp only [h1, h2, h3, if_true, if_false]
  · refine ⟨buf ++ List.replicate (exp - buf.length).toNat '0', [], by simp [h0], by rw [List.all_append, hz, h]; rfl, rfl, ?_⟩
    simp only [h1, h2, if_true, if_false, List.append_nil]

omit L in
/-- C101: the form of the printed texts: `{:e}` prints a small and `{:E}` a capital letter with one digit before the point, `{}` no exponent at all; a minus sign
is printed exactly if the sign bit is set.  The infinities are `inf` and `-inf`, NaN has no sign. -/
theorem C101_text {dig : F64 → ℕ × ℤ} (hd : FloatText.ShortestDigits dig) (v : F64) :
    (v.isFinite = true → SciText 'e' v.sign (FloatText.lowerExp dig v).toList ∧ SciText 'E' v.sign (FloatText.upperExp dig v).toList ∧
      DecText v.sign (FloatText.display dig v).toList) ∧
    (v.isFinite = true → v.val = 0 → (FloatText.display dig v).toList = (if v.sign then ['-'] else []) ++ "0".toList ∧
      (FloatText.lowerExp dig v).toList = (if v.sign then ['-'] else []) ++ "0e0".toList ∧
      (FloatText.upperExp dig v).toList = (if v.sign then ['-'] else []) ++ "0E0".toList) ∧
    ∀ print ∈ [FloatText.display dig, FloatText.lowerExp dig, FloatText.upperExp dig],
      (v.isNaN = true → print v = "NaN") ∧ print (F64.inf false) = "inf" ∧ print (F64.inf true) = "-inf" := by
  refine ⟨fun hf => ?_, fun hf h0 => ?_, ?_⟩
  · have hn := isNaN_of_finite hf
    have hi := isInf_of_finite hf
    by_cases hz : v.isZero = true
    · refine ⟨⟨'0', [], ['0'], false, by decide, rfl, by simp, by decide, ?_⟩, ⟨'0', [], ['0'], false, by decide, rfl, by simp, by decide, ?_⟩,
        ['0'], [], by simp, by decide, rfl, ?_⟩ <;>
        simp [FloatText.lowerExp, FloatText.upperExp, FloatText.display, FloatText.format, hn, hi, hz]
    · have h0 : v.mag ≠ 0 := by simpa [isZero] using hz
      have hb := FloatText.decimal_ne (FloatText.digits_pos hd hf h0)
      have ha := ((FloatText.digits_iff _ _).1 (FloatText.decimal_digits (dig v).1)).1
      simp only [FloatText.lowerExp, FloatText.upperExp, FloatText.display, FloatText.format, hn, hi, hz, String.toList_ofList, Bool.false_eq_true, if_false]
      exact ⟨toExpStr_form hb ha _ false _, toExpStr_form hb ha _ true _, toDecStr_form hb ha _ _⟩
  · have hn := isNaN_of_finite hf
    have hi := isInf_of_finite hf
    have hz : v.isZero = true := by simp [isZero, val_eq_zero_iff.1 h0]
    simp [FloatText.lowerExp, FloatText.upperExp, FloatText.display, FloatText.format, hn, hi, hz]
  · intro print hp
    simp only [List.mem_cons, List.not_mem_nil, or_false] at hp
    rcases hp with rfl | rfl | rfl
    · exact ⟨fun h => by simp [FloatText.display, FloatText.format, h], rfl, rfl⟩
    · exact ⟨fun h => by simp [FloatText.lowerExp, FloatText.format, h], rfl, rfl⟩
    · exact ⟨fun h => by simp [FloatText.upperExp, FloatText.format, h], rfl, rfl⟩

omit L in
/-- the texts of -12.5: one digit before the point in scientific notation -/
example {dig : F64 → ℕ × ℤ} (hd : FloatText.ShortestDigits dig) :
    SciText 'E' true (FloatText.upperExp dig (F64.ofBits 0xC029000000000000)).toList ∧ FloatText.lowerExp dig (F64.inf true) = "-inf" :=
  ⟨((C101_text hd (F64.ofBits 0xC029000000000000)).1 (by decide)).2.1, ((C101_text hd (F64.inf true)).2.2 _ (by simp)).2.2⟩

omit L in
/-- the assumption on the digits can be met -/
example : ∃ dig, FloatText.ShortestDigits dig := FloatText.shortest_exists

/-- a number above -1 whose text is rejected -/
example : ∃ q : ℚ, -1 < -q ∧ Denotes "-0.99999999999999995".toList true q ∧
    fromStr (F := F64) FloatText.parse "-0.99999999999999995" = .error (.invalidValue .mk) := by
  have h : Denotes "-0.99999999999999995".toList true (99999999999999995 / 10 ^ 17) := by
    have := Denotes.mk .minus ((FloatText.parseNumber_iff "0.99999999999999995".toList (99999999999999995 / 10 ^ 17)).1 (by decide +kernel))
    exact this
  exact ⟨_, by norm_num, h, (C101_accepts _ h).2 fun hx => by have := hx.1; norm_num [withSign] at this⟩

/-- with one digit less it is accepted -/
example : ∃ p : FiniteAboveNegOne F64, fromStr FloatText.parse "-0.9999999999999999" = .ok p := by
  have h : Denotes "-0.9999999999999999".toList true (9999999999999999 / 10 ^ 16) :=
    Denotes.mk .minus ((FloatText.parseNumber_iff "0.9999999999999999".toList (9999999999999999 / 10 ^ 16)).1 (by decide +kernel))
  obtain ⟨p, hp, -⟩ := (C101_accepts _ h).1 (by norm_num [withSign])
  exact ⟨p, hp⟩

/-- a tiny number is read as zero, a huge one and the words for infinity are not parameters, blanks are not allowed -/
example : (∃ p : FiniteAboveNegOne F64, fromStr FloatText.parse "1e-400" = .ok p ∧ p.toF64 = F64.zero false) ∧
    fromStr (F := F64) FloatText.parse "+1.5E400" = .error (.invalidValue .mk) ∧ fromStr (F := F64) FloatText.parse "-Infinity" = .error (.invalidValue .mk) ∧
    fromStr (F := F64) FloatText.parse " 1" = .error (.parseError .invalid) ∧ fromStr (F := F64) FloatText.parse "" = .error (.parseError .empty) := by
  have key : ∀ (s : String) (v : F64), FloatText.parse s = .ok v → ¬ Valid v → fromStr (F := F64) FloatText.parse s = .error (.invalidValue .mk) :=
    fun s v h hv => (C04_from_str FloatText.parse s).2.1.2 ⟨v, h, hv⟩
  refine ⟨⟨⟨F64.zero false⟩, ((C04_from_str FloatText.parse _).2.2 ⟨F64.zero false⟩).2 ⟨?_, zero_isFinite _, by rw [show (toF64 ⟨F64.zero false⟩ : F64) = F64.zero false from rfl, val_zero]; norm_num⟩, rfl⟩,
    key _ (F64.inf false) ?_ fun h => absurd h.1 (by decide), (C101_rejects _).1 ⟨['-'], _, _, .minus, rfl, .inr (.inl (by decide))⟩,
    ((C04_from_str FloatText.parse _).1 _).2 ?_, ((C04_from_str FloatText.parse _).1 _).2 rfl⟩
  · have h : Denotes "1e-400".toList false (1 / 10 ^ 400) :=
      Denotes.mk .none ((FloatText.parseNumber_iff "1e-400".toList (1 / 10 ^ 400)).1 (by decide +kernel))
    rw [FloatText.parse, FloatText.parseChars_number h]
    exact congrArg _ (by decide +kernel)
  · have h : Denotes "+1.5E400".toList false (15 * 10 ^ 399) :=
      Denotes.mk .plus ((FloatText.parseNumber_iff "1.5E400".toList (15 * 10 ^ 399)).1 (by decide +kernel))
    rw [FloatText.parse, FloatText.parseChars_number h]
    exact congrArg _ (by decide +kernel)
  · decide +kernel

/-- the smallest parameter and the largest, printed and read back -/
example {dig : F64 → ℕ × ℤ} (hd : FloatText.ShortestDigits dig) :
    fromStr FloatText.parse (FiniteAboveNegOne.format (FloatText.display dig) ⟨F64.ofBits 0xBFEFFFFFFFFFFFFF⟩) = .ok ⟨F64.ofBits 0xBFEFFFFFFFFFFFFF⟩ ∧
    fromStr FloatText.parse (FiniteAboveNegOne.format (FloatText.upperExp dig) ⟨F64.ofBits 0x7FEFFFFFFFFFFFFF⟩) = .ok ⟨F64.ofBits 0x7FEFFFFFFFFFFFFF⟩ :=
  ⟨(C101_round_trip hd ⟨F64.ofBits 0xBFEFFFFFFFFFFFFF⟩ ⟨by decide +kernel, by decide +kernel⟩).1,
    (C101_round_trip hd ⟨F64.ofBits 0x7FEFFFFFFFFFFFFF⟩ ⟨by decide +kernel, by decide +kernel⟩).2.2⟩

omit L in
/-- the texts printed for 0.3 from its digit 3 -/
example : FloatText.format (fun _ => (3, -1)) ['0'] FloatText.toDecStr (F64.ofBits 0x3FD3333333333333) = "0.3" ∧
    FloatText.lowerExp (fun _ => (3, -1)) (F64.ofBits 0x3FD3333333333333) = "3e-1" ∧ FloatText.display (fun _ => (15, 9)) (F64.ofBits 0x420BF08EB0000000) = "15000000000" ∧
    FloatText.display (fun _ => (125, -1)) (F64.ofBits 0xC029000000000000) = "-12.5" := by decide +kernel

/-- the largest length of the text of one half -/
example {dig : F64 → ℕ × ℤ} (hd : FloatText.ShortestDigits dig) :
    (FiniteAboveNegOne.format (FloatText.upperExp dig) ⟨F64.ofBits 0x3FE0000000000000⟩).length ≤ 24 := ((C101_length hd).2 _).2.1

end GaussQuad.Props
