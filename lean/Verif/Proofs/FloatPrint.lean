import Verif.Proofs.FloatText
import Verif.Proofs.F64Monotone
import Mathlib.Data.Nat.Digits.Lemmas
import Mathlib.Algebra.Order.Archimedean.Basic
import Mathlib.Algebra.Order.Floor.Ring
import Mathlib.Tactic.Positivity

/-!
Printed numbers are read back; seventeen digits suffice.
-/

set_option exponentiation.threshold 3000

namespace GaussQuad.FloatText
open Spec F64

/-! ### Which numbers are rounded to a given one -/

/-- neighbours of the number with magnitude bits `k` are at least `2^-53` of it away -/
theorem magInt_gap {k j : ℕ} (h : j ≠ k) : (magInt k : ℚ) / 2 ^ 53 ≤ |(magInt j : ℚ) - magInt k| := by
  have up : ∀ k : ℕ, (magInt (k + 1) : ℚ) / 2 ^ 53 ≤ magInt (k + 1) - magInt k := by
    intro k
    have h1 := magInt_succ k
    have h2 : magInt (k + 1) ≤ 2 ^ 53 * 2 ^ (k / 2 ^ 52 - 1) := by
      rw [h1]
      have h3 : magInt k + 2 ^ (k / 2 ^ 52 - 1) ≤ 2 ^ 53 * 2 ^ (k / 2 ^ 52 - 1) := by
        unfold magInt
        split
        · rename_i hk
          rw [Nat.div_eq_of_lt hk]; norm_num at hk ⊢; omega
        · have hm := Nat.mod_lt k (show 0 < 2 ^ 52 by norm_num)
          have : (2 ^ 52 + k % 2 ^ 52 + 1) * 2 ^ (k / 2 ^ 52 - 1) ≤ 2 ^ 53 * 2 ^ (k / 2 ^ 52 - 1) := Nat.mul_le_mul_right _ (by norm_num at hm ⊢; omega)
          linarith [this, Nat.add_mul (2 ^ 52 + k % 2 ^ 52) 1 (2 ^ (k / 2 ^ 52 - 1)), Nat.one_mul (2 ^ (k / 2 ^ 52 - 1))]
      exact h3
    rw [div_le_iff₀ (by positivity)]
    have h4 : (magInt (k + 1) : ℚ) ≤ 2 ^ 53 * 2 ^ (k / 2 ^ 52 - 1) := by exact_mod_cast h2
    have h5 : (magInt (k + 1) : ℚ) - magInt k = 2 ^ (k / 2 ^ 52 - 1) := by rw [h1]; push_cast; ring
    rw [h5]; linarith
  rcases lt_or_gt_of_ne h with hlt | hlt
  · obtain ⟨k, rfl⟩ : ∃ k', k = k' + 1 := ⟨k - 1, by omega⟩
    have h1 : (magInt j : ℚ) ≤ magInt k := by exact_mod_cast magInt_strictMono.monotone (by omega)
    have h2 := up k
    rw [abs_sub_comm]
    exact (h2.trans (by linarith)).trans (le_abs_self _)
  · have h1 : (magInt (k + 1) : ℚ) ≤ magInt j := by exact_mod_cast magInt_strictMono.monotone hlt
    have h2 := up k
    have h3 : (magInt k : ℚ) ≤ magInt (k + 1) := by exact_mod_cast magInt_strictMono.monotone (by omega)
    have h4 : (magInt k : ℚ) / 2 ^ 53 ≤ magInt (k + 1) / 2 ^ 53 := by gcongr
    exact (h4.trans (by linarith)).trans (le_abs_self _)

/-- a number closer than `2^-54` of the value is rounded to it -/
theorem round_near {k : ℕ} (hk : k < infMag) (h63 : k < 2 ^ 63) {q : ℚ} (hq : |q - (magInt k : ℚ) / 2 ^ 1074| < (magInt k : ℚ) / 2 ^ 1074 / 2 ^ 54) :
    F64.round q false = ⟨false, k, h63⟩ := by
  have hv : 0 < (magInt k : ℚ) / 2 ^ 1074 / 2 ^ 54 := (abs_nonneg _).trans_lt hq
  have hv0 : 0 < (magInt k : ℚ) / 2 ^ 1074 := by
    by_contra hcon
    push Not at hcon
    have := div_nonpos_of_nonpos_of_nonneg hcon (show (0 : ℚ) ≤ 2 ^ 54 by positivity)
    linarith
  have hv54 : (magInt k : ℚ) / 2 ^ 1074 / 2 ^ 54 ≤ magInt k / 2 ^ 1074 / 2 := by gcongr; norm_num
  have hq0 : 0 < q := by have := (abs_lt.1 hq).1; linarith
  have hbound : q < overflowThreshold := by
    have h1 := (abs_lt.1 hq).2
    have h2 : (magInt k : ℚ) ≤ 2 ^ 2098 - 2 ^ 2045 := by
      have h3 : magInt k ≤ magInt (infMag - 1) := magInt_strictMono.monotone (by omega)
      have h4 : magInt (infMag - 1) = (2 ^ 53 - 1) * 2 ^ 2045 := by
        have : infMag - 1 = 2045 * 2 ^ 52 + (2 ^ 53 - 1) := by decide
        rw [this, magInt_scaled (Or.inr (by norm_num)) (by norm_num)]
      have h5 : (magInt k : ℚ) ≤ ((2 ^ 53 - 1) * 2 ^ 2045 : ℕ) := by rw [← h4]; exact_mod_cast h3
      refine h5.trans (le_of_eq ?_)
      push_cast
      rw [show (2 : ℚ) ^ 2098 = 2 ^ 53 * 2 ^ 2045 by rw [← pow_add]]; ring
    have h6 : (magInt k : ℚ) / 2 ^ 1074 ≤ 2 ^ 1024 - 2 ^ 971 := by
      rw [div_le_iff₀ (by positivity), sub_mul, ← pow_add, ← pow_add]; exact h2
    have h7 : (magInt k : ℚ) / 2 ^ 1074 / 2 ^ 54 ≤ 2 ^ 970 := by
      rw [div_le_iff₀ (by positivity), ← pow_add]
      exact h6.trans (by norm_num)
    unfold overflowThreshold
    have h8 : (2 : ℚ) ^ 971 = 2 * 2 ^ 970 := by rw [← pow_succ']
    linarith
  rcases round_rounded q false with ⟨h0, -⟩ | ⟨-, hs, ⟨h1, -⟩ | ⟨-, h2, h3, -⟩⟩
  · exact absurd h0 hq0.ne'
  · rw [abs_of_pos hq0] at h1; exact absurd hbound (not_lt.2 h1)
  · have hs' : (F64.round q false).sign = false := by rw [hs]; simpa using hq0.le
    have h4 := h3 ⟨false, k, h63⟩ (by simpa [isFinite] using hk)
    generalize F64.round q false = r at *
    rcases r with ⟨s, j, hj⟩
    simp only at hs'
    subst hs'
    have e1 : ∀ (j : ℕ) (hj : j < 2 ^ 63), (⟨false, j, hj⟩ : F64).val = magInt j / 2 ^ 1074 := fun j hj => by rw [val_eq]; simp
    rw [e1, e1] at h4
    by_contra hne
    have hjk : j ≠ k := by rintro rfl; exact hne rfl
    have h5 := magInt_gap hjk
    have h6 : |(magInt j : ℚ) / 2 ^ 1074 - magInt k / 2 ^ 1074| = |(magInt j : ℚ) - magInt k| / 2 ^ 1074 := by
      rw [← sub_div, abs_div, abs_of_pos (show (0 : ℚ) < 2 ^ 1074 by positivity)]
    have h7 : |(magInt j : ℚ) / 2 ^ 1074 - magInt k / 2 ^ 1074| ≤ |q - magInt j / 2 ^ 1074| + |q - magInt k / 2 ^ 1074| := by
      have := abs_sub_le ((magInt j : ℚ) / 2 ^ 1074) q (magInt k / 2 ^ 1074)
      rwa [abs_sub_comm _ q] at this
    rw [h6] at h7
    have h8 : (magInt k : ℚ) / 2 ^ 53 / 2 ^ 1074 ≤ |(magInt j : ℚ) - magInt k| / 2 ^ 1074 := by gcongr
    have h9 : (magInt k : ℚ) / 2 ^ 53 / 2 ^ 1074 = 2 * (magInt k / 2 ^ 1074 / 2 ^ 54) := by
      rw [show (2 : ℚ) ^ 54 = 2 ^ 53 * 2 by norm_num, div_div, div_div, ← mul_div_assoc]
      rw [mul_comm (2 ^ 1074 : ℚ), div_eq_div_iff (by positivity) (by positivity)]; ring
    linarith

/-- every finite non-zero value is read from some decimal number with at most seventeen digits -/
theorem seventeen {k : ℕ} (h0 : k ≠ 0) (hk : k < infMag) (h63 : k < 2 ^ 63) :
    ∃ (m : ℕ) (e : ℤ), m < 10 ^ 17 ∧ F64.round (m * (10 : ℚ) ^ e) false = ⟨false, k, h63⟩ := by
  have hpos : 0 < magInt k := by have := magInt_strictMono (Nat.pos_of_ne_zero h0); rw [magInt_zero] at this; exact this
  set v : ℚ := magInt k / 2 ^ 1074 with hv
  have hv0 : 0 < v := by rw [hv]; positivity
  obtain ⟨n, hn1, hn2⟩ := exists_mem_Ico_zpow hv0 (show (1 : ℚ) < 10 by norm_num)
  set e : ℤ := n - 16 with he
  have hen : (10 : ℚ) ^ n = 10 ^ e * 10 ^ 16 := by rw [he, ← zpow_natCast, ← zpow_add₀ (by norm_num)]; norm_num
  have hen1 : (10 : ℚ) ^ (n + 1) = 10 ^ e * 10 ^ 17 := by rw [he, ← zpow_natCast, ← zpow_add₀ (by norm_num)]; congr 1; push_cast; ring
  have hp : (0 : ℚ) < 10 ^ e := zpow_pos (by norm_num) _
  set x := v / 10 ^ e with hx
  have hxv : v = x * 10 ^ e := by rw [hx]; field_simp
  have hx1 : (10 : ℚ) ^ 16 ≤ x := by rw [hx, le_div_iff₀ hp]; linarith
  have hx2 : x < (10 : ℚ) ^ 17 := by rw [hx, div_lt_iff₀ hp]; linarith
  -- nearest integer
  set m := ⌊x + 1 / 2⌋₊ with hm
  have hm1 : (m : ℚ) ≤ x + 1 / 2 := Nat.floor_le (by linarith [show (0 : ℚ) < 10 ^ 16 by positivity])
  have hm2 : x + 1 / 2 < m + 1 := Nat.lt_floor_add_one _
  have hround : F64.round (m * (10 : ℚ) ^ e) false = ⟨false, k, h63⟩ := by
    apply round_near hk
    rw [← hv, hxv, ← sub_mul, abs_mul, abs_of_pos hp, mul_div_right_comm]
    apply mul_lt_mul_of_pos_right _ hp
    have h1 : |(m : ℚ) - x| ≤ 1 / 2 := abs_le.2 ⟨by linarith, by linarith⟩
    refine h1.trans_lt ?_
    rw [lt_div_iff₀ (by positivity)]
    refine lt_of_lt_of_le ?_ hx1
    norm_num
  by_cases h17 : m < 10 ^ 17
  · exact ⟨m, e, h17, hround⟩
  · have h17' : (10 : ℚ) ^ 17 ≤ m := by exact_mod_cast not_lt.1 h17
    have hm3 : m = 10 ^ 17 := by
      have : (m : ℚ) < 10 ^ 17 + 1 := by linarith
      have : m < 10 ^ 17 + 1 := by exact_mod_cast this
      omega
    refine ⟨1, e + 17, by norm_num, ?_⟩
    rw [← hround, hm3]
    congr 1
    rw [zpow_add₀ (by norm_num)]; push_cast; ring

/-! ### Digits -/

theorem digitChar_ok {d : ℕ} (h : d < 10) : (Nat.digitChar d).isDigit = true ∧ (Nat.digitChar d).toNat - 48 = d := by
  interval_cases d <;> decide

theorem decimal_digits (m : ℕ) : Digits (decimal m) m := by
  have key : ∀ l : List ℕ, (∀ d ∈ l, d < 10) → (l.reverse.map Nat.digitChar).all Char.isDigit = true ∧ digitsValue (l.reverse.map Nat.digitChar) = Nat.ofDigits 10 l := by
    intro l
    induction l with
    | nil => intro _; exact ⟨rfl, rfl⟩
    | cons d t ih =>
      intro h
      obtain ⟨h1, h2⟩ := ih fun d hd => h d (List.mem_cons_of_mem _ hd)
      obtain ⟨h3, h4⟩ := digitChar_ok (h d (by simp))
      rw [List.reverse_cons, List.map_append, List.map_singleton, digitsValue_append, h2, Nat.ofDigits_cons, List.all_append, h1]
      refine ⟨by simp [h3], ?_⟩
      have : digitsValue [Nat.digitChar d] = d := by rw [digitsValue_cons, h4]; simp [digitsValue]
      rw [this]; simp; ring
  obtain ⟨h1, h2⟩ := key (Nat.digits 10 m) fun d hd => Nat.digits_lt_base (by norm_num) hd
  rw [Nat.ofDigits_digits] at h2
  exact (digits_iff _ _).2 ⟨h1, h2.symm⟩

theorem decimal_length (m : ℕ) : (decimal m).length = (Nat.digits 10 m).length := by simp [decimal]

theorem decimal_ne {m : ℕ} (h : m ≠ 0) : decimal m ≠ [] := by
  intro hd
  have := congrArg List.length hd
  rw [decimal_length, List.length_nil, List.length_eq_zero_iff, Nat.digits_eq_nil_iff_eq_zero] at this
  exact h this

theorem zeros_digits (n : ℕ) : (List.replicate n '0').all Char.isDigit = true ∧ digitsValue (List.replicate n '0') = 0 := by
  induction n with
  | zero => exact ⟨rfl, rfl⟩
  | succ n ih => rw [List.replicate_succ]; exact ⟨by rw [List.all_cons, ih.1]; rfl, by rw [digitsValue_cons, ih.2]; simp⟩

theorem digits_append {a b : List Char} {n m : ℕ} (ha : Digits a n) (hb : Digits b m) : Digits (a ++ b) (n * 10 ^ b.length + m) := by
  obtain ⟨h1, rfl⟩ := (digits_iff _ _).1 ha
  obtain ⟨h2, rfl⟩ := (digits_iff _ _).1 hb
  exact (digits_iff _ _).2 ⟨by rw [List.all_append, h1, h2]; rfl, (digitsValue_append _ _).symm⟩

theorem digits_split {a b : List Char} {n : ℕ} (h : Digits (a ++ b) n) : ∃ i f, Digits a i ∧ Digits b f ∧ n = i * 10 ^ b.length + f := by
  obtain ⟨h1, rfl⟩ := (digits_iff _ _).1 h
  rw [List.all_append, Bool.and_eq_true] at h1
  exact ⟨_, _, (digits_iff _ _).2 ⟨h1.1, rfl⟩, (digits_iff _ _).2 ⟨h1.2, rfl⟩, digitsValue_append _ _⟩

theorem mantissa_number {m : List Char} {q : ℚ} (h : Mantissa m q) : Number m q := by
  have := Number.mk h .none
  simpa using this

/-- `{}` of the digits is a text of the number -/
theorem toDecStr_number {buf : List Char} {m : ℕ} (hb : Digits buf m) (hne : buf ≠ []) (e : ℤ) : Number (toDecStr buf (buf.length + e)) (m * 10 ^ e) := by
  have hl : 0 < buf.length := List.length_pos_iff.2 hne
  unfold toDecStr
  split
  · rename_i h
    set z := (-(buf.length + e : ℤ)).toNat with hz
    have hzz : (z : ℤ) = -(buf.length + e) := Int.toNat_of_nonneg (by omega)
    obtain ⟨z1, z2⟩ := zeros_digits z
    have hF := digits_append ((digits_iff (List.replicate z '0') 0).2 ⟨z1, z2.symm⟩) hb
    have hM : Mantissa (['0'] ++ '.' :: (List.replicate z '0' ++ buf)) _ := .point (.cons .d0 .nil) hF (.inl (by simp))
    have := mantissa_number hM
    show Number (['0'] ++ '.' :: (List.replicate z '0' ++ buf)) _
    convert this using 1
    have h10 : (10 : ℚ) ^ (List.replicate z '0' ++ buf).length = 10 ^ (-e) := by
      rw [← zpow_natCast]; congr 1; rw [List.length_append, List.length_replicate]; push_cast; omega
    rw [h10, zpow_neg]
    simp
  split
  · rename_i h1 h2
    set t := (buf.length + e : ℤ).toNat with ht
    have htt : (t : ℤ) = buf.length + e := Int.toNat_of_nonneg (by omega)
    have hb' := hb
    rw [← List.take_append_drop t buf] at hb'
    obtain ⟨i, f, hi, hf, hm⟩ := digits_split hb'
    have hM := Mantissa.point hi hf (.inl (by
      intro h0
      have := congrArg List.length h0
      rw [List.length_take, List.length_nil] at this
      omega))
    have := mantissa_number hM
    convert this using 1
    have h10 : (10 : ℚ) ^ (buf.drop t).length = 10 ^ (-e) := by
      rw [← zpow_natCast]; congr 1; rw [List.length_drop]; omega
    have hc : (m : ℚ) = i * 10 ^ (buf.drop t).length + f := by rw [hm]; push_cast; rfl
    rw [hc, h10, zpow_neg]
    have : (10 : ℚ) ^ e ≠ 0 := zpow_ne_zero _ (by norm_num)
    field_simp
  · rename_i h1 h2
    set z := (buf.length + e - buf.length : ℤ).toNat with hz
    have hzz : (z : ℤ) = e := by rw [hz, Int.toNat_of_nonneg (by omega)]; ring
    obtain ⟨z1, z2⟩ := zeros_digits z
    have hI := digits_append hb ((digits_iff (List.replicate z '0') 0).2 ⟨z1, z2.symm⟩)
    have := mantissa_number (.whole hI (by simp [hne]))
    convert this using 1
    rw [List.length_replicate, ← hzz, zpow_natCast]; push_cast; ring

theorem natText_digits (n : ℕ) : Digits (intText.natText n) n ∧ intText.natText n ≠ [] := by
  unfold intText.natText
  split
  · rename_i h; subst h; exact ⟨.cons .d0 .nil, by simp⟩
  · rename_i h; exact ⟨decimal_digits n, decimal_ne h⟩

theorem intText_exponent {c : Char} (hc : c = 'e' ∨ c = 'E') (k : ℤ) : Exponent (c :: intText k) k := by
  unfold intText
  obtain ⟨h1, h2⟩ := natText_digits k.natAbs
  split
  · rename_i h
    have := Exponent.some hc .minus h1 h2
    rw [if_pos rfl, show -(k.natAbs : ℤ) = k by omega] at this
    exact this
  · rename_i h
    have := Exponent.some hc .none h1 h2
    rw [if_neg (by simp), show (k.natAbs : ℤ) = k by omega] at this
    exact this

/-- `{:e}` and `{:E}` of the digits are texts of the number -/
theorem toExpStr_number {buf : List Char} {m : ℕ} (hb : Digits buf m) (hne : buf ≠ []) (e : ℤ) (upper : Bool) : Number (toExpStr buf (buf.length + e) upper) (m * 10 ^ e) := by
  have hc : (if upper then 'E' else 'e') = 'e' ∨ (if upper then 'E' else 'e') = 'E' := by cases upper <;> simp
  cases buf with
  | nil => exact absurd rfl hne
  | cons d t =>
    cases t with
    | nil =>
      have := Number.mk (.whole hb hne) (intText_exponent hc e)
      have h1 : (([d].length : ℤ) + e - 1) = e := by simp
      unfold toExpStr
      rw [h1]
      exact this
    | cons d' t =>
      obtain ⟨i, f, hi, hf, hm⟩ := digits_split (a := [d]) (b := d' :: t) hb
      have := Number.mk (.point hi hf (.inl (by simp))) (intText_exponent hc (((d :: d' :: t).length : ℤ) + e - 1))
      unfold toExpStr
      have hl : [d] ++ '.' :: (d' :: t) ++ (if upper then 'E' else 'e') :: intText (((d :: d' :: t).length : ℤ) + e - 1) =
        d :: '.' :: ((d' :: t) ++ (if upper then 'E' else 'e') :: intText (((d :: d' :: t).length : ℤ) + e - 1)) := by simp
      rw [hl] at this
      convert this using 1
      have h1 : (((d :: d' :: t).length : ℤ) + e - 1) = ((d' :: t).length : ℤ) + e := by simp; ring
      have hc : (m : ℚ) = i * 10 ^ (d' :: t).length + f := by rw [hm]; push_cast; rfl
      rw [h1, hc, zpow_add₀ (by norm_num), zpow_natCast]
      have : (10 : ℚ) ^ (d' :: t).length ≠ 0 := by positivity
      field_simp

theorem round_neg_true {q : ℚ} {k : ℕ} {h : k < 2 ^ 63} (hq : F64.round q false = ⟨false, k, h⟩) (hk : k ≠ 0) : F64.round (-q) true = ⟨true, k, h⟩ := by
  unfold F64.round at *
  split at hq
  · simp only [zero, F64.mk.injEq, true_and] at hq; exact absurd hq.symm hk
  · rename_i h0
    simp only [F64.mk.injEq, decide_eq_false_iff_not, not_lt] at hq
    rw [if_neg (by simpa using h0)]
    simp only [F64.mk.injEq, decide_eq_true_eq, Rat.num_neg_eq_neg_num, Int.natAbs_neg, Rat.den_neg_eq_den]
    exact ⟨by have := lt_of_le_of_ne hq.1 (Ne.symm h0); linarith, hq.2⟩

theorem digits_pos {dig : F64 → ℕ × ℤ} (hd : ShortestDigits dig) {v : F64} (hv : v.isFinite = true) (h0 : v.mag ≠ 0) : (dig v).1 ≠ 0 := by
  intro h
  have := (hd v hv h0).1
  rw [h, Nat.cast_zero, zero_mul, round_zero] at this
  simp only [zero, F64.mk.injEq, true_and] at this
  exact h0 this.symm

/-- the text of every value is read back -/
theorem parse_format {dig : F64 → ℕ × ℤ} (hd : ShortestDigits dig) {z : List Char} {fin : List Char → ℤ → List Char} (hz : Number z 0)
    (hfin : ∀ {buf : List Char} {m : ℕ}, Digits buf m → buf ≠ [] → ∀ e : ℤ, Number (fin buf (buf.length + e)) (m * 10 ^ e)) (v : F64) (hv : v.isNaN = false) :
    parse (format dig z fin v) = .ok v := by
  unfold parse format
  rw [hv, String.toList_ofList, if_neg (by simp)]
  have hsign : SignText (if v.sign then ['-'] else []) v.sign := by cases v.sign <;> constructor
  rcases v with ⟨s, k, hk⟩
  by_cases hi : isInf ⟨s, k, hk⟩ = true
  · rw [if_pos hi, parseChars_special hsign (.inl rfl), if_neg (by decide), ← eq_inf hi]
  rw [if_neg hi]
  have hfin' : isFinite ⟨s, k, hk⟩ = true := (nan_trichotomy _ hv).resolve_left hi
  by_cases h0 : isZero ⟨s, k, hk⟩ = true
  · have h0' : k = 0 := by simpa [isZero] using h0
    subst h0'
    rw [if_pos h0, parseChars_number (.mk hsign hz), neg_zero, ite_self, round_zero]
    rfl
  have h0' : k ≠ 0 := by simpa [isZero] using h0
  rw [if_neg h0, parseChars_number (.mk hsign (hfin (decimal_digits _) (decimal_ne (digits_pos hd hfin' h0')) _))]
  have hr := (hd _ hfin' h0').1
  cases s
  · exact congrArg _ hr
  · exact congrArg _ (round_neg_true hr h0')

/-! ### Lengths -/

theorem shortest_le {dig : F64 → ℕ × ℤ} (hd : ShortestDigits dig) {v : F64} (hv : v.isFinite = true) (h0 : v.mag ≠ 0) : (Nat.digits 10 (dig v).1).length ≤ 17 := by
  obtain ⟨m, e, hm, hr⟩ := seventeen h0 (by simpa [isFinite] using hv) v.lt_mag
  refine ((hd v hv h0).2 m e hr).trans ?_
  by_contra hcon
  push Not at hcon
  exact absurd ((Nat.lt_digits_length_iff (by norm_num) m).1 hcon) (not_le.2 hm)

/-- the decimal exponent of the digits -/
theorem exponent_bounds {dig : F64 → ℕ × ℤ} (hd : ShortestDigits dig) {v : F64} (hv : v.isFinite = true) (h0 : v.mag ≠ 0) :
    -323 ≤ ((Nat.digits 10 (dig v).1).length : ℤ) + (dig v).2 ∧ ((Nat.digits 10 (dig v).1).length : ℤ) + (dig v).2 ≤ 309 := by
  have hm := digits_pos hd hv h0
  have hr := (hd v hv h0).1
  set m := (dig v).1
  set e := (dig v).2
  set l := (Nat.digits 10 m).length with hl
  have hl0 : 0 < l := by rw [hl, List.length_pos_iff]; exact Nat.digits_ne_nil_iff_ne_zero.2 hm
  have hp : (0 : ℚ) < 10 ^ e := zpow_pos (by norm_num) _
  have lo : (10 : ℚ) ^ (l - 1) ≤ m := by exact_mod_cast (Nat.lt_digits_length_iff (by norm_num) m).1 (show l - 1 < l by omega)
  have hi : (m : ℚ) < 10 ^ l := by
    have : ¬ 10 ^ l ≤ m := fun h => absurd ((Nat.lt_digits_length_iff (b := 10) (by norm_num) m).2 h) (lt_irrefl _)
    exact_mod_cast not_le.1 this
  have hq : 0 < (m : ℚ) * 10 ^ e := mul_pos (by exact_mod_cast Nat.pos_of_ne_zero hm) hp
  have hfin : (F64.round ((m : ℚ) * 10 ^ e) false).isFinite = true := by rw [hr]; simpa [isFinite] using hv
  have hthr : (m : ℚ) * 10 ^ e < 10 ^ 309 := by
    rcases round_rounded ((m : ℚ) * 10 ^ e) false with ⟨h, -⟩ | ⟨-, -, ⟨-, h2⟩ | ⟨h1, -⟩⟩
    · exact absurd h hq.ne'
    · rw [isInf_of_finite hfin] at h2; cases h2
    · rw [abs_of_pos hq] at h1
      refine h1.trans ?_
      unfold overflowThreshold; norm_num
  have hlow : (1 : ℚ) / 10 ^ 324 < m * 10 ^ e := by
    by_contra hcon
    push Not at hcon
    have h1 : (m : ℚ) * 10 ^ e ≤ 1 / 2 ^ 1075 := hcon.trans (by rw [div_le_div_iff₀ (by positivity) (by positivity)]; norm_num)
    have h2 := round_key_mono h1 false false
    have h3 : F64.round (1 / 2 ^ 1075) false = F64.zero false := by decide +kernel
    rw [h3, hr] at h2
    simp only [key, zero, Bool.false_eq_true, if_false] at h2
    omega
  constructor
  · have h1 : (10 : ℚ) ^ (-324 : ℤ) < 10 ^ ((l : ℤ) + e) := by
      rw [zpow_add₀ (by norm_num), zpow_natCast]
      refine lt_trans ?_ (mul_lt_mul_of_pos_right hi hp)
      rw [zpow_neg, inv_eq_one_div]; exact_mod_cast hlow
    have := (zpow_lt_zpow_iff_right₀ (by norm_num : (1 : ℚ) < 10)).1 h1
    omega
  · have h1 : (10 : ℚ) ^ ((l : ℤ) - 1 + e) < 10 ^ (309 : ℤ) := by
      rw [zpow_add₀ (by norm_num), show ((l : ℤ) - 1) = ((l - 1 : ℕ) : ℤ) by omega, zpow_natCast]
      refine lt_of_le_of_lt (mul_le_mul_of_nonneg_right lo hp.le) ?_
      exact_mod_cast hthr
    have := (zpow_lt_zpow_iff_right₀ (by norm_num : (1 : ℚ) < 10)).1 h1
    omega

theorem intText_length {k : ℤ} (h1 : -999 ≤ k) (h2 : k ≤ 999) : (intText k).length ≤ 4 := by
  have h3 : (intText.natText k.natAbs).length ≤ 3 := by
    unfold intText.natText
    split
    · simp
    · rw [decimal_length]
      by_contra hcon
      push Not at hcon
      have := (Nat.lt_digits_length_iff (b := 10) (by norm_num) k.natAbs).1 hcon
      omega
  unfold intText
  split
  · rw [List.length_cons]; omega
  · omega

theorem toExpStr_length (buf : List Char) {exp : ℤ} (h1 : -323 ≤ exp) (h2 : exp ≤ 309) (upper : Bool) : (toExpStr buf exp upper).length ≤ buf.length + 6 := by
  have := intText_length (k := exp - 1) (by omega) (by omega)
  unfold toExpStr
  rcases buf with _ | ⟨d, _ | ⟨d', t⟩⟩
  · simp
  · simp only [List.length_cons, List.length_nil]; omega
  · simp only [List.length_cons, List.length_append]; omega

theorem toDecStr_length (buf : List Char) {exp : ℤ} (h1 : -323 ≤ exp) (h2 : exp ≤ 309) (hb : buf.length ≤ 17) : (toDecStr buf exp).length ≤ 342 := by
  unfold toDecStr
  split
  · simp only [List.length_cons, List.length_append, List.length_replicate]; omega
  split
  · simp only [List.length_cons, List.length_append, List.length_take, List.length_drop]; omega
  · simp only [List.length_append, List.length_replicate]; omega

theorem format_length {dig : F64 → ℕ × ℤ} (hd : ShortestDigits dig) {z : List Char} {fin : List Char → ℤ → List Char} {N : ℕ} (hN : 3 ≤ N) (hz : z.length ≤ N)
    (hfin : ∀ (buf : List Char) {exp : ℤ}, -323 ≤ exp → exp ≤ 309 → buf.length ≤ 17 → (fin buf exp).length ≤ N) (v : F64) : (format dig z fin v).length ≤ N + 1 := by
  unfold format
  rw [String.length_ofList]
  split
  · simp; omega
  rename_i hn
  have hs : (if v.sign then ['-'] else []).length ≤ 1 := by split <;> simp
  rw [List.length_append]
  refine (Nat.add_le_add_right hs _).trans ?_
  rw [Nat.add_comm]
  refine Nat.add_le_add_right ?_ 1
  split
  · simpa using hN
  rename_i hi
  have hv : v.isFinite = true := (nan_trichotomy _ (by simpa using hn)).resolve_left hi
  split
  · exact hz
  rename_i h0
  have h0' : v.mag ≠ 0 := by simpa [isZero] using h0
  obtain ⟨a, b⟩ := exponent_bounds hd hv h0'
  have := shortest_le hd hv h0'
  dsimp only
  rw [← decimal_length] at a b this
  exact hfin _ a b this

/-- digit functions of this kind exist -/
theorem shortest_exists : ∃ dig, ShortestDigits dig := by
  have key : ∀ v : F64, ∃ p : ℕ × ℤ, v.isFinite = true → v.mag ≠ 0 →
      F64.round (p.1 * (10 : ℚ) ^ p.2) false = ⟨false, v.mag, v.lt_mag⟩ ∧
      ∀ (m : ℕ) (e : ℤ), F64.round (m * (10 : ℚ) ^ e) false = ⟨false, v.mag, v.lt_mag⟩ → (Nat.digits 10 p.1).length ≤ (Nat.digits 10 m).length := by
    intro v
    by_cases h : v.isFinite = true ∧ v.mag ≠ 0
    · obtain ⟨m, e, -, hr⟩ := seventeen h.2 (by simpa [isFinite] using h.1) v.lt_mag
      have hex : ∃ n, ∃ p : ℕ × ℤ, F64.round (p.1 * (10 : ℚ) ^ p.2) false = ⟨false, v.mag, v.lt_mag⟩ ∧ (Nat.digits 10 p.1).length = n := ⟨_, (m, e), hr, rfl⟩
      classical
      obtain ⟨p, hp1, hp2⟩ := Nat.find_spec hex
      exact ⟨p, fun _ _ => ⟨hp1, fun m e hr => by rw [hp2]; exact Nat.find_min' hex ⟨(m, e), hr, rfl⟩⟩⟩
    · exact ⟨(0, 0), fun h1 h2 => absurd ⟨h1, h2⟩ h⟩
  choose dig hdig using key
  exact ⟨dig, hdig⟩

end GaussQuad.FloatText
