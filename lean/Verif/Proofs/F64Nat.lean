import Verif.Proofs.F64Arith

/-! # Exactly representable values -/

set_option exponentiation.threshold 3000

namespace GaussQuad.F64
open Spec

theorem exists_magInt {m : ℕ} (e : ℕ) (hm : m < 2 ^ 53) : ∃ k, magInt k = m * 2 ^ e := by
  rcases Nat.eq_zero_or_pos m with rfl | hpos
  · exact ⟨0, by rw [magInt_zero, zero_mul]⟩
  have h1 : 2 ^ m.log2 ≤ m := Nat.log2_self_le hpos.ne'
  have h2 : m < 2 ^ (m.log2 + 1) := Nat.lt_log2_self
  have h3 : m.log2 < 53 := (Nat.pow_lt_pow_iff_right (by norm_num)).1 (lt_of_le_of_lt h1 hm)
  generalize m.log2 = l at *
  by_cases he : 52 - l ≤ e
  · refine ⟨(e - (52 - l)) * 2 ^ 52 + m * 2 ^ (52 - l), ?_⟩
    rw [magInt_scaled]
    · rw [mul_assoc, ← pow_add]; congr 2; omega
    · right
      calc 2 ^ 52 = 2 ^ l * 2 ^ (52 - l) := by rw [← pow_add]; congr 1; omega
        _ ≤ _ := Nat.mul_le_mul_right _ h1
    · calc m * 2 ^ (52 - l) < 2 ^ (l + 1) * 2 ^ (52 - l) := Nat.mul_lt_mul_of_pos_right h2 (Nat.two_pow_pos _)
        _ = 2 ^ 53 := by rw [← pow_add]; congr 1; omega
  · refine ⟨m * 2 ^ e, magInt_of_lt ?_⟩
    calc m * 2 ^ e < 2 ^ (l + 1) * 2 ^ e := Nat.mul_lt_mul_of_pos_right h2 (Nat.two_pow_pos _)
      _ = 2 ^ (l + 1 + e) := by rw [← pow_add]
      _ ≤ 2 ^ 53 := Nat.pow_le_pow_right (by norm_num) (by omega)

/-- `±m·2^e` units with `m < 2^53` is a finite float -/
theorem exists_repr {m : ℕ} (e : ℕ) (hm : m < 2 ^ 53) (hb : m * 2 ^ e < 2 ^ 2098) (s : Bool) :
    ∃ x : F64, x.isFinite = true ∧ x.sign = s ∧ x.val = (if s then -1 else 1) * ((m * 2 ^ e : ℕ) / 2 ^ 1074) := by
  obtain ⟨k, hk⟩ := exists_magInt e hm
  have hlt : k < infMag := by
    by_contra hc
    have := magInt_strictMono.monotone (not_lt.1 hc)
    rw [magInt_infMag, hk] at this
    omega
  refine ⟨⟨s, k, lt_trans hlt (by decide)⟩, by simpa [isFinite] using hlt, rfl, ?_⟩
  rw [val_eq, hk]

/-- rounding a representable rational does not change it -/
theorem val_round_of_repr {x : F64} (hx : x.isFinite = true) (s : Bool) :
    (round x.val s).val = x.val ∧ (round x.val s).isFinite = true := by
  by_cases h0 : x.val = 0
  · rw [h0, round_zero]; exact ⟨val_zero s, zero_isFinite s⟩
  · rw [round_exact hx h0]; exact ⟨rfl, hx⟩

/-- integers below `2^53` are converted exactly -/
theorem val_round_nat {n : ℕ} (hn : n < 2 ^ 53) (s : Bool) :
    (round (n : ℚ) s).val = n ∧ (round (n : ℚ) s).isFinite = true := by
  have hb : n * 2 ^ 1074 < 2 ^ 2098 := by
    calc n * 2 ^ 1074 < 2 ^ 53 * 2 ^ 1074 := Nat.mul_lt_mul_of_pos_right hn (Nat.two_pow_pos _)
      _ ≤ 2 ^ 2098 := by rw [← pow_add]; exact Nat.pow_le_pow_right (by norm_num) (by norm_num)
  obtain ⟨x, hx, -, hv⟩ := exists_repr 1074 hn hb false
  have : x.val = (n : ℚ) := by
    rw [hv, Nat.cast_mul, Nat.cast_pow, Nat.cast_ofNat, mul_div_assoc, div_self pow1074_pos.ne', mul_one]
    simp
  rw [← this]
  exact val_round_of_repr hx s

end GaussQuad.F64
