import Verif.Proofs.F64Special
import Verif.Spec.PowerScale

/-!
# Rounding commutes with multiplication by a power of two

Outside the subnormal range, and on every grid `2^-g ℤ` that is coarser than the subnormal numbers.
-/

set_option exponentiation.threshold 3000

namespace GaussQuad.F64
open Spec

theorem rne_scale (A B : ℕ) {c : ℕ} (hc : 0 < c) : rne (c * A) (B * c) = rne A B := by
  unfold rne
  have h1 : c * A / (B * c) = A / B := by rw [mul_comm B c, Nat.mul_div_mul_left _ _ hc]
  have h2 : c * A % (B * c) = c * (A % B) := by rw [mul_comm B c, Nat.mul_mod_mul_left]
  have e1 : 2 * (c * (A % B)) < B * c ↔ 2 * (A % B) < B := by
    rw [show 2 * (c * (A % B)) = c * (2 * (A % B)) by ring, mul_comm B c]; exact Nat.mul_lt_mul_left hc
  have e2 : B * c < 2 * (c * (A % B)) ↔ B < 2 * (A % B) := by
    rw [show 2 * (c * (A % B)) = c * (2 * (A % B)) by ring, mul_comm B c]; exact Nat.mul_lt_mul_left hc
  simp only [h1, h2, e1, e2]

/-- the exponent used to round `A / B` -/
def expo (A B : ℕ) : ℕ := (A / B).log2 - 52

theorem magInt_round (A B : ℕ) : magInt (roundUnbounded A B) = rne A (B * 2 ^ expo A B) * 2 ^ expo A B := by
  set Q := A / B with hQ
  have hE : expo A B = Q.log2 - 52 := rfl
  set e := expo A B with he
  set m := A / (B * 2 ^ e) with hm
  have h2e : 0 < 2 ^ e := Nat.two_pow_pos e
  have hmQ : m = Q / 2 ^ e := by rw [hm, hQ, Nat.div_div_eq_div_mul]
  have hm1 : m < 2 ^ 53 := by
    rw [hmQ, Nat.div_lt_iff_lt_mul h2e, ← pow_add]
    by_cases hQ0 : Q = 0
    · rw [hQ0]; positivity
    · calc Q < 2 ^ (Q.log2 + 1) := Nat.lt_log2_self
        _ ≤ 2 ^ (53 + e) := Nat.pow_le_pow_right (by norm_num) (by omega)
  have hm2 : e = 0 ∨ 2 ^ 52 ≤ m := by
    by_cases h0 : e = 0
    · exact Or.inl h0
    · right
      have hQ0 : Q ≠ 0 := by
        intro h; rw [h] at hE; simp at hE; omega
      rw [hmQ, Nat.le_div_iff_mul_le h2e, ← pow_add]
      calc 2 ^ (52 + e) = 2 ^ Q.log2 := by congr 1; omega
        _ ≤ Q := Nat.log2_self_le hQ0
  have hr : rne A (B * 2 ^ e) = m ∨ rne A (B * 2 ^ e) = m + 1 := by
    unfold rne
    simp only [← hm]
    split_ifs <;> simp
  have hru : roundUnbounded A B = e * 2 ^ 52 + rne A (B * 2 ^ e) := rfl
  rw [hru]
  rcases hr with h | h
  · rw [h]; exact magInt_scaled hm2 hm1
  · rw [h]
    by_cases hlt : m + 1 < 2 ^ 53
    · exact magInt_scaled (by omega) hlt
    · have hm3 : m + 1 = 2 ^ 53 := by omega
      rw [hm3, show e * 2 ^ 52 + 2 ^ 53 = (e + 1) * 2 ^ 52 + 2 ^ 52 by ring, magInt_scaled (.inr le_rfl) (by norm_num)]
      rw [pow_succ 2 e]; ring

theorem expo_scale (A B k : ℕ) (hB : 0 < B) (h : 2 ^ 52 ≤ A / B) : expo (2 ^ k * A) B = expo A B + k := by
  unfold expo
  have hQ0 : A / B ≠ 0 := by have := Nat.two_pow_pos 52; omega
  set l := (A / B).log2 with hl
  have hl52 : 52 ≤ l := (Nat.le_log2 hQ0).2 h
  have h1 : 2 ^ l ≤ A / B := Nat.log2_self_le hQ0
  have h2 : A / B < 2 ^ (l + 1) := Nat.lt_log2_self
  rw [Nat.le_div_iff_mul_le hB] at h1
  rw [Nat.div_lt_iff_lt_mul hB] at h2
  have h3 : 2 ^ (l + k) ≤ 2 ^ k * A / B := by
    rw [Nat.le_div_iff_mul_le hB, pow_add, mul_comm (2 ^ l), mul_assoc]
    exact Nat.mul_le_mul_left _ h1
  have h4 : 2 ^ k * A / B < 2 ^ (l + k + 1) := by
    rw [Nat.div_lt_iff_lt_mul hB, show l + k + 1 = k + (l + 1) by ring, pow_add, mul_assoc]
    exact Nat.mul_lt_mul_of_pos_left h2 (Nat.two_pow_pos k)
  have h5 : (2 ^ k * A / B).log2 = l + k := by
    rw [Nat.log2_eq_iff (by have := Nat.two_pow_pos (l + k); omega)]
    exact ⟨h3, h4⟩
  rw [h5]; omega

theorem magInt_round_scale (A B k : ℕ) (hB : 0 < B) (h : 2 ^ 52 ≤ A / B) :
    magInt (roundUnbounded (2 ^ k * A) B) = 2 ^ k * magInt (roundUnbounded A B) := by
  rw [magInt_round, magInt_round, expo_scale A B k hB h, pow_add, ← mul_assoc B,
    rne_scale _ _ (Nat.two_pow_pos k)]
  ring

theorem roundUnbounded_congr {A B A' B' : ℕ} (hB : 0 < B) (hB' : 0 < B') (h : scaled A B = scaled A' B') :
    roundUnbounded A B = roundUnbounded A' B' :=
  le_antisymm (roundUnbounded_mono hB hB' h.le) (roundUnbounded_mono hB' hB h.ge)

theorem round_val {q : ℚ} (hq : q ≠ 0) (h : |q| < overflowThreshold) (s : Bool) :
    (round q s).val = (if q < 0 then -1 else 1) * (magInt (roundUnbounded (q.num.natAbs * 2 ^ 1074) q.den) / 2 ^ 1074) := by
  have hm : roundUnbounded (q.num.natAbs * 2 ^ 1074) q.den ≤ infMag := by
    by_contra hc
    exact absurd ((overflow_iff_rat q).1 (by omega)) (not_le.2 h)
  rw [val_eq, round_sign hq, round_mag hq, min_eq_left hm]
  simp

theorem round_scale {q : ℚ} (k : ℕ) (h1 : q = 0 ∨ 1 / 2 ^ 1022 ≤ |q|) (h2 : |2 ^ k * q| < overflowThreshold) (s s' : Bool) :
    (round (2 ^ k * q) s').val = 2 ^ k * (round q s).val := by
  by_cases hq : q = 0
  · rw [hq, mul_zero, round_zero, round_zero, val_zero, val_zero, mul_zero]
  have h1 := h1.resolve_left hq
  have hk : (0 : ℚ) < 2 ^ k := by positivity
  have hk1 : (1 : ℚ) ≤ 2 ^ k := one_le_pow₀ (by norm_num)
  have hq' : 2 ^ k * q ≠ 0 := mul_ne_zero hk.ne' hq
  have hlt : |q| < overflowThreshold := by
    refine lt_of_le_of_lt ?_ h2
    rw [abs_mul, abs_of_pos hk]
    exact le_mul_of_one_le_left (abs_nonneg q) hk1
  have hB : 0 < q.den := q.den_pos
  have hB' : (0 : ℚ) < q.den := by exact_mod_cast hB
  have hsc := scaled_rat q
  have hcong : roundUnbounded ((2 ^ k * q).num.natAbs * 2 ^ 1074) (2 ^ k * q).den =
      roundUnbounded (2 ^ k * (q.num.natAbs * 2 ^ 1074)) q.den := by
    refine roundUnbounded_congr (2 ^ k * q).den_pos hB ?_
    rw [scaled_rat, abs_mul, abs_of_pos hk, mul_assoc, ← hsc]
    unfold scaled
    push_cast
    ring
  have hbig : 2 ^ 52 ≤ q.num.natAbs * 2 ^ 1074 / q.den := by
    rw [Nat.le_div_iff_mul_le hB]
    have : (2 : ℚ) ^ 52 * q.den ≤ (q.num.natAbs * 2 ^ 1074 : ℕ) := by
      have e : ((q.num.natAbs * 2 ^ 1074 : ℕ) : ℚ) = |q| * 2 ^ 1074 * q.den := by
        rw [← hsc]; unfold scaled; field_simp
      rw [e]
      refine mul_le_mul_of_nonneg_right ?_ hB'.le
      calc (2 : ℚ) ^ 52 = 1 / 2 ^ 1022 * 2 ^ 1074 := by
            rw [show (1074 : ℕ) = 52 + 1022 by norm_num, pow_add]; field_simp
        _ ≤ |q| * 2 ^ 1074 := mul_le_mul_of_nonneg_right h1 (by positivity)
    exact_mod_cast this
  rw [round_val hq' h2, round_val hq hlt, hcong, magInt_round_scale _ _ _ hB hbig]
  have hs : (2 ^ k * q < 0) ↔ q < 0 := by
    constructor
    · intro h; by_contra hc; exact absurd h (not_lt.2 (mul_nonneg hk.le (not_lt.1 hc)))
    · intro h; exact mul_neg_of_pos_of_neg hk h
  simp only [hs]
  push_cast
  ring

/-! ## Grids -/

theorem _root_.GaussQuad.Spec.OnGrid.mono {g g' : ℕ} (h : g ≤ g') {q : ℚ} (hq : OnGrid g q) : OnGrid g' q := by
  obtain ⟨z, rfl⟩ := hq
  refine ⟨z * 2 ^ (g' - g), ?_⟩
  push_cast
  rw [div_eq_div_iff (by positivity) (by positivity)]
  rw [mul_assoc, ← pow_add, Nat.sub_add_cancel h]

theorem onGrid_zero (g : ℕ) : OnGrid g 0 := ⟨0, by simp⟩

theorem _root_.GaussQuad.Spec.OnGrid.add {g : ℕ} {p q : ℚ} (hp : OnGrid g p) (hq : OnGrid g q) : OnGrid g (p + q) := by
  obtain ⟨z, rfl⟩ := hp; obtain ⟨w, rfl⟩ := hq
  exact ⟨z + w, by push_cast; ring⟩

theorem _root_.GaussQuad.Spec.OnGrid.mul {g h : ℕ} {p q : ℚ} (hp : OnGrid g p) (hq : OnGrid h q) : OnGrid (g + h) (p * q) := by
  obtain ⟨z, rfl⟩ := hp; obtain ⟨w, rfl⟩ := hq
  exact ⟨z * w, by push_cast; rw [pow_add]; field_simp⟩

theorem _root_.GaussQuad.Spec.OnGrid.half {g : ℕ} {p : ℚ} (hp : OnGrid g p) : OnGrid (g + 1) (p / 2) := by
  obtain ⟨z, rfl⟩ := hp
  exact ⟨z, by rw [pow_succ]; field_simp⟩

theorem _root_.GaussQuad.Spec.OnGrid.large {g : ℕ} {q : ℚ} (hg : g ≤ 1022) (hq : OnGrid g q) : q = 0 ∨ 1 / 2 ^ 1022 ≤ |q| := by
  obtain ⟨z, rfl⟩ := hq
  by_cases hz : z = 0
  · left; simp [hz]
  · right
    have h1 : (1 : ℚ) ≤ |(z : ℚ)| := by exact_mod_cast Int.one_le_abs hz
    have h2 : (2 : ℚ) ^ g ≤ 2 ^ 1022 := pow_le_pow_right₀ (by norm_num) hg
    rw [abs_div, abs_of_pos (show (0 : ℚ) < 2 ^ g by positivity)]
    exact div_le_div₀ (abs_nonneg _) h1 (by positivity) h2

theorem magInt_round_dvd {N t : ℕ} (h : 2 ^ t ∣ N) : 2 ^ t ∣ magInt (roundUnbounded N 1) := by
  rw [magInt_round N 1, one_mul]
  set e := expo N 1
  by_cases hte : t ≤ e
  · exact Dvd.dvd.mul_left (pow_dvd_pow 2 hte) _
  · have hd : 2 ^ e ∣ N := (pow_dvd_pow 2 (by omega)).trans h
    have : rne N (2 ^ e) = N / 2 ^ e := by
      unfold rne
      simp [Nat.mod_eq_zero_of_dvd hd]
    rw [this, Nat.div_mul_cancel hd]
    exact h

theorem _root_.GaussQuad.Spec.OnGrid.round {g : ℕ} {q : ℚ} (hg : g ≤ 1022) (hq : OnGrid g q) (h : |q| < overflowThreshold) (s : Bool) :
    OnGrid g (round q s).val := by
  by_cases h0 : q = 0
  · rw [h0, round_zero, val_zero]; exact onGrid_zero g
  rw [round_val h0 h]
  obtain ⟨z, hz⟩ := hq
  have hN : roundUnbounded (q.num.natAbs * 2 ^ 1074) q.den = roundUnbounded (z.natAbs * 2 ^ (1074 - g)) 1 := by
    refine roundUnbounded_congr q.den_pos one_pos ?_
    rw [scaled_rat, hz, abs_div, abs_of_pos (show (0 : ℚ) < 2 ^ g by positivity)]
    unfold scaled
    push_cast
    rw [Nat.cast_natAbs, Int.cast_abs, div_one, div_mul_eq_mul_div, div_eq_iff (by positivity), mul_assoc, ← pow_add,
      Nat.sub_add_cancel (by omega)]
  obtain ⟨w, hw⟩ := magInt_round_dvd (Dvd.intro_left z.natAbs rfl : 2 ^ (1074 - g) ∣ z.natAbs * 2 ^ (1074 - g))
  rw [hN, hw]
  have e : ((2 ^ (1074 - g) * w : ℕ) : ℚ) / 2 ^ 1074 = w / 2 ^ g := by
    push_cast
    rw [div_eq_div_iff (by positivity) (by positivity), mul_comm _ (w : ℚ), mul_assoc, ← pow_add,
      Nat.sub_add_cancel (by omega)]
  rw [e]
  split_ifs
  · exact ⟨-w, by push_cast; ring⟩
  · exact ⟨w, by push_cast; ring⟩

/-- every binary64 number of magnitude at least `2^-m` is a multiple of `2^-(m+52)` -/
theorem onGrid_of_ge {m : ℕ} (hm : m ≤ 1022) {x : F64} (h : 1 / 2 ^ m ≤ |x.val|) : OnGrid (m + 52) x.val := by
  rw [abs_val, div_le_div_iff₀ (by positivity) (by positivity), one_mul] at h
  have hN : 2 ^ 1074 ≤ magInt x.mag * 2 ^ m := by exact_mod_cast h
  have hd : 2 ^ (1022 - m) ∣ magInt x.mag := by
    unfold magInt at hN ⊢
    by_cases hs : x.mag < 2 ^ 52
    · rw [if_pos hs] at hN
      have : x.mag * 2 ^ m < 2 ^ 52 * 2 ^ 1022 :=
        lt_of_lt_of_le (Nat.mul_lt_mul_of_pos_right hs (Nat.two_pow_pos m))
          (Nat.mul_le_mul_left _ (Nat.pow_le_pow_right (by norm_num) hm))
      rw [← pow_add] at this
      omega
    · rw [if_neg hs] at hN ⊢
      set E := x.mag / 2 ^ 52 - 1
      refine Dvd.dvd.mul_left (pow_dvd_pow 2 ?_) _
      by_contra hc
      have h1 : 2 ^ 52 + x.mag % 2 ^ 52 < 2 ^ 53 := by omega
      have h2 : (2 ^ 52 + x.mag % 2 ^ 52) * 2 ^ E * 2 ^ m < 2 ^ 53 * 2 ^ (E + m) := by
        rw [mul_assoc, ← pow_add]; exact Nat.mul_lt_mul_of_pos_right h1 (Nat.two_pow_pos _)
      rw [← pow_add] at h2
      have h3 : 2 ^ (53 + (E + m)) ≤ 2 ^ 1074 := Nat.pow_le_pow_right (by norm_num) (by omega)
      exact absurd (lt_of_lt_of_le h2 h3) (not_lt.2 hN)
  obtain ⟨w, hw⟩ := hd
  have e : (magInt x.mag : ℚ) / 2 ^ 1074 = w / 2 ^ (m + 52) := by
    rw [hw]
    push_cast
    rw [div_eq_div_iff (by positivity) (by positivity), mul_comm _ (w : ℚ), mul_assoc, ← pow_add]
    congr 2; omega
  rw [val_eq, e]
  split_ifs
  · exact ⟨-w, by push_cast; ring⟩
  · exact ⟨w, by push_cast; ring⟩

/-- one rounded operation, at the original scale and at the scaled one -/
theorem round_step {q : ℚ} {k g : ℕ} (s s' : Bool) (hg : g ≤ 1022) (hq : OnGrid g q)
    (hf : (round (2 ^ k * q) s').isFinite = true) :
    (round q s).isFinite = true ∧ (round (2 ^ k * q) s').val = 2 ^ k * (round q s).val ∧ OnGrid g (round q s).val := by
  rw [round_isFinite_iff] at hf
  have hlt : |q| < overflowThreshold := by
    refine lt_of_le_of_lt ?_ hf
    rw [abs_mul, abs_of_pos (show (0 : ℚ) < 2 ^ k by positivity)]
    exact le_mul_of_one_le_left (abs_nonneg q) (one_le_pow₀ (by norm_num))
  exact ⟨(round_isFinite_iff q s).2 hlt, round_scale k (hq.large hg) hf s s', hq.round hg hlt s⟩

end GaussQuad.F64
