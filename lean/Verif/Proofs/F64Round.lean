import Verif.Model.F64
import Mathlib.Data.Rat.Lemmas
import Mathlib.Algebra.Order.Ring.Abs
import Mathlib.Algebra.Order.Field.Basic
import Mathlib.Tactic.Linarith
import Mathlib.Tactic.Ring
import Mathlib.Tactic.LinearCombination
import Mathlib.Tactic.FieldSimp
import Mathlib.Tactic.Positivity
import Mathlib.Tactic.NormNum
import Mathlib.Order.Monotone.Basic
import Mathlib.Data.Nat.Log
import Mathlib.Data.Rat.Cast.Order

/-! Theory of the rounding function of the binary64 model. -/

set_option exponentiation.threshold 3000

namespace GaussQuad.F64

theorem magInt_succ (k : ℕ) : magInt (k + 1) = magInt k + 2 ^ (k / 2 ^ 52 - 1) := by
  unfold magInt
  by_cases h1 : k + 1 < 2 ^ 52
  · have h2 : k < 2 ^ 52 := by omega
    have h3 : k / 2 ^ 52 = 0 := by omega
    rw [if_pos h1, if_pos h2, h3]; simp
  · rw [if_neg h1]
    by_cases h2 : k < 2 ^ 52
    · have h3 : k + 1 = 2 ^ 52 := by omega
      have h4 : k / 2 ^ 52 = 0 := by omega
      rw [if_pos h2, h3, h4]; simp; omega
    · rw [if_neg h2]
      obtain ⟨E, hE⟩ : ∃ E, k / 2 ^ 52 = E + 1 := ⟨k / 2 ^ 52 - 1, by omega⟩
      by_cases h5 : k % 2 ^ 52 + 1 < 2 ^ 52
      · have h6 : (k + 1) / 2 ^ 52 = E + 1 := by omega
        have h7 : (k + 1) % 2 ^ 52 = k % 2 ^ 52 + 1 := by omega
        rw [h6, h7, hE]; simp only [Nat.add_sub_cancel]; ring
      · have h6 : (k + 1) / 2 ^ 52 = E + 2 := by omega
        have h7 : (k + 1) % 2 ^ 52 = 0 := by omega
        have h8 : k % 2 ^ 52 = 2 ^ 52 - 1 := by omega
        rw [h6, h7, hE, h8]; simp only [Nat.add_sub_cancel]
        have : E + 2 - 1 = E + 1 := by omega
        rw [this, pow_succ 2 E]
        generalize 2 ^ E = t
        norm_num; omega

theorem magInt_strictMono : StrictMono magInt :=
  strictMono_nat_of_lt_succ fun k => by rw [magInt_succ]; exact Nat.lt_add_of_pos_right (Nat.two_pow_pos _)

theorem magInt_zero : magInt 0 = 0 := by simp [magInt]

theorem magInt_of_lt {k : ℕ} (h : k < 2 ^ 53) : magInt k = k := by
  unfold magInt
  split
  · rfl
  · have h1 : k / 2 ^ 52 = 1 := by omega
    rw [h1]; simp; omega

theorem magInt_scaled {e m : ℕ} (h1 : e = 0 ∨ 2 ^ 52 ≤ m) (h2 : m < 2 ^ 53) :
    magInt (e * 2 ^ 52 + m) = m * 2 ^ e := by
  rcases h1 with rfl | h1
  · simp [magInt_of_lt h2]
  · unfold magInt
    have hk : ¬ (e * 2 ^ 52 + m < 2 ^ 52) := by omega
    rw [if_neg hk]
    have h3 : (e * 2 ^ 52 + m) / 2 ^ 52 = e + 1 := by omega
    have h4 : (e * 2 ^ 52 + m) % 2 ^ 52 = m - 2 ^ 52 := by omega
    rw [h3, h4]
    have : 2 ^ 52 + (m - 2 ^ 52) = m := by omega
    rw [this]; simp

/-- Floor form of the rounding: the two neighbouring representable magnitudes and the choice between them. -/
theorem roundUnbounded_floor (A B : ℕ) (hB : 0 < B) :
    ∃ k e : ℕ, (e = 0 ∨ B * 2 ^ (52 + e) ≤ A) ∧ magInt (k + 1) = magInt k + 2 ^ e ∧
      B * magInt k ≤ A ∧ A < B * magInt (k + 1) ∧
      ((roundUnbounded A B = k ∧ 2 * A ≤ B * (magInt k + magInt (k + 1)) ∧
          (2 * A = B * (magInt k + magInt (k + 1)) → k % 2 = 0)) ∨
       (roundUnbounded A B = k + 1 ∧ B * (magInt k + magInt (k + 1)) ≤ 2 * A ∧
          (2 * A = B * (magInt k + magInt (k + 1)) → (k + 1) % 2 = 0))) := by
  set Q := A / B with hQ
  set e := Q.log2 - 52 with he
  set m := A / (B * 2 ^ e) with hm
  have h2e : 0 < 2 ^ e := Nat.two_pow_pos e
  have hmQ : m = Q / 2 ^ e := by rw [hm, hQ, Nat.div_div_eq_div_mul]
  have hm1 : m < 2 ^ 53 := by
    rw [hmQ, Nat.div_lt_iff_lt_mul h2e, ← pow_add]
    by_cases hQ0 : Q = 0
    · rw [hQ0]; positivity
    · calc Q < 2 ^ (Q.log2 + 1) := Nat.lt_log2_self
        _ ≤ 2 ^ (53 + e) := Nat.pow_le_pow_right (by norm_num) (by omega)
  have hm2 : e = 0 ∨ 2 ^ 52 ≤ m := by
    by_cases h0 : e = 0
    · exact Or.inl h0
    · right
      have hQ0 : Q ≠ 0 := by
        intro h; rw [h] at he; simp at he; omega
      rw [hmQ, Nat.le_div_iff_mul_le h2e, ← pow_add]
      calc 2 ^ (52 + e) = 2 ^ Q.log2 := by congr 1; omega
        _ ≤ Q := Nat.log2_self_le hQ0
  have hk := magInt_scaled hm2 hm1
  have hk1 : magInt (e * 2 ^ 52 + m + 1) = magInt (e * 2 ^ 52 + m) + 2 ^ e := by
    rw [magInt_succ]
    congr 2
    rcases hm2 with h | h
    · rw [h]; omega
    · omega
  have hlo : B * (m * 2 ^ e) ≤ A := by
    have := Nat.div_mul_le_self A (B * 2 ^ e)
    rw [← hm] at this
    calc B * (m * 2 ^ e) = m * (B * 2 ^ e) := by ring
      _ ≤ A := this
  have hdm := Nat.div_add_mod A (B * 2 ^ e)
  have hBe : 0 < B * 2 ^ e := Nat.mul_pos hB h2e
  have hmod := Nat.mod_lt A hBe
  rw [← hm] at hdm
  set r := A % (B * 2 ^ e) with hr
  refine ⟨e * 2 ^ 52 + m, e, ?_, hk1, ?_, ?_, ?_⟩
  · rcases hm2 with h | h
    · exact Or.inl h
    · right
      calc B * 2 ^ (52 + e) = B * (2 ^ 52 * 2 ^ e) := by rw [pow_add]
        _ ≤ B * (m * 2 ^ e) := by gcongr
        _ ≤ A := hlo
  · rw [hk]; exact hlo
  · rw [hk1, hk]
    calc A < m * (B * 2 ^ e) + B * 2 ^ e := by rw [mul_comm m]; omega
      _ = B * (m * 2 ^ e + 2 ^ e) := by ring
  · have hru : roundUnbounded A B = e * 2 ^ 52 + rne A (B * 2 ^ e) := rfl
    rw [hru, hk1, hk]
    unfold rne
    simp only [← hm, ← hr]
    have key : B * (m * 2 ^ e + (m * 2 ^ e + 2 ^ e)) = 2 * (B * 2 ^ e * m) + B * 2 ^ e := by ring
    rw [key]
    split
    · left; refine ⟨rfl, by omega, by omega⟩
    · split
      · right; refine ⟨by omega, by omega, by omega⟩
      · split
        · left; refine ⟨rfl, by omega, fun _ => by omega⟩
        · right; refine ⟨by omega, by omega, fun _ => by omega⟩

/-- the exact magnitude to be rounded, in units of `2^-1074` -/
def scaled (A B : ℕ) : ℚ := A / B

theorem half_ulp (A B : ℕ) (hB : 0 < B) :
    ∃ e : ℕ, (e = 0 ∨ (2 : ℚ) ^ (52 + e) ≤ scaled A B) ∧
      2 * |scaled A B - magInt (roundUnbounded A B)| ≤ 2 ^ e := by
  obtain ⟨k, e, h0, h1, h2, h3, h4⟩ := roundUnbounded_floor A B hB
  have hB' : (0 : ℚ) < B := by exact_mod_cast hB
  have hX : scaled A B * B = A := by unfold scaled; field_simp
  have h2' : (magInt k : ℚ) ≤ scaled A B := by
    unfold scaled; rw [le_div_iff₀ hB']; rw [mul_comm]; exact_mod_cast h2
  have h3' : scaled A B < magInt (k + 1) := by
    unfold scaled; rw [div_lt_iff₀ hB', mul_comm]; exact_mod_cast h3
  have h1' : (magInt (k + 1) : ℚ) = magInt k + 2 ^ e := by exact_mod_cast h1
  refine ⟨e, ?_, ?_⟩
  · rcases h0 with h | h
    · exact Or.inl h
    · right; unfold scaled; rw [le_div_iff₀ hB', mul_comm]; exact_mod_cast h
  · rcases h4 with ⟨hr, hle, -⟩ | ⟨hr, hle, -⟩
    · have hle' : 2 * scaled A B ≤ magInt k + magInt (k + 1) := by
        have : (2 * A : ℚ) ≤ B * (magInt k + magInt (k + 1)) := by exact_mod_cast hle
        rw [← hX] at this; nlinarith
      rw [hr, abs_of_nonneg (by linarith)]; linarith
    · have hle' : magInt k + magInt (k + 1) ≤ 2 * scaled A B := by
        have : (B * (magInt k + magInt (k + 1)) : ℚ) ≤ 2 * A := by exact_mod_cast hle
        rw [← hX] at this; nlinarith
      rw [hr, abs_of_nonpos (by linarith)]; linarith

/-- nearest representable magnitude, ties to even -/
theorem roundUnbounded_nearest (A B : ℕ) (hB : 0 < B) (k' : ℕ) :
    |scaled A B - magInt (roundUnbounded A B)| ≤ |scaled A B - magInt k'| ∧
    (k' ≠ roundUnbounded A B →
      |scaled A B - magInt (roundUnbounded A B)| = |scaled A B - magInt k'| →
        roundUnbounded A B % 2 = 0) := by
  obtain ⟨k, e, h0, h1, h2, h3, h4⟩ := roundUnbounded_floor A B hB
  have hB' : (0 : ℚ) < B := by exact_mod_cast hB
  have hX : scaled A B * B = A := by unfold scaled; field_simp
  set X := scaled A B
  have h2' : (magInt k : ℚ) ≤ X := by
    have : (B * magInt k : ℚ) ≤ A := by exact_mod_cast h2
    rw [← hX] at this; nlinarith
  have h3' : X < magInt (k + 1) := by
    have : (A : ℚ) < B * magInt (k + 1) := by exact_mod_cast h3
    rw [← hX] at this; nlinarith
  have hk' : (magInt k' : ℚ) ≤ magInt k ∧ (k' ≠ k → (magInt k' : ℚ) < magInt k) ∨
      (magInt (k + 1) : ℚ) ≤ magInt k' ∧ (k' ≠ k + 1 → (magInt (k + 1) : ℚ) < magInt k') := by
    rcases Nat.lt_or_ge k k' with h | h
    · right
      refine ⟨by exact_mod_cast magInt_strictMono.monotone h, fun hne => ?_⟩
      exact_mod_cast magInt_strictMono (by omega)
    · left
      refine ⟨by exact_mod_cast magInt_strictMono.monotone h, fun hne => ?_⟩
      exact_mod_cast magInt_strictMono (by omega)
  rcases h4 with ⟨hr, hle, hev⟩ | ⟨hr, hle, hev⟩
  · have hle' : 2 * X ≤ magInt k + magInt (k + 1) := by
      have : (2 * A : ℚ) ≤ B * (magInt k + magInt (k + 1)) := by exact_mod_cast hle
      rw [← hX] at this; nlinarith
    rw [hr, abs_of_nonneg (by linarith : (0:ℚ) ≤ X - magInt k)]
    rcases hk' with ⟨h5, h6⟩ | ⟨h5, h6⟩
    · rw [abs_of_nonneg (by linarith)]
      refine ⟨by linarith, fun hne heq => ?_⟩
      exfalso; have := h6 hne; linarith
    · rw [abs_of_nonpos (by linarith)]
      refine ⟨by linarith, fun hne heq => ?_⟩
      apply hev
      have : (2 * A : ℚ) = B * (magInt k + magInt (k + 1)) := by
        have : 2 * X = magInt k + magInt (k + 1) := by linarith
        rw [← hX]; linear_combination B * this
      exact_mod_cast this
  · have hle' : magInt k + magInt (k + 1) ≤ 2 * X := by
      have : (B * (magInt k + magInt (k + 1)) : ℚ) ≤ 2 * A := by exact_mod_cast hle
      rw [← hX] at this; nlinarith
    rw [hr, abs_of_nonpos (by linarith : X - magInt (k + 1) ≤ (0:ℚ))]
    rcases hk' with ⟨h5, h6⟩ | ⟨h5, h6⟩
    · rw [abs_of_nonneg (by linarith)]
      refine ⟨by linarith, fun hne heq => ?_⟩
      apply hev
      have : (2 * A : ℚ) = B * (magInt k + magInt (k + 1)) := by
        have : 2 * X = magInt k + magInt (k + 1) := by linarith
        rw [← hX]; linear_combination B * this
      exact_mod_cast this
    · rw [abs_of_nonpos (by linarith)]
      refine ⟨by linarith, fun hne heq => ?_⟩
      exfalso; have := h6 hne; linarith

theorem roundUnbounded_exact (A B k : ℕ) (hB : 0 < B) (h : scaled A B = magInt k) :
    roundUnbounded A B = k := by
  have := (roundUnbounded_nearest A B hB k).1
  rw [h, sub_self, abs_zero, abs_nonpos_iff, sub_eq_zero] at this
  exact (magInt_strictMono.injective (by exact_mod_cast this)).symm

theorem roundUnbounded_mono {A B A' B' : ℕ} (hB : 0 < B) (hB' : 0 < B')
    (h : scaled A B ≤ scaled A' B') : roundUnbounded A B ≤ roundUnbounded A' B' := by
  by_contra hlt
  push Not at hlt
  set k := roundUnbounded A B with hk
  set l := roundUnbounded A' B' with hl
  have hm : (magInt l : ℚ) < magInt k := by exact_mod_cast magInt_strictMono hlt
  obtain ⟨n1, t1⟩ := roundUnbounded_nearest A B hB l
  obtain ⟨n2, t2⟩ := roundUnbounded_nearest A' B' hB' k
  rw [← hk] at n1 t1
  rw [← hl] at n2 t2
  -- `X` is at or above the midpoint, `X'` at or below it
  have m1 : (magInt l + magInt k : ℚ) ≤ 2 * scaled A B := by
    rcases abs_cases (scaled A B - magInt k) with ⟨e1, s1⟩ | ⟨e1, s1⟩ <;>
    rcases abs_cases (scaled A B - magInt l) with ⟨e2, s2⟩ | ⟨e2, s2⟩ <;> rw [e1, e2] at n1 <;> linarith
  have m2 : 2 * scaled A' B' ≤ (magInt l + magInt k : ℚ) := by
    rcases abs_cases (scaled A' B' - magInt l) with ⟨e1, s1⟩ | ⟨e1, s1⟩ <;>
    rcases abs_cases (scaled A' B' - magInt k) with ⟨e2, s2⟩ | ⟨e2, s2⟩ <;> rw [e1, e2] at n2 <;> linarith
  have e1 : 2 * scaled A B = magInt l + magInt k := by linarith
  have e2 : 2 * scaled A' B' = magInt l + magInt k := by linarith
  have hkev : k % 2 = 0 := by
    apply t1 (by omega)
    rw [abs_of_nonpos (by linarith), abs_of_nonneg (by linarith)]; linarith
  have hlev : l % 2 = 0 := by
    apply t2 (by omega)
    rw [abs_of_nonneg (by linarith), abs_of_nonpos (by linarith)]; linarith
  -- but then a representable number lies strictly in between
  have h3 : (magInt l : ℚ) < magInt (l + 1) := by exact_mod_cast magInt_strictMono (by omega)
  have h4 : (magInt (l + 1) : ℚ) < magInt k := by exact_mod_cast magInt_strictMono (by omega)
  have n3 := (roundUnbounded_nearest A B hB (l + 1)).1
  rw [← hk, abs_of_nonpos (by linarith)] at n3
  rcases abs_cases (scaled A B - magInt (l + 1)) with ⟨e3, s3⟩ | ⟨e3, s3⟩ <;> rw [e3] at n3 <;> linarith

theorem magInt_infMag : magInt infMag = 2 ^ 2098 := by
  have : infMag = 2046 * 2 ^ 52 + 2 ^ 52 := by decide
  rw [this, magInt_scaled (Or.inr le_rfl) (by norm_num), ← pow_add]

/-- units of `2^-1074` of an exact rational -/
theorem scaled_rat (q : ℚ) : scaled (q.num.natAbs * 2 ^ 1074) q.den = |q| * 2 ^ 1074 := by
  unfold scaled
  have : |q| = (q.num.natAbs : ℚ) / q.den := by
    rw [Nat.cast_natAbs, Int.cast_abs]
    conv_lhs => rw [← Rat.num_div_den q]
    rw [abs_div]; congr 1; simp
  rw [this]; push_cast; ring

theorem pow1074_pos : (0 : ℚ) < 2 ^ 1074 := by positivity

theorem val_eq (x : F64) : x.val = (if x.sign then -1 else 1) * (magInt x.mag / 2 ^ 1074) := by
  unfold val; split <;> ring

theorem abs_val (x : F64) : |x.val| = magInt x.mag / 2 ^ 1074 := by
  rw [val_eq, abs_mul]
  have : |(if x.sign then -1 else 1 : ℚ)| = 1 := by split <;> simp
  rw [this, one_mul, abs_of_nonneg]; positivity

theorem val_zero (s : Bool) : (zero s).val = 0 := by simp [val, zero, magInt_zero]

theorem val_eq_zero_iff {x : F64} : x.val = 0 ↔ x.mag = 0 := by
  rw [← abs_eq_zero, abs_val, div_eq_zero_iff]
  constructor
  · rintro (h | h)
    · have h' : magInt x.mag = magInt 0 := by rw [magInt_zero]; exact_mod_cast h
      exact magInt_strictMono.injective h'
    · exact absurd h (ne_of_gt pow1074_pos)
  · intro h; left; rw [h, magInt_zero]; simp

end GaussQuad.F64
