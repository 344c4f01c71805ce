import Verif.Proofs.F64Error
import Verif.Proofs.F64Nat
import Verif.Proofs.F64Special

/-!
# Rounding at the lower end of a short interval

The transformation of a node in `argument_transformation` (`/repo/src/legendre/mod.rs:113-115` and the same function in the other rules), bit by bit, for an interval of a few ulps at 1.
-/

set_option exponentiation.threshold 3000

namespace GaussQuad
open Spec F64 FloatOps

/-- rounding to the lower of two neighbours -/
theorem round_down {k : ℕ} (hk0 : 0 < k) (hk : k + 1 < infMag) (h63 : k < 2 ^ 63) {q : ℚ} {s : Bool} (h0 : (magInt k : ℚ) / 2 ^ 1074 ≤ q)
    (h1 : 2 * q < (magInt k : ℚ) / 2 ^ 1074 + (magInt (k + 1) : ℚ) / 2 ^ 1074 ∨
      2 * q = (magInt k : ℚ) / 2 ^ 1074 + (magInt (k + 1) : ℚ) / 2 ^ 1074 ∧ k % 2 = 0) :
    F64.round q s = ⟨false, k, h63⟩ := by
  have e1 : ∀ (j : ℕ) (hj : j < 2 ^ 63), (⟨false, j, hj⟩ : F64).val = magInt j / 2 ^ 1074 := fun j hj => by rw [val_eq]; simp
  have hpow : (0 : ℚ) < 2 ^ 1074 := by positivity
  have hmk : 0 < (magInt k : ℚ) / 2 ^ 1074 := by
    have : magInt 0 < magInt k := magInt_strictMono hk0
    have h : (0 : ℚ) < magInt k := by exact_mod_cast lt_of_le_of_lt (Nat.zero_le _) this
    positivity
  have hlt : (magInt k : ℚ) / 2 ^ 1074 < (magInt (k + 1) : ℚ) / 2 ^ 1074 := by
    have : (magInt k : ℚ) < magInt (k + 1) := by exact_mod_cast magInt_strictMono (Nat.lt_succ_self k)
    gcongr
  have hq0 : 0 < q := hmk.trans_le h0
  have hq1 : q < (magInt (k + 1) : ℚ) / 2 ^ 1074 := by rcases h1 with h | ⟨h, -⟩ <;> linarith
  have hf1 : (⟨false, k + 1, lt_trans hk (by decide)⟩ : F64).isFinite = true := by simpa [F64.isFinite] using hk
  have hov : q < overflowThreshold := by
    refine hq1.trans ?_
    have h2 := (round_isFinite_iff ((⟨false, k + 1, lt_trans hk (by decide)⟩ : F64).val) false).1 (val_round_of_repr hf1 false).2
    rw [e1] at h2
    exact (le_abs_self _).trans_lt h2
  have hd : |q - magInt k / 2 ^ 1074| = q - magInt k / 2 ^ 1074 := abs_of_nonneg (by linarith)
  -- every other finite value is at least as far away
  have key : ∀ y : F64, y.isFinite = true → y.val ≠ (magInt k : ℚ) / 2 ^ 1074 → y.val ≤ q ∧ q - magInt k / 2 ^ 1074 < q - y.val ∨ (magInt (k + 1) : ℚ) / 2 ^ 1074 ≤ y.val := by
    rintro ⟨sy, j, hj⟩ - hne
    cases sy
    · rw [e1] at hne ⊢
      rcases Nat.lt_trichotomy j k with h | h | h
      · left
        have : (magInt j : ℚ) < magInt k := by exact_mod_cast magInt_strictMono h
        have h2 : (magInt j : ℚ) / 2 ^ 1074 < (magInt k : ℚ) / 2 ^ 1074 := by gcongr
        exact ⟨by linarith, by linarith⟩
      · exact absurd (by rw [h]) hne
      · right
        have : (magInt (k + 1) : ℚ) ≤ magInt j := by exact_mod_cast magInt_strictMono.monotone h
        gcongr
    · left
      have hv : (⟨true, j, hj⟩ : F64).val ≤ 0 := by
        rw [val_of_neg rfl]
        have : (0 : ℚ) ≤ magInt j / 2 ^ 1074 := by positivity
        linarith
      exact ⟨by linarith, by linarith⟩
  refine (roundedResult_eq (s := s) (Or.inr ⟨hq0.ne', ?_, Or.inr ⟨by rwa [abs_of_pos hq0], ?_, ?_, ?_⟩⟩)).symm
  · simpa using hq0.le
  · simp only [F64.isFinite, decide_eq_true_eq]; omega
  · intro y hy
    by_cases he : y.val = (magInt k : ℚ) / 2 ^ 1074
    · rw [e1, he]
    · rw [e1, hd]
      rcases key y hy he with ⟨h2, h3⟩ | h2
      · exact h3.le.trans (le_abs_self _)
      · rw [abs_sub_comm]
        refine le_trans ?_ (le_abs_self _)
        rcases h1 with h | ⟨h, -⟩ <;> linarith
  · intro y hy hne heq
    rw [e1] at hne heq
    rw [hd] at heq
    show k % 2 = 0
    rcases key y hy hne with ⟨h2, h3⟩ | h2
    · rw [abs_of_nonneg (by linarith)] at heq; linarith
    · rw [abs_sub_comm, abs_of_nonneg (by linarith)] at heq
      rcases h1 with h | ⟨-, h⟩
      · linarith
      · exact h

theorem magInt_normal {e t : ℕ} (ht : t < 2 ^ 52) : (magInt ((e + 1) * 2 ^ 52 + t) : ℚ) / 2 ^ 1074 = (2 ^ 52 + t) * 2 ^ e / 2 ^ 1074 := by
  have : (e + 1) * 2 ^ 52 + t = e * 2 ^ 52 + (2 ^ 52 + t) := by ring
  rw [this, magInt_scaled (Or.inr (by omega)) (by omega)]
  push_cast
  ring

theorem two_pow_ratio {e : ℕ} (h : e ≤ 1074) : (2 : ℚ) ^ e / 2 ^ 1074 = 1 / 2 ^ (1074 - e) := by
  rw [div_eq_div_iff (by positivity) (by positivity), one_mul, ← pow_add, Nat.add_sub_cancel' h]

/-- `m 2^-j` with `m < 2^53` is a float -/
theorem exists_dyadic {m j : ℕ} (hm : m < 2 ^ 53) (hj : j ≤ 1074) (s : Bool) : ∃ x : F64, x.isFinite = true ∧ x.val = (if s then -1 else 1) * ((m : ℚ) / 2 ^ j) := by
  have hb : m * 2 ^ (1074 - j) < 2 ^ 2098 := by
    calc m * 2 ^ (1074 - j) < 2 ^ 53 * 2 ^ (1074 - j) := Nat.mul_lt_mul_of_pos_right hm (Nat.two_pow_pos _)
      _ = 2 ^ (53 + (1074 - j)) := by rw [← pow_add]
      _ ≤ 2 ^ 2098 := Nat.pow_le_pow_right (by norm_num) (by omega)
  obtain ⟨x, h1, -, h2⟩ := exists_repr (1074 - j) hm hb s
  refine ⟨x, h1, ?_⟩
  rw [h2]
  congr 1
  push_cast
  rw [mul_div_assoc, two_pow_ratio (by omega), show 1074 - (1074 - j) = j by omega]
  ring

/-- the transformed node is below the lower end of the interval `[1, 1 + m 2^-52]`, `m ≡ 1 mod 4`: the tie in `b + a` is rounded down -/
theorem argT_outside [Libm] {a b x : F64} {m : ℕ} (ha : a.isFinite = true) (hb : b.isFinite = true) (hx : x.isFinite = true) (hav : a.val = 1) (hbv : b.val = 1 + m / 2 ^ 52)
    (hm4 : m % 4 = 1) (hm : m < 2 ^ 50) (hx1 : -1 ≤ x.val) (hx2 : m * (1 + x.val) ≤ 1 / 4) :
    (lit 0.5 *ᶠ ((b -ᶠ a) *ᶠ x +ᶠ (b +ᶠ a)) : F64).isFinite = true ∧ (lit 0.5 *ᶠ ((b -ᶠ a) *ᶠ x +ᶠ (b +ᶠ a)) : F64).val = 1 - 1 / 2 ^ 53 := by
  have hm0 : (0 : ℚ) ≤ m := Nat.cast_nonneg m
  -- `b - a`
  obtain ⟨d, d1, d2⟩ := exists_dyadic (m := m) (j := 52) (by omega) (by norm_num) false
  simp only [Bool.false_eq_true, if_false, one_mul] at d2
  have hsub : (F64.sub b a).isFinite = true ∧ (F64.sub b a).val = m / 2 ^ 52 := by
    rw [sub_finite hb ha, hav, hbv, show (1 : ℚ) + m / 2 ^ 52 - 1 = d.val by rw [d2]; ring]
    have := val_round_of_repr d1 (b.sign && !a.sign)
    exact ⟨this.2, by rw [this.1, d2]⟩
  -- `(b - a) x`
  obtain ⟨l, l1, l2⟩ := exists_dyadic (m := m) (j := 52) (by omega) (by norm_num) true
  obtain ⟨r, r1, r2⟩ := exists_dyadic (m := 4 * m - 1) (j := 54) (by omega) (by norm_num) true
  simp only [if_true] at l2 r2
  have hm1 : 1 ≤ 4 * m := by omega
  rw [Nat.cast_sub hm1] at r2
  push_cast at r2
  have hmul : (F64.mul (F64.sub b a) x).isFinite = true ∧ -(m / 2 ^ 52) ≤ (F64.mul (F64.sub b a) x).val ∧ (F64.mul (F64.sub b a) x).val ≤ -(m / 2 ^ 52) + 1 / 2 ^ 54 := by
    rw [mul_finite hsub.1 hx, hsub.2]
    have := round_between (q := m / 2 ^ 52 * x.val) (s := (F64.sub b a).sign != x.sign) l1 r1 (by
      rw [l2]
      have := mul_le_mul_of_nonneg_left hx1 (show (0 : ℚ) ≤ m / 2 ^ 52 by positivity)
      linarith) (by
      rw [r2]
      have : (m : ℚ) / 2 ^ 52 * x.val = (m * (1 + x.val) - m) / 2 ^ 52 := by ring
      rw [this]
      have h2 : (m * (1 + x.val) - m) / 2 ^ 52 ≤ (1 / 4 - (m : ℚ)) / 2 ^ 52 := by gcongr
      refine h2.trans (le_of_eq ?_)
      norm_num
      ring)
    rw [l2, r2] at this
    refine ⟨this.1, by linarith [this.2.1], this.2.2.trans (le_of_eq ?_)⟩
    norm_num
    ring
  -- `b + a`
  have hadd : (F64.add b a).isFinite = true ∧ (F64.add b a).val = 2 + (m - 1) / 2 ^ 52 := by
    have ht : (m - 1) / 2 < 2 ^ 52 := by omega
    have hmt : (((m - 1) / 2 : ℕ) : ℚ) = (m - 1) / 2 := by
      have : ((2 * ((m - 1) / 2) + 1 : ℕ) : ℚ) = m := by congr 1; omega
      push_cast at this
      linarith
    have v0 := magInt_normal (e := 1023) (t := (m - 1) / 2) ht
    have v1 := magInt_normal (e := 1023) (t := (m - 1) / 2 + 1) (by omega)
    push_cast at v1
    rw [hmt, mul_div_assoc, two_pow_ratio (by norm_num)] at v0 v1
    norm_num at v0 v1
    have := round_down (k := 1024 * 2 ^ 52 + (m - 1) / 2) (by positivity) (by unfold infMag; omega) (by omega) (q := b.val + a.val) (s := b.sign && a.sign) (by
      rw [hav, hbv]
      norm_num at v0 ⊢
      rw [v0]
      linarith) (Or.inr ⟨by
        rw [hav, hbv, show 1024 * 2 ^ 52 + (m - 1) / 2 + 1 = 1024 * 2 ^ 52 + ((m - 1) / 2 + 1) by ring]
        norm_num at v0 v1 ⊢
        rw [v0, v1]
        ring, by omega⟩)
    rw [add_finite hb ha, this]
    refine ⟨by simp only [F64.isFinite, decide_eq_true_eq]; unfold infMag; omega, ?_⟩
    rw [val_of_pos rfl]
    norm_num at v0 ⊢
    rw [v0]
    ring
  -- the sum
  have hsum : (F64.add (F64.mul (F64.sub b a) x) (F64.add b a)).isFinite = true ∧ (F64.add (F64.mul (F64.sub b a) x) (F64.add b a)).val = 2 - 1 / 2 ^ 52 := by
    have v0 := magInt_normal (e := 1022) (t := 2 ^ 52 - 1) (by norm_num)
    have v1 := magInt_normal (e := 1023) (t := 0) (by norm_num)
    rw [mul_div_assoc, two_pow_ratio (by norm_num)] at v0 v1
    rw [Nat.cast_sub (by norm_num)] at v0
    rw [add_finite hmul.1 hadd.1, hadd.2]
    have := round_down (k := 1023 * 2 ^ 52 + (2 ^ 52 - 1)) (by positivity) (by unfold infMag; omega) (by omega) (q := (F64.mul (F64.sub b a) x).val + (2 + (m - 1) / 2 ^ 52))
      (s := (F64.mul (F64.sub b a) x).sign && (F64.add b a).sign) (by
        norm_num at v0
        norm_num
        rw [v0]
        have := hmul.2.1
        norm_num at this
        linarith) (Or.inl (by
        norm_num at v0 v1
        norm_num
        rw [v0, v1]
        have := hmul.2.2
        norm_num at this
        linarith))
    rw [this]
    refine ⟨by simp only [F64.isFinite, decide_eq_true_eq]; unfold infMag; omega, ?_⟩
    rw [val_of_pos rfl]
    norm_num at v0 ⊢
    rw [v0]
  -- half of it
  obtain ⟨p, p1, p2⟩ := exists_dyadic (m := 2 ^ 53 - 1) (j := 53) (by norm_num) (by norm_num) false
  simp only [Bool.false_eq_true, if_false, one_mul] at p2
  have hh : (lit 0.5 : F64).isFinite = true ∧ (lit 0.5 : F64).val = 1 / 2 := by
    obtain ⟨h, h1, h2⟩ := exists_dyadic (m := 1) (j := 1) (by norm_num) (by norm_num) false
    simp only [Bool.false_eq_true, if_false, one_mul] at h2
    have := val_round_of_repr h1 false
    have e : (lit 0.5 : F64) = F64.round (h.val) false := by rw [h2]; show F64.round 0.5 false = _; norm_num
    rw [e]
    exact ⟨this.2, by rw [this.1, h2]; norm_num⟩
  show (F64.mul (lit 0.5) (F64.add (F64.mul (F64.sub b a) x) (F64.add b a))).isFinite = true ∧ (F64.mul (lit 0.5) (F64.add (F64.mul (F64.sub b a) x) (F64.add b a))).val = _
  rw [mul_finite hh.1 hsum.1, hh.2, hsum.2]
  have e : (1 : ℚ) / 2 * (2 - 1 / 2 ^ 52) = p.val := by rw [p2, Nat.cast_sub (by norm_num)]; norm_num
  rw [e]
  have := val_round_of_repr p1 ((lit 0.5 : F64).sign != (F64.add (F64.mul (F64.sub b a) x) (F64.add b a)).sign)
  refine ⟨this.2, ?_⟩
  rw [this.1, ← e]
  norm_num

end GaussQuad
