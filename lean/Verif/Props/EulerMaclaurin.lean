import Verif.Proofs.EulerMaclaurin
import Verif.Props.NewtonCotesError
import Verif.Props.NewtonCotesF64
import Verif.Props.TotalError
import Mathlib.Analysis.SpecialFunctions.ExpDeriv

/-!
# C88: the Euler-Maclaurin expansion of the equidistant rules

For an integrand with `2 (m + 1)` continuous derivatives the errors of `Trapezoid` (`/repo/src/trapezoid/mod.rs`), `Midpoint` (`/repo/src/midpoint/mod.rs`) and `Simpson`
(`/repo/src/simpson/mod.rs`) have an expansion in even powers of the step, with Bernoulli numbers and the jumps of the odd derivatives between the ends as coefficients, and
a remainder of the next order.
-/

set_option exponentiation.threshold 3000

namespace GaussQuad.Props
open Spec FloatOps F64 MeasureTheory EulerMaclaurin

theorem trap_double (a b : ℝ) {n : ℕ} (hn : 0 < n) (g : ℝ → ℝ) :
    trap a b (n * 2) g = ((b - a) / n * ∑ i ∈ Finset.range n, g (a + (i + 1 / 2) * ((b - a) / n)) + trap a b n g) / 2 := by
  have hn' : (n : ℝ) ≠ 0 := by exact_mod_cast hn.ne'
  unfold trap
  rw [sum_range_mul, ← mul_add, ← Finset.sum_add_distrib, Finset.mul_sum, Finset.mul_sum, Finset.sum_div]
  refine Finset.sum_congr rfl fun k _ => ?_
  rw [Finset.sum_range_succ, Finset.sum_range_one]
  push_cast
  have e : (b - a) / (n * 2) = (b - a) / n / 2 := by field_simp
  rw [e]
  set h := (b - a) / (n : ℝ)
  rw [show a + ((k : ℝ) * 2 + 0) * (h / 2) = a + k * h by ring, show a + ((k : ℝ) * 2 + 0 + 1) * (h / 2) = a + (k + 1 / 2) * h by ring,
    show a + ((k : ℝ) * 2 + 1) * (h / 2) = a + (k + 1 / 2) * h by ring, show a + ((k : ℝ) * 2 + 1 + 1) * (h / 2) = a + (k + 1) * h by ring]
  ring

/-- C88: the expansions of the three rules.  `term k` is the contribution of the jump of the derivative of order `2 k + 1`; the midpoint and Simpson rules have it with the
factors `2/4^(k+1) - 1` and `(4/4^(k+1) - 1)/3`, the latter being 0 for the first term. -/
theorem C88_expansion (m : ℕ) {g : ℝ → ℝ} {a b K : ℝ} (hg : ContDiffOn ℝ (2 * (m + 1) : ℕ) g (Set.uIcc a b))
    (hK : ∀ x ∈ Set.uIcc a b, |iteratedDerivWithin (2 * (m + 1)) g (Set.uIcc a b) x| ≤ K) (r : NodeRule) :
    let h := (b - a) / (r.degree : ℝ)
    let term := fun k : ℕ => h ^ (2 * (k + 1)) / (2 * (k + 1)).factorial * (bernoulli (2 * (k + 1)) : ℝ) *
      (iteratedDerivWithin (2 * k + 1) g (Set.uIcc a b) b - iteratedDerivWithin (2 * k + 1) g (Set.uIcc a b) a)
    let R := |h| ^ (2 * (m + 1)) / (2 * (m + 1)).factorial * |(bernoulli (2 * (m + 1)) : ℝ)| * |b - a| * K
    |(AnyRule.trapezoid r).value a b g - (∫ x in a..b, g x) - ∑ k ∈ Finset.range m, term k| ≤ R ∧
    |(AnyRule.midpoint r).value a b g - (∫ x in a..b, g x) - ∑ k ∈ Finset.range m, (2 / 4 ^ (k + 1) - 1) * term k| ≤ (1 + 2 / 4 ^ (m + 1)) * R ∧
    |(AnyRule.simpson r).value a b g - (∫ x in a..b, g x) - ∑ k ∈ Finset.range m, (4 / 4 ^ (k + 1) - 1) / 3 * term k| ≤ (1 + 4 / 4 ^ (m + 1)) / 3 * R := by
  revert hg hK
  refine orient (P := fun a b => ContDiffOn ℝ (2 * (m + 1) : ℕ) g (Set.uIcc a b) → (∀ x ∈ Set.uIcc a b, |iteratedDerivWithin (2 * (m + 1)) g (Set.uIcc a b) x| ≤ K) →
    let h := (b - a) / (r.degree : ℝ)
    let term := fun k : ℕ => h ^ (2 * (k + 1)) / (2 * (k + 1)).factorial * (bernoulli (2 * (k + 1)) : ℝ) *
      (iteratedDerivWithin (2 * k + 1) g (Set.uIcc a b) b - iteratedDerivWithin (2 * k + 1) g (Set.uIcc a b) a)
    let R := |h| ^ (2 * (m + 1)) / (2 * (m + 1)).factorial * |(bernoulli (2 * (m + 1)) : ℝ)| * |b - a| * K
    |(AnyRule.trapezoid r).value a b g - (∫ x in a..b, g x) - ∑ k ∈ Finset.range m, term k| ≤ R ∧
    |(AnyRule.midpoint r).value a b g - (∫ x in a..b, g x) - ∑ k ∈ Finset.range m, (2 / 4 ^ (k + 1) - 1) * term k| ≤ (1 + 2 / 4 ^ (m + 1)) * R ∧
    |(AnyRule.simpson r).value a b g - (∫ x in a..b, g x) - ∑ k ∈ Finset.range m, (4 / 4 ^ (k + 1) - 1) / 3 * term k| ≤ (1 + 4 / 4 ^ (m + 1)) / 3 * R) ?_ ?_ ?_ a b
  · intro a b ih hg hK
    rw [Set.uIcc_comm] at hg hK
    have ih := ih hg hK
    dsimp only at ih ⊢
    obtain ⟨c1, c2, c3⟩ := C20_newton_cotes r a b g
    have e1 : (a - b) / (r.degree : ℝ) = -((b - a) / r.degree) := by ring
    rw [c1, c2, c3, intervalIntegral.integral_symm, Set.uIcc_comm b a, e1, abs_neg, abs_sub_comm a b]
    have e2 : ∀ k : ℕ, (-((b - a) / (r.degree : ℝ))) ^ (2 * (k + 1)) / (2 * (k + 1)).factorial * (bernoulli (2 * (k + 1)) : ℝ) *
        (iteratedDerivWithin (2 * k + 1) g (Set.uIcc a b) a - iteratedDerivWithin (2 * k + 1) g (Set.uIcc a b) b) =
        -(((b - a) / (r.degree : ℝ)) ^ (2 * (k + 1)) / (2 * (k + 1)).factorial * (bernoulli (2 * (k + 1)) : ℝ) *
        (iteratedDerivWithin (2 * k + 1) g (Set.uIcc a b) b - iteratedDerivWithin (2 * k + 1) g (Set.uIcc a b) a)) := by
      intro k
      rw [Even.neg_pow ⟨k + 1, by ring⟩]
      ring
    simp only [e2, mul_neg, Finset.sum_neg_distrib]
    have e3 : ∀ x y z : ℝ, |-x - -y - -z| = |x - y - z| := fun x y z => by rw [← abs_neg]; congr 1; ring
    rw [e3, e3, e3]
    exact ih
  · intro a b hab hg hK
    rw [Set.uIcc_of_lt hab] at hg hK
    dsimp only
    rw [Set.uIcc_of_lt hab]
    have hn : (0 : ℝ) < r.degree := by exact_mod_cast r.pos
    have hh : 0 < (b - a) / (r.degree : ℝ) := div_pos (sub_pos.2 hab) hn
    set D : ℕ → ℝ → ℝ := fun k => iteratedDerivWithin k g (Set.Icc a b) with hDdef
    have hD0 : D 0 = g := by simp [hDdef]
    have hD : ∀ k < 2 * (m + 1), DerivOn (D k) (D (k + 1)) a b := fun k hk => derivOn_iterated hab hg hk
    have hc : ContinuousOn (D (2 * (m + 1))) (Set.Icc a b) := hg.continuousOn_iteratedDerivWithin le_rfl (uniqueDiffOn_Icc hab)
    have h1 := composite hab r.pos D m hD hc hK
    have h2 := composite hab (Nat.mul_pos r.pos two_pos) D m hD hc hK
    rw [trap_double a b r.pos, hD0] at h2
    rw [hD0] at h1
    rw [value_simpson, value_trapezoid, value_midpoint, abs_of_pos hh, abs_of_pos (sub_pos.2 hab)]
    change |trap a b r.degree g - (∫ x in a..b, g x) - _| ≤ _ ∧ _ ∧ |(2 * _ + trap a b r.degree g) / 3 - _ - _| ≤ _
    set T := trap a b r.degree g
    set M := (b - a) / (r.degree : ℝ) * ∑ i ∈ Finset.range r.degree, g (a + (i + 1 / 2) * ((b - a) / r.degree))
    set I := ∫ x in a..b, g x
    set term := fun k : ℕ => ((b - a) / (r.degree : ℝ)) ^ (2 * (k + 1)) / (2 * (k + 1)).factorial * (bernoulli (2 * (k + 1)) : ℝ) * (D (2 * k + 1) b - D (2 * k + 1) a) with hterm
    set R := ((b - a) / (r.degree : ℝ)) ^ (2 * (m + 1)) / (2 * (m + 1)).factorial * |(bernoulli (2 * (m + 1)) : ℝ)| * (b - a) * K with hR
    have e1 : corr a b r.degree D m = ∑ k ∈ Finset.range m, term k := rfl
    have e2 : corr a b (r.degree * 2) D m = ∑ k ∈ Finset.range m, 1 / 4 ^ (k + 1) * term k := by
      unfold corr
      refine Finset.sum_congr rfl fun k _ => ?_
      push_cast
      rw [← div_div, div_pow ((b - a) / (r.degree : ℝ)) 2, pow_mul 2 2 (k + 1), hterm]
      norm_num
      ring
    have e3 : ((b - a) / ((r.degree * 2 : ℕ) : ℝ)) ^ (2 * (m + 1)) / (2 * (m + 1)).factorial * |(bernoulli (2 * (m + 1)) : ℝ)| * (b - a) * K = 1 / 4 ^ (m + 1) * R := by
      push_cast
      rw [← div_div, div_pow ((b - a) / (r.degree : ℝ)) 2, pow_mul 2 2 (m + 1), hR]
      norm_num
      ring
    rw [e1] at h1
    rw [e2, e3] at h2
    refine ⟨h1, ?_, ?_⟩
    · have e4 : M - I - ∑ k ∈ Finset.range m, (2 / 4 ^ (k + 1) - 1) * term k =
          2 * ((M + T) / 2 - I - ∑ k ∈ Finset.range m, 1 / 4 ^ (k + 1) * term k) - (T - I - ∑ k ∈ Finset.range m, term k) := by
        have : ∑ k ∈ Finset.range m, (2 / 4 ^ (k + 1) - 1) * term k = 2 * ∑ k ∈ Finset.range m, 1 / 4 ^ (k + 1) * term k - ∑ k ∈ Finset.range m, term k := by
          rw [Finset.mul_sum, ← Finset.sum_sub_distrib]
          exact Finset.sum_congr rfl fun k _ => by ring
        rw [this]; ring
      rw [e4]
      refine (abs_sub _ _).trans ?_
      rw [abs_mul, abs_two]
      refine (add_le_add (mul_le_mul_of_nonneg_left h2 (by norm_num)) h1).trans (le_of_eq ?_)
      ring
    · have e4 : (2 * M + T) / 3 - I - ∑ k ∈ Finset.range m, (4 / 4 ^ (k + 1) - 1) / 3 * term k =
          (4 * ((M + T) / 2 - I - ∑ k ∈ Finset.range m, 1 / 4 ^ (k + 1) * term k) - (T - I - ∑ k ∈ Finset.range m, term k)) / 3 := by
        have : ∑ k ∈ Finset.range m, (4 / 4 ^ (k + 1) - 1) / 3 * term k = (4 * ∑ k ∈ Finset.range m, 1 / 4 ^ (k + 1) * term k - ∑ k ∈ Finset.range m, term k) / 3 := by
          rw [Finset.mul_sum, ← Finset.sum_sub_distrib, Finset.sum_div]
          exact Finset.sum_congr rfl fun k _ => by ring
        rw [this]; ring
      rw [e4, abs_div, abs_of_pos (by norm_num : (0 : ℝ) < 3)]
      have h5 := (abs_sub (4 * ((M + T) / 2 - I - ∑ k ∈ Finset.range m, 1 / 4 ^ (k + 1) * term k)) (T - I - ∑ k ∈ Finset.range m, term k))
      rw [abs_mul, abs_of_pos (by norm_num : (0 : ℝ) < 4)] at h5
      have h6 := (h5.trans (add_le_add (mul_le_mul_of_nonneg_left h2 (by norm_num)) h1))
      refine (div_le_div_of_nonneg_right h6 (by norm_num)).trans (le_of_eq ?_)
      ring
  · intro a hg hK
    dsimp only
    rw [value_simpson, value_midpoint, value_trapezoid]
    simp

/-- C88 for integrands whose odd derivatives agree at the two ends, such as smooth periodic ones over a period: the equidistant rules have the order of the smoothness. -/
theorem C88_flat (m : ℕ) {g : ℝ → ℝ} {a b K : ℝ} (hg : ContDiffOn ℝ (2 * (m + 1) : ℕ) g (Set.uIcc a b))
    (hK : ∀ x ∈ Set.uIcc a b, |iteratedDerivWithin (2 * (m + 1)) g (Set.uIcc a b) x| ≤ K)
    (hflat : ∀ k < m, iteratedDerivWithin (2 * k + 1) g (Set.uIcc a b) b = iteratedDerivWithin (2 * k + 1) g (Set.uIcc a b) a) (r : NodeRule) :
    let R := (|b - a| / r.degree) ^ (2 * (m + 1)) / (2 * (m + 1)).factorial * |(bernoulli (2 * (m + 1)) : ℝ)| * |b - a| * K
    |(AnyRule.trapezoid r).value a b g - ∫ x in a..b, g x| ≤ R ∧ |(AnyRule.midpoint r).value a b g - ∫ x in a..b, g x| ≤ (1 + 2 / 4 ^ (m + 1)) * R ∧
    |(AnyRule.simpson r).value a b g - ∫ x in a..b, g x| ≤ (1 + 4 / 4 ^ (m + 1)) / 3 * R := by
  have h := C88_expansion m hg hK r
  dsimp only at h ⊢
  have e : ∀ k ∈ Finset.range m, iteratedDerivWithin (2 * k + 1) g (Set.uIcc a b) b - iteratedDerivWithin (2 * k + 1) g (Set.uIcc a b) a = 0 :=
    fun k hk => sub_eq_zero.2 (hflat k (Finset.mem_range.1 hk))
  rw [Finset.sum_eq_zero fun k hk => by rw [e k hk, mul_zero], Finset.sum_eq_zero fun k hk => by rw [e k hk, mul_zero, mul_zero],
    Finset.sum_eq_zero fun k hk => by rw [e k hk, mul_zero, mul_zero], sub_zero, sub_zero, sub_zero, abs_div, Nat.abs_cast] at h
  exact h

/-- the cosine over its period satisfies the hypotheses for every `m`: the trapezoid rule with `n` panels is off by at most `|B_(2m+2)| (2π/n)^(2m+2) 2π / (2m+2)!` -/
example (m : ℕ) (r : NodeRule) : |(AnyRule.trapezoid r).value 0 (2 * Real.pi) Real.cos - ∫ x in (0 : ℝ)..2 * Real.pi, Real.cos x| ≤
    (|2 * Real.pi - 0| / r.degree) ^ (2 * (m + 1)) / (2 * (m + 1)).factorial * |(bernoulli (2 * (m + 1)) : ℝ)| * |2 * Real.pi - 0| * 1 := by
  have hp : (0 : ℝ) < 2 * Real.pi := Real.two_pi_pos
  have hu : UniqueDiffOn ℝ (Set.uIcc (0 : ℝ) (2 * Real.pi)) := by rw [Set.uIcc_of_lt hp]; exact uniqueDiffOn_Icc hp
  have he : ∀ k, ∀ x ∈ Set.uIcc (0 : ℝ) (2 * Real.pi), iteratedDerivWithin k Real.cos (Set.uIcc (0 : ℝ) (2 * Real.pi)) x = iteratedDeriv k Real.cos x := fun k x hx =>
    iteratedDerivWithin_eq_iteratedDeriv hu Real.contDiff_cos.contDiffAt hx
  refine (C88_flat m (g := Real.cos) (a := 0) (b := 2 * Real.pi) (K := 1) Real.contDiff_cos.contDiffOn (fun x hx => ?_) (fun k _ => ?_) r).1
  · rw [he _ x hx, Real.iteratedDeriv_even_cos, Pi.mul_apply, Pi.pow_apply, Pi.neg_apply, Pi.one_apply, abs_mul, abs_pow, abs_neg, abs_one, one_pow, one_mul]
    exact Real.abs_cos_le_one x
  · rw [he _ _ Set.right_mem_uIcc, he _ _ Set.left_mem_uIcc, Real.iteratedDeriv_odd_cos]
    simp

/-- C88 in binary64: for an integrand whose odd derivatives agree at the ends, the rounding terms of C58 and the remainder -/
theorem C88_flat_binary64 [L : Libm] (m : ℕ) (r : NodeRule) (a b : F64) (f : F64 → F64) (g : ℝ → ℝ) (B M N Λ η : ℝ) (ha : a.isFinite = true) (hb : b.isFinite = true)
    (haB : |(a.val : ℝ)| ≤ B) (hbB : |(b.val : ℝ)| ≤ B) (hB : B ≤ 2 ^ 400) (hg : ContDiffOn ℝ (2 * (m + 1) : ℕ) g (Set.uIcc (a.val : ℝ) b.val))
    (hN : ∀ x ∈ Set.uIcc (a.val : ℝ) b.val, |iteratedDerivWithin (2 * (m + 1)) g (Set.uIcc (a.val : ℝ) b.val) x| ≤ N)
    (hflat : ∀ k < m, iteratedDerivWithin (2 * k + 1) g (Set.uIcc (a.val : ℝ) b.val) b.val = iteratedDerivWithin (2 * k + 1) g (Set.uIcc (a.val : ℝ) b.val) a.val) :
    let D := |(b.val : ℝ) - a.val|; let ρ := 4 / 10 ^ 15 * B + 1 / 2 ^ 1000; let κ := η + Λ * ρ
    let E := fun d : ℕ => D * (1.01 * κ + (1.2 / 10 ^ 15 + 1.2 / 10 ^ 16 * d) * (M + κ)) + 1 / 2 ^ 500
    let R := (D / r.degree) ^ (2 * (m + 1)) / (2 * (m + 1)).factorial * |(bernoulli (2 * (m + 1)) : ℝ)| * D * N
    Computes f g (around a.val b.val ρ) M Λ η → 0 ≤ Λ → 0 ≤ M + κ → M + κ ≤ 2 ^ 400 →
    (((AnyRule.midpoint r).value a b f).isFinite = true ∧
      |(((AnyRule.midpoint r).value a b f).val : ℝ) - ∫ x in (a.val : ℝ)..b.val, g x| ≤ E r.degree + (1 + 2 / 4 ^ (m + 1)) * R) ∧
    (((AnyRule.trapezoid r).value a b f).isFinite = true ∧ |(((AnyRule.trapezoid r).value a b f).val : ℝ) - ∫ x in (a.val : ℝ)..b.val, g x| ≤ E (r.degree - 1) + R) ∧
    (((AnyRule.simpson r).value a b f).isFinite = true ∧
      |(((AnyRule.simpson r).value a b f).val : ℝ) - ∫ x in (a.val : ℝ)..b.val, g x| ≤ E (r.degree - 1) + (1 + 4 / 4 ^ (m + 1)) / 3 * R) := by
  intro D ρ κ E R hf hΛ hK0 hK
  obtain ⟨ht, hm, hs⟩ := C88_flat m hg hN hflat r
  obtain ⟨⟨m1, m2⟩, -, -⟩ := C58_midpoint r a b f g B M Λ η ha hb haB hbB hB hf hΛ hK
  obtain ⟨⟨t1, t2⟩, -, -⟩ := C58_trapezoid r a b f g B M Λ η ha hb haB hbB hB hf hΛ hK
  obtain ⟨⟨s1, s2⟩, -, -⟩ := C58_simpson r a b f g B M Λ η ha hb haB hbB hB hf hΛ hK
  rw [value_simpson] at hs
  rw [value_midpoint] at hm hs
  rw [value_trapezoid] at ht hs
  have hlen : 0 ≤ D := abs_nonneg _
  refine ⟨⟨m1, ?_⟩, ⟨t1, ?_⟩, s1, ?_⟩
  · refine (abs_sub_le _ _ _).trans (add_le_add (m2.trans ?_) hm)
    have hc : (5 / 10 ^ 16 : ℝ) ≤ 1.2 / 10 ^ 15 := by norm_num
    simp only [E]
    gcongr
  · refine (abs_sub_le _ _ _).trans (add_le_add (t2.trans ?_) ht)
    have hc : (9 / 10 ^ 16 : ℝ) ≤ 1.2 / 10 ^ 15 := by norm_num
    simp only [E]
    gcongr
  · refine (abs_sub_le _ _ _).trans (add_le_add s2 (le_trans (le_of_eq ?_) hs))
    congr 2
    simp only [Finset.mul_sum, ← Finset.sum_add_distrib, Finset.sum_div]
    exact Finset.sum_congr rfl fun i _ => by ring

theorem bernoulli_six : (bernoulli 6 : ℝ) = 1 / 42 := by
  have h5 : bernoulli' 5 = 0 := bernoulli'_eq_zero_of_odd (by decide) (by norm_num)
  have h3 : bernoulli' 3 = 0 := bernoulli'_eq_zero_of_odd (by decide) (by norm_num)
  have h6 : bernoulli' 6 = 1 / 42 := by
    rw [bernoulli'_def]
    norm_num [Finset.sum_range_succ, h3, h5, bernoulli'_two, bernoulli'_four, Nat.choose]
  rw [bernoulli_eq_bernoulli'_of_ne_one (by norm_num), h6]
  norm_num

theorem bernoulli_two_four : (bernoulli 2 : ℝ) = 1 / 6 ∧ (bernoulli 4 : ℝ) = -1 / 30 := by
  rw [bernoulli_eq_bernoulli'_of_ne_one (by norm_num), bernoulli_eq_bernoulli'_of_ne_one (by norm_num), bernoulli'_two, bernoulli'_four]
  norm_num

/-- C88, the leading term: the trapezoid rule is off by `h²/12` times the jump of the derivative and the midpoint rule by minus half of that, up to order 4; so neither has an
order above 2 unless the derivative has the same value at both ends. -/
theorem C88_leading {g : ℝ → ℝ} {a b K : ℝ} (hg : ContDiffOn ℝ (4 : ℕ) g (Set.uIcc a b)) (hK : ∀ x ∈ Set.uIcc a b, |iteratedDerivWithin 4 g (Set.uIcc a b) x| ≤ K)
    (r : NodeRule) :
    let J := (b - a) ^ 2 / r.degree ^ 2 * (derivWithin g (Set.uIcc a b) b - derivWithin g (Set.uIcc a b) a)
    |(AnyRule.trapezoid r).value a b g - (∫ x in a..b, g x) - J / 12| ≤ |b - a| ^ 5 * K / (720 * r.degree ^ 4) ∧
    |(AnyRule.midpoint r).value a b g - (∫ x in a..b, g x) + J / 24| ≤ |b - a| ^ 5 * K / (640 * r.degree ^ 4) := by
  obtain ⟨h1, h2, -⟩ := C88_expansion 1 hg hK r
  have hn : (0 : ℝ) < r.degree := by exact_mod_cast r.pos
  simp only [Finset.sum_range_one, zero_add, mul_one, mul_zero, show 2 * (1 + 1) = 4 from rfl, bernoulli_two_four.1, bernoulli_two_four.2, iteratedDerivWithin_one,
    Nat.factorial, abs_div] at h1 h2
  dsimp only
  refine ⟨le_trans (le_of_eq ?_) (h1.trans (le_of_eq ?_)), le_trans (le_of_eq ?_) (h2.trans (le_of_eq ?_))⟩
  · congr 1
    rw [div_pow]; norm_num; ring
  · norm_num
    field_simp
    ring
  · congr 1
    rw [div_pow]; norm_num; ring
  · norm_num
    field_simp
    ring

/-- the exponential function on [0, 1]: the trapezoid result exceeds `e - 1` by `(e - 1)/(12 n²)`, up to `e/(720 n⁴)` -/
example (r : NodeRule) : |(AnyRule.trapezoid r).value 0 1 Real.exp - (Real.exp 1 - 1) - (Real.exp 1 - 1) / (12 * r.degree ^ 2)| ≤ Real.exp 1 / (720 * r.degree ^ 4) := by
  have hu : UniqueDiffOn ℝ (Set.uIcc (0 : ℝ) 1) := by rw [Set.uIcc_of_lt one_pos]; exact uniqueDiffOn_Icc one_pos
  have hd : ∀ x ∈ Set.uIcc (0 : ℝ) 1, derivWithin Real.exp (Set.uIcc (0 : ℝ) 1) x = Real.exp x := fun x hx => (Real.hasDerivAt_exp x).hasDerivWithinAt.derivWithin (hu x hx)
  have hi : ∀ x ∈ Set.uIcc (0 : ℝ) 1, iteratedDerivWithin 4 Real.exp (Set.uIcc (0 : ℝ) 1) x = Real.exp x := fun x hx => by
    rw [iteratedDerivWithin_eq_iteratedDeriv hu Real.contDiff_exp.contDiffAt hx, iteratedDeriv_eq_iterate, Real.iter_deriv_exp]
  have h := (C88_leading (g := Real.exp) (a := 0) (b := 1) (K := Real.exp 1) Real.contDiff_exp.contDiffOn (fun x hx => by
    rw [hi x hx, abs_of_pos (Real.exp_pos x)]
    rw [Set.uIcc_of_lt one_pos] at hx
    exact Real.exp_le_exp.2 hx.2) r).1
  rw [hd _ Set.left_mem_uIcc, hd _ Set.right_mem_uIcc, integral_exp, Real.exp_zero] at h
  have hn : (0 : ℝ) < r.degree := by exact_mod_cast r.pos
  norm_num at h
  refine le_trans (le_of_eq ?_) h
  congr 1
  field_simp

/-- C88, error estimates from a pair of results: the error of the finer trapezoid result is a third of the difference of the two, and that of the finer Simpson result a
fifteenth, up to higher order. -/
theorem C88_estimate {g : ℝ → ℝ} {a b : ℝ} {n : ℕ} (hn : 0 < n) (hlt : n < 2 ^ 32) (hlt2 : n * 2 < 2 ^ 32) :
    let T := fun r => (AnyRule.trapezoid r).value a b g
    let S := fun r => (AnyRule.simpson r).value a b g
    let c : NodeRule := ⟨n, hn, hlt⟩
    let f : NodeRule := ⟨n * 2, Nat.mul_pos hn two_pos, hlt2⟩
    (∀ K, ContDiffOn ℝ (4 : ℕ) g (Set.uIcc a b) → (∀ x ∈ Set.uIcc a b, |iteratedDerivWithin 4 g (Set.uIcc a b) x| ≤ K) →
      |(∫ x in a..b, g x) - (T f + (T f - T c) / 3)| ≤ K * |b - a| ^ 5 / (2880 * n ^ 4)) ∧
    (∀ K, ContDiffOn ℝ (6 : ℕ) g (Set.uIcc a b) → (∀ x ∈ Set.uIcc a b, |iteratedDerivWithin 6 g (Set.uIcc a b) x| ≤ K) →
      |(∫ x in a..b, g x) - (S f + (S f - S c) / 15)| ≤ K * |b - a| ^ 7 / (10 ^ 6 * n ^ 6)) := by
  intro T S c f
  have hn' : (0 : ℝ) < n := by exact_mod_cast hn
  constructor
  · intro K hg hK
    have h := C28_error hg hK c
    refine le_trans (le_of_eq ?_) h
    congr 2
    rw [value_simpson]
    simp only [T, f, c]
    have e := trap_double a b hn g
    unfold trap at e
    rw [value_midpoint, value_trapezoid, value_trapezoid]
    linarith
  · intro K hg hK
    have h1 := (C88_expansion 2 hg hK c).2.2
    have h2 := (C88_expansion 2 hg hK f).2.2
    have hK0 : 0 ≤ K := (abs_nonneg _).trans (hK a Set.left_mem_uIcc)
    simp only [Finset.sum_range_succ, Finset.sum_range_zero, zero_add, show 2 * (2 + 1) = 6 from rfl, show 2 * (1 + 1) = 4 from rfl, mul_one, mul_zero, bernoulli_six,
      bernoulli_two_four.2, Nat.factorial, c, f] at h1 h2
    push_cast at h1 h2
    set J := iteratedDerivWithin (2 + 1) g (Set.uIcc a b) b - iteratedDerivWithin (2 + 1) g (Set.uIcc a b) a
    set I := ∫ x in a..b, g x
    simp only [S, f, c]
    set Sc := (AnyRule.simpson ⟨n, hn, hlt⟩).value a b g
    set Sf := (AnyRule.simpson ⟨n * 2, Nat.mul_pos hn two_pos, hlt2⟩).value a b g
    have e1 : |(b - a) / n| = |b - a| / n := by rw [abs_div, abs_of_pos hn']
    have e2 : |(b - a) / (n * 2)| = |b - a| / n / 2 := by rw [abs_div, abs_mul, abs_two, abs_of_pos hn', div_div]
    rw [e1] at h1
    rw [e2] at h2
    have k1 : |Sc - I - (-1 / 4) * (((b - a) / n) ^ 4 / 24 * (-1 / 30) * J)| ≤ 17 / 48 * ((|b - a| / n) ^ 6 / 720 * (1 / 42) * |b - a| * K) := by
      refine le_trans (le_of_eq ?_) (h1.trans (le_of_eq ?_))
      · congr 1; ring
      · rw [abs_of_pos (by norm_num : (0 : ℝ) < 1 / 42)]; norm_num
    have k2 : |Sf - I - (-1 / 4) * (((b - a) / n) ^ 4 / 16 / 24 * (-1 / 30) * J)| ≤ 17 / 48 * ((|b - a| / n) ^ 6 / 64 / 720 * (1 / 42) * |b - a| * K) := by
      refine le_trans (le_of_eq ?_) (h2.trans (le_of_eq ?_))
      · congr 1; ring
      · rw [abs_of_pos (by norm_num : (0 : ℝ) < 1 / 42), div_pow (|b - a| / (n : ℝ)) 2]; norm_num
    have k3 : I - (Sf + (Sf - Sc) / 15) = (Sc - I - (-1 / 4) * (((b - a) / n) ^ 4 / 24 * (-1 / 30) * J)) / 15 -
        16 / 15 * (Sf - I - (-1 / 4) * (((b - a) / n) ^ 4 / 16 / 24 * (-1 / 30) * J)) := by ring
    rw [k3]
    refine (abs_sub _ _).trans ?_
    rw [abs_div, abs_mul, abs_of_pos (by norm_num : (0 : ℝ) < 15), abs_of_pos (by norm_num : (0 : ℝ) < 16 / 15)]
    have hz : 0 ≤ |b - a| ^ 7 * K / (n : ℝ) ^ 6 := by positivity
    calc _ ≤ 17 / 48 * ((|b - a| / n) ^ 6 / 720 * (1 / 42) * |b - a| * K) / 15 + 16 / 15 * (17 / 48 * ((|b - a| / n) ^ 6 / 64 / 720 * (1 / 42) * |b - a| * K)) := by gcongr
      _ = 17 / 17418240 * (|b - a| ^ 7 * K / (n : ℝ) ^ 6) := by rw [div_pow]; ring
      _ ≤ 1 / 10 ^ 6 * (|b - a| ^ 7 * K / (n : ℝ) ^ 6) := mul_le_mul_of_nonneg_right (by norm_num) hz
      _ = _ := by field_simp

/-- two trapezoid results with 10 and 20 panels for the exponential function on [0, 1]: the extrapolated value is off by at most `e/28800000` -/
example : |(Real.exp 1 - 1) - ((AnyRule.trapezoid ⟨10 * 2, by norm_num, by norm_num⟩).value 0 1 Real.exp +
    ((AnyRule.trapezoid ⟨10 * 2, by norm_num, by norm_num⟩).value 0 1 Real.exp - (AnyRule.trapezoid ⟨10, by norm_num, by norm_num⟩).value 0 1 Real.exp) / 3)| ≤
    Real.exp 1 / 28800000 := by
  have hu : UniqueDiffOn ℝ (Set.uIcc (0 : ℝ) 1) := by rw [Set.uIcc_of_lt one_pos]; exact uniqueDiffOn_Icc one_pos
  have h := (C88_estimate (g := Real.exp) (a := 0) (b := 1) (n := 10) (by norm_num) (by norm_num) (by norm_num)).1 (Real.exp 1) Real.contDiff_exp.contDiffOn (fun x hx => by
    rw [iteratedDerivWithin_eq_iteratedDeriv hu Real.contDiff_exp.contDiffAt hx, iteratedDeriv_eq_iterate, Real.iter_deriv_exp, abs_of_pos (Real.exp_pos x)]
    rw [Set.uIcc_of_lt one_pos] at hx
    exact Real.exp_le_exp.2 hx.2)
  rw [integral_exp, Real.exp_zero] at h
  refine h.trans (le_of_eq ?_)
  norm_num

end GaussQuad.Props
