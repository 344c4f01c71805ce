import Verif.Proofs.OdeCompare
import Mathlib.Analysis.Calculus.SmoothSeries
import Mathlib.Analysis.SpecialFunctions.Exponential
import Mathlib.Analysis.SpecialFunctions.Pow.Real

/-!
# The Bessel functions `J₀` and `J₁` by their power series
-/

namespace GaussQuad.Bessel

/-- `Σ (-1)^m x^m / (m! (m+j)!)` -/
noncomputable def term (j m : ℕ) (x : ℝ) : ℝ := (-1) ^ m * x ^ m / (m.factorial * (m + j).factorial)

noncomputable def F (j : ℕ) (x : ℝ) : ℝ := ∑' m, term j m x

theorem abs_term_le (j m : ℕ) (x : ℝ) : |term j m x| ≤ |x| ^ m / m.factorial := by
  rw [term, abs_div, abs_mul, abs_pow, abs_neg, abs_one, one_pow, one_mul, abs_pow]
  rw [abs_of_nonneg (by positivity : (0 : ℝ) ≤ (m.factorial : ℝ) * (m + j).factorial)]
  apply div_le_div_of_nonneg_left (by positivity) (by positivity)
  have : (1 : ℝ) ≤ (m + j).factorial := by exact_mod_cast Nat.succ_le_of_lt (Nat.factorial_pos _)
  nlinarith [(Nat.cast_pos (α := ℝ)).2 m.factorial_pos]

theorem summable_term (j : ℕ) (x : ℝ) : Summable fun m => term j m x :=
  Summable.of_norm_bounded (Real.summable_pow_div_factorial |x|) (fun m => abs_term_le j m x)

theorem term_succ (j m : ℕ) (x : ℝ) : HasDerivAt (term j (m + 1)) (-(term (j + 1) m x)) x := by
  have h := ((hasDerivAt_pow (m + 1) x).const_mul ((-1 : ℝ) ^ (m + 1))).div_const ((m + 1).factorial * (m + 1 + j).factorial)
  refine h.congr_deriv ?_
  simp only [term, Nat.add_sub_cancel]
  rw [Nat.factorial_succ m, show m + 1 + j = m + (j + 1) by ring]
  have h1 : (m.factorial : ℝ) ≠ 0 := by positivity
  have h2 : ((m + (j + 1)).factorial : ℝ) ≠ 0 := by positivity
  have h3 : ((m : ℝ) + 1) ≠ 0 := by positivity
  push_cast
  field_simp
  ring

theorem F_hasDerivAt (j : ℕ) (x : ℝ) : HasDerivAt (F j) (-(F (j + 1) x)) x := by
  set R := |x| + 1 with hR
  have hR0 : 0 ≤ R := by positivity
  have key := hasDerivAt_tsum_of_isPreconnected (g := fun m y => term j (m + 1) y) (g' := fun m y => -(term (j + 1) m y))
    (u := fun m => R ^ m / m.factorial) (t := Metric.ball 0 R) (y₀ := x) (y := x) (Real.summable_pow_div_factorial R) Metric.isOpen_ball
    (convex_ball (0 : ℝ) R).isPreconnected (fun m y _ => term_succ j m y) (fun m y hy => by
      rw [norm_neg]
      refine (abs_term_le _ _ _).trans ?_
      have : |y| ≤ R := by
        have := Metric.mem_ball.1 hy
        rw [Real.dist_eq, sub_zero] at this; exact this.le
      gcongr) (by rw [Metric.mem_ball, Real.dist_eq, sub_zero, hR]; linarith) ((summable_nat_add_iff 1).2 (summable_term j x))
    (by rw [Metric.mem_ball, Real.dist_eq, sub_zero, hR]; linarith)
  rw [tsum_neg] at key
  have e : F j = fun y => term j 0 0 + ∑' m, term j (m + 1) y := by
    funext y
    rw [F, (summable_term j y).tsum_eq_zero_add]
    simp [term]
  rw [e]
  exact key.const_add _

theorem F_rec (j : ℕ) (x : ℝ) : x * F (j + 2) x = (j + 1) * F (j + 1) x - F j x := by
  have h1 := (summable_term (j + 1) x).hasSum.mul_left ((j : ℝ) + 1)
  have h0 := (summable_term j x).hasSum
  have h2 := (summable_term (j + 2) x).hasSum.mul_left x
  have hd := h1.sub h0
  rw [← F, ← F] at hd
  rw [← F] at h2
  have hz : ((j : ℝ) + 1) * term (j + 1) 0 x - term j 0 x = 0 := by
    simp only [term, pow_zero, Nat.zero_add, Nat.factorial_succ, Nat.factorial_zero]
    have : (j.factorial : ℝ) ≠ 0 := by positivity
    push_cast; field_simp; ring
  have hd' := (hasSum_nat_add_iff' 1).2 hd
  simp only [Finset.sum_range_one, hz, sub_zero] at hd'
  refine h2.unique ?_
  refine hd'.congr_fun ?_
  intro m
  simp only [term]
  rw [show m + 1 + (j + 1) = (m + (j + 2)) by ring, show m + 1 + j = m + (j + 1) by ring, show m + (j + 2) = (m + (j + 1)) + 1 by ring,
    Nat.factorial_succ (m + (j + 1)), Nat.factorial_succ m]
  have h1 : (m.factorial : ℝ) ≠ 0 := by positivity
  have h2 : ((m + (j + 1)).factorial : ℝ) ≠ 0 := by positivity
  have h3 : ((m : ℝ) + 1) ≠ 0 := by positivity
  have h4 : ((m : ℝ) + (j + 1) + 1) ≠ 0 := by positivity
  push_cast
  field_simp
  ring

theorem F_zero_zero : F 0 0 = 1 := by
  rw [F, tsum_eq_single 0 (fun m hm => by simp [term, hm])]; simp [term]

/-- the Bessel function of order 0 -/
noncomputable def J0 (s : ℝ) : ℝ := F 0 (s ^ 2 / 4)
/-- the Bessel function of order 1 -/
noncomputable def J1 (s : ℝ) : ℝ := s / 2 * F 1 (s ^ 2 / 4)

theorem J0_zero : J0 0 = 1 := by simp [J0, F_zero_zero]
theorem J1_zero : J1 0 = 0 := by simp [J1]

theorem sq_div_hasDerivAt (s : ℝ) : HasDerivAt (fun s : ℝ => s ^ 2 / 4) (s / 2) s := by
  refine ((hasDerivAt_pow 2 s).div_const 4).congr_deriv ?_
  norm_num; ring

theorem J0_hasDerivAt (s : ℝ) : HasDerivAt J0 (-(J1 s)) s := by
  refine ((F_hasDerivAt 0 (s ^ 2 / 4)).comp s (sq_div_hasDerivAt s)).congr_deriv ?_
  simp only [J1]; ring

theorem J1_hasDerivAt' (s : ℝ) : HasDerivAt J1 (F 1 (s ^ 2 / 4) / 2 - s / 2 * (F 2 (s ^ 2 / 4) * (s / 2))) s := by
  refine (((hasDerivAt_id s).div_const 2).mul ((F_hasDerivAt 1 (s ^ 2 / 4)).comp s (sq_div_hasDerivAt s))).congr_deriv ?_
  simp only [Function.comp, id]; ring

theorem J1_hasDerivAt {s : ℝ} (hs : s ≠ 0) : HasDerivAt J1 (J0 s - J1 s / s) s := by
  refine (J1_hasDerivAt' s).congr_deriv ?_
  have h := F_rec 0 (s ^ 2 / 4)
  simp only [J0, J1]
  have : s / 2 * F 1 (s ^ 2 / 4) / s = F 1 (s ^ 2 / 4) / 2 := by field_simp
  rw [this]
  norm_num at h
  linear_combination -h

theorem J1_continuous : Continuous J1 := continuous_iff_continuousAt.2 fun s => (J1_hasDerivAt' s).continuousAt
theorem J0_continuous : Continuous J0 := continuous_iff_continuousAt.2 fun s => (J0_hasDerivAt s).continuousAt

/-- `J₀² + J₁² ≤ 1` -/
theorem sq_add_sq_le {s : ℝ} (hs : 0 ≤ s) : J0 s ^ 2 + J1 s ^ 2 ≤ 1 := by
  have hanti : AntitoneOn (fun s => J0 s ^ 2 + J1 s ^ 2) (Set.Ici 0) := by
    apply antitoneOn_of_deriv_nonpos (convex_Ici 0)
    · exact ((J0_continuous.pow 2).add (J1_continuous.pow 2)).continuousOn
    · intro x hx
      exact (((J0_hasDerivAt x).pow 2).add ((J1_hasDerivAt' x).pow 2)).differentiableAt.differentiableWithinAt
    · intro x hx
      rw [interior_Ici] at hx
      have hx0 : (0 : ℝ) < x := hx
      have h := ((J0_hasDerivAt x).pow 2).add ((J1_hasDerivAt hx0.ne').pow 2)
      rw [show (fun s => J0 s ^ 2 + J1 s ^ 2) = J0 ^ 2 + J1 ^ 2 from rfl, h.deriv]
      have : 0 ≤ J1 x ^ 2 / x := by positivity
      have e : J1 x ^ 2 / x = J1 x * (J1 x / x) := by ring
      push_cast
      nlinarith
  have := hanti (Set.mem_Ici.2 le_rfl) (Set.mem_Ici.2 hs) hs
  simp only [J0_zero, J1_zero] at this
  linarith

theorem abs_J0_le {s : ℝ} (hs : 0 ≤ s) : |J0 s| ≤ 1 := by
  rw [← sq_le_one_iff_abs_le_one]; nlinarith [sq_add_sq_le hs, sq_nonneg (J1 s)]
theorem abs_J1_le {s : ℝ} (hs : 0 ≤ s) : |J1 s| ≤ 1 := by
  rw [← sq_le_one_iff_abs_le_one]; nlinarith [sq_add_sq_le hs, sq_nonneg (J0 s)]

/-! ## normal form -/

/-- `√s J₀(s)` -/
noncomputable def φ (s : ℝ) : ℝ := √s * J0 s
noncomputable def φ1 (s : ℝ) : ℝ := J0 s / (2 * √s) - √s * J1 s
noncomputable def qB (s : ℝ) : ℝ := 1 + 1 / (4 * s ^ 2)

theorem φ_hasDerivAt {s : ℝ} (hs : 0 < s) : HasDerivAt φ (φ1 s) s := by
  refine (((Real.hasDerivAt_sqrt hs.ne')).mul (J0_hasDerivAt s)).congr_deriv ?_
  simp only [φ1]; ring

theorem φ1_hasDerivAt {s : ℝ} (hs : 0 < s) : HasDerivAt φ1 (-(qB s * φ s)) s := by
  have hg := Real.hasDerivAt_sqrt hs.ne'
  have hgp : 0 < √s := Real.sqrt_pos.2 hs
  have hsq : √s ^ 2 = s := Real.sq_sqrt hs.le
  have h1 := (J0_hasDerivAt s).div (hg.const_mul 2) (mul_pos two_pos hgp).ne'
  have h2 := hg.mul (J1_hasDerivAt hs.ne')
  refine (h1.sub h2).congr_deriv ?_
  simp only [φ, qB]
  generalize √s = g at *
  subst hsq
  field_simp
  ring

theorem qB_hasDerivAt {s : ℝ} (hs : 0 < s) : HasDerivAt qB (-(1 / (2 * s ^ 3))) s := by
  have h := ((hasDerivAt_const s (1 : ℝ)).div ((hasDerivAt_pow 2 s).const_mul 4) (by positivity)).const_add 1
  refine h.congr_deriv ?_
  field_simp
  norm_num
  ring

/-! ## numerical values from the series -/

/-- the first `M` terms, by Horner's rule: `(A, D)` with the sum equal to `A / D` -/
theorem F_tail {j M : ℕ} {x : ℝ} (hx : 0 ≤ x) (hM : 2 * x ≤ (M : ℝ) ^ 2) :
    |F j x - ∑ m ∈ Finset.range M, term j m x| ≤ 2 * (x ^ M / (M.factorial * (M + j).factorial)) := by
  have hs := (summable_term j x)
  rw [F, ← hs.sum_add_tsum_nat_add M, add_sub_cancel_left]
  have hb : ∀ i, ‖term j (i + M) x‖ ≤ x ^ M / (M.factorial * (M + j).factorial) * (1 / 2) ^ i := by
    intro i
    rw [term, norm_div, norm_mul, norm_pow, norm_neg, norm_one, one_pow, one_mul, Real.norm_of_nonneg (by positivity),
      Real.norm_of_nonneg (by positivity)]
    induction i with
    | zero => simp
    | succ i ih =>
      rw [show i + 1 + M = (i + M) + 1 by ring, show i + M + 1 + j = (i + M + j) + 1 by ring, Nat.factorial_succ, Nat.factorial_succ, pow_succ,
        pow_succ (1 / 2 : ℝ)]
      have h1 : (0 : ℝ) < (i + M).factorial := by positivity
      have h2 : (0 : ℝ) < (i + M + j).factorial := by positivity
      have h3 : (x : ℝ) / ((i + M + 1) * (i + M + j + 1)) ≤ 1 / 2 := by
        rw [div_le_iff₀ (by positivity)]
        have : (M : ℝ) ^ 2 ≤ (i + M + 1) * (i + M + j + 1) := by
          have : (0 : ℝ) ≤ i := by positivity
          have : (0 : ℝ) ≤ j := by positivity
          have : (0 : ℝ) ≤ M := by positivity
          rw [sq]
          apply mul_le_mul <;> linarith
        linarith
      have e : x ^ (i + M) * x / (((i + M + 1 : ℕ) * (i + M).factorial : ℕ) * ((i + M + j + 1 : ℕ) * (i + M + j).factorial : ℕ)) =
          x ^ (i + M) / ((i + M).factorial * (i + M + j).factorial) * (x / ((i + M + 1) * (i + M + j + 1))) := by
        push_cast; field_simp
      rw [e, ← mul_assoc]
      exact mul_le_mul ih h3 (by positivity) (by positivity)
  have hg : HasSum (fun i : ℕ => x ^ M / (M.factorial * (M + j).factorial) * (1 / 2 : ℝ) ^ i) (x ^ M / (M.factorial * (M + j).factorial) * 2) :=
    hasSum_geometric_two.mul_left _
  refine (tsum_of_norm_bounded hg hb).trans (le_of_eq (by ring))

end GaussQuad.Bessel
