import Verif.Props.Analytic
import Verif.Props.FiniteSmooth
import Verif.Props.EulerMaclaurin
import Verif.Props.JacobiDelegated
import Verif.Props.GolubWelschStructure
import Verif.Props.NestedDepth
import Verif.Props.FloatRobust
import Verif.Props.JacobiF64

/-! Instances of theorems of other files that need facts from several of them: a function computed in binary64, an exact eigen-solver, and
integrands that are analytic or Lipschitz continuous. -/

namespace GaussQuad.Props
open Spec F64 FloatOps MeasureTheory

/-- over the reals: `α = β = 1/2` gives the Chebyshev rule of the second kind, `α = 1/2`, `β = 0` the general construction, and the parameters are returned -/
example (mode : Overflow) (ext : Externals ℝ) : (GaussJacobi.new mode ext 7 ⟨1 / 2⟩ ⟨1 / 2⟩).map (·.toRule) = GaussChebyshevSecondKind.new mode 7 ∧
    GaussJacobi.new mode ext 7 ⟨1 / 2⟩ ⟨0⟩ = GaussJacobi.newGeneral ext 7 ⟨1 / 2⟩ ⟨0⟩ ∧
    ∀ r, GaussJacobi.new mode ext 7 ⟨1 / 2⟩ ⟨0⟩ = some r → r.alpha.get = 1 / 2 ∧ r.beta.get = 0 := by
  have hf : ∀ x y : ℝ, feq x y = true ↔ x = y := fun x y => by simp [feq]
  have hn : ∀ x y : ℝ, feq x y = false ↔ x ≠ y := fun x y => by simp [feq]
  have l0 : (lit 0.0 : ℝ) = 0 := by norm_num [lit]
  have l1 : (lit (-0.5) : ℝ) = -1 / 2 := by norm_num [lit]
  have l2 : (lit 0.5 : ℝ) = 1 / 2 := by norm_num [lit]
  refine ⟨(C39_delegation mode ext 7 ⟨1 / 2⟩ ⟨1 / 2⟩ ?_ ?_).2.2 ?_, (C39_no_delegation mode ext 7 ⟨1 / 2⟩ ⟨0⟩ ?_ ?_ ?_).1 (by norm_num), fun r hr => ?_⟩
  · intro x; rw [hf, hn, hn, l0, l1, l2]; rintro rfl; norm_num
  · intro x; rw [hf, hn, l1, l2]; rintro rfl; norm_num
  · rw [hf, l2]; norm_num [FiniteAboveNegOne.get]
  · rw [hf, hf, l0]; norm_num [FiniteAboveNegOne.get]
  · rw [hf, hf, l1]; norm_num [FiniteAboveNegOne.get]
  · rw [hf, hf, l2]; norm_num [FiniteAboveNegOne.get]
  · have h := C39_parameters mode ext 7 ⟨1 / 2⟩ ⟨0⟩ (fun x y => by rw [Bool.eq_iff_iff, hf, hf, eq_comm]) ((hf _ _).2 rfl) ((hf _ _).2 rfl) r hr
    rw [hf, hf] at h
    exact h

/-- `1 / (t² + 4)`, analytic in the ellipse of parameter 2 and not entire: ten nodes -/
example (mode : Overflow) : (∃ r : Rule ℝ, GaussLegendre.new mode 10 = some r ∧ |(AnyRule.legendre r).value (-1) 1 (fun t => 1 / (t ^ 2 + 4)) - ∫ t in (-1 : ℝ)..1, 1 / (t ^ 2 + 4)| ≤ 1e-5) ∧
    (∃ r : Rule ℝ, GaussChebyshevFirstKind.new mode 10 = some r ∧
      |(AnyRule.chebyshevFirst r).value (-1) 1 (fun t => 1 / (t ^ 2 + 4)) - ∫ t in (-1 : ℝ)..1, 1 / (t ^ 2 + 4) * (1 / Real.sqrt (1 - ((2 * t - -1 - 1) / (1 - -1)) ^ 2))| ≤ 2e-5) := by
  constructor
  · obtain ⟨r, h1, h2⟩ := C82_legendre mode (n := 10) (by norm_num) (by norm_num)
    refine ⟨r, h1, (h2 (-1) 1 2 _ _ (by norm_num) (by norm_num) analytic_runge).2.trans ?_⟩
    rw [abs_of_pos (by norm_num : (0 : ℝ) < 1 - -1)]
    norm_num
  · obtain ⟨⟨r, h1, -, h2⟩, -⟩ := C82_chebyshev mode (n := 10) (by norm_num) (by norm_num) (by norm_num) (by norm_num) analytic_runge
    refine ⟨r, h1, h2.trans ?_⟩
    rw [abs_of_pos (by norm_num : (0 : ℝ) < 1 - -1)]
    have := Real.pi_lt_d2
    norm_num at this ⊢
    linarith

/-- the same integrand and `|t|` with the Jacobi weight for parameters 1 and 2, six nodes and an exact eigen-solver -/
example : ∃ ext : Externals ℝ, ExactSolver ext ∧ ∃ (r : JacobiRule ℝ) (c : ℝ), GaussJacobi.new .checked ext 6 ⟨1⟩ ⟨2⟩ = some r ∧ |c - 1| ≤ 6e-12 ∧
    |(AnyRule.jacobi r).value (-1) 1 (fun t => 1 / (t ^ 2 + 4)) - c * ∫ t in (-1 : ℝ)..1, 1 / (t ^ 2 + 4) * ((1 - (2 * t - -1 - 1) / (1 - -1)) ^ (1 : ℝ) * (1 + (2 * t - -1 - 1) / (1 - -1)) ^ (2 : ℝ))| ≤
      c * (2 * |1 - -1| * (16 / 39) * 2⁻¹ ^ (2 * 6 - 1) / (2 - 1) * ∫ x in Set.Ioo (-1 : ℝ) 1, (1 - x) ^ (1 : ℝ) * (1 + x) ^ (2 : ℝ)) := by
  obtain ⟨r, c, h1, h2, h3⟩ := C82_jacobi exactSolver_exists .checked (n := 6) (by norm_num) (α := ⟨1⟩) (β := ⟨2⟩) (by norm_num [FiniteAboveNegOne.get]) (by norm_num [FiniteAboveNegOne.get])
    (by norm_num [FiniteAboveNegOne.get]) (by norm_num [FiniteAboveNegOne.get, Delegated]) (.inl rfl)
  exact ⟨_, exactSolver_exists, r, c, h1, h2, (h3 (-1) 1 2 _ _ (by norm_num) (by norm_num) analytic_runge).2⟩

example : ∃ ext : Externals ℝ, ExactSolver ext ∧ ∃ (r : JacobiRule ℝ) (c : ℝ), GaussJacobi.new .checked ext 6 ⟨1⟩ ⟨2⟩ = some r ∧ |c - 1| ≤ 6e-12 ∧
    |(AnyRule.jacobi r).value (-1) 1 (fun t => |t|) - c * ∫ t in (-1 : ℝ)..1, |t| * ((1 - (2 * t - -1 - 1) / (1 - -1)) ^ (1 : ℝ) * (1 + (2 * t - -1 - 1) / (1 - -1)) ^ (2 : ℝ))| ≤
      c * (|1 - -1| * ((Real.pi ^ 2 / 4 * |1 - -1|) ^ (0 + 1) * 1 / (2 * 6 + 1).descFactorial (0 + 1)) * ∫ x in Set.Ioo (-1 : ℝ) 1, (1 - x) ^ (1 : ℝ) * (1 + x) ^ (2 : ℝ)) := by
  obtain ⟨r, c, h1, h2, h3⟩ := C87_jacobi exactSolver_exists .checked (n := 6) (by norm_num) (α := ⟨1⟩) (β := ⟨2⟩) (by norm_num [FiniteAboveNegOne.get]) (by norm_num [FiniteAboveNegOne.get])
    (by norm_num [FiniteAboveNegOne.get]) (by norm_num [FiniteAboveNegOne.get, Delegated]) (.inl rfl)
  exact ⟨_, exactSolver_exists, r, c, h1, h2, (h3 (-1) 1 1 0 _ (by norm_num) (by norm_num) smooth_abs).2⟩

/-- `|t|` with Gauss-Legendre, 1000 nodes -/
example (mode : Overflow) : ∃ r : Rule ℝ, GaussLegendre.new mode 1000 = some r ∧ |(AnyRule.legendre r).value (-1) 1 (fun t => |t|) - ∫ t in (-1 : ℝ)..1, (|t|)| ≤ 1.1e-2 := by
  obtain ⟨r, h1, h2⟩ := C87_legendre mode (n := 1000) (by norm_num) (by norm_num)
  refine ⟨r, h1, (h2 (-1) 1 1 1 1 0 (fun t => |t|) (by norm_num) (fun x hx => ?_) (fun x _ y _ => ?_) (by norm_num) smooth_abs).2.trans ?_⟩
  · rw [Set.uIcc_of_le (by norm_num)] at hx
    rw [abs_abs]; exact _root_.abs_le.2 hx
  · rw [one_mul]; exact abs_abs_sub_abs_le_abs_sub x y
  · have hp : Real.pi ^ 2 ≤ 3.15 ^ 2 := pow_le_pow_left₀ Real.pi_pos.le Real.pi_lt_d2.le 2
    rw [abs_of_pos (by norm_num : (0 : ℝ) < 1 - -1)]
    norm_num [Nat.descFactorial_one] at hp ⊢
    linarith

set_option exponentiation.threshold 1100 in
/-- a function that computes the exponential on [-1, 1] to within `2^-50` -/
example [L : Libm] (hL : AccurateTrig L) (hS : AccurateSin L) (f : F64 → F64)
    (hf : Computes f Real.exp (around (-1) 1 (4 / 10 ^ 15 * 1 + 1 / 2 ^ 1000)) 3 3 (1 / 2 ^ 50)) : ∃ r r' r'' : Rule F64,
    GaussLegendre.new .checked 20 = some r ∧ GaussChebyshevFirstKind.new .checked 20 = some r' ∧ GaussChebyshevSecondKind.new .checked 20 = some r'' ∧
    |(((AnyRule.legendre r).value (round (-1) false) (round 1 false) f).val : ℝ) - ∫ t in (-1 : ℝ)..1, Real.exp t| ≤ 1e-12 ∧
    ((AnyRule.chebyshevFirst r').value (round (-1) false) (round 1 false) f).isFinite = true ∧
    ((AnyRule.chebyshevSecond r'').value (round (-1) false) (round 1 false) f).isFinite = true := by
  have d1 : (round (-1) false).isFinite = true ∧ (round (-1) false).val = -1 := by decide +kernel
  have d2 : (round 1 false).isFinite = true ∧ (round 1 false).val = 1 := by decide +kernel
  have e1 : (((round (-1) false).val : ℚ) : ℝ) = -1 := by rw [d1.2]; norm_num
  have e2 : (((round 1 false).val : ℚ) : ℝ) = 1 := by rw [d2.2]; norm_num
  have hne : (round (-1) false).val ≠ (round 1 false).val := by rw [d1.2, d2.2]; norm_num
  have eD : |(1 : ℝ) - -1| = 2 := by rw [abs_of_pos (by norm_num)]; norm_num
  have hA : AnalyticAround Real.exp (-1) 1 8 (3 ^ 5) := by
    obtain ⟨G, h1, h2, h3⟩ := analytic_exp 8
    refine ⟨G, h1, fun z hz => (h2 z hz).trans ?_, h3⟩
    have : Real.exp ((8 + 8⁻¹) / 2) ≤ Real.exp 5 := Real.exp_le_exp.2 (by norm_num)
    refine this.trans ?_
    rw [show (5 : ℝ) = (5 : ℕ) * 1 by norm_num, Real.exp_nat_mul]
    exact pow_le_pow_left₀ (Real.exp_pos 1).le (by linarith [Real.exp_one_lt_d9]) 5
  obtain ⟨r, h1, h2⟩ := C82_legendre_binary64 hL .checked (n := 20) (by norm_num) (by norm_num)
  obtain ⟨r', h1', h2'⟩ := C82_chebyshev_first_binary64 hL .checked (n := 20) (by norm_num) (by norm_num)
  obtain ⟨r'', h1'', h2''⟩ := C82_chebyshev_second_binary64 hL hS .checked (n := 20) (by norm_num) (by norm_num)
  refine ⟨r, r', r'', h1, h1', h1'', ?_, ?_, ?_⟩
  · have h := h2 (round (-1) false) (round 1 false) f Real.exp 1 3 3 (1 / 2 ^ 50) 8 (3 ^ 5) d1.1 d2.1 (by rw [e1]; norm_num) (by rw [e2]; norm_num) (by norm_num)
    simp only [e1, e2, eD] at h
    refine (h hf (by norm_num) (by norm_num) (by norm_num) (by norm_num) hA).1.2.trans ?_
    norm_num
  · have h := h2' (round (-1) false) (round 1 false) f Real.exp 1 3 3 (1 / 2 ^ 50) 8 (3 ^ 5) d1.1 d2.1 (by rw [e1]; norm_num) (by rw [e2]; norm_num) (by norm_num)
    simp only [e1, e2, eD] at h
    exact (h hf (by norm_num) (by norm_num) (by norm_num) (by norm_num) hA).1.1
  · have h := h2'' (round (-1) false) (round 1 false) f Real.exp 1 3 3 (1 / 2 ^ 50) 8 (3 ^ 5) d1.1 d2.1 (by rw [e1]; norm_num) (by rw [e2]; norm_num) (by norm_num)
    simp only [e1, e2, eD] at h
    exact (h hf (by norm_num) (by norm_num) (by norm_num) (by norm_num) hA).1.1

set_option exponentiation.threshold 1100 in
/-- the binary64 absolute value on [-1, 1] -/
example [L : Libm] (hL : AccurateTrig L) (hS : AccurateSin L) (f : F64 → F64)
    (hf : Computes f (fun t => |t|) (around (-1) 1 (4 / 10 ^ 15 * 1 + 1 / 2 ^ 1000)) 2 1 0) : ∃ r r' r'' : Rule F64,
    GaussLegendre.new .checked 1000 = some r ∧ GaussChebyshevFirstKind.new .checked 1000 = some r' ∧ GaussChebyshevSecondKind.new .checked 1000 = some r'' ∧
    |(((AnyRule.legendre r).value (round (-1) false) (round 1 false) f).val : ℝ) - ∫ t in (-1 : ℝ)..1, (|t|)| ≤ 1.1e-2 ∧
    ((AnyRule.chebyshevFirst r').value (round (-1) false) (round 1 false) f).isFinite = true ∧
    ((AnyRule.chebyshevSecond r'').value (round (-1) false) (round 1 false) f).isFinite = true := by
  have d1 : (round (-1) false).isFinite = true ∧ (round (-1) false).val = -1 := by decide +kernel
  have d2 : (round 1 false).isFinite = true ∧ (round 1 false).val = 1 := by decide +kernel
  have e1 : (((round (-1) false).val : ℚ) : ℝ) = -1 := by rw [d1.2]; norm_num
  have e2 : (((round 1 false).val : ℚ) : ℝ) = 1 := by rw [d2.2]; norm_num
  have eD : |(1 : ℝ) - -1| = 2 := by rw [abs_of_pos (by norm_num)]; norm_num
  obtain ⟨r, h1, h2⟩ := C87_legendre_binary64 hL .checked (n := 1000) (by norm_num) (by norm_num)
  obtain ⟨r', h1', h2'⟩ := C87_chebyshev_first_binary64 hL .checked (n := 1000) (by norm_num) (by norm_num)
  obtain ⟨r'', h1'', h2''⟩ := C87_chebyshev_second_binary64 hL hS .checked (n := 1000) (by norm_num) (by norm_num)
  refine ⟨r, r', r'', h1, h1', h1'', ?_, ?_, ?_⟩
  · have h := h2 (round (-1) false) (round 1 false) f (fun t => |t|) 1 2 1 0 1 0 d1.1 d2.1 (by rw [e1]; norm_num) (by rw [e2]; norm_num) (by norm_num)
    simp only [e1, e2, eD] at h
    refine (h hf (by norm_num) (by norm_num) (by norm_num) (by norm_num) smooth_abs).1.2.trans ?_
    have hp : Real.pi ^ 2 ≤ 3.15 ^ 2 := pow_le_pow_left₀ Real.pi_pos.le Real.pi_lt_d2.le 2
    norm_num [Nat.descFactorial_one] at hp ⊢
    linarith
  · have h := h2' (round (-1) false) (round 1 false) f (fun t => |t|) 1 2 1 0 1 0 d1.1 d2.1 (by rw [e1]; norm_num) (by rw [e2]; norm_num) (by norm_num)
    simp only [e1, e2, eD] at h
    exact (h hf (by norm_num) (by norm_num) (by norm_num) (by norm_num) smooth_abs).1.1
  · have h := h2'' (round (-1) false) (round 1 false) f (fun t => |t|) 1 2 1 0 1 0 d1.1 d2.1 (by rw [e1]; norm_num) (by rw [e2]; norm_num) (by norm_num)
    simp only [e1, e2, eD] at h
    exact (h hf (by norm_num) (by norm_num) (by norm_num) (by norm_num) smooth_abs).1.1

/-- a counting integrand and its opposite: the state is the number of calls, the value that number times the argument, for every rule and bounds -/
example [L : Libm] (R : AnyRule F64) (a b : F64) :
    Opposite ((R.integrate a b (logged fun (n : ℕ) x => (F64.mul (ofNat n) x, n + 1))).run ([], 0)).1
      ((R.integrate a b (logged fun (n : ℕ) x => (neg (F64.mul (ofNat n) x), n + 1))).run ([], 0)).1 := by
  refine C79_negate R a b _ _ _ _ ?_
  generalize points a b R = xs
  generalize (0 : ℕ) = n
  induction xs generalizing n with
  | nil => exact .nil
  | cons x xs ih => exact .cons (opposite_iff.2 ⟨rfl, fun _ => neg_key _⟩) (ih (n + 1))

/-- two computed pairs near the rule with nodes ∓1/2 and weights 1 -/
example : ([(F64.round (-0.5) false, F64.round 1 false), (F64.round 0.5 false, F64.round 1 false)] : List (F64 × F64)).Pairwise
    fun p q => p.1.val ≤ q.1.val := by
  have hv : (F64.round (-0.5) false).val = -1 / 2 ∧ (F64.round 0.5 false).val = 1 / 2 ∧ (F64.round 1 false).val = 1 := by decide +kernel
  refine C64_ascending (G := [(-1 / 2, 1), (1 / 2, 1)]) (m := 2) (η := 1 / 4) (ω := 0) ⟨rfl, by decide +kernel, by decide +kernel, ?_, ?_⟩ ?_
  · intro i h h'
    match i, h with
    | 0, _ => simp [hv.1]
    | 1, _ => simp [hv.2.1]
  · intro g lo hi Λ M h1 h2 _ _ _
    simp only [List.map_cons, List.map_nil, hv, quad, List.sum_cons, List.sum_nil]
    have : (0 : ℝ) ≤ 2 * (Λ * (1 / 4) + 0 * M) := by positivity
    norm_num at this ⊢
    exact this
  · intro i j hi hj hij
    obtain ⟨rfl, rfl⟩ : i = 0 ∧ j = 1 := by simp at hi hj; omega
    norm_num

set_option exponentiation.threshold 3000 in
/-- `x` on `[0, 1]` with ten panels: the first derivative agrees at the ends and the fourth is zero, only the rounding terms remain -/
example [L : Libm] : |(((AnyRule.trapezoid ⟨10, by norm_num, by norm_num⟩).value (F64.zero false) (F64.round 1 false) id).val : ℝ) - 1 / 2| ≤ 2e-14 := by
  have v0 : ((F64.zero false).val : ℝ) = 0 := by rw [val_zero]; norm_num
  have v1 : ((F64.round 1 false).val : ℝ) = 1 := by
    have : (F64.round 1 false).val = 1 := by decide +kernel
    rw [this]; norm_num
  have hu : UniqueDiffOn ℝ (Set.uIcc (0 : ℝ) 1) := by rw [Set.uIcc_of_lt one_pos]; exact uniqueDiffOn_Icc one_pos
  have hd : ∀ k, ∀ x ∈ Set.uIcc (0 : ℝ) 1, iteratedDerivWithin k (fun t : ℝ => t) (Set.uIcc (0 : ℝ) 1) x = iteratedDeriv k (fun t : ℝ => t) x := fun k x hx =>
    iteratedDerivWithin_eq_iteratedDeriv hu contDiff_id.contDiffAt hx
  have h1 : iteratedDeriv 1 (fun t : ℝ => t) = fun _ => 1 := by rw [iteratedDeriv_one]; funext x; simp
  have h2 : iteratedDeriv 2 (fun t : ℝ => t) = fun _ => 0 := by rw [iteratedDeriv_succ, h1]; funext x; simp
  have h3 : iteratedDeriv 3 (fun t : ℝ => t) = fun _ => 0 := by rw [iteratedDeriv_succ, h2]; funext x; simp
  have h4 : iteratedDeriv 4 (fun t : ℝ => t) = fun _ => 0 := by rw [iteratedDeriv_succ, h3]; funext x; simp
  have h := (C88_flat_binary64 1 ⟨10, by norm_num, by norm_num⟩ (F64.zero false) (F64.round 1 false) id (fun t => t) 1 2 0 1 0 (by decide +kernel) (by decide +kernel)
    (by rw [v0]; norm_num) (by rw [v1]; norm_num) (by norm_num) contDiff_id.contDiffOn ?_ ?_ ⟨?_, ?_, ?_⟩ (by norm_num) ?_ ?_).2.1.2
  · rw [v0, v1] at h
    norm_num at h ⊢
    refine h.trans ?_
    norm_num
  · intro x hx
    rw [v0, v1] at hx ⊢
    rw [hd _ x hx, show 2 * (1 + 1) = 4 from rfl, h4]; simp
  · intro k hk
    obtain rfl : k = 0 := by omega
    rw [v0, v1, hd _ _ Set.right_mem_uIcc, hd _ _ Set.left_mem_uIcc, show 2 * 0 + 1 = 1 from rfl, h1]
  · intro t ht
    rw [v0, v1] at ht
    have h5 : (0 : ℝ) < 1 / 2 ^ 1000 := by positivity
    have h6 : (1 : ℝ) / 2 ^ 1000 ≤ 1 / 10 := by rw [div_le_div_iff₀ (by positivity) (by norm_num)]; norm_num
    unfold around at ht
    obtain ⟨l, r⟩ := ht
    rw [min_eq_left (by norm_num : (0 : ℝ) ≤ 1)] at l
    rw [max_eq_right (by norm_num : (0 : ℝ) ≤ 1)] at r
    rw [abs_le]
    constructor <;> linarith
  · intro s _ t _; simp
  · intro y hy _; exact ⟨hy, by simp⟩
  · positivity
  · norm_num

end GaussQuad.Props
