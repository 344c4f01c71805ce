import Verif.Proofs.GolubRules
import Verif.Proofs.GaussSums
import Verif.Props.GolubWelschStructure
import Verif.Props.Chebyshev

/-!
# Hermite, Laguerre and Jacobi in exact arithmetic with an exact eigen-solver:
C32, C33, C34, C44 and their part of C12, C19, C20, C23, C41, C42, C43; C47 (uniqueness), C48 (reflection, monotonicity)

`ExactSolver ext` says that the eigen-solver returns an orthonormal eigen-decomposition of every symmetric matrix; nothing else
about it is assumed (order of the eigenvalues, signs of the vectors, choice inside eigenspaces are arbitrary).
-/

namespace GaussQuad.Props
open Polynomial Spec FloatOps Filter MeasureTheory

@[simp] theorem finiteAboveNegOne_get_mk (x : ℝ) : (⟨x⟩ : FiniteAboveNegOne ℝ).get = x := rfl

/-! ## C32 -/

/-- C32: `GaussHermite::new(n).integrate(p) = ∫ p(x) e^{-x²} dx` for every polynomial of degree at most `2n-1`. -/
theorem C32_exact {ext : Externals ℝ} (hext : ExactSolver ext) {n : ℕ} (hn : 0 < n) (a b : ℝ) :
    ∃ r : Rule ℝ, GaussHermite.new ext n = some r ∧ ∀ p : ℝ[X], p.natDegree ≤ 2 * n - 1 →
      (AnyRule.hermite r).value a b (fun x => p.eval x) = ∫ x : ℝ, p.eval x * Real.exp (-x ^ 2) := by
  obtain ⟨r, h1, h2⟩ := hermite_gauss hext hn
  refine ⟨r, h1, fun p hp => ?_⟩
  rw [value_real]
  have := h2.exact' p (by rwa [h2.length])
  rw [one_mul, weightIntegral, setIntegral_univ] at this
  exact this

/-- the hypothesis on the eigen-solver is satisfiable, and `x^4` is covered by the 3-point rule -/
example : ∃ ext : Externals ℝ, ExactSolver ext ∧ ∃ r : Rule ℝ, GaussHermite.new ext 3 = some r ∧
    (AnyRule.hermite r).value 0 0 (fun x => x ^ 4) = ∫ x : ℝ, x ^ 4 * Real.exp (-x ^ 2) := by
  refine ⟨_, exactSolver_exists, ?_⟩
  obtain ⟨r, h1, h2⟩ := C32_exact exactSolver_exists (n := 3) (by norm_num) 0 0
  exact ⟨r, h1, by have := h2 (X ^ 4) (by simp); simp only [eval_pow] at this; simpa only [eval_X] using this⟩

/-! ## C33 -/

/-- C33: `GaussLaguerre::new(n, α).integrate(p)` is `∫_0^∞ p(x) x^α e^{-x} dx` times `gamma(α+1)/Γ(α+1)`, the relative error of the
crate's gamma function, for every polynomial of degree at most `2n-1` and every valid `α`. -/
theorem C33_exact {ext : Externals ℝ} (hext : ExactSolver ext) {n : ℕ} (hn : 0 < n) {α : FiniteAboveNegOne ℝ}
    (hα : -1 < α.get) (a b : ℝ) :
    ∃ r : LaguerreRule ℝ, GaussLaguerre.new ext n α = some r ∧ ∀ p : ℝ[X], p.natDegree ≤ 2 * n - 1 →
      (AnyRule.laguerre r).value a b (fun x => p.eval x) =
        gamma (α.get + 1) / Real.Gamma (α.get + 1) * ∫ x in Set.Ioi (0 : ℝ), p.eval x * (x ^ α.get * Real.exp (-x)) := by
  obtain ⟨r, h1, -, h2⟩ := laguerre_gauss hext hn α hα
  refine ⟨r, h1, fun p hp => ?_⟩
  rw [value_real]
  exact h2.exact' p (by rwa [h2.length])

example : ∃ ext : Externals ℝ, ExactSolver ext ∧ ∃ r : LaguerreRule ℝ, GaussLaguerre.new ext 2 ⟨-1 / 2⟩ = some r ∧
    (AnyRule.laguerre r).value 0 0 (fun x => x ^ 3) = gamma (-1 / 2 + 1 : ℝ) / Real.Gamma (-1 / 2 + 1) *
      ∫ x in Set.Ioi (0 : ℝ), x ^ 3 * (x ^ (-1 / 2 : ℝ) * Real.exp (-x)) := by
  refine ⟨_, exactSolver_exists, ?_⟩
  obtain ⟨r, h1, h2⟩ := C33_exact exactSolver_exists (n := 2) (by norm_num) (α := ⟨-1 / 2⟩) (by norm_num) 0 0
  exact ⟨r, h1, by have := h2 (X ^ 3) (by simp); simp only [Polynomial.eval_pow, Polynomial.eval_X] at this; exact this⟩

/-! ## the Jacobi constructor -/

/-- the parameter pairs for which `GaussJacobi::new` delegates to another rule -/
def Delegated (α β : ℝ) : Prop := (α = 0 ∧ β = 0) ∨ (α = -1 / 2 ∧ β = -1 / 2) ∨ (α = 1 / 2 ∧ β = 1 / 2)

theorem jacobi_new_general (mode : Overflow) (ext : Externals ℝ) {n : ℕ} (hn : n ≠ 1) {α β : FiniteAboveNegOne ℝ}
    (h : ¬ Delegated α.get β.get) : GaussJacobi.new mode ext n α β = GaussJacobi.newGeneral ext n α β := by
  unfold Delegated at h
  push Not at h
  obtain ⟨h1, h2, h3⟩ := h
  have e : (lit (-0.5) : ℝ) = -1 / 2 := by simp; norm_num
  unfold GaussJacobi.new
  simp only [real_feq, real_lit_zero, real_lit_half, e, Bool.and_eq_true, decide_eq_true_eq, hn, if_false]
  rw [if_neg (fun h => h1 h.1 h.2), if_neg (fun h => h2 h.1 h.2), if_neg (fun h => h3 h.1 h.2)]

theorem jacobi_new_one (mode : Overflow) (ext : Externals ℝ) {α β : FiniteAboveNegOne ℝ} (h : ¬ Delegated α.get β.get) :
    GaussJacobi.new mode ext 1 α β = 
      some { nodeWeightPairs := [(GaussJacobi.nodeOne α.get β.get, GaussJacobi.weightOne α.get β.get)]
             alpha := α
             beta := β } := by
  unfold Delegated at h
  push Not at h
  obtain ⟨h1, h2, h3⟩ := h
  have e : (lit (-0.5) : ℝ) = -1 / 2 := by simp; norm_num
  unfold GaussJacobi.new
  simp only [real_feq, real_lit_zero, real_lit_half, e, Bool.and_eq_true, decide_eq_true_eq, if_true]
  rw [if_neg (fun h => h1 h.1 h.2), if_neg (fun h => h2 h.1 h.2), if_neg (fun h => h3 h.1 h.2)]

/-- the general branch: the stored pairs are the Gauss rule `L` of the weight, with the middle node overwritten at odd degrees -/
theorem jacobi_general {ext : Externals ℝ} (hext : ExactSolver ext) {n : ℕ} (hn : 0 < n) {α β : FiniteAboveNegOne ℝ}
    (hα : -1 < α.get) (hβ : -1 < β.get) (hs : α.get + β.get ≠ -1) :
    ∃ (r : JacobiRule ℝ) (L : List (ℝ × ℝ)), GaussJacobi.newGeneral ext n α β = some r ∧
      IsGauss L n (Set.Ioo (-1) 1) (jacW α.get β.get) (jacobiFactor α.get β.get) ∧
      r.nodeWeightPairs.map (·.2) = L.map (·.2) ∧ (n % 2 = 0 → r.nodeWeightPairs = L) ∧
      (n % 2 = 1 → ∃ h : n / 2 < L.length, r.nodeWeightPairs = L.set (n / 2) (0, (L[n / 2]).2)) ∧ r.alpha = α ∧ r.beta = β := by
  obtain ⟨L, h1, h2⟩ := jacobi_golub hext hn hα hβ hs
  have hlen := h2.length
  have hlt : n / 2 < L.length := by omega
  rcases Nat.mod_two_eq_zero_or_one n with h | h
  · refine ⟨{ nodeWeightPairs := L, alpha := α, beta := β }, L, ?_, h2, rfl, fun _ => rfl, fun h' => by omega, rfl, rfl⟩
    have h4 : GaussJacobi.fixMiddle n L = some L := by simp [GaussJacobi.fixMiddle, h]
    simp [GaussJacobi.newGeneral, h1, h4]
  · refine ⟨{ nodeWeightPairs := L.set (n / 2) (0, (L[n / 2]).2), alpha := α, beta := β }, L, ?_, h2, ?_, fun h' => by omega,
      fun _ => ⟨hlt, rfl⟩, rfl, rfl⟩
    · have h4 : GaussJacobi.fixMiddle n L = some (L.set (n / 2) (0, (L[n / 2]).2)) := by
        simp only [GaussJacobi.fixMiddle, h, real_lit_zero]
        simp [hlt]
      simp [GaussJacobi.newGeneral, h1, h4]
    · show List.map _ (L.set _ _) = _
      rw [List.map_set]
      apply List.ext_getElem?
      intro i
      rw [List.getElem?_set]
      split
      · rename_i h; subst h; simp [hlt]
      · rfl

/-! ## C34 -/

/-- what C34 asserts about a Jacobi rule, with the relative error `c` of the gamma function factored out -/
def JacobiExact (r : JacobiRule ℝ) (n : ℕ) (α β c : ℝ) : Prop :=
  ∀ p : ℝ[X], p.natDegree ≤ 2 * n - 1 → ∀ a b : ℝ, a ≠ b →
    (AnyRule.jacobi r).value a b (fun x => p.eval x) =
      c * ∫ t in a..b, p.eval t * ((1 - (2 * t - a - b) / (b - a)) ^ α * (1 + (2 * t - a - b) / (b - a)) ^ β)

theorem jacobiExact_of {r : JacobiRule ℝ} {n : ℕ} {α β c : ℝ}
    (h : ExactUpTo r.nodeWeightPairs (2 * n - 1) (Set.Ioo (-1) 1) (jacW α β) c) : JacobiExact r n α β c := by
  intro p hp a b hab
  rw [value_real]
  exact exact_interval h hab hp

/-- C34 at even degrees (general branch): exact up to the gamma factor, on `[-1,1]` and every other interval. -/
theorem C34_even {ext : Externals ℝ} (hext : ExactSolver ext) (mode : Overflow) {n : ℕ} (hn : 0 < n) (heven : n % 2 = 0)
    {α β : FiniteAboveNegOne ℝ} (hα : -1 < α.get) (hβ : -1 < β.get) (hs : α.get + β.get ≠ -1) (hd : ¬ Delegated α.get β.get) :
    ∃ r, GaussJacobi.new mode ext n α β = some r ∧ JacobiExact r n α.get β.get (jacobiFactor α.get β.get) := by
  obtain ⟨r, L, h1, h2, -, h3, -⟩ := jacobi_general hext hn hα hβ hs
  rw [jacobi_new_general mode ext (by omega) hd]
  refine ⟨r, h1, jacobiExact_of ?_⟩
  rw [h3 heven, ← h2.length]; exact h2.exact'

/-- C34 at odd degrees for `α = β`: the overwritten node already was 0, so the rule is exact. -/
theorem C34_odd_symmetric {ext : Externals ℝ} (hext : ExactSolver ext) (mode : Overflow) {n : ℕ} (hn : 1 < n) (hodd : n % 2 = 1)
    {α : FiniteAboveNegOne ℝ} (hα : -1 < α.get) (hd : ¬ Delegated α.get α.get) :
    ∃ r, GaussJacobi.new mode ext n α α = some r ∧ JacobiExact r n α.get α.get (jacobiFactor α.get α.get) := by
  have hs : α.get + α.get ≠ -1 := by
    intro h; apply hd; right; left; constructor <;> linarith
  obtain ⟨r, L, h1, h2, -, -, h3, -⟩ := jacobi_general hext (by omega : 0 < n) hα hα hs
  rw [jacobi_new_general mode ext (by omega) hd]
  refine ⟨r, h1, jacobiExact_of ?_⟩
  obtain ⟨hlt, h4⟩ := h3 hodd
  have hm := h2.middle (jacobiFactor_pos hα hα hs) (posDef_jacobi hα hα) (jacobi_reflect _ _) hodd hlt
  have e : (0, (L[n / 2]).2) = L[n / 2] := by rw [← hm]
  rw [h4, e, List.set_getElem_self, ← h2.length]
  exact h2.exact'

example : ∃ ext : Externals ℝ, ExactSolver ext ∧ ∃ r, GaussJacobi.new .checked ext 5 ⟨1⟩ ⟨1⟩ = some r ∧ JacobiExact r 5 1 1 (jacobiFactor 1 1) :=
  ⟨_, exactSolver_exists, C34_odd_symmetric exactSolver_exists .checked (by norm_num) (by norm_num) (α := ⟨1⟩) (by norm_num)
    (by rintro (⟨h, -⟩ | ⟨h, -⟩ | ⟨h, -⟩) <;> norm_num at h)⟩

/-- C34 at degree 1, including the pairs with `α + β = -1`. -/
theorem C34_one (mode : Overflow) (ext : Externals ℝ) {α β : FiniteAboveNegOne ℝ} (hα : -1 < α.get) (hβ : -1 < β.get)
    (hd : ¬ Delegated α.get β.get) :
    ∃ r, GaussJacobi.new mode ext 1 α β = some r ∧ JacobiExact r 1 α.get β.get
      (gamma (α.get + 1) / Real.Gamma (α.get + 1) * (gamma (β.get + 1) / Real.Gamma (β.get + 1)) /
        (gamma (α.get + β.get + 2) / Real.Gamma (α.get + β.get + 2))) := by
  refine ⟨_, jacobi_new_one mode ext hd, jacobiExact_of ?_⟩
  set a := α.get
  set b := β.get
  set Λ := weightFunctional _ _ (integrable_jacobi hα hβ) with hΛ
  have hm : Λ 1 = 2 ^ (a + b + 1) * Real.Gamma (a + 1) * Real.Gamma (b + 1) / Real.Gamma (a + b + 2) := by
    rw [← jacobi_mass hα hβ, hΛ, weightFunctional_apply, weightIntegral]; simp
  have hx : (a + b + 2) * Λ X = (b - a) * Λ 1 := by
    have h := jacobi_pearson hα hβ 1
    rw [derivative_one, mul_zero, zero_add, mul_one, map_sub, ← smul_eq_C_mul, map_smul, smul_eq_mul] at h
    rw [show C (b - a) = (b - a) • (1 : ℝ[X]) by rw [smul_eq_C_mul, mul_one], map_smul, smul_eq_mul] at h
    rw [hΛ]; linarith
  have hne : a + b + 2 ≠ 0 := by linarith
  have hx' : Λ X = GaussJacobi.nodeOne a b * Λ 1 := by
    simp only [GaussJacobi.nodeOne, real_div, real_sub, real_add, real_lit_two]
    field_simp; linarith
  intro p hp
  have hp1 : p.natDegree ≤ 1 := hp
  have e : p = p.coeff 1 • X + p.coeff 0 • (1 : ℝ[X]) := by
    rw [smul_eq_C_mul, smul_eq_C_mul, mul_one]; exact eq_X_add_C_of_natDegree_le_one hp1
  have hΛp : weightIntegral (Set.Ioo (-1) 1) (jacW a b) p = (p.coeff 1 * GaussJacobi.nodeOne a b + p.coeff 0) * Λ 1 := by
    rw [← weightFunctional_apply (integrable_jacobi hα hβ), ← hΛ]
    conv_lhs => rw [e]
    rw [map_add, map_smul, map_smul, hx', smul_eq_mul, smul_eq_mul]; ring
  have hev : p.eval (GaussJacobi.nodeOne a b) = p.coeff 1 * GaussJacobi.nodeOne a b + p.coeff 0 := by
    conv_lhs => rw [e]
    simp
  rw [hΛp, hm]
  simp only [quad, List.map_cons, List.map_nil, List.sum_cons, List.sum_nil, add_zero, hev, GaussJacobi.weightOne, real_lit_two,
    real_lit_one, real_mul, real_add, real_div, real_pow]
  have h1 := (Real.Gamma_pos_of_pos (by linarith : 0 < a + 1)).ne'
  have h2 := (Real.Gamma_pos_of_pos (by linarith : 0 < b + 1)).ne'
  have h3 := (Real.Gamma_pos_of_pos (by linarith : 0 < a + b + 2)).ne'
  have h6 := (gamma_pos (x := a + b + 2) (by linarith)).ne'
  field_simp

example (ext : Externals ℝ) : ∃ r, GaussJacobi.new .checked ext 1 ⟨1⟩ ⟨0⟩ = some r ∧ ∃ c, JacobiExact r 1 1 0 c :=
  let ⟨r, h1, h2⟩ := C34_one .checked ext (α := ⟨1⟩) (β := ⟨0⟩) (by norm_num) (by norm_num)
    (by rintro (⟨h, -⟩ | ⟨h, -⟩ | ⟨h, -⟩) <;> norm_num at h)
  ⟨r, h1, _, h2⟩

/-- C34 for the two pairs that delegate to the Chebyshev rules: exact, without any gamma factor. -/
theorem C34_chebyshev (mode : Overflow) (ext : Externals ℝ) {n : ℕ} (hn : 0 < n) (hlt : n + 1 < 2 ^ 64) :
    (∃ r, GaussJacobi.new mode ext n ⟨-1 / 2⟩ ⟨-1 / 2⟩ = some r ∧ JacobiExact r n (-1 / 2) (-1 / 2) 1) ∧
    (∃ r, GaussJacobi.new mode ext n ⟨1 / 2⟩ ⟨1 / 2⟩ = some r ∧ JacobiExact r n (1 / 2) (1 / 2) 1) := by
  have e : (lit (-0.5) : ℝ) = -1 / 2 := by simp; norm_num
  have hw : ∀ x ∈ Set.Ioo (-1 : ℝ) 1, ∀ s : ℝ, jacW s s x = (1 - x ^ 2) ^ s := by
    intro x hx s
    rw [jacW, ← Real.mul_rpow (by linarith [hx.2]) (by linarith [hx.1])]
    congr 1; ring
  have hcongr : ∀ {L : List (ℝ × ℝ)} {d : ℕ} {w w' : ℝ → ℝ}, (∀ x ∈ Set.Ioo (-1 : ℝ) 1, w x = w' x) →
      ExactUpTo L d (Set.Ioo (-1) 1) w 1 → ExactUpTo L d (Set.Ioo (-1) 1) w' 1 := by
    intro L d w w' h hex p hp
    rw [hex p hp, weightIntegral, weightIntegral]
    congr 1
    apply setIntegral_congr_fun measurableSet_Ioo
    intro x hx
    simp only [h x hx]
  constructor
  · refine ⟨GaussJacobi.ofChebyshevFirstKind ⟨pairs1 n⟩, ?_, jacobiExact_of ?_⟩
    · unfold GaussJacobi.new
      simp only [real_feq, real_lit_zero, e]
      rw [if_neg (by norm_num), if_pos (by norm_num), cheb1_new_eq hlt]; rfl
    · refine hcongr ?_ (cheb1_exact hn)
      intro x hx
      rw [hw x hx, chebW1, Real.sqrt_eq_rpow, show (-1 / 2 : ℝ) = -(1 / 2) by norm_num,
        Real.rpow_neg (by nlinarith [hx.1, hx.2]), one_div]
  · refine ⟨GaussJacobi.ofChebyshevSecondKind ⟨pairs2 n⟩, ?_, jacobiExact_of ?_⟩
    · unfold GaussJacobi.new
      simp only [real_feq, real_lit_zero, real_lit_half, e]
      rw [if_neg (by norm_num), if_neg (by norm_num), if_pos (by norm_num), cheb2_new_eq hlt]; rfl
    · refine hcongr ?_ (cheb2_exact hn)
      intro x hx
      rw [hw x hx, chebW2, Real.sqrt_eq_rpow]

example (ext : Externals ℝ) : ∃ r, GaussJacobi.new .checked ext 7 ⟨1 / 2⟩ ⟨1 / 2⟩ = some r ∧ JacobiExact r 7 (1 / 2) (1 / 2) 1 :=
  (C34_chebyshev .checked ext (by norm_num) (by norm_num)).2

/-- the middle node of the true Gauss-Jacobi rule of odd degree is not 0 if `α ≠ β` -/
theorem jacobi_middle_ne {ext : Externals ℝ} (hext : ExactSolver ext) {L : List (ℝ × ℝ)} {n : ℕ} {α β c : ℝ}
    (hα : -1 < α) (hβ : -1 < β) (hne : α ≠ β) (hc : 0 < c) (h : IsGauss L n (Set.Ioo (-1) 1) (jacW α β) c) (hodd : n % 2 = 1)
    (hlt : n / 2 < L.length) : (α < β → 0 < (L[n / 2]).1) ∧ (β < α → (L[n / 2]).1 < 0) := by
  have hn : 0 < n := by omega
  -- compare with the symmetric weight of exponent `γ` between `α` and `β`, `2γ ≠ -1`
  have key : ∀ γ : ℝ, -1 < γ → γ + γ ≠ -1 → ∃ L', IsGauss L' n (Set.Ioo (-1) 1) (jacW γ γ) (jacobiFactor γ γ) ∧
      ∃ h : n / 2 < L'.length, (L'[n / 2]).1 = 0 := by
    intro γ hγ hs
    obtain ⟨L', -, h'⟩ := jacobi_golub hext hn hγ hγ hs
    have hlt' : n / 2 < L'.length := by rw [h'.length]; omega
    exact ⟨L', h', hlt', h'.middle (jacobiFactor_pos hγ hγ hs) (posDef_jacobi hγ hγ) (jacobi_reflect _ _) hodd hlt'⟩
  have hmid : ∃ γ : ℝ, min α β ≤ γ ∧ γ ≤ max α β ∧ γ + γ ≠ -1 := by
    by_cases h1 : α + α = -1
    · exact ⟨β, min_le_right _ _, le_max_right _ _, fun h2 => hne (by linarith)⟩
    · exact ⟨α, min_le_left _ _, le_max_left _ _, h1⟩
  obtain ⟨γ, hg1, hg2, hg3⟩ := hmid
  have hγ : -1 < γ := lt_of_lt_of_le (lt_min hα hβ) hg1
  obtain ⟨L', h', hlt', h0⟩ := key γ hγ hg3
  constructor
  · intro hab
    rw [min_eq_left hab.le] at hg1
    rw [max_eq_right hab.le] at hg2
    rw [← h0]
    exact jacobi_markov hα hβ hγ hγ hg1 hg2 (by
      intro h; rw [Prod.mk.injEq] at h; exact hne (h.1.trans h.2.symm)) hc (jacobiFactor_pos hγ hγ hg3) h h' hlt hlt'
  · intro hab
    rw [min_eq_right hab.le] at hg1
    rw [max_eq_left hab.le] at hg2
    rw [← h0]
    exact jacobi_markov hγ hγ hα hβ hg2 hg1 (by
      intro h; rw [Prod.mk.injEq] at h; exact hne (h.1.symm.trans h.2)) (jacobiFactor_pos hγ hγ hg3) hc h' h hlt' hlt

/-- C34 is false at every odd degree `n ≥ 3` with `α ≠ β`: the overwritten middle node makes the rule inexact already on
`[-1,1]`; no constant factor `c` (in particular not the gamma factor) makes it exact up to degree `2n-1`. -/
theorem C34_odd_refuted {ext : Externals ℝ} (hext : ExactSolver ext) (mode : Overflow) {n : ℕ} (hn : 1 < n) (hodd : n % 2 = 1)
    {α β : FiniteAboveNegOne ℝ} (hα : -1 < α.get) (hβ : -1 < β.get) (hne : α.get ≠ β.get) (hs : α.get + β.get ≠ -1) :
    ∃ r, GaussJacobi.new mode ext n α β = some r ∧ ∀ c : ℝ, ¬ ∀ p : ℝ[X], p.natDegree ≤ 2 * n - 1 →
      (AnyRule.jacobi r).value (-1) 1 (fun x => p.eval x) = c * ∫ x in (-1 : ℝ)..1, p.eval x * ((1 - x) ^ α.get * (1 + x) ^ β.get) := by
  have hd : ¬ Delegated α.get β.get := by
    rintro (⟨h1, h2⟩ | ⟨h1, h2⟩ | ⟨h1, h2⟩) <;> exact hne (h1.trans h2.symm)
  obtain ⟨r, L, h1, h2, hw, -, h3, -⟩ := jacobi_general hext (by omega : 0 < n) hα hβ hs
  rw [jacobi_new_general mode ext (by omega) hd]
  refine ⟨r, h1, ?_⟩
  intro c hcon
  obtain ⟨hlt, h4⟩ := h3 hodd
  have hfac := jacobiFactor_pos hα hβ hs
  have hpd := posDef_jacobi hα hβ
  have hlen : r.nodeWeightPairs.length = L.length := by rw [h4, List.length_set]
  have hex : ExactUpTo r.nodeWeightPairs (2 * L.length - 1) (Set.Ioo (-1) 1) (jacW α.get β.get) c := by
    intro p hp
    have := hcon p (by rwa [h2.length] at hp)
    rw [value_gauss_quad rfl] at this
    norm_num at this
    rw [this, weightIntegral, setIntegral_Ioo_eq_interval (by norm_num)]
    rfl
  have hc : 0 < c := by
    have m1 := hex 1 (by simp)
    have m2 := h2.exact' 1 (by simp)
    have m3 : quad r.nodeWeightPairs (fun x => eval x 1) = quad L (fun x => eval x 1) := by
      simp only [quad, eval_one, mul_one]
      exact congrArg List.sum hw
    have m4 := hpd 1 one_ne_zero (fun x _ => by simp)
    rw [m3, m2] at m1
    have := mul_right_cancel₀ m4.ne' m1
    rw [← this]; exact hfac
  have hperm := gauss_nodes_unique hfac hc hlen h2.exact' hex hpd
  -- sums of the nodes differ by the middle node
  have hsum : (L.map Prod.fst).sum = (r.nodeWeightPairs.map Prod.fst).sum := hperm.sum_eq
  rw [h4, List.map_set, List.sum_set] at hsum
  simp only [List.length_map, hlt, if_true, add_zero] at hsum
  have hsplit : (L.map Prod.fst).sum = ((L.map Prod.fst).take (n / 2)).sum + (L[n / 2]).1 + ((L.map Prod.fst).drop (n / 2 + 1)).sum := by
    conv_lhs => rw [← List.take_append_drop (n / 2) (L.map Prod.fst), List.sum_append]
    rw [List.drop_eq_getElem_cons (by simpa using hlt), List.sum_cons, List.getElem_map]; ring
  rw [hsplit] at hsum
  have hzero : (L[n / 2]).1 = 0 := by linarith
  obtain ⟨g1, g2⟩ := jacobi_middle_ne hext hα hβ hne hfac h2 hodd hlt
  rcases lt_or_gt_of_ne hne with h | h
  · exact absurd hzero (g1 h).ne'
  · exact absurd hzero (g2 h).ne

/-- the refutation applies to the simplest case: degree 3, `α = 1`, `β = 0` -/
example : ∃ ext : Externals ℝ, ExactSolver ext ∧ ∃ r, GaussJacobi.new .checked ext 3 ⟨1⟩ ⟨0⟩ = some r ∧
    ∃ p : ℝ[X], p.natDegree ≤ 5 ∧ (AnyRule.jacobi r).value (-1) 1 (fun x => p.eval x) ≠
      jacobiFactor 1 0 * ∫ x in (-1 : ℝ)..1, p.eval x * ((1 - x) ^ (1 : ℝ) * (1 + x) ^ (0 : ℝ)) := by
  refine ⟨_, exactSolver_exists, ?_⟩
  obtain ⟨r, h1, h2⟩ := C34_odd_refuted exactSolver_exists .checked (n := 3) (by norm_num) (by norm_num) (α := ⟨1⟩) (β := ⟨0⟩)
    (by norm_num) (by norm_num) (by norm_num) (by norm_num)
  have := h2 (jacobiFactor 1 0)
  push Not at this
  exact ⟨r, h1, this⟩

example : ∃ ext : Externals ℝ, ExactSolver ext ∧ ∃ r, GaussJacobi.new .checked ext 4 ⟨1⟩ ⟨0⟩ = some r ∧
    JacobiExact r 4 1 0 (jacobiFactor 1 0) :=
  ⟨_, exactSolver_exists, C34_even exactSolver_exists .checked (by norm_num) (by norm_num) (by norm_num) (by norm_num)
    (by norm_num) (by rintro (⟨h, -⟩ | ⟨h, -⟩ | ⟨h, -⟩) <;> norm_num at h)⟩

/-! ## C12, odd Jacobi degrees -/

/-- a node of a Gauss rule is a root of the orthogonal polynomial -/
theorem gauss_node_root {L : List (ℝ × ℝ)} {S : Set ℝ} {w : ℝ → ℝ} {c : ℝ} (hc : 0 < c)
    (hex : ExactUpTo L (2 * L.length - 1) S w c) (hpos : PosDef S w) {P : ℝ[X]} (hP : P.natDegree ≤ L.length)
    (horth : ∀ q : ℝ[X], q.degree < L.length → weightIntegral S w (q * P) = 0) : ∀ p ∈ L, P.eval p.1 = 0 := by
  intro p hp
  obtain ⟨i, hi⟩ := List.get_of_mem hp
  have hn : 0 < L.length := lt_of_le_of_lt (Nat.zero_le _) i.2
  have h1 := hex (others L i * P) (natDegree_mul_le.trans (by rw [others_natDegree]; omega))
  rw [horth (others L i) (by
    rw [degree_eq_natDegree (others_monic i).ne_zero, others_natDegree]
    exact_mod_cast (by omega : L.length - 1 < L.length)), mul_zero, quad_fin, Finset.sum_eq_single i] at h1
  · obtain ⟨g1, g2⟩ := gauss_local hc hex hpos i
    rw [eval_mul, hi] at h1
    rw [hi] at g1 g2
    rcases mul_eq_zero.1 h1 with h | h
    · exact absurd h g1.ne'
    · rcases mul_eq_zero.1 h with h | h
      · exact absurd h g2
      · exact h
  · intro k _ hk
    rw [eval_mul, others_eval i k hk]; simp
  · intro h; exact absurd (Finset.mem_univ i) h

/-- C12 is false for odd Jacobi degrees: for degree 3, `α = 20`, `β = 0` (and any exact eigen-solver) all true nodes are
negative, so the overwritten middle node is larger than the last node. -/
theorem C12_jacobi_odd_refuted {ext : Externals ℝ} (hext : ExactSolver ext) (mode : Overflow) :
    ∃ r, GaussJacobi.new mode ext 3 ⟨20⟩ ⟨0⟩ = some r ∧ ¬ SortedByNode r.asNodeWeightPairs := by
  have hα : (-1 : ℝ) < 20 := by norm_num
  have hβ : (-1 : ℝ) < 0 := by norm_num
  have hs : (20 : ℝ) + 0 ≠ -1 := by norm_num
  have hd : ¬ Delegated (20 : ℝ) 0 := by rintro (⟨h, -⟩ | ⟨h, -⟩ | ⟨h, -⟩) <;> norm_num at h
  obtain ⟨r, L, h1, h2, -, -, h3, -⟩ := jacobi_general hext (n := 3) (by norm_num) (α := ⟨20⟩) (β := ⟨0⟩) hα hβ hs
  rw [jacobi_new_general mode ext (by norm_num) hd]
  refine ⟨r, h1, ?_⟩
  obtain ⟨hlt, h4⟩ := h3 (by norm_num)
  have hlen := h2.length
  intro hsorted
  have hfac := jacobiFactor_pos hα hβ hs
  have hroot := gauss_node_root (P := monicSeq (jacA 20 0) (jacB 20 0) 3) hfac h2.exact' (posDef_jacobi hα hβ)
    (by rw [(monicSeq_degree _ _ 3).2, hlen]) (by
      intro q hq
      rw [hlen] at hq
      exact functional_orthogonal' (jacobi_orthogonal hα hβ hs) hq)
  have hlast := hroot (L[2]) (List.getElem_mem _)
  have hs2 : SortedByNode (L.set 1 (0, (L[1]).2)) := by
    have := hsorted
    rw [JacobiRule.toRule, Rule.asNodeWeightPairs] at this
    rw [h4] at this
    exact this
  have hle := List.pairwise_iff_getElem.1 hs2 1 2 (by simp [hlen]) (by simp [hlen]) (by norm_num)
  simp only [List.getElem_set_self, real_totalLe, decide_eq_true_eq] at hle
  rw [List.getElem_set_ne (by norm_num)] at hle
  set x := (L[2]).1 with hx
  have b0 := jacB_sq hα hβ hs 0
  have b1 := jacB_sq hα hβ hs 1
  norm_num at b0 b1
  have a0 : jacA 20 0 0 = -(10 / 11) := by rw [jacA, if_pos rfl]; norm_num
  have a1 : jacA 20 0 1 = -(25 / 33) := by rw [jacA, if_neg (by norm_num)]; norm_num
  have a2 : jacA 20 0 2 = -(25 / 39) := by rw [jacA, if_neg (by norm_num)]; norm_num
  simp only [monicSeq, eval_sub, eval_mul, eval_X, eval_C, mul_one, zero_add] at hlast
  rw [a0, show (1 + 1 : ℕ) = 2 from rfl, a1, a2, b0, b1] at hlast
  nlinarith [mul_nonneg hle hle, mul_nonneg hle (mul_nonneg hle hle)]

example : ∃ ext : Externals ℝ, ∃ r, GaussJacobi.new .checked ext 3 ⟨20⟩ ⟨0⟩ = some r ∧ ¬ SortedByNode r.asNodeWeightPairs :=
  ⟨_, C12_jacobi_odd_refuted exactSolver_exists .checked⟩

/-! ## C44 -/

/-- C44: positive weights and distinct nodes, in the open support: all of `ℝ` for Hermite, `(0, ∞)` for Laguerre, `(-1, 1)` for
Jacobi (general branch, before the odd-degree overwrite). -/
theorem C44_nodes_weights {ext : Externals ℝ} (hext : ExactSolver ext) {n : ℕ} (hn : 0 < n) :
    (∃ r, GaussHermite.new ext n = some r ∧ (∀ p ∈ r.asNodeWeightPairs, 0 < p.2) ∧
      (r.asNodeWeightPairs.map (·.1)).Pairwise (· < ·)) ∧
    (∀ α : FiniteAboveNegOne ℝ, -1 < α.get → ∃ r, GaussLaguerre.new ext n α = some r ∧
      (∀ p ∈ r.asNodeWeightPairs, 0 < p.2 ∧ 0 < p.1) ∧ (r.asNodeWeightPairs.map (·.1)).Pairwise (· < ·)) ∧
    (∀ α β : ℝ, -1 < α → -1 < β → α + β ≠ -1 → ∃ L : List (ℝ × ℝ),
      golubWelsch ext n (GaussJacobi.diag α β) (GaussJacobi.offDiag α β) (GaussJacobi.weightScale α β) = some L ∧
      (∀ p ∈ L, 0 < p.2 ∧ -1 < p.1 ∧ p.1 < 1) ∧ (L.map (·.1)).Pairwise (· < ·)) := by
  refine ⟨?_, fun α hα => ?_, fun α β hα hβ hs => ?_⟩
  · obtain ⟨r, h1, h2⟩ := hermite_gauss hext hn
    exact ⟨r, h1, gauss_weights_pos one_pos h2.exact' posDef_hermite, h2.strict one_pos posDef_hermite⟩
  · obtain ⟨r, h1, -, h2⟩ := laguerre_gauss hext hn α hα
    have hc := laguerre_factor_pos hα
    exact ⟨r, h1, fun p hp => ⟨gauss_weights_pos hc h2.exact' (posDef_laguerre hα) p hp,
      gauss_nodes_gt hc h2.exact' (posDef_laguerre hα) (fun x hx => (show (0 : ℝ) < x from hx).le) p hp⟩,
      h2.strict hc (posDef_laguerre hα)⟩
  · obtain ⟨L, h1, h2⟩ := jacobi_golub hext hn hα hβ hs
    have hc := jacobiFactor_pos hα hβ hs
    exact ⟨L, h1, fun p hp => ⟨gauss_weights_pos hc h2.exact' (posDef_jacobi hα hβ) p hp, jacobi_nodes hα hβ h2 hc p hp⟩,
      h2.strict hc (posDef_jacobi hα hβ)⟩

example : ∃ ext : Externals ℝ, ExactSolver ext ∧ ∃ r, GaussLaguerre.new ext 6 ⟨-1 / 2⟩ = some r ∧
    (∀ p ∈ r.asNodeWeightPairs, 0 < p.2 ∧ 0 < p.1) ∧ (r.asNodeWeightPairs.map (·.1)).Pairwise (· < ·) :=
  ⟨_, exactSolver_exists, (C44_nodes_weights exactSolver_exists (by norm_num)).2.1 ⟨-1 / 2⟩ (by norm_num)⟩

/-! ## what survives the overwrite -/

/-- every stored Jacobi pair, overwritten or not, has a positive weight and a node in `(-1, 1)` -/
theorem jacobi_stored {ext : Externals ℝ} (hext : ExactSolver ext) {n : ℕ} (hn : 0 < n) {α β : FiniteAboveNegOne ℝ}
    (hα : -1 < α.get) (hβ : -1 < β.get) (hs : α.get + β.get ≠ -1) :
    ∃ r, GaussJacobi.newGeneral ext n α β = some r ∧ (∀ p ∈ r.nodeWeightPairs, 0 < p.2 ∧ -1 < p.1 ∧ p.1 < 1) ∧
      (r.nodeWeightPairs.map (·.2)).sum = GaussJacobi.weightScale α.get β.get := by
  obtain ⟨r, L, h1, h2, hw, he, ho, -⟩ := jacobi_general hext hn hα hβ hs
  have hc := jacobiFactor_pos hα hβ hs
  have hL : ∀ p ∈ L, 0 < p.2 ∧ -1 < p.1 ∧ p.1 < 1 := fun p hp =>
    ⟨gauss_weights_pos hc h2.exact' (posDef_jacobi hα hβ) p hp, jacobi_nodes hα hβ h2 hc p hp⟩
  refine ⟨r, h1, ?_, ?_⟩
  · rcases Nat.mod_two_eq_zero_or_one n with h | h
    · rw [he h]; exact hL
    · obtain ⟨hlt, h4⟩ := ho h
      rw [h4]
      intro p hp
      rcases List.mem_or_eq_of_mem_set hp with h' | h'
      · exact hL p h'
      · rw [h']
        exact ⟨(hL _ (List.getElem_mem _)).1, by norm_num, by norm_num⟩
  · have hm := gauss_mass h2.exact'
    rw [hw, ← weightScale_eq hα hβ hs, div_mul_cancel₀] at *
    · exact hm
    · have := posDef_jacobi hα hβ 1 one_ne_zero (fun x _ => by simp)
      simp only [weightIntegral, eval_one, one_mul] at this
      exact this.ne'

/-! ## C23 -/

/-- C23 for Laguerre (positive points only) and for the general branch of Jacobi (strictly inside `(a, b)`, also with the
overwritten node). -/
theorem C23_golub_welsch {ext : Externals ℝ} (hext : ExactSolver ext) {n : ℕ} (hn : 0 < n) {α β : FiniteAboveNegOne ℝ}
    (hα : -1 < α.get) (hβ : -1 < β.get) (hs : α.get + β.get ≠ -1) {a b : ℝ} (hab : a < b) :
    (∃ r, GaussLaguerre.new ext n α = some r ∧ ∀ x ∈ points a b (.laguerre r), 0 < x) ∧
    (∃ r, GaussJacobi.newGeneral ext n α β = some r ∧ ∀ x ∈ points a b (.jacobi r), a < x ∧ x < b) := by
  constructor
  · obtain ⟨r, h1, h2, -⟩ := (C44_nodes_weights hext hn).2.1 α hα
    refine ⟨r, h1, fun x hx => ?_⟩
    simp only [points, List.mem_map] at hx
    obtain ⟨p, hp, rfl⟩ := hx
    exact (h2 p hp).2
  · obtain ⟨r, h1, h2, -⟩ := jacobi_stored hext hn hα hβ hs
    exact ⟨r, h1, points_inside rfl (fun p hp => (h2 p hp).2) hab⟩

example : ∃ ext : Externals ℝ, ExactSolver ext ∧ ∃ r, GaussJacobi.newGeneral ext 6 ⟨2⟩ ⟨-1 / 2⟩ = some r ∧
    ∀ x ∈ points 3 4 (.jacobi r), 3 < x ∧ x < 4 :=
  ⟨_, exactSolver_exists, (C23_golub_welsch exactSolver_exists (by norm_num) (by norm_num) (by norm_num) (by norm_num) (by norm_num)).2⟩

/-! ## C43 -/

/-- C43 for the Golub-Welsch rules: the weights sum to `√π`, to the crate's `gamma(α+1)` and to the crate's Jacobi scale factor
(also at odd degrees). -/
theorem C43_golub_welsch {ext : Externals ℝ} (hext : ExactSolver ext) {n : ℕ} (hn : 0 < n) :
    (∃ r, GaussHermite.new ext n = some r ∧ (r.asNodeWeightPairs.map (·.2)).sum = Real.sqrt Real.pi ∧
      (r.asNodeWeightPairs.map (·.2)).sum = ∫ x : ℝ, Real.exp (-x ^ 2)) ∧
    (∀ α : FiniteAboveNegOne ℝ, -1 < α.get → ∃ r, GaussLaguerre.new ext n α = some r ∧
      (r.asNodeWeightPairs.map (·.2)).sum = gamma (α.get + 1)) ∧
    (∀ α β : FiniteAboveNegOne ℝ, -1 < α.get → -1 < β.get → α.get + β.get ≠ -1 → ∃ r, GaussJacobi.newGeneral ext n α β = some r ∧
      (r.asNodeWeightPairs.map (·.2)).sum = jacobiFactor α.get β.get * ∫ x in (-1 : ℝ)..1, (1 - x) ^ α.get * (1 + x) ^ β.get) := by
  refine ⟨?_, fun α hα => ?_, fun α β hα hβ hs => ?_⟩
  · obtain ⟨r, h1, h2⟩ := hermite_gauss hext hn
    have hm := gauss_mass h2.exact'
    rw [one_mul] at hm
    refine ⟨r, h1, hm.trans hermite_mass, ?_⟩
    rw [setIntegral_univ] at hm
    exact hm
  · obtain ⟨r, h1, -, h2⟩ := laguerre_gauss hext hn α hα
    have hm := gauss_mass h2.exact'
    rw [laguerre_mass hα, div_mul_cancel₀ _ (Real.Gamma_pos_of_pos (by linarith)).ne'] at hm
    exact ⟨r, h1, hm⟩
  · obtain ⟨r, h1, -, h3⟩ := jacobi_stored hext hn hα hβ hs
    refine ⟨r, h1, ?_⟩
    have e := weightScale_eq hα hβ hs
    rw [setIntegral_Ioo_eq_interval (by norm_num)] at e
    have hne : ∫ x in (-1 : ℝ)..1, jacW α.get β.get x ≠ 0 := by
      intro h0
      have := jacobiFactor_pos hα hβ hs
      rw [← e, h0, div_zero] at this
      exact lt_irrefl _ this
    rw [← e]
    exact h3.trans (div_mul_cancel₀ _ hne).symm

example : ∃ ext : Externals ℝ, ExactSolver ext ∧ ∃ r, GaussHermite.new ext 11 = some r ∧ (r.asNodeWeightPairs.map (·.2)).sum = Real.sqrt Real.pi :=
  let ⟨r, h1, h2, _⟩ := (C43_golub_welsch exactSolver_exists (n := 11) (by norm_num)).1
  ⟨_, exactSolver_exists, r, h1, h2⟩

/-! ## C19 -/

/-- C19 for the Golub-Welsch rules. -/
theorem C19_golub_welsch {ext : Externals ℝ} (hext : ExactSolver ext) {n : ℕ} (hn : 0 < n) {α β : FiniteAboveNegOne ℝ}
    (hα : -1 < α.get) (hβ : -1 < β.get) (hs : α.get + β.get ≠ -1) {a b lo hi : ℝ} (hab : a ≤ b) :
    (∃ r, GaussHermite.new ext n = some r ∧ ∀ f : ℝ → ℝ, (∀ x ∈ points a b (.hermite r), lo ≤ f x ∧ f x ≤ hi) →
      lo * Real.sqrt Real.pi ≤ (AnyRule.hermite r).value a b f ∧ (AnyRule.hermite r).value a b f ≤ hi * Real.sqrt Real.pi) ∧
    (∃ r, GaussLaguerre.new ext n α = some r ∧ ∀ f : ℝ → ℝ, (∀ x ∈ points a b (.laguerre r), lo ≤ f x ∧ f x ≤ hi) →
      lo * gamma (α.get + 1) ≤ (AnyRule.laguerre r).value a b f ∧ (AnyRule.laguerre r).value a b f ≤ hi * gamma (α.get + 1)) ∧
    (∃ r, GaussJacobi.newGeneral ext n α β = some r ∧ ∀ f : ℝ → ℝ, (∀ x ∈ points a b (.jacobi r), lo ≤ f x ∧ f x ≤ hi) →
      lo * ((b - a) / 2 * GaussJacobi.weightScale α.get β.get) ≤ (AnyRule.jacobi r).value a b f ∧
        (AnyRule.jacobi r).value a b f ≤ hi * ((b - a) / 2 * GaussJacobi.weightScale α.get β.get)) := by
  refine ⟨?_, ?_, ?_⟩
  · obtain ⟨r, h1, h2⟩ := hermite_gauss hext hn
    refine ⟨r, h1, fun f hf => ?_⟩
    have hm := gauss_mass h2.exact'
    rw [one_mul, hermite_mass] at hm
    rw [value_real, ← hm]
    exact quad_bounds (fun p hp => (gauss_weights_pos one_pos h2.exact' posDef_hermite p hp).le)
      (fun p hp => hf _ (List.mem_map_of_mem hp))
  · obtain ⟨r, h1, -, h2⟩ := laguerre_gauss hext hn α hα
    refine ⟨r, h1, fun f hf => ?_⟩
    have hm := gauss_mass h2.exact'
    rw [laguerre_mass hα, div_mul_cancel₀ _ (Real.Gamma_pos_of_pos (by linarith)).ne'] at hm
    rw [value_real, ← hm]
    exact quad_bounds (fun p hp => (gauss_weights_pos (laguerre_factor_pos hα) h2.exact' (posDef_laguerre hα) p hp).le)
      (fun p hp => hf _ (List.mem_map_of_mem hp))
  · obtain ⟨r, h1, h2, h3⟩ := jacobi_stored hext hn hα hβ hs
    refine ⟨r, h1, fun f hf => ?_⟩
    rw [← h3]
    exact value_range rfl (fun p hp => (h2 p hp).1.le) hab hf

example : ∃ ext : Externals ℝ, ExactSolver ext ∧ ∃ r, GaussHermite.new ext 11 = some r ∧ (AnyRule.hermite r).value 0 0 Real.cos ≤ 1 * Real.sqrt Real.pi := by
  obtain ⟨r, h1, h2⟩ := (C19_golub_welsch exactSolver_exists (n := 11) (by norm_num) (α := ⟨0⟩) (β := ⟨0⟩) (a := 0) (b := 0) (lo := -1) (hi := 1)
    (by norm_num) (by norm_num) (by norm_num) le_rfl).1
  exact ⟨_, exactSolver_exists, r, h1, (h2 Real.cos fun x _ => ⟨Real.neg_one_le_cos x, Real.cos_le_one x⟩).2⟩

/-! ## C20 -/

/-- C20 for Gauss-Jacobi with `α = β`, every degree (general branch). -/
theorem C20_jacobi {ext : Externals ℝ} (hext : ExactSolver ext) {n : ℕ} (hn : 0 < n) {α : FiniteAboveNegOne ℝ} (hα : -1 < α.get)
    (hs : α.get + α.get ≠ -1) (a b : ℝ) (f : ℝ → ℝ) :
    ∃ r, GaussJacobi.newGeneral ext n α α = some r ∧
      (AnyRule.jacobi r).value b a f = -(AnyRule.jacobi r).value a b f := by
  obtain ⟨r, L, h1, h2, -, he, ho, -⟩ := jacobi_general hext hn hα hα hs
  have hc := jacobiFactor_pos hα hα hs
  have hL : r.nodeWeightPairs = L := by
    rcases Nat.mod_two_eq_zero_or_one n with h | h
    · exact he h
    · obtain ⟨hlt, h4⟩ := ho h
      have hm := h2.middle hc (posDef_jacobi hα hα) (jacobi_reflect _ _) h hlt
      have e : (0, (L[n / 2]).2) = L[n / 2] := by rw [← hm]
      rw [h4, e, List.set_getElem_self]
  refine ⟨r, h1, ?_⟩
  rw [value_gauss_quad rfl, value_gauss_quad rfl, hL]
  refine quad_swap ?_ a b f
  have := h2.reverse h2 hc (posDef_jacobi hα hα) (jacobi_reflect _ _)
  have h5 := List.reverse_perm (L.map fun p => (-p.1, p.2))
  rw [← this] at h5
  exact h5.symm

example : ∃ ext : Externals ℝ, ExactSolver ext ∧ ∃ r, GaussJacobi.newGeneral ext 5 ⟨1⟩ ⟨1⟩ = some r ∧
    (AnyRule.jacobi r).value 3 1 Real.exp = -(AnyRule.jacobi r).value 1 3 Real.exp :=
  ⟨_, exactSolver_exists, C20_jacobi exactSolver_exists (by norm_num) (by norm_num) (by norm_num) 1 3 Real.exp⟩

/-! ## C42 -/

/-- C42 for the Golub-Welsch rules: some polynomial of degree `2n` is integrated to 0 although its integral is positive. -/
theorem C42_golub_welsch {ext : Externals ℝ} (hext : ExactSolver ext) {n : ℕ} (hn : 0 < n) {α β : FiniteAboveNegOne ℝ}
    (hα : -1 < α.get) (hβ : -1 < β.get) :
    (∃ r, GaussHermite.new ext n = some r ∧ ∃ p : ℝ[X], p.natDegree = 2 * n ∧
      (AnyRule.hermite r).value 0 0 (fun x => p.eval x) = 0 ∧ 0 < ∫ x : ℝ, p.eval x * Real.exp (-x ^ 2)) ∧
    (∃ r, GaussLaguerre.new ext n α = some r ∧ ∃ p : ℝ[X], p.natDegree = 2 * n ∧
      (AnyRule.laguerre r).value 0 0 (fun x => p.eval x) = 0 ∧
      0 < ∫ x in Set.Ioi (0 : ℝ), p.eval x * (x ^ α.get * Real.exp (-x))) ∧
    (∃ r, GaussJacobi.newGeneral ext n α β = some r ∧ ∃ p : ℝ[X], p.natDegree = 2 * n ∧
      (AnyRule.jacobi r).value (-1) 1 (fun x => p.eval x) = 0 ∧
      0 < ∫ x in (-1 : ℝ)..1, p.eval x * ((1 - x) ^ α.get * (1 + x) ^ β.get)) := by
  refine ⟨?_, ?_, ?_⟩
  · obtain ⟨r, h1, h2⟩ := hermite_gauss hext hn
    obtain ⟨p, e1, -, e2, e3⟩ := gauss_sharp r.nodeWeightPairs posDef_hermite
    refine ⟨r, h1, p, by rw [e1, h2.length], by rw [value_real]; exact e2, ?_⟩
    rw [weightIntegral, setIntegral_univ] at e3
    exact e3
  · obtain ⟨r, h1, -, h2⟩ := laguerre_gauss hext hn α hα
    obtain ⟨p, e1, -, e2, e3⟩ := gauss_sharp r.nodeWeightPairs (posDef_laguerre hα)
    exact ⟨r, h1, p, by rw [e1, h2.length], by rw [value_real]; exact e2, e3⟩
  · obtain ⟨r, h1, h2⟩ := jacobi_newGeneral_some ext hn α β
    obtain ⟨p, e1, -, e2, e3⟩ := gauss_sharp r.nodeWeightPairs (posDef_jacobi hα hβ)
    refine ⟨r, h1, p, by rw [e1, h2], ?_, ?_⟩
    · rw [value_gauss_quad rfl]; norm_num; exact e2
    · rw [weightIntegral, setIntegral_Ioo_eq_interval (by norm_num)] at e3; exact e3

example : ∃ ext : Externals ℝ, ExactSolver ext ∧ ∃ r, GaussHermite.new ext 3 = some r ∧ ∃ p : ℝ[X], p.natDegree = 2 * 3 ∧
    (AnyRule.hermite r).value 0 0 (fun x => p.eval x) = 0 ∧ 0 < ∫ x : ℝ, p.eval x * Real.exp (-x ^ 2) :=
  ⟨_, exactSolver_exists, (C42_golub_welsch exactSolver_exists (by norm_num) (α := ⟨0⟩) (β := ⟨0⟩) (by norm_num) (by norm_num)).1⟩

end GaussQuad.Props
