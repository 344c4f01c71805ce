import Verif.Props.ParameterDependence
import Verif.Proofs.ParameterCompact

/-!
# C109: Gauss-Jacobi has no jump at the delegated pairs, and its singular line is removable

`GaussJacobi::new` (`/repo/src/jacobi/mod.rs:77-144`) hands `(0, 0)` to Gauss-Legendre, `(-1/2, -1/2)` to Gauss-Chebyshev of the first kind and `(1/2, 1/2)` to that of the
second kind (`/repo/src/jacobi/mod.rs:82-90`). C107 covers the last one; here are the first two, and the line `α + β = -1` on which `C35_nan_weights` shows that the weights of the
crate are NaN.
-/

namespace GaussQuad.Props
open Polynomial Spec FloatOps MeasureTheory Filter Topology

theorem zero_alg {q₁ q₂ q₃ v e d M Λ h : ℝ} (t1 : v ≤ q₁ + d) (t2 : q₂ ≤ q₃ + d) (h1 : q₁ ≤ e + 12.06e-12 * q₂) (h2 : d ≤ 2 * (2.5e-15 * M + 2e-16 * (Λ * (h / 2)))) (h3 : 0 ≤ q₃)
    (hM : 0 ≤ M) (hΛ : 0 ≤ Λ * h) : v ≤ e + 13e-12 * q₃ + 2 * (2.6e-15 * M + 1.1e-16 * (Λ * h)) := by
  norm_num at *
  linarith

/-- Next to any Gauss rule: the rules of the crate for parameters nearby give nearly the same result for every integrand continuous on the open interval. -/
theorem jacobi_near {ext : Externals ℝ} (hext : ExactSolver ext) (mode : Overflow) {n : ℕ} (hn : 0 < n) {α β : ℝ} (hα : -1 < α) (hβ : -1 < β) {B : List (ℝ × ℝ)} {c : ℝ} (hc : 0 < c)
    (hc1 : |c - 1| ≤ 6e-12) (hB : B.length = n) (hex : ExactUpTo B (2 * n - 1) (Set.Ioo (-1) 1) (jacW α β) c) {g : ℝ → ℝ} (hg : ContinuousOn g (Set.Ioo (-1) 1)) {ε : ℝ} (hε : 0 < ε) :
    ∃ δ > 0, ∀ α' β' : FiniteAboveNegOne ℝ, |α'.get - α| < δ → |β'.get - β| < δ → α'.get + β'.get ≠ -1 → ¬ Delegated α'.get β'.get → (n % 2 = 0 ∨ n = 1 ∨ α' = β') →
      ∃ r' : JacobiRule ℝ, GaussJacobi.new mode ext n α' β' = some r' ∧ |quad r'.nodeWeightPairs g - quad B g| ≤ ε + 12.06e-12 * |quad B g| := by
  set U : Set (ℝ × ℝ) := {θ | -1 < θ.1 ∧ -1 < θ.2 ∧ θ.1 + θ.2 ≠ -1} with hU
  set A : ℝ × ℝ → List (ℝ × ℝ) := fun θ => (golubWelsch ext n (GaussJacobi.diag θ.1 θ.2) (GaussJacobi.offDiag θ.1 θ.2) (GaussJacobi.weightScale θ.1 θ.2)).getD [] with hAd
  have hA : ∀ θ ∈ U, (A θ).length = n ∧ ExactUpTo (A θ) (2 * n - 1) (Set.Ioo (-1) 1) (jacW θ.1 θ.2) (jacobiFactor θ.1 θ.2) := by
    rintro θ ⟨e1, e2, e3⟩
    obtain ⟨L, h1, h2⟩ := jacobi_golub hext hn e1 e2 e3
    rw [hAd]
    simp only [h1]
    have := h2.exact'
    rw [h2.length] at this
    exact ⟨h2.length, this⟩
  have hUl : ∀ᶠ s in 𝓝 (α, β) ⊓ 𝓟 U, s ∈ U := mem_inf_of_right (mem_principal_self U)
  have hlim := jacobi_tendsto (l := 𝓝 (α, β) ⊓ 𝓟 U) (θ := id) (n := n) hα hβ (tendsto_id.mono_left inf_le_left) (hUl.mono fun s h => jacobiFactor_pos h.1 h.2.1 h.2.2)
    (hUl.mono fun s h => hA s h) hc hB hex hg
  have h3 := Metric.tendsto_nhds.1 hlim (ε / 2) (by positivity)
  have h4 : ∀ᶠ s in 𝓝 (α, β), s ∈ U → dist (quad (A s) g / jacobiFactor s.1 s.2) (quad B g / c) < ε / 2 := eventually_inf_principal.1 h3
  have c1 : Tendsto (fun s : ℝ × ℝ => s.1) (𝓝 (α, β)) (𝓝 α) := continuous_fst.tendsto _
  have c2 : Tendsto (fun s : ℝ × ℝ => s.2) (𝓝 (α, β)) (𝓝 β) := continuous_snd.tendsto _
  obtain ⟨δ, hδ, h⟩ := Metric.eventually_nhds_iff.1 (((c1.eventually (eventually_gt_nhds hα)).and (c2.eventually (eventually_gt_nhds hβ))).and h4)
  refine ⟨δ, hδ, fun α' β' h3 h4 u3 hd' hodd' => ?_⟩
  obtain ⟨⟨u1, u2⟩, h5⟩ := h (y := (α'.get, β'.get)) (by rw [Prod.dist_eq]; exact max_lt h3 h4)
  obtain ⟨r', c', h1', hc', hc1', h2'⟩ := jacobi_isGauss hext mode hn u1 u2 u3 hd' hodd'
  refine ⟨r', h1', ?_⟩
  have h5 := h5 ⟨u1, u2, u3⟩
  have q2 := gauss_quad_div hc' (jacobiFactor_pos u1 u2 u3) (posDef_jacobi u1 u2) h2'.length (hA (α'.get, β'.get) ⟨u1, u2, u3⟩).1 (by have := h2'.exact'; rwa [h2'.length] at this)
    (hA (α'.get, β'.get) ⟨u1, u2, u3⟩).2 g
  rw [Real.dist_eq, ← q2] at h5
  refine (close_of_ratio (by norm_num) hc1 hc1' hε h5).trans (le_of_eq ?_)
  norm_num

theorem continuousOn_affine {a b : ℝ} (hab : a < b) {f : ℝ → ℝ} (hf : ContinuousOn f (Set.Ioo a b)) :
    ContinuousOn (fun x => f ((b - a) / 2 * x + (a + b) / 2)) (Set.Ioo (-1) 1) := by
  have h2 : 0 < (b - a) / 2 := by linarith
  refine hf.comp (by fun_prop) fun x hx => ?_
  have h3 : 0 < (b - a) / 2 * (1 + x) := mul_pos h2 (by linarith [hx.1])
  have h4 : 0 < (b - a) / 2 * (1 - x) := mul_pos h2 (by linarith [hx.2])
  constructor <;> linarith

/-- C109: no jump where the constructor switches to the Chebyshev rule of the first kind -/
theorem C109_minus_half {ext : Externals ℝ} (hext : ExactSolver ext) (mode : Overflow) {n : ℕ} (hn : 0 < n) (hlt : n + 1 < 2 ^ 64) {a b : ℝ} (hab : a < b) {f : ℝ → ℝ}
    (hf : ContinuousOn f (Set.Ioo a b)) {ε : ℝ} (hε : 0 < ε) :
    ∃ r : JacobiRule ℝ, GaussJacobi.new mode ext n ⟨-1 / 2⟩ ⟨-1 / 2⟩ = some r ∧ ∃ δ > 0, ∀ α' β' : FiniteAboveNegOne ℝ, |α'.get - -1 / 2| < δ → |β'.get - -1 / 2| < δ →
      α'.get + β'.get ≠ -1 → (n % 2 = 0 ∨ n = 1 ∨ α' = β') → ∃ r' : JacobiRule ℝ, GaussJacobi.new mode ext n α' β' = some r' ∧
        |(AnyRule.jacobi r').value a b f - (AnyRule.jacobi r).value a b f| ≤ ε + 13e-12 * |(AnyRule.jacobi r).value a b f| := by
  have h2 : 0 < (b - a) / 2 := by linarith
  obtain ⟨r, h1, hex⟩ := (C34_chebyshev mode ext hn hlt).1
  have hlen : r.nodeWeightPairs.length = n := by
    have e : (lit (-0.5) : ℝ) = -1 / 2 := by simp; norm_num
    unfold GaussJacobi.new at h1
    simp only [real_feq, real_lit_zero, real_lit_half, e] at h1
    rw [if_neg (by norm_num), if_pos (by norm_num), cheb1_new_eq hlt] at h1
    cases h1
    exact length_pairs1 n
  obtain ⟨δ, hδ, h⟩ := jacobi_near hext mode hn (α := -1 / 2) (β := -1 / 2) (by norm_num) (by norm_num) one_pos (by norm_num) hlen (exactUpTo_of_jacobiExact hex) (continuousOn_affine hab hf)
    (ε := ε / ((b - a) / 2)) (by positivity)
  refine ⟨r, h1, min δ (1 / 4), lt_min hδ (by norm_num), fun α' β' e1 e2 e3 hodd => ?_⟩
  have f1 := abs_lt.1 (e1.trans_le (min_le_right _ _))
  have hd : ¬ Delegated α'.get β'.get := by
    rintro (⟨g1, g2⟩ | ⟨g1, g2⟩ | ⟨g1, g2⟩)
    · rw [g1] at f1; norm_num at f1
    · rw [g1, g2] at e3; norm_num at e3
    · rw [g1] at f1; norm_num at f1
  obtain ⟨r', h1', h3⟩ := h α' β' (e1.trans_le (min_le_left _ _)) (e2.trans_le (min_le_left _ _)) e3 hd hodd
  refine ⟨r', h1', ?_⟩
  rw [value_gauss_quad (R := AnyRule.jacobi r') rfl, value_gauss_quad (R := AnyRule.jacobi r) rfl, ← mul_sub, abs_mul, abs_mul, abs_of_pos h2]
  refine (mul_le_mul_of_nonneg_left h3 h2.le).trans ?_
  rw [mul_add, mul_div_cancel₀ _ h2.ne']
  have h8 := mul_nonneg h2.le (abs_nonneg (quad r.nodeWeightPairs fun x => f ((b - a) / 2 * x + (a + b) / 2)))
  show ε + (b - a) / 2 * (12.06e-12 * |quad r.nodeWeightPairs fun x => f ((b - a) / 2 * x + (a + b) / 2)|) ≤
    ε + 13e-12 * ((b - a) / 2 * |quad r.nodeWeightPairs fun x => f ((b - a) / 2 * x + (a + b) / 2)|)
  norm_num
  linarith

/-- C109: where the constructor switches to Gauss-Legendre the result jumps by no more than the error of the crate's Legendre nodes and weights, for an integrand bounded by `M` with
Lipschitz constant `Λ` -/
theorem C109_zero {ext : Externals ℝ} (hext : ExactSolver ext) (mode : Overflow) {n : ℕ} (hn : 0 < n) (hlt : n + 1 < 2 ^ 64) {a b : ℝ} (hab : a < b) {f : ℝ → ℝ} {M Λ : ℝ}
    (hM : ∀ x ∈ Set.Ioo a b, |f x| ≤ M) (hΛ : ∀ x ∈ Set.Ioo a b, ∀ y ∈ Set.Ioo a b, |f x - f y| ≤ Λ * |x - y|) (hΛ0 : 0 ≤ Λ) {ε : ℝ} (hε : 0 < ε) :
    ∃ r : JacobiRule ℝ, GaussJacobi.new mode ext n ⟨0⟩ ⟨0⟩ = some r ∧ ∃ δ > 0, ∀ α' β' : FiniteAboveNegOne ℝ, |α'.get| < δ → |β'.get| < δ → (α'.get, β'.get) ≠ (0, 0) →
      (n % 2 = 0 ∨ n = 1 ∨ α' = β') → ∃ r' : JacobiRule ℝ, GaussJacobi.new mode ext n α' β' = some r' ∧
        |(AnyRule.jacobi r').value a b f - (AnyRule.jacobi r).value a b f| ≤
          ε + 13e-12 * |(AnyRule.jacobi r).value a b f| + (b - a) * (2.6e-15 * M + 1.1e-16 * (Λ * (b - a))) := by
  have h2 : 0 < (b - a) / 2 := by linarith
  have hf : ContinuousOn f (Set.Ioo a b) := by
    refine (LipschitzOnWith.of_dist_le_mul (K := ⟨Λ, hΛ0⟩) fun x hx y hy => ?_).continuousOn
    rw [Real.dist_eq, Real.dist_eq]
    exact hΛ x hx y hy
  obtain ⟨rL, hr, G, hlen, hex, hin, hclose⟩ := legendre_true_rule mode hn hlt
  have hmem : ∀ x ∈ Set.Ioo (-1 : ℝ) 1, (b - a) / 2 * x + (a + b) / 2 ∈ Set.Ioo a b := fun x hx => by
    constructor <;> nlinarith [hx.1, hx.2]
  set g : ℝ → ℝ := fun x => f ((b - a) / 2 * x + (a + b) / 2) with hg
  have hcl := hclose g M (Λ * ((b - a) / 2)) (fun x hx => hM _ (hmem x hx)) (fun x hx y hy => by
      refine (hΛ _ (hmem x hx) _ (hmem y hy)).trans (le_of_eq ?_)
      rw [show (b - a) / 2 * x + (a + b) / 2 - ((b - a) / 2 * y + (a + b) / 2) = (b - a) / 2 * (x - y) by ring, abs_mul, abs_of_pos h2]
      ring) (by positivity)
  have hJ : ∃ r : JacobiRule ℝ, GaussJacobi.new mode ext n ⟨0⟩ ⟨0⟩ = some r ∧ r.nodeWeightPairs = rL.nodeWeightPairs := by
    unfold GaussJacobi.new
    simp only [real_feq, real_lit_zero]
    rw [if_pos (by norm_num [FiniteAboveNegOne.get]), hr]
    exact ⟨_, rfl, rfl⟩
  obtain ⟨r, h1, hrr⟩ := hJ
  obtain ⟨δ, hδ, h⟩ := jacobi_near hext mode hn (α := 0) (β := 0) (by norm_num) (by norm_num) one_pos (by norm_num) hlen (by rw [jacW_zero]; exact hex) (continuousOn_affine hab hf)
    (ε := ε / ((b - a) / 2)) (by positivity)
  refine ⟨r, h1, min δ (1 / 4), lt_min hδ (by norm_num), fun α' β' e1 e2 e3 hodd => ?_⟩
  have f1 := abs_lt.1 (e1.trans_le (min_le_right _ _))
  have f2 := abs_lt.1 (e2.trans_le (min_le_right _ _))
  have hd : ¬ Delegated α'.get β'.get := by
    rintro (⟨g1, g2⟩ | ⟨g1, g2⟩ | ⟨g1, g2⟩)
    · exact e3 (by rw [g1, g2])
    · rw [g1] at f1; norm_num at f1
    · rw [g1] at f1; norm_num at f1
  obtain ⟨r', h1', h3⟩ := h α' β' (by rw [sub_zero]; exact e1.trans_le (min_le_left _ _)) (by rw [sub_zero]; exact e2.trans_le (min_le_left _ _)) (by linarith [f1.1, f2.1]) hd hodd
  refine ⟨r', h1', ?_⟩
  rw [value_gauss_quad (R := AnyRule.jacobi r') rfl, value_gauss_quad (R := AnyRule.jacobi r) rfl, ← mul_sub, abs_mul, abs_mul, abs_of_pos h2]
  show (b - a) / 2 * |quad r'.nodeWeightPairs g - quad r.nodeWeightPairs g| ≤ ε + 13e-12 * ((b - a) / 2 * |quad r.nodeWeightPairs g|) + _
  have hcl' : |quad r.nodeWeightPairs g - quad G g| ≤ 2 * (2.5e-15 * M + 2e-16 * (Λ * ((b - a) / 2))) := by rw [hrr]; exact hcl
  have hM0 : 0 ≤ M := (abs_nonneg _).trans (hM ((a + b) / 2) ⟨by linarith, by linarith⟩)
  have hΛ1 : 0 ≤ Λ * (b - a) := by nlinarith
  have h3' : |quad r'.nodeWeightPairs g - quad G g| ≤ ε / ((b - a) / 2) + 12.06e-12 * |quad G g| := h3
  have t1 := abs_sub_le (quad r'.nodeWeightPairs g) (quad G g) (quad r.nodeWeightPairs g)
  rw [abs_sub_comm (quad G g)] at t1
  have t2 : |quad G g| ≤ |quad r.nodeWeightPairs g| + |quad r.nodeWeightPairs g - quad G g| := by
    have := abs_sub_abs_le_abs_sub (quad G g) (quad r.nodeWeightPairs g)
    rw [abs_sub_comm] at this
    linarith
  have t3 : |quad r'.nodeWeightPairs g - quad r.nodeWeightPairs g| ≤ ε / ((b - a) / 2) + 13e-12 * |quad r.nodeWeightPairs g| + 2 * (2.6e-15 * M + 1.1e-16 * (Λ * (b - a))) :=
    zero_alg t1 t2 h3' hcl' (abs_nonneg _) hM0 hΛ1
  refine (mul_le_mul_of_nonneg_left t3 h2.le).trans (le_of_eq ?_)
  rw [mul_add, mul_add, mul_div_cancel₀ _ h2.ne']
  ring

/-- C109: the singularity on the line `α + β = -1` is removable: the weight function has a Gauss rule `B` there too, and the crate's results for parameters nearby converge to its results. On the
line itself the binary64 weights of the crate are NaN (`C35_nan_weights`). -/
theorem C109_line {ext : Externals ℝ} (hext : ExactSolver ext) (mode : Overflow) {n : ℕ} (hn : 0 < n) {α β : ℝ} (hα : -1 < α) (hβ : -1 < β) (hs : α + β = -1) :
    ∃ B : List (ℝ × ℝ), B.length = n ∧ ExactUpTo B (2 * n - 1) (Set.Ioo (-1) 1) (fun x => (1 - x) ^ α * (1 + x) ^ β) 1 ∧
      ∀ (a b : ℝ) (f : ℝ → ℝ), a < b → ContinuousOn f (Set.Ioo a b) → ∀ ε > 0, ∃ δ > 0, ∀ α' β' : FiniteAboveNegOne ℝ, |α'.get - α| < δ → |β'.get - β| < δ →
        α'.get + β'.get ≠ -1 → (n % 2 = 0 ∨ n = 1 ∨ α' = β') → ∃ r' : JacobiRule ℝ, GaussJacobi.new mode ext n α' β' = some r' ∧
          |(AnyRule.jacobi r').value a b f - (b - a) / 2 * quad B (fun x => f ((b - a) / 2 * x + (a + b) / 2))| ≤
            ε + 13e-12 * |(b - a) / 2 * quad B (fun x => f ((b - a) / 2 * x + (a + b) / 2))| := by
  set A : ℝ → List (ℝ × ℝ) := fun t => (golubWelsch ext n (GaussJacobi.diag (α + t) β) (GaussJacobi.offDiag (α + t) β) (GaussJacobi.weightScale (α + t) β)).getD [] with hAd
  have hpos : ∀ᶠ t : ℝ in 𝓝[>] 0, 0 < t := self_mem_nhdsWithin
  have hsum : ∀ {t : ℝ}, 0 < t → α + t + β ≠ -1 := fun {t} ht h => by linarith
  have hθ : Tendsto (fun t : ℝ => (α + t, β)) (𝓝[>] 0) (𝓝 (α, β)) := by
    have : Continuous fun t : ℝ => (α + t, β) := by fun_prop
    have := this.tendsto 0
    rw [add_zero] at this
    exact this.mono_left nhdsWithin_le_nhds
  obtain ⟨B, hB, hex⟩ := jacobi_limit_exists (n := n) (A := A) (c := fun t => jacobiFactor (α + t) β) hα hβ hθ
    (hpos.mono fun t ht => jacobiFactor_pos (by linarith) hβ (hsum ht)) (hpos.mono fun t ht => by
      obtain ⟨L, h1, h2⟩ := jacobi_golub hext hn (α := α + t) (by linarith) hβ (hsum ht)
      rw [hAd]
      simp only [h1]
      have := h2.exact'
      rw [h2.length] at this
      exact ⟨h2.length, this⟩)
  refine ⟨B, hB, hex, fun a b f hab hf ε hε => ?_⟩
  have h2 : 0 < (b - a) / 2 := by linarith
  obtain ⟨δ, hδ, h⟩ := jacobi_near hext mode hn hα hβ one_pos (by norm_num) hB hex (continuousOn_affine hab hf) (ε := ε / ((b - a) / 2)) (by positivity)
  refine ⟨min δ (1 / 4), lt_min hδ (by norm_num), fun α' β' e1 e2 e3 hodd => ?_⟩
  have f1 := abs_lt.1 (e1.trans_le (min_le_right _ _))
  have f2 := abs_lt.1 (e2.trans_le (min_le_right _ _))
  have hd : ¬ Delegated α'.get β'.get := by
    rintro (⟨g1, g2⟩ | ⟨g1, g2⟩ | ⟨g1, g2⟩)
    · rw [g1] at f1; rw [g2] at f2; linarith [f1.2, f2.2]
    · rw [g1, g2] at e3; norm_num at e3
    · rw [g1] at f1; rw [g2] at f2; linarith [f1.2, f2.2]
  obtain ⟨r', h1', h3⟩ := h α' β' (e1.trans_le (min_le_left _ _)) (e2.trans_le (min_le_left _ _)) e3 hd hodd
  refine ⟨r', h1', ?_⟩
  rw [value_gauss_quad (R := AnyRule.jacobi r') rfl, ← mul_sub, abs_mul, abs_mul, abs_of_pos h2]
  refine (mul_le_mul_of_nonneg_left h3 h2.le).trans ?_
  rw [mul_add, mul_div_cancel₀ _ h2.ne']
  have h8 := mul_nonneg h2.le (abs_nonneg (quad B fun x => f ((b - a) / 2 * x + (a + b) / 2)))
  norm_num
  linarith

/-! ### Instances -/

/-- the result for `√x` over `[0, 1]`, seven nodes, near `(-1/2, -1/2)` -/
example {ext : Externals ℝ} (hext : ExactSolver ext) : ∃ r : JacobiRule ℝ, GaussJacobi.new .checked ext 7 ⟨-1 / 2⟩ ⟨-1 / 2⟩ = some r ∧ ∃ δ > 0, ∀ α' : FiniteAboveNegOne ℝ,
    |α'.get - -1 / 2| < δ → α'.get + α'.get ≠ -1 → ∃ r' : JacobiRule ℝ, GaussJacobi.new .checked ext 7 α' α' = some r' ∧
      |(AnyRule.jacobi r').value 0 1 Real.sqrt - (AnyRule.jacobi r).value 0 1 Real.sqrt| ≤ 1e-6 + 13e-12 * |(AnyRule.jacobi r).value 0 1 Real.sqrt| := by
  obtain ⟨r, h1, δ, hδ, h2⟩ := C109_minus_half hext .checked (n := 7) (by norm_num) (by norm_num) zero_lt_one Real.continuous_sqrt.continuousOn (ε := 1e-6) (by norm_num)
  exact ⟨r, h1, δ, hδ, fun α' h3 h4 => h2 α' α' h3 h3 h4 (Or.inr (Or.inr rfl))⟩

/-- the result for `sin` over `[0, 1]`, ten nodes, near `(0, 0)` -/
example {ext : Externals ℝ} (hext : ExactSolver ext) : ∃ r : JacobiRule ℝ, GaussJacobi.new .wrapping ext 10 ⟨0⟩ ⟨0⟩ = some r ∧ ∃ δ > 0, ∀ α' β' : FiniteAboveNegOne ℝ,
    |α'.get| < δ → |β'.get| < δ → (α'.get, β'.get) ≠ (0, 0) → ∃ r' : JacobiRule ℝ, GaussJacobi.new .wrapping ext 10 α' β' = some r' ∧
      |(AnyRule.jacobi r').value 0 1 Real.sin - (AnyRule.jacobi r).value 0 1 Real.sin| ≤ 1e-14 + 13e-12 * |(AnyRule.jacobi r).value 0 1 Real.sin| := by
  obtain ⟨r, h1, δ, hδ, h2⟩ := C109_zero hext .wrapping (n := 10) (by norm_num) (by norm_num) zero_lt_one (f := Real.sin) (M := 1) (Λ := 1) (fun x _ => Real.abs_sin_le_one x)
    (fun x _ y _ => by rw [one_mul]; exact Real.abs_sin_sub_sin_le x y) zero_le_one (ε := 1e-15) (by norm_num)
  refine ⟨r, h1, δ, hδ, fun α' β' h3 h4 h5 => ?_⟩
  obtain ⟨r', h6, h7⟩ := h2 α' β' h3 h4 h5 (Or.inl rfl)
  refine ⟨r', h6, h7.trans ?_⟩
  norm_num
  linarith [abs_nonneg ((AnyRule.jacobi r).value 0 1 Real.sin)]

/-- the pair `(-1/4, -3/4)` of `C35_refuted`, with four nodes -/
example {ext : Externals ℝ} (hext : ExactSolver ext) : ∃ B : List (ℝ × ℝ), B.length = 4 ∧ ExactUpTo B 7 (Set.Ioo (-1) 1) (fun x => (1 - x) ^ (-1 / 4 : ℝ) * (1 + x) ^ (-3 / 4 : ℝ)) 1 ∧
    ∃ δ > 0, ∀ α' β' : FiniteAboveNegOne ℝ, |α'.get - -1 / 4| < δ → |β'.get - -3 / 4| < δ → α'.get + β'.get ≠ -1 → ∃ r' : JacobiRule ℝ, GaussJacobi.new .checked ext 4 α' β' = some r' ∧
      |(AnyRule.jacobi r').value (-1) 1 Real.exp - (1 - -1) / 2 * quad B (fun x => Real.exp ((1 - -1) / 2 * x + (-1 + 1) / 2))| ≤
        1e-6 + 13e-12 * |(1 - -1) / 2 * quad B (fun x => Real.exp ((1 - -1) / 2 * x + (-1 + 1) / 2))| := by
  obtain ⟨B, hB, hex, h⟩ := C109_line hext .checked (n := 4) (by norm_num) (α := -1 / 4) (β := -3 / 4) (by norm_num) (by norm_num) (by norm_num)
  obtain ⟨δ, hδ, h2⟩ := h (-1) 1 Real.exp (by norm_num) Real.continuous_exp.continuousOn 1e-6 (by norm_num)
  exact ⟨B, hB, hex, δ, hδ, fun α' β' h3 h4 h5 => h2 α' β' h3 h4 h5 (Or.inl rfl)⟩

end GaussQuad.Props
