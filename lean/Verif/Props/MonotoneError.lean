import Verif.Proofs.Stieltjes
import Verif.Props.GolubWelschMore
import Verif.Props.Interlacing
import Verif.Props.NewtonCotesError

/-!
# C72: the Chebyshev-Markov-Stieltjes inequalities; C73: monotone integrands

C72: the partial sums of the weights separate the masses of the weight function to the left of the nodes.  C73: for a monotone integrand, which need not be continuous, the error is
at most the largest weight times the total increase.  `/repo/src/hermite/mod.rs`, `/repo/src/laguerre/mod.rs`, `/repo/src/chebyshev/mod.rs`, `/repo/src/jacobi/mod.rs`,
`/repo/src/midpoint/mod.rs`, `/repo/src/trapezoid/mod.rs`, `/repo/src/simpson/mod.rs`.
-/

namespace GaussQuad.Props
open Polynomial Spec FloatOps MeasureTheory

theorem jacW_meas (α β : ℝ) : Measurable (jacW α β) := by unfold jacW; fun_prop
theorem jacW_nonneg (α β : ℝ) : ∀ x ∈ Set.Ioo (-1 : ℝ) 1, 0 ≤ jacW α β x := fun x hx =>
  mul_nonneg (Real.rpow_nonneg (by linarith [hx.2]) _) (Real.rpow_nonneg (by linarith [hx.1]) _)
theorem chebW1_meas : Measurable chebW1 := by unfold chebW1; fun_prop
theorem chebW2_meas : Measurable chebW2 := by unfold chebW2; fun_prop
theorem chebW1_nonneg : ∀ x ∈ Set.Ioo (-1 : ℝ) 1, 0 ≤ chebW1 x := fun x _ => by unfold chebW1; positivity
theorem chebW2_nonneg : ∀ x ∈ Set.Ioo (-1 : ℝ) 1, 0 ≤ chebW2 x := fun x _ => by unfold chebW2; positivity

/-! ## C72 -/

/-- at the `k`-th node (counted from 0): the first `k` weights add up to at most `c` times the mass of `w` strictly to the left of the node, the first `k + 1` weights to at least
`c` times the mass up to and including the node -/
def Separates (ps : List (ℝ × ℝ)) (S : Set ℝ) (w : ℝ → ℝ) (c : ℝ) : Prop :=
  ∀ k, ∀ hk : k < ps.length, ((ps.take k).map (·.2)).sum ≤ c * ∫ x in S ∩ Set.Iio (ps[k]).1, w x ∧
    c * ∫ x in S ∩ Set.Iic (ps[k]).1, w x ≤ ((ps.take (k + 1)).map (·.2)).sum

/-- C72 for Gauss-Hermite -/
theorem C72_hermite {ext : Externals ℝ} (hext : ExactSolver ext) {n : ℕ} (hn : 0 < n) :
    ∃ r : Rule ℝ, GaussHermite.new ext n = some r ∧ Separates r.asNodeWeightPairs Set.univ (fun x => Real.exp (-x ^ 2)) 1 := by
  obtain ⟨r, h1, h2⟩ := hermite_gauss hext hn
  exact ⟨r, h1, fun k hk => gauss_stieltjes MeasurableSet.univ hermW_meas (fun x _ => (hermW_pos x).le) integrable_hermite one_pos posDef_hermite h2.exact'
    (h2.strict one_pos posDef_hermite) hk⟩

/-- C72 for Gauss-Laguerre; `c` is the gamma factor of the weights (`C33_exact`) -/
theorem C72_laguerre {ext : Externals ℝ} (hext : ExactSolver ext) {n : ℕ} (hn : 0 < n) {α : FiniteAboveNegOne ℝ} (hα : -1 < α.get) :
    ∃ (r : LaguerreRule ℝ) (c : ℝ), GaussLaguerre.new ext n α = some r ∧ |c - 1| ≤ 2e-12 ∧
      Separates r.asNodeWeightPairs (Set.Ioi 0) (fun x => x ^ α.get * Real.exp (-x)) c := by
  obtain ⟨r, h1, -, h2⟩ := laguerre_gauss hext hn α hα
  refine ⟨r, _, h1, C49_gamma_accurate fun m hm => ?_, fun k hk => gauss_stieltjes measurableSet_Ioi (lagW_meas α.get) (fun x hx => (lagW_pos α.get hx).le) (integrable_laguerre hα)
    (laguerre_factor_pos hα) (posDef_laguerre hα) h2.exact' (h2.strict (laguerre_factor_pos hα) (posDef_laguerre hα)) hk⟩
  have : (0 : ℝ) ≤ m := Nat.cast_nonneg m
  linarith

/-- C72 for both Gauss-Chebyshev rules -/
theorem C72_chebyshev (mode : Overflow) {n : ℕ} (hn : 0 < n) (hlt : n + 1 < 2 ^ 64) :
    (∃ r : Rule ℝ, GaussChebyshevFirstKind.new mode n = some r ∧ Separates r.asNodeWeightPairs (Set.Ioo (-1) 1) (fun x => 1 / Real.sqrt (1 - x ^ 2)) 1) ∧
    (∃ r : Rule ℝ, GaussChebyshevSecondKind.new mode n = some r ∧ Separates r.asNodeWeightPairs (Set.Ioo (-1) 1) (fun x => Real.sqrt (1 - x ^ 2)) 1) :=
  ⟨⟨_, cheb1_new_eq hlt, fun _ hk => gauss_stieltjes measurableSet_Ioo chebW1_meas chebW1_nonneg integrableOn_cheb1 one_pos posDef_cheb1 (isGauss1 hn hlt).exact'
      ((isGauss1 hn hlt).strict one_pos posDef_cheb1) hk⟩,
    ⟨_, cheb2_new_eq hlt, fun _ hk => gauss_stieltjes measurableSet_Ioo chebW2_meas chebW2_nonneg integrableOn_cheb2 one_pos posDef_cheb2 (isGauss2 hn hlt).exact'
      ((isGauss2 hn hlt).strict one_pos posDef_cheb2) hk⟩⟩

/-- C72 for Gauss-Jacobi outside the delegated pairs, where the rule is a Gauss rule -/
theorem C72_jacobi {ext : Externals ℝ} (hext : ExactSolver ext) (mode : Overflow) {n : ℕ} (hn : 0 < n) {α β : FiniteAboveNegOne ℝ} (hα : -1 < α.get) (hβ : -1 < β.get)
    (hs : α.get + β.get ≠ -1) (hd : ¬ Delegated α.get β.get) (hodd : n % 2 = 0 ∨ n = 1 ∨ α = β) :
    ∃ (r : JacobiRule ℝ) (c : ℝ), GaussJacobi.new mode ext n α β = some r ∧ |c - 1| ≤ 6e-12 ∧
      Separates r.asNodeWeightPairs (Set.Ioo (-1) 1) (fun x => (1 - x) ^ α.get * (1 + x) ^ β.get) c := by
  obtain ⟨r, c, h1, hc, hc1, h2⟩ := jacobi_isGauss hext mode hn hα hβ hs hd hodd
  exact ⟨r, c, h1, hc1, fun k hk => gauss_stieltjes measurableSet_Ioo (jacW_meas _ _) (jacW_nonneg _ _) (integrable_jacobi hα hβ) hc (posDef_jacobi hα hβ) h2.exact'
    (h2.strict hc (posDef_jacobi hα hβ)) hk⟩

example : ∃ ext : Externals ℝ, ExactSolver ext ∧ ∃ r : Rule ℝ, GaussHermite.new ext 5 = some r ∧ Separates r.asNodeWeightPairs Set.univ (fun x => Real.exp (-x ^ 2)) 1 :=
  ⟨_, exactSolver_exists, C72_hermite exactSolver_exists (by norm_num)⟩

example : ∃ ext : Externals ℝ, ExactSolver ext ∧ ∃ (r : LaguerreRule ℝ) (c : ℝ), GaussLaguerre.new ext 6 ⟨3⟩ = some r ∧ |c - 1| ≤ 2e-12 ∧
    Separates r.asNodeWeightPairs (Set.Ioi 0) (fun x => x ^ (3 : ℝ) * Real.exp (-x)) c :=
  ⟨_, exactSolver_exists, C72_laguerre exactSolver_exists (by norm_num) (α := ⟨3⟩) (by norm_num)⟩

example : ∃ r : Rule ℝ, GaussChebyshevFirstKind.new .checked 77 = some r ∧ Separates r.asNodeWeightPairs (Set.Ioo (-1) 1) (fun x => 1 / Real.sqrt (1 - x ^ 2)) 1 :=
  (C72_chebyshev .checked (by norm_num) (by norm_num)).1

example : ∃ ext : Externals ℝ, ExactSolver ext ∧ ∃ (r : JacobiRule ℝ) (c : ℝ), GaussJacobi.new .checked ext 4 ⟨1⟩ ⟨0⟩ = some r ∧ |c - 1| ≤ 6e-12 ∧
    Separates r.asNodeWeightPairs (Set.Ioo (-1) 1) (fun x => (1 - x) ^ (1 : ℝ) * (1 + x) ^ (0 : ℝ)) c :=
  ⟨_, exactSolver_exists, C72_jacobi exactSolver_exists .checked (by norm_num) (α := ⟨1⟩) (β := ⟨0⟩) (by norm_num) (by norm_num) (by norm_num)
    (by rintro (⟨h, -⟩ | ⟨h, -⟩ | ⟨h, -⟩) <;> norm_num at h) (by norm_num)⟩

/-! ## C73 -/

/-- C73 for Gauss-Hermite: a bounded monotone integrand is integrable against the weight, and the error is at most the largest weight times the increase -/
theorem C73_hermite {ext : Externals ℝ} (hext : ExactSolver ext) {n : ℕ} (hn : 0 < n) :
    ∃ r : Rule ℝ, GaussHermite.new ext n = some r ∧ ∀ (f : ℝ → ℝ) (m M W a b : ℝ), Monotone f ∨ Antitone f → (∀ x, m ≤ f x ∧ f x ≤ M) →
      (∀ q ∈ r.asNodeWeightPairs, q.2 ≤ W) → Integrable (fun x => f x * Real.exp (-x ^ 2)) ∧
      |(AnyRule.hermite r).value a b f - ∫ x, f x * Real.exp (-x ^ 2)| ≤ (M - m) * W := by
  obtain ⟨r, h1, h2⟩ := hermite_gauss hext hn
  refine ⟨r, h1, fun f m M W a b hf hb hW => ?_⟩
  have hne : r.nodeWeightPairs ≠ [] := by rw [← List.length_pos_iff, h2.length]; exact hn
  obtain ⟨q, hq⟩ := List.exists_mem_of_ne_nil _ hne
  have hW0 : 0 ≤ W := (gauss_weights_pos one_pos h2.exact' posDef_hermite q hq).le.trans (hW q hq)
  have h := gauss_monotone' MeasurableSet.univ hermW_meas (fun x _ => (hermW_pos x).le) integrable_hermite one_pos posDef_hermite h2.exact' (fun _ _ => Set.mem_univ _) hW0 hW (f := f)
    (hf.imp (fun h => h.monotoneOn _) (fun h => h.antitoneOn _)) (fun x _ => (hb x).1) (fun x _ => (hb x).2) ((hb 0).1.trans (hb 0).2)
  rw [IntegrableOn, Measure.restrict_univ, one_mul] at h
  exact ⟨h.1, by rw [value_real]; exact h.2⟩

/-- C73 for Gauss-Laguerre -/
theorem C73_laguerre {ext : Externals ℝ} (hext : ExactSolver ext) {n : ℕ} (hn : 0 < n) {α : FiniteAboveNegOne ℝ} (hα : -1 < α.get) :
    ∃ (r : LaguerreRule ℝ) (c : ℝ), GaussLaguerre.new ext n α = some r ∧ |c - 1| ≤ 2e-12 ∧ ∀ (f : ℝ → ℝ) (m M W a b : ℝ),
      MonotoneOn f (Set.Ioi 0) ∨ AntitoneOn f (Set.Ioi 0) → (∀ x, 0 < x → m ≤ f x ∧ f x ≤ M) → (∀ q ∈ r.asNodeWeightPairs, q.2 ≤ W) →
      IntegrableOn (fun x => f x * (x ^ α.get * Real.exp (-x))) (Set.Ioi 0) ∧
      |(AnyRule.laguerre r).value a b f - c * ∫ x in Set.Ioi 0, f x * (x ^ α.get * Real.exp (-x))| ≤ (M - m) * W := by
  obtain ⟨r, h1, -, h2⟩ := laguerre_gauss hext hn α hα
  have hc := laguerre_factor_pos hα
  refine ⟨r, gamma (α.get + 1) / Real.Gamma (α.get + 1), h1, C49_gamma_accurate fun m hm => ?_, fun f m M W a b hf hb hW => ?_⟩
  · have : (0 : ℝ) ≤ m := Nat.cast_nonneg m
    linarith
  have hne : r.nodeWeightPairs ≠ [] := by rw [← List.length_pos_iff, h2.length]; exact hn
  obtain ⟨q, hq⟩ := List.exists_mem_of_ne_nil _ hne
  have hW0 : 0 ≤ W := (gauss_weights_pos hc h2.exact' (posDef_laguerre hα) q hq).le.trans (hW q hq)
  have h := gauss_monotone' measurableSet_Ioi (lagW_meas α.get) (fun x hx => (lagW_pos α.get hx).le) (integrable_laguerre hα) hc (posDef_laguerre hα) h2.exact'
    (fun q hq => gauss_nodes_gt hc h2.exact' (posDef_laguerre hα) (fun x hx => (show (0 : ℝ) < x from hx).le) q hq) hW0 hW hf (fun x hx => (hb x hx).1) (fun x hx => (hb x hx).2)
    ((hb 1 one_pos).1.trans (hb 1 one_pos).2)
  exact ⟨h.1, by rw [value_real]; exact h.2⟩

/-- a monotone integrand on `[a, b]` in terms of the variable in `[-1, 1]` -/
theorem monotone_transport {a b : ℝ} {f : ℝ → ℝ} (hf : MonotoneOn f (Set.uIcc a b) ∨ AntitoneOn f (Set.uIcc a b)) :
    (MonotoneOn (fun x => f ((b - a) / 2 * x + (a + b) / 2)) (Set.Icc (-1) 1) ∨ AntitoneOn (fun x => f ((b - a) / 2 * x + (a + b) / 2)) (Set.Icc (-1) 1)) ∧
    (∀ x ∈ Set.Icc (-1 : ℝ) 1, min (f a) (f b) ≤ f ((b - a) / 2 * x + (a + b) / 2) ∧ f ((b - a) / 2 * x + (a + b) / 2) ≤ max (f a) (f b)) ∧
    max (f a) (f b) - min (f a) (f b) = |f b - f a| := by
  have hmem : ∀ x ∈ Set.Icc (-1 : ℝ) 1, (b - a) / 2 * x + (a + b) / 2 ∈ Set.uIcc a b := fun x hx => by
    rcases le_total a b with h | h
    · rw [Set.uIcc_of_le h]
      constructor <;> nlinarith [hx.1, hx.2, mul_nonneg (sub_nonneg.2 h) (by linarith [hx.1] : 0 ≤ x + 1), mul_nonneg (sub_nonneg.2 h) (by linarith [hx.2] : 0 ≤ 1 - x)]
    · rw [Set.uIcc_of_ge h]
      constructor <;> nlinarith [hx.1, hx.2, mul_nonneg (sub_nonneg.2 h) (by linarith [hx.1] : 0 ≤ x + 1), mul_nonneg (sub_nonneg.2 h) (by linarith [hx.2] : 0 ≤ 1 - x)]
  have hmono : MonotoneOn (fun x => f ((b - a) / 2 * x + (a + b) / 2)) (Set.Icc (-1) 1) ∨ AntitoneOn (fun x => f ((b - a) / 2 * x + (a + b) / 2)) (Set.Icc (-1) 1) := by
    rcases le_total a b with h | h
    · have hle : ∀ x y : ℝ, x ≤ y → (b - a) / 2 * x + (a + b) / 2 ≤ (b - a) / 2 * y + (a + b) / 2 := fun x y hxy => by nlinarith [mul_nonneg (sub_nonneg.2 h) (sub_nonneg.2 hxy)]
      rcases hf with hf | hf
      · exact Or.inl fun x hx y hy hxy => hf (hmem x hx) (hmem y hy) (hle x y hxy)
      · exact Or.inr fun x hx y hy hxy => hf (hmem x hx) (hmem y hy) (hle x y hxy)
    · have hle : ∀ x y : ℝ, x ≤ y → (b - a) / 2 * y + (a + b) / 2 ≤ (b - a) / 2 * x + (a + b) / 2 := fun x y hxy => by nlinarith [mul_nonneg (sub_nonneg.2 h) (sub_nonneg.2 hxy)]
      rcases hf with hf | hf
      · exact Or.inr fun x hx y hy hxy => hf (hmem y hy) (hmem x hx) (hle x y hxy)
      · exact Or.inl fun x hx y hy hxy => hf (hmem y hy) (hmem x hx) (hle x y hxy)
  refine ⟨hmono, fun x hx => ?_, max_sub_min_eq_abs' _ _ |>.trans (abs_sub_comm _ _)⟩
  have ha : (b - a) / 2 * (-1) + (a + b) / 2 = a := by ring
  have hb : (b - a) / 2 * 1 + (a + b) / 2 = b := by ring
  have m1 : (-1 : ℝ) ∈ Set.Icc (-1 : ℝ) 1 := by norm_num
  have m2 : (1 : ℝ) ∈ Set.Icc (-1 : ℝ) 1 := by norm_num
  rcases hmono with h | h
  · have h1 := h m1 hx hx.1
    have h2 := h hx m2 hx.2
    simp only [ha, hb] at h1 h2
    exact ⟨(min_le_left _ _).trans h1, h2.trans (le_max_right _ _)⟩
  · have h1 := h m1 hx hx.1
    have h2 := h hx m2 hx.2
    simp only [ha, hb] at h1 h2
    exact ⟨(min_le_right _ _).trans h2, h1.trans (le_max_left _ _)⟩

/-- a Gauss rule for a weight on `(-1, 1)`, moved to `[a, b]` -/
theorem interval_monotone {L : List (ℝ × ℝ)} {w : ℝ → ℝ} {c : ℝ} (hwm : Measurable w) (hw : ∀ x ∈ Set.Ioo (-1 : ℝ) 1, 0 ≤ w x)
    (hint : ∀ p : ℝ[X], IntegrableOn (fun x => p.eval x * w x) (Set.Ioo (-1) 1)) (hc : 0 < c) (hpos : PosDef (Set.Ioo (-1) 1) w)
    (hex : ExactUpTo L (2 * L.length - 1) (Set.Ioo (-1) 1) w c) {W : ℝ} (hW0 : 0 ≤ W) (hW : ∀ q ∈ L, q.2 ≤ W) {a b : ℝ} (hab : a ≠ b) {f : ℝ → ℝ}
    (hf : MonotoneOn f (Set.uIcc a b) ∨ AntitoneOn f (Set.uIcc a b)) :
    |(b - a) / 2 * quad L (fun x => f ((b - a) / 2 * x + (a + b) / 2)) - c * ∫ t in a..b, f t * w ((2 * t - a - b) / (b - a))| ≤ |b - a| / 2 * W * |f b - f a| := by
  obtain ⟨h1, h2, h3⟩ := monotone_transport hf
  have hsub : Set.Ioo (-1 : ℝ) 1 ⊆ Set.Icc (-1) 1 := Set.Ioo_subset_Icc_self
  have h := (gauss_monotone' measurableSet_Ioo hwm hw hint hc hpos hex
    (fun q hq => ⟨gauss_nodes_gt hc hex hpos (fun _ hx => hx.1.le) q hq, gauss_nodes_lt hc hex hpos (fun _ hx => hx.2.le) q hq⟩) hW0 hW
    (h1.imp (fun h => h.mono hsub) (fun h => h.mono hsub)) (fun x hx => (h2 x (hsub hx)).1) (fun x hx => (h2 x (hsub hx)).2) (min_le_max)).2
  rw [interval_transport hab, ← mul_assoc c, mul_comm c, mul_assoc, ← mul_sub, abs_mul, abs_div, abs_two]
  rw [h3] at h
  calc _ ≤ |b - a| / 2 * (|f b - f a| * W) := mul_le_mul_of_nonneg_left h (by positivity)
    _ = _ := by ring

/-- C73 for both Gauss-Chebyshev rules on `[a, b]`: the error is at most `π/(2n)` resp. `π/(2(n+1))` times `|b - a| |f b - f a|` -/
theorem C73_chebyshev (mode : Overflow) {n : ℕ} (hn : 0 < n) (hlt : n + 1 < 2 ^ 64) {a b : ℝ} (hab : a ≠ b) {f : ℝ → ℝ}
    (hf : MonotoneOn f (Set.uIcc a b) ∨ AntitoneOn f (Set.uIcc a b)) :
    (∃ r : Rule ℝ, GaussChebyshevFirstKind.new mode n = some r ∧
      |(AnyRule.chebyshevFirst r).value a b f - ∫ t in a..b, f t * (1 / Real.sqrt (1 - ((2 * t - a - b) / (b - a)) ^ 2))| ≤ Real.pi / (2 * n) * |b - a| * |f b - f a|) ∧
    (∃ r : Rule ℝ, GaussChebyshevSecondKind.new mode n = some r ∧
      |(AnyRule.chebyshevSecond r).value a b f - ∫ t in a..b, f t * Real.sqrt (1 - ((2 * t - a - b) / (b - a)) ^ 2)| ≤ Real.pi / (2 * (n + 1)) * |b - a| * |f b - f a|) := by
  have hn' : (0 : ℝ) < n := by exact_mod_cast hn
  have hpi := Real.pi_pos
  refine ⟨⟨_, cheb1_new_eq hlt, ?_⟩, ⟨_, cheb2_new_eq hlt, ?_⟩⟩
  · have hW : ∀ q ∈ pairs1 n, q.2 ≤ Real.pi / n := fun q hq => by
      obtain ⟨i, -, rfl⟩ := List.mem_map.1 hq
      simp [GaussChebyshevFirstKind.pair]
    have h := interval_monotone chebW1_meas chebW1_nonneg integrableOn_cheb1 one_pos posDef_cheb1 (exact1 hn) (by positivity) hW hab hf
    rw [value_gauss_quad rfl]
    rw [one_mul] at h
    refine h.trans (le_of_eq ?_)
    field_simp
  · have hW : ∀ q ∈ pairs2 n, q.2 ≤ Real.pi / (n + 1) := fun q hq => by
      obtain ⟨i, -, rfl⟩ := List.mem_map.1 hq
      simp only [GaussChebyshevSecondKind.pair, real_pi, real_mul, real_add, real_div, real_ofNat, real_cos, real_sin, real_lit_one]
      set s := Real.sin (Real.pi * (i : ℝ) * (1 / ((n : ℝ) + 1)))
      have hs : s * s ≤ 1 := by have := Real.sin_sq_le_one (Real.pi * (i : ℝ) * (1 / ((n : ℝ) + 1))); nlinarith
      have h0 : 0 ≤ Real.pi * (1 / ((n : ℝ) + 1)) := by positivity
      calc Real.pi * (1 / ((n : ℝ) + 1)) * s * s = Real.pi * (1 / ((n : ℝ) + 1)) * (s * s) := by ring
        _ ≤ Real.pi * (1 / ((n : ℝ) + 1)) * 1 := mul_le_mul_of_nonneg_left hs h0
        _ = _ := by ring
    have h := interval_monotone chebW2_meas chebW2_nonneg integrableOn_cheb2 one_pos posDef_cheb2 (exact2 hn) (by positivity) hW hab hf
    rw [value_gauss_quad rfl]
    rw [one_mul] at h
    refine h.trans (le_of_eq ?_)
    field_simp

/-- C73 for Gauss-Jacobi outside the delegated pairs, where the rule is a Gauss rule -/
theorem C73_jacobi {ext : Externals ℝ} (hext : ExactSolver ext) (mode : Overflow) {n : ℕ} (hn : 0 < n) {α β : FiniteAboveNegOne ℝ} (hα : -1 < α.get) (hβ : -1 < β.get)
    (hs : α.get + β.get ≠ -1) (hd : ¬ Delegated α.get β.get) (hodd : n % 2 = 0 ∨ n = 1 ∨ α = β) :
    ∃ (r : JacobiRule ℝ) (c : ℝ), GaussJacobi.new mode ext n α β = some r ∧ |c - 1| ≤ 6e-12 ∧ ∀ (f : ℝ → ℝ) (W a b : ℝ), a ≠ b →
      MonotoneOn f (Set.uIcc a b) ∨ AntitoneOn f (Set.uIcc a b) → (∀ q ∈ r.asNodeWeightPairs, q.2 ≤ W) →
      |(AnyRule.jacobi r).value a b f - c * ∫ t in a..b, f t * ((1 - (2 * t - a - b) / (b - a)) ^ α.get * (1 + (2 * t - a - b) / (b - a)) ^ β.get)| ≤
        |b - a| / 2 * W * |f b - f a| := by
  obtain ⟨r, c, h1, hc, hc1, h2⟩ := jacobi_isGauss hext mode hn hα hβ hs hd hodd
  refine ⟨r, c, h1, hc1, fun f W a b hab hf hW => ?_⟩
  have hne : r.nodeWeightPairs ≠ [] := by rw [← List.length_pos_iff, h2.length]; exact hn
  obtain ⟨q, hq⟩ := List.exists_mem_of_ne_nil _ hne
  have hW0 : 0 ≤ W := (gauss_weights_pos hc h2.exact' (posDef_jacobi hα hβ) q hq).le.trans (hW q hq)
  rw [value_gauss_quad rfl]
  exact interval_monotone (jacW_meas _ _) (jacW_nonneg _ _) (integrable_jacobi hα hβ) hc (posDef_jacobi hα hβ) h2.exact' hW0 hW hab hf

/-- C73 for Gauss-Jacobi in the general branch at every degree, including the odd degrees at which the crate overwrites the middle node: the bound doubles -/
theorem C73_jacobi_overwritten {ext : Externals ℝ} (hext : ExactSolver ext) {n : ℕ} (hn : 0 < n) {α β : FiniteAboveNegOne ℝ} (hα : -1 < α.get) (hβ : -1 < β.get)
    (hs : α.get + β.get ≠ -1) :
    ∃ (r : JacobiRule ℝ) (c : ℝ), GaussJacobi.newGeneral ext n α β = some r ∧ |c - 1| ≤ 6e-12 ∧ ∀ (f : ℝ → ℝ) (W a b : ℝ), a ≠ b →
      MonotoneOn f (Set.uIcc a b) ∨ AntitoneOn f (Set.uIcc a b) → (∀ q ∈ r.asNodeWeightPairs, q.2 ≤ W) →
      |(AnyRule.jacobi r).value a b f - c * ∫ t in a..b, f t * ((1 - (2 * t - a - b) / (b - a)) ^ α.get * (1 + (2 * t - a - b) / (b - a)) ^ β.get)| ≤
        |b - a| * W * |f b - f a| := by
  obtain ⟨r, L, h1, h2, hw, he, ho, -⟩ := jacobi_general hext hn hα hβ hs
  have hc := jacobiFactor_pos hα hβ hs
  refine ⟨r, _, h1, C49_jacobi_factor hα hβ hs, fun f W a b hab hf hW => ?_⟩
  have hWL : ∀ q ∈ L, q.2 ≤ W := fun q hq => by
    have : q.2 ∈ r.nodeWeightPairs.map (·.2) := by rw [hw]; exact List.mem_map.2 ⟨q, hq, rfl⟩
    obtain ⟨q', hq', e⟩ := List.mem_map.1 this
    rw [← e]; exact hW q' hq'
  have hLpos := gauss_weights_pos hc h2.exact' (posDef_jacobi hα hβ)
  have hne : L ≠ [] := by rw [← List.length_pos_iff, h2.length]; exact hn
  obtain ⟨q, hq⟩ := List.exists_mem_of_ne_nil _ hne
  have hW0 : 0 ≤ W := (hLpos q hq).le.trans (hWL q hq)
  have hmain := interval_monotone (jacW_meas _ _) (jacW_nonneg _ _) (integrable_jacobi hα hβ) hc (posDef_jacobi hα hβ) h2.exact' hW0 hWL hab hf
  have hdiff : |(b - a) / 2 * quad r.nodeWeightPairs (fun x => f ((b - a) / 2 * x + (a + b) / 2)) - (b - a) / 2 * quad L (fun x => f ((b - a) / 2 * x + (a + b) / 2))| ≤
      |b - a| / 2 * W * |f b - f a| := by
    rcases Nat.mod_two_eq_zero_or_one n with h | h
    · rw [he h, sub_self, abs_zero]; positivity
    · obtain ⟨hlt, e⟩ := ho h
      have hmem := List.getElem_mem hlt
      rw [e, ← mul_sub, quad_set_sub, abs_mul, abs_mul, abs_of_pos (hLpos _ hmem), abs_div, abs_two, mul_assoc (|b - a| / 2)]
      refine mul_le_mul_of_nonneg_left (mul_le_mul (hWL _ hmem) ?_ (abs_nonneg _) hW0) (by positivity)
      obtain ⟨-, t2, t3⟩ := monotone_transport hf
      have k1 := t2 0 (by norm_num)
      have k2 := t2 (L[n / 2]).1 (Set.Ioo_subset_Icc_self (jacobi_nodes hα hβ h2 hc _ hmem))
      rw [← t3, abs_le]
      constructor <;> linarith [k1.1, k1.2, k2.1, k2.2]
  rw [value_gauss_quad rfl]
  refine (abs_sub_le _ ((b - a) / 2 * quad L (fun x => f ((b - a) / 2 * x + (a + b) / 2))) _).trans ?_
  refine (add_le_add hdiff hmain).trans (le_of_eq ?_)
  ring

/-! ### the Newton-Cotes rules -/

section
open intervalIntegral

theorem monotone_panel {f : ℝ → ℝ} {l m : ℝ} (hlm : l ≤ m) (hf : MonotoneOn f (Set.Icc l m)) : (m - l) * f l ≤ ∫ x in l..m, f x ∧ ∫ x in l..m, f x ≤ (m - l) * f m := by
  have hi : IntervalIntegrable f volume l m := MonotoneOn.intervalIntegrable (by rwa [Set.uIcc_of_le hlm])
  constructor
  · have := integral_mono_on hlm (intervalIntegrable_const (c := f l)) hi (fun x hx => hf (Set.left_mem_Icc.2 hlm) hx hx.1)
    simpa using this
  · have := integral_mono_on hlm hi (intervalIntegrable_const (c := f m)) (fun x hx => hf hx (Set.right_mem_Icc.2 hlm) hx.2)
    simpa using this

theorem composite_monotone_up {f : ℝ → ℝ} {a b : ℝ} (hab : a ≤ b) (hf : MonotoneOn f (Set.Icc a b)) {n : ℕ} (hn : 0 < n) :
    |(∫ x in a..b, f x) - compositeMidpoint n a b f| ≤ (b - a) / (2 * n) * (f b - f a) ∧
    |(∫ x in a..b, f x) - compositeTrapezoid n a b f| ≤ (b - a) / (2 * n) * (f b - f a) ∧
    |(∫ x in a..b, f x) - compositeSimpson n a b f| ≤ (b - a) / (3 * n) * (f b - f a) := by
  have hn' : (0 : ℝ) < n := by exact_mod_cast hn
  set h := (b - a) / n with hh
  have h0 : 0 ≤ h := div_nonneg (by linarith) hn'.le
  have en : a + (n : ℝ) * h = b := by rw [hh, mul_div_cancel₀ _ hn'.ne']; ring
  have geo : ∀ t : ℝ, 0 ≤ t → t ≤ n → a + t * h ∈ Set.Icc a b := fun t ht0 ht1 => by
    constructor
    · nlinarith [mul_nonneg ht0 h0]
    · rw [← en]; nlinarith [mul_nonneg (sub_nonneg.2 ht1) h0]
  have hsum := sum_integral_adjacent_intervals (μ := volume) (f := f) (a := fun k : ℕ => a + k * h) (n := n) (by
    intro k hk
    apply MonotoneOn.intervalIntegrable
    apply hf.mono
    exact Set.uIcc_subset_Icc (geo _ (Nat.cast_nonneg _) (by exact_mod_cast hk.le)) (geo _ (Nat.cast_nonneg _) (by exact_mod_cast hk)))
  simp only [Nat.cast_zero, zero_mul, add_zero, en] at hsum
  have htel : ∑ i ∈ Finset.range n, (f (a + (i + 1) * h) - f (a + i * h)) = f b - f a := by
    have := Finset.sum_range_sub (fun i : ℕ => f (a + i * h)) n
    simp only [Nat.cast_zero, zero_mul, add_zero, en] at this
    rw [← this]
    exact Finset.sum_congr rfl fun i _ => by push_cast; rfl
  -- bounds on every panel
  have panel : ∀ i ∈ Finset.range n, h / 2 * (f (a + i * h) + f (a + (i + 1 / 2) * h)) ≤ ∫ x in (a + i * h)..(a + (i + 1) * h), f x ∧
      ∫ x in (a + i * h)..(a + (i + 1) * h), f x ≤ h / 2 * (f (a + (i + 1 / 2) * h) + f (a + (i + 1) * h)) ∧
      f (a + i * h) ≤ f (a + (i + 1 / 2) * h) ∧ f (a + (i + 1 / 2) * h) ≤ f (a + (i + 1) * h) := by
    intro i hi
    have hi' : (i : ℝ) + 1 ≤ n := by exact_mod_cast Finset.mem_range.1 hi
    have hi0 : (0 : ℝ) ≤ i := Nat.cast_nonneg i
    have m1 := geo i hi0 (by linarith)
    have m2 := geo (i + 1 / 2) (by linarith) (by linarith)
    have m3 := geo (i + 1) (by linarith) hi'
    have l1 : a + i * h ≤ a + (i + 1 / 2) * h := by nlinarith
    have l2 : a + (i + 1 / 2) * h ≤ a + (i + 1) * h := by nlinarith
    have p1 := monotone_panel l1 (hf.mono (Set.Icc_subset_Icc m1.1 m2.2))
    have p2 := monotone_panel l2 (hf.mono (Set.Icc_subset_Icc m2.1 m3.2))
    have hsplit := integral_add_adjacent_intervals (μ := volume) (f := f) (a := a + i * h) (b := a + (i + 1 / 2) * h) (c := a + (i + 1) * h)
      (MonotoneOn.intervalIntegrable (hf.mono (Set.uIcc_subset_Icc m1 m2))) (MonotoneOn.intervalIntegrable (hf.mono (Set.uIcc_subset_Icc m2 m3)))
    have e1 : a + (i + 1 / 2) * h - (a + i * h) = h / 2 := by ring
    have e2 : a + (i + 1) * h - (a + (i + 1 / 2) * h) = h / 2 := by ring
    rw [e1] at p1
    rw [e2] at p2
    rw [← hsplit]
    refine ⟨?_, ?_, hf m1 m2 l1, hf m2 m3 l2⟩ <;> linarith [p1.1, p1.2, p2.1, p2.2]
  have fin : ∀ (κ : ℝ) (g : ℕ → ℝ), (∀ i ∈ Finset.range n, |(∫ x in (a + i * h)..(a + (i + 1) * h), f x) - g i| ≤ κ * (f (a + (i + 1) * h) - f (a + i * h))) →
      |(∫ x in a..b, f x) - ∑ i ∈ Finset.range n, g i| ≤ κ * (f b - f a) := by
    intro κ g hg
    rw [← hsum, ← Finset.sum_sub_distrib, ← htel, Finset.mul_sum]
    refine (Finset.abs_sum_le_sum_abs _ _).trans (Finset.sum_le_sum fun i hi => ?_)
    have := hg i hi
    push_cast
    exact this
  have ehalf : (b - a) / (2 * n) = h / 2 := by rw [hh]; field_simp
  have ethird : (b - a) / (3 * n) = h / 3 := by rw [hh]; field_simp
  rw [ehalf, ethird]
  refine ⟨?_, ?_, ?_⟩
  · rw [compositeMidpoint, Finset.mul_sum]
    refine fin _ _ fun i hi => ?_
    obtain ⟨q1, q2, q3, q4⟩ := panel i hi
    rw [abs_le]
    constructor <;> nlinarith [mul_le_mul_of_nonneg_left q3 h0, mul_le_mul_of_nonneg_left q4 h0]
  · rw [compositeTrapezoid, Finset.mul_sum]
    refine fin _ _ fun i hi => ?_
    obtain ⟨q1, q2, q3, q4⟩ := panel i hi
    rw [abs_le]
    constructor <;> nlinarith [mul_le_mul_of_nonneg_left q3 h0, mul_le_mul_of_nonneg_left q4 h0]
  · rw [compositeSimpson]
    refine fin _ _ fun i hi => ?_
    obtain ⟨q1, q2, q3, q4⟩ := panel i hi
    rw [abs_le]
    constructor <;> nlinarith [mul_le_mul_of_nonneg_left q3 h0, mul_le_mul_of_nonneg_left q4 h0]

theorem composite_neg (n : ℕ) (a b : ℝ) (f : ℝ → ℝ) : compositeMidpoint n a b (fun x => -f x) = -compositeMidpoint n a b f ∧
    compositeTrapezoid n a b (fun x => -f x) = -compositeTrapezoid n a b f ∧ compositeSimpson n a b (fun x => -f x) = -compositeSimpson n a b f := by
  refine ⟨?_, ?_, ?_⟩
  · simp only [compositeMidpoint, Finset.sum_neg_distrib]; ring
  · simp only [compositeTrapezoid, ← mul_neg, ← Finset.sum_neg_distrib]
    congr 1
    exact Finset.sum_congr rfl fun i _ => by ring
  · simp only [compositeSimpson, ← Finset.sum_neg_distrib]
    exact Finset.sum_congr rfl fun i _ => by ring

/-- C73 for the Newton-Cotes rules: for a monotone integrand on `[a, b]` the error of the midpoint and the trapezoid rule is at most `|b-a| |f b - f a| / (2n)`, that of the Simpson
rule at most `|b-a| |f b - f a| / (3n)` -/
theorem C73_newton_cotes {f : ℝ → ℝ} {a b : ℝ} (hf : MonotoneOn f (Set.uIcc a b) ∨ AntitoneOn f (Set.uIcc a b)) (r : NodeRule) :
    |(∫ x in a..b, f x) - (AnyRule.midpoint r).value a b f| ≤ |b - a| / (2 * r.degree) * |f b - f a| ∧
    |(∫ x in a..b, f x) - (AnyRule.trapezoid r).value a b f| ≤ |b - a| / (2 * r.degree) * |f b - f a| ∧
    |(∫ x in a..b, f x) - (AnyRule.simpson r).value a b f| ≤ |b - a| / (3 * r.degree) * |f b - f a| := by
  obtain ⟨e1, e2, e3⟩ := C29_formula r a b f
  rw [e1, e2, e3]
  have hn := r.pos
  generalize r.degree = n at *
  clear e1 e2 e3
  revert hf
  refine orient (P := fun a b => (MonotoneOn f (Set.uIcc a b) ∨ AntitoneOn f (Set.uIcc a b)) →
    |(∫ x in a..b, f x) - compositeMidpoint n a b f| ≤ |b - a| / (2 * n) * |f b - f a| ∧
    |(∫ x in a..b, f x) - compositeTrapezoid n a b f| ≤ |b - a| / (2 * n) * |f b - f a| ∧
    |(∫ x in a..b, f x) - compositeSimpson n a b f| ≤ |b - a| / (3 * n) * |f b - f a|) ?_ ?_ ?_ a b
  · intro a b h hf
    rw [Set.uIcc_comm] at hf
    obtain ⟨s1, s2, s3⟩ := composite_swap hn a b f
    have h1 : ∀ Y : ℝ, |(∫ x in b..a, f x) - -Y| = |(∫ x in a..b, f x) - Y| := fun Y => by
      rw [integral_symm, ← abs_neg]; congr 1; ring
    rw [s1, s2, s3, h1, h1, h1, abs_sub_comm a b, abs_sub_comm (f a)]
    exact h hf
  · intro a b hab hf
    rw [Set.uIcc_of_lt hab] at hf
    rw [abs_of_pos (sub_pos.2 hab)]
    have ma := Set.left_mem_Icc.2 hab.le
    have mb := Set.right_mem_Icc.2 hab.le
    rcases hf with hf | hf
    · rw [abs_of_nonneg (sub_nonneg.2 (hf ma mb hab.le))]
      exact composite_monotone_up hab.le hf hn
    · have h := composite_monotone_up hab.le hf.neg hn
      obtain ⟨s1, s2, s3⟩ := composite_neg n a b f
      have e : ∀ Y : ℝ, |(∫ x in a..b, -f x) - -Y| = |(∫ x in a..b, f x) - Y| := fun Y => by
        rw [intervalIntegral.integral_neg, ← abs_neg]; congr 1; ring
      simp only [s1, s2, s3, e] at h
      rw [abs_of_nonpos (sub_nonpos.2 (hf ma mb hab.le)), show -(f b - f a) = -f b - -f a by ring]
      exact h
  · intro a _
    simp [compositeMidpoint, compositeTrapezoid, compositeSimpson]

end

/-! ### a discontinuous integrand -/

/-- the unit step at 1/3 -/
noncomputable def step (x : ℝ) : ℝ := if x < 1 / 3 then 0 else 1

theorem step_mono : Monotone step := fun x y hxy => by
  unfold step
  split_ifs with h1 h2 h2 <;> linarith

theorem step_range (x : ℝ) : 0 ≤ step x ∧ step x ≤ 1 := by unfold step; split_ifs <;> norm_num

example : ∃ ext : Externals ℝ, ExactSolver ext ∧ ∃ r : Rule ℝ, GaussHermite.new ext 9 = some r ∧ ∀ W, (∀ q ∈ r.asNodeWeightPairs, q.2 ≤ W) →
    |(AnyRule.hermite r).value 0 0 step - ∫ x, step x * Real.exp (-x ^ 2)| ≤ W := by
  obtain ⟨r, h1, h2⟩ := C73_hermite exactSolver_exists (n := 9) (by norm_num)
  refine ⟨_, exactSolver_exists, r, h1, fun W hW => ?_⟩
  have := (h2 step 0 1 W 0 0 (Or.inl step_mono) step_range hW).2
  simpa using this

example : ∃ ext : Externals ℝ, ExactSolver ext ∧ ∃ (r : LaguerreRule ℝ) (c : ℝ), GaussLaguerre.new ext 9 ⟨1 / 2⟩ = some r ∧ |c - 1| ≤ 2e-12 ∧ ∀ W, (∀ q ∈ r.asNodeWeightPairs, q.2 ≤ W) →
    |(AnyRule.laguerre r).value 0 0 step - c * ∫ x in Set.Ioi 0, step x * (x ^ (1 / 2 : ℝ) * Real.exp (-x))| ≤ W := by
  obtain ⟨r, c, h1, hc, h2⟩ := C73_laguerre exactSolver_exists (n := 9) (by norm_num) (α := ⟨1 / 2⟩) (by norm_num)
  refine ⟨_, exactSolver_exists, r, c, h1, hc, fun W hW => ?_⟩
  have := (h2 step 0 1 W 0 0 (Or.inl (step_mono.monotoneOn _)) (fun x _ => step_range x) hW).2
  simpa using this

/-- the first-kind rule of degree 1000 integrates the step over [-1, 1] up to `π/1000` -/
example : ∃ r : Rule ℝ, GaussChebyshevFirstKind.new .checked 1000 = some r ∧
    |(AnyRule.chebyshevFirst r).value (-1) 1 step - ∫ t in (-1 : ℝ)..1, step t * (1 / Real.sqrt (1 - ((2 * t - -1 - 1) / (1 - -1)) ^ 2))| ≤ Real.pi / 1000 := by
  obtain ⟨r, h1, h2⟩ := (C73_chebyshev .checked (n := 1000) (by norm_num) (by norm_num) (a := -1) (b := 1) (by norm_num) (Or.inl (step_mono.monotoneOn _))).1
  refine ⟨r, h1, h2.trans (le_of_eq ?_)⟩
  have e1 : step 1 = 1 := by unfold step; norm_num
  have e2 : step (-1) = 0 := by unfold step; norm_num
  rw [e1, e2]
  norm_num
  ring

example : ∃ ext : Externals ℝ, ExactSolver ext ∧ ∃ (r : JacobiRule ℝ) (c : ℝ), GaussJacobi.new .checked ext 4 ⟨1⟩ ⟨0⟩ = some r ∧ |c - 1| ≤ 6e-12 ∧ ∀ (f : ℝ → ℝ) (W a b : ℝ), a ≠ b →
      MonotoneOn f (Set.uIcc a b) ∨ AntitoneOn f (Set.uIcc a b) → (∀ q ∈ r.asNodeWeightPairs, q.2 ≤ W) →
      |(AnyRule.jacobi r).value a b f - c * ∫ t in a..b, f t * ((1 - (2 * t - a - b) / (b - a)) ^ (1 : ℝ) * (1 + (2 * t - a - b) / (b - a)) ^ (0 : ℝ))| ≤
        |b - a| / 2 * W * |f b - f a| :=
  ⟨_, exactSolver_exists, C73_jacobi exactSolver_exists .checked (by norm_num) (α := ⟨1⟩) (β := ⟨0⟩) (by norm_num) (by norm_num) (by norm_num)
    (by rintro (⟨h, -⟩ | ⟨h, -⟩ | ⟨h, -⟩) <;> norm_num at h) (by norm_num)⟩

/-- degree 3 with `α = 1`, `β = 0`, where the middle node is overwritten -/
example : ∃ ext : Externals ℝ, ExactSolver ext ∧ ∃ (r : JacobiRule ℝ) (c : ℝ), GaussJacobi.newGeneral ext 3 ⟨1⟩ ⟨0⟩ = some r ∧ |c - 1| ≤ 6e-12 ∧ ∀ W, (∀ q ∈ r.asNodeWeightPairs, q.2 ≤ W) →
    |(AnyRule.jacobi r).value (-1) 1 step - c * ∫ t in (-1 : ℝ)..1, step t * ((1 - (2 * t - -1 - 1) / (1 - -1)) ^ (1 : ℝ) * (1 + (2 * t - -1 - 1) / (1 - -1)) ^ (0 : ℝ))| ≤
      |1 - -1| * W * |step 1 - step (-1)| := by
  obtain ⟨r, c, h1, hc, h2⟩ := C73_jacobi_overwritten exactSolver_exists (n := 3) (by norm_num) (α := ⟨1⟩) (β := ⟨0⟩) (by norm_num) (by norm_num) (by norm_num)
  exact ⟨_, exactSolver_exists, r, c, h1, hc, fun W hW => h2 step W (-1) 1 (by norm_num) (Or.inl (step_mono.monotoneOn _)) hW⟩

/-- 1000 panels of the Simpson rule integrate the step over [0, 1] up to 1/3000 -/
example : |(∫ x in (0 : ℝ)..1, step x) - (AnyRule.simpson ⟨1000, by decide, by decide⟩).value 0 1 step| ≤ 1 / 3000 := by
  refine ((C73_newton_cotes (Or.inl (step_mono.monotoneOn _)) _).2.2).trans (le_of_eq ?_)
  have e1 : step 1 = 1 := by unfold step; norm_num
  have e2 : step 0 = 0 := by unfold step; norm_num
  rw [e1, e2]
  norm_num

end GaussQuad.Props
