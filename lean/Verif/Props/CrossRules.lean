import Verif.Proofs.Quadratic
import Verif.Props.Interlacing
import Verif.Props.NodeSums

/-!
# C105: rules of different families agree

Quadratic transformations relate rules that the crate builds from different matrices: Gauss-Hermite (`/repo/src/hermite/mod.rs`) with Gauss-Laguerre
(`/repo/src/laguerre/mod.rs`), and Gauss-Jacobi (`/repo/src/jacobi/mod.rs`) with equal parameters with Gauss-Jacobi with one parameter `±1/2`.
-/

namespace GaussQuad.Props
open Polynomial Spec FloatOps MeasureTheory

/-- C105: the Gauss-Hermite rule of degree `2n` is the Gauss-Laguerre rule of degree `n` with `α = -1/2` in the variable `x²` -/
theorem C105_hermite_even {ext : Externals ℝ} (hext : ExactSolver ext) {n : ℕ} (hn : 0 < n) :
    ∃ (h : Rule ℝ) (l : LaguerreRule ℝ) (c : ℝ), GaussHermite.new ext (2 * n) = some h ∧ GaussLaguerre.new ext n ⟨-1 / 2⟩ = some l ∧ |c - 1| ≤ 2e-12 ∧
      h.asNodeWeightPairs = (l.asNodeWeightPairs.map fun p => (-Real.sqrt p.1, p.2 / (2 * c))).reverse ++
        l.asNodeWeightPairs.map fun p => (Real.sqrt p.1, p.2 / (2 * c)) := by
  have hα : (-1 : ℝ) < -1 / 2 := by norm_num
  obtain ⟨h, h1, h2⟩ := hermite_gauss hext (n := 2 * n) (by omega)
  obtain ⟨l, l1, -, l2⟩ := laguerre_gauss hext hn ⟨-1 / 2⟩ hα
  have hc := laguerre_factor_pos hα
  have hc1 := C49_gamma_accurate (x := -1 / 2 + 1) (fun m h => by
    have : (0 : ℝ) ≤ m := Nat.cast_nonneg m
    linarith)
  rw [show FiniteAboveNegOne.get (⟨-1 / 2⟩ : FiniteAboveNegOne ℝ) = -1 / 2 from rfl] at l2
  set c : ℝ := gamma (-1 / 2 + 1 : ℝ) / Real.Gamma (-1 / 2 + 1)
  refine ⟨h, l, c, h1, l1, hc1, ?_⟩
  have hpos : ∀ p ∈ l.nodeWeightPairs, 0 < p.1 := gauss_nodes_gt hc l2.exact' (posDef_laguerre hα) (fun x hx => (show (0 : ℝ) < x from hx).le)
  set L : List (ℝ × ℝ) := l.nodeWeightPairs.map fun p => (Real.sqrt p.1, p.2 / (2 * c)) with hL
  have hG : IsGauss (mirrored L []) (2 * n) Set.univ hermW 1 := by
    refine isGauss_mirrored integrable_hermite hermite_reflect ?_ ?_ (by simp) (by simp [hL, l2.length]) fun k hk => ?_
    · rw [hL, List.pairwise_map]; exact l2.sorted.imp fun h => Real.sqrt_le_sqrt h
    · intro p hp
      obtain ⟨q, -, rfl⟩ := List.mem_map.1 hp
      exact Real.sqrt_nonneg _
    · rw [one_mul, hermite_laguerre_moment, show quad [] (fun x => x ^ (2 * k)) = 0 from rfl, add_zero]
      have e := l2.exact' (X ^ k) (by rw [natDegree_X_pow, l2.length]; omega)
      have e2 : 2 * quad L (fun x => x ^ (2 * k)) = 1 / c * quad l.nodeWeightPairs (fun x => (X ^ k : ℝ[X]).eval x) := by
        rw [hL, quad, quad, List.map_map, ← List.sum_map_mul_left, ← List.sum_map_mul_left]
        congr 1
        apply List.map_congr_left
        intro p hp
        simp only [Function.comp_apply, eval_pow, eval_X]
        rw [pow_mul, Real.sq_sqrt (hpos p hp).le]
        field_simp
      rw [e2, e]
      field_simp
  have := IsGauss.unique h2 hG one_pos posDef_hermite
  show h.nodeWeightPairs = _
  rw [this, mirrored, hL, List.map_map]
  rfl

/-- C105: the Gauss-Hermite rule of degree `2n+1` is the Gauss-Laguerre rule of degree `n` with `α = 1/2` in the variable `x²`, and a node 0 -/
theorem C105_hermite_odd {ext : Externals ℝ} (hext : ExactSolver ext) {n : ℕ} (hn : 0 < n) :
    ∃ (h : Rule ℝ) (l : LaguerreRule ℝ) (c w : ℝ), GaussHermite.new ext (2 * n + 1) = some h ∧ GaussLaguerre.new ext n ⟨1 / 2⟩ = some l ∧ |c - 1| ≤ 2e-12 ∧ 0 < w ∧
      h.asNodeWeightPairs = (l.asNodeWeightPairs.map fun p => (-Real.sqrt p.1, p.2 / (2 * c * p.1))).reverse ++
        (0, w) :: l.asNodeWeightPairs.map fun p => (Real.sqrt p.1, p.2 / (2 * c * p.1)) := by
  have hα : (-1 : ℝ) < 1 / 2 := by norm_num
  obtain ⟨h, h1, h2⟩ := hermite_gauss hext (n := 2 * n + 1) (by omega)
  obtain ⟨l, l1, -, l2⟩ := laguerre_gauss hext hn ⟨1 / 2⟩ hα
  have hc := laguerre_factor_pos hα
  have hc1 := C49_gamma_accurate (x := 1 / 2 + 1) (fun m h => by
    have : (0 : ℝ) ≤ m := Nat.cast_nonneg m
    linarith)
  rw [show FiniteAboveNegOne.get (⟨1 / 2⟩ : FiniteAboveNegOne ℝ) = 1 / 2 from rfl] at l2
  set c : ℝ := gamma (1 / 2 + 1 : ℝ) / Real.Gamma (1 / 2 + 1)
  have hpos : ∀ p ∈ l.nodeWeightPairs, 0 < p.1 := gauss_nodes_gt hc l2.exact' (posDef_laguerre hα) (fun x hx => (show (0 : ℝ) < x from hx).le)
  set L : List (ℝ × ℝ) := l.nodeWeightPairs.map fun p => (Real.sqrt p.1, p.2 / (2 * c * p.1)) with hL
  obtain ⟨w, hw⟩ : ∃ w, w = weightIntegral Set.univ hermW (X ^ (2 * 0)) - 2 * quad L (fun x => x ^ (2 * 0)) := ⟨_, rfl⟩
  have hG : IsGauss (mirrored L [(0, w)]) (2 * n + 1) Set.univ hermW 1 := by
    refine isGauss_mirrored integrable_hermite hermite_reflect ?_ ?_ (by simp) (by simp [hL, l2.length]) fun k hk => ?_
    · rw [hL, List.pairwise_map]; exact l2.sorted.imp fun h => Real.sqrt_le_sqrt h
    · intro p hp
      obtain ⟨q, -, rfl⟩ := List.mem_map.1 hp
      exact Real.sqrt_nonneg _
    · rcases Nat.eq_zero_or_pos k with rfl | hk0
      · rw [one_mul, show quad [(0, w)] (fun x => x ^ (2 * 0)) = w by simp [quad], hw]; ring
      obtain ⟨k, rfl⟩ : ∃ j, k = j + 1 := ⟨k - 1, by omega⟩
      rw [one_mul, hermite_laguerre_moment, ← lagW_shift, show quad [(0, w)] (fun x => x ^ (2 * (k + 1))) = 0 by simp [quad], add_zero]
      have e := l2.exact' (X ^ k) (by rw [natDegree_X_pow, l2.length]; omega)
      have e2 : 2 * quad L (fun x => x ^ (2 * (k + 1))) = 1 / c * quad l.nodeWeightPairs (fun x => (X ^ k : ℝ[X]).eval x) := by
        rw [hL, quad, quad, List.map_map, ← List.sum_map_mul_left, ← List.sum_map_mul_left]
        congr 1
        apply List.map_congr_left
        intro p hp
        have := hpos p hp
        simp only [Function.comp_apply, eval_pow, eval_X]
        rw [pow_mul, Real.sq_sqrt (hpos p hp).le, pow_succ]
        field_simp
      rw [e2, e]
      field_simp
  have := IsGauss.unique h2 hG one_pos posDef_hermite
  refine ⟨h, l, c, w, h1, l1, hc1, gauss_weights_pos one_pos hG.exact' posDef_hermite (0, w) (by simp [mirrored]), ?_⟩
  show h.nodeWeightPairs = _
  rw [this, mirrored, hL, List.map_map]
  rfl

theorem ratio_close {a b : ℝ} (ha : |a - 1| ≤ 6e-12) (hb : |b - 1| ≤ 6e-12) : |a / b - 1| ≤ 1.3e-11 := by
  have h1 := abs_le.1 ha
  have h2 := abs_le.1 hb
  have hb0 : 0 < b := by linarith [h2.1]
  rw [div_sub_one hb0.ne', abs_div, abs_of_pos hb0, div_le_iff₀ hb0, abs_le]
  norm_num at h1 h2 ⊢
  constructor <;> linarith [h1.1, h1.2, h2.1, h2.2]

/-- the list of the positive nodes -/
theorem jacobi_mirrored_even {L : List (ℝ × ℝ)} {n : ℕ} {α c d : ℝ} (hα : -1 < α) (hd : 0 < d)
    (h : IsGauss L n (Set.Ioo (-1) 1) (jacW α (-1 / 2)) d) :
    IsGauss (mirrored (L.map fun p => (Real.sqrt ((1 + p.1) / 2), c / d * p.2 / 2 ^ (α + 3 / 2))) []) (2 * n) (Set.Ioo (-1) 1) (jacW α α) c := by
  have hpos : ∀ p ∈ L, 0 < (1 + p.1) / 2 := fun p hp => by linarith [(jacobi_nodes hα (by norm_num) h hd p hp).1]
  refine isGauss_mirrored (integrable_jacobi hα hα) (jacobi_reflect α α) ?_ ?_ (by simp) (by simp [h.length]) fun k hk => ?_
  · rw [List.pairwise_map]; exact h.sorted.imp fun h => Real.sqrt_le_sqrt (by linarith)
  · intro p hp
    obtain ⟨q, -, rfl⟩ := List.mem_map.1 hp
    exact Real.sqrt_nonneg _
  · rw [show quad [] (fun x => x ^ (2 * k)) = 0 from rfl, add_zero]
    have e := h.exact' ((C (1 / 2) * X + C (1 / 2)) ^ k) (by
      refine natDegree_pow_le.trans ((Nat.mul_le_mul le_rfl natDegree_linear_le).trans ?_)
      rw [h.length]; omega)
    rw [jacobi_quadratic_moment] at e
    have e3 : (2 : ℝ) ^ (α + 3 / 2) = 2 ^ (α + 1 / 2) * 2 := by
      rw [show α + 3 / 2 = α + 1 / 2 + 1 by ring, Real.rpow_add (by norm_num) (α + 1 / 2), Real.rpow_one]
    have h2 : (0 : ℝ) < 2 ^ (α + 1 / 2) := by positivity
    have e2 : 2 * quad (L.map fun p => (Real.sqrt ((1 + p.1) / 2), c / d * p.2 / 2 ^ (α + 3 / 2))) (fun x => x ^ (2 * k)) =
        c / (d * 2 ^ (α + 1 / 2)) * quad L (fun x => ((C (1 / 2) * X + C (1 / 2)) ^ k : ℝ[X]).eval x) := by
      rw [quad, quad, List.map_map, ← List.sum_map_mul_left, ← List.sum_map_mul_left]
      congr 1
      apply List.map_congr_left
      intro p hp
      simp only [Function.comp_apply, eval_pow, eval_add, eval_mul, eval_C, eval_X]
      rw [pow_mul, Real.sq_sqrt (hpos p hp).le, e3, show 1 / 2 * p.1 + 1 / 2 = (1 + p.1) / 2 by ring]
      field_simp
    rw [e2, e]
    field_simp

/-- C105: the Gauss-Jacobi rule of degree `2n` for `(α, α)` is the Gauss-Jacobi rule of degree `n` for `(α, -1/2)` in the variable `2x² - 1` -/
theorem C105_jacobi_even {ext : Externals ℝ} (hext : ExactSolver ext) (mode : Overflow) {n : ℕ} (hn : 0 < n) (hodd : n % 2 = 0 ∨ n = 1) {α : FiniteAboveNegOne ℝ}
    (hα : -1 < α.get) (h0 : α.get ≠ 0) (h1 : α.get ≠ -1 / 2) (h2 : α.get ≠ 1 / 2) :
    ∃ (r s : JacobiRule ℝ) (c : ℝ), GaussJacobi.new mode ext (2 * n) α α = some r ∧ GaussJacobi.new mode ext n α ⟨-1 / 2⟩ = some s ∧ |c - 1| ≤ 1.3e-11 ∧
      r.asNodeWeightPairs = (s.asNodeWeightPairs.map fun p => (-Real.sqrt ((1 + p.1) / 2), c * p.2 / 2 ^ (α.get + 3 / 2))).reverse ++
        s.asNodeWeightPairs.map fun p => (Real.sqrt ((1 + p.1) / 2), c * p.2 / 2 ^ (α.get + 3 / 2)) := by
  have g12 : FiniteAboveNegOne.get (⟨-1 / 2⟩ : FiniteAboveNegOne ℝ) = -1 / 2 := rfl
  obtain ⟨r, c, r1, hc, hc1, r2⟩ := jacobi_isGauss hext mode (n := 2 * n) (by omega) hα hα (by intro h; apply h1; linarith)
    (by rintro (⟨h, -⟩ | ⟨h, -⟩ | ⟨h, -⟩); exacts [h0 h, h1 h, h2 h]) (Or.inl (by omega))
  obtain ⟨s, d, s1, hd, hd1, s2⟩ := jacobi_isGauss hext mode hn hα (β := ⟨-1 / 2⟩) (by rw [g12]; norm_num) (by rw [g12]; intro h; apply h1; linarith)
    (by rw [g12]; rintro (⟨h, -⟩ | ⟨h, -⟩ | ⟨h, -⟩); exacts [h0 h, h1 h, h2 h]) (by rcases hodd with h | h; exacts [Or.inl h, Or.inr (Or.inl h)])
  rw [g12] at s2
  refine ⟨r, s, c / d, r1, s1, ratio_close hc1 hd1, ?_⟩
  have := IsGauss.unique r2 (jacobi_mirrored_even (c := c) hα hd s2) hc (posDef_jacobi hα hα)
  show r.nodeWeightPairs = _
  rw [this, mirrored, List.map_map]
  rfl

/-- C105: the Gauss-Jacobi rule of degree `2n+1` for `(α, α)` is the Gauss-Jacobi rule of degree `n` for `(α, 1/2)` in the variable `2x² - 1`, and a node 0 -/
theorem C105_jacobi_odd {ext : Externals ℝ} (hext : ExactSolver ext) (mode : Overflow) {n : ℕ} (hn : 0 < n) (hodd : n % 2 = 0 ∨ n = 1) {α : FiniteAboveNegOne ℝ}
    (hα : -1 < α.get) (h0 : α.get ≠ 0) (h1 : α.get ≠ -1 / 2) (h2 : α.get ≠ 1 / 2) :
    ∃ (r s : JacobiRule ℝ) (c w : ℝ), GaussJacobi.new mode ext (2 * n + 1) α α = some r ∧ GaussJacobi.new mode ext n α ⟨1 / 2⟩ = some s ∧ |c - 1| ≤ 1.3e-11 ∧ 0 < w ∧
      r.asNodeWeightPairs = (s.asNodeWeightPairs.map fun p => (-Real.sqrt ((1 + p.1) / 2), c * p.2 / (2 ^ (α.get + 3 / 2) * (1 + p.1)))).reverse ++
        (0, w) :: s.asNodeWeightPairs.map fun p => (Real.sqrt ((1 + p.1) / 2), c * p.2 / (2 ^ (α.get + 3 / 2) * (1 + p.1))) := by
  have g12 : FiniteAboveNegOne.get (⟨1 / 2⟩ : FiniteAboveNegOne ℝ) = 1 / 2 := rfl
  obtain ⟨r, c, r1, hc, hc1, r2⟩ := jacobi_isGauss hext mode (n := 2 * n + 1) (by omega) hα hα (by intro h; apply h1; linarith)
    (by rintro (⟨h, -⟩ | ⟨h, -⟩ | ⟨h, -⟩); exacts [h0 h, h1 h, h2 h]) (Or.inr (Or.inr rfl))
  obtain ⟨s, d, s1, hd, hd1, s2⟩ := jacobi_isGauss hext mode hn hα (β := ⟨1 / 2⟩) (by rw [g12]; norm_num) (by rw [g12]; intro h; linarith)
    (by rw [g12]; rintro (⟨h, -⟩ | ⟨h, -⟩ | ⟨h, -⟩); exacts [h0 h, h1 h, h2 h]) (by rcases hodd with h | h; exacts [Or.inl h, Or.inr (Or.inl h)])
  rw [g12] at s2
  have hpos : ∀ p ∈ s.nodeWeightPairs, 0 < 1 + p.1 := fun p hp => by linarith [(jacobi_nodes hα (by norm_num) s2 hd p hp).1]
  set L : List (ℝ × ℝ) := s.nodeWeightPairs.map fun p => (Real.sqrt ((1 + p.1) / 2), c / d * p.2 / (2 ^ (α.get + 3 / 2) * (1 + p.1))) with hL
  obtain ⟨w, hw⟩ : ∃ w, w = c * weightIntegral (Set.Ioo (-1) 1) (jacW α.get α.get) (X ^ (2 * 0)) - 2 * quad L (fun x => x ^ (2 * 0)) := ⟨_, rfl⟩
  have hG : IsGauss (mirrored L [(0, w)]) (2 * n + 1) (Set.Ioo (-1) 1) (jacW α.get α.get) c := by
    refine isGauss_mirrored (integrable_jacobi hα hα) (jacobi_reflect α.get α.get) ?_ ?_ (by simp) (by simp [hL, s2.length]) fun k hk => ?_
    · rw [hL, List.pairwise_map]; exact s2.sorted.imp fun h => Real.sqrt_le_sqrt (by linarith)
    · intro p hp
      obtain ⟨q, -, rfl⟩ := List.mem_map.1 hp
      exact Real.sqrt_nonneg _
    · rcases Nat.eq_zero_or_pos k with rfl | hk0
      · rw [show quad [(0, w)] (fun x => x ^ (2 * 0)) = w by simp [quad], hw]; ring
      obtain ⟨k, rfl⟩ : ∃ j, k = j + 1 := ⟨k - 1, by omega⟩
      rw [show quad [(0, w)] (fun x => x ^ (2 * (k + 1))) = 0 by simp [quad], add_zero]
      have e := s2.exact' ((C (1 / 2) * X + C (1 / 2)) ^ k) (by
        refine natDegree_pow_le.trans ((Nat.mul_le_mul le_rfl natDegree_linear_le).trans ?_)
        rw [s2.length]; omega)
      rw [jacW_shift, jacobi_quadratic_moment] at e
      have e3 : (2 : ℝ) ^ (α.get + 3 / 2) = 2 ^ (α.get + 1 / 2) * 2 := by
        rw [show α.get + 3 / 2 = α.get + 1 / 2 + 1 by ring, Real.rpow_add (by norm_num) (α.get + 1 / 2), Real.rpow_one]
      have h2 : (0 : ℝ) < 2 ^ (α.get + 1 / 2) := by positivity
      have e2 : 2 * quad L (fun x => x ^ (2 * (k + 1))) =
          c / (2 * d * 2 ^ (α.get + 1 / 2)) * quad s.nodeWeightPairs (fun x => ((C (1 / 2) * X + C (1 / 2)) ^ k : ℝ[X]).eval x) := by
        rw [hL, quad, quad, List.map_map, ← List.sum_map_mul_left, ← List.sum_map_mul_left]
        congr 1
        apply List.map_congr_left
        intro p hp
        have hp0 := hpos p hp
        simp only [Function.comp_apply, eval_pow, eval_add, eval_mul, eval_C, eval_X]
        rw [pow_mul, Real.sq_sqrt (by linarith), e3, show 1 / 2 * p.1 + 1 / 2 = (1 + p.1) / 2 by ring, pow_succ]
        field_simp
      rw [e2, e]
      field_simp
  have := IsGauss.unique r2 hG hc (posDef_jacobi hα hα)
  refine ⟨r, s, c / d, w, r1, s1, ratio_close hc1 hd1, gauss_weights_pos hc hG.exact' (posDef_jacobi hα hα) (0, w) (by simp [mirrored]), ?_⟩
  show r.nodeWeightPairs = _
  rw [this, mirrored, hL, List.map_map]
  rfl

theorem rangeRev_double (n : ℕ) : rangeRev (2 * n + 1) = (List.range' (n + 1) n).reverse ++ rangeRev (n + 1) := by
  unfold rangeRev
  rw [show 2 * n + 1 - 1 = n + n by omega, show n + 1 - 1 = n by omega, ← List.reverse_append, ← List.range'_append_1, show 1 + n = n + 1 by omega]

/-- C105: for the parameters `1/2` and `-1/2` (Chebyshev polynomials of the fourth kind) the Gauss-Jacobi rule, which the code gets from an eigenvalue problem, has the closed form
`cos(2jπ/(2n+1))`, `4π/(2n+1) sin²(jπ/(2n+1))`, `j = n, …, 1`, up to the gamma factor `c` of the weights -/
theorem C105_chebyshev {ext : Externals ℝ} (hext : ExactSolver ext) (mode : Overflow) {n : ℕ} (hn : 0 < n) (hodd : n % 2 = 0 ∨ n = 1) :
    ∃ (s : JacobiRule ℝ) (c : ℝ), GaussJacobi.new mode ext n ⟨1 / 2⟩ ⟨-1 / 2⟩ = some s ∧ |c - 1| ≤ 6e-12 ∧
      s.asNodeWeightPairs = (List.range n).reverse.map fun i : ℕ =>
        (Real.cos (2 * (i + 1) * Real.pi / (2 * n + 1)), c * (4 * Real.pi / (2 * n + 1) * Real.sin ((i + 1) * Real.pi / (2 * n + 1)) ^ 2)) := by
  have g12 : FiniteAboveNegOne.get (⟨-1 / 2⟩ : FiniteAboveNegOne ℝ) = -1 / 2 := rfl
  have g11 : FiniteAboveNegOne.get (⟨1 / 2⟩ : FiniteAboveNegOne ℝ) = 1 / 2 := rfl
  have hα : (-1 : ℝ) < 1 / 2 := by norm_num
  obtain ⟨s, d, s1, hd, hd1, s2⟩ := jacobi_isGauss hext mode hn (α := ⟨1 / 2⟩) hα (β := ⟨-1 / 2⟩) (by rw [g12]; norm_num) (by rw [g12, g11]; norm_num)
    (by rw [g12, g11]; rintro (⟨h, -⟩ | ⟨h, -⟩ | ⟨-, h⟩) <;> norm_num at h) (by rcases hodd with h | h; exacts [Or.inl h, Or.inr (Or.inl h)])
  rw [g12, g11] at s2
  refine ⟨s, d, s1, hd1, ?_⟩
  have hcheb : ∀ p : ℝ[X], weightIntegral (Set.Ioo (-1) 1) chebW2 p = weightIntegral (Set.Ioo (-1) 1) (jacW (1 / 2) (1 / 2)) p := by
    intro p
    apply setIntegral_congr_fun measurableSet_Ioo
    intro x hx
    simp only [chebW2, jacW]
    rw [← Real.mul_rpow (by linarith [hx.2]) (by linarith [hx.1]), Real.sqrt_eq_rpow]
    congr 2; ring
  have hpair : ∀ i : ℕ, (GaussChebyshevSecondKind.pair (2 * n) i : ℝ × ℝ) =
      (Real.cos (i * Real.pi / (2 * n + 1)), Real.pi / (2 * n + 1) * Real.sin (i * Real.pi / (2 * n + 1)) ^ 2) := by
    intro i
    simp only [GaussChebyshevSecondKind.pair, real_pi, real_mul, real_add, real_div, real_ofNat, real_cos, real_sin, real_lit_one]
    push_cast
    rw [show Real.pi * i * (1 / (2 * (n : ℝ) + 1)) = i * Real.pi / (2 * n + 1) by ring]
    refine Prod.ext rfl ?_
    simp only
    ring
  have hsorted : (pairs2 (2 * n)).Pairwise fun p q => p.1 ≤ q.1 := by
    unfold pairs2 rangeRev
    rw [List.pairwise_map, List.pairwise_reverse, List.pairwise_iff_getElem]
    intro i j hi hj hij
    rw [List.length_range'] at hi hj
    rw [List.getElem_range', List.getElem_range', hpair, hpair]
    have hn0 : (0 : ℝ) < 2 * n + 1 := by positivity
    have hj' : ((1 + 1 * j : ℕ) : ℝ) ≤ 2 * n + 1 := by exact_mod_cast (by omega : 1 + 1 * j ≤ 2 * n + 1)
    have hij' : ((1 + 1 * i : ℕ) : ℝ) ≤ ((1 + 1 * j : ℕ) : ℝ) := by exact_mod_cast (by omega : 1 + 1 * i ≤ 1 + 1 * j)
    refine Real.cos_le_cos_of_nonneg_of_le_pi (by positivity) ?_ ?_
    · rw [div_le_iff₀ hn0, mul_comm]; exact mul_le_mul_of_nonneg_left hj' Real.pi_pos.le
    · exact div_le_div_of_nonneg_right (mul_le_mul_of_nonneg_right hij' Real.pi_pos.le) hn0.le
  have hC : IsGauss (pairs2 (2 * n)) (2 * n) (Set.Ioo (-1) 1) (jacW (1 / 2) (1 / 2)) 1 := by
    refine ⟨length_pairs2 _, hsorted, fun p hp => ?_⟩
    rw [length_pairs2] at hp
    rw [cheb2_exact (by omega) p hp, hcheb]
  have hE := IsGauss.unique (jacobi_mirrored_even (c := 1) hα hd s2) hC one_pos (posDef_jacobi hα hα)
  rw [mirrored, List.nil_append, pairs2, rangeRev_double, List.map_append] at hE
  have hE2 := (List.append_inj hE (by simp [s2.length])).2
  have e4 : (2 : ℝ) ^ ((1 : ℝ) / 2 + 3 / 2) = 4 := by norm_num
  have hback := congrArg (List.map fun q : ℝ × ℝ => (2 * q.1 ^ 2 - 1, d * 4 * q.2)) hE2
  rw [List.map_map, List.map_map] at hback
  have hl : s.nodeWeightPairs.map ((fun q : ℝ × ℝ => (2 * q.1 ^ 2 - 1, d * 4 * q.2)) ∘ fun p : ℝ × ℝ => (Real.sqrt ((1 + p.1) / 2), 1 / d * p.2 / 2 ^ ((1 : ℝ) / 2 + 3 / 2))) =
      s.nodeWeightPairs := by
    refine (List.map_congr_left (g := id) fun p hp => ?_).trans (List.map_id _)
    have := (jacobi_nodes hα (by norm_num) s2 hd p hp).1
    simp only [Function.comp_apply, id]
    rw [Real.sq_sqrt (by linarith), e4]
    refine Prod.ext ?_ ?_
    · simp only; ring
    · simp only; field_simp
  rw [hl] at hback
  show s.nodeWeightPairs = _
  rw [hback]
  unfold rangeRev
  rw [show n + 1 - 1 = n by omega, List.range'_eq_map_range, ← List.map_reverse, List.map_map]
  apply List.map_congr_left
  intro i _
  simp only [Function.comp_apply]
  rw [hpair]
  push_cast
  refine Prod.ext ?_ ?_
  · simp only
    rw [← Real.cos_two_mul]
    congr 1; ring
  · simp only
    rw [show (1 : ℝ) + i = i + 1 by ring]
    ring

/-- the nodes of the Gauss-Hermite rules of degrees 2 and 3 are `±√(1/2)`, and `0` and `±√(3/2)` -/
example {ext : Externals ℝ} (hext : ExactSolver ext) :
    (∃ h : Rule ℝ, GaussHermite.new ext 2 = some h ∧ h.asNodeWeightPairs.map Prod.fst = [-Real.sqrt (1 / 2), Real.sqrt (1 / 2)]) ∧
    ∃ h : Rule ℝ, GaussHermite.new ext 3 = some h ∧ h.asNodeWeightPairs.map Prod.fst = [-Real.sqrt (3 / 2), 0, Real.sqrt (3 / 2)] := by
  have key : ∀ (a : ℝ) (l : LaguerreRule ℝ), -1 < a → GaussLaguerre.new ext 1 ⟨a⟩ = some l → ∃ w, l.asNodeWeightPairs = [(1 + a, w)] := by
    intro a l ha hl
    obtain ⟨l', h1, h2, -⟩ := C104_laguerre hext (n := 1) one_pos (α := ⟨a⟩) ha
    obtain ⟨l'', h1', -, h3⟩ := laguerre_gauss hext (n := 1) one_pos ⟨a⟩ ha
    obtain rfl : l = l' := Option.some.inj (hl.symm.trans h1)
    obtain rfl : l = l'' := Option.some.inj (hl.symm.trans h1')
    have hlen := h3.length
    change l.asNodeWeightPairs.length = 1 at hlen
    obtain ⟨⟨x, w⟩, hx⟩ := List.length_eq_one_iff.1 hlen
    rw [hx] at h2 ⊢
    simp only [List.map_cons, List.map_nil, List.sum_cons, List.sum_nil, add_zero, Nat.cast_one, one_mul] at h2
    exact ⟨w, by rw [h2]; rfl⟩
  constructor
  · obtain ⟨h, l, c, h1, l1, -, e⟩ := C105_hermite_even hext (n := 1) one_pos
    obtain ⟨w, hw⟩ := key _ l (by norm_num) l1
    refine ⟨h, h1, ?_⟩
    rw [e, hw]
    norm_num
  · obtain ⟨h, l, c, w', h1, l1, -, -, e⟩ := C105_hermite_odd hext (n := 1) one_pos
    obtain ⟨w, hw⟩ := key _ l (by norm_num) l1
    refine ⟨h, h1, ?_⟩
    rw [e, hw]
    norm_num

/-- degrees 4 and 5 with `α = 1`, from degree 2 with `(1, -1/2)` and `(1, 1/2)` -/
example {ext : Externals ℝ} (hext : ExactSolver ext) :
    (∃ (r s : JacobiRule ℝ) (c : ℝ), GaussJacobi.new .checked ext 4 ⟨1⟩ ⟨1⟩ = some r ∧ GaussJacobi.new .checked ext 2 ⟨1⟩ ⟨-1 / 2⟩ = some s ∧ |c - 1| ≤ 1.3e-11 ∧
      r.asNodeWeightPairs = (s.asNodeWeightPairs.map fun p => (-Real.sqrt ((1 + p.1) / 2), c * p.2 / 2 ^ ((5 : ℝ) / 2))).reverse ++
        s.asNodeWeightPairs.map fun p => (Real.sqrt ((1 + p.1) / 2), c * p.2 / 2 ^ ((5 : ℝ) / 2))) ∧
    ∃ (r s : JacobiRule ℝ) (c w : ℝ), GaussJacobi.new .checked ext 5 ⟨1⟩ ⟨1⟩ = some r ∧ GaussJacobi.new .checked ext 2 ⟨1⟩ ⟨1 / 2⟩ = some s ∧ |c - 1| ≤ 1.3e-11 ∧ 0 < w ∧
      r.asNodeWeightPairs = (s.asNodeWeightPairs.map fun p => (-Real.sqrt ((1 + p.1) / 2), c * p.2 / (2 ^ ((5 : ℝ) / 2) * (1 + p.1)))).reverse ++
        (0, w) :: s.asNodeWeightPairs.map fun p => (Real.sqrt ((1 + p.1) / 2), c * p.2 / (2 ^ ((5 : ℝ) / 2) * (1 + p.1))) := by
  have e : FiniteAboveNegOne.get (⟨1⟩ : FiniteAboveNegOne ℝ) + 3 / 2 = 5 / 2 := by norm_num [FiniteAboveNegOne.get]
  constructor
  · have := C105_jacobi_even hext .checked (n := 2) (by norm_num) (Or.inl rfl) (α := ⟨1⟩) (by norm_num [FiniteAboveNegOne.get]) (by norm_num [FiniteAboveNegOne.get])
      (by norm_num [FiniteAboveNegOne.get]) (by norm_num [FiniteAboveNegOne.get])
    rwa [e] at this
  · have := C105_jacobi_odd hext .checked (n := 2) (by norm_num) (Or.inl rfl) (α := ⟨1⟩) (by norm_num [FiniteAboveNegOne.get]) (by norm_num [FiniteAboveNegOne.get])
      (by norm_num [FiniteAboveNegOne.get]) (by norm_num [FiniteAboveNegOne.get])
    rwa [e] at this

/-- degree 2: the nodes are `cos(4π/5)` and `cos(2π/5)` -/
example : ∃ ext : Externals ℝ, ExactSolver ext ∧ ∃ s : JacobiRule ℝ, GaussJacobi.new .checked ext 2 ⟨1 / 2⟩ ⟨-1 / 2⟩ = some s ∧
    s.asNodeWeightPairs.map Prod.fst = [Real.cos (4 * Real.pi / 5), Real.cos (2 * Real.pi / 5)] := by
  refine ⟨_, exactSolver_exists, ?_⟩
  obtain ⟨s, c, h1, -, h2⟩ := C105_chebyshev exactSolver_exists .checked (n := 2) (by norm_num) (Or.inl rfl)
  refine ⟨s, h1, ?_⟩
  rw [h2]
  simp [List.range_succ]
  norm_num

end GaussQuad.Props
