import Verif.Proofs.LegendreAccurate
import Verif.Props.Legendre
import Mathlib.Analysis.Calculus.MeanValue

/-!
# C38: the tabulated Gauss-Legendre rules (degree at most 100) are the true ones up to 2e-16 in the nodes and 5e-17 in the weights
-/

namespace GaussQuad.Props
open Polynomial Spec FloatOps Bogaert LegendrePoly

/-- C38: for every degree `1 ≤ n ≤ 100` there is an exact Gauss rule `G` – `n` strictly increasing roots of the Legendre polynomial `P_n`
inside (-1, 1), exact for all polynomials of degree at most `2n-1` – such that each node of the crate's rule is within `2e-16` and each
weight within `5e-17` of the corresponding node and weight of `G`. -/
theorem C38_tables (mode : Overflow) {n : ℕ} (hn : 0 < n) (h100 : n ≤ 100) :
    ∃ r : Rule ℝ, GaussLegendre.new mode n = some r ∧ ∃ G : List (ℝ × ℝ), G.length = n ∧ (G.map (·.1)).Pairwise (· < ·) ∧
      (∀ q ∈ G, (legendreP n).eval q.1 = 0 ∧ -1 < q.1 ∧ q.1 < 1) ∧ ExactUpTo G (2 * n - 1) (Set.Ioo (-1) 1) (fun _ => 1) 1 ∧
      List.Forall₂ (fun p q => |p.1 - q.1| ≤ 2 / 10 ^ 16 ∧ |p.2 - q.2| ≤ 5 / 10 ^ 17) r.asNodeWeightPairs G := by
  obtain ⟨θ, w, h, hr⟩ := legendre_pairs mode hn (by omega)
  obtain ⟨ξ, h1, h2⟩ := accurate hn h100 h
  have hsorted : ((rangeRev (n + 1)).map ξ).Pairwise (· < ·) := by
    rw [List.pairwise_map, rangeRev, List.pairwise_reverse, Nat.add_sub_cancel]
    refine List.Pairwise.imp_of_mem ?_ (List.pairwise_lt_range' (s := 1) (n := n))
    intro i j hi hj hij
    rw [List.mem_range'_1] at hi hj
    exact h2 i j (by omega) hij (by omega)
  have hG : ExactUpTo (((rangeRev (n + 1)).map ξ).map fun x => (x, legOmega n x)) (2 * n - 1) (Set.Ioo (-1) 1) (fun _ => 1) 1 := by
    apply gauss_of_roots hn
    · simp [length_rangeRev]
    · exact hsorted.imp ne_of_lt
    · intro x hx
      obtain ⟨k, hk, rfl⟩ := List.mem_map.1 hx
      rw [mem_rangeRev] at hk
      exact (h1 k hk.1 (by omega)).1
  have hlen : (((rangeRev (n + 1)).map ξ).map fun x => (x, legOmega n x)).length = n := by simp [length_rangeRev]
  refine ⟨_, hr, _, hlen, ?_, ?_, hG, ?_⟩
  · rw [List.map_map]; exact (List.map_id _).symm ▸ hsorted
  · intro q hq
    have hin : -1 < q.1 ∧ q.1 < 1 := ⟨gauss_nodes_gt one_pos (by rw [hlen]; exact hG) posDef_one (fun x hx => hx.1.le) q hq,
      gauss_nodes_lt one_pos (by rw [hlen]; exact hG) posDef_one (fun x hx => hx.2.le) q hq⟩
    obtain ⟨x, hx, rfl⟩ := List.mem_map.1 hq
    obtain ⟨k, hk, rfl⟩ := List.mem_map.1 hx
    rw [mem_rangeRev] at hk
    exact ⟨(h1 k hk.1 (by omega)).1, hin⟩
  · rw [Rule.asNodeWeightPairs, List.map_map, List.forall₂_map_left_iff, List.forall₂_map_right_iff, List.forall₂_same]
    intro k hk
    rw [mem_rangeRev] at hk
    exact (h1 k hk.1 (by omega)).2

example : ∃ r : Rule ℝ, GaussLegendre.new .wrapping 64 = some r ∧ ∃ G : List (ℝ × ℝ), G.length = 64 ∧
    ExactUpTo G 127 (Set.Ioo (-1) 1) (fun _ => 1) 1 :=
  let ⟨r, h1, G, h2, _, _, h3, _⟩ := C38_tables .wrapping (n := 64) (by norm_num) (by norm_num)
  ⟨r, h1, G, h2, h3⟩

/-- two nearby rules give nearby sums -/
theorem quad_close {A B : List (ℝ × ℝ)} {δ ε K L : ℝ} {f : ℝ → ℝ}
    (h : List.Forall₂ (fun p q => |p.1 - q.1| ≤ δ ∧ |p.2 - q.2| ≤ ε) A B) (hK : ∀ p ∈ A, |f p.1| ≤ K) (hB : ∀ q ∈ B, 0 ≤ q.2)
    (hL0 : 0 ≤ L) (hL : ∀ p ∈ A, ∀ q ∈ B, |f p.1 - f q.1| ≤ L * |p.1 - q.1|) :
    |quad A f - quad B f| ≤ A.length * (ε * K) + (B.map (·.2)).sum * (L * δ) := by
  induction h with
  | nil => simp [quad]
  | @cons p q A B h1 h2 ih =>
    have ih := ih (fun p hp => hK p (List.mem_cons_of_mem _ hp)) (fun q hq => hB q (List.mem_cons_of_mem _ hq))
      (fun p hp q hq => hL p (List.mem_cons_of_mem _ hp) q (List.mem_cons_of_mem _ hq))
    have k1 := hK p (by simp)
    have k2 := hB q (by simp)
    have k3 := (hL p (by simp) q (by simp)).trans (mul_le_mul_of_nonneg_left h1.1 hL0)
    have e : quad (p :: A) f - quad (q :: B) f = ((p.2 - q.2) * f p.1 + q.2 * (f p.1 - f q.1)) + (quad A f - quad B f) := by
      simp [quad]; ring
    have b1 : |(p.2 - q.2) * f p.1| ≤ ε * K := by
      rw [abs_mul]; exact mul_le_mul h1.2 k1 (abs_nonneg _) ((abs_nonneg _).trans h1.2)
    have b2 : |q.2 * (f p.1 - f q.1)| ≤ q.2 * (L * δ) := by
      rw [abs_mul, abs_of_nonneg k2]; exact mul_le_mul_of_nonneg_left k3 k2
    rw [e]
    refine (abs_add_le _ _).trans ?_
    have := (abs_add_le ((p.2 - q.2) * f p.1) (q.2 * (f p.1 - f q.1))).trans (add_le_add b1 b2)
    simp only [List.length_cons, List.map_cons, List.sum_cons]
    push_cast
    linarith

/-- C38, near-exactness: for degree `n ≤ 100` and every polynomial `p` of degree at most `2n-1` with `|p| ≤ K` and `|p'| ≤ L` on `[a, b]`,
`integrate` differs from the integral by at most `(b-a)/2 · (5e-17 n K + 4e-16 L (b-a)/2)`. -/
theorem C38_near_exact (mode : Overflow) {n : ℕ} (hn : 0 < n) (h100 : n ≤ 100) :
    ∃ r : Rule ℝ, GaussLegendre.new mode n = some r ∧ ∀ (p : ℝ[X]) (a b K L : ℝ), p.natDegree ≤ 2 * n - 1 → a < b →
      (∀ x ∈ Set.Icc a b, |p.eval x| ≤ K) → (∀ x ∈ Set.Icc a b, |(derivative p).eval x| ≤ L) →
      |(AnyRule.legendre r).value a b (fun x => p.eval x) - ∫ x in a..b, p.eval x| ≤
        (b - a) / 2 * (n * (5 / 10 ^ 17 * K) + 4 / 10 ^ 16 * (L * ((b - a) / 2))) := by
  obtain ⟨r, hr, G, hlen, -, hin, hex, hclose⟩ := C38_tables mode hn h100
  obtain ⟨r', hr', hlen', hin', -⟩ := C37_legendre mode hn (show n + 1 < 2 ^ 64 by omega)
  rw [hr] at hr'
  obtain rfl := Option.some.inj hr'
  refine ⟨r, hr, fun p a b K L hp hab hK hL => ?_⟩
  have hh : 0 < (b - a) / 2 := by linarith
  have hL0 : 0 ≤ L := (abs_nonneg _).trans (hL a ⟨le_rfl, hab.le⟩)
  have hmem : ∀ x : ℝ, -1 < x → x < 1 → (b - a) / 2 * x + (a + b) / 2 ∈ Set.Icc a b := by
    intro x h1 h2; constructor <;> nlinarith
  rw [value_gauss_quad rfl]
  have hint : ∫ x in a..b, p.eval x = (b - a) / 2 * quad G (fun x => p.eval ((b - a) / 2 * x + (a + b) / 2)) := by
    have := exact_interval hex hab.ne hp
    simp only [mul_one, one_mul] at this
    rw [← this, quad, quad, List.map_map, ← List.sum_map_mul_left]
    congr 1
    apply List.map_congr_left
    intro q _
    simp only [Function.comp]
    ring
  rw [hint, ← mul_sub, abs_mul, abs_of_pos hh]
  refine mul_le_mul_of_nonneg_left ?_ hh.le
  have hpos := gauss_weights_pos one_pos (by rw [hlen]; exact hex) posDef_one
  have hsum : (G.map (·.2)).sum = 2 := by
    have := gauss_mass (by rw [hlen]; exact hex)
    rw [this]; simp; norm_num
  have := quad_close (f := fun x => p.eval ((b - a) / 2 * x + (a + b) / 2)) (K := K) (L := L * ((b - a) / 2)) hclose
    (fun q hq => hK _ (hmem _ (hin' q hq).1 (hin' q hq).2.1)) (fun q hq => (hpos q hq).le) (by positivity) ?_
  · refine this.trans (le_of_eq ?_)
    rw [hsum, hlen']; ring
  · intro q hq q' hq'
    have m1 := hmem _ (hin' q hq).1 (hin' q hq).2.1
    have m2 := hmem _ (hin q' hq').2.1 (hin q' hq').2.2
    have := (convex_Icc a b).norm_image_sub_le_of_norm_hasDerivWithin_le (f := fun x => p.eval x) (f' := fun x => (derivative p).eval x) (C := L)
      (fun x _ => (p.hasDerivAt x).hasDerivWithinAt) (fun x hx => hL x hx) m2 m1
    simp only [Real.norm_eq_abs] at this
    refine this.trans (le_of_eq ?_)
    rw [show (b - a) / 2 * q.1 + (a + b) / 2 - ((b - a) / 2 * q'.1 + (a + b) / 2) = (b - a) / 2 * (q.1 - q'.1) by ring, abs_mul, abs_of_pos hh]
    ring

/-- `x^19` on `[0, 1]` with the 10-point rule: the error is below `1e-14` -/
example : ∃ r : Rule ℝ, GaussLegendre.new .checked 10 = some r ∧
    |(AnyRule.legendre r).value 0 1 (fun x => x ^ 19) - 1 / 20| ≤ 1 / 10 ^ 14 := by
  obtain ⟨r, h1, h2⟩ := C38_near_exact .checked (n := 10) (by norm_num) (by norm_num)
  refine ⟨r, h1, ?_⟩
  have := h2 (X ^ 19) 0 1 1 19 (by simp) one_pos (fun x hx => by
    rw [eval_pow, eval_X, abs_pow]; exact pow_le_one₀ (abs_nonneg _) (abs_le.2 ⟨by linarith [hx.1], hx.2⟩)) (fun x hx => by
    rw [derivative_X_pow, eval_mul, eval_pow, eval_X, eval_C, abs_mul, abs_pow]
    have : |x| ^ 18 ≤ 1 := pow_le_one₀ (abs_nonneg _) (abs_le.2 ⟨by linarith [hx.1], hx.2⟩)
    norm_num at this ⊢; linarith)
  simp only [eval_pow, eval_X, integral_pow] at this
  norm_num at this ⊢
  linarith

/-- C43 for the tabulated Gauss-Legendre rules: the weights sum to 2 up to `5e-17` per point. -/
theorem C43_legendre_tables (mode : Overflow) {n : ℕ} (hn : 0 < n) (h100 : n ≤ 100) :
    ∃ r : Rule ℝ, GaussLegendre.new mode n = some r ∧ |(r.asNodeWeightPairs.map (·.2)).sum - 2| ≤ n * (5 / 10 ^ 17) := by
  obtain ⟨r, hr, h⟩ := C38_near_exact mode hn h100
  refine ⟨r, hr, ?_⟩
  have := h 1 (-1) 1 1 0 (by simp) (by norm_num) (by simp) (by simp)
  rw [value_gauss_quad rfl] at this
  simp only [eval_one, quad, mul_one] at this
  norm_num at this ⊢
  exact this

example : ∃ r : Rule ℝ, GaussLegendre.new .checked 100 = some r ∧ |(r.asNodeWeightPairs.map (·.2)).sum - 2| ≤ 5 / 10 ^ 15 := by
  obtain ⟨r, h1, h2⟩ := C43_legendre_tables .checked (n := 100) (by norm_num) le_rfl
  exact ⟨r, h1, h2.trans (by norm_num)⟩

end GaussQuad.Props
