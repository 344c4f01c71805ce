import Verif.Proofs.GaussSums
import Verif.Proofs.Structure

/-!
# The two Gauss-Chebyshev rules: C30, C31 and their part of C12, C19, C20, C23, C41, C42, C43
-/

namespace GaussQuad.Props
open Polynomial Spec FloatOps Filter

/-! ## C30, C31 -/

/-- C30: `GaussChebyshevFirstKind::new(n).integrate(a, b, p)` is the integral of `p` against the (transported) weight
`1/√(1-x²)` for every polynomial of degree at most `2n-1`, every `n ≥ 1` and all bounds. -/
theorem C30_exact (mode : Overflow) {n : ℕ} (hn : 0 < n) (hlt : n + 1 < 2 ^ 64) :
    ∃ r : Rule ℝ, GaussChebyshevFirstKind.new mode n = some r ∧ ∀ p : ℝ[X], p.natDegree ≤ 2 * n - 1 →
      (AnyRule.chebyshevFirst r).value (-1) 1 (fun x => p.eval x) = ∫ x in (-1 : ℝ)..1, p.eval x * (1 / Real.sqrt (1 - x ^ 2)) ∧
      ∀ a b : ℝ, a ≠ b → (AnyRule.chebyshevFirst r).value a b (fun x => p.eval x) =
        ∫ t in a..b, p.eval t * (1 / Real.sqrt (1 - ((2 * t - a - b) / (b - a)) ^ 2)) := by
  refine ⟨_, cheb1_new_eq hlt, ?_⟩
  intro p hp
  have key : ∀ a b : ℝ, a ≠ b → (AnyRule.chebyshevFirst ⟨(rangeRev (n + 1)).map (GaussChebyshevFirstKind.pair n)⟩).value a b
      (fun x => p.eval x) = ∫ t in a..b, p.eval t * (1 / Real.sqrt (1 - ((2 * t - a - b) / (b - a)) ^ 2)) := by
    intro a b hab
    rw [value_real]
    have := exact_interval (cheb1_exact hn) hab hp
    rw [one_mul] at this
    exact this
  refine ⟨?_, key⟩
  rw [key (-1) 1 (by norm_num)]
  congr 1; ext x
  norm_num

/-- `x^5` on `[2, 5]` with the 3-point rule -/
example : ∃ r : Rule ℝ, GaussChebyshevFirstKind.new .checked 3 = some r ∧
    (AnyRule.chebyshevFirst r).value 2 5 (fun x => x ^ 5) = ∫ t in (2 : ℝ)..5, t ^ 5 * (1 / Real.sqrt (1 - ((2 * t - 2 - 5) / (5 - 2)) ^ 2)) := by
  obtain ⟨r, h1, h2⟩ := C30_exact .checked (n := 3) (by norm_num) (by norm_num)
  have h3 := (h2 (X ^ 5) (by simp)).2 2 5 (by norm_num)
  exact ⟨r, h1, by simpa using h3⟩

/-- C31: `GaussChebyshevSecondKind::new(n).integrate(a, b, p)` is the integral of `p` against the (transported) weight
`√(1-x²)` for every polynomial of degree at most `2n-1`, every `n ≥ 1` and all bounds. -/
theorem C31_exact (mode : Overflow) {n : ℕ} (hn : 0 < n) (hlt : n + 1 < 2 ^ 64) :
    ∃ r : Rule ℝ, GaussChebyshevSecondKind.new mode n = some r ∧ ∀ p : ℝ[X], p.natDegree ≤ 2 * n - 1 →
      (AnyRule.chebyshevSecond r).value (-1) 1 (fun x => p.eval x) = ∫ x in (-1 : ℝ)..1, p.eval x * Real.sqrt (1 - x ^ 2) ∧
      ∀ a b : ℝ, a ≠ b → (AnyRule.chebyshevSecond r).value a b (fun x => p.eval x) =
        ∫ t in a..b, p.eval t * Real.sqrt (1 - ((2 * t - a - b) / (b - a)) ^ 2) := by
  refine ⟨_, cheb2_new_eq hlt, ?_⟩
  intro p hp
  have key : ∀ a b : ℝ, a ≠ b → (AnyRule.chebyshevSecond ⟨(rangeRev (n + 1)).map (GaussChebyshevSecondKind.pair n)⟩).value a b
      (fun x => p.eval x) = ∫ t in a..b, p.eval t * Real.sqrt (1 - ((2 * t - a - b) / (b - a)) ^ 2) := by
    intro a b hab
    rw [value_real]
    have := exact_interval (cheb2_exact hn) hab hp
    rw [one_mul] at this
    exact this
  refine ⟨?_, key⟩
  rw [key (-1) 1 (by norm_num)]
  congr 1; ext x
  norm_num

/-- the polynomial `x^5 - x^2` is covered by the 3-point rules -/
example : ∃ r : Rule ℝ, GaussChebyshevSecondKind.new .checked 3 = some r ∧
    (AnyRule.chebyshevSecond r).value (-1) 1 (fun x => x ^ 5 - x ^ 2) =
      ∫ x in (-1 : ℝ)..1, (x ^ 5 - x ^ 2) * Real.sqrt (1 - x ^ 2) := by
  obtain ⟨r, h1, h2⟩ := C31_exact .checked (n := 3) (by norm_num) (by norm_num)
  have h3 := (h2 (X ^ 5 - X ^ 2) (by
    refine (natDegree_sub_le _ _).trans ?_
    simp)).1
  exact ⟨r, h1, by simpa using h3⟩

/-! ## the lists -/

/-- the node-weight pairs of the first kind -/
noncomputable abbrev pairs1 (n : ℕ) : List (ℝ × ℝ) := (rangeRev (n + 1)).map (GaussChebyshevFirstKind.pair n)

/-- the node-weight pairs of the second kind -/
noncomputable abbrev pairs2 (n : ℕ) : List (ℝ × ℝ) := (rangeRev (n + 1)).map (GaussChebyshevSecondKind.pair n)

theorem length_pairs1 (n : ℕ) : (pairs1 n).length = n := by simp [pairs1, length_rangeRev]
theorem length_pairs2 (n : ℕ) : (pairs2 n).length = n := by simp [pairs2, length_rangeRev]

theorem exact1 {n : ℕ} (hn : 0 < n) : ExactUpTo (pairs1 n) (2 * (pairs1 n).length - 1) (Set.Ioo (-1) 1) chebW1 1 := by
  rw [length_pairs1]; exact cheb1_exact hn

theorem exact2 {n : ℕ} (hn : 0 < n) : ExactUpTo (pairs2 n) (2 * (pairs2 n).length - 1) (Set.Ioo (-1) 1) chebW2 1 := by
  rw [length_pairs2]; exact cheb2_exact hn

theorem nodes1 {n : ℕ} (hn : 0 < n) : ∀ p ∈ pairs1 n, -1 < p.1 ∧ p.1 < 1 := fun p hp =>
  ⟨gauss_nodes_gt one_pos (exact1 hn) posDef_cheb1 (fun _ hx => hx.1.le) p hp,
    gauss_nodes_lt one_pos (exact1 hn) posDef_cheb1 (fun _ hx => hx.2.le) p hp⟩

theorem nodes2 {n : ℕ} (hn : 0 < n) : ∀ p ∈ pairs2 n, -1 < p.1 ∧ p.1 < 1 := fun p hp =>
  ⟨gauss_nodes_gt one_pos (exact2 hn) posDef_cheb2 (fun _ hx => hx.1.le) p hp,
    gauss_nodes_lt one_pos (exact2 hn) posDef_cheb2 (fun _ hx => hx.2.le) p hp⟩

theorem mass1 {n : ℕ} (hn : 0 < n) : ((pairs1 n).map (·.2)).sum = Real.pi := by
  have hn' : (n : ℝ) ≠ 0 := by positivity
  simp only [pairs1, List.map_map, Function.comp_def, GaussChebyshevFirstKind.pair, List.map_const', length_rangeRev,
    List.sum_replicate]
  simp; field_simp

theorem integral_chebW2 : ∫ x in Set.Ioo (-1 : ℝ) 1, chebW2 x = Real.pi / 2 := by
  have h := weightIntegral_cheb2 1
  rw [integral_eq_lobattoSum (N := 2) (by norm_num) (by
    refine lt_of_le_of_lt degree_le_natDegree ?_
    have h1 : (1 * (1 - X ^ 2) : ℝ[X]).natDegree ≤ 2 := by
      rw [one_mul]
      refine (natDegree_sub_le _ _).trans ?_
      simp
    have : (1 * (1 - X ^ 2) : ℝ[X]).natDegree < 4 := by omega
    exact_mod_cast this)] at h
  simp only [weightIntegral, eval_one, one_mul] at h
  rw [h, lobattoSum, Finset.sum_range_succ, Finset.sum_range_one]
  simp
  norm_num

theorem mass2 {n : ℕ} (hn : 0 < n) : ((pairs2 n).map (·.2)).sum = Real.pi / 2 := by
  have := gauss_mass (exact2 hn)
  rw [one_mul, integral_chebW2] at this
  exact this

/-! ## C12 -/

theorem sorted_of_angle {n : ℕ} (θ : ℕ → ℝ) (w : ℕ → ℝ) (hmono : ∀ i j, i < j → θ i < θ j) (h0 : 0 ≤ θ 1) (hn : θ n ≤ Real.pi) :
    (((rangeRev (n + 1)).map fun i => (Real.cos (θ i), w i)).map (·.1)).Pairwise (· < ·) := by
  rw [List.map_map, List.pairwise_map, rangeRev, List.pairwise_reverse, Nat.add_sub_cancel]
  refine List.Pairwise.imp_of_mem ?_ (List.pairwise_lt_range' (s := 1) (n := n))
  intro i j hi hj hij
  rw [List.mem_range'_1] at hi hj
  have hle : ∀ k l, k ≤ l → θ k ≤ θ l := by
    intro k l hkl
    rcases hkl.lt_or_eq with h | h
    · exact (hmono k l h).le
    · rw [h]
  apply Real.strictAntiOn_cos
  · exact ⟨h0.trans (hle 1 i hi.1), (hle i n (by omega)).trans hn⟩
  · exact ⟨h0.trans (hle 1 j hj.1), (hle j n (by omega)).trans hn⟩
  · exact hmono i j hij

/-- C12 for the Chebyshev rules in exact arithmetic: the nodes are strictly increasing in storage order. -/
theorem C12_chebyshev (mode : Overflow) {n : ℕ} (hn : 0 < n) (hlt : n + 1 < 2 ^ 64) :
    (∃ r : Rule ℝ, GaussChebyshevFirstKind.new mode n = some r ∧ (r.asNodeWeightPairs.map (·.1)).Pairwise (· < ·)) ∧
    (∃ r : Rule ℝ, GaussChebyshevSecondKind.new mode n = some r ∧ (r.asNodeWeightPairs.map (·.1)).Pairwise (· < ·)) := by
  have hn' : (0 : ℝ) < n := by positivity
  refine ⟨⟨_, cheb1_new_eq hlt, ?_⟩, ⟨_, cheb2_new_eq hlt, ?_⟩⟩
  · have e : (GaussChebyshevFirstKind.pair n : ℕ → ℝ × ℝ) = fun (i : ℕ) =>
        (Real.cos (Real.pi * (2 * (i : ℝ) - 1) / (2 * n)), Real.pi / n) := by
      funext i
      simp only [GaussChebyshevFirstKind.pair, real_pi, real_mul, real_sub, real_div, real_ofNat, real_cos, real_lit_two,
        real_lit_one]
    rw [Rule.asNodeWeightPairs, e]
    refine sorted_of_angle (n := n) (fun i => Real.pi * (2 * (i : ℝ) - 1) / (2 * n)) (fun i => Real.pi / n) ?_ ?_ ?_
    · intro i j hij
      have : (i : ℝ) < j := by exact_mod_cast hij
      have hpi := Real.pi_pos
      show Real.pi * (2 * (i : ℝ) - 1) / (2 * n) < Real.pi * (2 * (j : ℝ) - 1) / (2 * n)
      gcongr
    · have hpi := Real.pi_pos
      norm_num
      positivity
    · rw [div_le_iff₀ (by positivity)]
      nlinarith [Real.pi_pos]
  · have e : (GaussChebyshevSecondKind.pair n : ℕ → ℝ × ℝ) = fun (i : ℕ) =>
        (Real.cos (Real.pi * (i : ℝ) * (1 / ((n : ℝ) + 1))),
          Real.pi * (1 / ((n : ℝ) + 1)) * Real.sin (Real.pi * (i : ℝ) * (1 / ((n : ℝ) + 1))) *
            Real.sin (Real.pi * (i : ℝ) * (1 / ((n : ℝ) + 1)))) := by
      funext i
      simp only [GaussChebyshevSecondKind.pair, real_pi, real_mul, real_add, real_div, real_ofNat, real_cos, real_sin,
        real_lit_one]
    rw [Rule.asNodeWeightPairs, e]
    refine sorted_of_angle (n := n) (fun i => Real.pi * (i : ℝ) * (1 / ((n : ℝ) + 1))) _ ?_ ?_ ?_
    · intro i j hij
      have : (i : ℝ) < j := by exact_mod_cast hij
      have hpi := Real.pi_pos
      show Real.pi * (i : ℝ) * (1 / ((n : ℝ) + 1)) < Real.pi * (j : ℝ) * (1 / ((n : ℝ) + 1))
      gcongr
    · have hpi := Real.pi_pos
      positivity
    · rw [mul_one_div, div_le_iff₀ (by positivity)]
      nlinarith [Real.pi_pos]

example : ∃ r : Rule ℝ, GaussChebyshevFirstKind.new .checked 1000 = some r ∧ (r.asNodeWeightPairs.map (·.1)).Pairwise (· < ·) :=
  (C12_chebyshev .checked (by norm_num) (by norm_num)).1

/-! ## C19 -/

/-- C19 for the Chebyshev rules: with `m ≤ f ≤ M` at the evaluation points the result lies between `m` and `M` times the
total weight `(b-a)/2·π` resp. `(b-a)/2·π/2`. -/
theorem C19_chebyshev (mode : Overflow) {n : ℕ} (hn : 0 < n) (hlt : n + 1 < 2 ^ 64) {a b lo hi : ℝ} (hab : a ≤ b) :
    (∃ r : Rule ℝ, GaussChebyshevFirstKind.new mode n = some r ∧ ∀ f : ℝ → ℝ,
      (∀ x ∈ points a b (.chebyshevFirst r), lo ≤ f x ∧ f x ≤ hi) →
      lo * ((b - a) / 2 * Real.pi) ≤ (AnyRule.chebyshevFirst r).value a b f ∧
        (AnyRule.chebyshevFirst r).value a b f ≤ hi * ((b - a) / 2 * Real.pi)) ∧
    (∃ r : Rule ℝ, GaussChebyshevSecondKind.new mode n = some r ∧ ∀ f : ℝ → ℝ,
      (∀ x ∈ points a b (.chebyshevSecond r), lo ≤ f x ∧ f x ≤ hi) →
      lo * ((b - a) / 2 * (Real.pi / 2)) ≤ (AnyRule.chebyshevSecond r).value a b f ∧
        (AnyRule.chebyshevSecond r).value a b f ≤ hi * ((b - a) / 2 * (Real.pi / 2))) := by
  refine ⟨⟨_, cheb1_new_eq hlt, fun f hf => ?_⟩, ⟨_, cheb2_new_eq hlt, fun f hf => ?_⟩⟩
  · rw [← mass1 hn]
    exact value_range rfl (fun p hp => (gauss_weights_pos one_pos (exact1 hn) posDef_cheb1 p hp).le) hab hf
  · rw [← mass2 hn]
    exact value_range rfl (fun p hp => (gauss_weights_pos one_pos (exact2 hn) posDef_cheb2 p hp).le) hab hf

/-- the cosine lies between -1 and 1 -/
example : ∃ r : Rule ℝ, GaussChebyshevFirstKind.new .checked 5 = some r ∧ (AnyRule.chebyshevFirst r).value 0 4 Real.cos ≤ 1 * ((4 - 0) / 2 * Real.pi) := by
  obtain ⟨r, h1, h2⟩ := (C19_chebyshev .checked (n := 5) (by norm_num) (by norm_num) (a := 0) (b := 4) (lo := -1) (hi := 1) (by norm_num)).1
  exact ⟨r, h1, (h2 Real.cos fun x _ => ⟨Real.neg_one_le_cos x, Real.cos_le_one x⟩).2⟩

/-! ## C20 -/

theorem map_neg_rangeRev {n : ℕ} (g : ℕ → ℝ × ℝ) (hg : ∀ i, 1 ≤ i → i ≤ n → g (n + 1 - i) = (-(g i).1, (g i).2)) :
    (((rangeRev (n + 1)).map g).map fun p => (-p.1, p.2)) = ((rangeRev (n + 1)).map g).reverse := by
  apply List.ext_getElem
  · simp
  · intro i h1 h2
    have hi : i < n := by simpa [length_rangeRev] using h1
    simp only [List.getElem_map, List.getElem_reverse, List.length_map, length_rangeRev, getElem_rangeRev, Nat.add_sub_cancel]
    have := hg (n - i) (by omega) (by omega)
    rw [← this]; congr 1; omega

theorem symmetric1 {n : ℕ} (hn : 0 < n) : ((pairs1 n).map fun p => (-p.1, p.2)).Perm (pairs1 n) := by
  rw [pairs1, map_neg_rangeRev]
  · exact List.reverse_perm _
  · intro i h1 h2
    have hn' : (n : ℝ) ≠ 0 := by positivity
    simp only [GaussChebyshevFirstKind.pair, real_pi, real_mul, real_sub, real_div, real_ofNat, real_cos, real_lit_two,
      real_lit_one, Prod.mk.injEq, and_true]
    rw [← Real.cos_pi_sub, Nat.cast_sub (by omega)]
    congr 1
    push_cast; field_simp; ring

theorem symmetric2 {n : ℕ} (hn : 0 < n) : ((pairs2 n).map fun p => (-p.1, p.2)).Perm (pairs2 n) := by
  rw [pairs2, map_neg_rangeRev]
  · exact List.reverse_perm _
  · intro i h1 h2
    have hn' : (n : ℝ) + 1 ≠ 0 := by positivity
    have e : Real.pi * ((n + 1 - i : ℕ) : ℝ) * (1 / ((n : ℝ) + 1)) = Real.pi - Real.pi * (i : ℝ) * (1 / ((n : ℝ) + 1)) := by
      rw [Nat.cast_sub (by omega)]; push_cast; field_simp
    simp only [GaussChebyshevSecondKind.pair, real_pi, real_mul, real_add, real_div, real_ofNat, real_cos, real_sin,
      real_lit_one, e, Real.cos_pi_sub, Real.sin_pi_sub]

/-- C20 for the Chebyshev rules. -/
theorem C20_chebyshev (mode : Overflow) {n : ℕ} (hn : 0 < n) (hlt : n + 1 < 2 ^ 64) (a b : ℝ) (f : ℝ → ℝ) :
    (∃ r : Rule ℝ, GaussChebyshevFirstKind.new mode n = some r ∧
      (AnyRule.chebyshevFirst r).value b a f = -(AnyRule.chebyshevFirst r).value a b f) ∧
    (∃ r : Rule ℝ, GaussChebyshevSecondKind.new mode n = some r ∧
      (AnyRule.chebyshevSecond r).value b a f = -(AnyRule.chebyshevSecond r).value a b f) := by
  refine ⟨⟨_, cheb1_new_eq hlt, ?_⟩, ⟨_, cheb2_new_eq hlt, ?_⟩⟩
  · rw [value_gauss_quad rfl, value_gauss_quad rfl]
    exact quad_swap (symmetric1 hn) a b f
  · rw [value_gauss_quad rfl, value_gauss_quad rfl]
    exact quad_swap (symmetric2 hn) a b f

example : ∃ r : Rule ℝ, GaussChebyshevSecondKind.new .checked 5 = some r ∧
    (AnyRule.chebyshevSecond r).value 3 1 Real.exp = -(AnyRule.chebyshevSecond r).value 1 3 Real.exp :=
  (C20_chebyshev .checked (by norm_num) (by norm_num) 1 3 Real.exp).2

/-! ## C23 -/

/-- C23 for the Chebyshev rules: the integrand is only called strictly inside `(a, b)`. -/
theorem C23_chebyshev (mode : Overflow) {n : ℕ} (hn : 0 < n) (hlt : n + 1 < 2 ^ 64) {a b : ℝ} (hab : a < b) :
    (∃ r : Rule ℝ, GaussChebyshevFirstKind.new mode n = some r ∧ ∀ x ∈ points a b (.chebyshevFirst r), a < x ∧ x < b) ∧
    (∃ r : Rule ℝ, GaussChebyshevSecondKind.new mode n = some r ∧ ∀ x ∈ points a b (.chebyshevSecond r), a < x ∧ x < b) :=
  ⟨⟨_, cheb1_new_eq hlt, points_inside rfl (nodes1 hn) hab⟩, ⟨_, cheb2_new_eq hlt, points_inside rfl (nodes2 hn) hab⟩⟩

example : ∃ r : Rule ℝ, GaussChebyshevFirstKind.new .checked 50 = some r ∧ ∀ x ∈ points (-2) 7 (.chebyshevFirst r), -2 < x ∧ x < 7 :=
  (C23_chebyshev .checked (by norm_num) (by norm_num) (by norm_num)).1

/-! ## C41 -/

/-- C41 for the Chebyshev rules: convergence for every continuous integrand on every interval.  (`n` stands for the degree;
the limit is along the degrees `n` for which `degree + 1` does not overflow, stated on the node lists of all `n`.) -/
theorem C41_chebyshev {a b : ℝ} (hab : a ≠ b) {f : ℝ → ℝ} (hf : ContinuousOn f (Set.uIcc a b)) :
    Tendsto (fun n => (AnyRule.chebyshevFirst ⟨pairs1 n⟩).value a b f) atTop
      (nhds (∫ t in a..b, f t * (1 / Real.sqrt (1 - ((2 * t - a - b) / (b - a)) ^ 2)))) ∧
    Tendsto (fun n => (AnyRule.chebyshevSecond ⟨pairs2 n⟩).value a b f) atTop
      (nhds (∫ t in a..b, f t * Real.sqrt (1 - ((2 * t - a - b) / (b - a)) ^ 2))) := by
  have hd : Tendsto (fun n : ℕ => 2 * n - 1) atTop atTop :=
    tendsto_atTop_mono (fun n => by omega : ∀ n : ℕ, n - 1 ≤ 2 * n - 1) (tendsto_sub_atTop_nat 1)
  constructor
  · have h := gauss_tendsto (L := pairs1) (w := chebW1) (f := fun x => f ((b - a) / 2 * x + (a + b) / 2)) _ hd
      (by filter_upwards [eventually_gt_atTop 0] with n hn using cheb1_exact hn)
      (by
        filter_upwards [eventually_gt_atTop 0] with n hn
        exact fun q hq => (gauss_weights_pos one_pos (exact1 hn) posDef_cheb1 q hq).le)
      (by
        filter_upwards [eventually_gt_atTop 0] with n hn
        exact fun q hq => ⟨(nodes1 hn q hq).1.le, (nodes1 hn q hq).2.le⟩)
      (fun x _ => by unfold chebW1; positivity)
      (by simpa using integrableOn_cheb1 1) (continuousOn_transport hf)
    have h2 := h.const_mul ((b - a) / 2)
    rw [integral_transport chebW1 f hab] at h2
    exact h2.congr fun n => by rw [value_gauss_quad rfl]
  · have h := gauss_tendsto (L := pairs2) (w := chebW2) (f := fun x => f ((b - a) / 2 * x + (a + b) / 2)) _ hd
      (by filter_upwards [eventually_gt_atTop 0] with n hn using cheb2_exact hn)
      (by
        filter_upwards [eventually_gt_atTop 0] with n hn
        exact fun q hq => (gauss_weights_pos one_pos (exact2 hn) posDef_cheb2 q hq).le)
      (by
        filter_upwards [eventually_gt_atTop 0] with n hn
        exact fun q hq => ⟨(nodes2 hn q hq).1.le, (nodes2 hn q hq).2.le⟩)
      (fun x _ => by unfold chebW2; positivity)
      (by simpa using integrableOn_cheb2 1) (continuousOn_transport hf)
    have h2 := h.const_mul ((b - a) / 2)
    rw [integral_transport chebW2 f hab] at h2
    exact h2.congr fun n => by rw [value_gauss_quad rfl]

/-- Quantitative form of C41 at a single degree (for which `new` succeeds): if some polynomial of degree at most `2n-1` is
within `ε` of `f` on the interval, the error of the rule is at most `ε·(b-a)·π` resp. `ε·(b-a)·π/2`. -/
theorem C41_chebyshev_error (mode : Overflow) {n : ℕ} (hn : 0 < n) (hlt : n + 1 < 2 ^ 64) {a b ε : ℝ} (hab : a < b) {f : ℝ → ℝ}
    (hf : ContinuousOn f (Set.Icc a b)) {p : ℝ[X]} (hp : p.natDegree ≤ 2 * n - 1) (hε : ∀ t ∈ Set.Icc a b, |f t - p.eval t| ≤ ε) :
    (∃ r : Rule ℝ, GaussChebyshevFirstKind.new mode n = some r ∧
      |(AnyRule.chebyshevFirst r).value a b f - ∫ t in a..b, f t * (1 / Real.sqrt (1 - ((2 * t - a - b) / (b - a)) ^ 2))|
        ≤ ε * (b - a) * Real.pi) ∧
    (∃ r : Rule ℝ, GaussChebyshevSecondKind.new mode n = some r ∧
      |(AnyRule.chebyshevSecond r).value a b f - ∫ t in a..b, f t * Real.sqrt (1 - ((2 * t - a - b) / (b - a)) ^ 2)|
        ≤ ε * (b - a) * (Real.pi / 2)) := by
  have hmem : ∀ x ∈ Set.Icc (-1 : ℝ) 1, (b - a) / 2 * x + (a + b) / 2 ∈ Set.Icc a b := by
    intro x hx; constructor <;> nlinarith [hx.1, hx.2]
  have hcont := continuousOn_transport (a := a) (b := b) (f := f) (by rwa [Set.uIcc_of_lt hab])
  refine ⟨⟨_, cheb1_new_eq hlt, ?_⟩, ⟨_, cheb2_new_eq hlt, ?_⟩⟩
  · have h := gauss_error (L := pairs1 n) (cheb1_exact hn)
      (fun q hq => (gauss_weights_pos one_pos (exact1 hn) posDef_cheb1 q hq).le)
      (fun q hq => ⟨(nodes1 hn q hq).1.le, (nodes1 hn q hq).2.le⟩)
      (fun x _ => by unfold chebW1; positivity) (by simpa using integrableOn_cheb1 1) hcont
      (p := affinePoly a b p) ((affinePoly_natDegree a b p).trans hp) (ε := ε)
      (fun x hx => by rw [affinePoly_eval]; exact hε _ (hmem x hx))
    have hm := gauss_mass (exact1 hn)
    rw [one_mul] at hm
    rw [← hm, show (List.map Prod.snd (pairs1 n)).sum = Real.pi from mass1 hn] at h
    rw [value_gauss_quad rfl]
    have := integral_transport chebW1 f hab.ne
    simp only [chebW1] at this h
    rw [← this, ← mul_sub, abs_mul, abs_of_pos (by linarith : (0 : ℝ) < (b - a) / 2)]
    have := mul_le_mul_of_nonneg_left h (by linarith : (0 : ℝ) ≤ (b - a) / 2)
    calc _ ≤ _ := this
      _ = _ := by ring
  · have h := gauss_error (L := pairs2 n) (cheb2_exact hn)
      (fun q hq => (gauss_weights_pos one_pos (exact2 hn) posDef_cheb2 q hq).le)
      (fun q hq => ⟨(nodes2 hn q hq).1.le, (nodes2 hn q hq).2.le⟩)
      (fun x _ => by unfold chebW2; positivity) (by simpa using integrableOn_cheb2 1) hcont
      (p := affinePoly a b p) ((affinePoly_natDegree a b p).trans hp) (ε := ε)
      (fun x hx => by rw [affinePoly_eval]; exact hε _ (hmem x hx))
    rw [integral_chebW2] at h
    rw [value_gauss_quad rfl]
    have := integral_transport chebW2 f hab.ne
    simp only [chebW2] at this h
    rw [← this, ← mul_sub, abs_mul, abs_of_pos (by linarith : (0 : ℝ) < (b - a) / 2)]
    have := mul_le_mul_of_nonneg_left h (by linarith : (0 : ℝ) ≤ (b - a) / 2)
    calc _ ≤ _ := this
      _ = _ := by ring

/-- `|x|` is within 1/2 of the constant 1/2 on `[-1, 1]` -/
example : ∃ r : Rule ℝ, GaussChebyshevFirstKind.new .checked 1 = some r ∧
    |(AnyRule.chebyshevFirst r).value (-1) 1 (fun x => |x|) - ∫ t in (-1 : ℝ)..1, |t| * (1 / Real.sqrt (1 - ((2 * t - -1 - 1) / (1 - -1)) ^ 2))| ≤
      1 / 2 * (1 - -1) * Real.pi :=
  (C41_chebyshev_error .checked (n := 1) (by norm_num) (by norm_num) (ε := 1 / 2) (by norm_num) continuous_abs.continuousOn (p := C (1 / 2)) (by simp)
    (fun t ht => by
      have h1 : |t| ≤ 1 := abs_le.2 ht
      have h2 := abs_nonneg t
      rw [eval_C, abs_le]
      constructor <;> linarith)).1

/-- a non-polynomial integrand is covered: `|x|` on `[-2, 3]` -/
example : Tendsto (fun n => (AnyRule.chebyshevSecond ⟨pairs2 n⟩).value (-2) 3 (fun x => |x|)) atTop
    (nhds (∫ t in (-2 : ℝ)..3, |t| * Real.sqrt (1 - ((2 * t - -2 - 3) / (3 - -2)) ^ 2))) :=
  (C41_chebyshev (by norm_num) continuous_abs.continuousOn).2

/-! ## C42 -/

/-- C42 for the Chebyshev rules: some polynomial of degree `2n` is integrated to 0 although its integral is positive. -/
theorem C42_chebyshev (mode : Overflow) {n : ℕ} (hlt : n + 1 < 2 ^ 64) :
    (∃ r : Rule ℝ, GaussChebyshevFirstKind.new mode n = some r ∧ ∃ p : ℝ[X], p.natDegree = 2 * n ∧
      (AnyRule.chebyshevFirst r).value (-1) 1 (fun x => p.eval x) = 0 ∧
      0 < ∫ x in (-1 : ℝ)..1, p.eval x * (1 / Real.sqrt (1 - x ^ 2))) ∧
    (∃ r : Rule ℝ, GaussChebyshevSecondKind.new mode n = some r ∧ ∃ p : ℝ[X], p.natDegree = 2 * n ∧
      (AnyRule.chebyshevSecond r).value (-1) 1 (fun x => p.eval x) = 0 ∧
      0 < ∫ x in (-1 : ℝ)..1, p.eval x * Real.sqrt (1 - x ^ 2)) := by
  refine ⟨⟨_, cheb1_new_eq hlt, ?_⟩, ⟨_, cheb2_new_eq hlt, ?_⟩⟩
  · obtain ⟨p, h1, -, h2, h3⟩ := gauss_sharp (pairs1 n) posDef_cheb1
    refine ⟨p, by rw [h1, length_pairs1], ?_, ?_⟩
    · rw [value_gauss_quad rfl]; norm_num; exact h2
    · rw [weightIntegral, setIntegral_Ioo_eq_interval (by norm_num)] at h3; exact h3
  · obtain ⟨p, h1, -, h2, h3⟩ := gauss_sharp (pairs2 n) posDef_cheb2
    refine ⟨p, by rw [h1, length_pairs2], ?_, ?_⟩
    · rw [value_gauss_quad rfl]; norm_num; exact h2
    · rw [weightIntegral, setIntegral_Ioo_eq_interval (by norm_num)] at h3; exact h3

example : ∃ r : Rule ℝ, GaussChebyshevSecondKind.new .checked 4 = some r ∧ ∃ p : ℝ[X], p.natDegree = 2 * 4 ∧
    (AnyRule.chebyshevSecond r).value (-1) 1 (fun x => p.eval x) = 0 ∧ 0 < ∫ x in (-1 : ℝ)..1, p.eval x * Real.sqrt (1 - x ^ 2) :=
  (C42_chebyshev .checked (by norm_num)).2

/-! ## C43 -/

/-- C43 for the Chebyshev rules: the weights sum to `π` resp. `π/2`, the masses of the weight functions. -/
theorem C43_chebyshev (mode : Overflow) {n : ℕ} (hn : 0 < n) (hlt : n + 1 < 2 ^ 64) :
    (∃ r : Rule ℝ, GaussChebyshevFirstKind.new mode n = some r ∧ (r.asNodeWeightPairs.map (·.2)).sum = Real.pi ∧
      (r.asNodeWeightPairs.map (·.2)).sum = ∫ x in (-1 : ℝ)..1, 1 / Real.sqrt (1 - x ^ 2)) ∧
    (∃ r : Rule ℝ, GaussChebyshevSecondKind.new mode n = some r ∧ (r.asNodeWeightPairs.map (·.2)).sum = Real.pi / 2 ∧
      (r.asNodeWeightPairs.map (·.2)).sum = ∫ x in (-1 : ℝ)..1, Real.sqrt (1 - x ^ 2)) := by
  refine ⟨⟨_, cheb1_new_eq hlt, mass1 hn, ?_⟩, ⟨_, cheb2_new_eq hlt, mass2 hn, ?_⟩⟩
  · have := gauss_mass (exact1 hn)
    rw [one_mul, setIntegral_Ioo_eq_interval (by norm_num)] at this
    exact this
  · have := gauss_mass (exact2 hn)
    rw [one_mul, setIntegral_Ioo_eq_interval (by norm_num)] at this
    exact this

example : ∃ r : Rule ℝ, GaussChebyshevFirstKind.new .wrapping 17 = some r ∧ (r.asNodeWeightPairs.map (·.2)).sum = Real.pi :=
  let ⟨r, h, h', _⟩ := (C43_chebyshev .wrapping (n := 17) (by norm_num) (by norm_num)).1
  ⟨r, h, h'⟩

end GaussQuad.Props
