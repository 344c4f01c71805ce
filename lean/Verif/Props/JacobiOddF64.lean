import Verif.Proofs.F64JacobiOdd
import Verif.Props.JacobiF64
import Verif.Props.JacobiOdd

/-!
# C103 in binary64: Gauss-Jacobi of odd degree with different parameters

`GaussJacobi::new` (`/repo/src/jacobi/mod.rs` l.77-144, the overwriting in l.132-137) and `integrate` / `par_integrate` in binary64, in the case left out by C64 and C65.
-/

set_option exponentiation.threshold 3000

namespace GaussQuad.Props
open Polynomial Spec FloatOps F64

/-- C103 (binary64): at odd degrees with different parameters, the computed rule is close to the exact Gauss rule `G` with its middle node `x₀` replaced by 0; `γ` is the distance of
`x₀` from the other exact nodes.  The middle node of the computed rule is `0.0`.  Hypotheses as in C64. -/
theorem C103_binary64 [L : Libm] (hL : AccurateTrig L) (hP : AccuratePow L) (hs : AccurateSqrt L) (mode : Overflow) {ext : Externals F64} {n : ℕ} (hn : 1 < n)
    (hn1 : n ≤ 10 ^ 12) (hodd : n % 2 = 1) {ε : ℝ} (hst : StableSolver ext n ε) (hε : 0 ≤ ε) (hε1 : ε ≤ 0.01) {al be : FiniteAboveNegOne F64} {x y : F64}
    (hal : FiniteAboveNegOne.new x = some al) (hbe : FiniteAboveNegOne.new y = some be)
    (hR : (x.val : ℝ) + y.val ≤ 164 ∧ (2 : ℝ) ^ ((x.val : ℝ) + y.val + 1) * Real.Gamma (x.val + 1) * Real.Gamma (y.val + 1) ≤ 2 ^ 1000)
    {μ : ℝ} (hμ0 : 1 / 1000 ≤ μ) (hμ1 : μ ≤ 1) (hμ : μ ≤ |(x.val : ℝ) + y.val + 1|) (hμ2 : μ ≤ (x.val : ℝ) + y.val + 2)
    (hSN : (x.val : ℝ) + y.val < -1 → AccurateSinNeg L) (hne : x.val ≠ y.val)
    {G : List (ℝ × ℝ)} (hG : G.length = n) (hGs : G.Pairwise fun p q => p.1 ≤ q.1)
    (hex : ExactUpTo G (2 * n - 1) (Set.Ioo (-1) 1) (fun t => (1 - t) ^ (x.val : ℝ) * (1 + t) ^ (y.val : ℝ)) 1)
    {x₀ w₀ γ : ℝ} (hx : G[n / 2]? = some (x₀, w₀)) (hγ : 0 < γ) (hgap : ∀ j (hj : j < G.length), j ≠ n / 2 → γ ≤ |(G[j]).1 - x₀|) :
    ∃ r : JacobiRule F64, GaussJacobi.new mode ext n al be = some r ∧ r.alpha = al ∧ r.beta = be ∧
      r.nodeWeightPairs[n / 2]?.map (fun p => p.1) = some (F64.round 0 false) ∧
      NearRule r.nodeWeightPairs (G.set (n / 2) (0, w₀)) (jacobiMass x.val y.val) (3.6 * Real.sqrt n * (ε + 21 * (1 / 2 ^ 53) / μ) * (1 + |x₀| / γ))
        (3 * (2.01 * ε + 4.2e-11)) := by
  have hv := valid_of_new hal
  have hw := valid_of_new hbe
  obtain rfl := eq_of_new hal
  obtain rfl := eq_of_new hbe
  have l0 : (lit 0.0 : F64) = F64.round 0 false := by
    change F64.round 0.0 false = _
    decide +kernel
  rw [← l0]
  exact jacobi_odd_close hL hP hs mode hn hn1 hodd hst hε hε1 ⟨hv.1, hw.1, hv.2, hw.2, hR.1, hR.2, hμ0, hμ1, hμ, hμ2⟩ hSN
    ⟨fun h => hne (h.1.trans h.2.symm), fun h => hne (h.1.trans h.2.symm), fun h => hne (h.1.trans h.2.symm)⟩ hG hGs hex hx hγ hgap

/-- C103 (binary64): the value returned by `integrate` (resp. `par_integrate`, under every schedule `s`) on `[a, b]`, as in C65, against the sum of the exact rule with its middle node
replaced by 0; for polynomials of degree at most `2n - 1` that sum is the weighted integral plus the weight of the middle node times the difference of the integrand at the
centre and at the true middle node -/
theorem C103_binary64_value [L : Libm] (hL : AccurateTrig L) (hP : AccuratePow L) (hs : AccurateSqrt L) (mode : Overflow) {ext : Externals F64} {n : ℕ} (hn : 1 < n)
    (hn1 : n ≤ 10 ^ 12) (hodd : n % 2 = 1) {ε : ℝ} (hst : StableSolver ext n ε) (hε : 0 ≤ ε) (hε1 : ε ≤ 0.005) {al be : FiniteAboveNegOne F64} {x y : F64}
    (hal : FiniteAboveNegOne.new x = some al) (hbe : FiniteAboveNegOne.new y = some be)
    (hR : (x.val : ℝ) + y.val ≤ 164 ∧ (2 : ℝ) ^ ((x.val : ℝ) + y.val + 1) * Real.Gamma (x.val + 1) * Real.Gamma (y.val + 1) ≤ 2 ^ 1000)
    {μ : ℝ} (hμ0 : 1 / 1000 ≤ μ) (hμ1 : μ ≤ 1) (hμ : μ ≤ |(x.val : ℝ) + y.val + 1|) (hμ2 : μ ≤ (x.val : ℝ) + y.val + 2)
    (hSN : (x.val : ℝ) + y.val < -1 → AccurateSinNeg L) (hne : x.val ≠ y.val)
    {G : List (ℝ × ℝ)} (hG : G.length = n) (hGs : G.Pairwise fun p q => p.1 ≤ q.1)
    (hex : ExactUpTo G (2 * n - 1) (Set.Ioo (-1) 1) (fun t => (1 - t) ^ (x.val : ℝ) * (1 + t) ^ (y.val : ℝ)) 1)
    {x₀ w₀ γ : ℝ} (hx : G[n / 2]? = some (x₀, w₀)) (hγ : 0 < γ) (hgap : ∀ j (hj : j < G.length), j ≠ n / 2 → γ ≤ |(G[j]).1 - x₀|) :
    ∃ r : JacobiRule F64, GaussJacobi.new mode ext n al be = some r ∧
      ∀ (a b : F64) (B : ℝ) (f : F64 → F64) (g : ℝ → ℝ) (lo hi M Λ κ : ℝ), let η := 3.6 * Real.sqrt n * (ε + 21 * (1 / 2 ^ 53) / μ) * (1 + |x₀| / γ);
      let m := jacobiMass x.val y.val;
      let D := |(b.val : ℝ) - a.val|; let τ := 6 * (1 / 2 ^ 53 * B) + 1 / 2 ^ 1000; let κ' := κ + Λ * τ;
      let E := fun d : ℕ => D * (m * (0.26 * (Λ * D * η) + 0.501 * (3 * (2.01 * ε + 4.2e-11) * M) + 0.53 * κ' + (0.56 * d + 2.2) * (1 / 2 ^ 53 * (M + κ')))) + 1 / 2 ^ 490;
      let Q := ((b.val : ℝ) - a.val) / 2 * quad (G.set (n / 2) (0, w₀)) fun t => g (((b.val : ℝ) - a.val) / 2 * t + (a.val + b.val) / 2);
      a.isFinite = true → b.isFinite = true → |(a.val : ℝ)| ≤ B → |(b.val : ℝ)| ≤ B → B ≤ 2 ^ 400 → η ≤ 0.001 →
      lo + D / 2 * η + τ ≤ min (a.val : ℝ) b.val → max (a.val : ℝ) b.val + D / 2 * η + τ ≤ hi → Computes f g (Set.Icc lo hi) M Λ κ → 0 ≤ Λ →
      m * (M + κ' + Λ * D) ≤ 2 ^ 500 →
      (((AnyRule.jacobi r).value a b f).isFinite = true ∧ |(((AnyRule.jacobi r).value a b f).val : ℝ) - Q| ≤ E n) ∧
      (∀ s, roundings s n ≤ 10 ^ 12 → ((AnyRule.jacobi r).parIntegrate s s a b f).isFinite = true ∧
        |(((AnyRule.jacobi r).parIntegrate s s a b f).val : ℝ) - Q| ≤ E (roundings s n)) ∧
      (∀ p : ℝ[X], p.natDegree ≤ 2 * n - 1 → (∀ t, g t = p.eval t) →
        Q = ((b.val : ℝ) - a.val) / 2 *
          (∫ t in Set.Ioo (-1) 1, g (((b.val : ℝ) - a.val) / 2 * t + (a.val + b.val) / 2) * ((1 - t) ^ (x.val : ℝ) * (1 + t) ^ (y.val : ℝ))) +
          ((b.val : ℝ) - a.val) / 2 * w₀ * (g (((a.val : ℝ) + b.val) / 2) - g (((b.val : ℝ) - a.val) / 2 * x₀ + (a.val + b.val) / 2))) := by
  obtain ⟨r, hr, -, -, -, hN⟩ := C103_binary64 hL hP hs mode hn hn1 hodd hst hε (hε1.trans (by norm_num)) hal hbe hR hμ0 hμ1 hμ hμ2 hSN hne hG hGs hex hx hγ hgap
  have hα : -1 < (x.val : ℝ) := by
    have hv := (valid_of_new hal).2
    rw [eq_of_new hal] at hv
    have : ((-1 : ℚ) : ℝ) < (x.val : ℝ) := by exact_mod_cast hv
    push_cast at this
    exact this
  have hβ : -1 < (y.val : ℝ) := by
    have hv := (valid_of_new hbe).2
    rw [eq_of_new hbe] at hv
    have : ((-1 : ℚ) : ℝ) < (y.val : ℝ) := by exact_mod_cast hv
    push_cast at this
    exact this
  refine ⟨r, hr, ?_⟩
  intro a b B f g lo hi M Λ κ
  dsimp only
  have hμp : 0 < μ := by linarith
  obtain ⟨hi', hGi⟩ := List.getElem?_eq_some_iff.1 hx
  obtain ⟨η, hη⟩ : ∃ η, η = 3.6 * Real.sqrt n * (ε + 21 * (1 / 2 ^ 53) / μ) * (1 + |x₀| / γ) := ⟨_, rfl⟩
  have hη0 : 0 ≤ η := by rw [hη]; positivity
  rw [← hη] at hN ⊢
  intro ha hb haB hbB hB hη1 hlo hhi hf hΛ hK
  have hB0 : 0 ≤ B := (abs_nonneg _).trans haB
  obtain ⟨τ, hτ⟩ : ∃ τ, τ = 6 * (1 / 2 ^ 53 * B) + 1 / 2 ^ 1000 := ⟨_, rfl⟩
  have hτ0 : 0 ≤ τ := by rw [hτ]; positivity
  have hD0 : 0 ≤ |(b.val : ℝ) - a.val| / 2 * η := by positivity
  have hmem : (a.val : ℝ) ∈ Set.Icc lo hi := by
    rw [← hτ] at hlo hhi
    exact ⟨by linarith [min_le_left (a.val : ℝ) b.val], by linarith [le_max_left (a.val : ℝ) b.val]⟩
  have hM : 0 ≤ M := (abs_nonneg _).trans (hf.bound _ hmem)
  have hκ : 0 ≤ κ := (abs_nonneg _).trans (hf.accurate _ ha hmem).2
  have hIs : IsGauss G n (Set.Ioo (-1) 1) (jacW x.val y.val) 1 := ⟨hG, hGs, by rw [hG]; exact hex⟩
  have hlen : r.nodeWeightPairs.length = n := by rw [hN.length, List.length_set, hG]
  have hset := fun h : ℝ → ℝ => quad_set_sub G hi' 0 h
  simp only [hGi] at hset
  have hω : 3 * (2.01 * ε + 4.2e-11) ≤ 0.05 := by
    calc 3 * (2.01 * ε + 4.2e-11) ≤ 3 * (2.01 * 0.005 + 4.2e-11) := by gcongr
      _ ≤ _ := by norm_num
  have hm0 : 0 ≤ jacobiMass x.val y.val := by
    have h1 := Real.Gamma_pos_of_pos (by linarith : 0 < (x.val : ℝ) + 1)
    have h2 := Real.Gamma_pos_of_pos (by linarith : 0 < (y.val : ℝ) + 1)
    have h3 := Real.Gamma_pos_of_pos (by linarith : 0 < (x.val : ℝ) + y.val + 2)
    unfold jacobiMass
    positivity
  have hw₀ : ∀ p ∈ G, 0 < p.2 := gauss_weights_pos one_pos hIs.exact' (posDef_jacobi hα hβ)
  have key := fun {d : ℕ} (hd : d ≤ 10 ^ 12) {z : F64} hz => interval_value (d := d) (x := z) hN hη0 hη1 (by positivity) hω hm0
    (by
      have := hset fun _ => 1
      rw [_root_.sub_self, mul_zero, quad_one (jacobi_mass hα hβ) hex] at this
      exact sub_eq_zero.1 this) (by rw [List.length_set]; omega)
    (fun q hq => by
      rcases List.mem_or_eq_of_mem_set hq with hq | rfl
      · exact jacobi_nodes hα hβ hIs one_pos q hq
      · norm_num)
    (fun p hp => by
      rcases List.mem_or_eq_of_mem_set hp with hp | rfl
      · exact (hw₀ p hp).le
      · exact (hw₀ (x₀, w₀) (hGi ▸ List.getElem_mem hi')).le) ha hb haB hbB hB hΛ
    (fun t ht => by
      have := interval_margin (a := (a.val : ℝ)) (b := b.val) ht
      change lo + (6 * (1 / 2 ^ 53 * B) + 1 / 2 ^ 1000) ≤ ((b.val : ℝ) - a.val) / 2 * t + (a.val + b.val) / 2 ∧
        ((b.val : ℝ) - a.val) / 2 * t + (a.val + b.val) / 2 + (6 * (1 / 2 ^ 53 * B) + 1 / 2 ^ 1000) ≤ hi
      rw [← hτ] at hlo hhi ⊢
      exact ⟨by linarith [this.1], by linarith [this.2]⟩) hf hκ hM rfl hK hd hz
  refine ⟨?_, fun s hs' => ?_, fun p hp hg => ?_⟩
  · rw [jacobi_value_eq]
    exact key hn1 (Or.inl ⟨rfl, hlen.symm⟩)
  · exact key hs' (Or.inr ⟨s, rfl, by rw [hlen]⟩)
  · have e : ∀ t, g (((b.val : ℝ) - a.val) / 2 * t + (a.val + b.val) / 2) =
        (p.comp (C (((b.val : ℝ) - a.val) / 2) * X + C (((a.val : ℝ) + b.val) / 2))).eval t := fun t => by rw [hg]; simp
    have h1 := hset fun t => g (((b.val : ℝ) - a.val) / 2 * t + (a.val + b.val) / 2)
    have h2 : quad G (fun t => g (((b.val : ℝ) - a.val) / 2 * t + (a.val + b.val) / 2)) =
        ∫ t in Set.Ioo (-1) 1, g (((b.val : ℝ) - a.val) / 2 * t + (a.val + b.val) / 2) * ((1 - t) ^ (x.val : ℝ) * (1 + t) ^ (y.val : ℝ)) := by
      simp only [e]
      rw [hex _ ?_, one_mul, weightIntegral]
      refine natDegree_comp_le.trans ((Nat.mul_le_mul hp natDegree_linear_le).trans (by omega))
    rw [h2] at h1
    simp only [mul_zero, zero_add] at h1
    linear_combination ((b.val : ℝ) - a.val) / 2 * h1

/-- the exact 3-point rule for the weight `1 - t` -/
theorem jacobi_three {G : List (ℝ × ℝ)} (h : IsGauss G 3 (Set.Ioo (-1) 1) (jacW 1 0) 1) : ∃ x₀ x₁ x₂ w₀ w₁ w₂ : ℝ, G = [(x₀, w₀), (x₁, w₁), (x₂, w₂)] ∧
    x₀ < -0.8 ∧ -0.3 < x₁ ∧ x₁ < -0.1 ∧ 0.5 < x₂ ∧ 0.78 ≤ w₁ := by
  have hlen := h.length
  have hroot := h.rootPoly (by norm_num) one_pos (posDef_jacobi (by norm_num : (-1 : ℝ) < 1) (by norm_num : (-1 : ℝ) < 0)) (integrable_jacobi (by norm_num) (by norm_num))
    (jacobi_orthogonal (by norm_num) (by norm_num) (by norm_num))
  have hsort := h.sorted
  have hex := h.exact'
  have hw := gauss_weights_pos one_pos h.exact' (posDef_jacobi (by norm_num : (-1 : ℝ) < 1) (by norm_num : (-1 : ℝ) < 0))
  match G, hlen with
  | [p₀, p₁, p₂], _ =>
    obtain ⟨x₀, w₀⟩ := p₀
    obtain ⟨x₁, w₁⟩ := p₁
    obtain ⟨x₂, w₂⟩ := p₂
    simp only [List.pairwise_cons, List.mem_cons, List.not_mem_nil, or_false, forall_eq_or_imp, forall_eq] at hsort
    obtain ⟨⟨s1, s2⟩, s3, -⟩ := hsort
    have hev : ∀ t : ℝ, (t - x₀) * ((t - x₁) * (t - x₂)) = t ^ 3 + 3 / 7 * t ^ 2 - 3 / 7 * t - 3 / 35 := by
      intro t
      have := congrArg (fun p => p.eval t) hroot
      rw [rootPoly_eval] at this
      simp only [List.map_cons, List.map_nil, List.prod_cons, List.prod_nil, mul_one] at this
      rw [this]
      simp only [monicSeq, eval_sub, eval_mul, eval_X, eval_C, eval_one, jacB_sq (by norm_num : (-1 : ℝ) < 1) (by norm_num : (-1 : ℝ) < 0) (by norm_num), jacA]
      norm_num
      ring
    have e1 := hev (-0.8)
    have e2 := hev (-0.3)
    have e3 := hev (-0.1)
    have e4 := hev 0.5
    norm_num at e1 e2 e3 e4
    have a1 : x₀ < -0.8 := by
      by_contra hc
      norm_num at hc
      have f1 : -(4 / 5) - x₀ ≤ 0 := by linarith
      have f2 : -(4 / 5) - x₁ ≤ 0 := by linarith
      have f3 : -(4 / 5) - x₂ ≤ 0 := by linarith
      have := mul_nonpos_of_nonpos_of_nonneg f1 (mul_nonneg_of_nonpos_of_nonpos f2 f3)
      linarith
    norm_num at a1
    have a3 : x₁ < -0.1 ∧ -0.1 < x₂ := by
      norm_num
      have f1 : 0 < -(1 / 10) - x₀ := by linarith
      have f2 : (-(1 / 10) - x₁) * (-(1 / 10) - x₂) < 0 := by
        by_contra hc
        have := mul_nonneg f1.le (not_lt.1 hc)
        linarith
      rcases mul_neg_iff.1 f2 with h' | h'
      · exact ⟨by linarith [h'.1], by linarith [h'.2]⟩
      · linarith [h'.1, h'.2]
    norm_num at a3
    have a2 : -0.3 < x₁ := by
      by_contra hc
      norm_num at hc
      have f1 : 0 ≤ -(3 / 10) - x₀ := by linarith
      have f2 : 0 ≤ -(3 / 10) - x₁ := by linarith
      have f3 : -(3 / 10) - x₂ ≤ 0 := by linarith
      have := mul_nonpos_of_nonneg_of_nonpos f1 (mul_nonpos_of_nonneg_of_nonpos f2 f3)
      linarith
    have a4 : 0.5 < x₂ := by
      norm_num
      have f1 : 0 < 1 / 2 - x₀ := by linarith
      have f2 : (1 / 2 - x₁) * (1 / 2 - x₂) < 0 := by
        by_contra hc
        have := mul_nonneg f1.le (not_lt.1 hc)
        linarith
      have f3 : 0 < 1 / 2 - x₁ := by linarith
      have := neg_of_mul_neg_right f2 f3.le
      linarith
    refine ⟨x₀, x₁, x₂, w₀, w₁, w₂, rfl, by linarith, a2, by linarith, a4, ?_⟩
    norm_num at a4
    have h0 := hw (x₀, w₀) (by simp)
    have h1 := hw (x₁, w₁) (by simp)
    have h2 := hw (x₂, w₂) (by simp)
    have hq := hex ((X + C 0.8) * (C 0.5 - X)) (by
      refine (natDegree_mul_le.trans (Nat.add_le_add (natDegree_X_add_C _).le (natDegree_sub_le _ _))).trans ?_
      simp)
    have hint : weightIntegral (Set.Ioo (-1) 1) (jacW 1 0) ((X + C 0.8) * (C 0.5 - X)) = 1 / 3 := by
      have e : ∀ t ∈ Set.Ioo (-1 : ℝ) 1, ((X + C 0.8) * (C 0.5 - X) : ℝ[X]).eval t * jacW 1 0 t = t ^ 3 - 0.7 * t ^ 2 - 0.7 * t + 0.4 := by
        intro t _
        simp only [jacW, eval_mul, eval_add, eval_sub, eval_X, eval_C, Real.rpow_one, Real.rpow_zero]
        ring
      rw [weightIntegral, MeasureTheory.setIntegral_congr_fun measurableSet_Ioo e, ← MeasureTheory.integral_Ioc_eq_integral_Ioo,
        ← intervalIntegral.integral_of_le (by norm_num)]
      rw [intervalIntegral.integral_add (Continuous.intervalIntegrable (by fun_prop) _ _) (Continuous.intervalIntegrable (by fun_prop) _ _),
        intervalIntegral.integral_sub (Continuous.intervalIntegrable (by fun_prop) _ _) (Continuous.intervalIntegrable (by fun_prop) _ _),
        intervalIntegral.integral_sub (Continuous.intervalIntegrable (by fun_prop) _ _) (Continuous.intervalIntegrable (by fun_prop) _ _),
        intervalIntegral.integral_const_mul, intervalIntegral.integral_const_mul, integral_pow, integral_pow, integral_id, intervalIntegral.integral_const]
      norm_num
    rw [hint] at hq
    simp only [quad, List.map_cons, List.map_nil, List.sum_cons, List.sum_nil, eval_mul, eval_add, eval_sub, eval_X, eval_C] at hq
    norm_num at hq ⊢
    have g0 : w₀ * ((x₀ + 4 / 5) * (1 / 2 - x₀)) ≤ 0 :=
      mul_nonpos_of_nonneg_of_nonpos h0.le (mul_nonpos_of_nonpos_of_nonneg (by linarith) (by linarith))
    have g2 : w₂ * ((x₂ + 4 / 5) * (1 / 2 - x₂)) ≤ 0 :=
      mul_nonpos_of_nonneg_of_nonpos h2.le (mul_nonpos_of_nonneg_of_nonpos (by linarith) (by linarith))
    have g1 : w₁ * ((x₁ + 4 / 5) * (1 / 2 - x₁)) ≤ w₁ * (169 / 400) :=
      mul_le_mul_of_nonneg_left (by nlinarith [sq_nonneg (x₁ + 3 / 20)]) h1.le
    linarith

/-- with a suitable backend and solver, the 3-point rule for `α = 1`, `β = 0` computed in binary64 returns more than `-0.6` for the integral of `t (1 - t)` over `[-1, 1]`, which is
`-2/3`, and its total weight is right -/
example : ∃ _L : Libm, ∃ ext : Externals F64, ∃ x y a b al be r, x.val = 1 ∧ y.val = 0 ∧ a.val = -1 ∧ b.val = 1 ∧ FiniteAboveNegOne.new x = some al ∧
    FiniteAboveNegOne.new y = some be ∧ GaussJacobi.new .checked ext 3 al be = some r ∧
    -0.6 < (((AnyRule.jacobi r).value a b fun y => y).val : ℝ) ∧ ∫ t in Set.Ioo (-1 : ℝ) 1, t * ((1 - t) ^ (1 : ℝ) * (1 + t) ^ (0 : ℝ)) = -2 / 3 ∧
    |(r.nodeWeightPairs.map fun p => (p.2.val : ℝ)).sum - 2| ≤ 1e-9 := by
  obtain ⟨L, hL, -, hP, hs⟩ := accurateLibm_exists
  have hd : (round 1 false).isFinite = true ∧ (round 1 false).val = 1 := by decide +kernel
  have hd1 : (round 0 false).isFinite = true ∧ (round 0 false).val = 0 := by decide +kernel
  have hd2 : (round (-1) false).isFinite = true ∧ (round (-1) false).val = -1 := by decide +kernel
  have hnew : FiniteAboveNegOne.new (round 1 false) = some ⟨round 1 false⟩ := new_valid ⟨hd.1, by rw [hd.2]; norm_num⟩
  have hnew1 : FiniteAboveNegOne.new (round 0 false) = some ⟨round 0 false⟩ := new_valid ⟨hd1.1, by rw [hd1.2]; norm_num⟩
  have e : (((round 1 false).val : ℚ) : ℝ) = 1 := by rw [hd.2]; norm_num
  have e1 : (((round 0 false).val : ℚ) : ℝ) = 0 := by rw [hd1.2]; norm_num
  have e2 : (((round (-1) false).val : ℚ) : ℝ) = -1 := by rw [hd2.2]; norm_num
  obtain ⟨G, g1, g2, g3⟩ := jacobi_rule_exists (n := 3) (by norm_num) (α := 1) (β := 0) (by norm_num) (by norm_num) (by norm_num)
  obtain ⟨x₀, x₁, x₂, w₀, w₁, w₂, hGe, b1, b2, b3, b4, b5⟩ := jacobi_three (G := G) ⟨g1, g2, by rw [g1]; exact g3⟩
  have hst := stableSolver_exists (n := 3) (by norm_num)
  have hε0 : 0 ≤ 3 * ((3 : ℕ) : ℝ) * U := by unfold U; positivity
  have hε1 : 3 * ((3 : ℕ) : ℝ) * U ≤ 0.005 := by unfold U; norm_num
  have hm : jacobiMass 1 0 = 2 := by
    unfold jacobiMass
    rw [show (1 : ℝ) + 0 + 1 = 2 by norm_num, show (1 : ℝ) + 1 = 2 by norm_num, show (0 : ℝ) + 1 = 1 by norm_num, show (1 : ℝ) + 0 + 2 = 2 + 1 by norm_num,
      Real.Gamma_add_one two_ne_zero, Real.Gamma_two, Real.Gamma_one]
    norm_num
  have hint : ∫ t in Set.Ioo (-1 : ℝ) 1, t * ((1 - t) ^ (1 : ℝ) * (1 + t) ^ (0 : ℝ)) = -2 / 3 := by
    have e : ∀ t ∈ Set.Ioo (-1 : ℝ) 1, t * ((1 - t) ^ (1 : ℝ) * (1 + t) ^ (0 : ℝ)) = t - t ^ 2 := by
      intro t _
      simp only [Real.rpow_one, Real.rpow_zero]
      ring
    rw [MeasureTheory.setIntegral_congr_fun measurableSet_Ioo e, ← MeasureTheory.integral_Ioc_eq_integral_Ioo, ← intervalIntegral.integral_of_le (by norm_num),
      intervalIntegral.integral_sub (Continuous.intervalIntegrable (by fun_prop) _ _) (Continuous.intervalIntegrable (by fun_prop) _ _), integral_pow, integral_id]
    norm_num
  have hxm : G[3 / 2]? = some (x₁, w₁) := by rw [hGe]; rfl
  have hgap : ∀ j (hj : j < G.length), j ≠ 3 / 2 → 0.5 ≤ |(G[j]).1 - x₁| := by
    subst hGe
    intro j hj hne
    match j, hj with
    | 0, _ =>
      show 0.5 ≤ |x₀ - x₁|
      rw [abs_sub_comm, abs_of_pos (by linarith)]; linarith
    | 1, _ => exact absurd rfl hne
    | 2, _ =>
      show 0.5 ≤ |x₂ - x₁|
      rw [abs_of_pos (by linarith)]; linarith
  obtain ⟨r, hr, -, -, -, hN⟩ := C103_binary64 hL hP hs .checked (n := 3) (by norm_num) (by norm_num) (by norm_num) hst hε0 (hε1.trans (by norm_num)) hnew hnew1
    (C64_range hnew hnew1 (by rw [e]; norm_num) (by rw [e1]; norm_num)) (μ := 1) (by norm_num) le_rfl (by rw [e, e1]; norm_num) (by rw [e, e1]; norm_num)
    (fun h => absurd h (by rw [e, e1]; norm_num)) (by rw [hd.2, hd1.2]; norm_num) g1 g2 (by rw [e, e1]; exact g3) hxm (by norm_num) hgap
  obtain ⟨r', hr', hv⟩ := C103_binary64_value hL hP hs .checked (n := 3) (by norm_num) (by norm_num) (by norm_num) hst hε0 hε1 hnew hnew1
    (C64_range hnew hnew1 (by rw [e]; norm_num) (by rw [e1]; norm_num)) (μ := 1) (by norm_num) le_rfl (by rw [e, e1]; norm_num) (by rw [e, e1]; norm_num)
    (fun h => absurd h (by rw [e, e1]; norm_num)) (by rw [hd.2, hd1.2]; norm_num) g1 g2 (by rw [e, e1]; exact g3) hxm (by norm_num) hgap
  obtain rfl : r = r' := Option.some.inj (hr.symm.trans hr')
  obtain ⟨η, hη⟩ : ∃ η, η = 3.6 * Real.sqrt ((3 : ℕ) : ℝ) * (3 * ((3 : ℕ) : ℝ) * U + 21 * (1 / 2 ^ 53) / 1) * (1 + |x₁| / 0.5) := ⟨_, rfl⟩
  have hη0 : 0 ≤ η := by rw [hη]; unfold U; positivity
  have hη1 : η ≤ 1e-12 := by
    rw [hη]
    have h1 : Real.sqrt ((3 : ℕ) : ℝ) ≤ 2 := Real.sqrt_le_iff.2 ⟨by norm_num, by norm_num⟩
    have h2 : |x₁| ≤ 0.5 := abs_le.2 ⟨by linarith, by linarith⟩
    have h3 : 1 + |x₁| / 0.5 ≤ 2 := by
      have : |x₁| / 0.5 ≤ 1 := (div_le_one (by norm_num)).2 h2
      linarith
    have h4 : 3 * ((3 : ℕ) : ℝ) * U + 21 * (1 / 2 ^ 53) / 1 ≤ 6e-15 := by unfold U; norm_num
    have h5 : 0 ≤ 3 * ((3 : ℕ) : ℝ) * U + 21 * (1 / 2 ^ 53) / 1 := by unfold U; positivity
    have h6 : 3.6 * Real.sqrt ((3 : ℕ) : ℝ) ≤ 7.2 := (mul_le_mul_of_nonneg_left h1 (by norm_num)).trans (by norm_num)
    have h7 : 3.6 * Real.sqrt ((3 : ℕ) : ℝ) * (3 * ((3 : ℕ) : ℝ) * U + 21 * (1 / 2 ^ 53) / 1) ≤ 7.2 * 6e-15 := mul_le_mul h6 h4 h5 (by norm_num)
    have h8 := mul_le_mul h7 h3 (by positivity) (by norm_num)
    exact h8.trans (by norm_num)
  rw [← hη, e, e1, hm] at hN
  have hω : 3 * (2.01 * (3 * ((3 : ℕ) : ℝ) * U) + 4.2e-11) ≤ 1.3e-10 := by unfold U; norm_num
  refine ⟨L, _, _, _, round (-1) false, round 1 false, _, _, r, hd.2, hd1.2, hd2.2, hd.2, hnew, hnew1, hr, ?_, hint, ?_⟩
  · have h := hv (round (-1) false) (round 1 false) 1 (fun y => y) (fun t => t) (-2) 2 2 1 0
    rw [e, e1, e2, hm, ← hη] at h
    have eD : |(1 : ℝ) - -1| = 2 := by rw [abs_of_pos (by norm_num)]; norm_num
    simp only [eD] at h
    obtain ⟨τ, hτd⟩ : ∃ τ : ℝ, τ = 6 * (1 / 2 ^ 53 * 1) + 1 / 2 ^ 1000 := ⟨_, rfl⟩
    have hτ : τ ≤ 1e-14 := by rw [hτd]; norm_num
    have hτ0 : 0 ≤ τ := by rw [hτd]; positivity
    rw [← hτd] at h
    obtain ⟨⟨-, a2⟩, -, a3⟩ := h hd2.1 hd.1 (by rw [abs_neg, abs_one]) (by rw [abs_one]) (by norm_num) (hη1.trans (by norm_num))
      (by rw [min_eq_left (by norm_num)]; linarith) (by rw [max_eq_right (by norm_num)]; linarith) (id_computes (by norm_num)) (by norm_num) (by
        have : (2 : ℝ) * (2 + (0 + 1 * τ) + 1 * 2) ≤ 10 := by linarith
        exact this.trans (by norm_num))
    rw [a3 X (by simp) (by simp)] at a2
    have e5 : ((1 : ℝ) - -1) / 2 = 1 := by norm_num
    have e6 : (-1 + 1 : ℝ) / 2 = 0 := by norm_num
    rw [e5, e6] at a2
    simp only [one_mul, add_zero] at a2
    rw [hint] at a2
    have h5 : 2 * (2 * (0.26 * (2 * η) + 0.501 * (3 * (2.01 * (3 * ((3 : ℕ) : ℝ) * U) + 4.2e-11) * 2) + 0.53 * (0 + τ) +
        (0.56 * ((3 : ℕ) : ℝ) + 2.2) * (1 / 2 ^ 53 * (2 + (0 + τ))))) + 1 / 2 ^ 490 ≤ (1e-3 : ℝ) := by
      have k1 : (0.56 * ((3 : ℕ) : ℝ) + 2.2) * (1 / 2 ^ 53 * (2 + (0 + τ))) ≤ 4 * (1 / 2 ^ 53 * 3) := by
        refine mul_le_mul (by norm_num) (mul_le_mul_of_nonneg_left (by linarith) (by positivity)) (by positivity) (by norm_num)
      have k2 : (4 : ℝ) * (1 / 2 ^ 53 * 3) ≤ 1e-10 := by norm_num
      have k3 : (1 : ℝ) / 2 ^ 490 ≤ 1e-10 := by norm_num
      linarith
    have a4 := (abs_le.1 (a2.trans h5)).1
    have : 0.78 * 0.1 ≤ w₁ * (0 - x₁) := mul_le_mul b5 (by linarith) (by norm_num) (by linarith)
    norm_num at a4 this b1 b2 b3 ⊢
    linarith
  · have := C60_total_weight hN hη0 (by
      have h1 := quad_one (jacobi_mass (by norm_num : (-1 : ℝ) < 1) (by norm_num : (-1 : ℝ) < 0)) g3
      change quad G _ = jacobiMass 1 0 at h1
      rw [hm, hGe] at h1
      rw [hGe]
      simpa [quad] using h1)
    exact this.trans ((mul_le_mul_of_nonneg_right hω (by norm_num)).trans (by norm_num))

end GaussQuad.Props
