import Verif.Proofs.LegendreLarge
import Verif.Proofs.GaussConvergence
import Verif.Props.LegendreAccuracy

/-!
# C50: the asymptotic Gauss-Legendre rules (degree above 100) are the true ones up to 7.5e-17 in the nodes and 1e-15 (relative) in the
weights; consequences for the weight sum (C43) and for continuous integrands (C41)
-/

namespace GaussQuad.Props
open Polynomial Spec FloatOps Bogaert LegendrePoly

/-- C50: for every degree `n > 100` there is an exact Gauss rule `G` – `n` strictly increasing roots of the Legendre polynomial `P_n`
inside (-1, 1), exact for all polynomials of degree at most `2n-1` – such that each node of the crate's rule is within `7.5e-17` of the
corresponding node of `G` and each weight within the relative distance `1e-15` of the corresponding weight. -/
theorem C50_asymptotic (mode : Overflow) {n : ℕ} (hn : 100 < n) (hlt : n + 1 < 2 ^ 64) :
    ∃ r : Rule ℝ, GaussLegendre.new mode n = some r ∧ ∃ G : List (ℝ × ℝ), G.length = n ∧ (G.map (·.1)).Pairwise (· < ·) ∧
      (∀ q ∈ G, (legendreP n).eval q.1 = 0 ∧ -1 < q.1 ∧ q.1 < 1 ∧ 0 < q.2) ∧ ExactUpTo G (2 * n - 1) (Set.Ioo (-1) 1) (fun _ => 1) 1 ∧
      List.Forall₂ (fun p q => |p.1 - q.1| ≤ 75 / 10 ^ 18 ∧ |p.2 - q.2| ≤ 1 / 10 ^ 15 * q.2) r.asNodeWeightPairs G := by
  have hn0 : 0 < n := by omega
  obtain ⟨θ, w, h, hr⟩ := legendre_pairs mode hn0 hlt
  obtain ⟨ξ, h1, h2⟩ := accurate_large hn h
  have hsorted : ((rangeRev (n + 1)).map ξ).Pairwise (· < ·) := by
    rw [List.pairwise_map, rangeRev, List.pairwise_reverse, Nat.add_sub_cancel]
    refine List.Pairwise.imp_of_mem ?_ (List.pairwise_lt_range' (s := 1) (n := n))
    intro i j hi hj hij
    rw [List.mem_range'_1] at hi hj
    exact h2 i j (by omega) hij (by omega)
  have hG : ExactUpTo (((rangeRev (n + 1)).map ξ).map fun x => (x, legOmega n x)) (2 * n - 1) (Set.Ioo (-1) 1) (fun _ => 1) 1 := by
    apply gauss_of_roots hn0
    · simp [length_rangeRev]
    · exact hsorted.imp ne_of_lt
    · intro x hx
      obtain ⟨k, hk, rfl⟩ := List.mem_map.1 hx
      rw [mem_rangeRev] at hk
      exact (h1 k hk.1 (by omega)).1
  have hlen : (((rangeRev (n + 1)).map ξ).map fun x => (x, legOmega n x)).length = n := by simp [length_rangeRev]
  refine ⟨_, hr, _, hlen, ?_, ?_, hG, ?_⟩
  · rw [List.map_map]; exact (List.map_id _).symm ▸ hsorted
  · intro q hq
    have hin : -1 < q.1 ∧ q.1 < 1 ∧ 0 < q.2 := ⟨gauss_nodes_gt one_pos (by rw [hlen]; exact hG) posDef_one (fun x hx => hx.1.le) q hq,
      gauss_nodes_lt one_pos (by rw [hlen]; exact hG) posDef_one (fun x hx => hx.2.le) q hq,
      gauss_weights_pos one_pos (by rw [hlen]; exact hG) posDef_one q hq⟩
    obtain ⟨x, hx, rfl⟩ := List.mem_map.1 hq
    obtain ⟨k, hk, rfl⟩ := List.mem_map.1 hx
    rw [mem_rangeRev] at hk
    exact ⟨(h1 k hk.1 (by omega)).1, hin⟩
  · rw [Rule.asNodeWeightPairs, List.map_map, List.forall₂_map_left_iff, List.forall₂_map_right_iff, List.forall₂_same]
    intro k hk
    rw [mem_rangeRev] at hk
    exact (h1 k hk.1 (by omega)).2

example : ∃ r : Rule ℝ, GaussLegendre.new .wrapping 1000001 = some r ∧ ∃ G : List (ℝ × ℝ), G.length = 1000001 ∧
    ExactUpTo G 2000001 (Set.Ioo (-1) 1) (fun _ => 1) 1 :=
  let ⟨r, h1, G, h2, _, _, h3, _⟩ := C50_asymptotic .wrapping (n := 1000001) (by norm_num) (by norm_num)
  ⟨r, h1, G, h2, h3⟩

/-- two rules whose weights are relatively close give close sums -/
theorem quad_close_rel {A B : List (ℝ × ℝ)} {δ ε K M : ℝ} {f : ℝ → ℝ}
    (h : List.Forall₂ (fun p q => |p.1 - q.1| ≤ δ ∧ |p.2 - q.2| ≤ ε * q.2) A B) (hK : ∀ p ∈ A, |f p.1| ≤ K) (hB : ∀ q ∈ B, 0 ≤ q.2)
    (hM : ∀ p ∈ A, ∀ q ∈ B, |p.1 - q.1| ≤ δ → |f p.1 - f q.1| ≤ M) :
    |quad A f - quad B f| ≤ (B.map (·.2)).sum * (ε * K + M) := by
  induction h with
  | nil => simp [quad]
  | @cons p q A B h1 h2 ih =>
    have ih := ih (fun p hp => hK p (List.mem_cons_of_mem _ hp)) (fun q hq => hB q (List.mem_cons_of_mem _ hq))
      (fun p hp q hq => hM p (List.mem_cons_of_mem _ hp) q (List.mem_cons_of_mem _ hq))
    have k1 := hK p (by simp)
    have k2 := hB q (by simp)
    have k3 := hM p (by simp) q (by simp) h1.1
    have e : quad (p :: A) f - quad (q :: B) f = ((p.2 - q.2) * f p.1 + q.2 * (f p.1 - f q.1)) + (quad A f - quad B f) := by
      simp [quad]; ring
    have b1 : |(p.2 - q.2) * f p.1| ≤ ε * q.2 * K := by
      rw [abs_mul]; exact mul_le_mul h1.2 k1 (abs_nonneg _) ((abs_nonneg _).trans h1.2)
    have b2 : |q.2 * (f p.1 - f q.1)| ≤ q.2 * M := by
      rw [abs_mul, abs_of_nonneg k2]; exact mul_le_mul_of_nonneg_left k3 k2
    rw [e]
    refine (abs_add_le _ _).trans ?_
    have := (abs_add_le ((p.2 - q.2) * f p.1) (q.2 * (f p.1 - f q.1))).trans (add_le_add b1 b2)
    simp only [List.map_cons, List.sum_cons]
    linarith

/-- C41 for Gauss-Legendre, quantitative: let `f` be continuous on `[a, b]` and bounded by `K`, let `M` bound its oscillation over
distances up to `7.5e-17 (b-a)/2`, and let some polynomial of degree at most `2n-1` be within `ε` of `f`.  Then the error of `integrate` at
degree `n > 100` is at most `(b-a) (2ε + 1e-15 K + M)`: the true convergence rate up to the accuracy of the rule's data. -/
theorem C41_legendre_error (mode : Overflow) {n : ℕ} (hn : 100 < n) (hlt : n + 1 < 2 ^ 64) {a b ε K M : ℝ} (hab : a < b) {f : ℝ → ℝ}
    (hf : ContinuousOn f (Set.Icc a b)) (hK : ∀ t ∈ Set.Icc a b, |f t| ≤ K)
    (hM : ∀ s ∈ Set.Icc a b, ∀ t ∈ Set.Icc a b, |s - t| ≤ 75 / 10 ^ 18 * ((b - a) / 2) → |f s - f t| ≤ M)
    {p : ℝ[X]} (hp : p.natDegree ≤ 2 * n - 1) (hε : ∀ t ∈ Set.Icc a b, |f t - p.eval t| ≤ ε) :
    ∃ r : Rule ℝ, GaussLegendre.new mode n = some r ∧
      |(AnyRule.legendre r).value a b f - ∫ t in a..b, f t| ≤ (b - a) * (2 * ε + 1 / 10 ^ 15 * K + M) := by
  obtain ⟨r, hr, G, hlen, -, hin, hex, hclose⟩ := C50_asymptotic mode hn hlt
  obtain ⟨r', hr', hlen', hin', -⟩ := C37_legendre mode (show 0 < n by omega) hlt
  rw [hr] at hr'
  obtain rfl := Option.some.inj hr'
  refine ⟨r, hr, ?_⟩
  have hh : 0 < (b - a) / 2 := by linarith
  have hmem : ∀ x : ℝ, -1 ≤ x → x ≤ 1 → (b - a) / 2 * x + (a + b) / 2 ∈ Set.Icc a b := by
    intro x h1 h2; constructor <;> nlinarith
  have hsum : (G.map (·.2)).sum = 2 := by
    have := gauss_mass (by rw [hlen]; exact hex)
    rw [this]; simp; norm_num
  have hcont := continuousOn_transport (a := a) (b := b) (f := f) (by rwa [Set.uIcc_of_lt hab])
  have h1 := gauss_error (L := G) hex (fun q hq => (hin q hq).2.2.2.le) (fun q hq => ⟨(hin q hq).2.1.le, (hin q hq).2.2.1.le⟩)
    (fun x _ => zero_le_one) (by simp) hcont (p := affinePoly a b p) ((affinePoly_natDegree a b p).trans hp) (ε := ε)
    (fun x hx => by rw [affinePoly_eval]; exact hε _ (hmem x hx.1 hx.2))
  have h2 := quad_close_rel (f := fun x => f ((b - a) / 2 * x + (a + b) / 2)) (K := K) (M := M) hclose
    (fun q hq => hK _ (hmem _ (hin' q hq).1.le (hin' q hq).2.1.le)) (fun q hq => (hin q hq).2.2.2.le) (by
      intro q hq q' hq' hd
      refine hM _ (hmem _ (hin' q hq).1.le (hin' q hq).2.1.le) _ (hmem _ (hin q' hq').2.1.le (hin q' hq').2.2.1.le) ?_
      rw [show (b - a) / 2 * q.1 + (a + b) / 2 - ((b - a) / 2 * q'.1 + (a + b) / 2) = (q.1 - q'.1) * ((b - a) / 2) by ring, abs_mul, abs_of_pos hh]
      gcongr)
  rw [hsum] at h2
  have hi := integral_transport (fun _ => 1) f hab.ne
  simp only [mul_one] at hi h1
  have hmass : ∫ x in Set.Ioo (-1 : ℝ) 1, (1 : ℝ) = 2 := by simp; norm_num
  rw [hmass] at h1
  rw [value_gauss_quad rfl, ← hi, ← mul_sub, abs_mul, abs_of_pos hh]
  have h3 := abs_sub_le (quad r.asNodeWeightPairs fun x => f ((b - a) / 2 * x + (a + b) / 2))
    (quad G fun x => f ((b - a) / 2 * x + (a + b) / 2)) (∫ x in Set.Ioo (-1 : ℝ) 1, f ((b - a) / 2 * x + (a + b) / 2))
  have h4 := h3.trans (add_le_add h2 h1)
  calc _ ≤ _ := mul_le_mul_of_nonneg_left h4 hh.le
    _ = _ := by ring

/-- C50, near-exactness: for degree `n > 100` and every polynomial `p` of degree at most `2n-1` with `|p| ≤ K` and `|p'| ≤ L` on `[a, b]`,
`integrate` differs from the integral by at most `(b-a) (1e-15 K + 7.5e-17 L (b-a)/2)`. -/
theorem C50_near_exact (mode : Overflow) {n : ℕ} (hn : 100 < n) (hlt : n + 1 < 2 ^ 64) :
    ∃ r : Rule ℝ, GaussLegendre.new mode n = some r ∧ ∀ (p : ℝ[X]) (a b K L : ℝ), p.natDegree ≤ 2 * n - 1 → a < b →
      (∀ x ∈ Set.Icc a b, |p.eval x| ≤ K) → (∀ x ∈ Set.Icc a b, |(derivative p).eval x| ≤ L) →
      |(AnyRule.legendre r).value a b (fun x => p.eval x) - ∫ x in a..b, p.eval x| ≤
        (b - a) * (1 / 10 ^ 15 * K + 75 / 10 ^ 18 * (L * ((b - a) / 2))) := by
  obtain ⟨r, hr, -⟩ := C50_asymptotic mode hn hlt
  refine ⟨r, hr, fun p a b K L hp hab hK hL => ?_⟩
  have hL0 : 0 ≤ L := (abs_nonneg _).trans (hL a ⟨le_rfl, hab.le⟩)
  obtain ⟨r', hr', h⟩ := C41_legendre_error mode hn hlt hab (f := fun x => p.eval x) p.continuous.continuousOn hK
    (M := 75 / 10 ^ 18 * (L * ((b - a) / 2))) (by
      intro s hs t ht hd
      have := (convex_Icc a b).norm_image_sub_le_of_norm_hasDerivWithin_le (f := fun x => p.eval x) (f' := fun x => (derivative p).eval x) (C := L)
        (fun x _ => (p.hasDerivAt x).hasDerivWithinAt) (fun x hx => hL x hx) ht hs
      simp only [Real.norm_eq_abs] at this
      refine this.trans ?_
      calc L * |s - t| ≤ L * (75 / 10 ^ 18 * ((b - a) / 2)) := by gcongr
        _ = _ := by ring) hp (ε := 0) (fun t _ => by simp)
  rw [hr] at hr'
  obtain rfl := Option.some.inj hr'
  refine h.trans (le_of_eq (by ring))

/-- `x^199` on `[0, 1]` with the 101-point rule: the error is below `1e-14` -/
example : ∃ r : Rule ℝ, GaussLegendre.new .checked 101 = some r ∧
    |(AnyRule.legendre r).value 0 1 (fun x => x ^ 199) - 1 / 200| ≤ 1 / 10 ^ 14 := by
  obtain ⟨r, h1, h2⟩ := C50_near_exact .checked (n := 101) (by norm_num) (by norm_num)
  refine ⟨r, h1, ?_⟩
  have := h2 (X ^ 199) 0 1 1 199 (by simp) one_pos (fun x hx => by
    rw [eval_pow, eval_X, abs_pow]; exact pow_le_one₀ (abs_nonneg _) (abs_le.2 ⟨by linarith [hx.1], hx.2⟩)) (fun x hx => by
    rw [derivative_X_pow, eval_mul, eval_pow, eval_X, eval_C, abs_mul, abs_pow]
    have : |x| ^ 198 ≤ 1 := pow_le_one₀ (abs_nonneg _) (abs_le.2 ⟨by linarith [hx.1], hx.2⟩)
    norm_num at this ⊢; linarith)
  simp only [eval_pow, eval_X, integral_pow] at this
  norm_num at this ⊢
  linarith

/-- C43 for Gauss-Legendre at every degree: the weights sum to 2 up to `5e-15`. -/
theorem C43_legendre (mode : Overflow) {n : ℕ} (hn : 0 < n) (hlt : n + 1 < 2 ^ 64) :
    ∃ r : Rule ℝ, GaussLegendre.new mode n = some r ∧ |(r.asNodeWeightPairs.map (·.2)).sum - 2| ≤ 5 / 10 ^ 15 := by
  rcases Nat.lt_or_ge 100 n with h | h
  · obtain ⟨r, hr, h⟩ := C50_near_exact mode h hlt
    refine ⟨r, hr, ?_⟩
    have := h 1 (-1) 1 1 0 (by simp) (by norm_num) (by simp) (by simp)
    rw [value_gauss_quad rfl] at this
    simp only [eval_one, quad, mul_one] at this
    norm_num at this
    exact this.trans (by norm_num)
  · obtain ⟨r, hr, h1⟩ := C43_legendre_tables mode hn h
    refine ⟨r, hr, h1.trans ?_⟩
    have : (n : ℝ) ≤ 100 := by exact_mod_cast h
    norm_num; linarith

example : ∃ r : Rule ℝ, GaussLegendre.new .checked 12345 = some r ∧ |(r.asNodeWeightPairs.map (·.2)).sum - 2| ≤ 5 / 10 ^ 15 :=
  C43_legendre .checked (by norm_num) (by norm_num)

/-- `|x|` on [-1, 1] with 101 nodes and the best constant: the general bound -/
example : ∃ r : Rule ℝ, GaussLegendre.new .checked 101 = some r ∧ |(AnyRule.legendre r).value (-1) 1 (fun x : ℝ => |x|) - (∫ t in (-1 : ℝ)..1, |t|)| ≤
    (1 - -1) * (2 * (1 / 2) + 1 / 10 ^ 15 * 1 + 75 / 10 ^ 18) :=
  C41_legendre_error .checked (n := 101) (by norm_num) (by norm_num) (by norm_num) continuous_abs.continuousOn
    (fun t ht => by rw [abs_abs]; exact abs_le.2 ht)
    (fun s _ t _ h => (abs_abs_sub_abs_le_abs_sub s t).trans (h.trans (by norm_num)))
    (p := Polynomial.C (1 / 2)) (by simp) (fun t ht => by
      have := abs_le.2 ht
      rw [Polynomial.eval_C]; exact abs_le.2 ⟨by linarith [abs_nonneg t], by linarith⟩)

end GaussQuad.Props
