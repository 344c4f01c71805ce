import Verif.Proofs.LegendreEndpointRate
import Verif.Proofs.LegendreSpacing
import Verif.Proofs.Stieltjes
import Verif.Props.GaussError
import Verif.Props.LegendreF64Order
import Mathlib.Analysis.Calculus.MeanValue
import Mathlib.Analysis.Complex.ExponentialBounds

/-!
# C97: Gauss-Legendre for integrands with a logarithm or a power at an end of the interval

`/repo/src/legendre/mod.rs:60-130` (`new`, `par_new`), `:132-157` (`integrate`, `par_integrate` and its example `ln` over `[0, 1]`).
-/

namespace GaussQuad.Props
open Polynomial Spec FloatOps MeasureTheory

/-- two nearby rules give nearby sums, with a modulus that depends on the node -/
theorem quad_close_fun {A B : List (ℝ × ℝ)} {δ ε₁ ε₂ K : ℝ} {f φ : ℝ → ℝ}
    (h : List.Forall₂ (fun p q => |p.1 - q.1| ≤ δ ∧ |p.2 - q.2| ≤ ε₁ + ε₂ * q.2) A B) (hK : ∀ p ∈ A, |f p.1| ≤ K) (hB : ∀ q ∈ B, 0 ≤ q.2)
    (hM : ∀ p ∈ A, ∀ q ∈ B, |p.1 - q.1| ≤ δ → |f p.1 - f q.1| ≤ δ * φ q.1) :
    |quad A f - quad B f| ≤ (A.length * ε₁ + ε₂ * (B.map (·.2)).sum) * K + δ * quad B φ := by
  induction h with
  | nil => simp [quad]
  | @cons p q A B h1 h2 ih =>
    have ih := ih (fun p hp => hK p (List.mem_cons_of_mem _ hp)) (fun q hq => hB q (List.mem_cons_of_mem _ hq))
      (fun p hp q hq => hM p (List.mem_cons_of_mem _ hp) q (List.mem_cons_of_mem _ hq))
    have k1 := hK p (by simp)
    have k2 := hB q (by simp)
    have k3 := hM p (by simp) q (by simp) h1.1
    have e : quad (p :: A) f - quad (q :: B) f = ((p.2 - q.2) * f p.1 + q.2 * (f p.1 - f q.1)) + (quad A f - quad B f) := by
      simp [quad]; ring
    have b1 : |(p.2 - q.2) * f p.1| ≤ (ε₁ + ε₂ * q.2) * K := by
      rw [abs_mul]; exact mul_le_mul h1.2 k1 (abs_nonneg _) ((abs_nonneg _).trans h1.2)
    have b2 : |q.2 * (f p.1 - f q.1)| ≤ q.2 * (δ * φ q.1) := by
      rw [abs_mul, abs_of_nonneg k2]; exact mul_le_mul_of_nonneg_left k3 k2
    have e2 : quad (q :: B) φ = q.2 * φ q.1 + quad B φ := by simp [quad]
    rw [e, e2]
    refine (abs_add_le _ _).trans ?_
    have := (abs_add_le ((p.2 - q.2) * f p.1) (q.2 * (f p.1 - f q.1))).trans (add_le_add b1 b2)
    simp only [List.length_cons, List.map_cons, List.sum_cons]
    push_cast
    linarith

/-- the crate's rule in exact arithmetic against the true rule; all nodes of both have absolute value at most `1 - 1/(n+1)²` -/
theorem legendre_edge_rule (mode : Overflow) {n : ℕ} (hn : 0 < n) (h6 : n ≤ 10 ^ 6) :
    ∃ r : Rule ℝ, GaussLegendre.new mode n = some r ∧ ∃ G : List (ℝ × ℝ), G.length = n ∧ ExactUpTo G (2 * n - 1) (Set.Ioo (-1) 1) (fun _ => 1) 1 ∧
      (∀ p ∈ r.asNodeWeightPairs, |p.1| ≤ 1 - 1 / ((n : ℝ) + 1) ^ 2) ∧ (∀ p ∈ G, |p.1| ≤ 1 - 1 / ((n : ℝ) + 1) ^ 2) ∧
      ∀ (f φ : ℝ → ℝ) (K : ℝ), (∀ x, |x| ≤ 1 - 1 / ((n : ℝ) + 1) ^ 2 → |f x| ≤ K) →
      (∀ x y, |x| ≤ 1 - 1 / ((n : ℝ) + 1) ^ 2 → |y| ≤ 1 - 1 / ((n : ℝ) + 1) ^ 2 → |x - y| ≤ 2e-16 → |f x - f y| ≤ 2e-16 * φ y) →
      |quad r.asNodeWeightPairs f - quad G f| ≤ 5e-15 * K + 2e-16 * quad G φ := by
  have hlt : n + 1 < 2 ^ 64 := by omega
  have hn1 : (1 : ℝ) ≤ n := by exact_mod_cast hn
  have hn6 : (n : ℝ) ≤ 10 ^ 6 := by exact_mod_cast h6
  -- distance of the nodes from the ends
  have hμ : 1 / ((n : ℝ) + 1) ^ 2 + 2e-16 ≤ 1.05 / ((n : ℝ) + 1 / 2) ^ 2 := by
    have h1 : 1 / ((n : ℝ) + 1) ^ 2 ≤ 1 / ((n : ℝ) + 1 / 2) ^ 2 := one_div_le_one_div_of_le (by positivity) (by nlinarith)
    have h2 : (2e-16 : ℝ) ≤ 0.05 / ((n : ℝ) + 1 / 2) ^ 2 := by
      rw [le_div_iff₀ (by positivity)]; nlinarith
    have : 1.05 / ((n : ℝ) + 1 / 2) ^ 2 = 1 / ((n : ℝ) + 1 / 2) ^ 2 + 0.05 / ((n : ℝ) + 1 / 2) ^ 2 := by ring
    linarith
  obtain ⟨θ, w, h, hr0⟩ := legendre_pairs mode hn hlt
  have hedge : ∀ r : Rule ℝ, GaussLegendre.new mode n = some r → ∀ p ∈ r.asNodeWeightPairs, |p.1| ≤ 1 - 1.05 / ((n : ℝ) + 1 / 2) ^ 2 := by
    intro r hr p hp
    rw [hr] at hr0
    obtain rfl := Option.some.inj hr0
    obtain ⟨k, hk, rfl⟩ := List.mem_map.1 hp
    rw [mem_rangeRev] at hk
    obtain ⟨e1, e2⟩ := h.edge (k := k) hk.1 (by omega)
    rw [abs_le]
    constructor <;> simp only <;> linarith
  -- common part
  have common : ∀ (r : Rule ℝ) (G : List (ℝ × ℝ)) (ε₁ ε₂ : ℝ), GaussLegendre.new mode n = some r → G.length = n →
      ExactUpTo G (2 * n - 1) (Set.Ioo (-1) 1) (fun _ => 1) 1 → (n * ε₁ + ε₂ * 2 ≤ 5e-15) →
      List.Forall₂ (fun p q => |p.1 - q.1| ≤ 2e-16 ∧ |p.2 - q.2| ≤ ε₁ + ε₂ * q.2) r.asNodeWeightPairs G →
      (∀ p ∈ r.asNodeWeightPairs, |p.1| ≤ 1 - 1 / ((n : ℝ) + 1) ^ 2) ∧ (∀ p ∈ G, |p.1| ≤ 1 - 1 / ((n : ℝ) + 1) ^ 2) ∧
      ∀ (f φ : ℝ → ℝ) (K : ℝ), (∀ x, |x| ≤ 1 - 1 / ((n : ℝ) + 1) ^ 2 → |f x| ≤ K) →
      (∀ x y, |x| ≤ 1 - 1 / ((n : ℝ) + 1) ^ 2 → |y| ≤ 1 - 1 / ((n : ℝ) + 1) ^ 2 → |x - y| ≤ 2e-16 → |f x - f y| ≤ 2e-16 * φ y) →
      |quad r.asNodeWeightPairs f - quad G f| ≤ 5e-15 * K + 2e-16 * quad G φ := by
    intro r G ε₁ ε₂ hr hlen hex hε hclose
    have hrn : ∀ p ∈ r.asNodeWeightPairs, |p.1| ≤ 1 - 1 / ((n : ℝ) + 1) ^ 2 := fun p hp => (hedge r hr p hp).trans (by linarith)
    have hGn : ∀ p ∈ G, |p.1| ≤ 1 - 1 / ((n : ℝ) + 1) ^ 2 := by
      intro q hq
      obtain ⟨i, hi, rfl⟩ := List.getElem_of_mem hq
      have hg := List.forall₂_iff_get.1 hclose
      have h1 := (hg.2 i (by omega) hi).1
      have h2 := hedge r hr _ (List.get_mem r.asNodeWeightPairs ⟨i, by omega⟩)
      have h3 := abs_sub_abs_le_abs_sub (G[i]).1 (r.asNodeWeightPairs.get ⟨i, by omega⟩).1
      rw [abs_sub_comm] at h1
      simp only [List.get_eq_getElem] at h1 h2 h3
      linarith
    refine ⟨hrn, hGn, fun f φ K hK hφ => ?_⟩
    have hpos := gauss_weights_pos one_pos (by rw [hlen]; exact hex) posDef_one
    have hsum : (G.map (·.2)).sum = 2 := by
      have := gauss_mass (by rw [hlen]; exact hex)
      rw [this]; simp; norm_num
    have hK0 : 0 ≤ K := (abs_nonneg _).trans (hK 0 (by
      rw [abs_zero, sub_nonneg, div_le_one (by positivity)]; nlinarith))
    have := quad_close_fun (f := f) (φ := φ) hclose (fun p hp => hK _ (hrn p hp)) (fun q hq => (hpos q hq).le) (fun p hp q hq => hφ _ _ (hrn p hp) (hGn q hq))
    rw [hsum, show r.asNodeWeightPairs.length = n by rw [hclose.length_eq, hlen]] at this
    have h1 := mul_le_mul_of_nonneg_right hε hK0
    linarith
  rcases le_or_gt n 100 with h100 | h100
  · obtain ⟨r, hr, G, hlen, -, hin, hex, hclose⟩ := C38_tables mode hn h100
    refine ⟨r, hr, G, hlen, hex, common r G (5 / 10 ^ 17) 0 hr hlen hex ?_ (hclose.imp fun p q hpq => ⟨hpq.1.trans (by norm_num), hpq.2.trans (by norm_num)⟩)⟩
    have h1 : (n : ℝ) ≤ 100 := by exact_mod_cast h100
    linarith
  · obtain ⟨r, hr, G, hlen, -, hin, hex, hclose⟩ := C50_asymptotic mode h100 hlt
    exact ⟨r, hr, G, hlen, hex, common r G 0 (1 / 10 ^ 15) hr hlen hex (by norm_num)
      (hclose.imp fun p q hpq => ⟨hpq.1.trans (by norm_num), hpq.2.trans (by rw [zero_add])⟩)⟩

/-- the true rule is symmetric -/
theorem gauss_even {G : List (ℝ × ℝ)} {n : ℕ} (hlen : G.length = n) (hex : ExactUpTo G (2 * n - 1) (Set.Ioo (-1) 1) (fun _ => 1) 1) (f : ℝ → ℝ) :
    quad G (fun x => f (-x)) = quad G f := by
  have hr := gauss_reflect (L := G) (L' := G) one_pos (by rw [hlen]; exact hex) (by rw [hlen]; exact hex) rfl posDef_one' (fun p => by
    simp only [weightIntegral, setIntegral_Ioo_eq_interval (show (-1 : ℝ) ≤ 1 by norm_num), eval_comp, eval_neg, eval_X]
    have := intervalIntegral.integral_comp_neg (fun x : ℝ => p.eval x * 1) (a := -1) (b := 1)
    rw [neg_neg] at this
    exact this)
  rw [← quad_neg_map, quad_perm hr]

/-- the sum of the weights against `1/(1-x)` -/
theorem gauss_inv_le {G : List (ℝ × ℝ)} {n : ℕ} (hn : 0 < n) (h6 : n ≤ 10 ^ 6) (hlen : G.length = n) (hex : ExactUpTo G (2 * n - 1) (Set.Ioo (-1) 1) (fun _ => 1) 1)
    (hG : ∀ p ∈ G, |p.1| ≤ 1 - 1 / ((n : ℝ) + 1) ^ 2) : quad G (fun x => 1 / (1 - x)) ≤ 58 := by
  have hn1 : (1 : ℝ) ≤ n := by exact_mod_cast hn
  have hn6 : (n : ℝ) ≤ 10 ^ 6 := by exact_mod_cast h6
  set μ := 1 / ((n : ℝ) + 1) ^ 2 with hμ
  have hμ0 : 0 < μ := by positivity
  have hk := gauss_kernel_error hn hlen hex hμ0
  have h0 := legR_nonneg hμ0 n
  rw [integral_kernel hμ0, ← Real.log_div (by linarith) hμ0.ne'] at hk
  have hpos := gauss_weights_pos one_pos (by rw [hlen]; exact hex) posDef_one
  have h1 : quad G (fun x => 1 / (1 - x)) ≤ quad G fun x => 2 * (1 / (1 + μ - x)) := by
    refine quad_mono (fun q hq => (hpos q hq).le) fun q hq => ?_
    have := (abs_le.1 (hG q hq)).2
    rw [mul_one_div, div_le_div_iff₀ (by linarith) (by linarith)]
    linarith
  rw [quad_smul] at h1
  have h2 : Real.log ((2 + μ) / μ) ≤ 29 := by
    rw [Real.log_le_iff_le_exp (by positivity)]
    have e1 : (2 + μ) / μ ≤ 2.718 ^ 29 := by
      have : (2 + μ) / μ = 2 * ((n : ℝ) + 1) ^ 2 + 1 := by rw [hμ]; field_simp; try ring
      rw [this]
      have : ((n : ℝ) + 1) ^ 2 ≤ (10 ^ 6 + 1) ^ 2 := by gcongr
      norm_num at this ⊢
      linarith
    refine e1.trans ?_
    have e2 : (2.718 : ℝ) ≤ Real.exp 1 := by linarith [Real.exp_one_gt_d9]
    calc (2.718 : ℝ) ^ 29 ≤ Real.exp 1 ^ 29 := by gcongr
      _ = Real.exp 29 := by rw [← Real.exp_nat_mul]; norm_num
  linarith

/-- the crate's rule for a function of the distance from an end -/
theorem endpoint_perturb (mode : Overflow) {n : ℕ} (hn : 0 < n) (h6 : n ≤ 10 ^ 6) :
    ∃ r : Rule ℝ, GaussLegendre.new mode n = some r ∧ ∃ G : List (ℝ × ℝ), G.length = n ∧ ExactUpTo G (2 * n - 1) (Set.Ioo (-1) 1) (fun _ => 1) 1 ∧
      (∀ p ∈ r.asNodeWeightPairs, |p.1| < 1) ∧ |quad r.asNodeWeightPairs (fun _ => 1) - 2| ≤ 5e-15 ∧
      ∀ (s : ℝ) (g : ℝ → ℝ) (K A : ℝ), s = 1 ∨ s = -1 → 0 ≤ A → (∀ u, 1 / ((n : ℝ) + 1) ^ 2 ≤ u → u ≤ 2 → |g u| ≤ K) →
      (∀ u v, 1 / ((n : ℝ) + 1) ^ 2 ≤ u → u ≤ 2 → u ≤ v → v ≤ 2 → |g v - g u| ≤ A * ((v - u) / u)) →
      |quad r.asNodeWeightPairs (fun x => g (1 - s * x)) - quad G (fun x => g (1 - x))| ≤ 5e-15 * K + 2.4e-14 * A := by
  obtain ⟨r, hr, G, hlen, hex, hrn, hGn, hp⟩ := legendre_edge_rule mode hn h6
  have hn1 : (1 : ℝ) ≤ n := by exact_mod_cast hn
  have hn6 : (n : ℝ) ≤ 10 ^ 6 := by exact_mod_cast h6
  have hinv := gauss_inv_le hn h6 hlen hex hGn
  have hμb : (4e-16 : ℝ) ≤ 1 / ((n : ℝ) + 1) ^ 2 := by
    rw [le_div_iff₀ (by positivity)]; nlinarith
  set μ := 1 / ((n : ℝ) + 1) ^ 2 with hμ
  have hμ0 : 0 < μ := by positivity
  refine ⟨r, hr, G, hlen, hex, fun p hp => (hrn p hp).trans_lt (by linarith), ?_, fun s g K A hs hA hK hg => ?_⟩
  · have h := hp (fun _ => 1) (fun _ => 0) 1 (fun x _ => by simp) (fun x y _ _ _ => by simp)
    have h2 : quad G (fun _ => 1) = 2 := by
      have := gauss_mass (by rw [hlen]; exact hex)
      rw [quad_const, this]; simp; norm_num
    have h3 : quad G (fun _ => 0) = 0 := by rw [quad_const, zero_mul]
    rw [h2, h3] at h
    linarith
  · have hs1 : |s| = 1 := by rcases hs with rfl | rfl <;> simp
    have hrange : ∀ x : ℝ, |x| ≤ 1 - μ → μ ≤ 1 - s * x ∧ 1 - s * x ≤ 2 := fun x hx => by
      have h1 : |s * x| ≤ 1 - μ := by rw [abs_mul, hs1, one_mul]; exact hx
      have := abs_le.1 h1
      constructor <;> linarith
    have h := hp (fun x => g (1 - s * x)) (fun x => 2 * A * (1 / (1 - s * x))) K (fun x hx => hK _ (hrange x hx).1 (hrange x hx).2) (fun x y hx hy hxy => by
      obtain ⟨x1, x2⟩ := hrange x hx
      obtain ⟨y1, y2⟩ := hrange y hy
      have hd : |(1 - s * x) - (1 - s * y)| ≤ 2e-16 := by
        rw [show (1 - s * x) - (1 - s * y) = -(s * (x - y)) by ring, abs_neg, abs_mul, hs1, one_mul]; exact hxy
      generalize 1 - s * x = u at *
      generalize 1 - s * y = v at *
      have hd' := abs_le.1 hd
      have key : ∀ m M : ℝ, μ ≤ m → m ≤ M → M ≤ 2 → M - m ≤ 2e-16 → v ≤ 2 * m → |g M - g m| ≤ 2e-16 * (2 * A * (1 / v)) := fun m M h1 h2 h3 h4 h5 => by
        have hm : 0 < m := by linarith
        have hv : 0 < v := by linarith
        refine (hg m M h1 (by linarith) h2 h3).trans ?_
        have e : (M - m) / m ≤ 2e-16 * (2 * (1 / v)) := by
          rw [div_le_iff₀ hm, show 2e-16 * (2 * (1 / v)) * m = 2e-16 * (2 * m / v) by ring]
          have : 1 ≤ 2 * m / v := by rw [le_div_iff₀ hv]; linarith
          nlinarith
        refine (mul_le_mul_of_nonneg_left e hA).trans (le_of_eq (by ring))
      rcases le_total u v with huv | huv
      · rw [abs_sub_comm]
        exact key u v x1 huv y2 (by linarith) (by linarith)
      · exact key v u y1 huv x2 (by linarith) (by linarith))
    have e1 : quad G (fun x => g (1 - s * x)) = quad G fun x => g (1 - x) := by
      rcases hs with rfl | rfl
      · simp only [one_mul]
      · rw [← gauss_even hlen hex]; simp only [mul_neg, neg_mul, one_mul, neg_neg]
    have e2 : quad G (fun x => 2 * A * (1 / (1 - s * x))) = 2 * A * quad G fun x => 1 / (1 - x) := by
      rw [quad_smul]
      congr 1
      rcases hs with rfl | rfl
      · simp only [one_mul]
      · rw [← gauss_even hlen hex]; simp only [mul_neg, neg_mul, one_mul, neg_neg]
    rw [e1, e2] at h
    have h3 := mul_le_mul_of_nonneg_left hinv (show 0 ≤ 2 * A by linarith)
    nlinarith

/-- the interval `[a, b]` measured from the end `c` -/
theorem endpoint_transport {a b c : ℝ} (hc : c = a ∨ c = b) : ∃ s : ℝ, (s = 1 ∨ s = -1) ∧ ∀ x, |(b - a) / 2 * x + (a + b) / 2 - c| = |(b - a) / 2| * |1 - s * x| := by
  rcases hc with rfl | rfl
  · exact ⟨-1, Or.inr rfl, fun x => by rw [← abs_mul]; congr 1; ring⟩
  · exact ⟨1, Or.inl rfl, fun x => by rw [← abs_mul, ← abs_neg]; congr 1; ring⟩

/-- the integral of a function of the distance from the end `c` -/
theorem endpoint_integral {a b c : ℝ} (hab : a < b) (hc : c = a ∨ c = b) (g : ℝ → ℝ) :
    ∫ t in a..b, g |t - c| = (b - a) / 2 * ∫ x in (-1 : ℝ)..1, g ((b - a) / 2 * (1 - x)) := by
  have hh : 0 < (b - a) / 2 := by linarith
  have hi := interval_transport hab.ne (fun t => g |t - c|) (fun _ => 1)
  simp only [mul_one] at hi
  rw [hi, setIntegral_Ioo_eq_interval (by norm_num)]
  obtain ⟨s, hs, he⟩ := endpoint_transport (a := a) (b := b) hc
  simp only [he, abs_of_pos hh]
  have e1 : ∫ x in (-1 : ℝ)..1, g ((b - a) / 2 * |1 - s * x|) = ∫ x in (-1 : ℝ)..1, g ((b - a) / 2 * |1 - x|) := by
    rcases hs with rfl | rfl
    · simp only [one_mul]
    · have := intervalIntegral.integral_comp_neg (fun x : ℝ => g ((b - a) / 2 * |1 - x|)) (a := -1) (b := 1)
      rw [neg_neg] at this
      rw [← this]; simp only [neg_mul, one_mul]
  rw [e1]
  congr 1
  refine intervalIntegral.integral_congr fun x hx => ?_
  rw [Set.uIcc_of_le (by norm_num)] at hx
  rw [abs_of_nonneg (by linarith [hx.2])]

/-- C97 for the logarithm: if `c` is an end of `[a, b]` and `2 ≤ n ≤ 10^6`, `integrate(a, b, |x| (x - c).abs().ln())` of the Gauss-Legendre rule of degree `n` differs from the integral by at most
`(b-a)/2 · (4/(3(n-1)²) + 2e-13 + 5e-15 |log((b-a)/2)|)` -/
theorem C97_log (mode : Overflow) {n : ℕ} (hn : 2 ≤ n) (h6 : n ≤ 10 ^ 6) :
    ∃ r : Rule ℝ, GaussLegendre.new mode n = some r ∧ ∀ a b c : ℝ, a < b → (c = a ∨ c = b) →
      |(AnyRule.legendre r).value a b (fun x => Real.log |x - c|) - (∫ x in a..b, Real.log |x - c|)| ≤
        (b - a) / 2 * (4 / 3 / ((n : ℝ) - 1) ^ 2 + 2e-13 + 5e-15 * |Real.log ((b - a) / 2)|) := by
  obtain ⟨r, hr, G, hlen, hex, hrn, hmass, hp⟩ := endpoint_perturb mode (show 0 < n by omega) h6
  refine ⟨r, hr, fun a b c hab hc => ?_⟩
  have hn1 : (2 : ℝ) ≤ n := by exact_mod_cast hn
  have hn6 : (n : ℝ) ≤ 10 ^ 6 := by exact_mod_cast h6
  have hh : 0 < (b - a) / 2 := by linarith
  obtain ⟨s, hs, he⟩ := endpoint_transport (a := a) (b := b) hc
  have hs1 : |s| = 1 := by rcases hs with rfl | rfl <;> simp
  have hlogN : Real.log (((n : ℝ) + 1) ^ 2) ≤ 28 := by
    rw [Real.log_le_iff_le_exp (by positivity)]
    have e1 : ((n : ℝ) + 1) ^ 2 ≤ 2.718 ^ 28 := by
      have : ((n : ℝ) + 1) ^ 2 ≤ (10 ^ 6 + 1) ^ 2 := by gcongr
      norm_num at this ⊢
      linarith
    refine e1.trans ?_
    have e2 : (2.718 : ℝ) ≤ Real.exp 1 := by linarith [Real.exp_one_gt_d9]
    calc (2.718 : ℝ) ^ 28 ≤ Real.exp 1 ^ 28 := by gcongr
      _ = Real.exp 28 := by rw [← Real.exp_nat_mul]; norm_num
  have hper := hp s Real.log 28 1 hs zero_le_one (fun u h1 h2 => by
      have hu : 0 < u := lt_of_lt_of_le (by positivity) h1
      rw [abs_le]
      constructor
      · have := Real.log_le_log (by positivity) h1
        rw [one_div, Real.log_inv] at this
        linarith
      · have := Real.log_le_sub_one_of_pos hu
        linarith) (fun u v h1 h2 h3 h4 => by
      have hu : 0 < u := lt_of_lt_of_le (by positivity) h1
      have hv : 0 < v := by linarith
      rw [abs_of_nonneg (sub_nonneg.2 (Real.log_le_log hu h3)), ← Real.log_div hv.ne' hu.ne', one_mul]
      refine (Real.log_le_sub_one_of_pos (by positivity)).trans (le_of_eq ?_)
      field_simp)
  have herr := gauss_log_error hn hlen hex
  have hM := legM_zero_le hn
  have hM0 : 0 ≤ legM 0 n := legM_nonneg 0 n
  -- the value
  have hv : (AnyRule.legendre r).value a b (fun x => Real.log |x - c|) =
      (b - a) / 2 * (Real.log ((b - a) / 2) * quad r.asNodeWeightPairs (fun _ => 1) + quad r.asNodeWeightPairs fun x => Real.log (1 - s * x)) := by
    rw [value_gauss_quad rfl]
    congr 1
    rw [← quad_smul, ← quad_add]
    refine quad_congr fun p hp => ?_
    have h1 : |s * p.1| < 1 := by rw [abs_mul, hs1, one_mul]; exact hrn p hp
    have h2 : 0 < 1 - s * p.1 := by linarith [(abs_lt.1 h1).2]
    rw [he, abs_of_pos hh, abs_of_pos h2, Real.log_mul hh.ne' h2.ne', mul_one]
  have hI : ∫ x in a..b, Real.log |x - c| = (b - a) / 2 * (2 * Real.log ((b - a) / 2) + ∫ x in (-1 : ℝ)..1, Real.log (1 - x)) := by
    rw [endpoint_integral hab hc]
    congr 1
    have hint : IntervalIntegrable (fun x : ℝ => Real.log (1 - x)) volume (-1) 1 := by
      have := (intervalIntegral.intervalIntegrable_log' (a := 2) (b := 0)).comp_sub_left 1
      norm_num at this
      exact this
    have e : ∫ x in (-1 : ℝ)..1, Real.log ((b - a) / 2 * (1 - x)) = ∫ x in (-1 : ℝ)..1, (Real.log ((b - a) / 2) + Real.log (1 - x)) := by
      simp only [intervalIntegral.integral_of_le (show (-1 : ℝ) ≤ 1 by norm_num)]
      rw [← restrict_Ioo_eq_restrict_Ioc]
      exact setIntegral_congr_fun measurableSet_Ioo fun x hx => Real.log_mul hh.ne' (by linarith [hx.2])
    rw [e, intervalIntegral.integral_add (by simp) hint, intervalIntegral.integral_const]
    norm_num
  rw [hv, hI, ← mul_sub, abs_mul, abs_of_pos hh]
  refine mul_le_mul_of_nonneg_left ?_ hh.le
  set Q := quad r.asNodeWeightPairs fun x => Real.log (1 - s * x)
  set W := quad r.asNodeWeightPairs fun _ => 1
  set E := quad G fun x => Real.log (1 - x)
  set J := ∫ x in (-1 : ℝ)..1, Real.log (1 - x)
  set ℓ := Real.log ((b - a) / 2)
  have e : ℓ * W + Q - (2 * ℓ + J) = ℓ * (W - 2) + (Q - E) + (E - J) := by ring
  have b1 : |ℓ * (W - 2)| ≤ 5e-15 * |ℓ| := by rw [abs_mul, mul_comm]; exact mul_le_mul_of_nonneg_right hmass (abs_nonneg _)
  have b3 : |E - J| ≤ 4 / 3 / ((n : ℝ) - 1) ^ 2 := by rw [herr, abs_of_nonneg hM0]; exact hM
  rw [e]
  refine (abs_add_le _ _).trans ?_
  have := abs_add_le (ℓ * (W - 2)) (Q - E)
  linarith

/-- the error of the true rule for powers -/
theorem gauss_power_abs {G : List (ℝ × ℝ)} {n : ℕ} (hn : 2 ≤ n) (hlen : G.length = n) (hex : ExactUpTo G (2 * n - 1) (Set.Ioo (-1) 1) (fun _ => 1) 1) {q : ℝ} (h1 : -1 < q) (h2 : q < 2) :
    |quad G (fun x => (1 - x) ^ q) - ∫ x in (-1 : ℝ)..1, (1 - x) ^ q| ≤ 2 * 4 ^ (q + 1) / ((q + 1) ^ 2 * (3 - q)) / (n - 1 : ℝ) ^ (2 * q + 2) := by
  have hM := legM_le' h1 h2 hn
  have hM0 : 0 ≤ legM q n := legM_nonneg q n
  have hfrac : ∀ (r : ℝ) (m : ℕ), -1 < r → r < 0 → m ≤ 2 → q = r + m →
      |quad G (fun x => (1 - x) ^ q) - ∫ x in (-1 : ℝ)..1, (1 - x) ^ q| ≤ 2 * 4 ^ (q + 1) / ((q + 1) ^ 2 * (3 - q)) / (n - 1 : ℝ) ^ (2 * q + 2) := fun r m hr1 hr2 hm hq => by
    have h := gauss_power_error hn hlen hex hr1 hr2 hm
    have hc := powC_ge hr1 hr2
    rw [← hq] at h
    have h3 := congrArg abs h
    rw [abs_mul, abs_of_pos (by linarith), abs_neg, abs_mul, abs_pow, abs_neg, abs_one, one_pow, one_mul, abs_of_nonneg hM0] at h3
    set E := |quad G (fun x => (1 - x) ^ q) - ∫ x in (-1 : ℝ)..1, (1 - x) ^ q|
    have hE : 0 ≤ E := abs_nonneg _
    have h4 : 2 * E ≤ 4 * 4 ^ (q + 1) / ((q + 1) ^ 2 * (3 - q)) / (n - 1 : ℝ) ^ (2 * q + 2) := by nlinarith
    have h5 : 4 * (4 : ℝ) ^ (q + 1) / ((q + 1) ^ 2 * (3 - q)) / (n - 1 : ℝ) ^ (2 * q + 2) = 2 * (2 * 4 ^ (q + 1) / ((q + 1) ^ 2 * (3 - q)) / (n - 1 : ℝ) ^ (2 * q + 2)) := by ring
    linarith
  have hn1 : (2 : ℝ) ≤ n := by exact_mod_cast hn
  have hnn : 0 ≤ 2 * (4 : ℝ) ^ (q + 1) / ((q + 1) ^ 2 * (3 - q)) / (n - 1 : ℝ) ^ (2 * q + 2) := by
    have h3 : 0 < 3 - q := by linarith
    have h4 : (0 : ℝ) ≤ n - 1 := by linarith
    positivity
  have hpoly : ∀ p : ℝ[X], p.natDegree ≤ 1 → (∀ x : ℝ, (1 - x) ^ q = p.eval x) → quad G (fun x => (1 - x) ^ q) - (∫ x in (-1 : ℝ)..1, (1 - x) ^ q) = 0 := fun p hp he => by
    simp only [he]
    rw [hex p (by omega), one_mul, weightIntegral, setIntegral_Ioo_eq_interval (by norm_num)]; simp
  rcases lt_trichotomy q 0 with h | h | h
  · exact hfrac q 0 h1 h (by norm_num) (by simp)
  · rw [hpoly 1 (by simp) (fun x => by simp [h]), abs_zero]; exact hnn
  · rcases lt_trichotomy q 1 with h' | h' | h'
    · exact hfrac (q - 1) 1 (by linarith) (by linarith) (by norm_num) (by push_cast; ring)
    · rw [hpoly (C 1 - X) (by compute_degree) (fun x => by simp [h']), abs_zero]; exact hnn
    · exact hfrac (q - 2) 2 (by linarith) (by linarith) le_rfl (by push_cast; ring)

/-- C97 for powers: if `c` is an end of `[a, b]`, `-1 < q < 2` and `2 ≤ n ≤ 10^6`, `integrate(a, b, |x| (x - c).abs().powf(q))` of the Gauss-Legendre rule of degree `n` differs from the integral
`(b-a)^(q+1)/(q+1)` by at most `((b-a)/2)^(q+1) · (2·4^(q+1) / ((q+1)²(3-q)(n-1)^(2q+2)) + 6e-14 max(4, (n+1)^(-2q)))` -/
theorem C97_power (mode : Overflow) {n : ℕ} (hn : 2 ≤ n) (h6 : n ≤ 10 ^ 6) :
    ∃ r : Rule ℝ, GaussLegendre.new mode n = some r ∧ ∀ a b c q : ℝ, a < b → (c = a ∨ c = b) → -1 < q → q < 2 →
      |(AnyRule.legendre r).value a b (fun x => |x - c| ^ q) - (b - a) ^ (q + 1) / (q + 1)| ≤
        ((b - a) / 2) ^ (q + 1) * (2 * 4 ^ (q + 1) / ((q + 1) ^ 2 * (3 - q)) / ((n : ℝ) - 1) ^ (2 * q + 2) + 6e-14 * max 4 (((n : ℝ) + 1) ^ (-2 * q))) := by
  obtain ⟨r, hr, G, hlen, hex, hrn, -, hp⟩ := endpoint_perturb mode (show 0 < n by omega) h6
  refine ⟨r, hr, fun a b c q hab hc h1 h2 => ?_⟩
  have hn1 : (2 : ℝ) ≤ n := by exact_mod_cast hn
  have hh : 0 < (b - a) / 2 := by linarith
  obtain ⟨s, hs, he⟩ := endpoint_transport (a := a) (b := b) hc
  have hs1 : |s| = 1 := by rcases hs with rfl | rfl <;> simp
  set B := max 4 (((n : ℝ) + 1) ^ (-2 * q)) with hB
  have hB4 : 4 ≤ B := le_max_left _ _
  -- bound of `u^q`
  have hbound : ∀ u : ℝ, 1 / ((n : ℝ) + 1) ^ 2 ≤ u → u ≤ 2 → u ^ q ≤ B := fun u hu1 hu2 => by
    have hu : 0 < u := lt_of_lt_of_le (by positivity) hu1
    rcases le_or_gt 0 q with hq | hq
    · calc u ^ q ≤ 2 ^ q := Real.rpow_le_rpow hu.le hu2 hq
        _ ≤ 2 ^ (2 : ℝ) := Real.rpow_le_rpow_of_exponent_le (by norm_num) h2.le
        _ = 4 := by norm_num
        _ ≤ B := hB4
    · calc u ^ q ≤ (1 / ((n : ℝ) + 1) ^ 2) ^ q := Real.rpow_le_rpow_of_nonpos (by positivity) hu1 hq.le
        _ = ((n : ℝ) + 1) ^ (-2 * q) := by
          rw [one_div, ← Real.rpow_natCast, ← Real.rpow_neg (by positivity), ← Real.rpow_mul (by positivity)]; norm_num
        _ ≤ B := le_max_right _ _
  have hper := hp s (fun u => u ^ q) B (2 * B) hs (by linarith) (fun u hu1 hu2 => by
      have hu : 0 < u := lt_of_lt_of_le (by positivity) hu1
      rw [abs_of_pos (Real.rpow_pos_of_pos hu _)]
      exact hbound u hu1 hu2) (fun u v hu1 hu2 huv hv2 => by
      have hu : 0 < u := lt_of_lt_of_le (by positivity) hu1
      have := Convex.norm_image_sub_le_of_norm_hasDerivWithin_le (f := fun u : ℝ => u ^ q) (f' := fun u : ℝ => q * u ^ (q - 1)) (s := Set.Icc u v) (C := 2 * B / u)
        (fun x hx => (Real.hasDerivAt_rpow_const (Or.inl (lt_of_lt_of_le hu hx.1).ne')).hasDerivWithinAt) (fun x hx => by
          have hx0 : 0 < x := lt_of_lt_of_le hu hx.1
          rw [Real.norm_eq_abs, abs_mul, abs_of_pos (Real.rpow_pos_of_pos hx0 _), Real.rpow_sub hx0, Real.rpow_one, mul_div_assoc]
          have hq2 : |q| ≤ 2 := abs_le.2 ⟨by linarith, h2.le⟩
          refine mul_le_mul hq2 ?_ (by positivity) (by norm_num)
          exact div_le_div₀ (by linarith) (hbound x (hu1.trans hx.1) (hx.2.trans hv2)) hu hx.1) (convex_Icc u v) (Set.left_mem_Icc.2 huv) (Set.right_mem_Icc.2 huv)
      rw [Real.norm_eq_abs, Real.norm_of_nonneg (sub_nonneg.2 huv)] at this
      refine this.trans (le_of_eq (by ring)))
  have herr := gauss_power_abs hn hlen hex h1 h2
  have hv : (AnyRule.legendre r).value a b (fun x => |x - c| ^ q) = ((b - a) / 2) ^ (q + 1) * quad r.asNodeWeightPairs fun x => (1 - s * x) ^ q := by
    rw [value_gauss_quad rfl, Real.rpow_add hh, Real.rpow_one, mul_comm (_ ^ q), mul_assoc]
    congr 1
    rw [← quad_smul]
    refine quad_congr fun p hp => ?_
    have h1 : |s * p.1| < 1 := by rw [abs_mul, hs1, one_mul]; exact hrn p hp
    have h2 : 0 < 1 - s * p.1 := by linarith [(abs_lt.1 h1).2]
    rw [he, abs_of_pos hh, abs_of_pos h2, Real.mul_rpow hh.le h2.le]
  have hI1 : ∫ x in (-1 : ℝ)..1, (1 - x) ^ q = 2 ^ (q + 1) / (q + 1) := by
    rw [intervalIntegral.integral_comp_sub_left (fun x : ℝ => x ^ q) 1, integral_rpow (Or.inl h1)]
    norm_num [Real.zero_rpow (show q + 1 ≠ 0 by linarith)]
  have hI : (b - a) ^ (q + 1) / (q + 1) = ((b - a) / 2) ^ (q + 1) * ∫ x in (-1 : ℝ)..1, (1 - x) ^ q := by
    rw [hI1, ← mul_div_assoc, ← Real.mul_rpow hh.le (by norm_num)]; congr 2; ring
  have hhq : 0 < ((b - a) / 2) ^ (q + 1) := Real.rpow_pos_of_pos hh _
  rw [hv, hI, ← mul_sub, abs_mul, abs_of_pos hhq]
  refine mul_le_mul_of_nonneg_left ?_ hhq.le
  refine (abs_sub_le _ (quad G fun x => (1 - x) ^ q) _).trans ?_
  linarith

/-- the example in the documentation of `par_integrate`: in exact arithmetic the rule with a million nodes integrates `ln` over `[0, 1]` to within 1e-12 -/
example : ∃ r : Rule ℝ, GaussLegendre.new .wrapping 1000000 = some r ∧ |(AnyRule.legendre r).value 0 1 (fun x => Real.log |x - 0|) - -1| ≤ 1e-12 := by
  obtain ⟨r, hr, h⟩ := C97_log .wrapping (n := 1000000) (by norm_num) (by norm_num)
  refine ⟨r, hr, ?_⟩
  have := h 0 1 0 one_pos (Or.inl rfl)
  have hI : ∫ x in (0 : ℝ)..1, Real.log |x - 0| = -1 := by simp [Real.log_abs]
  rw [hI] at this
  refine this.trans ?_
  have hl : |Real.log ((1 - 0) / 2)| ≤ 1 := by
    rw [sub_zero, one_div, Real.log_inv, abs_neg, abs_of_nonneg (Real.log_nonneg (by norm_num))]
    have := Real.log_two_lt_d9
    linarith
  norm_num at this hl ⊢
  linarith

/-- the square root over `[0, 2]` with 101 nodes: within 1e-5 -/
example : ∃ r : Rule ℝ, GaussLegendre.new .wrapping 101 = some r ∧ |(AnyRule.legendre r).value 0 2 (fun x => |x - 0| ^ (1 / 2 : ℝ)) - 2 ^ (3 / 2 : ℝ) / (3 / 2)| ≤ 1e-5 := by
  obtain ⟨r, hr, h⟩ := C97_power .wrapping (n := 101) (by norm_num) (by norm_num)
  refine ⟨r, hr, ?_⟩
  have := h 0 2 0 (1 / 2) (by norm_num) (Or.inl rfl) (by norm_num) (by norm_num)
  have e4 : (4 : ℝ) ^ (3 / 2 : ℝ) = 8 := by
    rw [show (4 : ℝ) = 2 ^ (2 : ℝ) by norm_num, ← Real.rpow_mul (by norm_num)]; norm_num
  have em : max 4 ((102 : ℝ) ^ (-1 : ℝ)) = 4 := max_eq_left (by rw [Real.rpow_neg_one]; norm_num)
  norm_num [e4] at this em ⊢
  linarith

end GaussQuad.Props
