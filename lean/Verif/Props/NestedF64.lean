import Verif.Spec.NearPoly
import Verif.Proofs.SmoothInterval
import Verif.Props.TotalError
import Verif.Props.HermiteF64

/-!
# C89: error of nested integration

Double integrals by nesting `integrate` calls, as the documentation shows (`/repo/src/lib.rs` l.166-176, `/repo/README.md` l.80-99), in exact arithmetic for every pair of rules
and in binary64 for Gauss-Legendre and Gauss-Hermite inside Gauss-Legendre.  The inner call is an integrand like any other: a program that computes a real function up to an
error, so the error theorems of the rules compose, to any depth.
-/

set_option exponentiation.threshold 3000

namespace GaussQuad.Props
open Polynomial Spec FloatOps F64 MeasureTheory Bernstein Jackson

/-! ### exact arithmetic -/

theorem quad_sub_le {L : List (ℝ × ℝ)} {f g : ℝ → ℝ} {τ : ℝ} (h : ∀ p ∈ L, |f p.1 - g p.1| ≤ τ) : |quad L f - quad L g| ≤ τ * (L.map fun p => |p.2|).sum := by
  unfold quad
  induction L with
  | nil => simp
  | cons p L ih =>
    simp only [List.map_cons, List.sum_cons]
    have h1 := h p (by simp)
    have h2 := ih fun q hq => h q (by simp [hq])
    calc _ = |p.2 * (f p.1 - g p.1) + ((L.map fun q => q.2 * f q.1).sum - (L.map fun q => q.2 * g q.1).sum)| := by congr 1; ring
      _ ≤ |p.2| * |f p.1 - g p.1| + |(L.map fun q => q.2 * f q.1).sum - (L.map fun q => q.2 * g q.1).sum| := by rw [← abs_mul]; exact abs_add_le _ _
      _ ≤ |p.2| * τ + τ * (L.map fun q => |q.2|).sum := add_le_add (mul_le_mul_of_nonneg_left h1 (abs_nonneg _)) h2
      _ = _ := by ring

/-- the coefficients of an equidistant rule are multiples of `b - a` with nonnegative factors -/
theorem newton_cotes_signs (r : NodeRule) (a b : ℝ) (R : AnyRule ℝ) (hR : R = .midpoint r ∨ R = .trapezoid r ∨ R = .simpson r) :
    ∀ p ∈ rulePairs a b R, ∃ c : ℝ, 0 ≤ c ∧ p.2 = c * (b - a) := by
  intro p hp
  rcases hR with rfl | rfl | rfl <;> simp only [rulePairs, List.mem_map] at hp <;> obtain ⟨i, -, rfl⟩ := hp
  · exact ⟨1 / r.degree, by positivity, by simp only; ring⟩
  · refine ⟨(if i = 0 ∨ i = r.degree then 1 / 2 else 1) / r.degree, ?_, by simp only; ring⟩
    split <;> positivity
  · refine ⟨simpsonCoeff r.degree i / r.degree / 6, ?_, by simp only; ring⟩
    unfold simpsonCoeff
    split
    · positivity
    · split <;> positivity

theorem abs_sum_of_signs {L : List (ℝ × ℝ)} {h : ℝ} (hL : ∀ p ∈ L, ∃ c : ℝ, 0 ≤ c ∧ p.2 = c * h) : (L.map fun p => |p.2|).sum = |(L.map fun p => p.2).sum| := by
  have key : (L.map fun p => |p.2|).sum = |(L.map fun p => p.2).sum| ∧ ∃ c : ℝ, 0 ≤ c ∧ (L.map fun p => p.2).sum = c * h := by
    induction L with
    | nil => exact ⟨by simp, 0, le_rfl, by simp⟩
    | cons p L ih =>
      obtain ⟨h1, C, hC, h2⟩ := ih fun q hq => hL q (by simp [hq])
      obtain ⟨c, hc, hp⟩ := hL p (by simp)
      simp only [List.map_cons, List.sum_cons]
      refine ⟨?_, c + C, by positivity, by rw [hp, h2]; ring⟩
      rw [h1, h2, hp, ← add_mul, abs_mul, abs_mul, abs_mul, abs_of_nonneg hc, abs_of_nonneg hC, abs_of_nonneg (add_nonneg hc hC), add_mul]
  exact key.1

theorem newton_cotes_total (r : NodeRule) (a b : ℝ) (R : AnyRule ℝ) (hR : R = .midpoint r ∨ R = .trapezoid r ∨ R = .simpson r) :
    ((rulePairs a b R).map fun p => |p.2|).sum = |b - a| := by
  rw [abs_sum_of_signs (newton_cotes_signs r a b R hR)]
  have e : ((rulePairs a b R).map fun p => p.2).sum = R.value a b fun _ => 1 := by rw [value_real]; simp [quad]
  have hr : (r.degree : ℝ) ≠ 0 := by have := r.pos; positivity
  have m : (AnyRule.midpoint r).value a b (fun _ => (1 : ℝ)) = b - a := by rw [value_midpoint]; simp; field_simp
  have t : (AnyRule.trapezoid r).value a b (fun _ => (1 : ℝ)) = b - a := by rw [value_trapezoid]; simp; field_simp
  rw [e]
  rcases hR with rfl | rfl | rfl
  · rw [m]
  · rw [t]
  · rw [value_simpson, m, t]; congr 1; ring

/-- C89 in exact arithmetic, for all rules and all inner bounds: if every inner result is within `τ` of `Γ x`, the nested result differs from `I` by at most the error of the
outer rule for `Γ` plus `τ` times the sum of the absolute values of the outer coefficients, which is `|b - a|` for the equidistant rules. -/
theorem C89_nested (R₁ R₂ : AnyRule ℝ) (a b : ℝ) (c d : ℝ → ℝ) (f : ℝ → ℝ → ℝ) (Γ : ℝ → ℝ) (I τ : ℝ)
    (hin : ∀ p ∈ rulePairs a b R₁, |R₂.value (c p.1) (d p.1) (f p.1) - Γ p.1| ≤ τ) :
    |R₁.value a b (fun x => R₂.value (c x) (d x) (f x)) - I| ≤ τ * ((rulePairs a b R₁).map fun p => |p.2|).sum + |R₁.value a b Γ - I| ∧
    (∀ r : NodeRule, R₁ = .midpoint r ∨ R₁ = .trapezoid r ∨ R₁ = .simpson r →
      |R₁.value a b (fun x => R₂.value (c x) (d x) (f x)) - I| ≤ τ * |b - a| + |R₁.value a b Γ - I|) := by
  have h := quad_sub_le (f := fun x => R₂.value (c x) (d x) (f x)) (g := Γ) hin
  have h1 : |R₁.value a b (fun x => R₂.value (c x) (d x) (f x)) - I| ≤ τ * ((rulePairs a b R₁).map fun p => |p.2|).sum + |R₁.value a b Γ - I| := by
    rw [value_real R₁, value_real R₁]
    exact (abs_sub_le _ _ _).trans (add_le_add h le_rfl)
  exact ⟨h1, fun r hr => by rwa [newton_cotes_total r a b R₁ hr] at h1⟩

/-- one Simpson panel outside, the midpoint formula inside: `∫₀¹ ∫₀¹ x y² dy dx = 1/6` up to `1/12` -/
example : |(AnyRule.simpson ⟨1, by norm_num, by norm_num⟩).value 0 1 (fun x => (AnyRule.midpoint ⟨1, by norm_num, by norm_num⟩).value 0 1 fun y => x * y ^ 2) - 1 / 6| ≤ (1 / 12 : ℝ) := by
  refine ((C89_nested (.simpson ⟨1, by norm_num, by norm_num⟩) (.midpoint ⟨1, by norm_num, by norm_num⟩) 0 1 (fun _ => 0) (fun _ => 1) (fun x y => x * y ^ 2) (fun x => x / 3) (1 / 6) (1 / 12)
    (fun p hp => ?_)).2 ⟨1, by norm_num, by norm_num⟩ (by simp)).trans ?_
  · simp only [rulePairs, List.range_succ, List.range_zero] at hp
    rw [value_midpoint]
    simp at hp
    rcases hp with rfl | rfl | rfl <;> norm_num [abs_le]
  · rw [value_simpson, value_midpoint, value_trapezoid]
    norm_num

/-! ### Gauss-Legendre in binary64 for integrands close to polynomials -/

/-- C55 with the polynomial approximation error: the hypothesis of nested integration covers polynomials (`ε = 0`), analytic integrands and integrands of finite smoothness. -/
theorem legendre_near_poly [L : Libm] (hL : AccurateTrig L) (mode : Overflow) {n : ℕ} (hn : 0 < n) (hmax : n ≤ 10 ^ 12) :
    ∃ r : Rule F64, GaussLegendre.new mode n = some r ∧
      ∀ (a b : F64) (f : F64 → F64) (g : ℝ → ℝ) (B M Λ η ε : ℝ), a.isFinite = true → b.isFinite = true → |(a.val : ℝ)| ≤ B → |(b.val : ℝ)| ≤ B →
      B ≤ 2 ^ 400 → let D := |(b.val : ℝ) - a.val|; let ρ := 4 / 10 ^ 15 * B + 1 / 2 ^ 1000; let κ := η + Λ * ρ;
      let E := fun k : ℕ => D * (1.01 * κ + (1 / 10 ^ 14 + 1.2 / 10 ^ 16 * k) * (M + κ)) + 1 / 2 ^ 500 + 2 * D * ε;
      Computes f g (around a.val b.val ρ) M Λ η → 0 ≤ Λ → M + κ ≤ 2 ^ 400 → NearPoly g a.val b.val (2 * n - 1) ε →
      (((AnyRule.legendre r).value a b f).isFinite = true ∧ |(((AnyRule.legendre r).value a b f).val : ℝ) - ∫ t in (a.val : ℝ)..b.val, g t| ≤ E n) ∧
      (∀ s, roundings s n ≤ 10 ^ 12 → ((AnyRule.legendre r).parIntegrate s s a b f).isFinite = true ∧
        |(((AnyRule.legendre r).parIntegrate s s a b f).val : ℝ) - ∫ t in (a.val : ℝ)..b.val, g t| ≤ E (roundings s n)) := by
  obtain ⟨r, hr, G, hlen, hex, hC⟩ := C55_integrate hL mode hn hmax
  refine ⟨r, hr, ?_⟩
  intro a b f g B M Λ η ε ha hb haB hbB hB
  dsimp only
  intro hf hΛ hK hp
  have h := hC a b f g B M Λ η ha hb haB hbB hB
  dsimp only at h
  obtain ⟨h1, h2, -⟩ := h hf hΛ hK
  have h3 : |((b.val : ℝ) - a.val) / 2 * quad G (fun x => g (((b.val : ℝ) - a.val) / 2 * x + (a.val + b.val) / 2)) - ∫ t in (a.val : ℝ)..b.val, g t| ≤ 2 * |(b.val : ℝ) - a.val| * ε := by
    rcases eq_or_ne (a.val : ℝ) b.val with hab | hab
    · rw [hab]; simp
    have hB0 : 0 ≤ B := (abs_nonneg _).trans haB
    have hρ : 0 ≤ 4 / 10 ^ 15 * B + 1 / 2 ^ 1000 := by positivity
    have hsub : Set.uIcc (a.val : ℝ) b.val ⊆ around a.val b.val (4 / 10 ^ 15 * B + 1 / 2 ^ 1000) := Set.Icc_subset_Icc (by simp only [sub_le_self_iff]; exact hρ) (by simp only [le_add_iff_nonneg_right]; exact hρ)
    have hcont : ContinuousOn g (Set.uIcc (a.val : ℝ) b.val) := by
      refine LipschitzOnWith.continuousOn (K := ⟨Λ, hΛ⟩) (LipschitzOnWith.of_dist_le_mul fun x hx y hy => ?_)
      rw [Real.dist_eq, Real.dist_eq]
      exact hf.lipschitz x (hsub hx) y (hsub hy)
    obtain ⟨p, hp1, hp2⟩ := hp
    have hex' : ExactUpTo G (2 * G.length - 1) (Set.Ioo (-1) 1) (fun _ => 1) 1 := by rw [hlen]; exact hex
    have h4 := (interval_approx (g := g) one_pos hex' posDef_one (fun x _ => zero_le_one) integrable_one hab (ε := ε)
      (hcont.comp (by fun_prop) fun _ hx => mem_uIcc_of_Icc hx)
      (p := p.comp (C (((b.val : ℝ) - a.val) / 2) * X + C (((a.val : ℝ) + b.val) / 2))) (by
        rw [hlen]
        refine natDegree_comp_le.trans ?_
        refine (Nat.mul_le_mul hp1 (natDegree_linear_le)).trans (by omega))
      (fun x hx => by
        have := hp2 _ (mem_uIcc_of_Icc (a := (a.val : ℝ)) (b := b.val) hx)
        simpa [eval_comp] using this)).2
    have hmass : (∫ _ in Set.Ioo (-1 : ℝ) 1, (1 : ℝ)) = 2 := by simp; norm_num
    rw [hmass] at h4
    simp only [mul_one, one_mul] at h4
    linarith
  exact ⟨⟨h1.1, abs_total h1.2 h3⟩, fun s hs => ⟨(h2 s hs).1, abs_total (h2 s hs).2 h3⟩⟩

/-- `v` is a value `integrate` may return, or `par_integrate` under a schedule with at most `k` roundings on its longest path. -/
def ValueOf [L : Libm] (R : AnyRule F64) (n k : ℕ) (a b : F64) (f : F64 → F64) (v : F64) : Prop :=
  v = R.value a b f ∧ n ≤ k ∨ ∃ s, roundings s n ≤ k ∧ v = R.parIntegrate s s a b f

/-- C89, the inner call in binary64: a Gauss-Legendre call with bounds and integrand depending on the outer variable computes the inner integral as a function of the outer
variable, so it may be used as the integrand of any rule.  Every call may be sequential or parallel, with a schedule of its own. -/
theorem C89_inner_legendre [L : Libm] (hL : AccurateTrig L) (mode : Overflow) {n k : ℕ} (hn : 0 < n) (hmax : n ≤ 10 ^ 12) (hk : k ≤ 10 ^ 12) :
    ∃ r : Rule F64, GaussLegendre.new mode n = some r ∧
      ∀ (S : Set ℝ) (c d : F64 → F64) (φ : F64 → F64 → F64) (ψ : F64 → ℝ → ℝ) (G : F64 → F64) (Γ : ℝ → ℝ) (B D M Λ η ε δ M₁ Λ₁ : ℝ),
      let ρ := 4 / 10 ^ 15 * B + 1 / 2 ^ 1000; let κ := η + Λ * ρ;
      B ≤ 2 ^ 400 → 0 ≤ Λ → 0 ≤ M → 0 ≤ η → 0 ≤ ε → M + κ ≤ 2 ^ 400 →
      (∀ x : F64, x.isFinite = true → (x.val : ℝ) ∈ S →
        ((c x).isFinite = true ∧ (d x).isFinite = true ∧ |((c x).val : ℝ)| ≤ B ∧ |((d x).val : ℝ)| ≤ B ∧ |((d x).val : ℝ) - (c x).val| ≤ D) ∧
        Computes (φ x) (ψ x) (around (c x).val (d x).val ρ) M Λ η ∧ NearPoly (ψ x) (c x).val (d x).val (2 * n - 1) ε ∧
        |(∫ t in ((c x).val : ℝ)..(d x).val, ψ x t) - Γ x.val| ≤ δ ∧ ValueOf (.legendre r) n k (c x) (d x) (φ x) (G x)) →
      (∀ t ∈ S, |Γ t| ≤ M₁) → (∀ s ∈ S, ∀ t ∈ S, |Γ s - Γ t| ≤ Λ₁ * |s - t|) →
      Computes G Γ S M₁ Λ₁ (D * (1.01 * κ + (1 / 10 ^ 14 + 1.2 / 10 ^ 16 * k) * (M + κ)) + 1 / 2 ^ 500 + 2 * D * ε + δ) := by
  obtain ⟨r, hr, hC⟩ := legendre_near_poly hL mode hn hmax
  refine ⟨r, hr, ?_⟩
  intro S c d φ ψ G Γ B D M Λ η ε δ M₁ Λ₁
  dsimp only
  intro hB hΛ hM hη hε hK hin hb hl
  refine ⟨hb, hl, fun x hx hxS => ?_⟩
  obtain ⟨⟨c1, d1, c2, d2, hD⟩, hf, hp, hδ, hv⟩ := hin x hx hxS
  have hB0 : 0 ≤ B := (abs_nonneg _).trans c2
  have h := hC (c x) (d x) (φ x) (ψ x) B M Λ η ε c1 d1 c2 d2 hB
  dsimp only at h
  obtain ⟨h1, h2⟩ := h hf hΛ hK hp
  have hκ : 0 ≤ η + Λ * (4 / 10 ^ 15 * B + 1 / 2 ^ 1000) := by positivity
  have mono : ∀ m : ℕ, m ≤ k → |((d x).val : ℝ) - (c x).val| * (1.01 * (η + Λ * (4 / 10 ^ 15 * B + 1 / 2 ^ 1000)) + (1 / 10 ^ 14 + 1.2 / 10 ^ 16 * m) * (M + (η + Λ * (4 / 10 ^ 15 * B + 1 / 2 ^ 1000)))) +
      1 / 2 ^ 500 + 2 * |((d x).val : ℝ) - (c x).val| * ε ≤ D * (1.01 * (η + Λ * (4 / 10 ^ 15 * B + 1 / 2 ^ 1000)) + (1 / 10 ^ 14 + 1.2 / 10 ^ 16 * k) * (M + (η + Λ * (4 / 10 ^ 15 * B + 1 / 2 ^ 1000)))) +
      1 / 2 ^ 500 + 2 * D * ε := by
    intro m hm
    have hm' : (m : ℝ) ≤ k := by exact_mod_cast hm
    have hMκ : 0 ≤ M + (η + Λ * (4 / 10 ^ 15 * B + 1 / 2 ^ 1000)) := by positivity
    have hD0 : 0 ≤ D := (abs_nonneg _).trans hD
    gcongr
  rcases hv with ⟨hv, hnk⟩ | ⟨s, hs, hv⟩
  · rw [hv]
    exact ⟨h1.1, (abs_sub_le _ _ _).trans (add_le_add (h1.2.trans (mono n hnk)) hδ)⟩
  · rw [hv]
    have h3 := h2 s (hs.trans hk)
    exact ⟨h3.1, (abs_sub_le _ _ _).trans (add_le_add (h3.2.trans (mono _ hs)) hδ)⟩

/-- C89 for the inner Gauss-Hermite call of the README: integrands that are polynomials of degree at most `2 n - 1` in the inner variable -/
theorem C89_inner_hermite [L : Libm] (hs : AccurateSqrt L) {ext : Externals F64} {n k : ℕ} (hn : 0 < n) (hmax : n ≤ 10 ^ 12) (hk : k ≤ 10 ^ 12) {ω : ℝ}
    (hst : StableSolver ext n ω) (hω : 0 ≤ ω) (hω1 : ω ≤ 0.01) :
    ∃ r : Rule F64, GaussHermite.new ext n = some r ∧
      ∀ (S : Set ℝ) (c d : F64 → F64) (φ : F64 → F64 → F64) (ψ : F64 → ℝ → ℝ) (G : F64 → F64) (Γ : ℝ → ℝ) (B M Λ κ δ M₁ Λ₁ : ℝ), let η := 1.23 * n * (ω + 4 * (1 / 2 ^ 53));
      Real.sqrt (2 * n) + η ≤ B → 0 ≤ Λ → 0 ≤ M → 0 ≤ κ → M + κ ≤ 2 ^ 400 →
      (∀ x : F64, x.isFinite = true → (x.val : ℝ) ∈ S → Computes (φ x) (ψ x) (Set.Icc (-B) B) M Λ κ ∧ (∃ p : ℝ[X], p.natDegree ≤ 2 * n - 1 ∧ ∀ t, ψ x t = p.eval t) ∧
        |(∫ t, ψ x t * Real.exp (-t ^ 2)) - Γ x.val| ≤ δ ∧ ValueOf (.hermite r) n k (c x) (d x) (φ x) (G x)) →
      (∀ t ∈ S, |Γ t| ≤ M₁) → (∀ s ∈ S, ∀ t ∈ S, |Γ s - Γ t| ≤ Λ₁ * |s - t|) →
      Computes G Γ S M₁ Λ₁ (Real.sqrt Real.pi * (Λ * η + (2.01 * ω + 5 * (1 / 2 ^ 53)) * M + 1.05 * κ + 1.1 * (k + 1) * (1 / 2 ^ 53 * (M + κ))) + 1 / 2 ^ 1000 + δ) := by
  obtain ⟨Q, q1, q2, q3⟩ := hermite_rule_exists hn
  obtain ⟨r, hr, hC⟩ := C61_hermite hs hn hmax hst hω hω1 q1 q2 q3
  refine ⟨r, hr, ?_⟩
  intro S c d φ ψ G Γ B M Λ κ δ M₁ Λ₁
  dsimp only
  intro hB hΛ hM hκ hK hin hb hl
  refine ⟨hb, hl, fun x hx hxS => ?_⟩
  obtain ⟨hf, ⟨p, hp1, hp2⟩, hδ, hv⟩ := hin x hx hxS
  have h := hC (c x) (d x) (φ x) (ψ x) B M Λ κ
  dsimp only at h
  obtain ⟨h1, h2, h3⟩ := h hB hf hΛ hK
  rw [h3 p hp1 hp2] at h1 h2
  have mono : ∀ m : ℕ, m ≤ k → Real.sqrt Real.pi * (Λ * (1.23 * n * (ω + 4 * (1 / 2 ^ 53))) + (2.01 * ω + 5 * (1 / 2 ^ 53)) * M + 1.05 * κ + 1.1 * (m + 1) * (1 / 2 ^ 53 * (M + κ))) + 1 / 2 ^ 1000 ≤
      Real.sqrt Real.pi * (Λ * (1.23 * n * (ω + 4 * (1 / 2 ^ 53))) + (2.01 * ω + 5 * (1 / 2 ^ 53)) * M + 1.05 * κ + 1.1 * (k + 1) * (1 / 2 ^ 53 * (M + κ))) + 1 / 2 ^ 1000 := by
    intro m hm
    have hm' : (m : ℝ) ≤ k := by exact_mod_cast hm
    gcongr
  rcases hv with ⟨hv, hnk⟩ | ⟨s, hs, hv⟩
  · rw [hv]
    exact ⟨h1.1, (abs_sub_le _ _ _).trans (add_le_add (h1.2.trans (mono n hnk)) hδ)⟩
  · rw [hv]
    have h3 := h2 s (hs.trans hk)
    exact ⟨h3.1, (abs_sub_le _ _ _).trans (add_le_add (h3.2.trans (mono _ hs)) hδ)⟩

/-- C89, the outer call in binary64: Gauss-Legendre applied to any program that computes `Γ`, in particular to an inner call -/
theorem C89_outer_legendre [L : Libm] (hL : AccurateTrig L) (mode : Overflow) {n k : ℕ} (hn : 0 < n) (hmax : n ≤ 10 ^ 12) (hk : k ≤ 10 ^ 12) :
    ∃ r : Rule F64, GaussLegendre.new mode n = some r ∧
      ∀ (a b v : F64) (G : F64 → F64) (Γ : ℝ → ℝ) (B M Λ η ε : ℝ), a.isFinite = true → b.isFinite = true → |(a.val : ℝ)| ≤ B → |(b.val : ℝ)| ≤ B →
      B ≤ 2 ^ 400 → let D := |(b.val : ℝ) - a.val|; let ρ := 4 / 10 ^ 15 * B + 1 / 2 ^ 1000; let κ := η + Λ * ρ;
      Computes G Γ (around a.val b.val ρ) M Λ η → 0 ≤ Λ → M + κ ≤ 2 ^ 400 → NearPoly Γ a.val b.val (2 * n - 1) ε → ValueOf (.legendre r) n k a b G v →
      v.isFinite = true ∧ |(v.val : ℝ) - ∫ x in (a.val : ℝ)..b.val, Γ x| ≤ D * (1.01 * κ + (1 / 10 ^ 14 + 1.2 / 10 ^ 16 * k) * (M + κ)) + 1 / 2 ^ 500 + 2 * D * ε := by
  obtain ⟨r, hr, hC⟩ := legendre_near_poly hL mode hn hmax
  refine ⟨r, hr, ?_⟩
  intro a b v G Γ B M Λ η ε ha hb haB hbB hB
  dsimp only
  intro hf hΛ hK hp hv
  have h := hC a b G Γ B M Λ η ε ha hb haB hbB hB
  dsimp only at h
  obtain ⟨h1, h2⟩ := h hf hΛ hK hp
  have hB0 : 0 ≤ B := (abs_nonneg _).trans haB
  have hρ : 0 ≤ 4 / 10 ^ 15 * B + 1 / 2 ^ 1000 := by positivity
  have hmem : (a.val : ℝ) ∈ around a.val b.val (4 / 10 ^ 15 * B + 1 / 2 ^ 1000) :=
    ⟨by linarith [min_le_left (a.val : ℝ) b.val], by linarith [le_max_left (a.val : ℝ) b.val]⟩
  have hM : 0 ≤ M := (abs_nonneg _).trans (hf.bound _ hmem)
  have hη : 0 ≤ η := (abs_nonneg _).trans (hf.accurate a ha hmem).2
  have hMκ : 0 ≤ M + (η + Λ * (4 / 10 ^ 15 * B + 1 / 2 ^ 1000)) := by positivity
  rcases hv with ⟨hv, hnk⟩ | ⟨s, hs, hv⟩
  · rw [hv]
    have hm' : (n : ℝ) ≤ k := by exact_mod_cast hnk
    refine ⟨h1.1, h1.2.trans ?_⟩
    gcongr
  · rw [hv]
    have h3 := h2 s (hs.trans hk)
    have hm' : ((roundings s n : ℕ) : ℝ) ≤ k := by exact_mod_cast hs
    refine ⟨h3.1, h3.2.trans ?_⟩
    gcongr

/-! ### the documented double integrals -/

theorem around_unit {t : ℝ} (ht : t ∈ around (0 : ℝ) 1 (4 / 10 ^ 15 * 1 + 1 / 2 ^ 1000)) : |t| ≤ 1.01 := by
  have hρ : (4 : ℝ) / 10 ^ 15 * 1 + 1 / 2 ^ 1000 ≤ 0.01 := by norm_num
  simp only [around, zero_le_one, min_eq_left, max_eq_right] at ht
  exact _root_.abs_le.2 ⟨by linarith [ht.1], by linarith [ht.2]⟩

/-- the inner integrand `|y| x * x * y` of the documentation -/
theorem triangle_computes [L : Libm] {x : F64} (hx : x.isFinite = true) (h : |(x.val : ℝ)| ≤ 1.01) :
    Computes (fun y => F64.mul (F64.mul x x) y) (fun t => (x.val : ℝ) ^ 2 * t) (around (F64.zero false).val x.val (4 / 10 ^ 15 * 1.01 + 1 / 2 ^ 1000)) 1.1 1.03 (1 / 10 ^ 15) := by
  have hρ : (4 : ℝ) / 10 ^ 15 * 1.01 + 1 / 2 ^ 1000 ≤ 0.01 := by norm_num
  have h0 : ((F64.zero false).val : ℝ) = 0 := by rw [val_zero]; simp
  have hx2 := _root_.abs_le.1 h
  have hI : ∀ t ∈ around ((F64.zero false).val : ℝ) x.val (4 / 10 ^ 15 * 1.01 + 1 / 2 ^ 1000), |t| ≤ 1.02 := by
    intro t ht
    rw [h0] at ht
    have l1 : -1.01 ≤ min 0 (x.val : ℝ) := le_min (by norm_num) hx2.1
    have l2 : max 0 (x.val : ℝ) ≤ 1.01 := max_le (by norm_num) hx2.2
    exact _root_.abs_le.2 ⟨by linarith [ht.1], by linarith [ht.2]⟩
  have hsq : |(x.val : ℝ) ^ 2| ≤ 1.0201 := by rw [abs_pow]; nlinarith [abs_nonneg (x.val : ℝ)]
  refine ⟨fun t ht => ?_, fun s hs t ht => ?_, fun y hy ht => ?_⟩
  · rw [abs_mul]
    exact (mul_le_mul hsq (hI t ht) (abs_nonneg _) (by norm_num)).trans (by norm_num)
  · rw [← mul_sub, abs_mul]
    exact mul_le_mul_of_nonneg_right (hsq.trans (by norm_num)) (abs_nonneg _)
  · have h1 := (near_self hx).mul (near_self hx) (A := 1.01) (B := 1.01) (by simpa [rv] using h) (by simpa [rv] using h) (by norm_num)
    have h2 := h1.mul (near_self hy) (A := 1.03) (B := 1.02) (by
      rw [← sq]
      have : |x.rv ^ 2| ≤ 1.0201 := hsq
      refine (add_le_add this le_rfl).trans ?_
      unfold U; norm_num) (by simpa [rv] using hI _ ht) (by norm_num)
    refine ⟨h2.1, ?_⟩
    have h3 := h2.2
    rw [← sq] at h3
    refine h3.trans ?_
    unfold U; norm_num

/-- C89, the example of the documentation (`/repo/src/lib.rs` l.171-177): with `GaussLegendre::new(3)`,
`rule.integrate(0.0, 1.0, |x| rule.integrate(0.0, x, |y| x * x * y))` is a finite number within `5e-14` of `1/10`; the same holds if either call, or both, run in parallel
under any schedule of at most three roundings per path. -/
theorem C89_triangle [L : Libm] (hL : AccurateTrig L) (mode : Overflow) :
    ∃ r : Rule F64, GaussLegendre.new mode 3 = some r ∧ ∀ (G : F64 → F64) (v : F64),
      (∀ x, ValueOf (.legendre r) 3 3 (F64.zero false) x (fun y => F64.mul (F64.mul x x) y) (G x)) → ValueOf (.legendre r) 3 3 (F64.zero false) (lit 1.0) G v →
      v.isFinite = true ∧ |(v.val : ℝ) - 1 / 10| ≤ 5 / 10 ^ 14 := by
  obtain ⟨r, hr, h₁⟩ := C89_outer_legendre hL mode (n := 3) (k := 3) (by norm_num) (by norm_num) (by norm_num)
  obtain ⟨r', hr', h₂⟩ := C89_inner_legendre hL mode (n := 3) (k := 3) (by norm_num) (by norm_num) (by norm_num)
  obtain rfl : r = r' := Option.some.inj (hr.symm.trans hr')
  refine ⟨r, hr, fun G v hG hv => ?_⟩
  have e1 : ((lit 1.0 : F64).val : ℝ) = 1 := by
    have := lit_one_rel.2
    rw [zero_mul, zero_mul] at this
    have := abs_nonpos_iff.1 this
    unfold rv at this; linarith
  have e0 : ((F64.zero false).val : ℝ) = 0 := by rw [val_zero]; simp
  have hin := h₂ (around 0 1 (4 / 10 ^ 15 * 1 + 1 / 2 ^ 1000)) (fun _ => F64.zero false) (fun x => x) (fun x y => F64.mul (F64.mul x x) y) (fun x t => (x.val : ℝ) ^ 2 * t) G
    (fun t => t ^ 4 / 2) 1.01 1.01 1.1 1.03 (1 / 10 ^ 15) 0 0 0.6 2.1
  dsimp only at hin
  have hin := hin (by norm_num) (by norm_num) (by norm_num) (by norm_num) le_rfl (by norm_num) (fun x hx hxS => by
      have hx1 := around_unit hxS
      refine ⟨⟨zero_isFinite _, hx, by rw [e0]; norm_num, hx1, by rw [e0, sub_zero]; exact hx1⟩, triangle_computes hx hx1, ⟨C ((x.val : ℝ) ^ 2) * X, ?_, ?_⟩, ?_, hG x⟩
      · exact (natDegree_C_mul_le _ _).trans (natDegree_X_le.trans (by norm_num))
      · intro t _; simp
      · rw [e0, intervalIntegral.integral_const_mul, integral_id]
        rw [abs_nonpos_iff]; ring)
    (fun t ht => by
      have := around_unit ht
      rw [abs_div, abs_pow, abs_two]
      have h4 : |t| ^ 4 ≤ 1.01 ^ 4 := pow_le_pow_left₀ (abs_nonneg _) this 4
      linarith [show (1.01 : ℝ) ^ 4 ≤ 1.2 by norm_num])
    (fun s hs t ht => by
      have h1 := around_unit hs
      have h2 := around_unit ht
      rw [show s ^ 4 / 2 - t ^ 4 / 2 = (s ^ 3 + s ^ 2 * t + s * t ^ 2 + t ^ 3) / 2 * (s - t) by ring, abs_mul]
      refine mul_le_mul_of_nonneg_right ?_ (abs_nonneg _)
      have b : ∀ i j : ℕ, |s ^ i * t ^ j| ≤ 1.01 ^ i * 1.01 ^ j := fun i j => by
        rw [abs_mul, abs_pow, abs_pow]
        exact mul_le_mul (pow_le_pow_left₀ (abs_nonneg _) h1 i) (pow_le_pow_left₀ (abs_nonneg _) h2 j) (by positivity) (by positivity)
      have b1 := _root_.abs_le.1 (b 3 0)
      have b2 := _root_.abs_le.1 (b 2 1)
      have b3 := _root_.abs_le.1 (b 1 2)
      have b4 := _root_.abs_le.1 (b 0 3)
      norm_num at b1 b2 b3 b4
      exact _root_.abs_le.2 ⟨by norm_num; linarith [b1.1, b2.1, b3.1, b4.1], by norm_num; linarith [b1.2, b2.2, b3.2, b4.2]⟩)
  obtain ⟨E, hE, hin⟩ : ∃ E ≤ (2 : ℝ) / 10 ^ 14, Computes G (fun t => t ^ 4 / 2) (around 0 1 (4 / 10 ^ 15 * 1 + 1 / 2 ^ 1000)) 0.6 2.1 E := ⟨_, by norm_num, hin⟩
  have hout := h₁ (F64.zero false) (lit 1.0) v G (fun t => t ^ 4 / 2) 1 0.6 2.1 E 0 (zero_isFinite _) lit_one_rel.1 (by rw [e0]; norm_num) (by rw [e1]; norm_num) (by norm_num)
  dsimp only at hout
  rw [e0, e1] at hout
  obtain ⟨o1, o2⟩ := hout hin (by norm_num) (by norm_num at hE ⊢; linarith) ⟨C (1 / 2) * X ^ 4, (natDegree_C_mul_X_pow_le _ _).trans (by norm_num), fun t _ => by simp; ring_nf⟩ hv
  refine ⟨o1, ?_⟩
  have e : ∫ t in (0 : ℝ)..1, t ^ 4 / 2 = 1 / 10 := by rw [intervalIntegral.integral_div, integral_pow]; norm_num
  rw [e] at o2
  refine o2.trans ?_
  norm_num at hE ⊢
  linarith

/-- the sequential call of the documentation is one of the cases -/
example : ∃ _L : Libm, ∃ r : Rule F64, GaussLegendre.new .checked 3 = some r ∧
    |(((AnyRule.legendre r).value (F64.zero false) (lit 1.0) fun x => (AnyRule.legendre r).value (F64.zero false) x fun y => F64.mul (F64.mul x x) y).val : ℝ) - 1 / 10| ≤ 5 / 10 ^ 14 := by
  obtain ⟨L, hL⟩ := accurateTrig_exists
  obtain ⟨r, hr, h⟩ := C89_triangle hL .checked
  exact ⟨L, r, hr, (h _ _ (fun x => Or.inl ⟨rfl, le_rfl⟩) (Or.inl ⟨rfl, le_rfl⟩)).2⟩

/-- the README's `legendre_integrator.par_integrate(a, b, |x| hermite_integrator.integrate(|y| f(x, y)))` with `f(x, y) = x` on `[0, 1]`: `√π / 2` up to `2e-13`, under every
schedule of at most ten roundings per path -/
example : ∃ _L : Libm, ∃ ext : Externals F64, ∃ r q : Rule F64, GaussLegendre.new .checked 5 = some r ∧ GaussHermite.new ext 10 = some q ∧
    ∀ s, roundings s 5 ≤ 10 → |(((AnyRule.legendre r).parIntegrate s s (F64.zero false) (lit 1.0) fun x => (AnyRule.hermite q).value x x fun _ => x).val : ℝ) - Real.sqrt Real.pi / 2| ≤ 2e-13 := by
  obtain ⟨L, hL, -, -, hs⟩ := accurateLibm_exists
  have hst := stableSolver_exists (n := 10) (by norm_num)
  have hε : 3 * ((10 : ℕ) : ℝ) * U ≤ 3.4e-15 := by unfold U; norm_num
  have hε0 : 0 ≤ 3 * ((10 : ℕ) : ℝ) * U := by unfold U; positivity
  obtain ⟨r, hr, h₁⟩ := C89_outer_legendre hL .checked (n := 5) (k := 10) (by norm_num) (by norm_num) (by norm_num)
  obtain ⟨q, hq, h₂⟩ := C89_inner_hermite hs (n := 10) (k := 10) (by norm_num) (by norm_num) (by norm_num) hst hε0 (hε.trans (by norm_num))
  refine ⟨L, _, r, q, hr, hq, fun s hs' => ?_⟩
  have hpi2 : Real.sqrt Real.pi ≤ 2 := Real.sqrt_le_iff.2 ⟨by norm_num, by linarith [Real.pi_le_four]⟩
  have hpi0 := Real.sqrt_nonneg Real.pi
  have hsq : Real.sqrt (2 * ((10 : ℕ) : ℝ)) ≤ 4.5 := Real.sqrt_le_iff.2 ⟨by norm_num, by norm_num⟩
  have e1 : ((lit 1.0 : F64).val : ℝ) = 1 := by
    have := lit_one_rel.2
    rw [zero_mul, zero_mul] at this
    have := abs_nonpos_iff.1 this
    unfold rv at this; linarith
  have e0 : ((F64.zero false).val : ℝ) = 0 := by rw [val_zero]; simp
  have hin := h₂ (around 0 1 (4 / 10 ^ 15 * 1 + 1 / 2 ^ 1000)) (fun x => x) (fun x => x) (fun x _ => x) (fun x _ => (x.val : ℝ)) (fun x => (AnyRule.hermite q).value x x fun _ => x)
    (fun t => Real.sqrt Real.pi * t) 5 1.01 0 0 0 2.1 2
  dsimp only at hin
  have hin := hin (by push_cast at hε hsq ⊢; linarith) le_rfl (by norm_num) le_rfl (by norm_num) (fun x hx hxS =>
      ⟨⟨fun t _ => around_unit hxS, fun _ _ _ _ => by simp, fun y _ _ => ⟨hx, by simp⟩⟩, ⟨C (x.val : ℝ), by simp, fun t => by simp⟩, by
        rw [integral_const_mul]
        have := integral_gaussian 1
        simp only [neg_mul, one_mul, div_one] at this
        rw [this, abs_nonpos_iff]; ring, Or.inl ⟨rfl, le_rfl⟩⟩)
    (fun t ht => by
      have := around_unit ht
      rw [abs_mul, abs_of_nonneg hpi0]
      exact (mul_le_mul hpi2 this (abs_nonneg _) (by norm_num)).trans (by norm_num))
    (fun s _ t _ => by
      rw [← mul_sub, abs_mul, abs_of_nonneg hpi0]
      exact mul_le_mul_of_nonneg_right hpi2 (abs_nonneg _))
  obtain ⟨E, hE, hin⟩ : ∃ E ≤ (2 : ℝ) / 10 ^ 14, Computes (fun x => (AnyRule.hermite q).value x x fun _ => x) (fun t => Real.sqrt Real.pi * t) (around 0 1 (4 / 10 ^ 15 * 1 + 1 / 2 ^ 1000)) 2.1 2 E := by
    refine ⟨_, ?_, hin⟩
    have h1 : 0 * (1.23 * ((10 : ℕ) : ℝ) * (3 * ((10 : ℕ) : ℝ) * U + 4 * (1 / 2 ^ 53))) + (2.01 * (3 * ((10 : ℕ) : ℝ) * U) + 5 * (1 / 2 ^ 53)) * 1.01 + 1.05 * 0 + 1.1 * (((10 : ℕ) : ℝ) + 1) * (1 / 2 ^ 53 * (1.01 + 0)) ≤ 9e-15 := by
      unfold U; norm_num
    refine (add_le_add (add_le_add (mul_le_mul hpi2 h1 (by positivity) (by norm_num)) le_rfl) le_rfl).trans ?_
    norm_num
  have hout := h₁ (F64.zero false) (lit 1.0) ((AnyRule.legendre r).parIntegrate s s (F64.zero false) (lit 1.0) fun x => (AnyRule.hermite q).value x x fun _ => x) (fun x => (AnyRule.hermite q).value x x fun _ => x) (fun t => Real.sqrt Real.pi * t) 1 2.1 2 E 0 (zero_isFinite _) lit_one_rel.1 (by rw [e0]; norm_num) (by rw [e1]; norm_num) (by norm_num)
  dsimp only at hout
  rw [e0, e1] at hout
  obtain ⟨-, o2⟩ := hout hin (by norm_num) (by norm_num at hE ⊢; linarith) ⟨C (Real.sqrt Real.pi) * X, (natDegree_C_mul_le _ _).trans (natDegree_X_le.trans (by norm_num)), fun t _ => by simp⟩
    (Or.inr ⟨s, hs', rfl⟩)
  have e : ∫ t in (0 : ℝ)..1, Real.sqrt Real.pi * t = Real.sqrt Real.pi / 2 := by rw [intervalIntegral.integral_const_mul, integral_id]; ring
  rw [e] at o2
  refine o2.trans ?_
  norm_num at hE ⊢
  linarith

end GaussQuad.Props
