import Verif.Proofs.F64Gauss
import Verif.Props.LegendreF64
import Verif.Model.AnyRule
import Verif.Proofs.GaussSums
import Mathlib.Analysis.SpecialFunctions.Integrals.Basic

/-!
# C55: `integrate` and `par_integrate` of the Gauss-Legendre rule in binary64
-/

set_option exponentiation.threshold 3000

namespace GaussQuad.Props
open Polynomial Spec FloatOps Bogaert LegendrePoly F64

/-- error of the weights of the binary64 rule -/
noncomputable def legSigma (n : ℕ) (q : ℝ × ℝ) : ℝ := 6 / 10 ^ 15 * |q.2| + (if n ≤ 100 then 6 / 10 ^ 17 else 0)

/-- the rule of degree `n` that C55 is about: an exact Gauss rule `G` near the binary64 rule `r` -/
theorem legendre_sizes {n : ℕ} {G : List (ℝ × ℝ)} (hlen : G.length = n) (hpos : ∀ q ∈ G, 0 < q.2)
    (hex : ExactUpTo G (2 * n - 1) (Set.Ioo (-1) 1) (fun _ => 1) 1) : RuleSizes G (legSigma n) 2 (18 / 10 ^ 15) := by
  have hmass : (G.map fun q => |q.2|).sum = 2 := by
    have := gauss_mass (by rw [hlen]; exact hex)
    have e : (G.map fun q => |q.2|) = G.map Prod.snd := List.map_congr_left fun q hq => abs_of_pos (hpos q hq)
    rw [e, this]; simp; norm_num
  refine ⟨hmass.le, ?_, fun q => by unfold legSigma; positivity, by norm_num, by norm_num⟩
  have e : (G.map (legSigma n)).sum = 6 / 10 ^ 15 * (G.map fun q => |q.2|).sum + n * (if n ≤ 100 then 6 / 10 ^ 17 else 0) := by
    subst hlen
    unfold legSigma
    rw [List.sum_map_add, List.sum_map_mul_left]
    simp
  rw [e, hmass]
  split
  · have : (n : ℝ) ≤ 100 := by exact_mod_cast ‹n ≤ 100›
    linarith
  · norm_num

/-- the constants of C55: `κ` bounds the error of one evaluation of the integrand, `K` its size -/
theorem legendre_constants {d : ℕ} {D κ K : ℝ} (hD : 0 ≤ D) (hκ : 0 ≤ κ) (hK : 0 ≤ K) :
    D * (0.503 * (κ * 2) + 0.51 * (K * (18 / 10 ^ 15)) + (0.51 * d + 2.1) * (U * (K * 2))) + 1 / 2 ^ 500 ≤
      D * (1.01 * κ + (1 / 10 ^ 14 + 1.2 / 10 ^ 16 * d) * K) + 1 / 2 ^ 500 := by
  refine add_le_add (mul_le_mul_of_nonneg_left ?_ hD) le_rfl
  have hU : U ≤ 1.1103 / 10 ^ 16 := by unfold U; norm_num
  have h1 : U * K ≤ 1.1103 / 10 ^ 16 * K := mul_le_mul_of_nonneg_right hU hK
  have h2 : (d : ℝ) * (U * K) ≤ d * (1.1103 / 10 ^ 16 * K) := mul_le_mul_of_nonneg_left h1 (Nat.cast_nonneg d)
  have h3 : 0 ≤ (d : ℝ) * K := by positivity
  have e1 : 0.503 * (κ * 2) + 0.51 * (K * (18 / 10 ^ 15)) + (0.51 * d + 2.1) * (U * (K * 2)) =
    1.006 * κ + 9.18 / 10 ^ 15 * K + 1.02 * (d * (U * K)) + 4.2 * (U * K) := by ring
  have e2 : (1.01 * κ + (1 / 10 ^ 14 + 1.2 / 10 ^ 16 * d) * K) = 1.01 * κ + 1 / 10 ^ 14 * K + 1.2 / 10 ^ 16 * (d * K) := by ring
  have e3 : (d : ℝ) * (1.1103 / 10 ^ 16 * K) = 1.1103 / 10 ^ 16 * (d * K) := by ring
  rw [e3] at h2
  rw [e1, e2]
  linarith

/-- C55: let `g` be bounded by `M` and `Λ`-Lipschitz on the integration interval widened by `ρ = 4e-15·B + 2^-1000`, and let the program `f`
compute it there with absolute error `η`.  Then binary64 `integrate` of the `n`-point rule returns a finite number within
`|b-a|·(1.01 κ + (1e-14 + 1.2e-16·n)(M + κ)) + 2^-500`, `κ = η + Λρ`, of the exact `n`-point Gauss sum `(b-a)/2·Σ w g(x)`; `par_integrate` is within
the same bound with `n` replaced by the number of roundings on the longest path of the reduction tree.  If `g` is a polynomial of degree at
most `2n-1`, that Gauss sum is the integral. -/
theorem C55_integrate [L : Libm] (hL : AccurateTrig L) (mode : Overflow) {n : ℕ} (hn : 0 < n) (hmax : n ≤ 10 ^ 12) :
    ∃ r : Rule F64, GaussLegendre.new mode n = some r ∧ ∃ G : List (ℝ × ℝ), G.length = n ∧ ExactUpTo G (2 * n - 1) (Set.Ioo (-1) 1) (fun _ => 1) 1 ∧
      ∀ (a b : F64) (f : F64 → F64) (g : ℝ → ℝ) (B M Λ η : ℝ), a.isFinite = true → b.isFinite = true → |(a.val : ℝ)| ≤ B → |(b.val : ℝ)| ≤ B →
      B ≤ 2 ^ 400 → let ρ := 4 / 10 ^ 15 * B + 1 / 2 ^ 1000; let κ := η + Λ * ρ; let I := ((b.val : ℝ) - a.val) / 2 * quad G (fun x => g (((b.val : ℝ) - a.val) / 2 * x + (a.val + b.val) / 2));
      let E := fun d : ℕ => |(b.val : ℝ) - a.val| * (1.01 * κ + (1 / 10 ^ 14 + 1.2 / 10 ^ 16 * d) * (M + κ)) + 1 / 2 ^ 500;
      Computes f g (around a.val b.val ρ) M Λ η → 0 ≤ Λ → M + κ ≤ 2 ^ 400 →
      (((AnyRule.legendre r).value a b f).isFinite = true ∧ |(((AnyRule.legendre r).value a b f).val : ℝ) - I| ≤ E n) ∧
      (∀ s, roundings s n ≤ 10 ^ 12 → ((AnyRule.legendre r).parIntegrate s s a b f).isFinite = true ∧
        |(((AnyRule.legendre r).parIntegrate s s a b f).val : ℝ) - I| ≤ E (roundings s n)) ∧
      (∀ p : ℝ[X], p.natDegree ≤ 2 * n - 1 → (∀ t, g t = p.eval t) → I = ∫ t in (a.val : ℝ)..b.val, g t) := by
  obtain ⟨r, hr, G, hlen, -, hprop, hex, hclose⟩ := C52_binary64 hL mode hn (by omega)
  have hs := legendre_sizes hlen (fun q hq => (hprop q hq).2.2.2) hex
  refine ⟨r, hr, G, hlen, hex, ?_⟩
  intro a b f g B M Λ η ha hb haB hbB hB
  dsimp only
  intro hf hΛ hK
  have hclose' : List.Forall₂ (fun (p : F64 × F64) (q : ℝ × ℝ) => Near p.1 q.1 (3 / 10 ^ 15) ∧ Near p.2 q.2 (legSigma n q)) r.nodeWeightPairs G := by
    refine forall₂_trans_mem (S := fun (q q' : ℝ × ℝ) => q = q') (fun p q q' hq h1 h2 => ?_) hclose (List.forall₂_eq_eq_eq.symm ▸ rfl)
    subst h2
    obtain ⟨c1, c2, c3, c4, c5⟩ := h1
    refine ⟨⟨c1, c3⟩, c2, ?_⟩
    unfold legSigma
    rw [abs_of_pos (hprop q hq).2.2.2]
    split
    · exact c4
    · rw [add_zero]; exact c5 (by omega)
  have hG1 : ∀ q ∈ G, |q.1| ≤ 1 := fun q hq => _root_.abs_le.2 ⟨(hprop q hq).2.1.le, (hprop q hq).2.2.1.le⟩
  have hB0 : 0 ≤ B := (abs_nonneg _).trans haB
  have hρ : 0 ≤ 4 / 10 ^ 15 * B + 1 / 2 ^ 1000 := by positivity
  have hmem : (a.val : ℝ) ∈ around a.val b.val (4 / 10 ^ 15 * B + 1 / 2 ^ 1000) :=
    ⟨by linarith [min_le_left (a.val : ℝ) b.val], by linarith [le_max_left (a.val : ℝ) b.val]⟩
  have hM : 0 ≤ M := (abs_nonneg _).trans (hf.bound _ hmem)
  have hη : 0 ≤ η := (abs_nonneg _).trans (hf.accurate a ha hmem).2
  have hκ : 0 ≤ η + Λ * (4 / 10 ^ 15 * B + 1 / 2 ^ 1000) := by positivity
  have main := fun {d : ℕ} (hd : d ≤ 10 ^ 12) {x : F64} hx =>
    gauss_value_near (W := 2) (S := 18 / 10 ^ 15) (d := d) (x := x) hs hclose' hG1 le_rfl ha hb haB hbB hB hf hΛ hη hM hK (by omega) hd hx
  have fin : ∀ {d : ℕ} {v : F64} {I : ℝ}, Near v I (|b.rv - a.rv| * (0.503 * ((η + Λ * argErr B) * 2) + 0.51 * ((M + (η + Λ * argErr B)) * (18 / 10 ^ 15)) +
        (0.51 * d + 2.1) * (U * ((M + (η + Λ * argErr B)) * 2))) + 1 / 2 ^ 500) → v.isFinite = true ∧ |(v.val : ℝ) - I| ≤
        |(b.val : ℝ) - a.val| * (1.01 * (η + Λ * (4 / 10 ^ 15 * B + 1 / 2 ^ 1000)) + (1 / 10 ^ 14 + 1.2 / 10 ^ 16 * d) * (M + (η + Λ * (4 / 10 ^ 15 * B + 1 / 2 ^ 1000)))) + 1 / 2 ^ 500 :=
    fun h => ⟨h.1, h.2.trans (legendre_constants (abs_nonneg _) hκ (add_nonneg hM hκ))⟩
  refine ⟨?_, fun s hs' => ?_, fun p hp hg => ?_⟩
  · have e : (AnyRule.legendre r).value a b f = F64.mul (lit 0.5 *ᶠ (b -ᶠ a) : F64)
        (sumList (r.nodeWeightPairs.map fun p => (f (lit 0.5 *ᶠ ((b -ᶠ a) *ᶠ p.1 +ᶠ (b +ᶠ a)) : F64) *ᶠ p.2 : F64))) := by
      have := sumMapM_id (F := F64) r.nodeWeightPairs (fun p => (do let y ← (pure (f (GaussLegendre.argumentTransformation p.1 a b)) : Id F64); pure (y *ᶠ p.2) : Id F64))
      exact congrArg (F64.mul (GaussLegendre.scaleFactor a b)) this
    rw [e]
    exact fin (main hmax (Or.inl ⟨rfl, hlen.symm⟩))
  · exact fin (main hs' (Or.inr ⟨s, rfl, by rw [hlen]⟩))
  · rcases eq_or_ne (a.val : ℝ) b.val with h | h
    · rw [h]; simp
    · have := exact_interval hex h hp
      simp only [mul_one, one_mul] at this
      simp only [hg]
      rw [← this, quad, quad, List.map_map, ← List.sum_map_mul_left]
      congr 1
      apply List.map_congr_left
      intro q _
      simp only [Function.comp]
      ring

/-- the program `|x| x * x` computes the square near `[0, 1]` -/
theorem square_computes : Computes (fun y => F64.mul y y) (fun t => t ^ 2) (around 0 1 (4 / 10 ^ 15 * 1 + 1 / 2 ^ 1000)) 1.1 2.1 (1 / 10 ^ 15) := by
  have hρ : (4 : ℝ) / 10 ^ 15 * 1 + 1 / 2 ^ 1000 ≤ 0.01 := by norm_num
  have hI : ∀ t ∈ around (0 : ℝ) 1 (4 / 10 ^ 15 * 1 + 1 / 2 ^ 1000), |t| ≤ 1.01 := by
    intro t ht
    simp only [around, zero_le_one, min_eq_left, max_eq_right] at ht
    exact _root_.abs_le.2 ⟨by linarith [ht.1], by linarith [ht.2]⟩
  refine ⟨fun t ht => ?_, fun s hs t ht => ?_, fun y hy ht => ?_⟩
  · have := hI t ht
    rw [abs_pow]
    nlinarith [abs_nonneg t]
  · have h1 := hI s hs
    have h2 := hI t ht
    rw [show s ^ 2 - t ^ 2 = (s + t) * (s - t) by ring, abs_mul]
    exact mul_le_mul_of_nonneg_right (by linarith [abs_add_le s t]) (abs_nonneg _)
  · have h1 := hI _ ht
    have h2 := (near_self hy).mul (near_self hy) (A := 1.01) (B := 1.01) (by simpa [rv] using h1) (by simpa [rv] using h1) (by norm_num)
    refine ⟨h2.1, ?_⟩
    have h3 := h2.2
    rw [← sq] at h3
    refine h3.trans ?_
    unfold U; norm_num

/-- binary64 `integrate` of `x * x` over `[0, 1]` with ten points: a finite number within `3e-14` of `1/3` -/
example : ∃ L : Libm, ∃ r : Rule F64, GaussLegendre.new .checked 10 = some r ∧
    ((AnyRule.legendre r).value (F64.zero false) (lit 1.0) (fun y => F64.mul y y)).isFinite = true ∧
    |(((AnyRule.legendre r).value (F64.zero false) (lit 1.0) (fun y => F64.mul y y)).val : ℝ) - 1 / 3| ≤ 3 / 10 ^ 14 := by
  obtain ⟨L, hL⟩ := accurateTrig_exists
  obtain ⟨r, hr, G, -, -, h⟩ := C55_integrate hL .checked (n := 10) (by norm_num) (by norm_num)
  refine ⟨L, r, hr, ?_⟩
  have h1 : ((lit 1.0 : F64).val : ℝ) = 1 := by
    have := lit_one_rel.2
    rw [zero_mul, zero_mul] at this
    have := abs_nonpos_iff.1 this
    unfold rv at this; linarith
  have h0 : ((F64.zero false).val : ℝ) = 0 := by rw [val_zero]; simp
  obtain ⟨⟨a1, a2⟩, -, a3⟩ := h (F64.zero false) (lit 1.0) (fun y => F64.mul y y) (fun t => t ^ 2) 1 1.1 2.1 (1 / 10 ^ 15) (zero_isFinite _) lit_one_rel.1
    (by rw [h0]; norm_num) (by rw [h1]; norm_num) (by norm_num) (by rw [h0, h1]; exact square_computes) (by norm_num) (by norm_num)
  refine ⟨a1, ?_⟩
  rw [a3 (X ^ 2) (by simp) (by simp), h0, h1] at a2
  have e : ∫ t in (0 : ℝ)..1, t ^ 2 = 1 / 3 := by rw [integral_pow]; norm_num
  rw [e] at a2
  refine a2.trans ?_
  norm_num

end GaussQuad.Props
