import Verif.Proofs.SmoothInterval
import Verif.Spec.Oscillation
import Mathlib.Order.ConditionallyCompleteLattice.Indexed

/-!
Jackson's theorem for continuous functions: an infimal convolution replaces the function by a Lipschitz function.
-/

namespace GaussQuad.Jackson
open Polynomial MeasureTheory Set Spec Bernstein

variable {a b δ ε : ℝ} {f : ℝ → ℝ}

/-- a chain of steps of length `δ` -/
theorem osc_steps (hab : a ≤ b) (hf : ∀ x ∈ Icc a b, ∀ y ∈ Icc a b, |x - y| ≤ δ → |f x - f y| ≤ ε) (k : ℕ) :
    ∀ x ∈ Icc a b, ∀ y ∈ Icc a b, |x - y| ≤ k * δ → |f x - f y| ≤ k * ε := by
  induction k with
  | zero =>
    intro x hx y hy h
    have : x = y := by
      rw [Nat.cast_zero, zero_mul] at h
      exact sub_eq_zero.1 (abs_eq_zero.1 (le_antisymm h (abs_nonneg _)))
    simp [this]
  | succ k ih =>
    intro x hx y hy h
    have hk : (0 : ℝ) < k + 1 := by positivity
    push_cast at h
    have ht0 : (0 : ℝ) ≤ 1 / (k + 1) := by positivity
    have ht1 : 1 / ((k : ℝ) + 1) ≤ 1 := by rw [div_le_one hk]; linarith [(Nat.cast_nonneg k : (0 : ℝ) ≤ k)]
    set t : ℝ := 1 / (k + 1) with ht
    have hz : x + t * (y - x) ∈ Icc a b := by
      constructor
      · nlinarith [hx.1, hy.1]
      · nlinarith [hx.2, hy.2]
    have h1 : |x - (x + t * (y - x))| ≤ δ := by
      rw [show x - (x + t * (y - x)) = t * (x - y) by ring, abs_mul, abs_of_nonneg ht0, ht, one_div, inv_mul_le_iff₀ hk]
      exact h
    have h2 : |x + t * (y - x) - y| ≤ k * δ := by
      rw [show x + t * (y - x) - y = (1 - t) * (x - y) by ring, abs_mul, abs_of_nonneg (by linarith)]
      have : 1 - t = k / (k + 1) := by rw [ht]; field_simp; ring
      rw [this]
      calc (k : ℝ) / (k + 1) * |x - y| ≤ k / (k + 1) * ((k + 1) * δ) := by gcongr
        _ = k * δ := by field_simp
    have h3 := hf x hx _ hz h1
    have h4 := ih _ hz y hy h2
    have h5 := abs_sub_le (f x) (f (x + t * (y - x))) (f y)
    push_cast
    linarith

theorem osc_linear (hab : a ≤ b) (hδ : 0 < δ) (hf : ∀ x ∈ Icc a b, ∀ y ∈ Icc a b, |x - y| ≤ δ → |f x - f y| ≤ ε) {x y : ℝ} (hx : x ∈ Icc a b) (hy : y ∈ Icc a b) :
    |f x - f y| ≤ ε + ε / δ * |x - y| := by
  have hε : 0 ≤ ε := (abs_nonneg _).trans (hf x hx x hx (by simpa using hδ.le))
  have h1 := osc_steps hab hf ⌈|x - y| / δ⌉₊ x hx y hy (by rw [← div_le_iff₀ hδ]; exact Nat.le_ceil _)
  refine h1.trans ?_
  have h2 := Nat.ceil_lt_add_one (div_nonneg (abs_nonneg (x - y)) hδ.le)
  calc (⌈|x - y| / δ⌉₊ : ℝ) * ε ≤ (|x - y| / δ + 1) * ε := mul_le_mul_of_nonneg_right h2.le hε
    _ = _ := by field_simp; ring

/-- a Lipschitz function close to `f` -/
theorem exists_lipschitz (hab : a ≤ b) (hδ : 0 < δ) (hf : ∀ x ∈ Icc a b, ∀ y ∈ Icc a b, |x - y| ≤ δ → |f x - f y| ≤ ε) :
    ∃ g : ℝ → ℝ, (∀ x y, |g x - g y| ≤ ε / δ * |x - y|) ∧ ∀ x ∈ Icc a b, |f x - g x| ≤ ε / 2 := by
  have ha : a ∈ Icc a b := ⟨le_rfl, hab⟩
  have hε : 0 ≤ ε := (abs_nonneg _).trans (hf a ha a ha (by simpa using hδ.le))
  have hK : 0 ≤ ε / δ := by positivity
  have : Nonempty (Icc a b) := ⟨⟨a, ha⟩⟩
  have hbelow : ∀ x : ℝ, ∀ y : Icc a b, f a - ε - ε / δ * (b - a) ≤ f y + ε / δ * |x - y| := fun x y => by
    have h1 := (abs_le.1 (osc_linear hab hδ hf ha y.2)).2
    have h2 : |a - y| ≤ b - a := by rw [abs_le]; constructor <;> linarith [y.2.1, y.2.2]
    have h3 := mul_le_mul_of_nonneg_left h2 hK
    have h4 : 0 ≤ ε / δ * |x - y| := by positivity
    linarith
  have hbdd : ∀ x : ℝ, BddBelow (range fun y : Icc a b => f y + ε / δ * |x - y|) := fun x => ⟨_, by rintro _ ⟨y, rfl⟩; exact hbelow x y⟩
  have hlip : ∀ x y : ℝ, (⨅ z : Icc a b, f z + ε / δ * |x - z|) - (⨅ z : Icc a b, f z + ε / δ * |y - z|) ≤ ε / δ * |x - y| := fun x y => by
    rw [sub_le_iff_le_add, ← sub_le_iff_le_add']
    refine le_ciInf fun z => ?_
    have h1 := ciInf_le (hbdd x) z
    have h2 := mul_le_mul_of_nonneg_left (abs_sub_le x y z) hK
    linarith
  refine ⟨fun x => (⨅ z : Icc a b, f z + ε / δ * |x - z|) + ε / 2, fun x y => ?_, fun x hx => ?_⟩
  · have h1 := hlip x y
    have h2 := hlip y x
    rw [abs_sub_comm y x] at h2
    rw [abs_le]
    constructor <;> linarith
  · have h1 := ciInf_le (hbdd x) ⟨x, hx⟩
    have h2 : f x - ε ≤ ⨅ z : Icc a b, f z + ε / δ * |x - z| := le_ciInf fun z => by
      have := (abs_le.1 (osc_linear hab hδ hf hx z.2)).2
      linarith
    simp only [sub_self, abs_zero, mul_zero, add_zero] at h1
    rw [abs_le]
    constructor <;> linarith

theorem pi_sq_le : Real.pi ^ 2 ≤ 9.9 := by
  have h1 := Real.pi_lt_d4
  have h2 := Real.pi_pos
  nlinarith

/-- transport to [-1, 1], with the Lipschitz function and the polynomial of degree `m` -/
theorem modulus_transport (hab : a ≠ b) (m : ℕ) (hf : OscillationBetween f a b (|b - a| / (m + 2)) ε) :
    ∃ (g : ℝ → ℝ) (p : ℝ[X]), p.natDegree ≤ m ∧ (∀ x y, |g x - g y| ≤ (m + 2) / 2 * ε * |x - y|) ∧ ∀ x ∈ Icc (-1 : ℝ) 1,
      |f ((b - a) / 2 * x + (a + b) / 2) - g x| ≤ ε / 2 ∧ |g x - p.eval x| ≤ 2.475 * ε ∧ |f ((b - a) / 2 * x + (a + b) / 2) - p.eval x| ≤ 3 * ε := by
  have hl : 0 < |b - a| := abs_pos.2 (sub_ne_zero.2 hab.symm)
  have hm : (0 : ℝ) < m + 2 := by positivity
  have hε : 0 ≤ ε := (abs_nonneg _).trans (hf a left_mem_uIcc a left_mem_uIcc (by simp; positivity))
  obtain ⟨g, hg1, hg2⟩ := exists_lipschitz (a := -1) (b := 1) (f := fun x => f ((b - a) / 2 * x + (a + b) / 2)) (δ := 2 / (m + 2)) (ε := ε) (by norm_num) (by positivity) (fun x hx y hy h => by
    refine hf _ (mem_uIcc_of_Icc hx) _ (mem_uIcc_of_Icc hy) ?_
    rw [show (b - a) / 2 * x + (a + b) / 2 - ((b - a) / 2 * y + (a + b) / 2) = (b - a) / 2 * (x - y) by ring, abs_mul, abs_div, abs_two]
    calc |b - a| / 2 * |x - y| ≤ |b - a| / 2 * (2 / (m + 2)) := by gcongr
      _ = _ := by field_simp)
  have e : ε / (2 / ((m : ℝ) + 2)) = (m + 2) / 2 * ε := by field_simp
  rw [e] at hg1
  obtain ⟨p, hp1, hp2⟩ := lipschitz_approx (fun x _ y _ => hg1 x y) m
  refine ⟨g, p, hp1, hg1, fun x hx => ?_⟩
  have h1 := hg2 x hx
  have h2 : |g x - p.eval x| ≤ 2.475 * ε := by
    refine (hp2 x hx).trans ?_
    have : Real.pi ^ 2 * (((m : ℝ) + 2) / 2 * ε) / (2 * (m + 2)) = Real.pi ^ 2 / 4 * ε := by field_simp; ring
    rw [this]
    have := mul_le_mul_of_nonneg_right pi_sq_le hε
    linarith
  refine ⟨h1, h2, ?_⟩
  have := abs_sub_le (f ((b - a) / 2 * x + (a + b) / 2)) (g x) (p.eval x)
  linarith

end GaussQuad.Jackson
