import Verif.Props.NewtonCotesF64
import Verif.Props.MonotoneError

/-!
# C126: monotone integrands in binary64: an error bound from two values of the integrand
-/

set_option exponentiation.threshold 3000

namespace GaussQuad.Props
open Spec F64 FloatOps MeasureTheory

section
variable [L : Libm]

/-- `q` is the result of `integrate` or, with some schedule, of `par_integrate`, and has at most `d` additions in a row -/
def ResultWithin (r : NodeRule) (R : AnyRule F64) (a b : F64) (f : F64 → F64) (d : ℕ) (q : F64) : Prop :=
  q = R.value a b f ∧ r.degree ≤ d ∨
    ∃ s s', q = R.parIntegrate s s' a b f ∧ roundings s r.degree ≤ d ∧ roundings s (r.degree - 1) ≤ d ∧ roundings s' (r.degree - 1) ≤ d

/-- C126: for a function that is increasing or decreasing between the bounds, the two values the program returns at the bounds give a bound on the
error, for each of the three rules -/
theorem C126_monotone (r : NodeRule) (a b : F64) (f : F64 → F64) (g : ℝ → ℝ) (B M Λ η : ℝ) (ha : a.isFinite = true) (hb : b.isFinite = true)
    (haB : |(a.val : ℝ)| ≤ B) (hbB : |(b.val : ℝ)| ≤ B) (hB : B ≤ 2 ^ 400)
    (hg : MonotoneOn g (Set.uIcc (a.val : ℝ) b.val) ∨ AntitoneOn g (Set.uIcc (a.val : ℝ) b.val)) (d : ℕ) (hd : d ≤ 10 ^ 12) :
    let ρ := 4 / 10 ^ 15 * B + 1 / 2 ^ 1000; let κ := η + Λ * ρ
    let E := |(b.val : ℝ) - a.val| * (1.01 * κ + (1.2 / 10 ^ 15 + 1.2 / 10 ^ 16 * d) * (M + κ)) + 1 / 2 ^ 500
    let D := |((f b).val : ℝ) - (f a).val| + 2 * η
    Computes f g (around a.val b.val ρ) M Λ η → 0 ≤ Λ → M + κ ≤ 2 ^ 400 →
    (∀ q, ResultWithin r (.midpoint r) a b f d q →
      q.isFinite = true ∧ |(∫ x in (a.val : ℝ)..b.val, g x) - q.val| ≤ |(b.val : ℝ) - a.val| / (2 * r.degree) * D + E) ∧
    (∀ q, ResultWithin r (.trapezoid r) a b f d q →
      q.isFinite = true ∧ |(∫ x in (a.val : ℝ)..b.val, g x) - q.val| ≤ |(b.val : ℝ) - a.val| / (2 * r.degree) * D + E) ∧
    (∀ q, ResultWithin r (.simpson r) a b f d q →
      q.isFinite = true ∧ |(∫ x in (a.val : ℝ)..b.val, g x) - q.val| ≤ |(b.val : ℝ) - a.val| / (3 * r.degree) * D + E) := by
  intro ρ κ E D hf hΛ hK
  obtain ⟨-, n1, n2, n3, -⟩ := Setting.nonneg (⟨ha, hb, haB, hbB, hB, hf, hΛ, hK⟩ : Setting a b f g B M Λ η)
  have h0 : 0 ≤ M + κ := add_nonneg n1 n2
  have hρ : 0 ≤ ρ := n3
  have hD : |g b.val - g a.val| ≤ D := by
    have ea := (hf.accurate a ha ⟨by linarith [min_le_left (a.val : ℝ) b.val], by linarith [le_max_left (a.val : ℝ) b.val]⟩).2
    have eb := (hf.accurate b hb ⟨by linarith [min_le_right (a.val : ℝ) b.val], by linarith [le_max_right (a.val : ℝ) b.val]⟩).2
    change _ ≤ |((f b).val : ℝ) - (f a).val| + 2 * η
    have e1 := le_abs_self (((f b).val : ℝ) - (f a).val)
    have e2 := neg_abs_le (((f b).val : ℝ) - (f a).val)
    rw [_root_.abs_le] at ea eb ⊢
    constructor <;> linarith [ea.1, ea.2, eb.1, eb.2]
  have hbase : ∀ {c x : ℝ} {d' : ℕ}, c ≤ 1.2 / 10 ^ 15 → d' ≤ d →
      x ≤ |(b.val : ℝ) - a.val| * (1.01 * κ + (c + 1.2 / 10 ^ 16 * d') * (M + κ)) + 1 / 2 ^ 500 → x ≤ E := by
    intro c x d' hc hd' hx
    refine hx.trans ?_
    have h1 : (d' : ℝ) ≤ d := by exact_mod_cast hd'
    have h2 : (c + 1.2 / 10 ^ 16 * (d' : ℝ)) * (M + κ) ≤ (1.2 / 10 ^ 15 + 1.2 / 10 ^ 16 * d) * (M + κ) :=
      mul_le_mul_of_nonneg_right (by linarith) h0
    have := mul_le_mul_of_nonneg_left (add_le_add_right h2 (1.01 * κ)) (abs_nonneg ((b.val : ℝ) - a.val))
    change _ ≤ |(b.val : ℝ) - a.val| * (1.01 * κ + (1.2 / 10 ^ 15 + 1.2 / 10 ^ 16 * d) * (M + κ)) + 1 / 2 ^ 500
    linarith
  have final : ∀ {c I J x : ℝ}, 0 ≤ c → |I - J| ≤ c * |g b.val - g a.val| → |x - J| ≤ E → |I - x| ≤ c * D + E := by
    intro c I J x hc h1 h2
    have h3 := mul_le_mul_of_nonneg_left hD hc
    have := abs_sub_le I J x
    rw [abs_sub_comm J x] at this
    linarith
  have hr : (0 : ℝ) < r.degree := by exact_mod_cast r.pos
  obtain ⟨c1, c2, c3⟩ := C73_newton_cotes hg r
  rw [value_midpoint] at c1
  rw [value_trapezoid] at c2
  have hS : (AnyRule.simpson r).value (a.val : ℝ) b.val g = ((b.val : ℝ) - a.val) / r.degree / 6 * ∑ i ∈ Finset.range r.degree,
      (g (a.val + i * (((b.val : ℝ) - a.val) / r.degree)) + 4 * g (a.val + (i + 1 / 2) * (((b.val : ℝ) - a.val) / r.degree)) +
        g (a.val + (i + 1) * (((b.val : ℝ) - a.val) / r.degree))) := by
    rw [value_simpson_sum, Finset.mul_sum]
    exact Finset.sum_congr rfl fun i _ => by ring
  rw [hS] at c3
  obtain ⟨m1, m2, -⟩ := C58_midpoint r a b f g B M Λ η ha hb haB hbB hB hf hΛ hK
  obtain ⟨t1, t2, -⟩ := C58_trapezoid r a b f g B M Λ η ha hb haB hbB hB hf hΛ hK
  obtain ⟨s1, s2, -⟩ := C58_simpson r a b f g B M Λ η ha hb haB hbB hB hf hΛ hK
  have p2 : 0 ≤ |(b.val : ℝ) - a.val| / (2 * r.degree) := by positivity
  have p3 : 0 ≤ |(b.val : ℝ) - a.val| / (3 * r.degree) := by positivity
  refine ⟨fun q hq => ?_, fun q hq => ?_, fun q hq => ?_⟩
  · rcases hq with ⟨rfl, hq⟩ | ⟨s, s', rfl, q1, q2, q3⟩
    · exact ⟨m1.1, final p2 c1 (hbase (by norm_num) hq m1.2)⟩
    · exact ⟨(m2 s s' (q1.trans hd)).1, final p2 c1 (hbase (by norm_num) q1 (m2 s s' (q1.trans hd)).2)⟩
  · rcases hq with ⟨rfl, hq⟩ | ⟨s, s', rfl, q1, q2, q3⟩
    · exact ⟨t1.1, final p2 c2 (hbase (by norm_num) (by omega) t1.2)⟩
    · exact ⟨(t2 s s' (q2.trans hd)).1, final p2 c2 (hbase (by norm_num) q2 (t2 s s' (q2.trans hd)).2)⟩
  · rcases hq with ⟨rfl, hq⟩ | ⟨s, s', rfl, q1, q2, q3⟩
    · exact ⟨s1.1, final p3 c3 (hbase le_rfl (by omega) s1.2)⟩
    · exact ⟨(s2 s s' (q2.trans hd) (q3.trans hd)).1, final p3 c3 (hbase le_rfl (max_le q2 q3) (s2 s s' (q2.trans hd) (q3.trans hd)).2)⟩

end

/-- `x²` increases on `[0, 1]`: Simpson's rule with ten panels, in parallel, whatever the library -/
example (L : Libm) : ∃ r : NodeRule, r.degree = 10 ∧
    |1 / 3 - (((AnyRule.simpson r).parIntegrate (.split 4 .leaf .leaf) (.split 5 .leaf .leaf) (F64.zero false) (lit 1.0) fun y => F64.mul y y).val : ℝ)| ≤
      1 / 30 * (|((F64.mul (lit 1.0) (lit 1.0)).val : ℝ) - ((F64.mul (F64.zero false) (F64.zero false)).val : ℝ)| + 2 / 10 ^ 15) + 2 / 10 ^ 14 := by
  have h1 : (((lit 1.0 : F64)).val : ℝ) = 1 := by rw [(lit_one_isNat (L := L)).2]; norm_num
  have h0 : ((F64.zero false).val : ℝ) = 0 := by rw [val_zero]; simp
  refine ⟨⟨10, by norm_num, by norm_num⟩, rfl, ?_⟩
  have sq : Computes (fun y => F64.mul y y) (fun t => t ^ 2) (around (F64.zero false).val ((lit 1.0 : F64)).val (4 / 10 ^ 15 * 1 + 1 / 2 ^ 1000)) 1.1 2.1 (1 / 10 ^ 15) := by
    rw [h0, h1]; exact square_computes
  have hm : MonotoneOn (fun t : ℝ => t ^ 2) (Set.uIcc ((F64.zero false).val : ℝ) ((lit 1.0 : F64)).val) := by
    rw [h0, h1, Set.uIcc_of_le zero_le_one]
    exact fun x hx y _ h => pow_le_pow_left₀ hx.1 h 2
  obtain ⟨-, -, e⟩ := C126_monotone ⟨10, by norm_num, by norm_num⟩ (F64.zero false) (lit 1.0) (fun y => F64.mul y y) (fun t => t ^ 2) 1 1.1 2.1
    (1 / 10 ^ 15) (zero_isFinite false) (lit_one_isNat (L := L)).1 (by rw [h0]; norm_num) (by rw [h1]; norm_num) (by norm_num)
    (.inl hm) 20 (by norm_num) sq (by norm_num) (by norm_num)
  obtain ⟨-, e⟩ := e _ (.inr ⟨.split 4 .leaf .leaf, .split 5 .leaf .leaf, rfl, by decide, by decide, by decide⟩)
  rw [h0, h1, show (∫ x in (0 : ℝ)..1, x ^ 2) = 1 / 3 by norm_num [integral_pow]] at e
  refine e.trans ?_
  norm_num

end GaussQuad.Props
