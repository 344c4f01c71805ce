import Verif.Proofs.F64Monotone
import Verif.Props.NewtonCotesF64
import Verif.Props.Convex

/-!
# C125: the integral of a convex integrand is enclosed by results computed in binary64
-/

set_option exponentiation.threshold 3000

namespace GaussQuad.Props
open Spec F64 FloatOps MeasureTheory

/-- the bound on the roundings of both rules, with `d` additions in a row -/
noncomputable def enclosureError (w M κ : ℝ) (d : ℕ) : ℝ := |w| * (1.01 * κ + (9 / 10 ^ 16 + 1.2 / 10 ^ 16 * d) * (M + κ)) + 1 / 2 ^ 500

theorem enclosureError_of_midpoint {w M κ x : ℝ} {d d' : ℕ} (hd : d' ≤ d) (h0 : 0 ≤ M + κ)
    (hx : x ≤ |w| * (1.01 * κ + (5 / 10 ^ 16 + 1.2 / 10 ^ 16 * d') * (M + κ)) + 1 / 2 ^ 500) : x ≤ enclosureError w M κ d := by
  refine hx.trans ?_
  unfold enclosureError
  have h1 : (d' : ℝ) ≤ d := by exact_mod_cast hd
  have h2 : (5 / 10 ^ 16 + 1.2 / 10 ^ 16 * (d' : ℝ)) * (M + κ) ≤ (9 / 10 ^ 16 + 1.2 / 10 ^ 16 * d) * (M + κ) :=
    mul_le_mul_of_nonneg_right (by norm_num; linarith) h0
  have := mul_le_mul_of_nonneg_left (add_le_add_right h2 (1.01 * κ)) (abs_nonneg w)
  linarith

theorem enclosureError_of_trapezoid {w M κ x : ℝ} {d d' : ℕ} (hd : d' ≤ d) (h0 : 0 ≤ M + κ)
    (hx : x ≤ |w| * (1.01 * κ + (9 / 10 ^ 16 + 1.2 / 10 ^ 16 * d') * (M + κ)) + 1 / 2 ^ 500) : x ≤ enclosureError w M κ d := by
  refine hx.trans ?_
  unfold enclosureError
  have h1 : (d' : ℝ) ≤ d := by exact_mod_cast hd
  have h2 : (9 / 10 ^ 16 + 1.2 / 10 ^ 16 * (d' : ℝ)) * (M + κ) ≤ (9 / 10 ^ 16 + 1.2 / 10 ^ 16 * d) * (M + κ) :=
    mul_le_mul_of_nonneg_right (by linarith) h0
  have := mul_le_mul_of_nonneg_left (add_le_add_right h2 (1.01 * κ)) (abs_nonneg w)
  linarith

section
variable [L : Libm]

/-- C125: with `n` panels, the binary64 results of the midpoint and the trapezoid rule enclose the integral of a convex function up to `E`, and half
their difference bounds the error of the midpoint result.  `par_integrate` may be used for either; `d` bounds the number of additions in a row. -/
theorem C125_convex (r : NodeRule) (a b : F64) (f : F64 → F64) (g : ℝ → ℝ) (B M Λ η : ℝ) (ha : a.isFinite = true) (hb : b.isFinite = true)
    (haB : |(a.val : ℝ)| ≤ B) (hbB : |(b.val : ℝ)| ≤ B) (hB : B ≤ 2 ^ 400) (hab : (a.val : ℝ) ≤ b.val)
    (hg : ConvexOn ℝ (Set.Icc (a.val : ℝ) b.val) g) (d : ℕ) (hd : d ≤ 10 ^ 12) (m t : F64)
    (hm : m = (AnyRule.midpoint r).value a b f ∧ r.degree ≤ d ∨ ∃ s s', m = (AnyRule.midpoint r).parIntegrate s s' a b f ∧ roundings s r.degree ≤ d)
    (ht : t = (AnyRule.trapezoid r).value a b f ∧ r.degree ≤ d + 1 ∨
      ∃ s s', t = (AnyRule.trapezoid r).parIntegrate s s' a b f ∧ roundings s (r.degree - 1) ≤ d) :
    let ρ := 4 / 10 ^ 15 * B + 1 / 2 ^ 1000; let κ := η + Λ * ρ; let E := enclosureError ((b.val : ℝ) - a.val) M κ d
    Computes f g (around a.val b.val ρ) M Λ η → 0 ≤ Λ → M + κ ≤ 2 ^ 400 →
    m.isFinite = true ∧ t.isFinite = true ∧
    (m.val : ℝ) - E ≤ ∫ x in (a.val : ℝ)..b.val, g x ∧
    (∫ x in (a.val : ℝ)..b.val, g x) ≤ ((m.val : ℝ) + t.val) / 2 + E ∧
    (∫ x in (a.val : ℝ)..b.val, g x) ≤ (t.val : ℝ) + E ∧
    |(m.val : ℝ) - ∫ x in (a.val : ℝ)..b.val, g x| ≤ |(t.val : ℝ) - m.val| / 2 + E := by
  intro ρ κ E hf hΛ hK
  obtain ⟨-, n1, n2, -, -⟩ := Setting.nonneg (⟨ha, hb, haB, hbB, hB, hf, hΛ, hK⟩ : Setting a b f g B M Λ η)
  have h0 : 0 ≤ M + κ := add_nonneg n1 n2
  obtain ⟨-, c1, c2, c3, -⟩ := C84_convex r hab hg
  rw [value_midpoint] at c1 c2
  rw [value_trapezoid] at c2 c3
  obtain ⟨m1, m2, -⟩ := C58_midpoint r a b f g B M Λ η ha hb haB hbB hB hf hΛ hK
  obtain ⟨t1, t2, -⟩ := C58_trapezoid r a b f g B M Λ η ha hb haB hbB hB hf hΛ hK
  have em : m.isFinite = true ∧ |(m.val : ℝ) - ((b.val : ℝ) - a.val) / r.degree *
      ∑ i ∈ Finset.range r.degree, g (a.val + (i + 1 / 2) * (((b.val : ℝ) - a.val) / r.degree))| ≤ E := by
    rcases hm with ⟨rfl, hm⟩ | ⟨s, s', rfl, hm⟩
    · exact ⟨m1.1, enclosureError_of_midpoint hm h0 m1.2⟩
    · exact ⟨(m2 s s' (hm.trans hd)).1, enclosureError_of_midpoint hm h0 (m2 s s' (hm.trans hd)).2⟩
  have et : t.isFinite = true ∧ |(t.val : ℝ) - ((b.val : ℝ) - a.val) / r.degree * ∑ i ∈ Finset.range r.degree,
      (g (a.val + i * (((b.val : ℝ) - a.val) / r.degree)) + g (a.val + (i + 1) * (((b.val : ℝ) - a.val) / r.degree))) / 2| ≤ E := by
    rcases ht with ⟨rfl, ht⟩ | ⟨s, s', rfl, ht⟩
    · exact ⟨t1.1, enclosureError_of_trapezoid (by omega) h0 t1.2⟩
    · exact ⟨(t2 s s' (ht.trans hd)).1, enclosureError_of_trapezoid ht h0 (t2 s s' (ht.trans hd)).2⟩
  obtain ⟨fm, em⟩ := em
  obtain ⟨ft, et⟩ := et
  rw [_root_.abs_le] at em et
  refine ⟨fm, ft, by linarith [em.2], by linarith [em.1, et.1], by linarith [et.1], ?_⟩
  have := le_abs_self ((t.val : ℝ) - m.val)
  rw [_root_.abs_le]
  constructor
  · linarith [em.1, et.1]
  · linarith [em.2, abs_nonneg ((t.val : ℝ) - m.val)]

/-- C125 for a concave function -/
theorem C125_concave (r : NodeRule) (a b : F64) (f : F64 → F64) (g : ℝ → ℝ) (B M Λ η : ℝ) (ha : a.isFinite = true) (hb : b.isFinite = true)
    (haB : |(a.val : ℝ)| ≤ B) (hbB : |(b.val : ℝ)| ≤ B) (hB : B ≤ 2 ^ 400) (hab : (a.val : ℝ) ≤ b.val)
    (hg : ConcaveOn ℝ (Set.Icc (a.val : ℝ) b.val) g) (d : ℕ) (hd : d ≤ 10 ^ 12) (m t : F64)
    (hm : m = (AnyRule.midpoint r).value a b f ∧ r.degree ≤ d ∨ ∃ s s', m = (AnyRule.midpoint r).parIntegrate s s' a b f ∧ roundings s r.degree ≤ d)
    (ht : t = (AnyRule.trapezoid r).value a b f ∧ r.degree ≤ d + 1 ∨
      ∃ s s', t = (AnyRule.trapezoid r).parIntegrate s s' a b f ∧ roundings s (r.degree - 1) ≤ d) :
    let ρ := 4 / 10 ^ 15 * B + 1 / 2 ^ 1000; let κ := η + Λ * ρ; let E := enclosureError ((b.val : ℝ) - a.val) M κ d
    Computes f g (around a.val b.val ρ) M Λ η → 0 ≤ Λ → M + κ ≤ 2 ^ 400 →
    m.isFinite = true ∧ t.isFinite = true ∧
    (t.val : ℝ) - E ≤ ∫ x in (a.val : ℝ)..b.val, g x ∧
    ((m.val : ℝ) + t.val) / 2 - E ≤ ∫ x in (a.val : ℝ)..b.val, g x ∧
    (∫ x in (a.val : ℝ)..b.val, g x) ≤ (m.val : ℝ) + E ∧
    |(m.val : ℝ) - ∫ x in (a.val : ℝ)..b.val, g x| ≤ |(t.val : ℝ) - m.val| / 2 + E := by
  intro ρ κ E hf hΛ hK
  obtain ⟨-, n1, n2, -, -⟩ := Setting.nonneg (⟨ha, hb, haB, hbB, hB, hf, hΛ, hK⟩ : Setting a b f g B M Λ η)
  have h0 : 0 ≤ M + κ := add_nonneg n1 n2
  obtain ⟨-, c1, c2, c3, -⟩ := C84_concave r hab hg
  rw [value_midpoint] at c2 c3
  rw [value_trapezoid] at c1 c2
  obtain ⟨m1, m2, -⟩ := C58_midpoint r a b f g B M Λ η ha hb haB hbB hB hf hΛ hK
  obtain ⟨t1, t2, -⟩ := C58_trapezoid r a b f g B M Λ η ha hb haB hbB hB hf hΛ hK
  have em : m.isFinite = true ∧ |(m.val : ℝ) - ((b.val : ℝ) - a.val) / r.degree *
      ∑ i ∈ Finset.range r.degree, g (a.val + (i + 1 / 2) * (((b.val : ℝ) - a.val) / r.degree))| ≤ E := by
    rcases hm with ⟨rfl, hm⟩ | ⟨s, s', rfl, hm⟩
    · exact ⟨m1.1, enclosureError_of_midpoint hm h0 m1.2⟩
    · exact ⟨(m2 s s' (hm.trans hd)).1, enclosureError_of_midpoint hm h0 (m2 s s' (hm.trans hd)).2⟩
  have et : t.isFinite = true ∧ |(t.val : ℝ) - ((b.val : ℝ) - a.val) / r.degree * ∑ i ∈ Finset.range r.degree,
      (g (a.val + i * (((b.val : ℝ) - a.val) / r.degree)) + g (a.val + (i + 1) * (((b.val : ℝ) - a.val) / r.degree))) / 2| ≤ E := by
    rcases ht with ⟨rfl, ht⟩ | ⟨s, s', rfl, ht⟩
    · exact ⟨t1.1, enclosureError_of_trapezoid (by omega) h0 t1.2⟩
    · exact ⟨(t2 s s' (ht.trans hd)).1, enclosureError_of_trapezoid ht h0 (t2 s s' (ht.trans hd)).2⟩
  obtain ⟨fm, em⟩ := em
  obtain ⟨ft, et⟩ := et
  rw [_root_.abs_le] at em et
  refine ⟨fm, ft, by linarith [et.2], by linarith [em.2, et.2], by linarith [em.1], ?_⟩
  have := neg_abs_le ((t.val : ℝ) - m.val)
  rw [_root_.abs_le]
  constructor
  · linarith [em.1, abs_nonneg ((t.val : ℝ) - m.val)]
  · linarith [em.2, et.2]

/-- C125: Simpson's rule: a third of the difference of the two other results bounds its error, for a convex or a concave function -/
theorem C125_simpson (r : NodeRule) (a b : F64) (f : F64 → F64) (g : ℝ → ℝ) (B M Λ η : ℝ) (ha : a.isFinite = true) (hb : b.isFinite = true)
    (haB : |(a.val : ℝ)| ≤ B) (hbB : |(b.val : ℝ)| ≤ B) (hB : B ≤ 2 ^ 400) (hab : (a.val : ℝ) ≤ b.val)
    (hg : ConvexOn ℝ (Set.Icc (a.val : ℝ) b.val) g ∨ ConcaveOn ℝ (Set.Icc (a.val : ℝ) b.val) g) (d : ℕ) (hd : d ≤ 10 ^ 12) (m t q : F64)
    (hm : m = (AnyRule.midpoint r).value a b f ∧ r.degree ≤ d ∨ ∃ s s', m = (AnyRule.midpoint r).parIntegrate s s' a b f ∧ roundings s r.degree ≤ d)
    (ht : t = (AnyRule.trapezoid r).value a b f ∧ r.degree ≤ d + 1 ∨
      ∃ s s', t = (AnyRule.trapezoid r).parIntegrate s s' a b f ∧ roundings s (r.degree - 1) ≤ d)
    (hq : q = (AnyRule.simpson r).value a b f ∧ r.degree ≤ d + 1 ∨
      ∃ s s', q = (AnyRule.simpson r).parIntegrate s s' a b f ∧ roundings s (r.degree - 1) ≤ d ∧ roundings s' (r.degree - 1) ≤ d) :
    let ρ := 4 / 10 ^ 15 * B + 1 / 2 ^ 1000; let κ := η + Λ * ρ
    let E := |(b.val : ℝ) - a.val| * (1.01 * κ + (1.2 / 10 ^ 15 + 1.2 / 10 ^ 16 * d) * (M + κ)) + 1 / 2 ^ 500
    Computes f g (around a.val b.val ρ) M Λ η → 0 ≤ Λ → M + κ ≤ 2 ^ 400 →
    q.isFinite = true ∧ |(q.val : ℝ) - ∫ x in (a.val : ℝ)..b.val, g x| ≤ |(t.val : ℝ) - m.val| / 3 + 2 * E := by
  intro ρ κ E hf hΛ hK
  obtain ⟨-, n1, n2, -, -⟩ := Setting.nonneg (⟨ha, hb, haB, hbB, hB, hf, hΛ, hK⟩ : Setting a b f g B M Λ η)
  have h0 : 0 ≤ M + κ := add_nonneg n1 n2
  set X := (AnyRule.midpoint r).value (a.val : ℝ) b.val g with hX
  set Y := (AnyRule.trapezoid r).value (a.val : ℝ) b.val g with hY
  have hbase : ∀ {c x : ℝ} {d' : ℕ}, c ≤ 1.2 / 10 ^ 15 → d' ≤ d →
      x ≤ |(b.val : ℝ) - a.val| * (1.01 * κ + (c + 1.2 / 10 ^ 16 * d') * (M + κ)) + 1 / 2 ^ 500 → x ≤ E := by
    intro c x d' hc hd' hx
    refine hx.trans ?_
    have h1 : (d' : ℝ) ≤ d := by exact_mod_cast hd'
    have h2 : (c + 1.2 / 10 ^ 16 * (d' : ℝ)) * (M + κ) ≤ (1.2 / 10 ^ 15 + 1.2 / 10 ^ 16 * d) * (M + κ) :=
      mul_le_mul_of_nonneg_right (by linarith) h0
    have := mul_le_mul_of_nonneg_left (add_le_add_right h2 (1.01 * κ)) (abs_nonneg ((b.val : ℝ) - a.val))
    change _ ≤ |(b.val : ℝ) - a.val| * (1.01 * κ + (1.2 / 10 ^ 15 + 1.2 / 10 ^ 16 * d) * (M + κ)) + 1 / 2 ^ 500
    linarith
  obtain ⟨m1, m2, -⟩ := C58_midpoint r a b f g B M Λ η ha hb haB hbB hB hf hΛ hK
  obtain ⟨t1, t2, -⟩ := C58_trapezoid r a b f g B M Λ η ha hb haB hbB hB hf hΛ hK
  obtain ⟨s1, s2, -⟩ := C58_simpson r a b f g B M Λ η ha hb haB hbB hB hf hΛ hK
  have hS : ((b.val : ℝ) - a.val) / r.degree / 6 * ∑ i ∈ Finset.range r.degree, (g (a.val + i * (((b.val : ℝ) - a.val) / r.degree)) +
      4 * g (a.val + (i + 1 / 2) * (((b.val : ℝ) - a.val) / r.degree)) + g (a.val + (i + 1) * (((b.val : ℝ) - a.val) / r.degree))) = (2 * X + Y) / 3 := by
    rw [hX, hY, ← value_simpson, value_simpson_sum, Finset.mul_sum]
    exact Finset.sum_congr rfl fun i _ => by ring
  have em : |(m.val : ℝ) - X| ≤ E := by
    rw [hX, value_midpoint]
    rcases hm with ⟨rfl, hm⟩ | ⟨s, s', rfl, hm⟩
    · exact hbase (by norm_num) hm m1.2
    · exact hbase (by norm_num) hm (m2 s s' (hm.trans hd)).2
  have et : |(t.val : ℝ) - Y| ≤ E := by
    rw [hY, value_trapezoid]
    rcases ht with ⟨rfl, ht⟩ | ⟨s, s', rfl, ht⟩
    · exact hbase (by norm_num) (by omega) t1.2
    · exact hbase (by norm_num) ht (t2 s s' (ht.trans hd)).2
  have eq : q.isFinite = true ∧ |(q.val : ℝ) - (2 * X + Y) / 3| ≤ E := by
    rw [← hS]
    rcases hq with ⟨rfl, hq⟩ | ⟨s, s', rfl, hq, hq'⟩
    · exact ⟨s1.1, hbase le_rfl (by omega) s1.2⟩
    · exact ⟨(s2 s s' (hq.trans hd) (hq'.trans hd)).1, hbase le_rfl (max_le hq hq') (s2 s s' (hq.trans hd) (hq'.trans hd)).2⟩
  obtain ⟨fq, eq⟩ := eq
  refine ⟨fq, ?_⟩
  have e1 := le_abs_self ((t.val : ℝ) - m.val)
  have e2 := neg_abs_le ((t.val : ℝ) - m.val)
  rw [_root_.abs_le] at em et eq ⊢
  rcases hg with hg | hg
  · obtain ⟨-, c1, c2, -⟩ := C84_convex r hab hg
    rw [← hX] at c1 c2
    rw [← hY] at c2
    constructor <;> linarith [em.1, em.2, et.1, et.2, eq.1, eq.2]
  · obtain ⟨-, -, c1, c2, -⟩ := C84_concave r hab hg
    rw [← hX] at c1 c2
    rw [← hY] at c1
    constructor <;> linarith [em.1, em.2, et.1, et.2, eq.1, eq.2]

end

/-- `∫₀¹ x² = 1/3` by Simpson's rule with ten panels, bounded by the two other results -/
example (L : Libm) : ∃ r : NodeRule, r.degree = 10 ∧
    |(((AnyRule.simpson r).value (F64.zero false) (lit 1.0) fun y => F64.mul y y).val : ℝ) - 1 / 3| ≤
      |(((AnyRule.trapezoid r).value (F64.zero false) (lit 1.0) fun y => F64.mul y y).val : ℝ) -
        (((AnyRule.midpoint r).value (F64.zero false) (lit 1.0) fun y => F64.mul y y).val : ℝ)| / 3 + 4 / 10 ^ 14 := by
  have h1 : (((lit 1.0 : F64)).val : ℝ) = 1 := by rw [(lit_one_isNat (L := L)).2]; norm_num
  have h0 : ((F64.zero false).val : ℝ) = 0 := by rw [val_zero]; simp
  refine ⟨⟨10, by norm_num, by norm_num⟩, rfl, ?_⟩
  have sq : Computes (fun y => F64.mul y y) (fun t => t ^ 2) (around (F64.zero false).val ((lit 1.0 : F64)).val (4 / 10 ^ 15 * 1 + 1 / 2 ^ 1000)) 1.1 2.1 (1 / 10 ^ 15) := by
    rw [h0, h1]; exact square_computes
  have hc : ConvexOn ℝ (Set.Icc ((F64.zero false).val : ℝ) ((lit 1.0 : F64)).val) fun t => t ^ 2 :=
    (even_two.convexOn_pow (𝕜 := ℝ)).subset (Set.subset_univ _) (convex_Icc _ _)
  obtain ⟨-, e⟩ := C125_simpson ⟨10, by norm_num, by norm_num⟩ (F64.zero false) (lit 1.0) (fun y => F64.mul y y) (fun t => t ^ 2) 1 1.1 2.1
    (1 / 10 ^ 15) (zero_isFinite false) (lit_one_isNat (L := L)).1 (by rw [h0]; norm_num) (by rw [h1]; norm_num) (by norm_num)
    (by rw [h0, h1]; norm_num) (.inl hc) 20 (by norm_num) _ _ _ (.inl ⟨rfl, by norm_num⟩) (.inl ⟨rfl, by norm_num⟩) (.inl ⟨rfl, by norm_num⟩) sq
    (by norm_num) (by norm_num)
  rw [h0, h1, show (∫ x in (0 : ℝ)..1, x ^ 2) = 1 / 3 by norm_num [integral_pow]] at e
  refine e.trans ?_
  norm_num

/-- `∫₀¹ x² = 1/3` is enclosed by the two results with ten panels, whatever the library; the midpoint rule in parallel -/
example (L : Libm) : ∃ r : NodeRule, r.degree = 10 ∧
    (((AnyRule.midpoint r).parIntegrate (.split 4 .leaf .leaf) .leaf (F64.zero false) (lit 1.0) fun y => F64.mul y y).val : ℝ) - 2 / 10 ^ 14 ≤ 1 / 3 ∧
    (1 / 3 : ℝ) ≤ (((AnyRule.trapezoid r).value (F64.zero false) (lit 1.0) fun y => F64.mul y y).val : ℝ) + 2 / 10 ^ 14 := by
  have h1 : (((lit 1.0 : F64)).val : ℝ) = 1 := by rw [(lit_one_isNat (L := L)).2]; norm_num
  have h0 : ((F64.zero false).val : ℝ) = 0 := by rw [val_zero]; simp
  refine ⟨⟨10, by norm_num, by norm_num⟩, rfl, ?_⟩
  have sq : Computes (fun y => F64.mul y y) (fun t => t ^ 2) (around (F64.zero false).val ((lit 1.0 : F64)).val (4 / 10 ^ 15 * 1 + 1 / 2 ^ 1000)) 1.1 2.1 (1 / 10 ^ 15) := by
    rw [h0, h1]; exact square_computes
  have hc : ConvexOn ℝ (Set.Icc ((F64.zero false).val : ℝ) ((lit 1.0 : F64)).val) fun t => t ^ 2 :=
    (even_two.convexOn_pow (𝕜 := ℝ)).subset (Set.subset_univ _) (convex_Icc _ _)
  obtain ⟨-, -, e1, -, e2, -⟩ := C125_convex ⟨10, by norm_num, by norm_num⟩ (F64.zero false) (lit 1.0) (fun y => F64.mul y y) (fun t => t ^ 2) 1 1.1 2.1
    (1 / 10 ^ 15) (zero_isFinite false) (lit_one_isNat (L := L)).1 (by rw [h0]; norm_num) (by rw [h1]; norm_num) (by norm_num)
    (by rw [h0, h1]; norm_num) hc 20 (by norm_num) _ _ (.inr ⟨.split 4 .leaf .leaf, .leaf, rfl, by decide⟩) (.inl ⟨rfl, by norm_num⟩) sq (by norm_num) (by norm_num)
  rw [h0, h1, show (∫ x in (0 : ℝ)..1, x ^ 2) = 1 / 3 by norm_num [integral_pow]] at e1 e2
  have hE : enclosureError (1 - 0) 1.1 (1 / 10 ^ 15 + 2.1 * (4 / 10 ^ 15 * 1 + 1 / 2 ^ 1000)) 20 ≤ 2 / 10 ^ 14 := by
    unfold enclosureError; norm_num
  exact ⟨by linarith, by linarith⟩

/-- `∫₀¹ -x² = -1/3`: the two results the other way round -/
example (L : Libm) : ∃ r : NodeRule, r.degree = 10 ∧
    (((AnyRule.trapezoid r).value (F64.zero false) (lit 1.0) fun y => F64.neg (F64.mul y y)).val : ℝ) - 2 / 10 ^ 14 ≤ -1 / 3 ∧
    (-1 / 3 : ℝ) ≤ (((AnyRule.midpoint r).value (F64.zero false) (lit 1.0) fun y => F64.neg (F64.mul y y)).val : ℝ) + 2 / 10 ^ 14 := by
  have h1 : (((lit 1.0 : F64)).val : ℝ) = 1 := by rw [(lit_one_isNat (L := L)).2]; norm_num
  have h0 : ((F64.zero false).val : ℝ) = 0 := by rw [val_zero]; simp
  refine ⟨⟨10, by norm_num, by norm_num⟩, rfl, ?_⟩
  have sq : Computes (fun y => F64.neg (F64.mul y y)) (fun t => -t ^ 2) (around (F64.zero false).val ((lit 1.0 : F64)).val (4 / 10 ^ 15 * 1 + 1 / 2 ^ 1000))
      1.1 2.1 (1 / 10 ^ 15) := by
    rw [h0, h1]
    refine ⟨fun t ht => ?_, fun s hs t ht => ?_, fun y hy hyI => ⟨(square_computes.accurate y hy hyI).1, ?_⟩⟩
    · rw [abs_neg]; exact square_computes.bound t ht
    · rw [← neg_sub', abs_neg]; exact square_computes.lipschitz s hs t ht
    · rw [show (F64.neg (F64.mul y y)).val = -(F64.mul y y).val from neg_val _, Rat.cast_neg, ← neg_sub', abs_neg]
      exact (square_computes.accurate y hy hyI).2
  have hc : ConcaveOn ℝ (Set.Icc ((F64.zero false).val : ℝ) ((lit 1.0 : F64)).val) fun t => -t ^ 2 :=
    ((even_two.convexOn_pow (𝕜 := ℝ)).subset (Set.subset_univ _) (convex_Icc _ _)).neg
  obtain ⟨-, -, e1, -, e2, -⟩ := C125_concave ⟨10, by norm_num, by norm_num⟩ (F64.zero false) (lit 1.0) (fun y => F64.neg (F64.mul y y)) (fun t => -t ^ 2)
    1 1.1 2.1 (1 / 10 ^ 15) (zero_isFinite false) (lit_one_isNat (L := L)).1 (by rw [h0]; norm_num) (by rw [h1]; norm_num) (by norm_num)
    (by rw [h0, h1]; norm_num) hc 20 (by norm_num) _ _ (.inl ⟨rfl, by norm_num⟩) (.inl ⟨rfl, by norm_num⟩) sq (by norm_num) (by norm_num)
  rw [h0, h1, show (∫ x in (0 : ℝ)..1, -x ^ 2) = -1 / 3 by rw [intervalIntegral.integral_neg]; norm_num [integral_pow]] at e1 e2
  have hE : enclosureError (1 - 0) 1.1 (1 / 10 ^ 15 + 2.1 * (4 / 10 ^ 15 * 1 + 1 / 2 ^ 1000)) 20 ≤ 2 / 10 ^ 14 := by
    unfold enclosureError; norm_num
  exact ⟨by linarith, by linarith⟩

end GaussQuad.Props
