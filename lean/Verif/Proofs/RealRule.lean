import Verif.Proofs.Protocol
import Verif.Spec.RealRule
import Mathlib.Algebra.BigOperators.Ring.List
import Mathlib.Algebra.BigOperators.Group.Finset.Basic
import Mathlib.Algebra.BigOperators.Intervals
import Mathlib.Tactic.Ring
import Mathlib.Tactic.Linarith
import Mathlib.Tactic.FieldSimp
import Mathlib.Tactic.NormNum

namespace GaussQuad
open Spec FloatOps

theorem foldl_real_add (l : List ℝ) : ∀ z : ℝ, l.foldl (fun x y : ℝ => x +ᶠ y) z = z + l.sum := by
  induction l with
  | nil => intro z; simp
  | cons x l ih => intro z; rw [List.foldl_cons, ih]; simp [add_assoc]

theorem foldl_sumInit (l : List ℝ) : l.foldl (fun x y : ℝ => x +ᶠ y) sumInit = l.sum := by
  rw [foldl_real_add]; simp

theorem sumList_real (l : List ℝ) : sumList l = l.sum := foldl_sumInit l

theorem weighted_map (ps : List (ℝ × ℝ)) (g : ℝ × ℝ → ℝ) :
    weighted ps (ps.map g) = (ps.map fun p => g p * p.2).sum := by
  unfold weighted
  rw [foldl_sumInit]
  congr 1
  rw [List.zipWith_map_left, List.zipWith_self]; rfl

theorem real_half : ((0.5 : ℚ) : ℝ) = 1 / 2 := by norm_num
theorem real_lit_half : (lit 0.5 : ℝ) = 1 / 2 := by simp; norm_num
theorem real_lit_one : (lit 1.0 : ℝ) = 1 := by simp; norm_num
theorem real_lit_two : (lit 2.0 : ℝ) = 2 := by simp; norm_num
theorem real_lit_four : (lit 4.0 : ℝ) = 4 := by simp; norm_num
theorem real_lit_six : (lit 6.0 : ℝ) = 6 := by simp; norm_num
theorem real_lit_zero : (lit 0.0 : ℝ) = 0 := by simp; norm_num

theorem sum_map_range (n : ℕ) (g : ℕ → ℝ) : ((List.range n).map g).sum = ∑ i ∈ Finset.range n, g i := by
  induction n with
  | zero => simp
  | succ n ih => rw [List.range_succ, List.map_append, List.sum_append, ih, Finset.sum_range_succ]; simp

theorem quad_gauss (ps : List (ℝ × ℝ)) (a b : ℝ) (f : ℝ → ℝ) :
    quad (ps.map fun p => ((b - a) / 2 * p.1 + (a + b) / 2, (b - a) / 2 * p.2)) f
      = (b - a) / 2 * (ps.map fun p => f ((b - a) / 2 * p.1 + (a + b) / 2) * p.2).sum := by
  unfold quad
  rw [List.map_map, ← List.sum_map_mul_left]
  congr 1
  apply List.map_congr_left
  intro p _
  simp only [Function.comp_apply]; ring

theorem transform_eq (x a b : ℝ) : (lit 0.5 : ℝ) *ᶠ ((b -ᶠ a) *ᶠ x +ᶠ (b +ᶠ a)) = (b - a) / 2 * x + (a + b) / 2 := by
  rw [real_lit_half]; simp only [real_mul, real_add, real_sub]; ring

/-- sums of even and odd indexed terms -/
theorem sum_range_two_mul_succ (g : ℕ → ℝ) (d : ℕ) :
    ∑ j ∈ Finset.range (2 * d + 1), g j = ∑ i ∈ Finset.range (d + 1), g (2 * i) + ∑ i ∈ Finset.range d, g (2 * i + 1) := by
  induction d with
  | zero => simp
  | succ d ih =>
    rw [show 2 * (d + 1) + 1 = (2 * d + 1) + 1 + 1 by ring, Finset.sum_range_succ, Finset.sum_range_succ, ih,
      Finset.sum_range_succ _ (d + 1), Finset.sum_range_succ (fun i => g (2 * i + 1)) d]
    rw [show 2 * d + 1 + 1 = 2 * (d + 1) by ring]; ring

theorem value_real (R : AnyRule ℝ) (a b : ℝ) (f : ℝ → ℝ) : R.value a b f = quad (rulePairs a b R) f := by
  rw [value_eq]
  cases R with
  | midpoint r =>
    simp only [combine, points, rulePairs, quad, foldl_sumInit, List.map_map]
    rw [sum_map_range, sum_map_range, real_mul, Finset.sum_mul]
    apply Finset.sum_congr rfl
    intro i _
    simp only [Function.comp_apply, real_add, real_mul, real_div, real_sub, real_ofNat, real_lit_half]
    rw [mul_comm]
    congr 2; ring
  | trapezoid r =>
    obtain ⟨d, hd⟩ : ∃ d, r.degree = d + 1 := ⟨r.degree - 1, by have := r.pos; omega⟩
    simp only [combine, points, rulePairs, quad, List.map_append, List.map_cons, List.map_nil, List.map_map, hd]
    simp only [List.cons_append, List.nil_append, List.getD_cons_zero, List.getD_cons_succ, List.drop_succ_cons,
      List.drop_zero, foldl_sumInit, Nat.add_sub_cancel]
    rw [sum_map_range, sum_map_range, Finset.sum_range_succ, Finset.sum_range_succ']
    simp only [Function.comp_apply, real_add, real_mul, real_div, real_sub, real_ofNat, real_lit_two]
    have h1 : ∀ i ∈ Finset.range d, (if i + 1 = 0 ∨ i + 1 = d + 1 then (1 / 2 : ℝ) else 1) *
        ((b - a) / ((d + 1 : ℕ) : ℝ)) * f (a + ((i + 1 : ℕ) : ℝ) * ((b - a) / ((d + 1 : ℕ) : ℝ))) =
        ((b - a) / ((d + 1 : ℕ) : ℝ)) * f (a + ((i + 1 : ℕ) : ℝ) * ((b - a) / ((d + 1 : ℕ) : ℝ))) := by
      intro i hi; rw [Finset.mem_range] at hi; rw [if_neg (by omega), one_mul]
    rw [Finset.sum_congr rfl h1]
    have h2 : a + ((d + 1 : ℕ) : ℝ) * ((b - a) / ((d + 1 : ℕ) : ℝ)) = b := by
      have : ((d + 1 : ℕ) : ℝ) ≠ 0 := by positivity
      field_simp; ring
    rw [h2]
    simp only [one_mul, true_or, or_true, if_true, Nat.cast_zero, zero_mul, add_zero, ← Finset.mul_sum]
    ring
  | simpson r =>
    obtain ⟨d, hd⟩ : ∃ d, r.degree = d + 1 := ⟨r.degree - 1, by have := r.pos; omega⟩
    simp only [combine, points, rulePairs, quad, List.map_append, List.map_cons, List.map_nil, List.map_map, hd,
      Nat.add_sub_cancel]
    set h : ℝ := (b - a) / ((d + 1 : ℕ) : ℝ) with hh
    have hd0 : ((d + 1 : ℕ) : ℝ) ≠ 0 := by positivity
    set Y1 := (List.range d).map (f ∘ fun i => a +ᶠ ofNat (i + 1) *ᶠ ((b -ᶠ a) /ᶠ ofNat (d + 1))) with hY1
    have hl1 : Y1.length = d := by simp [hY1]
    rw [List.range_succ (n := d), List.map_append, List.map_cons, List.map_nil]
    set Y2 := (List.range d).map (f ∘ fun i => a +ᶠ (lit 2.0 *ᶠ ofNat (i + 1) -ᶠ lit 1.0) *ᶠ ((b -ᶠ a) /ᶠ ofNat (d + 1)) /ᶠ lit 2.0) with hY2
    have hl2 : Y2.length = d := by simp [hY2]
    set y1 := (f ∘ fun i : ℕ => a +ᶠ (lit 2.0 *ᶠ ofNat (i + 1) -ᶠ lit 1.0) *ᶠ ((b -ᶠ a) /ᶠ ofNat (d + 1)) /ᶠ lit 2.0) d with hy1
    have e1 : (Y1 ++ (Y2 ++ [y1]) ++ [f a, f b]).take d = Y1 := by simp [← hl1]
    have e2 : ((Y1 ++ (Y2 ++ [y1]) ++ [f a, f b]).drop d).take d = Y2 := by
      have h1 : (Y1 ++ (Y2 ++ [y1]) ++ [f a, f b]).drop d = Y2 ++ [y1, f a, f b] := by simp [← hl1]
      rw [h1]; simp [← hl2]
    have e3 : ∀ j, (Y1 ++ (Y2 ++ [y1]) ++ [f a, f b]).getD (2 * d + j) sumInit = [y1, f a, f b].getD j sumInit := by
      intro j
      simp only [List.getD_eq_getElem?_getD, List.append_assoc]
      rw [List.getElem?_append_right (by omega), List.getElem?_append_right (by omega)]
      congr 2
      omega
    rw [e1, e2, show 2 * (d + 1) - 2 = 2 * d + 0 by omega, show 2 * (d + 1) - 1 = 2 * d + 1 by omega]
    rw [show ∀ l : List ℝ, l.getD (2 * (d + 1)) sumInit = l.getD (2 * d + 2) sumInit from fun _ => rfl, e3, e3, e3]
    simp only [List.getD_cons_zero, List.getD_cons_succ, foldl_sumInit]
    rw [hY1, hY2, hy1, sum_map_range, sum_map_range, sum_map_range, sum_range_two_mul_succ, Finset.sum_range_succ,
      Finset.sum_range_succ' _ d, Finset.sum_range_succ _ d]
    simp only [Function.comp_apply, real_add, real_mul, real_div, real_sub, real_ofNat, real_lit_two, real_lit_four,
      real_lit_one, real_lit_six, ← hh]
    have c1 : ∀ i ∈ Finset.range d, simpsonCoeff (d + 1) (2 * (i + 1)) * (h / 6) * f (a + ((2 * (i + 1) : ℕ) : ℝ) * (h / 2))
        = 2 * (h / 6) * f (a + ((i + 1 : ℕ) : ℝ) * h) := by
      intro i hi
      rw [Finset.mem_range] at hi
      have : simpsonCoeff (d + 1) (2 * (i + 1)) = 2 := by
        rw [simpsonCoeff, if_neg (by omega), if_neg (by omega)]
      rw [this]; congr 2; push_cast; ring
    have c2 : ∀ i, simpsonCoeff (d + 1) (2 * i + 1) * (h / 6) * f (a + ((2 * i + 1 : ℕ) : ℝ) * (h / 2))
        = 4 * (h / 6) * f (a + (2 * ((i + 1 : ℕ) : ℝ) - 1) * h / 2) := by
      intro i
      have : simpsonCoeff (d + 1) (2 * i + 1) = 4 := by
        rw [simpsonCoeff, if_neg (by omega), if_pos (by omega)]
      rw [this]; congr 2; push_cast; ring
    have c3 : simpsonCoeff (d + 1) (2 * 0) = 1 := by simp [simpsonCoeff]
    have c4 : simpsonCoeff (d + 1) (2 * (d + 1)) = 1 := by simp [simpsonCoeff]
    rw [Finset.sum_congr rfl c1, Finset.sum_congr rfl (fun i _ => c2 i), c2, c3, c4]
    have h2 : a + ((2 * (d + 1) : ℕ) : ℝ) * (h / 2) = b := by
      rw [hh]; push_cast at hd0 ⊢; field_simp; ring
    rw [h2, ← Finset.mul_sum, ← Finset.mul_sum]
    have h3 : a + ((2 * 0 : ℕ) : ℝ) * (h / 2) = a := by simp
    rw [h3]; ring
  | legendre r =>
    simp only [combine, points, rulePairs, List.map_map, weighted_map, quad_gauss, Function.comp_def, transform_eq]
    rw [real_lit_half]; simp only [real_mul, real_sub]; ring
  | chebyshevFirst r =>
    simp only [combine, points, rulePairs, List.map_map, weighted_map, quad_gauss, Function.comp_def, transform_eq]
    rw [real_lit_half]; simp only [real_mul, real_sub]; ring
  | chebyshevSecond r =>
    simp only [combine, points, rulePairs, List.map_map, weighted_map, quad_gauss, Function.comp_def, transform_eq]
    rw [real_lit_half]; simp only [real_mul, real_sub]; ring
  | jacobi r =>
    simp only [combine, points, rulePairs, List.map_map, weighted_map, quad_gauss, Function.comp_def, transform_eq]
    rw [real_lit_half]; simp only [real_mul, real_sub]; ring
  | hermite r =>
    simp only [combine, points, rulePairs, List.map_map, weighted_map, quad, Function.comp_def]
    congr 1; apply List.map_congr_left; intro p _; ring
  | laguerre r =>
    simp only [combine, points, rulePairs, List.map_map, weighted_map, quad, Function.comp_def]
    congr 1; apply List.map_congr_left; intro p _; ring

end GaussQuad
