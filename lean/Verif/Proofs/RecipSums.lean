import Verif.Spec.Classical
import Mathlib.Tactic.FieldSimp
import Mathlib.Tactic.LinearCombination
import Mathlib.Algebra.BigOperators.Group.List.Basic
import Mathlib.Algebra.Order.BigOperators.Group.List

/-!
# Sums over all pairs of points
-/

namespace GaussQuad
open Spec

theorem map_sum_add (l : List ℝ) (f g : ℝ → ℝ) : (l.map fun x => f x + g x).sum = (l.map f).sum + (l.map g).sum := by
  induction l with
  | nil => simp
  | cons a t ih => simp only [List.map_cons, List.sum_cons, ih]; ring

theorem map_sum_mul (l : List ℝ) (c : ℝ) (f : ℝ → ℝ) : (l.map fun x => c * f x).sum = c * (l.map f).sum := by
  induction l with
  | nil => simp
  | cons a t ih => simp only [List.map_cons, List.sum_cons, ih]; ring

theorem map_sum_const (l : List ℝ) (c : ℝ) : (l.map fun _ => c).sum = l.length * c := by
  induction l with
  | nil => simp
  | cons a t ih => simp only [List.map_cons, List.sum_cons, ih, List.length_cons]; push_cast; ring

theorem map_sum_congr {l : List ℝ} {f g : ℝ → ℝ} (h : ∀ x ∈ l, f x = g x) : (l.map f).sum = (l.map g).sum := by rw [List.map_congr_left h]

theorem repulsion_cons {y x : ℝ} {l : List ℝ} (h : x ≠ y) : repulsion (y :: l) x = 1 / (x - y) + repulsion l x := by
  unfold repulsion
  rw [List.erase_cons_tail (by simpa using fun e : y = x => h e.symm)]
  simp

theorem repulsion_head {y : ℝ} {l : List ℝ} : repulsion (y :: l) y = (l.map fun z => 1 / (y - z)).sum := by
  unfold repulsion
  rw [List.erase_cons_head]

/-- the forces between the points cancel, and their virial is the number of pairs -/
theorem repulsion_sums : ∀ {l : List ℝ}, l.Nodup → (l.map fun x => repulsion l x).sum = 0 ∧ (l.map fun x => x * repulsion l x).sum = (l.length : ℝ) * (l.length - 1) / 2
  | [], _ => by simp
  | y :: l, h => by
    obtain ⟨hy, hl⟩ := List.nodup_cons.1 h
    obtain ⟨i1, i2⟩ := repulsion_sums hl
    have hne : ∀ x ∈ l, x ≠ y := fun x hx e => hy (e ▸ hx)
    constructor
    · rw [List.map_cons, List.sum_cons, repulsion_head, map_sum_congr (fun x hx => repulsion_cons (hne x hx)), map_sum_add, i1, add_zero, ← map_sum_add,
        map_sum_congr (g := fun _ => 0) (fun x hx => ?_), map_sum_const, mul_zero]
      have e1 : x - y ≠ 0 := sub_ne_zero.2 (hne x hx)
      have e2 : y - x ≠ 0 := sub_ne_zero.2 (hne x hx).symm
      field_simp
      ring
    · rw [List.map_cons, List.sum_cons, repulsion_head, map_sum_congr (f := fun x => x * repulsion (y :: l) x) (g := fun x => x * (1 / (x - y)) + x * repulsion l x) (fun x hx => by rw [repulsion_cons (hne x hx)]; ring), map_sum_add, i2,
        ← add_assoc, ← map_sum_mul, ← map_sum_add, map_sum_congr (g := fun _ => 1) (fun x hx => ?_), map_sum_const, List.length_cons]
      · push_cast; ring
      · have e1 : x - y ≠ 0 := sub_ne_zero.2 (hne x hx)
        have e2 : y - x ≠ 0 := sub_ne_zero.2 (hne x hx).symm
        field_simp
        ring

/-- one member of a sum of nonnegative terms -/
theorem le_map_sum {l : List ℝ} {f : ℝ → ℝ} (h : ∀ x ∈ l, 0 ≤ f x) {x : ℝ} (hx : x ∈ l) : f x ≤ (l.map f).sum := by
  induction l with
  | nil => exact absurd hx (by simp)
  | cons a t ih =>
    rw [List.map_cons, List.sum_cons]
    have ht : 0 ≤ (t.map f).sum := List.sum_nonneg fun y hy => by
      obtain ⟨z, hz, rfl⟩ := List.mem_map.1 hy
      exact h z (List.mem_cons_of_mem _ hz)
    rcases List.mem_cons.1 hx with rfl | hx
    · linarith
    · have := ih (fun z hz => h z (List.mem_cons_of_mem _ hz)) hx
      have := h a List.mem_cons_self
      linarith

/-- points with the Laguerre equations -/
theorem laguerre_recip {l : List ℝ} (hl : l.Nodup) {α : ℝ} (hα : -1 < α) (h : ∀ x ∈ l, 0 < x ∧ 2 * x * repulsion l x = x - (α + 1)) :
    (l.map fun x => 1 / x).sum = l.length / (α + 1) := by
  have h1 := (repulsion_sums hl).1
  have hα1 : α + 1 ≠ 0 := by linarith
  rw [map_sum_congr (g := fun x => 1 / 2 + (-(α + 1) / 2) * (1 / x)) (fun x hx => by
    obtain ⟨h0, h2⟩ := h x hx
    field_simp
    linarith), map_sum_add, map_sum_const, map_sum_mul] at h1
  rw [eq_div_iff hα1]
  linarith

/-- points with the Jacobi equations -/
theorem jacobi_recip {l : List ℝ} (hl : l.Nodup) {α β : ℝ} (hα : -1 < α) (hβ : -1 < β) (h : ∀ x ∈ l, -1 < x ∧ x < 1 ∧ 2 * (1 - x ^ 2) * repulsion l x = α - β + (α + β + 2) * x) :
    (l.map fun x => 1 / (1 - x)).sum = l.length * (l.length + α + β + 1) / (2 * (α + 1)) ∧ (l.map fun x => 1 / (1 + x)).sum = l.length * (l.length + α + β + 1) / (2 * (β + 1)) := by
  obtain ⟨h1, h2⟩ := repulsion_sums hl
  have hα1 : α + 1 ≠ 0 := by linarith
  have hβ1 : β + 1 ≠ 0 := by linarith
  have h3 : (l.map fun x => (1 + x) * repulsion l x).sum = (l.length : ℝ) * (l.length - 1) / 2 := by
    rw [map_sum_congr (g := fun x => repulsion l x + x * repulsion l x) (fun x _ => by ring), map_sum_add, h1, h2, zero_add]
  have h4 : (l.map fun x => (1 - x) * repulsion l x).sum = -((l.length : ℝ) * (l.length - 1) / 2) := by
    rw [map_sum_congr (g := fun x => repulsion l x + (-1) * (x * repulsion l x)) (fun x _ => by ring), map_sum_add, map_sum_mul, h1, h2]; ring
  constructor
  · rw [map_sum_congr (g := fun x => (-(α + β + 2) / 2) + (α + 1) * (1 / (1 - x))) (fun x hx => by
      obtain ⟨x1, x2, h5⟩ := h x hx
      have e : 1 - x ≠ 0 := by linarith
      have h6 : 2 * (1 - x) * ((1 + x) * repulsion l x) = α - β + (α + β + 2) * x := by rw [← h5]; ring
      field_simp
      linarith), map_sum_add, map_sum_const, map_sum_mul] at h3
    rw [eq_div_iff (by positivity)]
    linarith
  · rw [map_sum_congr (g := fun x => ((α + β + 2) / 2) + (-(β + 1)) * (1 / (1 + x))) (fun x hx => by
      obtain ⟨x1, x2, h5⟩ := h x hx
      have e : 1 + x ≠ 0 := by linarith
      have h6 : 2 * (1 + x) * ((1 - x) * repulsion l x) = α - β + (α + β + 2) * x := by rw [← h5]; ring
      field_simp
      linarith), map_sum_add, map_sum_const, map_sum_mul] at h4
    rw [eq_div_iff (by positivity)]
    linarith

end GaussQuad
