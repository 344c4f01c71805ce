import Verif.Proofs.RealRule
import Mathlib.Data.List.Count
import Mathlib.Algebra.Order.BigOperators.Group.List
import Mathlib.Tactic.Positivity

namespace GaussQuad
open Spec FloatOps

/-! ### the functional `quad` -/

theorem quad_linear (L : List (ℝ × ℝ)) (f g : ℝ → ℝ) (s t : ℝ) :
    quad L (fun x => s * f x + t * g x) = s * quad L f + t * quad L g := by
  unfold quad
  induction L with
  | nil => simp
  | cons p L ih => simp only [List.map_cons, List.sum_cons, ih]; ring

theorem quad_add (L : List (ℝ × ℝ)) (f g : ℝ → ℝ) : quad L (fun x => f x + g x) = quad L f + quad L g := by
  have := quad_linear L f g 1 1; simpa using this

theorem quad_smul (L : List (ℝ × ℝ)) (f : ℝ → ℝ) (s : ℝ) : quad L (fun x => s * f x) = s * quad L f := by
  have := quad_linear L f f s 0; simpa using this

theorem quad_comm (L L' : List (ℝ × ℝ)) (f : ℝ → ℝ → ℝ) :
    quad L (fun x => quad L' (fun y => f x y)) = quad L' (fun y => quad L (fun x => f x y)) := by
  induction L with
  | nil => simp [quad]
  | cons p L ih =>
    have h1 : quad (p :: L) (fun x => quad L' (fun y => f x y)) = p.2 * quad L' (f p.1) + quad L (fun x => quad L' (fun y => f x y)) := by
      simp [quad]
    have h2 : ∀ y, quad (p :: L) (fun x => f x y) = p.2 * f p.1 y + quad L (fun x => f x y) := by
      intro y; simp [quad]
    simp only [h1, h2, ih, quad_add, quad_smul]

theorem quad_congr {L : List (ℝ × ℝ)} {f g : ℝ → ℝ} (h : ∀ p ∈ L, f p.1 = g p.1) : quad L f = quad L g := by
  unfold quad
  congr 1
  apply List.map_congr_left
  intro p hp; rw [h p hp]

theorem quad_perm {L L' : List (ℝ × ℝ)} (h : L.Perm L') (f : ℝ → ℝ) : quad L f = quad L' f :=
  (h.map _).sum_eq

theorem quad_mono {L : List (ℝ × ℝ)} {f g : ℝ → ℝ} (hw : ∀ p ∈ L, 0 ≤ p.2) (h : ∀ p ∈ L, f p.1 ≤ g p.1) :
    quad L f ≤ quad L g := by
  unfold quad
  apply List.sum_le_sum
  intro p hp
  exact mul_le_mul_of_nonneg_left (h p hp) (hw p hp)

theorem quad_const (L : List (ℝ × ℝ)) (c : ℝ) : quad L (fun _ => c) = c * (L.map (·.2)).sum := by
  unfold quad
  rw [← List.sum_map_mul_left]; congr 1
  simp [Function.comp_def, mul_comm]

theorem quad_bounds {L : List (ℝ × ℝ)} {f : ℝ → ℝ} {lo hi : ℝ} (hw : ∀ p ∈ L, 0 ≤ p.2)
    (h : ∀ p ∈ L, lo ≤ f p.1 ∧ f p.1 ≤ hi) :
    lo * (L.map (·.2)).sum ≤ quad L f ∧ quad L f ≤ hi * (L.map (·.2)).sum := by
  rw [← quad_const, ← quad_const]
  exact ⟨quad_mono hw fun p hp => (h p hp).1, quad_mono hw fun p hp => (h p hp).2⟩

/-- a list of reals is determined up to order by all its sums -/
theorem perm_of_sums {l l' : List ℝ} (h : ∀ f : ℝ → ℝ, (l.map f).sum = (l'.map f).sum) : l.Perm l' := by
  classical
  rw [List.perm_iff_count]
  intro x
  have key : ∀ l : List ℝ, ((l.count x : ℕ) : ℝ) = (l.map fun y => if y = x then (1 : ℝ) else 0).sum := by
    intro l
    induction l with
    | nil => simp
    | cons y l ih =>
      rw [List.count_cons, List.map_cons, List.sum_cons, ← ih]
      by_cases hy : y = x
      · simp [hy, add_comm]
      · simp [hy]
  have := h fun y => if y = x then (1 : ℝ) else 0
  rw [← key, ← key] at this
  exact_mod_cast this

/-! ### the three Newton-Cotes rules as finite sums -/

theorem value_midpoint (r : NodeRule) (a b : ℝ) (f : ℝ → ℝ) :
    (AnyRule.midpoint r).value a b f =
      (b - a) / r.degree * ∑ i ∈ Finset.range r.degree, f (a + (i + 1 / 2) * ((b - a) / r.degree)) := by
  rw [value_real]
  simp only [rulePairs, quad, List.map_map]
  rw [sum_map_range, Finset.mul_sum]; rfl

theorem value_trapezoid (r : NodeRule) (a b : ℝ) (f : ℝ → ℝ) :
    (AnyRule.trapezoid r).value a b f =
      (b - a) / r.degree * ∑ i ∈ Finset.range r.degree,
        (f (a + i * ((b - a) / r.degree)) + f (a + (i + 1) * ((b - a) / r.degree))) / 2 := by
  rw [value_real]
  obtain ⟨d, hd⟩ : ∃ d, r.degree = d + 1 := ⟨r.degree - 1, by have := r.pos; omega⟩
  simp only [rulePairs, quad, List.map_map, hd]
  rw [sum_map_range]
  set h := (b - a) / ((d + 1 : ℕ) : ℝ)
  simp only [Function.comp_apply, add_div, Finset.sum_add_distrib]
  rw [Finset.sum_range_succ, Finset.sum_range_succ', Finset.sum_range_succ' (fun i : ℕ => f (a + (i : ℝ) * h) / 2),
    Finset.sum_range_succ (fun i : ℕ => f (a + ((i : ℝ) + 1) * h) / 2)]
  have h1 : ∀ i ∈ Finset.range d, (if i + 1 = 0 ∨ i + 1 = d + 1 then (1 / 2 : ℝ) else 1) * h * f (a + ((i + 1 : ℕ) : ℝ) * h)
      = h * (f (a + ((i + 1 : ℕ) : ℝ) * h) / 2) + h * (f (a + ((i : ℝ) + 1) * h) / 2) := by
    intro i hi; rw [Finset.mem_range] at hi; rw [if_neg (by omega)]; push_cast; ring
  rw [Finset.sum_congr rfl h1, Finset.sum_add_distrib, ← Finset.mul_sum, ← Finset.mul_sum]
  simp only [true_or, or_true, if_true]
  push_cast
  ring

theorem value_simpson (r : NodeRule) (a b : ℝ) (f : ℝ → ℝ) :
    (AnyRule.simpson r).value a b f =
      (2 * (AnyRule.midpoint r).value a b f + (AnyRule.trapezoid r).value a b f) / 3 := by
  rw [value_midpoint, value_real, value_trapezoid]
  obtain ⟨d, hd⟩ : ∃ d, r.degree = d + 1 := ⟨r.degree - 1, by have := r.pos; omega⟩
  simp only [rulePairs, quad, List.map_map, hd]
  rw [sum_map_range, sum_range_two_mul_succ]
  set h := (b - a) / ((d + 1 : ℕ) : ℝ) with hh
  simp only [Function.comp_apply, add_div, Finset.sum_add_distrib]
  rw [Finset.sum_range_succ, Finset.sum_range_succ', Finset.sum_range_succ' (fun i : ℕ => f (a + (i : ℝ) * h) / 2),
    Finset.sum_range_succ (fun i : ℕ => f (a + ((i : ℝ) + 1) * h) / 2)]
  have c1 : ∀ i ∈ Finset.range d, simpsonCoeff (d + 1) (2 * (i + 1)) * (h / 6) * f (a + ((2 * (i + 1) : ℕ) : ℝ) * (h / 2))
      = h / 3 * (f (a + ((i + 1 : ℕ) : ℝ) * h) / 2) + h / 3 * (f (a + ((i : ℝ) + 1) * h) / 2) := by
    intro i hi
    rw [Finset.mem_range] at hi
    have : simpsonCoeff (d + 1) (2 * (i + 1)) = 2 := by
      rw [simpsonCoeff, if_neg (by omega), if_neg (by omega)]
    have e : a + ((2 * (i + 1) : ℕ) : ℝ) * (h / 2) = a + ((i : ℝ) + 1) * h := by push_cast; ring
    rw [this, e]; push_cast; ring
  have c2 : ∀ i ∈ Finset.range (d + 1), simpsonCoeff (d + 1) (2 * i + 1) * (h / 6) * f (a + ((2 * i + 1 : ℕ) : ℝ) * (h / 2))
      = 2 / 3 * h * f (a + ((i : ℝ) + 1 / 2) * h) := by
    intro i _
    have : simpsonCoeff (d + 1) (2 * i + 1) = 4 := by
      rw [simpsonCoeff, if_neg (by omega), if_pos (by omega)]
    have e : a + ((2 * i + 1 : ℕ) : ℝ) * (h / 2) = a + ((i : ℝ) + 1 / 2) * h := by push_cast; ring
    rw [this, e]; ring
  have c3 : simpsonCoeff (d + 1) (2 * 0) = 1 := by simp [simpsonCoeff]
  have c4 : simpsonCoeff (d + 1) (2 * (d + 1)) = 1 := by simp [simpsonCoeff]
  rw [Finset.sum_congr rfl c1, Finset.sum_congr rfl c2, c3, c4, Finset.sum_add_distrib, ← Finset.mul_sum,
    ← Finset.mul_sum, ← Finset.mul_sum]
  have e1 : a + ((2 * (d + 1) : ℕ) : ℝ) * (h / 2) = a + ((d : ℝ) + 1) * h := by push_cast; ring
  rw [e1]
  push_cast
  ring_nf

/-! ### gauss rules with bounds -/

/-- the rules whose points are affine images of stored nodes -/
def AnyRule.gaussPairs : AnyRule ℝ → Option (List (ℝ × ℝ))
  | .legendre r => some r.nodeWeightPairs
  | .chebyshevFirst r => some r.nodeWeightPairs
  | .chebyshevSecond r => some r.nodeWeightPairs
  | .jacobi r => some r.nodeWeightPairs
  | _ => none

theorem value_gauss {R : AnyRule ℝ} {ps : List (ℝ × ℝ)} (h : R.gaussPairs = some ps) (a b : ℝ) (f : ℝ → ℝ) :
    R.value a b f = (b - a) / 2 * quad ps (fun x => f ((b - a) / 2 * x + (a + b) / 2)) := by
  rw [value_real]
  cases R <;> simp only [AnyRule.gaussPairs, Option.some.injEq, reduceCtorEq] at h
  all_goals
    subst h
    simp only [rulePairs]
    rw [quad_gauss]
    unfold quad
    congr 2
    apply List.map_congr_left
    intro p _; ring

theorem parSumMap_real {α : Type} (s : Schedule) : ∀ (xs : List α) (g : α → ℝ), parSumMap s xs g = (xs.map g).sum := by
  induction s with
  | leaf => intro xs g; simp [parSumMap, sumReduce, sumList_real]
  | split mid l r ihl ihr =>
    intro xs g
    simp only [parSumMap, sumReduce, sumList_real, ihl, ihr, List.sum_cons, List.sum_nil, add_zero]
    rw [← List.sum_append, ← List.map_append, List.take_append_drop]

/-- sequential pure sum in the model over ℝ -/
theorem sumMap_real {α : Type} (xs : List α) (g : α → ℝ) :
    Id.run (sumMapM xs (fun x => (pure (g x) : Id ℝ))) = (xs.map g).sum := by
  have := sumMapM_id xs (fun x => (pure (g x) : Id ℝ))
  rw [sumList_real] at this
  exact this

end GaussQuad
