import Verif.Proofs.RealRuleLemmas
import Verif.Props.Protocol

/-!
# Algebra of `integrate` in exact arithmetic: C16, C17, C18, C19 (Newton-Cotes), C20 (Newton-Cotes), C22, C25 (exact part), C46
-/

namespace GaussQuad.Props
open Spec FloatOps

/-! ## C16 -/

theorem sums_points (R : AnyRule ℝ) (a b : ℝ) (f : ℝ → ℝ) :
    ((points a b R).map f).sum = (((rulePairs a b R).map (·.1)).map f).sum := by
  cases R with
  | midpoint r =>
    simp only [points, rulePairs, List.map_map]
    congr 1; apply List.map_congr_left; intro i _
    simp only [Function.comp_apply, real_add, real_mul, real_div, real_sub, real_ofNat, real_lit_half]
    congr 1; ring
  | trapezoid r =>
    obtain ⟨d, hd⟩ : ∃ d, r.degree = d + 1 := ⟨r.degree - 1, by have := r.pos; omega⟩
    simp only [points, rulePairs, List.map_map, hd, List.map_append, List.map_cons, List.map_nil, List.cons_append,
      List.nil_append, List.sum_cons, Nat.add_sub_cancel]
    rw [sum_map_range, sum_map_range, Finset.sum_range_succ, Finset.sum_range_succ']
    have h2 : a + ((d + 1 : ℕ) : ℝ) * ((b - a) / ((d + 1 : ℕ) : ℝ)) = b := by
      have : ((d + 1 : ℕ) : ℝ) ≠ 0 := by positivity
      field_simp; ring
    simp only [Function.comp_apply, real_add, real_mul, real_div, real_sub, real_ofNat, h2]
    simp; ring
  | simpson r =>
    obtain ⟨d, hd⟩ : ∃ d, r.degree = d + 1 := ⟨r.degree - 1, by have := r.pos; omega⟩
    simp only [points, rulePairs, List.map_map, hd, List.map_append, List.map_cons, List.map_nil, List.sum_append,
      List.sum_cons, List.sum_nil, Nat.add_sub_cancel]
    rw [sum_map_range, sum_map_range, sum_map_range, sum_range_two_mul_succ, Finset.sum_range_succ _ (d + 1),
      Finset.sum_range_succ' _ d]
    set h := (b - a) / ((d + 1 : ℕ) : ℝ) with hh
    have h2 : a + ((2 * (d + 1) : ℕ) : ℝ) * (h / 2) = b := by
      have : ((d + 1 : ℕ) : ℝ) ≠ 0 := by positivity
      rw [hh]; push_cast at this ⊢; field_simp; ring
    simp only [Function.comp_apply, real_add, real_mul, real_div, real_sub, real_ofNat, real_lit_two, real_lit_one, h2, ← hh]
    have e1 : ∀ i : ℕ, a + ((2 * (i + 1) : ℕ) : ℝ) * (h / 2) = a + ((i + 1 : ℕ) : ℝ) * h := by intro i; push_cast; ring
    have e2 : ∀ i : ℕ, a + ((2 * i + 1 : ℕ) : ℝ) * (h / 2) = a + (2 * ((i + 1 : ℕ) : ℝ) - 1) * h / 2 := by
      intro i; push_cast; ring
    simp only [e1, e2]
    have e3 : a + ((2 * 0 : ℕ) : ℝ) * (h / 2) = a := by simp
    rw [Finset.sum_range_succ' (fun x : ℕ => f (a + ((2 * x : ℕ) : ℝ) * (h / 2))) d,
      Finset.sum_range_succ' (fun x : ℕ => f (a + (2 * ((x + 1 : ℕ) : ℝ) - 1) * h / 2)) d, e3]
    simp only [e1]; ring
  | legendre r =>
    simp only [points, rulePairs, List.map_map, Function.comp_def, transform_eq]
  | chebyshevFirst r =>
    simp only [points, rulePairs, List.map_map, Function.comp_def, transform_eq]
  | chebyshevSecond r =>
    simp only [points, rulePairs, List.map_map, Function.comp_def, transform_eq]
  | jacobi r =>
    simp only [points, rulePairs, List.map_map, Function.comp_def, transform_eq]
  | hermite r => rfl
  | laguerre r => rfl

/-- C16: every rule calls the integrand exactly once at each documented point (as a rearrangement of the documented
list: the calling order is given by `C15_protocol`), and the result is the sum with the documented coefficients. -/
theorem C16_points_and_coefficients (R : AnyRule ℝ) (a b : ℝ) :
    (points a b R).Perm ((rulePairs a b R).map (·.1)) ∧ ∀ f, R.value a b f = quad (rulePairs a b R) f :=
  ⟨perm_of_sums (sums_points R a b), value_real R a b⟩

/-- C16 for a stateful integrand: what is logged is the documented list of points, each exactly once. -/
theorem C16_calls_logged {σ : Type} (R : AnyRule ℝ) (a b : ℝ) (f : Closure σ ℝ) (s : σ) :
    ((R.integrate a b (logged f)).run ([], s)).2.1.Perm ((rulePairs a b R).map (·.1)) := by
  rw [C15_state_threading]
  exact (C16_points_and_coefficients R a b).1

/-- the points of Simpson's rule are pairwise different on a non-empty interval, so "exactly once" is meaningful -/
theorem C16_simpson_points_distinct (r : NodeRule) {a b : ℝ} (hab : a ≠ b) :
    ((rulePairs a b (.simpson r)).map (·.1)).Nodup := by
  simp only [rulePairs, List.map_map]
  refine List.Nodup.map ?_ List.nodup_range
  have hr : ((r.degree : ℕ) : ℝ) ≠ 0 := by have := r.pos; positivity
  intro i j hij
  simp only [Function.comp_apply, add_right_inj] at hij
  have h : (b - a) / r.degree / 2 ≠ 0 := by
    have : b - a ≠ 0 := sub_ne_zero.2 (Ne.symm hab)
    positivity
  exact_mod_cast mul_right_cancel₀ h hij

example : ((rulePairs 0 1 (.simpson ⟨5, by decide, by decide⟩)).map (·.1)).Nodup := C16_simpson_points_distinct _ zero_ne_one

/-- Simpson with two subintervals of `[0, 2]`: points 0, 1/2, 1, 3/2, 2 with coefficients 1/6, 4/6, 2/6, 4/6, 1/6 -/
example (f : ℝ → ℝ) : (AnyRule.simpson ⟨2, by decide, by decide⟩ : AnyRule ℝ).value 0 2 f =
    f 0 / 6 + 4 / 6 * f (1 / 2) + 2 / 6 * f 1 + 4 / 6 * f (3 / 2) + f 2 / 6 := by
  rw [(C16_points_and_coefficients _ 0 2).2]
  simp [quad, rulePairs, List.range_succ, simpsonCoeff]
  norm_num
  ring

/-! ## C18 -/

/-- C18: `integrate` of all nine rule structs is linear in the integrand. -/
theorem C18_linear (R : AnyRule ℝ) (a b s t : ℝ) (f g : ℝ → ℝ) :
    R.value a b (fun x => s * f x + t * g x) = s * R.value a b f + t * R.value a b g := by
  simp only [value_real, quad_linear]

example (R : AnyRule ℝ) (f : ℝ → ℝ) : R.value 0 1 (fun x => 3 * f x + 0 * f x) = 3 * R.value 0 1 f := by
  rw [C18_linear]; ring

/-! ## C17 -/

/-- C17: nested integration with variable inner bounds is the double weighted sum. -/
theorem C17_nested (R₁ R₂ : AnyRule ℝ) (a b : ℝ) (c d : ℝ → ℝ) (f : ℝ → ℝ → ℝ) :
    R₁.value a b (fun x => R₂.value (c x) (d x) (fun y => f x y)) =
      ((rulePairs a b R₁).map fun p => p.2 *
        ((rulePairs (c p.1) (d p.1) R₂).map fun q => q.2 * f p.1 q.1).sum).sum := by
  simp only [value_real]; rfl

/-- C17: for constant bounds the order of nesting does not matter (exact arithmetic). -/
theorem C17_fubini (R₁ R₂ : AnyRule ℝ) (a b c d : ℝ) (f : ℝ → ℝ → ℝ) :
    R₁.value a b (fun x => R₂.value c d (fun y => f x y)) = R₂.value c d (fun y => R₁.value a b (fun x => f x y)) := by
  simp only [value_real]; exact quad_comm _ _ _

example (r s : NodeRule) : (AnyRule.simpson r).value 0 1 (fun x => (AnyRule.midpoint s).value 2 3 (fun y => x * Real.exp y)) =
    (AnyRule.midpoint s).value 2 3 (fun y => (AnyRule.simpson r).value 0 1 (fun x => x * Real.exp y)) :=
  C17_fubini _ _ _ _ _ _ _

/-- C17: the innermost integrand is called `(calls of rule 1) * (calls of rule 2)` times, for every arithmetic and
all inner bounds; the counter is the state of the innermost closure. -/
theorem C17_number_of_calls {F : Type} [FloatOps F] (R₁ R₂ : AnyRule F) (a b : F) (c d : F → F) (f : F → F → F) (k : ℕ)
    (n₂ : ℕ) (h₂ : ∀ x, (points (c x) (d x) R₂).length = n₂) :
    ((R₁.integrate a b (fun x => R₂.integrate (c x) (d x)
      (fun y => (do modify (· + 1); pure (f x y) : StateM ℕ F)))).run k).2 = k + (points a b R₁).length * n₂ := by
  have inner : ∀ (x : F) (ys : List F) (k : ℕ),
      ((ys.mapM (fun y => (do modify (· + 1); pure (f x y) : StateM ℕ F))).run k).2 = k + ys.length := by
    intro x ys
    induction ys with
    | nil => intro k; rfl
    | cons y ys ih =>
      intro k
      rw [List.mapM_cons]
      have := ih (k + 1)
      rw [List.length_cons, show k + (ys.length + 1) = k + 1 + ys.length by omega, ← this]
      rfl
  have inner' : ∀ (x : F) (k : ℕ), ((R₂.integrate (c x) (d x)
      (fun y => (do modify (· + 1); pure (f x y) : StateM ℕ F))).run k).2 = k + n₂ := by
    intro x k
    rw [protocol, ← h₂ x, ← inner x]; rfl
  rw [protocol]
  have outer : ∀ (xs : List F) (k : ℕ), ((xs.mapM (fun x => R₂.integrate (c x) (d x)
      (fun y => (do modify (· + 1); pure (f x y) : StateM ℕ F)))).run k).2 = k + xs.length * n₂ := by
    intro xs
    induction xs with
    | nil => intro k; simp; rfl
    | cons x xs ih =>
      intro k
      rw [List.mapM_cons]
      have h1 := ih (k + n₂)
      rw [List.length_cons, show k + (xs.length + 1) * n₂ = k + n₂ + xs.length * n₂ by ring, ← h1]
      rw [← inner' x k]; rfl
  rw [← outer]; rfl

/-- nesting a 4-point midpoint rule into a degree-3 Simpson rule: 7 · 4 = 28 calls -/
example (f : ℝ → ℝ → ℝ) : (((AnyRule.simpson ⟨3, by decide, by decide⟩ : AnyRule ℝ).integrate 0 1 (fun x =>
    (AnyRule.midpoint ⟨4, by decide, by decide⟩ : AnyRule ℝ).integrate 0 x
      (fun y => (do modify (· + 1); pure (f x y) : StateM ℕ ℝ)))).run 0).2 = 28 := by
  rw [C17_number_of_calls (c := fun _ => 0) (d := fun x => x) (n₂ := 4) _ _ _ _ _ _ (by intro x; simp [points])]
  simp [points]

/-! ## C22 -/

/-- C22 for the Gauss rules with bounds: reduction to `[-1, 1]`. -/
theorem C22_reference_interval (R : AnyRule ℝ) (ps : List (ℝ × ℝ)) (h : R.gaussPairs = some ps) (a b : ℝ) (f : ℝ → ℝ) :
    R.value a b f = (b - a) / 2 * R.value (-1) 1 (fun x => f ((b - a) / 2 * x + (a + b) / 2)) := by
  rw [value_gauss h, value_gauss h]
  have e : ((1 : ℝ) - -1) / 2 = 1 := by norm_num
  have e2 : ((-1 : ℝ) + 1) / 2 = 0 := by norm_num
  simp only [e, e2, one_mul, add_zero]

example (r : Rule ℝ) (f : ℝ → ℝ) : (AnyRule.legendre r).value 0 2 f = (2 - 0) / 2 * (AnyRule.legendre r).value (-1) 1 (fun x => f ((2 - 0) / 2 * x + (0 + 2) / 2)) :=
  C22_reference_interval _ _ rfl _ _ _

/-- Rules that take integration bounds. -/
def HasBounds : AnyRule ℝ → Prop
  | .hermite _ => False
  | .laguerre _ => False
  | _ => True

/-- C22: translating and dilating interval and integrand together. -/
theorem C22_affine (R : AnyRule ℝ) (hR : HasBounds R) (a b t c : ℝ) (f : ℝ → ℝ) :
    R.value (t * a + c) (t * b + c) f = t * R.value a b (fun x => f (t * x + c)) := by
  have key : ∀ ps, R.gaussPairs = some ps →
      R.value (t * a + c) (t * b + c) f = t * R.value a b (fun x => f (t * x + c)) := by
    intro ps h
    rw [value_gauss h, value_gauss h, ← mul_assoc, ← quad_smul, ← quad_smul]
    apply quad_congr
    intro p _
    have : (t * b + c - (t * a + c)) / 2 * p.1 + (t * a + c + (t * b + c)) / 2 =
      t * ((b - a) / 2 * p.1 + (a + b) / 2) + c := by ring
    rw [this]; ring
  have hm : ∀ r : NodeRule, (AnyRule.midpoint r).value (t * a + c) (t * b + c) f = t * (AnyRule.midpoint r).value a b (fun x => f (t * x + c)) := by
    intro r
    rw [value_midpoint, value_midpoint, ← mul_assoc]
    have e : (t * b + c - (t * a + c)) / r.degree = t * ((b - a) / r.degree) := by ring
    rw [e]; congr 1
    apply Finset.sum_congr rfl; intro i _; congr 1; ring
  have ht : ∀ r : NodeRule, (AnyRule.trapezoid r).value (t * a + c) (t * b + c) f = t * (AnyRule.trapezoid r).value a b (fun x => f (t * x + c)) := by
    intro r
    rw [value_trapezoid, value_trapezoid, ← mul_assoc]
    have e : (t * b + c - (t * a + c)) / r.degree = t * ((b - a) / r.degree) := by ring
    rw [e]; congr 1
    apply Finset.sum_congr rfl; intro i _
    congr 2 <;> congr 1 <;> ring
  cases R with
  | midpoint r => exact hm r
  | trapezoid r => exact ht r
  | simpson r => rw [value_simpson, value_simpson, hm, ht]; ring
  | legendre r => exact key _ rfl
  | chebyshevFirst r => exact key _ rfl
  | chebyshevSecond r => exact key _ rfl
  | jacobi r => exact key _ rfl
  | hermite r => exact hR.elim
  | laguerre r => exact hR.elim

example (r : Rule ℝ) (f : ℝ → ℝ) : (AnyRule.legendre r).value 3 5 f = 2 * (AnyRule.legendre r).value 1 2 (fun x => f (2 * x + 1)) := by
  have := C22_affine (.legendre r) trivial 1 2 2 1 f
  norm_num at this ⊢; exact this

/-! ## C20, Newton-Cotes part -/

/-- C20 for midpoint, trapezoid and Simpson: swapping the bounds negates the result. -/
theorem C20_newton_cotes (r : NodeRule) (a b : ℝ) (f : ℝ → ℝ) :
    (AnyRule.midpoint r).value b a f = -(AnyRule.midpoint r).value a b f ∧
    (AnyRule.trapezoid r).value b a f = -(AnyRule.trapezoid r).value a b f ∧
    (AnyRule.simpson r).value b a f = -(AnyRule.simpson r).value a b f := by
  have hr : ((r.degree : ℕ) : ℝ) ≠ 0 := by have := r.pos; positivity
  have hm : (AnyRule.midpoint r).value b a f = -(AnyRule.midpoint r).value a b f := by
    rw [value_midpoint, value_midpoint, ← Finset.sum_range_reflect, ← neg_mul]
    have e : (a - b) / (r.degree : ℝ) = -((b - a) / r.degree) := by ring
    rw [e]; congr 1
    apply Finset.sum_congr rfl
    intro i hi; rw [Finset.mem_range] at hi
    have : ((r.degree - 1 - i : ℕ) : ℝ) = r.degree - 1 - i := by
      rw [Nat.cast_sub (by omega), Nat.cast_sub (by omega)]; simp
    rw [this]; congr 1; field_simp; ring
  have ht : (AnyRule.trapezoid r).value b a f = -(AnyRule.trapezoid r).value a b f := by
    rw [value_trapezoid, value_trapezoid, ← Finset.sum_range_reflect, ← neg_mul]
    have e : (a - b) / (r.degree : ℝ) = -((b - a) / r.degree) := by ring
    rw [e]; congr 1
    apply Finset.sum_congr rfl
    intro i hi; rw [Finset.mem_range] at hi
    have : ((r.degree - 1 - i : ℕ) : ℝ) = r.degree - 1 - i := by
      rw [Nat.cast_sub (by omega), Nat.cast_sub (by omega)]; simp
    rw [this, add_comm (f _)]
    congr 2 <;> congr 1 <;> field_simp <;> ring
  refine ⟨hm, ht, ?_⟩
  rw [value_simpson, value_simpson, hm, ht]; ring

example (r : NodeRule) : (AnyRule.simpson r).value 1 0 Real.exp = -(AnyRule.simpson r).value 0 1 Real.exp := (C20_newton_cotes r 0 1 _).2.2

/-! ## C19 and C43, Newton-Cotes part -/

/-- total coefficient of the Newton-Cotes rules -/
theorem newton_cotes_mass (r : NodeRule) (a b : ℝ) :
    (AnyRule.midpoint r).value a b (fun _ => 1) = b - a ∧ (AnyRule.trapezoid r).value a b (fun _ => 1) = b - a ∧
    (AnyRule.simpson r).value a b (fun _ => 1) = b - a := by
  have hr : ((r.degree : ℕ) : ℝ) ≠ 0 := by have := r.pos; positivity
  have hm : (AnyRule.midpoint r).value a b (fun _ => 1) = b - a := by
    rw [value_midpoint]; simp; field_simp
  have ht : (AnyRule.trapezoid r).value a b (fun _ => 1) = b - a := by
    rw [value_trapezoid]; simp; field_simp
  refine ⟨hm, ht, ?_⟩
  rw [value_simpson, hm, ht]; ring

theorem newton_cotes_coeff_nonneg (r : NodeRule) {a b : ℝ} (hab : a ≤ b) :
    (∀ p ∈ rulePairs a b (.midpoint r), 0 ≤ p.2) ∧ (∀ p ∈ rulePairs a b (.trapezoid r), 0 ≤ p.2) ∧
    (∀ p ∈ rulePairs a b (.simpson r), 0 ≤ p.2) := by
  have h : 0 ≤ (b - a) / (r.degree : ℝ) := div_nonneg (by linarith) (by positivity)
  refine ⟨?_, ?_, ?_⟩
  · intro p hp
    simp only [rulePairs, List.mem_map] at hp
    obtain ⟨i, -, rfl⟩ := hp; exact h
  · intro p hp
    simp only [rulePairs, List.mem_map] at hp
    obtain ⟨i, -, rfl⟩ := hp
    refine mul_nonneg ?_ h
    split <;> norm_num
  · intro p hp
    simp only [rulePairs, List.mem_map] at hp
    obtain ⟨i, -, rfl⟩ := hp
    refine mul_nonneg ?_ (by positivity)
    unfold simpsonCoeff; split
    · norm_num
    · split <;> norm_num

/-- C19 for the Newton-Cotes rules: bounds on the integrand at the evaluation points bound the result. -/
theorem C19_newton_cotes (R : AnyRule ℝ) (r : NodeRule) (hR : R = .midpoint r ∨ R = .trapezoid r ∨ R = .simpson r)
    {a b lo hi : ℝ} (hab : a ≤ b) (f : ℝ → ℝ) (hf : ∀ x ∈ points a b R, lo ≤ f x ∧ f x ≤ hi) :
    lo * (b - a) ≤ R.value a b f ∧ R.value a b f ≤ hi * (b - a) := by
  have hmass : ((rulePairs a b R).map (·.2)).sum = b - a := by
    have h1 := quad_const (rulePairs a b R) 1
    rw [one_mul] at h1
    rw [← h1, ← value_real]
    rcases hR with rfl | rfl | rfl
    · exact (newton_cotes_mass r a b).1
    · exact (newton_cotes_mass r a b).2.1
    · exact (newton_cotes_mass r a b).2.2
  have hw : ∀ p ∈ rulePairs a b R, 0 ≤ p.2 := by
    rcases hR with rfl | rfl | rfl
    · exact (newton_cotes_coeff_nonneg r hab).1
    · exact (newton_cotes_coeff_nonneg r hab).2.1
    · exact (newton_cotes_coeff_nonneg r hab).2.2
  have := quad_bounds (lo := lo) (hi := hi) (f := f) hw (fun p hp =>
    hf p.1 ((C16_points_and_coefficients R a b).1.mem_iff.2 (List.mem_map_of_mem hp)))
  rwa [hmass, ← value_real] at this

/-- non-negative integrands give non-negative results -/
example (r : NodeRule) (f : ℝ → ℝ) (hf : ∀ x, 0 ≤ f x ∧ f x ≤ 7) : 0 ≤ (AnyRule.simpson r).value 2 5 f := by
  have := (C19_newton_cotes (.simpson r) r (by simp) (lo := 0) (hi := 7) (by norm_num : (2 : ℝ) ≤ 5) f (fun x _ => hf x)).1
  simpa using this

/-- C43 for the Newton-Cotes rules: constants are integrated to `c (b - a)`. -/
theorem C43_newton_cotes (r : NodeRule) (a b c : ℝ) :
    (AnyRule.midpoint r).value a b (fun _ => c) = c * (b - a) ∧ (AnyRule.trapezoid r).value a b (fun _ => c) = c * (b - a) ∧
    (AnyRule.simpson r).value a b (fun _ => c) = c * (b - a) := by
  have key : ∀ R : AnyRule ℝ, R.value a b (fun _ => c) = c * R.value a b (fun _ => 1) := by
    intro R; rw [value_real, value_real, ← quad_smul]; simp
  rw [key, key, key, (newton_cotes_mass r a b).1, (newton_cotes_mass r a b).2.1, (newton_cotes_mass r a b).2.2]
  exact ⟨rfl, rfl, rfl⟩

example : (AnyRule.simpson ⟨7, by decide, by decide⟩).value 2 5 (fun _ => (10 : ℝ)) = 30 := by
  rw [(C43_newton_cotes _ _ _ _).2.2]
  norm_num

/-! ## C46 -/

/-- C46: Simpson is the 2:1 blend of midpoint and trapezoid. -/
theorem C46_simpson_blend (r : NodeRule) (a b : ℝ) (f : ℝ → ℝ) :
    (AnyRule.simpson r).value a b f = (2 * (AnyRule.midpoint r).value a b f + (AnyRule.trapezoid r).value a b f) / 3 :=
  value_simpson r a b f

example (r : NodeRule) : (AnyRule.simpson r).value 0 1 Real.exp = (2 * (AnyRule.midpoint r).value 0 1 Real.exp + (AnyRule.trapezoid r).value 0 1 Real.exp) / 3 :=
  C46_simpson_blend r 0 1 _

theorem sum_range_mul (m n : ℕ) (g : ℕ → ℝ) :
    ∑ j ∈ Finset.range (m * n), g j = ∑ k ∈ Finset.range m, ∑ i ∈ Finset.range n, g (k * n + i) := by
  induction m with
  | zero => simp
  | succ m ih =>
    rw [Nat.succ_mul, Finset.sum_range_add, ih, Finset.sum_range_succ]

/-- C46: a rule of degree `m·n` is the sum of degree-`n` rules over `m` equal subintervals. -/
theorem C46_composite (m n : ℕ) (hm : 0 < m) (hn : 0 < n) (hlt : m * n < 2 ^ 32) (hlt' : n < 2 ^ 32) (a b : ℝ) (f : ℝ → ℝ) :
    (AnyRule.midpoint ⟨m * n, Nat.mul_pos hm hn, hlt⟩).value a b f = ∑ k ∈ Finset.range m,
      (AnyRule.midpoint ⟨n, hn, hlt'⟩).value (a + k * ((b - a) / m)) (a + (k + 1) * ((b - a) / m)) f ∧
    (AnyRule.trapezoid ⟨m * n, Nat.mul_pos hm hn, hlt⟩).value a b f = ∑ k ∈ Finset.range m,
      (AnyRule.trapezoid ⟨n, hn, hlt'⟩).value (a + k * ((b - a) / m)) (a + (k + 1) * ((b - a) / m)) f ∧
    (AnyRule.simpson ⟨m * n, Nat.mul_pos hm hn, hlt⟩).value a b f = ∑ k ∈ Finset.range m,
      (AnyRule.simpson ⟨n, hn, hlt'⟩).value (a + k * ((b - a) / m)) (a + (k + 1) * ((b - a) / m)) f := by
  have hm' : (m : ℝ) ≠ 0 := by positivity
  have hn' : (n : ℝ) ≠ 0 := by positivity
  have hstep : ∀ k : ℕ, ((a + (k + 1) * ((b - a) / m)) - (a + k * ((b - a) / m))) / (n : ℝ) = (b - a) / ((m * n : ℕ) : ℝ) := by
    intro k; push_cast; field_simp; ring
  have h1 : (AnyRule.midpoint ⟨m * n, Nat.mul_pos hm hn, hlt⟩).value a b f = ∑ k ∈ Finset.range m,
      (AnyRule.midpoint ⟨n, hn, hlt'⟩).value (a + k * ((b - a) / m)) (a + (k + 1) * ((b - a) / m)) f := by
    simp only [value_midpoint, hstep, sum_range_mul, Finset.mul_sum]
    apply Finset.sum_congr rfl; intro k _
    apply Finset.sum_congr rfl; intro i _
    congr 2; push_cast; field_simp; ring
  have h2 : (AnyRule.trapezoid ⟨m * n, Nat.mul_pos hm hn, hlt⟩).value a b f = ∑ k ∈ Finset.range m,
      (AnyRule.trapezoid ⟨n, hn, hlt'⟩).value (a + k * ((b - a) / m)) (a + (k + 1) * ((b - a) / m)) f := by
    simp only [value_trapezoid, hstep, sum_range_mul, Finset.mul_sum]
    apply Finset.sum_congr rfl; intro k _
    apply Finset.sum_congr rfl; intro i _
    congr 3 <;> congr 1 <;> push_cast <;> field_simp <;> ring
  refine ⟨h1, h2, ?_⟩
  simp only [value_simpson, h1, h2, Finset.mul_sum, ← Finset.sum_add_distrib, div_eq_mul_inv, Finset.sum_mul]

example (f : ℝ → ℝ) : (AnyRule.simpson ⟨2 * 3, by decide, by decide⟩).value 0 1 f = ∑ k ∈ Finset.range 2,
    (AnyRule.simpson ⟨3, by decide, by decide⟩).value (0 + (k : ℝ) * ((1 - 0) / (2 : ℕ))) (0 + ((k : ℝ) + 1) * ((1 - 0) / (2 : ℕ))) f :=
  (C46_composite 2 3 (by decide) (by decide) (by decide) (by decide) 0 1 f).2.2

/-! ## C25, exact part -/

theorem sum_map_range' (n : ℕ) (g : ℕ → ℝ) : ((List.range' 1 (n - 1)).map g).sum = ((List.range (n - 1)).map fun i => g (i + 1)).sum := by
  rw [range'_one_eq, List.map_map]; rfl

/-- C25 in exact arithmetic: `par_integrate` equals `integrate` for every rule, integrand and schedule. -/
theorem C25_exact (s s' : Schedule) (R : AnyRule ℝ) (a b : ℝ) (f : ℝ → ℝ) :
    R.parIntegrate s s' a b f = R.value a b f := by
  rw [value_eq]
  cases R with
  | midpoint r =>
    simp only [AnyRule.parIntegrate, Midpoint.parIntegrate, parSumMap_real, combine, points, foldl_sumInit, List.map_map]
    rfl
  | trapezoid r =>
    simp only [AnyRule.parIntegrate, Trapezoid.parIntegrate, parSumMap_real, combine, points, List.map_append, List.map_cons,
      List.map_nil, List.cons_append, List.nil_append, List.getD_cons_zero, List.getD_cons_succ, List.drop_succ_cons,
      List.drop_zero, foldl_sumInit, sum_map_range', List.map_map]
    rfl
  | simpson r =>
    have hv := value_eq (.simpson r) a b f
    rw [← hv, value_real]
    simp only [AnyRule.parIntegrate, Simpson.parIntegrate, parSumMap_real, sum_map_range', sum_map_range]
    obtain ⟨d, hd⟩ : ∃ d, r.degree = d + 1 := ⟨r.degree - 1, by have := r.pos; omega⟩
    simp only [rulePairs, quad, List.map_map, hd, Nat.add_sub_cancel]
    rw [sum_map_range, sum_range_two_mul_succ, Finset.sum_range_succ, Finset.sum_range_succ' _ d, Finset.sum_range_succ _ d]
    have hd0 : ((d + 1 : ℕ) : ℝ) ≠ 0 := by positivity
    simp only [Function.comp_apply, real_add, real_mul, real_div, real_sub, real_ofNat, real_lit_two, real_lit_four,
      real_lit_one, real_lit_six]
    set h : ℝ := (b - a) / ((d + 1 : ℕ) : ℝ) with hh
    have c1 : ∀ i ∈ Finset.range d, simpsonCoeff (d + 1) (2 * (i + 1)) * (h / 6) * f (a + ((2 * (i + 1) : ℕ) : ℝ) * (h / 2))
        = 2 * (h / 6) * f (a + ((i + 1 : ℕ) : ℝ) * h) := by
      intro i hi
      rw [Finset.mem_range] at hi
      have : simpsonCoeff (d + 1) (2 * (i + 1)) = 2 := by
        rw [simpsonCoeff, if_neg (by omega), if_neg (by omega)]
      rw [this]; congr 2; push_cast; ring
    have c2 : ∀ i, simpsonCoeff (d + 1) (2 * i + 1) * (h / 6) * f (a + ((2 * i + 1 : ℕ) : ℝ) * (h / 2))
        = 4 * (h / 6) * f (a + (2 * ((i + 1 : ℕ) : ℝ) - 1) * h / 2) := by
      intro i
      have : simpsonCoeff (d + 1) (2 * i + 1) = 4 := by
        rw [simpsonCoeff, if_neg (by omega), if_pos (by omega)]
      rw [this]; congr 2; push_cast; ring
    have c3 : simpsonCoeff (d + 1) (2 * 0) = 1 := by simp [simpsonCoeff]
    have c4 : simpsonCoeff (d + 1) (2 * (d + 1)) = 1 := by simp [simpsonCoeff]
    rw [Finset.sum_congr rfl c1, Finset.sum_congr rfl (fun i _ => c2 i), c2, c3, c4]
    have h2 : a + ((2 * (d + 1) : ℕ) : ℝ) * (h / 2) = b := by
      rw [hh]; push_cast at hd0 ⊢; field_simp; ring
    rw [h2, ← Finset.mul_sum, ← Finset.mul_sum]
    have h3 : a + ((2 * 0 : ℕ) : ℝ) * (h / 2) = a := by simp
    rw [h3]; ring
  | legendre r =>
    simp only [AnyRule.parIntegrate, GaussLegendre.parIntegrate, parSumMap_real, combine, points, List.map_map, weighted_map]
    rfl
  | chebyshevFirst r =>
    simp only [AnyRule.parIntegrate, GaussChebyshevFirstKind.parIntegrate, parSumMap_real, combine, points, List.map_map, weighted_map]
    rfl
  | chebyshevSecond r =>
    simp only [AnyRule.parIntegrate, GaussChebyshevSecondKind.parIntegrate, parSumMap_real, combine, points, List.map_map, weighted_map]
    rfl
  | jacobi r =>
    simp only [AnyRule.parIntegrate, GaussJacobi.parIntegrate, parSumMap_real, combine, points, List.map_map, weighted_map]
    rfl
  | hermite r =>
    simp only [AnyRule.parIntegrate, GaussHermite.parIntegrate, parSumMap_real, combine, points, List.map_map, weighted_map]
    rfl
  | laguerre r =>
    simp only [AnyRule.parIntegrate, GaussLaguerre.parIntegrate, parSumMap_real, combine, points, List.map_map, weighted_map]
    rfl

example (r : Rule ℝ) (f : ℝ → ℝ) : (AnyRule.legendre r).parIntegrate (.split 2 (.split 1 .leaf .leaf) .leaf) .leaf 0 1 f
    = (AnyRule.legendre r).value 0 1 f := C25_exact _ _ _ _ _ _

/-- Arithmetic in which a sum records its summands: `+` is concatenation. -/
@[reducible] def recordOps (α : Type) : FloatOps (List α) where
  add := (· ++ ·)
  sub := (· ++ ·)
  mul := (· ++ ·)
  div := (· ++ ·)
  sin := id
  cos := id
  pow := (· ++ ·)
  sqrt := id
  lit := fun _ => []
  ofNat := fun _ => []
  pi := []
  e := []
  lt := fun _ _ => false
  feq := fun _ _ => false
  isFinite := fun _ => true
  totalLe := fun _ _ => true
  sumInit := []

/-- C25: under every schedule each item enters the parallel sum exactly once and in order (the reduction tree has the
items as its leaves): summing in the recording arithmetic returns the list of items itself. -/
theorem C25_items_once {α : Type} (s : Schedule) (xs : List α) :
    letI := recordOps α
    parSumMap s xs (fun x => [x]) = xs := by
  letI := recordOps α
  have hflat : ∀ l : List α, (l.map fun x => [x]).flatten = l := by
    intro l
    induction l with
    | nil => rfl
    | cons x l ih => simp [ih]
  have hsum : ∀ l : List (List α), sumList l = l.flatten := by
    intro l
    have h : ∀ z : List α, l.foldl (· +ᶠ ·) z = z ++ l.flatten := by
      induction l with
      | nil => intro z; simp
      | cons x l ih => intro z; rw [List.foldl_cons, ih]; show (z ++ x) ++ _ = _; simp
    exact h []
  induction s generalizing xs with
  | leaf =>
    simp only [parSumMap, sumReduce, hsum, hflat]
    simp
  | split mid l r ihl ihr =>
    simp only [parSumMap, sumReduce, hsum, ihl, ihr]
    simp

example : letI := recordOps Nat
    parSumMap (.split 1 .leaf (.split 1 .leaf .leaf)) [5, 6, 7] (fun x => [x]) = [5, 6, 7] :=
  C25_items_once _ _

end GaussQuad.Props
