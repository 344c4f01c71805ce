import Verif.Spec.Iterated
import Verif.Props.Cost
import Verif.Props.NestedF64
import Verif.Props.NewtonCotesError

/-!
# C90: nested integrals of any depth

The documentation says that double and higher integrals are computed by nesting (`/repo/src/lib.rs` l.164-181).  The error of the nested result in exact arithmetic, for every
depth, all rules at each level and bounds that depend on the outer variables; polynomials are integrated exactly over boxes.
-/

namespace GaussQuad.Props
open Polynomial Spec FloatOps MeasureTheory

/-- the program: nested calls of `integrate` with a pure integrand -/
noncomputable def nestedValue (levels : List Level) (xs : List ℝ) (f : List ℝ → ℝ) : ℝ :=
  Id.run (nested (levels.map fun l => (l.rule, l.lower, l.upper)) xs fun ys => pure (f ys))

theorem nestedValue_cons (l : Level) (ls : List Level) (xs : List ℝ) (f : List ℝ → ℝ) :
    nestedValue (l :: ls) xs f = quad (rulePairs (l.lower xs) (l.upper xs) l.rule) fun x => nestedValue ls (xs ++ [x]) f :=
  value_real l.rule (l.lower xs) (l.upper xs) fun x => nestedValue ls (xs ++ [x]) f

theorem totalError_nonneg {levels : List Level} (h : ∀ l ∈ levels, 0 ≤ l.τ ∧ 0 ≤ l.W) : 0 ≤ totalError levels := by
  induction levels with
  | nil => exact le_rfl
  | cons l ls ih =>
    have h1 := h l (by simp)
    exact add_nonneg h1.1 (mul_nonneg h1.2 (ih fun l hl => h l (by simp [hl])))

/-- C90: the error of a nested integral of any depth is at most `τ₁ + W₁ (τ₂ + W₂ (τ₃ + …))`. -/
theorem C90_error (levels : List Level) (hpos : ∀ l ∈ levels, 0 ≤ l.τ ∧ 0 ≤ l.W) (f : List ℝ → ℝ) : ∀ xs, LevelsWithin f levels xs →
    |nestedValue levels xs f - iterated (levels.map Level.integral) xs f| ≤ totalError levels := by
  induction levels with
  | nil => intro xs _; simp [nestedValue, nested, iterated, totalError]
  | cons l ls ih =>
    intro xs ⟨h1, h2, h3⟩
    have hp : ∀ l ∈ ls, 0 ≤ l.τ ∧ 0 ≤ l.W := fun l hl => hpos l (by simp [hl])
    rw [nestedValue_cons]
    have h4 := quad_sub_le (L := rulePairs (l.lower xs) (l.upper xs) l.rule) (f := fun x => nestedValue ls (xs ++ [x]) f)
      (g := fun x => iterated (ls.map Level.integral) (xs ++ [x]) f) (τ := totalError ls) fun p hq => ih hp (xs ++ [p.1]) (h3 p hq)
    have h6 := h4.trans (mul_le_mul_of_nonneg_left h2 (totalError_nonneg hp))
    simp only [List.map_cons, iterated, totalError]
    refine (abs_sub_le _ _ _).trans ((add_le_add h6 h1).trans (le_of_eq ?_))
    ring

/-- the midpoint formula for `∫₀¹ ∫₀ˣ y dy dx = 1/6`, with inner bound `x`, is off by at most `1/24` -/
example : |Id.run (nested [(AnyRule.midpoint ⟨1, by norm_num, by norm_num⟩, (fun _ => 0), (fun _ => 1)), (AnyRule.midpoint ⟨1, by norm_num, by norm_num⟩, (fun _ => 0), (fun xs => xs.getD 0 0))] []
    fun ys => pure (ys.getD 1 0)) - ∫ x in (0 : ℝ)..1, ∫ y in (0 : ℝ)..x, y| ≤ 1 / 24 := by
  have h := C90_error [⟨.midpoint ⟨1, by norm_num, by norm_num⟩, fun _ => 0, fun _ => 1, fun _ u => ∫ x in (0 : ℝ)..1, u x, 1 / 24, 1⟩,
    ⟨.midpoint ⟨1, by norm_num, by norm_num⟩, fun _ => 0, fun xs => xs.getD 0 0, fun xs u => ∫ x in (0 : ℝ)..xs.getD 0 0, u x, 0, 1 / 2⟩] (by simp) (fun ys => ys.getD 1 0) [] ?_
  · simpa [totalError, iterated, nestedValue] using h
  · simp [LevelsWithin, iterated, rulePairs, quad, abs_le]
    norm_num

/-- over a box the nested rule is one weighted sum over the points of the product rule -/
theorem nested_box {levels : List Level} (hbox : Box levels) : ∃ Q : List (List ℝ × ℝ), (∀ q ∈ Q, q.1.length = levels.length) ∧
    ∀ (xs : List ℝ) (f : List ℝ → ℝ), nestedValue levels xs f = (Q.map fun q => q.2 * f (xs ++ q.1)).sum := by
  induction levels with
  | nil => exact ⟨[([], 1)], by simp, fun xs f => by simp [nestedValue, nested]⟩
  | cons l ls ih =>
    obtain ⟨Q, hQ, h⟩ := ih fun l hl => hbox l (by simp [hl])
    refine ⟨(rulePairs (l.lower []) (l.upper []) l.rule).flatMap fun p => Q.map fun q => (p.1 :: q.1, p.2 * q.2), ?_, fun xs f => ?_⟩
    · intro q hq
      obtain ⟨p, -, hq⟩ := List.mem_flatMap.1 hq
      obtain ⟨q', hq', rfl⟩ := List.mem_map.1 hq
      simp [hQ q' hq']
    · have hb := hbox l (by simp) xs
      rw [nestedValue_cons, hb.1, hb.2, quad]
      simp only [h]
      induction rulePairs (l.lower []) (l.upper []) l.rule with
      | nil => rfl
      | cons p L ih =>
        rw [List.map_cons, List.sum_cons, ih, List.flatMap_cons, List.map_append, List.sum_append, List.map_map]
        congr 1
        rw [← List.sum_map_mul_left]
        congr 1
        apply List.map_congr_left
        intro q _
        simp [mul_assoc]

/-- C90: over a box, with rules exact for the degrees `Ns`, the nested result for a polynomial of at most these degrees in the single variables is the iterated integral. -/
theorem C90_polynomial {levels : List Level} {Ns : List ℕ} (hbox : Box levels)
    (hex : List.Forall₂ (fun (l : Level) N => ∀ xs, ∀ p : ℝ[X], p.natDegree ≤ N →
      quad (rulePairs (l.lower xs) (l.upper xs) l.rule) (fun x => p.eval x) = l.integral xs fun x => p.eval x) levels Ns)
    {f : List ℝ → ℝ} (hf : PolyInEach Ns f) : nestedValue levels [] f = iterated (levels.map Level.integral) [] f := by
  have main : ∀ xs, PolyInEach Ns (fun zs => f (xs ++ zs)) → nestedValue levels xs f = iterated (levels.map Level.integral) xs f := by
    clear hf
    induction hex with
    | nil => intro xs _; simp [nestedValue, nested, iterated]
    | @cons l N ls Ns hl hls ih =>
      intro xs hf
      have hbox' : Box ls := fun l hl => hbox l (by simp [hl])
      have hlen := hls.length_eq
      have h1 : ∀ x, nestedValue ls (xs ++ [x]) f = iterated (ls.map Level.integral) (xs ++ [x]) f := fun x => by
        refine ih hbox' (xs ++ [x]) fun i hi zs ys hz hy => ?_
        obtain ⟨p, hp1, hp2⟩ := hf (i + 1) (by simpa using hi) (x :: zs) ys (by simp [hz]) (by simp only [List.length_cons]; omega)
        exact ⟨p, by simpa using hp1, fun t => by simpa using hp2 t⟩
      rw [nestedValue_cons]
      simp only [List.map_cons, iterated, ← h1]
      obtain ⟨Q, hQ, h⟩ := nested_box hbox'
      have h2 : ∀ q : List ℝ, q.length = ls.length → ∃ p : ℝ[X], p.natDegree ≤ N ∧ ∀ x, f (xs ++ [x] ++ q) = p.eval x := fun q hq => by
        obtain ⟨p, hp1, hp2⟩ := hf 0 (by simp) [] q rfl (by simp only [List.length_nil, List.length_cons]; omega)
        exact ⟨p, by simpa using hp1, fun t => by simpa using hp2 t⟩
      obtain ⟨p, hp1, hp2⟩ : ∃ p : ℝ[X], p.natDegree ≤ N ∧ ∀ x, nestedValue ls (xs ++ [x]) f = p.eval x := by
        simp only [h]
        clear h
        induction Q with
        | nil => exact ⟨0, by simp, by simp⟩
        | cons q Q ihQ =>
          obtain ⟨p, hp1, hp2⟩ := ihQ fun q hq => hQ q (by simp [hq])
          obtain ⟨p', hp1', hp2'⟩ := h2 q.1 (hQ q (by simp))
          refine ⟨C q.2 * p' + p, (natDegree_add_le _ _).trans (max_le ((natDegree_C_mul_le _ _).trans hp1') hp1), fun x => ?_⟩
          rw [List.map_cons, List.sum_cons, hp2, hp2']
          simp
      simp only [hp2]
      exact hl xs p hp1
  exact main [] (by simpa using hf)

/-- C90 for Simpson's rule at every level: polynomials of degree at most 3 in each variable over a box of any dimension -/
theorem C90_simpson (sides : List (NodeRule × ℝ × ℝ)) {f : List ℝ → ℝ} (hf : PolyInEach (List.replicate sides.length 3) f) :
    Id.run (nested (sides.map fun s => (AnyRule.simpson s.1, (fun _ => s.2.1), (fun _ => s.2.2))) [] fun xs => pure (f xs)) =
      iterated (sides.map fun s => fun _ u => ∫ x in s.2.1..s.2.2, u x) [] f := by
  have h := C90_polynomial (levels := sides.map fun s => ⟨.simpson s.1, fun _ => s.2.1, fun _ => s.2.2, fun _ u => ∫ x in s.2.1..s.2.2, u x, 0, 0⟩) (Ns := List.replicate sides.length 3)
    (fun l hl xs => by obtain ⟨s, -, rfl⟩ := List.mem_map.1 hl; exact ⟨rfl, rfl⟩) ?_ hf
  · simpa [nestedValue, List.map_map, Function.comp_def] using h
  · clear hf
    induction sides with
    | nil => exact List.Forall₂.nil
    | cons s sides ih =>
      refine List.Forall₂.cons (fun xs p hp => ?_) ih
      rw [← value_real]
      exact C28_exact s.1 s.2.1 s.2.2 hp

/-- `x³ y² z` over a box, with different numbers of panels -/
example (q r s : NodeRule) (a b c : ℝ) : Id.run (nested [(AnyRule.simpson q, (fun _ => 0), (fun _ => a)), (AnyRule.simpson r, (fun _ => 0), (fun _ => b)), (AnyRule.simpson s, (fun _ => 0), (fun _ => c))] []
    fun xs => pure (xs.getD 0 0 ^ 3 * xs.getD 1 0 ^ 2 * xs.getD 2 0)) = a ^ 4 * b ^ 3 * c ^ 2 / 24 := by
  have h := C90_simpson [(q, 0, a), (r, 0, b), (s, 0, c)] (f := fun xs => xs.getD 0 0 ^ 3 * xs.getD 1 0 ^ 2 * xs.getD 2 0) ?_
  · refine h.trans ?_
    have e : ∀ x y : ℝ, ∫ z in (0 : ℝ)..c, x ^ 3 * y ^ 2 * z = y ^ 2 * (x ^ 3 * (c ^ 2 / 2)) := fun x y => by
      rw [intervalIntegral.integral_const_mul, integral_id]; ring
    have e' : ∀ x : ℝ, ∫ y in (0 : ℝ)..b, y ^ 2 * (x ^ 3 * (c ^ 2 / 2)) = x ^ 3 * (b ^ 3 / 3 * (c ^ 2 / 2)) := fun x => by
      rw [intervalIntegral.integral_mul_const, integral_pow]; norm_num; ring
    have e'' : ∫ x in (0 : ℝ)..a, x ^ 3 * (b ^ 3 / 3 * (c ^ 2 / 2)) = a ^ 4 * b ^ 3 * c ^ 2 / 24 := by
      rw [intervalIntegral.integral_mul_const, integral_pow]; norm_num; ring
    simp only [iterated, List.map_cons, List.map_nil, List.nil_append, List.cons_append, List.getD_cons_zero, List.getD_cons_succ]
    simp only [e, e', e'']
  · intro i hi xs ys hx hy
    simp at hi hy
    rcases xs with _ | ⟨x₁, _ | ⟨x₂, _ | ⟨x₃, xs⟩⟩⟩
    · subst hx
      exact ⟨C (ys.getD 0 0 ^ 2 * ys.getD 1 0) * X ^ 3, (natDegree_C_mul_X_pow_le _ _).trans (by simp), fun x => by simp; ring⟩
    · subst hx
      exact ⟨C (x₁ ^ 3 * ys.getD 0 0) * X ^ 2, (natDegree_C_mul_X_pow_le _ _).trans (by simp), fun x => by simp; ring⟩
    · subst hx
      exact ⟨C (x₁ ^ 3 * x₂ ^ 2) * X ^ 1, (natDegree_C_mul_X_pow_le _ _).trans (by simp), fun x => by simp⟩
    · simp at hx; omega

end GaussQuad.Props
