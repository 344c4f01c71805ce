import Verif.Props.Backward

/-!
# C123: linearity in binary64 up to rounding
-/

set_option exponentiation.threshold 3000

namespace GaussQuad.Props
open Spec F64 FloatOps

theorem zipWith_sum_add {α : Type} (cs : List ℚ) (xs : List α) (p q : α → ℚ) :
    (List.zipWith (· * ·) cs (xs.map fun x => p x + q x)).sum =
      (List.zipWith (· * ·) cs (xs.map p)).sum + (List.zipWith (· * ·) cs (xs.map q)).sum := by
  induction cs generalizing xs with
  | nil => simp
  | cons c cs ih =>
    cases xs with
    | nil => simp
    | cons x xs => simp only [List.map_cons, List.zipWith_cons_cons, List.sum_cons, ih]; ring

theorem zipWith_sum_mul {α : Type} (k : ℚ) (cs : List ℚ) (xs : List α) (p : α → ℚ) :
    (List.zipWith (· * ·) cs (xs.map fun x => k * p x)).sum = k * (List.zipWith (· * ·) cs (xs.map p)).sum := by
  induction cs generalizing xs with
  | nil => simp
  | cons c cs ih =>
    cases xs with
    | nil => simp
    | cons x xs => simp only [List.map_cons, List.zipWith_cons_cons, List.sum_cons, ih]; ring

theorem zipWith_abs_add {α : Type} (cs : List ℚ) (xs : List α) (p q : α → ℚ) :
    (List.zipWith (fun c y => |c * y|) cs (xs.map fun x => p x + q x)).sum ≤
      (List.zipWith (fun c y => |c * y|) cs (xs.map p)).sum + (List.zipWith (fun c y => |c * y|) cs (xs.map q)).sum := by
  induction cs generalizing xs with
  | nil => simp
  | cons c cs ih =>
    cases xs with
    | nil => simp
    | cons x xs =>
      simp only [List.map_cons, List.zipWith_cons_cons, List.sum_cons]
      have h1 := ih xs
      have h2 := abs_add_le (c * p x) (c * q x)
      rw [← mul_add] at h2
      linarith

theorem zipWith_abs_mul {α : Type} (k : ℚ) (cs : List ℚ) (xs : List α) (p : α → ℚ) :
    (List.zipWith (fun c y => |c * y|) cs (xs.map fun x => k * p x)).sum =
      |k| * (List.zipWith (fun c y => |c * y|) cs (xs.map p)).sum := by
  induction cs generalizing xs with
  | nil => simp
  | cons c cs ih =>
    cases xs with
    | nil => simp
    | cons x xs =>
      simp only [List.map_cons, List.zipWith_cons_cons, List.sum_cons, ih]
      rw [show c * (k * p x) = k * (c * p x) by ring, abs_mul k]; ring

theorem zipWith_abs_nonneg (cs ys : List ℚ) : 0 ≤ (List.zipWith (fun c y => |c * y|) cs ys).sum := by
  induction cs generalizing ys with
  | nil => simp
  | cons c cs ih =>
    cases ys with
    | nil => simp
    | cons x xs => simp only [List.zipWith_cons_cons, List.sum_cons]; exact add_nonneg (abs_nonneg _) (ih xs)

theorem forall₂_map_of {α : Type} {r : ℚ → ℚ → Prop} {p q : α → ℚ} : ∀ {xs : List α}, (∀ x ∈ xs, r (p x) (q x)) →
    List.Forall₂ r (xs.map p) (xs.map q)
  | [], _ => .nil
  | _ :: _, h => .cons (h _ (by simp)) (forall₂_map_of fun x hx => h x (List.mem_cons_of_mem _ hx))

theorem relClose_chain {k l : ℕ} {as bs cs : List ℚ} (h : List.Forall₂ (RelClose k) as bs) (h' : List.Forall₂ (RelClose l) bs cs) :
    List.Forall₂ (RelClose (k + l)) as cs := by
  induction h generalizing cs with
  | nil => cases h'; exact .nil
  | cons h hs ih => cases h' with | cons h1 h2 => exact .cons (h.trans h1) (ih h2)

section
variable [L : Libm]

/-- an integrand whose values are `k` roundings away from `v` -/
theorem forward_of_near {k : ℕ} {R : AnyRule F64} {a b : F64} {f : F64 → F64} {v : F64 → ℚ} (h1 : StepNormal a b R)
    (h2 : TermsNormal a b f R) (hf : (R.value a b f).isFinite = true) (hv : ∀ x ∈ points a b R, RelClose k (v x) (f x).val) :
    |(R.value a b f).val - (List.zipWith (· * ·) (coefficients a b R) ((points a b R).map v)).sum| ≤
      ((1 + u) ^ (k + (sumLength R + 9)) - 1) *
        (List.zipWith (fun c y => |c * y|) (coefficients a b R) ((points a b R).map v)).sum + 1 / 2 ^ 1075 := by
  obtain ⟨ys, h, he⟩ := C122_integrate R a b f h1 h2 hf
  have hn : List.Forall₂ (RelClose (k + (sumLength R + 9))) ((points a b R).map v) ys := relClose_chain (forall₂_map_of hv) h
  have := zipWith_near hn (coefficients a b R)
  have e := abs_sub_le (R.value a b f).val (List.zipWith (· * ·) (coefficients a b R) ys).sum
    (List.zipWith (· * ·) (coefficients a b R) ((points a b R).map v)).sum
  linarith

/-- C123: the result for `f + g`, added in binary64, is the sum of the results up to the roundings -/
theorem C123_add (R : AnyRule F64) (a b : F64) (f g : F64 → F64) (h1 : StepNormal a b R) (hf : TermsNormal a b f R)
    (hg : TermsNormal a b g R) (hfg : TermsNormal a b (fun x => f x +ᶠ g x) R) (ff : (R.value a b f).isFinite = true)
    (fg : (R.value a b g).isFinite = true) (ffg : (R.value a b fun x => f x +ᶠ g x).isFinite = true)
    (hs : ∀ x ∈ points a b R, (f x +ᶠ g x : F64).isFinite = true) :
    |(R.value a b fun x => f x +ᶠ g x).val - ((R.value a b f).val + (R.value a b g).val)| ≤
      2 * ((1 + u) ^ (sumLength R + 10) - 1) *
        ((List.zipWith (fun c y => |c * y|) (coefficients a b R) ((points a b R).map fun x => (f x).val)).sum +
          (List.zipWith (fun c y => |c * y|) (coefficients a b R) ((points a b R).map fun x => (g x).val)).sum) + 3 / 2 ^ 1075 := by
  have e1 := forward_of_near (k := 1) (v := fun x => (f x).val + (g x).val) h1 hfg ffg fun x hx =>
    relClose_one (add_error (hs x hx)).2.2
  have e2 := C122_forward R a b f h1 hf ff
  have e3 := C122_forward R a b g h1 hg fg
  rw [zipWith_sum_add, show 1 + (sumLength R + 9) = sumLength R + 10 by omega] at e1
  have m := zipWith_abs_add (coefficients a b R) (points a b R) (fun x => (f x).val) (fun x => (g x).val)
  have n1 := zipWith_abs_nonneg (coefficients a b R) ((points a b R).map fun x => (f x).val)
  have n2 := zipWith_abs_nonneg (coefficients a b R) ((points a b R).map fun x => (g x).val)
  set A := (List.zipWith (fun c y => |c * y|) (coefficients a b R) ((points a b R).map fun x => (f x).val)).sum
  set B := (List.zipWith (fun c y => |c * y|) (coefficients a b R) ((points a b R).map fun x => (g x).val)).sum
  set S := (List.zipWith (· * ·) (coefficients a b R) ((points a b R).map fun x => (f x).val)).sum
  set T := (List.zipWith (· * ·) (coefficients a b R) ((points a b R).map fun x => (g x).val)).sum
  have p1 : (1 + u) ^ (sumLength R + 9) ≤ (1 + u) ^ (sumLength R + 10) := pow_le_pow_right₀ (by linarith [u_pos]) (by omega)
  have p0 := one_le_pow_u (sumLength R + 10)
  set V := (1 + u) ^ (sumLength R + 10)
  set W := (1 + u) ^ (sumLength R + 9)
  have q1 := mul_le_mul_of_nonneg_left m (show 0 ≤ V - 1 by linarith)
  have q2 := mul_le_mul_of_nonneg_right (show W - 1 ≤ V - 1 by linarith) n1
  have q3 := mul_le_mul_of_nonneg_right (show W - 1 ≤ V - 1 by linarith) n2
  rw [abs_le] at e1 e2 e3 ⊢
  have r : (3 : ℚ) / 2 ^ 1075 = 3 * (1 / 2 ^ 1075) := by ring
  rw [r]
  set η : ℚ := 1 / 2 ^ 1075
  constructor <;> linarith [e1.1, e1.2, e2.1, e2.2, e3.1, e3.2]

/-- C123: the result for `c · f`, multiplied in binary64, is `c` times the result up to the roundings -/
theorem C123_scale (R : AnyRule F64) (a b c : F64) (f : F64 → F64) (h1 : StepNormal a b R) (hf : TermsNormal a b f R)
    (hcf : TermsNormal a b (fun x => c *ᶠ f x) R) (ff : (R.value a b f).isFinite = true)
    (fcf : (R.value a b fun x => c *ᶠ f x).isFinite = true)
    (hs : ∀ x ∈ points a b R, (c *ᶠ f x : F64).isFinite = true ∧ NotTiny (c.val * (f x).val)) :
    |(R.value a b fun x => c *ᶠ f x).val - c.val * (R.value a b f).val| ≤
      2 * ((1 + u) ^ (sumLength R + 10) - 1) * (|c.val| *
        (List.zipWith (fun c y => |c * y|) (coefficients a b R) ((points a b R).map fun x => (f x).val)).sum) + (1 + |c.val|) / 2 ^ 1075 := by
  have e1 := forward_of_near (k := 1) (v := fun x => c.val * (f x).val) h1 hcf fcf fun x hx => by
    obtain ⟨hx1, hx2⟩ := hs x hx
    have hx1' : (F64.mul c (f x)).isFinite = true := hx1
    obtain ⟨g1, g2⟩ := finite_of_mul hx1'
    refine relClose_one ?_
    show |(F64.mul c (f x)).val - _| ≤ _
    rw [mul_fin g1 g2] at hx1' ⊢
    exact round_notTiny hx1' hx2
  have e2 := C122_forward R a b f h1 hf ff
  rw [zipWith_sum_mul, zipWith_abs_mul, show 1 + (sumLength R + 9) = sumLength R + 10 by omega] at e1
  have n1 := zipWith_abs_nonneg (coefficients a b R) ((points a b R).map fun x => (f x).val)
  set A := (List.zipWith (fun c y => |c * y|) (coefficients a b R) ((points a b R).map fun x => (f x).val)).sum
  set S := (List.zipWith (· * ·) (coefficients a b R) ((points a b R).map fun x => (f x).val)).sum
  have p1 : (1 + u) ^ (sumLength R + 9) ≤ (1 + u) ^ (sumLength R + 10) := pow_le_pow_right₀ (by linarith [u_pos]) (by omega)
  set V := (1 + u) ^ (sumLength R + 10)
  set W := (1 + u) ^ (sumLength R + 9)
  have e3 : |c.val * S - c.val * (R.value a b f).val| ≤ |c.val| * ((V - 1) * A + 1 / 2 ^ 1075) := by
    rw [← mul_sub, abs_mul, abs_sub_comm]
    refine mul_le_mul_of_nonneg_left (e2.trans ?_) (abs_nonneg _)
    have := mul_le_mul_of_nonneg_right (show W - 1 ≤ V - 1 by linarith) n1
    linarith
  have e := abs_sub_le (R.value a b fun x => c *ᶠ f x).val (c.val * S) (c.val * (R.value a b f).val)
  refine e.trans ((add_le_add e1 e3).trans (le_of_eq ?_))
  ring

/-- the same for `par_integrate` with at most `N` roundings in each tree -/
theorem forward_par_of_near {k N : ℕ} {R : AnyRule F64} {s s' : Schedule} {a b : F64} {f : F64 → F64} {v : F64 → ℚ}
    (hN : roundings s (sumLength R) ≤ N) (hN' : roundings s' (sumLength R) ≤ N) (h1 : StepNormal a b R)
    (h2 : TermsNormal a b f R) (hf : (R.parIntegrate s s' a b f).isFinite = true) (hv : ∀ x ∈ points a b R, RelClose k (v x) (f x).val) :
    |(R.parIntegrate s s' a b f).val - (List.zipWith (· * ·) (coefficients a b R) ((points a b R).map v)).sum| ≤
      ((1 + u) ^ (N + 9 + k) - 1) *
        (List.zipWith (fun c y => |c * y|) (coefficients a b R) ((points a b R).map v)).sum + 1 / 2 ^ 1075 := by
  obtain ⟨ys, h, he⟩ := C122_par R s s' a b f h1 h2 hf
  have hn : List.Forall₂ (RelClose (N + 9 + k)) ((points a b R).map v) ys :=
    (relClose_chain (forall₂_map_of hv) h).imp fun _ _ h => RelClose.mono (by omega) h
  have := zipWith_near hn (coefficients a b R)
  have e := abs_sub_le (R.parIntegrate s s' a b f).val (List.zipWith (· * ·) (coefficients a b R) ys).sum
    (List.zipWith (· * ·) (coefficients a b R) ((points a b R).map v)).sum
  linarith

/-- C123 for `par_integrate`: the three calls may be scheduled differently -/
theorem C123_add_par (R : AnyRule F64) {N : ℕ} (s : Fin 6 → Schedule) (hN : ∀ i, roundings (s i) (sumLength R) ≤ N) (a b : F64)
    (f g : F64 → F64) (h1 : StepNormal a b R) (hf : TermsNormal a b f R)
    (hg : TermsNormal a b g R) (hfg : TermsNormal a b (fun x => f x +ᶠ g x) R)
    (ff : (R.parIntegrate (s 0) (s 1) a b f).isFinite = true)
    (fg : (R.parIntegrate (s 2) (s 3) a b g).isFinite = true)
    (ffg : (R.parIntegrate (s 4) (s 5) a b fun x => f x +ᶠ g x).isFinite = true)
    (hs : ∀ x ∈ points a b R, (f x +ᶠ g x : F64).isFinite = true) :
    |(R.parIntegrate (s 4) (s 5) a b fun x => f x +ᶠ g x).val -
        ((R.parIntegrate (s 0) (s 1) a b f).val + (R.parIntegrate (s 2) (s 3) a b g).val)| ≤
      2 * ((1 + u) ^ (N + 10) - 1) *
        ((List.zipWith (fun c y => |c * y|) (coefficients a b R) ((points a b R).map fun x => (f x).val)).sum +
          (List.zipWith (fun c y => |c * y|) (coefficients a b R) ((points a b R).map fun x => (g x).val)).sum) + 3 / 2 ^ 1075 := by
  have e1 := forward_par_of_near (k := 1) (v := fun x => (f x).val + (g x).val) (hN 4) (hN 5) h1 hfg ffg fun x hx =>
    relClose_one (add_error (hs x hx)).2.2
  have e2 := forward_par_of_near (k := 1) (v := fun x => (f x).val) (hN 0) (hN 1) h1 hf ff fun x _ => RelClose.refl _ _
  have e3 := forward_par_of_near (k := 1) (v := fun x => (g x).val) (hN 2) (hN 3) h1 hg fg fun x _ => RelClose.refl _ _
  rw [zipWith_sum_add] at e1
  have m := zipWith_abs_add (coefficients a b R) (points a b R) (fun x => (f x).val) (fun x => (g x).val)
  have p0 := one_le_pow_u (N + 10)
  have q1 := mul_le_mul_of_nonneg_left m (show 0 ≤ (1 + u) ^ (N + 10) - 1 by linarith)
  have r : (3 : ℚ) / 2 ^ 1075 = 3 * (1 / 2 ^ 1075) := by ring
  rw [r]
  rw [show N + 9 + 1 = N + 10 by omega] at e1 e2 e3
  set η : ℚ := 1 / 2 ^ 1075
  rw [abs_le] at e1 e2 e3 ⊢
  constructor <;> linarith [e1.1, e1.2, e2.1, e2.2, e3.1, e3.2]

/-- C123 for `par_integrate`: the two calls may be scheduled differently -/
theorem C123_scale_par (R : AnyRule F64) {N : ℕ} (s : Fin 4 → Schedule) (hN : ∀ i, roundings (s i) (sumLength R) ≤ N) (a b c : F64)
    (f : F64 → F64) (h1 : StepNormal a b R) (hf : TermsNormal a b f R)
    (hcf : TermsNormal a b (fun x => c *ᶠ f x) R) (ff : (R.parIntegrate (s 0) (s 1) a b f).isFinite = true)
    (fcf : (R.parIntegrate (s 2) (s 3) a b fun x => c *ᶠ f x).isFinite = true)
    (hs : ∀ x ∈ points a b R, (c *ᶠ f x : F64).isFinite = true ∧ NotTiny (c.val * (f x).val)) :
    |(R.parIntegrate (s 2) (s 3) a b fun x => c *ᶠ f x).val - c.val * (R.parIntegrate (s 0) (s 1) a b f).val| ≤
      2 * ((1 + u) ^ (N + 10) - 1) * (|c.val| *
        (List.zipWith (fun c y => |c * y|) (coefficients a b R) ((points a b R).map fun x => (f x).val)).sum) + (1 + |c.val|) / 2 ^ 1075 := by
  have e1 := forward_par_of_near (k := 1) (v := fun x => c.val * (f x).val) (hN 2) (hN 3) h1 hcf fcf fun x hx => by
    obtain ⟨hx1, hx2⟩ := hs x hx
    have hx1' : (F64.mul c (f x)).isFinite = true := hx1
    obtain ⟨g1, g2⟩ := finite_of_mul hx1'
    refine relClose_one ?_
    show |(F64.mul c (f x)).val - _| ≤ _
    rw [mul_fin g1 g2] at hx1' ⊢
    exact round_notTiny hx1' hx2
  have e2 := forward_par_of_near (k := 1) (v := fun x => (f x).val) (hN 0) (hN 1) h1 hf ff fun x _ => RelClose.refl _ _
  rw [zipWith_sum_mul, zipWith_abs_mul] at e1
  rw [show N + 9 + 1 = N + 10 by omega] at e1 e2
  set A := (List.zipWith (fun c y => |c * y|) (coefficients a b R) ((points a b R).map fun x => (f x).val)).sum
  set S := (List.zipWith (· * ·) (coefficients a b R) ((points a b R).map fun x => (f x).val)).sum
  set V := (1 + u) ^ (N + 10)
  have e3 : |c.val * S - c.val * (R.parIntegrate (s 0) (s 1) a b f).val| ≤ |c.val| * ((V - 1) * A + 1 / 2 ^ 1075) := by
    rw [← mul_sub, abs_mul, abs_sub_comm]
    exact mul_le_mul_of_nonneg_left e2 (abs_nonneg _)
  have e := abs_sub_le (R.parIntegrate (s 2) (s 3) a b fun x => c *ᶠ f x).val (c.val * S) (c.val * (R.parIntegrate (s 0) (s 1) a b f).val)
  refine e.trans ((add_le_add e1 e3).trans (le_of_eq ?_))
  ring

end

section
attribute [local instance] Conformance.noLibm

/-- `0.3 x²` with the trapezoid rule, split differently in the two calls -/
example : |((AnyRule.trapezoid ⟨4, by norm_num, by norm_num⟩).parIntegrate (.split 1 .leaf .leaf) .leaf (zero false) (F64.round 0.7 false) fun x =>
      F64.round 0.3 false *ᶠ F64.mul (F64.add x (F64.round 1 false)) x).val -
    (F64.round 0.3 false).val * ((AnyRule.trapezoid ⟨4, by norm_num, by norm_num⟩).parIntegrate .leaf .leaf (zero false) (F64.round 0.7 false)
      fun x => F64.mul (F64.add x (F64.round 1 false)) x).val| ≤ 1 / 2 ^ 46 := by
  refine (C123_scale_par (.trapezoid ⟨4, by norm_num, by norm_num⟩) (N := 7) ![.leaf, .leaf, .split 1 .leaf .leaf, .leaf] (by decide +kernel)
    (zero false) (F64.round 0.7 false) (F64.round 0.3 false) (fun x => F64.mul (F64.add x (F64.round 1 false)) x)
    (show NotTiny _ by decide +kernel) (show NotTiny _ by decide +kernel) (show NotTiny _ by decide +kernel) (by decide +kernel)
    (by decide +kernel) (by decide +kernel)).trans ?_
  decide +kernel

/-- `x²` and `0.1` on `[0, 0.7]`, Simpson's rule with three panels -/
example : |((AnyRule.simpson ⟨3, by norm_num, by norm_num⟩).value (zero false) (F64.round 0.7 false) fun x =>
      F64.mul x x +ᶠ F64.round 0.1 false).val -
    (((AnyRule.simpson ⟨3, by norm_num, by norm_num⟩).value (zero false) (F64.round 0.7 false) fun x => F64.mul x x).val +
      ((AnyRule.simpson ⟨3, by norm_num, by norm_num⟩).value (zero false) (F64.round 0.7 false) fun _ => F64.round 0.1 false).val)| ≤
    1 / 2 ^ 48 := by
  refine (C123_add (.simpson ⟨3, by norm_num, by norm_num⟩) (zero false) (F64.round 0.7 false) (fun x => F64.mul x x) (fun _ => F64.round 0.1 false)
    ⟨show NotTiny _ by decide +kernel, show NotTiny _ by decide +kernel⟩ trivial trivial trivial (by decide +kernel) (by decide +kernel)
    (by decide +kernel) (by decide +kernel)).trans ?_
  decide +kernel

/-- the trapezoid rule, split differently in the three calls -/
example : |((AnyRule.trapezoid ⟨4, by norm_num, by norm_num⟩).parIntegrate (.split 1 .leaf .leaf) .leaf (zero false) (F64.round 0.7 false) fun x =>
      F64.mul x x +ᶠ F64.round 0.1 false).val -
    (((AnyRule.trapezoid ⟨4, by norm_num, by norm_num⟩).parIntegrate .leaf .leaf (zero false) (F64.round 0.7 false) fun x => F64.mul x x).val +
      ((AnyRule.trapezoid ⟨4, by norm_num, by norm_num⟩).parIntegrate (.split 2 .leaf .leaf) .leaf (zero false) (F64.round 0.7 false)
        fun _ => F64.round 0.1 false).val)| ≤ 1 / 2 ^ 46 := by
  refine (C123_add_par (.trapezoid ⟨4, by norm_num, by norm_num⟩) (N := 7)
    ![.leaf, .leaf, .split 2 .leaf .leaf, .leaf, .split 1 .leaf .leaf, .leaf] (by decide +kernel) (zero false) (F64.round 0.7 false)
    (fun x => F64.mul x x) (fun _ => F64.round 0.1 false) (show NotTiny _ by decide +kernel) (show NotTiny _ by decide +kernel)
    (show NotTiny _ by decide +kernel) (show NotTiny _ by decide +kernel) (by decide +kernel) (by decide +kernel)
    (by decide +kernel) (by decide +kernel)).trans ?_
  decide +kernel

/-- `0.3 x²` on `[0, 0.7]`, the midpoint rule with three panels -/
example : |((AnyRule.midpoint ⟨3, by norm_num, by norm_num⟩).value (zero false) (F64.round 0.7 false) fun x =>
      F64.round 0.3 false *ᶠ F64.mul x x).val -
    (F64.round 0.3 false).val * ((AnyRule.midpoint ⟨3, by norm_num, by norm_num⟩).value (zero false) (F64.round 0.7 false)
      fun x => F64.mul x x).val| ≤ 1 / 2 ^ 48 := by
  refine (C123_scale (.midpoint ⟨3, by norm_num, by norm_num⟩) (zero false) (F64.round 0.7 false) (F64.round 0.3 false) (fun x => F64.mul x x) (show NotTiny _ by decide +kernel) trivial trivial (by decide +kernel) (by decide +kernel)
    (by decide +kernel)).trans ?_
  decide +kernel

end

end GaussQuad.Props
