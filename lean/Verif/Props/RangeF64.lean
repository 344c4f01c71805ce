import Verif.Props.ApproxLinear

/-!
# C124: results in binary64 and the range of the integrand
-/

set_option exponentiation.threshold 3000

namespace GaussQuad.Props
open Spec F64 FloatOps

theorem zipWith_range {cs ys : List ℚ} {lo hi : ℚ} (hc : ∀ c ∈ cs, 0 ≤ c) (hy : ∀ y ∈ ys, lo ≤ y ∧ y ≤ hi) (hl : cs.length = ys.length) :
    lo * cs.sum ≤ (List.zipWith (· * ·) cs ys).sum ∧ (List.zipWith (· * ·) cs ys).sum ≤ hi * cs.sum ∧
      (List.zipWith (fun c y => |c * y|) cs ys).sum ≤ max |lo| |hi| * cs.sum := by
  induction cs generalizing ys with
  | nil => simp
  | cons c cs ih =>
    cases ys with
    | nil => simp at hl
    | cons y ys =>
      obtain ⟨h1, h2, h3⟩ := ih (ys := ys) (fun c h => hc c (by simp [h])) (fun y h => hy y (by simp [h])) (by simpa using hl)
      have c0 := hc c (by simp)
      obtain ⟨y1, y2⟩ := hy y (by simp)
      simp only [List.zipWith_cons_cons, List.sum_cons]
      have a1 := mul_le_mul_of_nonneg_left y1 c0
      have a2 := mul_le_mul_of_nonneg_left y2 c0
      have a3 : |c * y| ≤ c * max |lo| |hi| := by
        rw [abs_mul, abs_of_nonneg c0]
        exact mul_le_mul_of_nonneg_left (abs_le_max_abs_abs y1 y2) c0
      refine ⟨?_, ?_, ?_⟩ <;> linarith

section
variable [L : Libm]

theorem coefficients_length (a b : F64) (R : AnyRule F64) : (coefficients a b R).length = (points a b R).length := by
  cases R <;> simp [coefficients, points]

/-- C124: if the coefficients are nonnegative and the values of the integrand lie between `lo` and `hi`, then the result lies between
`lo` and `hi` times the sum of the coefficients, up to the roundings. -/
theorem C124_range (R : AnyRule F64) (a b : F64) (f : F64 → F64) (h1 : StepNormal a b R) (h2 : TermsNormal a b f R)
    (hf : (R.value a b f).isFinite = true) (hc : ∀ c ∈ coefficients a b R, 0 ≤ c) {lo hi : ℚ}
    (hv : ∀ x ∈ points a b R, lo ≤ (f x).val ∧ (f x).val ≤ hi) {k : ℕ} (hk : k = sumLength R + 9) (hku : k * u < 1) :
    let W := (coefficients a b R).sum
    let E := k * u / (1 - k * u) * (max |lo| |hi| * W) + 1 / 2 ^ 1075
    lo * W - E ≤ (R.value a b f).val ∧ (R.value a b f).val ≤ hi * W + E := by
  intro W E
  have h := C122_forward R a b f h1 h2 hf
  obtain ⟨r1, r2, r3⟩ := zipWith_range (lo := lo) (hi := hi) (ys := (points a b R).map fun x => (f x).val) hc
    (fun y hy => by obtain ⟨x, hx, rfl⟩ := List.mem_map.1 hy; exact hv x hx) (by rw [List.length_map, coefficients_length])
  rw [← hk] at h
  have g := gamma_bound hku
  have g0 : 0 ≤ (1 + u) ^ k - 1 := by linarith [one_le_pow_u k]
  have n0 := zipWith_abs_nonneg (coefficients a b R) ((points a b R).map fun x => (f x).val)
  have e1 : ((1 + u) ^ k - 1) * (List.zipWith (fun c y => |c * y|) (coefficients a b R) ((points a b R).map fun x => (f x).val)).sum ≤
      k * u / (1 - k * u) * (max |lo| |hi| * W) := mul_le_mul g r3 n0 (g0.trans g)
  have h' := h.trans (add_le_add_left e1 _)
  change |_| ≤ E at h'
  change lo * W ≤ _ at r1
  change _ ≤ hi * W at r2
  rw [abs_le] at h'
  constructor <;> linarith [h'.1, h'.2]

omit L in
theorem composite_coefficients {a b : F64} (hab : a.val ≤ b.val) (R : AnyRule F64)
    (hR : (∃ r, R = .midpoint r) ∨ (∃ r, R = .trapezoid r) ∨ ∃ r, R = .simpson r) :
    (∀ c ∈ coefficients a b R, 0 ≤ c) ∧ (coefficients a b R).sum = b.val - a.val := by
  have key : ∀ r : NodeRule, 0 ≤ (b.val - a.val) / r.degree ∧ r.degree * ((b.val - a.val) / r.degree) = b.val - a.val ∧
      ((r.degree - 1 : ℕ) : ℚ) = r.degree - 1 := by
    intro r
    have hp : (0 : ℚ) < r.degree := by exact_mod_cast r.pos
    refine ⟨div_nonneg (by linarith) hp.le, by field_simp, ?_⟩
    rw [Nat.cast_sub r.pos]; norm_num
  rcases hR with ⟨r, rfl⟩ | ⟨r, rfl⟩ | ⟨r, rfl⟩
  · obtain ⟨k1, k2, k3⟩ := key r
    refine ⟨fun c hc => ?_, ?_⟩
    · rw [List.eq_of_mem_replicate hc]; exact k1
    · simp only [coefficients, List.sum_replicate, nsmul_eq_mul, k2]
  · obtain ⟨k1, k2, k3⟩ := key r
    refine ⟨fun c hc => ?_, ?_⟩
    · simp only [coefficients, List.mem_append, List.mem_cons, List.not_mem_nil, or_false, List.mem_replicate] at hc
      rcases hc with (rfl | rfl) | ⟨-, rfl⟩ <;> linarith
    · simp only [coefficients, List.sum_append, List.sum_cons, List.sum_nil, List.sum_replicate, nsmul_eq_mul, k3]
      linarith
  · obtain ⟨k1, k2, k3⟩ := key r
    refine ⟨fun c hc => ?_, ?_⟩
    · simp only [coefficients, List.mem_append, List.mem_cons, List.not_mem_nil, or_false, List.mem_replicate] at hc
      rcases hc with (⟨-, rfl⟩ | ⟨-, rfl⟩) | (rfl | rfl) <;> linarith
    · simp only [coefficients, List.sum_append, List.sum_cons, List.sum_nil, List.sum_replicate, nsmul_eq_mul, k3]
      linarith

/-- C124: the midpoint, trapezoid and Simpson rules: the result lies between `lo (b - a)` and `hi (b - a)` up to the roundings, whatever the
number of panels. -/
theorem C124_composite (R : AnyRule F64) (hR : (∃ r, R = .midpoint r) ∨ (∃ r, R = .trapezoid r) ∨ ∃ r, R = .simpson r) (a b : F64)
    (hab : a.val ≤ b.val) (f : F64 → F64) (h1 : StepNormal a b R) (h2 : TermsNormal a b f R) (hf : (R.value a b f).isFinite = true)
    {lo hi : ℚ} (hv : ∀ x ∈ points a b R, lo ≤ (f x).val ∧ (f x).val ≤ hi) {k : ℕ} (hk : k = sumLength R + 9) (hku : k * u < 1) :
    let E := k * u / (1 - k * u) * (max |lo| |hi| * (b.val - a.val)) + 1 / 2 ^ 1075
    lo * (b.val - a.val) - E ≤ (R.value a b f).val ∧ (R.value a b f).val ≤ hi * (b.val - a.val) + E := by
  obtain ⟨c1, c2⟩ := composite_coefficients hab R hR
  have := C124_range R a b f h1 h2 hf c1 hv hk hku
  rw [c2] at this
  exact this

/-- C124: a constant integrand: the relative error is that of the roundings -/
theorem C124_constant (R : AnyRule F64) (hR : (∃ r, R = .midpoint r) ∨ (∃ r, R = .trapezoid r) ∨ ∃ r, R = .simpson r) (a b v : F64)
    (hab : a.val ≤ b.val) (h1 : StepNormal a b R) (h2 : TermsNormal a b (fun _ => v) R)
    (hf : (R.value a b fun _ => v).isFinite = true) {k : ℕ} (hk : k = sumLength R + 9) (hku : k * u < 1) :
    |(R.value a b fun _ => v).val - v.val * (b.val - a.val)| ≤ k * u / (1 - k * u) * |v.val * (b.val - a.val)| + 1 / 2 ^ 1075 := by
  have := C124_composite R hR a b hab (fun _ => v) h1 h2 hf (lo := v.val) (hi := v.val) (fun _ _ => ⟨le_refl _, le_refl _⟩) hk hku
  simp only [max_self] at this
  rw [abs_mul, abs_of_nonneg (show 0 ≤ b.val - a.val by linarith), abs_le]
  constructor <;> linarith [this.1, this.2]

/-- C124 for `par_integrate`, with at most `N` roundings in each tree -/
theorem C124_range_par (R : AnyRule F64) {N : ℕ} (s s' : Schedule) (hN : roundings s (sumLength R) ≤ N) (hN' : roundings s' (sumLength R) ≤ N)
    (a b : F64) (f : F64 → F64) (h1 : StepNormal a b R) (h2 : TermsNormal a b f R) (hf : (R.parIntegrate s s' a b f).isFinite = true)
    (hc : ∀ c ∈ coefficients a b R, 0 ≤ c) {lo hi : ℚ} (hv : ∀ x ∈ points a b R, lo ≤ (f x).val ∧ (f x).val ≤ hi)
    {k : ℕ} (hk : k = N + 9) (hku : k * u < 1) :
    let W := (coefficients a b R).sum
    let E := k * u / (1 - k * u) * (max |lo| |hi| * W) + 1 / 2 ^ 1075
    lo * W - E ≤ (R.parIntegrate s s' a b f).val ∧ (R.parIntegrate s s' a b f).val ≤ hi * W + E := by
  intro W E
  have h := forward_par_of_near (k := 0) (v := fun x => (f x).val) hN hN' h1 h2 hf fun x _ => RelClose.refl _ _
  obtain ⟨r1, r2, r3⟩ := zipWith_range (lo := lo) (hi := hi) (ys := (points a b R).map fun x => (f x).val) hc
    (fun y hy => by obtain ⟨x, hx, rfl⟩ := List.mem_map.1 hy; exact hv x hx) (by rw [List.length_map, coefficients_length])
  rw [Nat.add_zero, ← hk] at h
  have g := gamma_bound hku
  have g0 : 0 ≤ (1 + u) ^ k - 1 := by linarith [one_le_pow_u k]
  have n0 := zipWith_abs_nonneg (coefficients a b R) ((points a b R).map fun x => (f x).val)
  have e1 : ((1 + u) ^ k - 1) * (List.zipWith (fun c y => |c * y|) (coefficients a b R) ((points a b R).map fun x => (f x).val)).sum ≤
      k * u / (1 - k * u) * (max |lo| |hi| * W) := mul_le_mul g r3 n0 (g0.trans g)
  have h' := h.trans (add_le_add_left e1 _)
  change |_| ≤ E at h'
  change lo * W ≤ _ at r1
  change _ ≤ hi * W at r2
  rw [abs_le] at h'
  constructor <;> linarith [h'.1, h'.2]

/-- C124: the midpoint, trapezoid and Simpson rules with `par_integrate` -/
theorem C124_composite_par (R : AnyRule F64) (hR : (∃ r, R = .midpoint r) ∨ (∃ r, R = .trapezoid r) ∨ ∃ r, R = .simpson r) {N : ℕ}
    (s s' : Schedule) (hN : roundings s (sumLength R) ≤ N) (hN' : roundings s' (sumLength R) ≤ N) (a b : F64)
    (hab : a.val ≤ b.val) (f : F64 → F64) (h1 : StepNormal a b R) (h2 : TermsNormal a b f R)
    (hf : (R.parIntegrate s s' a b f).isFinite = true)
    {lo hi : ℚ} (hv : ∀ x ∈ points a b R, lo ≤ (f x).val ∧ (f x).val ≤ hi) {k : ℕ} (hk : k = N + 9) (hku : k * u < 1) :
    let E := k * u / (1 - k * u) * (max |lo| |hi| * (b.val - a.val)) + 1 / 2 ^ 1075
    lo * (b.val - a.val) - E ≤ (R.parIntegrate s s' a b f).val ∧ (R.parIntegrate s s' a b f).val ≤ hi * (b.val - a.val) + E := by
  obtain ⟨c1, c2⟩ := composite_coefficients hab R hR
  have := C124_range_par R s s' hN hN' a b f h1 h2 hf c1 hv hk hku
  rw [c2] at this
  exact this

end

section
attribute [local instance] Conformance.noLibm

/-- the trapezoid rule with four panels, split after the first of its three interior points -/
example : ((AnyRule.trapezoid ⟨4, by norm_num, by norm_num⟩).parIntegrate (.split 1 .leaf .leaf) .leaf (zero false) (F64.round 0.7 false)
    fun x => F64.mul x x).val ≤ 0.344 := by
  have := (C124_composite_par (.trapezoid ⟨4, by norm_num, by norm_num⟩) (.inr (.inl ⟨_, rfl⟩)) (N := 7) (.split 1 .leaf .leaf) .leaf
    (by decide +kernel) (by decide +kernel) (zero false) (F64.round 0.7 false) (by decide +kernel)
    (fun x => F64.mul x x) (show NotTiny _ by decide +kernel) (show NotTiny _ by decide +kernel) (by decide +kernel) (lo := 0) (hi := 0.491)
    (by decide +kernel) (k := 16) rfl (by unfold u; norm_num)).2
  refine this.trans ?_
  decide +kernel

/-- `x²` on `[0, 0.7]`, between 0 and 0.49 plus a rounding, Simpson's rule with three panels -/
example : ((AnyRule.simpson ⟨3, by norm_num, by norm_num⟩).value (zero false) (F64.round 0.7 false) fun x => F64.mul x x).val ≤ 0.344 := by
  have := (C124_composite (.simpson ⟨3, by norm_num, by norm_num⟩) (.inr (.inr ⟨_, rfl⟩)) (zero false) (F64.round 0.7 false) (by decide +kernel)
    (fun x => F64.mul x x) ⟨show NotTiny _ by decide +kernel, show NotTiny _ by decide +kernel⟩ trivial (by decide +kernel) (lo := 0) (hi := 0.491)
    (by decide +kernel) (k := 11) rfl (by unfold u; norm_num)).2
  refine this.trans ?_
  decide +kernel

/-- stored pairs with nonnegative weights: the coefficients on `[0, 2]` are the weights -/
example : (∀ c ∈ coefficients (zero false) (F64.round 2 false)
      (.legendre ⟨[(F64.round (-0.3) false, F64.round 0.7 false), (F64.round 0.6 false, F64.round 1.1 false)]⟩), 0 ≤ c) ∧
    0 ≤ ((AnyRule.legendre ⟨[(F64.round (-0.3) false, F64.round 0.7 false), (F64.round 0.6 false, F64.round 1.1 false)]⟩).value
      (zero false) (F64.round 2 false) id).val := by
  have h0 : ∀ c ∈ coefficients (zero false) (F64.round 2 false)
      (.legendre ⟨[(F64.round (-0.3) false, F64.round 0.7 false), (F64.round 0.6 false, F64.round 1.1 false)]⟩), 0 ≤ c := by decide +kernel
  refine ⟨h0, ?_⟩
  have := (C124_range (.legendre ⟨[(F64.round (-0.3) false, F64.round 0.7 false), (F64.round 0.6 false, F64.round 1.1 false)]⟩)
    (zero false) (F64.round 2 false) id (show NotTiny _ by decide +kernel) (show ∀ q ∈ List.zip _ _, NotTiny _ by decide +kernel)
    (by decide +kernel) h0 (lo := 0.6) (hi := 1.7) (by decide +kernel) (k := 11) rfl (by unfold u; norm_num)).1
  refine le_trans ?_ this
  decide +kernel

/-- the constant 0.1 on `[0, 0.7]`, the trapezoid rule with three panels -/
example : |((AnyRule.trapezoid ⟨3, by norm_num, by norm_num⟩).value (zero false) (F64.round 0.7 false) fun _ => F64.round 0.1 false).val -
    (F64.round 0.1 false).val * ((F64.round 0.7 false).val - (zero false).val)| ≤ 1 / 2 ^ 53 := by
  refine (C124_constant (.trapezoid ⟨3, by norm_num, by norm_num⟩) (.inr (.inl ⟨_, rfl⟩)) (zero false) (F64.round 0.7 false) (F64.round 0.1 false)
    (by decide +kernel) (show NotTiny _ by decide +kernel) (show NotTiny _ by decide +kernel) (by decide +kernel) (k := 11) rfl
    (by unfold u; norm_num)).trans ?_
  decide +kernel

end

end GaussQuad.Props
