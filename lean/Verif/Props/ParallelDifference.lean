import Verif.Props.ParallelError
import Verif.Props.ExactSums

/-!
# C25, IEEE part for every rule: how far `par_integrate` can be from `integrate`

`C25_hermite_difference` treats a rule whose result is the sum itself.  Here the multiplications and additions after the sum
are included.
-/

set_option exponentiation.threshold 3000

namespace GaussQuad.Props
open Spec F64 FloatOps

/-! ## Products -/

theorem finite_of_mul {x y : F64} (h : (F64.mul x y).isFinite = true) : x.isFinite = true ∧ y.isFinite = true := by
  have key : ∀ {x : F64}, x.isFinite = false → x.isNaN = true ∨ x.isInf = true := by
    intro x hx
    by_cases hn : x.isNaN = true
    · exact .inl hn
    · rw [Bool.not_eq_true] at hn
      rcases nan_trichotomy x hn with h | h
      · exact .inr h
      · rw [hx] at h; cases h
  have n1 : nan.isFinite = false := by decide
  have n2 := inf_nonfinite
  by_contra hc
  have hc' : x.isFinite = false ∨ y.isFinite = false := by
    by_contra h'
    push Not at h'
    exact hc ⟨by simpa using h'.1, by simpa using h'.2⟩
  have : (F64.mul x y).isFinite = false := by
    have h4 : (x.isNaN = true ∨ y.isNaN = true) ∨ (x.isInf = true ∨ y.isInf = true) := by
      rcases hc' with h | h
      · rcases key h with h | h
        · exact .inl (.inl h)
        · exact .inr (.inl h)
      · rcases key h with h | h
        · exact .inl (.inr h)
        · exact .inr (.inr h)
    unfold F64.mul
    rcases h4 with h | h
    · rw [if_pos (by simpa using h)]; exact n1
    · by_cases c : (x.isNaN || y.isNaN) = true
      · rw [if_pos c]; exact n1
      · rw [if_neg c]
        have e : ∀ (b₁ : Bool) (s : Bool), (if b₁ = true then nan else inf s).isFinite = false := by
          intro b₁ s
          cases b₁
          · exact n2 s
          · exact n1
        by_cases c' : x.isInf = true
        · rw [if_pos c']; exact e _ _
        · rw [if_neg c', if_pos (h.resolve_left c')]; exact e _ _
  rw [h] at this; cases this

/-- one rounding: relative error `u` plus half the smallest subnormal number -/
theorem round_error_abs {q : ℚ} {s : Bool} (hf : (F64.round q s).isFinite = true) : |(F64.round q s).val - q| ≤ u * |q| + 1 / 2 ^ 1075 := by
  by_cases hq : q = 0
  · subst hq; rw [round_zero, val_zero]; simp
  by_cases hn : 1 / 2 ^ 1022 ≤ |q|
  · exact (round_error_normal hf hn).trans (by simp)
  obtain ⟨K, e, h1, h2, h3⟩ := round_error_units hf hq
  rcases h2 with rfl | h2
  · rw [pow_zero] at h3
    rw [← h1] at h3
    rw [abs_sub_comm]
    have : |q - (F64.round q s).val| ≤ 1 / 2 ^ 1075 := by
      rw [le_div_iff₀ (by positivity), show (2 : ℚ) ^ 1075 = 2 ^ 1074 * 2 by rw [← pow_succ]]
      linarith
    have := mul_nonneg u_pos.le (abs_nonneg q)
    linarith
  · exfalso
    apply hn
    rw [div_le_iff₀ (by positivity)]
    have e1 : (2 : ℚ) ^ 1074 = 2 ^ 52 * 2 ^ 1022 := by rw [← pow_add]
    rw [pow_add, e1] at h2
    have h4 : (1 : ℚ) ≤ 2 ^ e := one_le_pow₀ (by norm_num)
    have h5 : (0 : ℚ) < 2 ^ 52 := by positivity
    have h6 : (2 : ℚ) ^ 52 * 1 ≤ 2 ^ 52 * (|q| * 2 ^ 1022) := by nlinarith
    exact le_of_mul_le_mul_left h6 h5

theorem onGrid_val (x : F64) : OnGrid 1074 x.val := by
  rw [val_eq]
  split_ifs
  · exact ⟨-(magInt x.mag : ℤ), by push_cast; ring⟩
  · exact ⟨(magInt x.mag : ℤ), by push_cast; ring⟩

/-- multiples of the smallest subnormal number are rounded with relative error `u` -/
theorem round_error_grid {q : ℚ} {s : Bool} (hf : (F64.round q s).isFinite = true) (hq : OnGrid 1074 q) :
    |(F64.round q s).val - q| ≤ u * |q| := by
  by_cases hn : 1 / 2 ^ 1022 ≤ |q|
  · exact round_error_normal hf hn
  · have h : |q| ≤ 2 ^ 53 / 2 ^ 1074 := by
      refine (not_le.1 hn).le.trans ?_
      rw [div_le_div_iff₀ (by positivity) (by positivity), one_mul, ← pow_add]
      exact pow_le_pow_right₀ (by norm_num) (by norm_num)
    rw [(round_fits le_rfl hq h s).2, _root_.sub_self, abs_zero]
    exact mul_nonneg u_pos.le (abs_nonneg q)

/-- multiplying a sum by a small whole number -/
theorem Within.mulNat {k c : ℕ} {w x : F64} {e m : ℚ} (hw : w.val = c) (hf : (F64.mul w x).isFinite = true)
    (h : Within k x.val e m) : Within (k + 1) (F64.mul w x).val (c * e) (c * m) := by
  obtain ⟨fw, fx⟩ := finite_of_mul hf
  have hc : (0 : ℚ) ≤ c := Nat.cast_nonneg c
  have hg : OnGrid 1074 (w.val * x.val) := by
    rw [hw]
    obtain ⟨z, hz⟩ := onGrid_val x
    exact ⟨c * z, by rw [hz]; push_cast; ring⟩
  have herr : |(F64.mul w x).val - c * x.val| ≤ u * (c * |x.val|) := by
    rw [mul_fin fw fx] at hf ⊢
    have := round_error_grid hf hg
    rw [hw] at this ⊢
    rwa [abs_mul, abs_of_nonneg hc] at this
  obtain ⟨h1, h2⟩ := h
  refine ⟨?_, by rw [abs_mul, abs_of_nonneg hc]; exact mul_le_mul_of_nonneg_left h2 hc⟩
  set V := (1 + u) ^ k with hV
  have hV1 : 1 ≤ V := one_le_pow₀ (by linarith [u_pos])
  have hx : |x.val| ≤ V * m := by
    have : x.val = (x.val - e) + e := by ring
    rw [this]
    refine (abs_add_le _ _).trans ?_
    linarith
  have e1 : (F64.mul w x).val - c * e = ((F64.mul w x).val - c * x.val) + c * (x.val - e) := by ring
  rw [e1]
  refine (abs_add_le _ _).trans ?_
  rw [abs_mul, abs_of_nonneg hc, pow_succ, ← hV]
  have a1 := mul_le_mul_of_nonneg_left (mul_le_mul_of_nonneg_left hx hc) u_pos.le
  have a2 := mul_le_mul_of_nonneg_left h1 hc
  calc _ ≤ u * (c * (V * m)) + c * ((V - 1) * m) := by linarith
    _ = _ := by ring

/-- the final multiplication -/
theorem final_error {k : ℕ} {S F : F64} {e m : ℚ} (hf : (F64.mul S F).isFinite = true)
    (h : S.isFinite = true → Within k S.val e m) :
    |(F64.mul S F).val - F.val * e| ≤ |F.val| * (((1 + u) ^ (k + 1) - 1) * m) + 1 / 2 ^ 1075 := by
  obtain ⟨fS, fF⟩ := finite_of_mul hf
  obtain ⟨h1, h2⟩ := h fS
  have herr : |(F64.mul S F).val - S.val * F.val| ≤ u * (|S.val| * |F.val|) + 1 / 2 ^ 1075 := by
    rw [mul_fin fS fF] at hf ⊢
    have := round_error_abs hf
    rwa [abs_mul] at this
  set V := (1 + u) ^ k with hV
  have hx : |S.val| ≤ V * m := by
    have : S.val = (S.val - e) + e := by ring
    rw [this]
    refine (abs_add_le _ _).trans ?_
    linarith
  have e1 : (F64.mul S F).val - F.val * e = ((F64.mul S F).val - S.val * F.val) + F.val * (S.val - e) := by ring
  rw [e1]
  refine (abs_add_le _ _).trans ?_
  rw [abs_mul, pow_succ, ← hV]
  have hF := abs_nonneg F.val
  have a1 := mul_le_mul_of_nonneg_left (mul_le_mul_of_nonneg_right hx hF) u_pos.le
  have a2 := mul_le_mul_of_nonneg_left h1 hF
  calc _ ≤ u * (V * m * |F.val|) + |F.val| * ((V - 1) * m) + 1 / 2 ^ 1075 := by linarith
    _ = _ := by ring

theorem two_halves : (1 : ℚ) / 2 ^ 1075 + 1 / 2 ^ 1075 = 1 / 2 ^ 1074 := by
  rw [pow_succ]; field_simp; norm_num

theorem final_difference {k k' : ℕ} {S S' F : F64} {e m : ℚ} (hf : (F64.mul S F).isFinite = true) (hf' : (F64.mul S' F).isFinite = true)
    (h : S.isFinite = true → Within k S.val e m) (h' : S'.isFinite = true → Within k' S'.val e m) :
    |(F64.mul S F).val - (F64.mul S' F).val| ≤
      |F.val| * ((((1 + u) ^ (k + 1) - 1) + ((1 + u) ^ (k' + 1) - 1)) * m) + 1 / 2 ^ 1074 := by
  have a := final_error hf h
  have b := final_error hf' h'
  have : (F64.mul S F).val - (F64.mul S' F).val =
      ((F64.mul S F).val - F.val * e) - ((F64.mul S' F).val - F.val * e) := by ring
  rw [this]
  refine (abs_sub _ _).trans ?_
  rw [← two_halves, add_mul, mul_add]
  linarith

section
variable [L : Libm]

theorem seqSum_within {ys : List F64} (hf : (ys.foldl (· +ᶠ ·) sumInit).isFinite = true) :
    Within ys.length (ys.foldl (· +ᶠ ·) sumInit).val (ys.map F64.val).sum (ys.map fun y => |y.val|).sum := by
  have := (foldl_within ys 0 (F64.zero true) 0 0 hf (fun _ => within_negZero 0)).1
  simp only [zero_add] at this
  exact this

theorem parSum_within' {α : Type} (v : α → F64) (s : Schedule) {xs : List α} (hf : (parSumMap s xs v).isFinite = true) :
    Within (roundings s xs.length) (parSumMap s xs v).val ((xs.map v).map F64.val).sum ((xs.map v).map fun y => |y.val|).sum := by
  rw [List.map_map, List.map_map]
  exact parSum_within v s xs hf

/-- C25: the Gauss rules on a finite interval, binary64.  For every schedule, `par_integrate` differs from `integrate` by at most the
rounding errors of the two orders of summation and of the final multiplication, relative to the sum of the magnitudes of the terms,
and one smallest subnormal number. -/
theorem C25_gauss_difference (R : AnyRule F64) (hR : (∃ r, R = .legendre r) ∨ (∃ r, R = .chebyshevFirst r) ∨
      (∃ r, R = .chebyshevSecond r) ∨ ∃ r, R = .jacobi r) (s s' : Schedule) (a b : F64) (f : F64 → F64)
    (h1 : (R.parIntegrate s s' a b f).isFinite = true) (h2 : (R.value a b f).isFinite = true) :
    |(R.parIntegrate s s' a b f).val - (R.value a b f).val| ≤ |(lit 0.5 *ᶠ (b -ᶠ a) : F64).val| *
      ((((1 + u) ^ (roundings s (points a b R).length + 1) - 1) + ((1 + u) ^ ((points a b R).length + 1) - 1)) *
        ((summands a b f R).map fun y => |y.val|).sum)
        + 1 / 2 ^ 1074 := by
  have key : ∀ (ps : List (F64 × F64)) (pt : F64 × F64 → F64),
      (F64.mul (parSumMap s ps fun p => f (pt p) *ᶠ p.2) (lit 0.5 *ᶠ (b -ᶠ a))).isFinite = true →
      (F64.mul (weighted ps ((ps.map pt).map f)) (lit 0.5 *ᶠ (b -ᶠ a))).isFinite = true →
      |(F64.mul (parSumMap s ps fun p => f (pt p) *ᶠ p.2) (lit 0.5 *ᶠ (b -ᶠ a))).val -
          (F64.mul (weighted ps ((ps.map pt).map f)) (lit 0.5 *ᶠ (b -ᶠ a))).val| ≤ |(lit 0.5 *ᶠ (b -ᶠ a) : F64).val| *
        ((((1 + u) ^ (roundings s (ps.map pt).length + 1) - 1) + ((1 + u) ^ ((ps.map pt).length + 1) - 1)) *
          ((List.zipWith (fun x p => f x *ᶠ p.2) (ps.map pt) ps).map fun y => |y.val|).sum) + 1 / 2 ^ 1074 := by
    intro ps pt g1 g2
    rw [zipWith_map_self, List.length_map]
    rw [weighted_map_eq] at g2 ⊢
    refine final_difference g1 g2 (fun hf => parSum_within' _ s hf) (fun hf => ?_)
    have := seqSum_within hf
    rwa [List.length_map] at this
  rw [value_eq] at h2 ⊢
  have c : ∀ x y : F64, x *ᶠ y = F64.mul y x := fun x y => mulComm x y
  rcases hR with ⟨r, rfl⟩ | ⟨r, rfl⟩ | ⟨r, rfl⟩ | ⟨r, rfl⟩
  · have := key _ _ ((congrArg F64.isFinite (c _ _)).symm.trans h1) ((congrArg F64.isFinite (c _ _)).symm.trans h2)
    rw [mulComm, mulComm (weighted _ _)] at this
    exact this
  · exact key _ _ h1 h2
  · exact key _ _ h1 h2
  · have := key _ _ ((congrArg F64.isFinite (c _ _)).symm.trans h1) ((congrArg F64.isFinite (c _ _)).symm.trans h2)
    rw [mulComm, mulComm (weighted _ _)] at this
    exact this

/-- C25: Gauss-Laguerre (and Gauss-Hermite), binary64: only the two orders of summation matter. -/
theorem C25_infinite_difference (R : AnyRule F64) (hR : (∃ r, R = .hermite r) ∨ ∃ r, R = .laguerre r) (s s' : Schedule) (a b : F64)
    (f : F64 → F64) (h1 : (R.parIntegrate s s' a b f).isFinite = true) (h2 : (R.value a b f).isFinite = true) :
    |(R.parIntegrate s s' a b f).val - (R.value a b f).val| ≤
      (((1 + u) ^ roundings s (points a b R).length - 1) + ((1 + u) ^ (points a b R).length - 1)) *
        ((summands a b f R).map fun y => |y.val|).sum := by
  have key : ∀ (ps : List (F64 × F64)) (pt : F64 × F64 → F64),
      (parSumMap s ps fun p => f (pt p) *ᶠ p.2).isFinite = true → (weighted ps ((ps.map pt).map f)).isFinite = true →
      |(parSumMap s ps fun p => f (pt p) *ᶠ p.2).val - (weighted ps ((ps.map pt).map f)).val| ≤
        (((1 + u) ^ roundings s (ps.map pt).length - 1) + ((1 + u) ^ (ps.map pt).length - 1)) *
          ((List.zipWith (fun x p => f x *ᶠ p.2) (ps.map pt) ps).map fun y => |y.val|).sum := by
    intro ps pt g1 g2
    rw [zipWith_map_self, List.length_map]
    rw [weighted_map_eq] at g2 ⊢
    have p1 := (parSum_within' _ s g1).1
    have p2 := (seqSum_within g2).1
    rw [List.length_map] at p2
    have e : ∀ x y z : ℚ, x - y = (x - z) - (y - z) := by intros; ring
    rw [e _ _ ((ps.map fun p => f (pt p) *ᶠ p.2).map F64.val).sum, add_mul]
    exact (abs_sub _ _).trans (add_le_add p1 p2)
  rw [value_eq] at h2 ⊢
  rcases hR with ⟨r, rfl⟩ | ⟨r, rfl⟩
  · exact key _ _ h1 h2
  · exact key _ _ h1 h2

/-- C25: midpoint rule, binary64. -/
theorem C25_midpoint_difference (r : NodeRule) (s s' : Schedule) (a b : F64) (f : F64 → F64)
    (h1 : ((AnyRule.midpoint r).parIntegrate s s' a b f).isFinite = true) (h2 : ((AnyRule.midpoint r).value a b f).isFinite = true) :
    |((AnyRule.midpoint r).parIntegrate s s' a b f).val - ((AnyRule.midpoint r).value a b f).val| ≤
      |((b -ᶠ a) /ᶠ ofNat r.degree : F64).val| * ((((1 + u) ^ (roundings s r.degree + 1) - 1) + ((1 + u) ^ (r.degree + 1) - 1)) *
        ((points a b (.midpoint r)).map fun x => |(f x).val|).sum) + 1 / 2 ^ 1074 := by
  rw [value_eq] at h2 ⊢
  set v : ℕ → F64 := fun i => f (a +ᶠ (b -ᶠ a) /ᶠ ofNat r.degree *ᶠ (lit 0.5 +ᶠ ofNat i)) with hv
  have e : (points a b (.midpoint r)).map f = (List.range r.degree).map v := by
    simp [points, List.map_map, Function.comp_def, hv]
  have e' : (points a b (.midpoint r)).map (fun x => |(f x).val|) = ((List.range r.degree).map v).map fun y => |y.val| := by
    rw [← e, List.map_map]; rfl
  have c : combine a b (.midpoint r) ((points a b (.midpoint r)).map f) =
      F64.mul (((List.range r.degree).map v).foldl (· +ᶠ ·) sumInit) ((b -ᶠ a) /ᶠ ofNat r.degree) := by rw [e]; rfl
  rw [e']
  rw [c] at h2 ⊢
  refine final_difference (e := (((List.range r.degree).map v).map F64.val).sum) h1 h2 (fun hf => ?_) (fun hf => ?_)
  · have := parSum_within' _ s hf
    rwa [List.length_range] at this
  · have := seqSum_within hf
    rwa [List.length_map, List.length_range] at this

/-- C25: trapezoid rule, binary64. The half sum of the end points is one more term. -/
theorem C25_trapezoid_difference (r : NodeRule) (s s' : Schedule) (a b : F64) (f : F64 → F64)
    (h1 : ((AnyRule.trapezoid r).parIntegrate s s' a b f).isFinite = true) (h2 : ((AnyRule.trapezoid r).value a b f).isFinite = true) :
    |((AnyRule.trapezoid r).parIntegrate s s' a b f).val - ((AnyRule.trapezoid r).value a b f).val| ≤
      |((b -ᶠ a) /ᶠ ofNat r.degree : F64).val| *
        ((((1 + u) ^ (roundings s (r.degree - 1) + 2) - 1) + ((1 + u) ^ (r.degree + 1) - 1)) *
          (|((f a +ᶠ f b) /ᶠ lit 2.0 : F64).val| + (((points a b (.trapezoid r)).drop 2).map fun x => |(f x).val|).sum)) + 1 / 2 ^ 1074 := by
  rw [value_eq] at h2 ⊢
  set v : ℕ → F64 := fun x => f (a +ᶠ ofNat x *ᶠ ((b -ᶠ a) /ᶠ ofNat r.degree)) with hv
  have e : ((points a b (.trapezoid r)).drop 2).map f = (List.range' 1 (r.degree - 1)).map v := by
    rw [range'_one_eq]; simp [points, Function.comp_def, hv]
  have e' : ((points a b (.trapezoid r)).drop 2).map (fun x => |(f x).val|) =
      ((List.range' 1 (r.degree - 1)).map v).map fun y => |y.val| := by
    rw [← e, List.map_map]; rfl
  have c : combine a b (.trapezoid r) ((points a b (.trapezoid r)).map f) =
      F64.mul (F64.add ((f a +ᶠ f b) /ᶠ lit 2.0) (((List.range' 1 (r.degree - 1)).map v).foldl (· +ᶠ ·) sumInit))
        ((b -ᶠ a) /ᶠ ofNat r.degree) := by rw [← e, List.map_drop]; rfl
  rw [e']
  rw [c] at h2 ⊢
  have hp := r.pos
  have hd : r.degree + 1 = (r.degree - 1 + 1) + 1 := by omega
  rw [hd]
  refine final_difference (e := ((f a +ᶠ f b) /ᶠ lit 2.0 : F64).val + (((List.range' 1 (r.degree - 1)).map v).map F64.val).sum)
    (k := roundings s (r.degree - 1) + 1) h1 h2 (fun hf => ?_) (fun hf => ?_)
  · have := parSum_within' v s (add_error hf).2.1
    rw [List.length_range'] at this
    exact Within.add hf ((within_exact _).mono (Nat.zero_le _)) this
  · have := seqSum_within (add_error hf).2.1
    rw [List.length_map, List.length_range'] at this
    exact Within.add hf ((within_exact _).mono (Nat.zero_le _)) this

theorem lit_two_nat : (lit 2.0 : F64).val = (2 : ℕ) := by show (F64.round 2.0 false).val = _; decide +kernel
theorem lit_four_nat : (lit 4.0 : F64).val = (4 : ℕ) := by show (F64.round 4.0 false).val = _; decide +kernel

/-- the bracket of Simpson's rule -/
theorem bracket_within {k : ℕ} {S T m A B : F64} {e₁ m₁ e₂ m₂ : ℚ} (h1 : S.isFinite = true → Within k S.val e₁ m₁)
    (h2 : T.isFinite = true → Within k T.val e₂ m₂)
    (hf : (lit 2.0 *ᶠ S +ᶠ lit 4.0 *ᶠ T +ᶠ lit 4.0 *ᶠ m +ᶠ A +ᶠ B : F64).isFinite = true) :
    Within (k + 5) (lit 2.0 *ᶠ S +ᶠ lit 4.0 *ᶠ T +ᶠ lit 4.0 *ᶠ m +ᶠ A +ᶠ B : F64).val
      ((2 : ℕ) * e₁ + (4 : ℕ) * e₂ + (lit 4.0 *ᶠ m : F64).val + A.val + B.val)
      ((2 : ℕ) * m₁ + (4 : ℕ) * m₂ + |(lit 4.0 *ᶠ m : F64).val| + |A.val| + |B.val|) := by
  have f1 := (add_error hf).1
  have f2 := (add_error f1).1
  have f3 := (add_error f2).1
  have f4 := (add_error f3).1
  have f5 := (add_error f3).2.1
  have w1 := Within.mulNat lit_two_nat f4 (h1 (finite_of_mul f4).2)
  have w2 := Within.mulNat lit_four_nat f5 (h2 (finite_of_mul f5).2)
  have ex : ∀ (x : F64) (j : ℕ), Within j x.val x.val |x.val| := fun x j => (within_exact x).mono (Nat.zero_le j)
  exact Within.add hf (Within.add f1 (Within.add f2 (Within.add f3 w1 w2) (ex _ _)) (ex _ _)) (ex _ _)

/-- C25: Simpson's rule, binary64; its two sums may be split by different schedules. -/
theorem C25_simpson_difference (r : NodeRule) (s s' : Schedule) (a b : F64) (f : F64 → F64)
    (h1 : ((AnyRule.simpson r).parIntegrate s s' a b f).isFinite = true) (h2 : ((AnyRule.simpson r).value a b f).isFinite = true) :
    let P := (points a b (.simpson r)).map f
    let n := r.degree
    |((AnyRule.simpson r).parIntegrate s s' a b f).val - ((AnyRule.simpson r).value a b f).val| ≤
      |((b -ᶠ a) /ᶠ ofNat r.degree /ᶠ lit 6.0 : F64).val| *
        ((((1 + u) ^ (max (roundings s (n - 1)) (roundings s' (n - 1)) + 6) - 1) + ((1 + u) ^ (n + 5) - 1)) *
          (2 * ((P.take (n - 1)).map fun y => |y.val|).sum + 4 * (((P.drop (n - 1)).take (n - 1)).map fun y => |y.val|).sum +
            |(lit 4.0 *ᶠ P.getD (2 * n - 2) sumInit : F64).val| + |(f a).val| + |(f b).val|)) + 1 / 2 ^ 1074 := by
  intro P n
  rw [value_eq] at h2 ⊢
  obtain ⟨d, hd⟩ : ∃ d, r.degree = d + 1 := ⟨r.degree - 1, by have := r.pos; omega⟩
  set pe : ℕ → F64 := fun node => a +ᶠ ofNat node *ᶠ ((b -ᶠ a) /ᶠ ofNat r.degree) with hpe
  set pm : ℕ → F64 := fun node => a +ᶠ (lit 2.0 *ᶠ ofNat node -ᶠ lit 1.0) *ᶠ ((b -ᶠ a) /ᶠ ofNat r.degree) /ᶠ lit 2.0 with hpm
  have ep : P = (List.range' 1 d).map (fun i => f (pe i)) ++
      ((List.range' 1 d).map (fun i => f (pm i)) ++ [f (pm (d + 1))]) ++ [f a, f b] := by
    rw [range'_one_eq]
    simp only [P, points, hd, Nat.add_sub_cancel, List.range_succ, List.map_append, List.map_map, List.map_cons, List.map_nil,
      Function.comp_def, hpe, hpm]
  obtain ⟨l1, l2, l3, l4, l5, -⟩ := simpson_lists (d := d) (E := (List.range' 1 d).map fun i => f (pe i))
    (M := (List.range' 1 d).map fun i => f (pm i)) (m := f (pm (d + 1))) (u := f a) (v := f b) (z := (sumInit : F64)) (by simp) (by simp)
  have hn : r.degree - 1 = d := by omega
  have c : combine a b (.simpson r) P =
      F64.mul ((b -ᶠ a) /ᶠ ofNat r.degree /ᶠ lit 6.0)
        (lit 2.0 *ᶠ ((List.range' 1 d).map fun i => f (pe i)).foldl (· +ᶠ ·) sumInit +ᶠ
          lit 4.0 *ᶠ ((List.range' 1 d).map fun i => f (pm i)).foldl (· +ᶠ ·) sumInit +ᶠ
          lit 4.0 *ᶠ f (pm r.degree) +ᶠ f a +ᶠ f b) := by
    simp only [combine, ep, hn]
    rw [hd, l1, l2, l3, l4, l5]; rfl
  have cp : (AnyRule.simpson r).parIntegrate s s' a b f =
      F64.mul ((b -ᶠ a) /ᶠ ofNat r.degree /ᶠ lit 6.0)
        (lit 2.0 *ᶠ parSumMap s (List.range' 1 d) (fun i => f (pe i)) +ᶠ
          lit 4.0 *ᶠ parSumMap s' (List.range' 1 d) (fun i => f (pm i)) +ᶠ
          lit 4.0 *ᶠ f (pm r.degree) +ᶠ f a +ᶠ f b) := by
    rw [← hn]; rfl
  change (combine a b (.simpson r) P).isFinite = true at h2
  change |_ - (combine a b (.simpson r) P).val| ≤ _
  rw [c] at h2 ⊢
  rw [cp] at h1 ⊢
  have hn' : n - 1 = d := hn
  have hn2 : n = d + 1 := hd
  rw [hn', hn2, ep, l1, l2, l3, ← hd]
  rw [mulComm] at h1 h2
  rw [mulComm, mulComm ((b -ᶠ a) /ᶠ ofNat r.degree /ᶠ lit 6.0)]
  rw [show r.degree + 5 = (d + 5) + 1 by omega]
  have hl : (List.range' 1 d).length = d := List.length_range'
  refine final_difference (k := max (roundings s d) (roundings s' d) + 5)
    (e := (2 : ℕ) * (((List.range' 1 d).map fun i => f (pe i)).map F64.val).sum +
      (4 : ℕ) * (((List.range' 1 d).map fun i => f (pm i)).map F64.val).sum + (lit 4.0 *ᶠ f (pm r.degree) : F64).val + (f a).val + (f b).val)
    h1 h2 (fun hf => ?_) (fun hf => ?_)
  · refine bracket_within (fun h => ?_) (fun h => ?_) hf
    · have := parSum_within' _ s h
      rw [hl] at this
      exact this.mono (le_max_left _ _)
    · have := parSum_within' _ s' h
      rw [hl] at this
      exact this.mono (le_max_right _ _)
  · refine bracket_within (fun h => ?_) (fun h => ?_) hf
    · have := seqSum_within h
      rwa [List.length_map, hl] at this
    · have := seqSum_within h
      rwa [List.length_map, hl] at this

end

section
attribute [local instance] Conformance.noLibm

/-- two stored pairs on `[0, 2]` for `x`, split after the first -/
example : |((AnyRule.legendre ⟨[(F64.round (-0.3) false, F64.round 0.7 false), (F64.round 0.6 false, F64.round 1.1 false)]⟩).parIntegrate
      (.split 1 .leaf .leaf) .leaf (zero false) (F64.round 2 false) id).val -
    ((AnyRule.legendre ⟨[(F64.round (-0.3) false, F64.round 0.7 false), (F64.round 0.6 false, F64.round 1.1 false)]⟩).value
      (zero false) (F64.round 2 false) id).val| ≤ 1 / 2 ^ 48 := by
  refine (C25_gauss_difference _ (.inl ⟨_, rfl⟩) _ _ _ _ _ (by decide +kernel) (by decide +kernel)).trans ?_
  decide +kernel

example : |((AnyRule.hermite ⟨[(F64.round (-0.3) false, F64.round 0.7 false), (F64.round 0.6 false, F64.round 1.1 false)]⟩).parIntegrate
      (.split 1 .leaf .leaf) .leaf (zero false) (zero false) id).val -
    ((AnyRule.hermite ⟨[(F64.round (-0.3) false, F64.round 0.7 false), (F64.round 0.6 false, F64.round 1.1 false)]⟩).value
      (zero false) (zero false) id).val| ≤ 1 / 2 ^ 48 := by
  refine (C25_infinite_difference _ (.inl ⟨_, rfl⟩) _ _ _ _ _ (by decide +kernel) (by decide +kernel)).trans ?_
  decide +kernel

/-- `x²` on `[0, 0.7]` with three panels, each rule split after the first point -/
example : |((AnyRule.midpoint ⟨3, by norm_num, by norm_num⟩).parIntegrate (.split 1 .leaf .leaf) .leaf (zero false)
      (F64.round 0.7 false) fun x => F64.mul x x).val -
    ((AnyRule.midpoint ⟨3, by norm_num, by norm_num⟩).value (zero false) (F64.round 0.7 false) fun x => F64.mul x x).val| ≤ 1 / 2 ^ 50 := by
  refine (C25_midpoint_difference _ _ _ _ _ _ (by decide +kernel) (by decide +kernel)).trans ?_
  decide +kernel

example : |((AnyRule.trapezoid ⟨3, by norm_num, by norm_num⟩).parIntegrate (.split 1 .leaf .leaf) .leaf (zero false)
      (F64.round 0.7 false) fun x => F64.mul x x).val -
    ((AnyRule.trapezoid ⟨3, by norm_num, by norm_num⟩).value (zero false) (F64.round 0.7 false) fun x => F64.mul x x).val| ≤ 1 / 2 ^ 50 := by
  refine (C25_trapezoid_difference _ _ _ _ _ _ (by decide +kernel) (by decide +kernel)).trans ?_
  decide +kernel

example : |((AnyRule.simpson ⟨3, by norm_num, by norm_num⟩).parIntegrate (.split 1 .leaf .leaf) .leaf (zero false)
      (F64.round 0.7 false) fun x => F64.mul x x).val -
    ((AnyRule.simpson ⟨3, by norm_num, by norm_num⟩).value (zero false) (F64.round 0.7 false) fun x => F64.mul x x).val| ≤ 1 / 2 ^ 49 := by
  refine (C25_simpson_difference _ _ _ _ _ _ (by decide +kernel) (by decide +kernel)).trans ?_
  decide +kernel

end

end GaussQuad.Props
