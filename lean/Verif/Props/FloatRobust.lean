import Verif.Proofs.F64Combine
import Verif.Props.Protocol
import Verif.Props.LegendreF64Order
import Verif.Props.ChebyshevF64
import Verif.Props.GammaF64
import Verif.Props.LaguerreF64
import Verif.Proofs.TrigExists

/-!
# C77, C78, C79: what binary64 integration does exactly, without any error bound

C77: a NaN or an infinity never disappears.  C78: a pointwise larger integrand never gives a smaller result.
C79: the negated integrand gives the negated result.
-/

set_option exponentiation.threshold 3000

namespace GaussQuad.Props
open Spec F64 FloatOps

/-! ## C77 -/

theorem nan_sticky : Sticky (fun x => x.isNaN = true) :=
  ⟨fun _ h => add_nan (.inl h), fun _ h => mul_nan (.inl h), fun _ _ h => div_nan (.inl h)⟩

theorem nonfinite_cases {x : F64} (h : x.isFinite = false) : x.isNaN = true ∨ x = inf x.sign := by
  by_cases hn : x.isNaN = true
  · exact .inl hn
  · rw [Bool.not_eq_true] at hn
    rcases nan_trichotomy x hn with hi | hf
    · exact .inr (eq_inf hi)
    · rw [h] at hf; cases hf

theorem nonfinite_of_nan {x : F64} (h : x.isNaN = true) : x.isFinite = false := by
  by_contra hc; rw [Bool.not_eq_false] at hc; rw [isNaN_of_finite hc] at h; cases h

theorem inf_nonfinite (s : Bool) : (inf s).isFinite = false := by cases s <;> decide

theorem nonfinite_sticky : Sticky (fun x => x.isFinite = false) := by
  refine ⟨fun {x} y h => ?_, fun {x} y h => ?_, fun {x} y hy h => ?_⟩
  · rcases nonfinite_cases h with h | h
    · exact nonfinite_of_nan (add_nan (.inl h))
    · rw [h]
      by_cases hn : (add (inf x.sign) y).isNaN = true
      · exact nonfinite_of_nan hn
      · rw [Bool.not_eq_true] at hn; rw [add_inf_left hn]; exact inf_nonfinite _
  · rcases nonfinite_cases h with h | h
    · exact nonfinite_of_nan (mul_nan (.inl h))
    · rw [h]
      by_cases hn : (mul (inf x.sign) y).isNaN = true
      · exact nonfinite_of_nan hn
      · rw [Bool.not_eq_true] at hn; rw [mulComm] at hn ⊢; rw [(mul_inf_right hn).2]; exact inf_nonfinite _
  · rcases nonfinite_cases h with h | h
    · exact nonfinite_of_nan (div_nan (.inl h))
    · rw [h]
      unfold F64.div
      simp only [inf_isNaN, isNaN_of_finite hy, Bool.or_self, Bool.false_eq_true, if_false, inf_isInf, if_true, isInf_of_finite hy]
      exact inf_nonfinite _

theorem callAll_length {σ F : Type} (f : Closure σ F) (xs : List F) : ∀ s, (callAll f s xs).1.length = xs.length := by
  induction xs with
  | nil => intro s; rfl
  | cons x xs ih => intro s; simp [callAll, ih]

section
variable [L : Libm]

/-- C77: if `integrate` returns a finite number then every value the integrand returned was finite, every stored weight is
finite, and (for a rule with bounds) both bounds and their computed difference are finite.  For every rule whatever is stored in
it, every stateful integrand and every math backend. -/
theorem C77_finite_result {σ : Type} (R : AnyRule F64) (a b : F64) (f : Closure σ F64) (s : σ)
    (h : ((R.integrate a b (logged f)).run ([], s)).1.isFinite = true) :
    (∀ v ∈ (callAll f s (points a b R)).1, v.isFinite = true) ∧ (∀ w ∈ storedWeights R, w.isFinite = true) ∧
    (hasBounds R = true → a.isFinite = true ∧ b.isFinite = true ∧ (b -ᶠ a).isFinite = true) := by
  rw [C15_state_threading] at h
  have hlen := callAll_length f (points a b R) s
  refine ⟨fun v hv => ?_, fun w hw => ?_, fun hR => ?_⟩
  · by_contra hc; rw [Bool.not_eq_true] at hc
    have := nonfinite_sticky.combine R hlen (.inl ⟨v, hv, hc⟩); rw [this] at h; cases h
  · by_contra hc; rw [Bool.not_eq_true] at hc
    have := nonfinite_sticky.combine R hlen (.inr ⟨w, hw, hc⟩); rw [this] at h; cases h
  · have hd : (b -ᶠ a).isFinite = true := by
      by_contra hc; rw [Bool.not_eq_true] at hc
      have := nonfinite_sticky.combine_bounds R hR hc (callAll f s (points a b R)).1; rw [this] at h; cases h
    refine ⟨?_, ?_, hd⟩
    · by_contra hc; rw [Bool.not_eq_true] at hc
      have : (F64.add b (neg a)).isFinite = false := nonfinite_sticky.add_right b (x := neg a) hc
      rw [show (b -ᶠ a) = F64.add b (neg a) from rfl, this] at hd; cases hd
    · by_contra hc; rw [Bool.not_eq_true] at hc
      have : (F64.add b (neg a)).isFinite = false := nonfinite_sticky.add_left (neg a) hc
      rw [show (b -ᶠ a) = F64.add b (neg a) from rfl, this] at hd; cases hd

/-- C77 for `par_integrate`, every schedule -/
theorem C77_finite_par (R : AnyRule F64) (a b : F64) (f : F64 → F64) (s s' : Schedule)
    (h : (R.parIntegrate s s' a b f).isFinite = true) :
    (∀ x ∈ points a b R, (f x).isFinite = true) ∧ (∀ w ∈ storedWeights R, w.isFinite = true) ∧
    (hasBounds R = true → a.isFinite = true ∧ b.isFinite = true ∧ (b -ᶠ a).isFinite = true) := by
  refine ⟨fun v hv => ?_, fun w hw => ?_, fun hR => ?_⟩
  · by_contra hc; rw [Bool.not_eq_true] at hc
    have := nonfinite_sticky.par R s s' (f := f) (.inl ⟨v, hv, hc⟩); rw [this] at h; cases h
  · by_contra hc; rw [Bool.not_eq_true] at hc
    have := nonfinite_sticky.par R (a := a) (b := b) s s' (f := f) (.inr ⟨w, hw, hc⟩); rw [this] at h; cases h
  · have hd : (b -ᶠ a).isFinite = true := by
      by_contra hc; rw [Bool.not_eq_true] at hc
      have := nonfinite_sticky.par_bounds R hR hc s s' f; rw [this] at h; cases h
    refine ⟨?_, ?_, hd⟩
    · by_contra hc; rw [Bool.not_eq_true] at hc
      have : (F64.add b (neg a)).isFinite = false := nonfinite_sticky.add_right b (x := neg a) hc
      rw [show (b -ᶠ a) = F64.add b (neg a) from rfl, this] at hd; cases hd
    · by_contra hc; rw [Bool.not_eq_true] at hc
      have : (F64.add b (neg a)).isFinite = false := nonfinite_sticky.add_left (neg a) hc
      rw [show (b -ᶠ a) = F64.add b (neg a) from rfl, this] at hd; cases hd

/-- C77: a NaN among the returned values, the stored weights or the bounds makes the result of `integrate` NaN. -/
theorem C77_nan {σ : Type} (R : AnyRule F64) (a b : F64) (f : Closure σ F64) (s : σ)
    (h : (∃ v ∈ (callAll f s (points a b R)).1, v.isNaN = true) ∨ (∃ w ∈ storedWeights R, w.isNaN = true) ∨
      (hasBounds R = true ∧ (a.isNaN = true ∨ b.isNaN = true))) :
    ((R.integrate a b (logged f)).run ([], s)).1.isNaN = true := by
  rw [C15_state_threading]
  have hlen := callAll_length f (points a b R) s
  rcases h with h | h | ⟨hR, h⟩
  · exact nan_sticky.combine R hlen (.inl h)
  · exact nan_sticky.combine R hlen (.inr h)
  · exact nan_sticky.combine_bounds R hR (sub_nan h.symm) _

/-- C77: the same for `par_integrate` under every schedule. -/
theorem C77_nan_par (R : AnyRule F64) (a b : F64) (f : F64 → F64) (s s' : Schedule)
    (h : (∃ x ∈ points a b R, (f x).isNaN = true) ∨ (∃ w ∈ storedWeights R, w.isNaN = true) ∨
      (hasBounds R = true ∧ (a.isNaN = true ∨ b.isNaN = true))) :
    (R.parIntegrate s s' a b f).isNaN = true := by
  rcases h with h | h | ⟨hR, h⟩
  · exact nan_sticky.par R s s' (.inl h)
  · exact nan_sticky.par R s s' (.inr h)
  · exact nan_sticky.par_bounds R hR (sub_nan h.symm) s s' f

/-- Simpson with three panels and an integrand that has a pole at one of its points, `1/0 = +∞`: the result is not finite -/
example (a b : F64) (x : F64) (hx : x ∈ points a b (.simpson ⟨3, by decide, by decide⟩)) :
    (((AnyRule.simpson ⟨3, by decide, by decide⟩).integrate a b (logged (σ := Unit)
      (fun _ y => (if y = x then inf false else zero false, ())))).run ([], ())).1.isFinite = false := by
  by_contra hc
  rw [Bool.not_eq_false] at hc
  have h := (C77_finite_result _ a b _ () hc).1
  have hcall : ∀ xs : List F64, (callAll (σ := Unit) (fun _ y => (if y = x then inf false else zero false, ())) () xs).1 =
      xs.map fun y => if y = x then inf false else zero false := by
    intro xs; induction xs with
    | nil => rfl
    | cons y ys ih => simp only [callAll, List.map_cons]; rw [ih]
  rw [hcall] at h
  have := h _ (List.mem_map_of_mem hx)
  rw [if_pos rfl, inf_nonfinite] at this; cases this

/-- infinite bounds never give a finite result -/
example (r : Rule F64) (f : F64 → F64) (s s' : Schedule) : ((AnyRule.legendre r).parIntegrate s s' (zero false) (inf false) f).isFinite = false := by
  by_contra hc
  rw [Bool.not_eq_false] at hc
  have := ((C77_finite_par _ _ _ f s s' hc).2.2 rfl).2.1
  rw [inf_nonfinite] at this; cases this

/-! ## C78 -/

/-- not negative (NaN counts as not negative): IEEE `w < 0` is false -/
def NotNeg (w : F64) : Prop := w.ltb (zero false) = false

omit L in
theorem notNeg_iff {w : F64} : NotNeg w ↔ w.isNaN = true ∨ 0 ≤ w.key := by
  unfold NotNeg ltb
  have hz : (zero false).key = 0 := rfl
  rw [hz, zero_isNaN]
  cases hw : w.isNaN <;> simp

omit L in
theorem notNeg_of_key {w : F64} (h : 0 ≤ w.key) : NotNeg w := notNeg_iff.2 (.inr h)

omit L in
theorem key_round_zero (s : Bool) : (round 0 s).key = 0 := by rw [round_zero]; cases s <;> rfl

omit L in
theorem NotNeg.add {x y : F64} (hx : NotNeg x) (hy : NotNeg y) : NotNeg (F64.add x y) := by
  rw [notNeg_iff] at hx hy
  by_cases hn : (F64.add x y).isNaN = true
  · exact notNeg_iff.2 (.inl hn)
  rw [Bool.not_eq_true] at hn
  obtain ⟨nx, ny⟩ := add_args hn
  rw [nx] at hx; rw [ny] at hy
  have hx := hx.resolve_left (by simp)
  have hy := hy.resolve_left (by simp)
  have e : F64.add (zero false) (zero false) = zero false := by
    rw [add_fin (zero_isFinite _) (zero_isFinite _)]; simp only [val_zero, add_zero, round_zero]; rfl
  have := (add_mono (x := zero false) (y := zero false) ⟨zero_isNaN _, nx, hx⟩ ⟨zero_isNaN _, ny, hy⟩
    (by rw [e]; exact zero_isNaN _) hn).2.2
  rw [e] at this
  exact notNeg_of_key this

omit L in
theorem sign_of_nonneg {x : F64} (h : 0 ≤ x.key) (hz : x.isZero = false) : x.sign = false := by
  by_contra hc; rw [Bool.not_eq_false] at hc
  have := key_neg_of hc hz; omega

omit L in
theorem inf_isZero (s : Bool) : (inf s).isZero = false := by cases s <;> decide

omit L in
theorem NotNeg.mul {x y : F64} (hx : NotNeg x) (hy : NotNeg y) : NotNeg (F64.mul x y) := by
  rw [notNeg_iff] at hx hy
  by_cases hn : (F64.mul x y).isNaN = true
  · exact notNeg_iff.2 (.inl hn)
  rw [Bool.not_eq_true] at hn
  obtain ⟨nx, ny⟩ := mul_args hn
  rw [nx] at hx; rw [ny] at hy
  have hx := hx.resolve_left (by simp)
  have hy := hy.resolve_left (by simp)
  refine notNeg_of_key ?_
  have infcase : ∀ {u v : F64}, 0 ≤ u.key → 0 ≤ v.key → v.isInf = true → (F64.mul u v).isNaN = false → 0 ≤ (F64.mul u v).key := by
    intro u v hu hv hi hn
    rw [eq_inf hi] at hn hv ⊢
    obtain ⟨z, e⟩ := mul_inf_right hn
    rw [e, sign_of_nonneg hu z]
    have hs := sign_of_nonneg hv (inf_isZero _)
    have hs' : v.sign = false := hs
    rw [hs']; decide
  rcases nan_trichotomy y ny with hi | hf
  · exact infcase hx hy hi hn
  rcases nan_trichotomy x nx with hi | hf'
  · rw [mulComm] at hn ⊢; exact infcase hy hx hi hn
  rw [mul_fin hf' hf]
  have := round_key_mono (mul_nonneg (val_nonneg_of_key hx) (val_nonneg_of_key hy)) false (x.sign != y.sign)
  rwa [key_round_zero] at this

omit L in
theorem NotNeg.div {x w : F64} (hx : NotNeg x) (hw : w.isFinite = true) (hp : 0 < w.key) : NotNeg (F64.div x w) := by
  rw [notNeg_iff] at hx
  rcases hx with hx | hx
  · exact notNeg_iff.2 (.inl (div_nan (.inl hx)))
  · by_cases hn : x.isNaN = true
    · exact notNeg_iff.2 (.inl (div_nan (.inl hn)))
    rw [Bool.not_eq_true] at hn
    have h := (div_mono (x := zero false) ⟨zero_isNaN _, hn, hx⟩ hw hp).2.2
    have hz : w.isZero = false := by
      simp only [isZero, decide_eq_false_iff_not]; intro h0
      simp only [key, h0] at hp; simp at hp
    have e : F64.div (zero false) w = round 0 (false != w.sign) := by
      unfold F64.div
      simp only [zero_isNaN, isNaN_of_finite hw, isInf_of_finite hw, isInf_of_finite (zero_isFinite false), hz, val_zero, Bool.or_self,
        Bool.false_eq_true, if_false]
      rw [_root_.zero_div]; rfl
    rw [e, key_round_zero] at h
    exact notNeg_of_key h

omit L in
theorem NotNeg.sub {a b : F64} (h : Le a b) : NotNeg (F64.sub b a) := by
  show NotNeg (F64.add b (neg a))
  by_cases hn : (F64.add b (neg a)).isNaN = true
  · exact notNeg_iff.2 (.inl hn)
  rw [Bool.not_eq_true] at hn
  refine notNeg_of_key ?_
  rcases nan_trichotomy a h.1 with hi | hf
  · have ha := eq_inf hi
    cases hs : a.sign
    · rw [hs] at ha
      have hb : b = inf false := eq_inf_of_ge h.2.1 (by have := h.2.2; rw [ha, key_infF] at this; exact this)
      rw [ha, hb] at hn; exact absurd hn (by decide)
    · rw [hs] at ha
      rw [ha] at hn ⊢
      rw [show neg (inf true) = inf false from rfl] at hn ⊢
      rw [add_inf_right hn]; decide
  · have hz : F64.add a (neg a) = round 0 (a.sign && (neg a).sign) := by
      rw [add_fin hf (y := neg a) hf, neg_val]; simp
    have := (add_mono h (Le.refl (x := neg a) h.1) (by rw [hz]; exact round_isNaN _ _) hn).2.2
    rwa [hz, key_round_zero] at this

theorem lit_two_pos : 0 < (lit 2.0 : F64).key := by show 0 < (F64.round 2.0 false).key; decide +kernel
theorem lit_four_pos : 0 < (lit 4.0 : F64).key := by show 0 < (F64.round 4.0 false).key; decide +kernel
theorem lit_six_pos : 0 < (lit 6.0 : F64).key := by show 0 < (F64.round 6.0 false).key; decide +kernel
theorem lit_half_pos : 0 < (lit 0.5 : F64).key := by show 0 < (F64.round 0.5 false).key; decide +kernel

theorem ofNat_pos {n : ℕ} (h0 : 0 < n) (h : n < 2 ^ 53) : 0 < (ofNat n : F64).key := by
  have hv := (val_round_nat h false).1
  have := (key_lt_iff (zero false) (round (n : ℚ) false)).2 (by rw [val_zero, hv]; exact_mod_cast h0)
  exact this

theorem finalFactor_notNeg (R : AnyRule F64) {a b : F64} (hab : hasBounds R = true → Le a b) : NotNeg (finalFactor a b R) := by
  have hdeg : ∀ q : NodeRule, 0 < (ofNat q.degree : F64).key := fun q => ofNat_pos q.pos (by have := q.lt; omega)
  cases R with
  | midpoint q => exact (NotNeg.sub (hab rfl)).div (degree_finite q) (hdeg q)
  | trapezoid q => exact (NotNeg.sub (hab rfl)).div (degree_finite q) (hdeg q)
  | simpson q => exact ((NotNeg.sub (hab rfl)).div (degree_finite q) (hdeg q)).div lit_six_finite lit_six_pos
  | hermite q => exact notNeg_of_key lit_two_pos.le
  | laguerre q => exact notNeg_of_key lit_two_pos.le
  | legendre q => exact (notNeg_of_key lit_half_pos.le).mul (NotNeg.sub (hab rfl))
  | chebyshevFirst q => exact (notNeg_of_key lit_half_pos.le).mul (NotNeg.sub (hab rfl))
  | chebyshevSecond q => exact (notNeg_of_key lit_half_pos.le).mul (NotNeg.sub (hab rfl))
  | jacobi q => exact (notNeg_of_key lit_half_pos.le).mul (NotNeg.sub (hab rfl))

/-- not NaN implies `≤` -/
def LeOrNaN (x y : F64) : Prop := x.isNaN = true ∨ y.isNaN = true ∨ Le x y

theorem leOrNaN_compat : Compat LeOrNaN NotNeg where
  init := .inr (.inr (Le.refl (zero_isNaN _)))
  add := by
    intro x x' y y' hx hy
    by_cases h : (F64.add x y).isNaN = true
    · exact .inl h
    by_cases h' : (F64.add x' y').isNaN = true
    · exact .inr (.inl h')
    rw [Bool.not_eq_true] at h h'
    obtain ⟨a1, a2⟩ := add_args h
    obtain ⟨b1, b2⟩ := add_args h'
    have hx : Le x x' := by rcases hx with h | h | h; exacts [absurd h (by simp [a1]), absurd h (by simp [b1]), h]
    have hy : Le y y' := by rcases hy with h | h | h; exacts [absurd h (by simp [a2]), absurd h (by simp [b2]), h]
    exact .inr (.inr (add_mono hx hy h h'))
  mul := by
    intro x x' w hw hx
    by_cases h : (F64.mul x w).isNaN = true
    · exact .inl h
    by_cases h' : (F64.mul x' w).isNaN = true
    · exact .inr (.inl h')
    rw [Bool.not_eq_true] at h h'
    obtain ⟨a1, a2⟩ := mul_args h
    obtain ⟨b1, -⟩ := mul_args h'
    have hx : Le x x' := by rcases hx with h | h | h; exacts [absurd h (by simp [a1]), absurd h (by simp [b1]), h]
    exact .inr (.inr (mul_mono hx ((notNeg_iff.1 hw).resolve_left (by simp [a2])) h h'))
  two := by
    rintro x x' (h | h | h)
    · exact .inl (div_nan (.inl h))
    · exact .inr (.inl (div_nan (.inl h)))
    · exact .inr (.inr (div_mono h lit_two_finite lit_two_pos))
  ok_two := notNeg_of_key lit_two_pos.le
  ok_four := notNeg_of_key lit_four_pos.le

theorem notNeg_compat : Compat (fun x _ => NotNeg x) NotNeg where
  init := notNeg_of_key (by decide)
  add := fun hx hy => hx.add hy
  mul := fun hw hx => hx.mul hw
  two := fun hx => hx.div lit_two_finite lit_two_pos
  ok_two := notNeg_of_key lit_two_pos.le
  ok_four := notNeg_of_key lit_four_pos.le

omit L in
theorem LeOrNaN.elim {x y : F64} (h : LeOrNaN x y) (hx : x.isNaN = false) (hy : y.isNaN = false) : Le x y := by
  rcases h with h | h | h
  · rw [hx] at h; cases h
  · rw [hy] at h; cases h
  · exact h

/-- C78: binary64 integration is monotone, exactly.  For every rule without negative weights (the Newton-Cotes rules store none) and `a <= b`: if the
values returned by one integrand are at most those returned by the other, one by one, then so are the results, unless one is
NaN.  Every intermediate rounding is included. -/
theorem C78_monotone {σ τ : Type} (R : AnyRule F64) (hw : ∀ w ∈ storedWeights R, NotNeg w) {a b : F64}
    (hab : hasBounds R = true → Le a b) (f : Closure σ F64) (s : σ) (g : Closure τ F64) (t : τ)
    (h : List.Forall₂ Le (callAll f s (points a b R)).1 (callAll g t (points a b R)).1)
    (hf : ((R.integrate a b (logged f)).run ([], s)).1.isNaN = false) (hg : ((R.integrate a b (logged g)).run ([], t)).1.isNaN = false) :
    Le ((R.integrate a b (logged f)).run ([], s)).1 ((R.integrate a b (logged g)).run ([], t)).1 := by
  rw [C15_state_threading] at hf hg ⊢
  rw [C15_state_threading]
  exact (leOrNaN_compat.combine R hw (finalFactor_notNeg R hab) (h.imp fun _ _ h => .inr (.inr h))).elim hf hg

/-- C78 for `par_integrate`: monotone for every schedule used in both calls. -/
theorem C78_monotone_par (R : AnyRule F64) (hw : ∀ w ∈ storedWeights R, NotNeg w) {a b : F64}
    (hab : hasBounds R = true → Le a b) (s s' : Schedule) {f g : F64 → F64} (h : ∀ x ∈ points a b R, Le (f x) (g x))
    (hf : (R.parIntegrate s s' a b f).isNaN = false) (hg : (R.parIntegrate s s' a b g).isNaN = false) :
    Le (R.parIntegrate s s' a b f) (R.parIntegrate s s' a b g) :=
  (leOrNaN_compat.par R hw (finalFactor_notNeg R hab) s s' fun x hx => .inr (.inr (h x hx))).elim hf hg

/-- C78: if no value is negative, the result is not negative (for `integrate` and `par_integrate`). -/
theorem C78_nonnegative {σ : Type} (R : AnyRule F64) (hw : ∀ w ∈ storedWeights R, NotNeg w) {a b : F64}
    (hab : hasBounds R = true → Le a b) :
    (∀ (f : Closure σ F64) (s : σ), (∀ v ∈ (callAll f s (points a b R)).1, NotNeg v) →
      NotNeg ((R.integrate a b (logged f)).run ([], s)).1) ∧
    ∀ (s s' : Schedule) (f : F64 → F64), (∀ x ∈ points a b R, NotNeg (f x)) → NotNeg (R.parIntegrate s s' a b f) := by
  refine ⟨fun f s h => ?_, fun s s' f h => ?_⟩
  · rw [C15_state_threading]
    exact notNeg_compat.combine R hw (finalFactor_notNeg R hab) (List.forall₂_same.2 h)
  · exact notNeg_compat.par R hw (finalFactor_notNeg R hab) s s' (g := f) h

/-! ### which constructed rules have no negative weight -/

omit L in
theorem val_neg_of {x : F64} (hs : x.sign = true) (h0 : x.val ≠ 0) : x.val < 0 := by
  rcases lt_or_gt_of_ne h0 with h | h
  · exact h
  · exfalso
    have hk : 0 < x.key := (key_lt_iff (zero false) x).2 (by rw [val_zero]; exact h)
    simp only [key, hs, if_true] at hk; omega

omit L in
theorem val_pos_of {x : F64} (hs : x.sign = false) (h0 : x.val ≠ 0) : 0 < x.val :=
  lt_of_le_of_ne (val_nonneg_of_key (key_nonneg_of hs)) h0.symm

omit L in
theorem sign_round {x y : F64} (q : ℚ) (hq : q = x.val * y.val ∨ (q = x.val / y.val ∧ y.val ≠ 0)) :
    (F64.round q (x.sign != y.sign)).sign = (x.sign != y.sign) := by
  unfold F64.round
  split
  · rfl
  · rename_i h0
    show decide (q < 0) = _
    have hx : x.val ≠ 0 := by rintro h; apply h0; rcases hq with hq | ⟨hq, -⟩ <;> rw [hq, h] <;> simp
    have hy : y.val ≠ 0 := by rintro h; apply h0; rcases hq with hq | ⟨hq, -⟩ <;> rw [hq, h] <;> simp
    have hlt : q < 0 ↔ x.val * y.val < 0 := by
      rcases hq with hq | ⟨hq, -⟩
      · rw [hq]
      · rw [hq, div_neg_iff, mul_neg_iff]
    cases hsx : x.sign <;> cases hsy : y.sign
    · have := mul_pos (val_pos_of hsx hx) (val_pos_of hsy hy); simpa [hlt] using this.le
    · have := mul_neg_of_pos_of_neg (val_pos_of hsx hx) (val_neg_of hsy hy); simpa [hlt] using this
    · have := mul_neg_of_neg_of_pos (val_neg_of hsx hx) (val_pos_of hsy hy); simpa [hlt] using this
    · have := mul_pos_of_neg_of_neg (val_neg_of hsx hx) (val_neg_of hsy hy); simpa [hlt] using this.le

omit L in
theorem mul_sign {x y : F64} (h : (F64.mul x y).isNaN = false) : (F64.mul x y).sign = (x.sign != y.sign) := by
  unfold F64.mul at h ⊢
  split at h
  · rw [nan_isNaN] at h; cases h
  · rename_i h1
    simp only [h1]
    split at h
    · split at h
      · rw [nan_isNaN] at h; cases h
      · rename_i h2 h3; simp only [h2, h3, if_true, Bool.false_eq_true, if_false]; rfl
    · rename_i h2
      split at h
      · split at h
        · rw [nan_isNaN] at h; cases h
        · rename_i h3 h4; simp only [h2, h3, h4, if_true, Bool.false_eq_true, if_false]; rfl
      · rename_i h3; simp only [h2, h3, Bool.false_eq_true, if_false]
        exact sign_round _ (.inl rfl)

/-- NaN or sign bit clear -/
def SignOK (x : F64) : Prop := x.isNaN = true ∨ x.sign = false

omit L in
theorem SignOK.notNeg {x : F64} (h : SignOK x) : NotNeg x := notNeg_iff.2 (h.imp_right key_nonneg_of)

omit L in
theorem SignOK.mul_sq {p : F64} (h : SignOK p) (z : F64) : SignOK (F64.mul (F64.mul p z) z) := by
  by_cases hn : (F64.mul (F64.mul p z) z).isNaN = true
  · exact .inl hn
  rw [Bool.not_eq_true] at hn
  have h1 := (mul_args hn).1
  refine .inr ?_
  rw [mul_sign hn, mul_sign h1, h.resolve_left (by simp [(mul_args h1).1])]
  cases z.sign <;> rfl

omit L in
theorem notNeg_sq (x : F64) : NotNeg (F64.mul x x) := by
  refine SignOK.notNeg ?_
  by_cases hn : (F64.mul x x).isNaN = true
  · exact .inl hn
  rw [Bool.not_eq_true] at hn
  refine .inr ?_
  rw [mul_sign hn]; cases x.sign <;> rfl

omit L in
theorem round_sign_nonneg {q : ℚ} (h : 0 ≤ q) : (F64.round q false).sign = false := by
  unfold F64.round; split
  · rfl
  · show decide (q < 0) = false; simpa using h

theorem ofNat_sign (n : ℕ) : (ofNat n : F64).sign = false := round_sign_nonneg (by positivity)

omit L in
theorem div_signOK {x y : F64} (hx : x.sign = false) (hy : y.sign = false) : SignOK (F64.div x y) := by
  by_cases hn : (F64.div x y).isNaN = true
  · exact .inl hn
  rw [Bool.not_eq_true] at hn
  refine .inr ?_
  have e : (x.sign != y.sign) = false := by rw [hx, hy]; rfl
  unfold F64.div at hn ⊢
  rw [e] at hn ⊢
  split at hn
  · rw [nan_isNaN] at hn; cases hn
  · rename_i h1; simp only [h1]
    split at hn
    · split at hn
      · rw [nan_isNaN] at hn; cases hn
      · rename_i h2 h3; simp only [h2, h3, if_true, Bool.false_eq_true, if_false]; rfl
    · rename_i h2
      split at hn
      · rename_i h3; simp only [h2, h3, if_true, Bool.false_eq_true, if_false]; rfl
      · rename_i h3
        split at hn
        · split at hn
          · rw [nan_isNaN] at hn; cases hn
          · rename_i h4 h5; simp only [h2, h3, h4, h5, if_true, Bool.false_eq_true, if_false]; rfl
        · rename_i h4; simp only [h2, h3, h4, Bool.false_eq_true, if_false]
          exact round_sign_nonneg (div_nonneg (val_nonneg_of_key (key_nonneg_of hx)) (val_nonneg_of_key (key_nonneg_of hy)))

omit L in
theorem add_signOK {x y : F64} (hx : x.sign = false) (hy : y.sign = false) : SignOK (F64.add x y) := by
  by_cases hn : (F64.add x y).isNaN = true
  · exact .inl hn
  rw [Bool.not_eq_true] at hn
  refine .inr ?_
  obtain ⟨nx, ny⟩ := add_args hn
  unfold F64.add
  simp only [nx, ny, hx, hy, Bool.or_self, Bool.false_eq_true, if_false, bne_self_eq_false, Bool.and_false]
  split
  · exact hx
  split
  · exact hy
  · exact round_sign_nonneg (add_nonneg (val_nonneg_of_key (key_nonneg_of hx)) (val_nonneg_of_key (key_nonneg_of hy)))

omit L in
theorem SignOK.mul {x y : F64} (hx : SignOK x) (hy : SignOK y) : SignOK (F64.mul x y) := by
  by_cases hn : (F64.mul x y).isNaN = true
  · exact .inl hn
  rw [Bool.not_eq_true] at hn
  refine .inr ?_
  rw [mul_sign hn, hx.resolve_left (by simp [(mul_args hn).1]), hy.resolve_left (by simp [(mul_args hn).2])]; rfl

theorem pi_sign : (pi : F64).sign = false := by rfl
theorem lit_one_sign : (lit 1.0 : F64).sign = false := round_sign_nonneg (by norm_num)

/-- the weights produced by `golub_welsch` are not negative if the scale factor is not, whatever the eigensolver returns -/
theorem golubWelsch_notNeg {ext : Externals F64} {n : ℕ} {d o : ℕ → F64} {sc : F64} (hs : NotNeg sc) {l : List (F64 × F64)}
    (h : golubWelsch ext n d o sc = some l) : ∀ p ∈ l, NotNeg p.2 := by
  intro p hp
  rcases Nat.eq_zero_or_pos n with h0 | h0
  · subst h0
    unfold golubWelsch at h
    simp only [Option.bind_eq_bind, Option.bind_eq_some_iff] at h
    obtain ⟨M, -, h⟩ := h
    simp at h
  · obtain ⟨M, -, e⟩ := golubWelsch_eq ext h0 d o sc
    rw [h, Option.some_inj] at e
    rw [e] at hp
    have := (ext.sort_perm _).mem_iff.1 hp
    unfold eigenPairs at this
    have := List.of_mem_zip (a := p.1) (b := p.2) this
    obtain ⟨z, -, hz⟩ := List.mem_map.1 this.2
    rw [← hz]
    exact (notNeg_sq z).mul hs

theorem cheb1_notNeg (n i : ℕ) : NotNeg (GaussChebyshevFirstKind.pair n i : F64 × F64).2 :=
  (div_signOK pi_sign (ofNat_sign n)).notNeg

theorem cheb2_notNeg (n i : ℕ) : NotNeg (GaussChebyshevSecondKind.pair n i : F64 × F64).2 := by
  refine (SignOK.mul_sq ?_ _).notNeg
  refine SignOK.mul (.inr pi_sign) ?_
  rcases add_signOK (ofNat_sign n) lit_one_sign with h | h
  · exact .inl (div_nan (.inr h))
  · exact div_signOK lit_one_sign h

/-- the rules `new` can return whose weights are known not to be negative in binary64 -/
theorem chebyshev_new_mem {n : ℕ} {mode : Overflow} {r : Rule F64} :
    (GaussChebyshevFirstKind.new mode n = some r → ∀ p ∈ r.nodeWeightPairs, ∃ i, p = GaussChebyshevFirstKind.pair n i) ∧
    (GaussChebyshevSecondKind.new mode n = some r → ∀ p ∈ r.nodeWeightPairs, ∃ i, p = GaussChebyshevSecondKind.pair n i) := by
  constructor <;> intro h p hp
  · simp only [GaussChebyshevFirstKind.new, Option.bind_eq_bind, Option.bind_eq_some_iff, Option.pure_def, Option.some_inj] at h
    obtain ⟨m, -, rfl⟩ := h
    obtain ⟨i, -, rfl⟩ := List.mem_map.1 hp; exact ⟨i, rfl⟩
  · simp only [GaussChebyshevSecondKind.new, Option.bind_eq_bind, Option.bind_eq_some_iff, Option.pure_def, Option.some_inj] at h
    obtain ⟨m, -, rfl⟩ := h
    obtain ⟨i, -, rfl⟩ := List.mem_map.1 hp; exact ⟨i, rfl⟩

/-- C78: which constructors give rules without negative weights in binary64: both Chebyshev rules for every math backend; the
Hermite, Laguerre and non-delegated Jacobi rules for every eigensolver, however wrong, as soon as the computed total mass is not
negative; Gauss-Legendre with an accurate cosine. -/
theorem C78_weights :
    (∀ (mode : Overflow) (n : ℕ) (r : Rule F64), GaussChebyshevFirstKind.new mode n = some r →
      ∀ w ∈ storedWeights (.chebyshevFirst r), NotNeg w) ∧
    (∀ (mode : Overflow) (n : ℕ) (r : Rule F64), GaussChebyshevSecondKind.new mode n = some r →
      ∀ w ∈ storedWeights (.chebyshevSecond r), NotNeg w) ∧
    (∀ (ext : Externals F64) (n : ℕ) (r : Rule F64), NotNeg (sqrt (pi : F64)) → GaussHermite.new ext n = some r →
      ∀ w ∈ storedWeights (.hermite r), NotNeg w) ∧
    (∀ (ext : Externals F64) (n : ℕ) (α : FiniteAboveNegOne F64) (r : LaguerreRule F64), NotNeg (gamma (α.get +ᶠ lit 1.0)) →
      GaussLaguerre.new ext n α = some r → ∀ w ∈ storedWeights (.laguerre r), NotNeg w) ∧
    (∀ (ext : Externals F64) (n : ℕ) (α β : FiniteAboveNegOne F64) (r : JacobiRule F64), NotNeg (GaussJacobi.weightScale α.get β.get) →
      GaussJacobi.newGeneral ext n α β = some r → ∀ w ∈ storedWeights (.jacobi r), NotNeg w) ∧
    (AccurateTrig L → ∀ (mode : Overflow) (n : ℕ) (r : Rule F64), 0 < n → n + 1 < 2 ^ 64 → GaussLegendre.new mode n = some r →
      ∀ w ∈ storedWeights (.legendre r), NotNeg w) := by
  have mem : ∀ {l : List (F64 × F64)}, (∀ p ∈ l, NotNeg p.2) → ∀ w ∈ l.map (·.2), NotNeg w := by
    intro l h w hw; obtain ⟨p, hp, rfl⟩ := List.mem_map.1 hw; exact h p hp
  refine ⟨fun mode n r h => mem fun p hp => ?_, fun mode n r h => mem fun p hp => ?_, fun ext n r hs h => mem ?_, fun ext n α r hs h => mem ?_,
    fun ext n α β r hs h => mem ?_, fun hL mode n r hn hlt h => mem fun p hp => ?_⟩
  · obtain ⟨i, rfl⟩ := chebyshev_new_mem.1 h p hp; exact cheb1_notNeg n i
  · obtain ⟨i, rfl⟩ := chebyshev_new_mem.2 h p hp; exact cheb2_notNeg n i
  · unfold GaussHermite.new at h
    simp only [Option.bind_eq_bind, Option.bind_eq_some_iff, Option.pure_def, Option.some_inj] at h
    obtain ⟨l, h1, rfl⟩ := h
    exact golubWelsch_notNeg hs h1
  · unfold GaussLaguerre.new at h
    simp only [Option.bind_eq_bind, Option.bind_eq_some_iff, Option.pure_def, Option.some_inj] at h
    obtain ⟨l, h1, rfl⟩ := h
    exact golubWelsch_notNeg hs h1
  · unfold GaussJacobi.newGeneral at h
    simp only [Option.bind_eq_bind, Option.bind_eq_some_iff, Option.pure_def, Option.some_inj] at h
    obtain ⟨l, h1, l', h2, rfl⟩ := h
    have h3 := golubWelsch_notNeg hs h1
    unfold GaussJacobi.fixMiddle at h2
    split at h2
    · split at h2
      · rename_i q hq
        rw [Option.some_inj] at h2
        subst h2
        intro p hp
        rcases List.mem_or_eq_of_mem_set hp with hp | rfl
        · exact h3 p hp
        · exact h3 q (List.mem_of_getElem? hq)
      · cases h2
    · rw [Option.some_inj] at h2; subst h2; exact h3
  · obtain ⟨r', h', -, hw, -⟩ := C54_ordered hL mode hn hlt
    rw [h, Option.some_inj] at h'
    subst h'
    have := hw p hp
    refine notNeg_of_key ?_
    have := (key_lt_iff (zero false) p.2).2 (by rw [val_zero]; exact this.2)
    exact this.le

/-- Simpson's rule on `[0, 1]`, any number of panels: the results of `x ↦ x` and `x ↦ x + 1` in binary64 are ordered -/
example (q : NodeRule) (s s' : Schedule) (hf : ((AnyRule.simpson q).parIntegrate s s' (zero false) (round 1 false) id).isNaN = false)
    (hg : ((AnyRule.simpson q).parIntegrate s s' (zero false) (round 1 false) fun _ => inf false).isNaN = false) :
    Le ((AnyRule.simpson q).parIntegrate s s' (zero false) (round 1 false) id)
      ((AnyRule.simpson q).parIntegrate s s' (zero false) (round 1 false) fun _ => inf false) := by
  by_cases hx : ∀ x ∈ points (zero false) (round 1 false) (.simpson q), x.isNaN = false
  · exact C78_monotone_par _ (by simp [storedWeights]) (fun _ => ⟨by decide +kernel, by decide +kernel, by decide +kernel⟩) s s'
      (fun x hx' => ⟨hx x hx', by decide, by rw [key_infF]; exact (key_abs_le (hx x hx')).2⟩) hf hg
  · push Not at hx
    obtain ⟨x, hx, hn⟩ := hx
    rw [C77_nan_par (AnyRule.simpson q) _ _ id s s' (.inl ⟨x, hx, by simpa using hn⟩)] at hf; cases hf

/-- the square of anything has a result that is not negative under the Chebyshev rule, any degree, any math backend -/
example {n : ℕ} {r : Rule F64} (h : GaussChebyshevSecondKind.new .checked n = some r) (f : F64 → F64) (s s' : Schedule) :
    NotNeg ((AnyRule.chebyshevSecond r).parIntegrate s s' (round (-1) false) (round 1 false) fun x => f x *ᶠ f x) :=
  (C78_nonnegative (σ := Unit) _ (C78_weights.2.1 _ n r h) (fun _ => ⟨by decide +kernel, by decide +kernel, by decide +kernel⟩)).2 s s' _
    fun x _ => notNeg_sq _

/-! ## C79 -/

/-- the same number with the sign changed, NaN for NaN; the sign of a zero is not compared -/
def Opposite (x y : F64) : Prop := x.isNaN = y.isNaN ∧ (x.isNaN = false → y.eqb (neg x) = true)

omit L in
theorem opposite_iff {x y : F64} : Opposite x y ↔ x.isNaN = y.isNaN ∧ (x.isNaN = false → y.key = -x.key) := by
  unfold Opposite eqb
  constructor
  · rintro ⟨h1, h2⟩
    refine ⟨h1, fun h => ?_⟩
    have := h2 h
    simp only [Bool.and_eq_true, decide_eq_true_eq, neg_key] at this
    exact this.2
  · rintro ⟨h1, h2⟩
    refine ⟨h1, fun h => ?_⟩
    simp only [Bool.and_eq_true, decide_eq_true_eq, neg_key, neg_isNaN, ← h1, h, h2 h]
    simp

omit L in
theorem round_key_neg (q : ℚ) (s s' : Bool) : (F64.round (-q) s').key = -(F64.round q s).key := by
  by_cases h0 : q = 0
  · subst h0; rw [neg_zero, key_round_zero, key_round_zero]; rfl
  · unfold F64.round
    rw [if_neg h0, if_neg (neg_ne_zero.2 h0)]
    have e1 : (-q).num.natAbs = q.num.natAbs := by simp
    have e2 : (-q).den = q.den := by simp
    unfold key
    simp only [e1, e2]
    rcases lt_or_gt_of_ne h0 with h | h
    · have : ¬ (-q < 0) := by linarith
      simp [h, this]
    · have : ¬ (q < 0) := by linarith
      simp [h, this]

omit L in
/-- what `Opposite` means for numbers -/
theorem opposite_parts {x y : F64} (h : y.key = -x.key) : y.mag = x.mag ∧ (x.mag ≠ 0 → y.sign = !x.sign) ∧ y.val = -x.val := by
  have hm : y.mag = x.mag := by
    unfold key at h; split at h <;> split at h <;> omega
  refine ⟨hm, fun h0 => ?_, ?_⟩
  · unfold key at h
    cases hx : x.sign <;> cases hy : y.sign <;> simp [hx, hy, hm] at h <;> first | rfl | omega
  · rw [← neg_val]; exact (key_eq_iff y (neg x)).1 (by rw [h, neg_key])

omit L in
theorem isInf_congr {x y : F64} (h : y.mag = x.mag) : y.isInf = x.isInf ∧ y.isZero = x.isZero ∧ y.isFinite = x.isFinite ∧ y.isNaN = x.isNaN := by
  unfold F64.isInf F64.isZero F64.isFinite F64.isNaN; rw [h]; exact ⟨rfl, rfl, rfl, rfl⟩

omit L in
theorem inf_mag_ne {x : F64} (h : x.isInf = true) : x.mag ≠ 0 := by
  simp only [isInf, decide_eq_true_eq] at h; rw [h]; decide

omit L in
theorem zero_mag {x : F64} (h : x.isZero = false) : x.mag ≠ 0 := by
  simpa [isZero] using h

omit L in
theorem key_inf_not (s : Bool) : (inf (!s)).key = -(inf s).key := by cases s <;> decide

theorem opposite_compat : Compat Opposite (fun _ => True) where
  init := opposite_iff.2 ⟨rfl, fun _ => rfl⟩
  add := by
    intro x x' y y' hx hy
    rw [opposite_iff] at hx hy ⊢
    by_cases nx : x.isNaN = true
    · have nx' := hx.1.symm.trans nx
      have h1 : (F64.add x y).isNaN = true := add_nan (.inl nx)
      have h2 : (F64.add x' y').isNaN = true := add_nan (.inl nx')
      exact ⟨h1.trans h2.symm, fun h => by rw [h1] at h; cases h⟩
    by_cases ny : y.isNaN = true
    · have ny' := hy.1.symm.trans ny
      have h1 : (F64.add x y).isNaN = true := add_nan (.inr ny)
      have h2 : (F64.add x' y').isNaN = true := add_nan (.inr ny')
      exact ⟨h1.trans h2.symm, fun h => by rw [h1] at h; cases h⟩
    rw [Bool.not_eq_true] at nx ny
    have kx := hx.2 nx
    have ky := hy.2 ny
    obtain ⟨mx, sx, vx⟩ := opposite_parts kx
    obtain ⟨my, sy, vy⟩ := opposite_parts ky
    obtain ⟨ix, zx, fx, nx'⟩ := isInf_congr mx
    obtain ⟨iy, zy, fy, ny'⟩ := isInf_congr my
    unfold F64.add
    simp only [nx', ny', nx, ny, ix, iy, Bool.or_self, Bool.false_eq_true, if_false]
    by_cases hix : x.isInf = true
    · have sx := sx (inf_mag_ne hix)
      simp only [hix, if_true]
      by_cases hiy : y.isInf = true
      · have sy := sy (inf_mag_ne hiy)
        have e : (x'.sign != y'.sign) = (x.sign != y.sign) := by rw [sx, sy]; cases x.sign <;> cases y.sign <;> rfl
        simp only [hiy, e, Bool.true_and]
        split
        · exact ⟨rfl, fun h => by rw [nan_isNaN] at h; cases h⟩
        · exact hx
      · simp only [hiy, Bool.false_and, Bool.false_eq_true, if_false]; exact hx
    · simp only [hix, Bool.false_eq_true, if_false]
      by_cases hiy : y.isInf = true
      · simp only [hiy, if_true]; exact hy
      · simp only [hiy, Bool.false_eq_true, if_false]
        refine ⟨by rw [round_isNaN, round_isNaN], fun _ => ?_⟩
        rw [vx, vy, ← neg_add]; exact round_key_neg _ _ _
  mul := by
    intro x x' w _ hx
    rw [opposite_iff] at hx ⊢
    by_cases nx : x.isNaN = true
    · have nx' := hx.1.symm.trans nx
      have h1 : (F64.mul x w).isNaN = true := mul_nan (.inl nx)
      have h2 : (F64.mul x' w).isNaN = true := mul_nan (.inl nx')
      exact ⟨h1.trans h2.symm, fun h => by rw [h1] at h; cases h⟩
    by_cases nw : w.isNaN = true
    · have h1 : (F64.mul x w).isNaN = true := mul_nan (.inr nw)
      have h2 : (F64.mul x' w).isNaN = true := mul_nan (.inr nw)
      exact ⟨h1.trans h2.symm, fun h => by rw [h1] at h; cases h⟩
    rw [Bool.not_eq_true] at nx nw
    obtain ⟨mx, sx, vx⟩ := opposite_parts (hx.2 nx)
    obtain ⟨ix, zx, fx, nx'⟩ := isInf_congr mx
    unfold F64.mul
    simp only [nx', nx, nw, ix, zx, Bool.or_self, Bool.false_eq_true, if_false]
    have hinf : x.mag ≠ 0 → (inf (x.sign != w.sign)).isNaN = (inf (x'.sign != w.sign)).isNaN ∧
        ((inf (x.sign != w.sign)).isNaN = false → (inf (x'.sign != w.sign)).key = -(inf (x.sign != w.sign)).key) := by
      intro h0
      rw [inf_isNaN, inf_isNaN, sx h0]
      refine ⟨rfl, fun _ => ?_⟩
      rw [show ((!x.sign) != w.sign) = !(x.sign != w.sign) by cases x.sign <;> cases w.sign <;> rfl]
      exact key_inf_not _
    by_cases hix : x.isInf = true
    · simp only [hix, if_true]
      split
      · exact ⟨rfl, fun h => by rw [nan_isNaN] at h; cases h⟩
      · exact hinf (inf_mag_ne hix)
    · simp only [hix, Bool.false_eq_true, if_false]
      split
      · cases hz : x.isZero
        · simp only [Bool.false_eq_true, if_false]; exact hinf (zero_mag hz)
        · simp only [if_true]; exact ⟨trivial, fun h => by rw [nan_isNaN] at h; cases h⟩
      · refine ⟨by rw [round_isNaN, round_isNaN], fun _ => ?_⟩
        rw [vx, neg_mul]; exact round_key_neg _ _ _
  two := by
    intro x x' hx
    rw [opposite_iff] at hx ⊢
    by_cases nx : x.isNaN = true
    · have nx' := hx.1.symm.trans nx
      have h1 : (F64.div x (lit 2.0)).isNaN = true := div_nan (.inl nx)
      have h2 : (F64.div x' (lit 2.0)).isNaN = true := div_nan (.inl nx')
      exact ⟨h1.trans h2.symm, fun h => by rw [h1] at h; cases h⟩
    rw [Bool.not_eq_true] at nx
    obtain ⟨mx, sx, vx⟩ := opposite_parts (hx.2 nx)
    obtain ⟨ix, zx, fx, nx'⟩ := isInf_congr mx
    have h2f := lit_two_finite
    have h2z : (lit 2.0 : F64).isZero = false := by show (F64.round 2.0 false).isZero = false; decide +kernel
    unfold F64.div
    simp only [nx', nx, isNaN_of_finite h2f, isInf_of_finite h2f, h2z, ix, zx, Bool.or_self, Bool.false_eq_true, if_false]
    by_cases hix : x.isInf = true
    · simp only [hix, if_true]
      rw [inf_isNaN, inf_isNaN, sx (inf_mag_ne hix)]
      refine ⟨rfl, fun _ => ?_⟩
      rw [show ((!x.sign) != (lit 2.0 : F64).sign) = !(x.sign != (lit 2.0 : F64).sign) by cases x.sign <;> cases (lit 2.0 : F64).sign <;> rfl]
      exact key_inf_not _
    · simp only [hix, Bool.false_eq_true, if_false]
      refine ⟨by rw [round_isNaN, round_isNaN], fun _ => ?_⟩
      rw [vx, neg_div]; exact round_key_neg _ _ _
  ok_two := trivial
  ok_four := trivial

/-- C79: if one integrand returns the opposite of the other's values, one by one, then so do the results, exactly: NaN for NaN,
otherwise IEEE equal to the negation.  For every rule whatever it stores, all bounds, every backend. -/
theorem C79_negate {σ τ : Type} (R : AnyRule F64) (a b : F64) (f : Closure σ F64) (s : σ) (g : Closure τ F64) (t : τ)
    (h : List.Forall₂ Opposite (callAll f s (points a b R)).1 (callAll g t (points a b R)).1) :
    Opposite ((R.integrate a b (logged f)).run ([], s)).1 ((R.integrate a b (logged g)).run ([], t)).1 := by
  rw [C15_state_threading, C15_state_threading]
  exact opposite_compat.combine R (fun _ _ => trivial) trivial h

/-- C79 for `par_integrate` with the same schedule; in particular for `g = -f`. -/
theorem C79_negate_par (R : AnyRule F64) (a b : F64) (s s' : Schedule) {f g : F64 → F64} (h : ∀ x ∈ points a b R, Opposite (f x) (g x)) :
    Opposite (R.parIntegrate s s' a b f) (R.parIntegrate s s' a b g) :=
  opposite_compat.par R (fun _ _ => trivial) trivial s s' h

/-- the integrand `-f` -/
example (R : AnyRule F64) (a b : F64) (s s' : Schedule) (f : F64 → F64) :
    Opposite (R.parIntegrate s s' a b f) (R.parIntegrate s s' a b fun x => neg (f x)) :=
  C79_negate_par R a b s s' fun _ _ => opposite_iff.2 ⟨rfl, fun _ => neg_key _⟩

/-- a NaN bound -/
example (r : Rule F64) (f : Closure Unit F64) : (((AnyRule.jacobi ⟨r, ⟨zero false⟩, ⟨zero false⟩⟩).integrate nan (zero false) (logged f)).run ([], ())).1.isNaN = true :=
  C77_nan _ _ _ f () (.inr (.inr ⟨rfl, .inl (by decide)⟩))

/-- a function is not above itself plus nothing: the value is at most itself whenever it is a number -/
example (q : NodeRule) (f : Closure Unit F64) (h : ∀ v ∈ (callAll f () (points (zero false) (round 1 false) (.midpoint q))).1, v.isNaN = false)
    (hf : (((AnyRule.midpoint q).integrate (zero false) (round 1 false) (logged f)).run ([], ())).1.isNaN = false) :
    Le (((AnyRule.midpoint q).integrate (zero false) (round 1 false) (logged f)).run ([], ())).1
      (((AnyRule.midpoint q).integrate (zero false) (round 1 false) (logged f)).run ([], ())).1 :=
  C78_monotone _ (by simp [storedWeights]) (fun _ => ⟨by decide +kernel, by decide +kernel, by decide +kernel⟩) f () f ()
    (List.forall₂_same.2 fun v hv => ⟨h v hv, h v hv, le_refl _⟩) hf hf

end

end GaussQuad.Props
