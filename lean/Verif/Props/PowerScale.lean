import Verif.Proofs.F64Scale
import Verif.Props.FloatRobust
import Verif.Props.Conformance

/-!
# C118: scaling the integrand by a power of two scales the binary64 result exactly
-/

set_option exponentiation.threshold 3000

namespace GaussQuad.Props
open Spec F64 FloatOps

section
variable [L : Libm]

/-- if the scaled run is finite here, so is the original one, the values are in the exact ratio and the original is on the grid -/
def Follows (k g : ℕ) (x y : F64) : Prop :=
  y.isFinite = true → x.isFinite = true ∧ y.val = 2 ^ k * x.val ∧ OnGrid g x.val

variable {k : ℕ}

omit L in
theorem Follows.mono {g g' : ℕ} (h : g ≤ g') {x y : F64} (H : Follows k g x y) : Follows k g' x y :=
  fun hf => ⟨(H hf).1, (H hf).2.1, (H hf).2.2.mono h⟩

omit L in
theorem follows_zero (g : ℕ) (s : Bool) : Follows k g (zero s) (zero s) :=
  fun _ => ⟨zero_isFinite s, by rw [val_zero, mul_zero], by rw [val_zero]; exact onGrid_zero g⟩

omit L in
theorem add_args_finite {x y : F64} (h : (F64.add x y).isFinite = true) : x.isFinite = true ∧ y.isFinite = true := by
  constructor
  · by_contra hc; rw [Bool.not_eq_true] at hc
    have := nonfinite_sticky.add_left y hc; rw [h] at this; cases this
  · by_contra hc; rw [Bool.not_eq_true] at hc
    have := nonfinite_sticky.add_right x hc; rw [h] at this; cases this

omit L in
theorem mul_arg_finite {x y : F64} (h : (F64.mul x y).isFinite = true) : x.isFinite = true := by
  by_contra hc; rw [Bool.not_eq_true] at hc
  have := nonfinite_sticky.mul_left y hc; rw [h] at this; cases this

omit L in
theorem Follows.add {g : ℕ} (hg : g ≤ 1022) {x x' y y' : F64} (hx : Follows k g x x') (hy : Follows k g y y') :
    Follows k g (F64.add x y) (F64.add x' y') := by
  intro hf
  obtain ⟨fx', fy'⟩ := add_args_finite hf
  obtain ⟨fx, vx, gx⟩ := hx fx'
  obtain ⟨fy, vy, gy⟩ := hy fy'
  rw [add_fin fx' fy', vx, vy, ← mul_add] at hf ⊢
  rw [add_fin fx fy]
  exact round_step _ _ hg (gx.add gy) hf

omit L in
theorem Follows.mul {g h : ℕ} (hg : g + h ≤ 1022) {x x' w : F64} (hw : w.isFinite = true) (gw : OnGrid h w.val)
    (hx : Follows k g x x') : Follows k (g + h) (F64.mul x w) (F64.mul x' w) := by
  intro hf
  have fx' := mul_arg_finite hf
  obtain ⟨fx, vx, gx⟩ := hx fx'
  rw [mul_fin fx' hw, vx, mul_assoc] at hf ⊢
  rw [mul_fin fx hw]
  exact round_step _ _ hg (gx.mul gw) hf

omit L in
theorem Follows.mul' {g h : ℕ} (hg : g + h ≤ 1022) {x x' w : F64} (hw : w.isFinite = true) (gw : OnGrid h w.val)
    (hx : Follows k g x x') : Follows k (g + h) (F64.mul w x) (F64.mul w x') := by
  rw [mulComm w x, mulComm w x']; exact hx.mul hg hw gw

theorem lit_two_val : (lit 2.0 : F64).val = 2 := by show (F64.round 2.0 false).val = 2; decide +kernel
theorem lit_four_val : (lit 4.0 : F64).val = 4 := by show (F64.round 4.0 false).val = 4; decide +kernel
theorem lit_four_finite : (lit 4.0 : F64).isFinite = true := by show (F64.round 4.0 false).isFinite = true; decide +kernel

theorem Follows.half {g : ℕ} (hg : g + 1 ≤ 1022) {x x' : F64} (hx : Follows k g x x') :
    Follows k (g + 1) (F64.div x (lit 2.0)) (F64.div x' (lit 2.0)) := by
  intro hf
  have fx' : x'.isFinite = true := by
    by_contra hc; rw [Bool.not_eq_true] at hc
    have := nonfinite_sticky.div_left _ lit_two_finite hc; rw [hf] at this; cases this
  obtain ⟨fx, vx, gx⟩ := hx fx'
  have h0 : (lit 2.0 : F64).isZero = false := by show (F64.round 2.0 false).isZero = false; decide +kernel
  rw [div_finite fx' lit_two_finite h0, vx, lit_two_val, mul_div_assoc] at hf ⊢
  rw [div_finite fx lit_two_finite h0, lit_two_val]
  exact round_step _ _ hg gx.half hf

theorem Follows.twice {g : ℕ} (hg : g ≤ 1022) {x x' : F64} (hx : Follows k g x x') :
    Follows k g (F64.mul (lit 2.0) x) (F64.mul (lit 2.0) x') :=
  hx.mul' (h := 0) hg lit_two_finite ⟨2, by rw [lit_two_val]; norm_num⟩

theorem Follows.four {g : ℕ} (hg : g ≤ 1022) {x x' : F64} (hx : Follows k g x x') :
    Follows k g (F64.mul (lit 4.0) x) (F64.mul (lit 4.0) x') :=
  hx.mul' (h := 0) hg lit_four_finite ⟨4, by rw [lit_four_val]; norm_num⟩

theorem Follows.sum {g : ℕ} (hg : g ≤ 1022) {ys zs : List F64} (h : List.Forall₂ (Follows k g) ys zs) :
    Follows k g (ys.foldl (· +ᶠ ·) sumInit) (zs.foldl (· +ᶠ ·) sumInit) :=
  foldl_rel (fun h1 h2 => Follows.add hg h1 h2) h (follows_zero g true)

/-- finite and on the grid -/
def Good (h : ℕ) (w : F64) : Prop := w.isFinite = true ∧ OnGrid h w.val

theorem Follows.weighted {g h : ℕ} (hg : g + h ≤ 1022) {pairs : List (F64 × F64)} (hw : ∀ p ∈ pairs, Good h p.2)
    {ys zs : List F64} (H : List.Forall₂ (Follows k g) ys zs) : Follows k (g + h) (weighted pairs ys) (weighted pairs zs) := by
  refine Follows.sum hg ?_
  induction H generalizing pairs with
  | nil => simp
  | @cons y z ys zs hyz _ ih =>
    cases pairs with
    | nil => simp
    | cons p ps =>
      simp only [List.zipWith_cons_cons]
      exact .cons (hyz.mul hg (hw p (by simp)).1 (hw p (by simp)).2) (ih fun q hq => hw q (List.mem_cons_of_mem _ hq))

theorem Follows.combine {g h l : ℕ} (hg : g + h + l + 1 ≤ 1022) (R : AnyRule F64) {a b : F64}
    (hw : ∀ w ∈ storedWeights R, Good h w) (hf : Good l (finalFactor a b R)) {ys zs : List F64}
    (H : List.Forall₂ (Follows k g) ys zs) : Follows k (g + h + l + 1) (combine a b R ys) (combine a b R zs) := by
  have hw' : ∀ {pairs : List (F64 × F64)}, (∀ w ∈ pairs.map (·.2), Good h w) → ∀ p ∈ pairs, Good h p.2 :=
    fun h p hp => h _ (List.mem_map_of_mem hp)
  have hz : Follows k g (sumInit : F64) sumInit := follows_zero g true
  have hg0 : g ≤ 1022 := by omega
  cases R with
  | midpoint q => exact ((Follows.sum hg0 H).mul (by omega) hf.1 hf.2).mono (by omega)
  | trapezoid q =>
    refine Follows.mono (g := g + 1 + l) (by omega) (Follows.mul (by omega) hf.1 hf.2 ?_)
    exact Follows.add (by omega) (Follows.half (by omega) (Follows.add hg0 (forall₂_getD H hz _) (forall₂_getD H hz _)))
      ((Follows.sum hg0 (List.forall₂_drop 2 H)).mono (by omega))
  | simpson q =>
    refine Follows.mono (g := g + l) (by omega) (Follows.mul' (by omega) hf.1 hf.2 ?_)
    refine Follows.add hg0 (Follows.add hg0 (Follows.add hg0 (Follows.add hg0
      (Follows.twice hg0 (Follows.sum hg0 (List.forall₂_take _ H)))
      (Follows.four hg0 (Follows.sum hg0 (List.forall₂_take _ (List.forall₂_drop _ H))))) (Follows.four hg0 ?_)) ?_) ?_
    all_goals exact forall₂_getD H hz _
  | legendre q => exact ((Follows.weighted (by omega) (hw' hw) H).mul' (by omega) hf.1 hf.2).mono (by omega)
  | chebyshevFirst q => exact ((Follows.weighted (by omega) (hw' hw) H).mul (by omega) hf.1 hf.2).mono (by omega)
  | chebyshevSecond q => exact ((Follows.weighted (by omega) (hw' hw) H).mul (by omega) hf.1 hf.2).mono (by omega)
  | jacobi q => exact ((Follows.weighted (by omega) (hw' hw) H).mul' (by omega) hf.1 hf.2).mono (by omega)
  | hermite q => exact (Follows.weighted (by omega) (hw' hw) H).mono (by omega)
  | laguerre q => exact (Follows.weighted (by omega) (hw' hw) H).mono (by omega)

theorem Follows.parSum {g : ℕ} (hg : g ≤ 1022) {α : Type} (s : Schedule) : ∀ {xs : List α} {u u' : α → F64},
    (∀ x ∈ xs, Follows k g (u x) (u' x)) → Follows k g (parSumMap s xs u) (parSumMap s xs u') := by
  have hz : Follows k g (sumInit : F64) sumInit := follows_zero g true
  have red : ∀ {x x' y y'}, Follows k g x x' → Follows k g y y' → Follows k g (sumReduce x y) (sumReduce x' y') := by
    intro x x' y y' h1 h2
    exact Follows.add hg (Follows.add hg hz h1) h2
  induction s with
  | leaf =>
    intro xs u u' h
    refine red hz (Follows.sum hg ?_)
    rw [List.forall₂_map_left_iff, List.forall₂_map_right_iff, List.forall₂_same]
    exact h
  | split mid l q ihl ihr =>
    intro xs u u' h
    exact red (ihl fun x hx => h x (List.mem_of_mem_take hx)) (ihr fun x hx => h x (List.mem_of_mem_drop hx))

theorem Follows.par {g h l : ℕ} (hg : g + h + l + 1 ≤ 1022) (R : AnyRule F64) {a b : F64}
    (hw : ∀ w ∈ storedWeights R, Good h w) (hf : Good l (finalFactor a b R)) (s s' : Schedule) {u v : F64 → F64}
    (H : ∀ x ∈ points a b R, Follows k g (u x) (v x)) :
    Follows k (g + h + l + 1) (R.parIntegrate s s' a b u) (R.parIntegrate s s' a b v) := by
  have hw' : ∀ {pairs : List (F64 × F64)}, (∀ w ∈ pairs.map (·.2), Good h w) → ∀ p ∈ pairs, Good h p.2 :=
    fun h p hp => h _ (List.mem_map_of_mem hp)
  have hrange : ∀ {n i : ℕ}, i ∈ List.range' 1 (n - 1) → ∃ j, j < n - 1 ∧ i = j + 1 := by
    intro n i hi
    rw [List.mem_range'_1] at hi
    exact ⟨i - 1, by omega, by omega⟩
  have hg0 : g ≤ 1022 := by omega
  have hgh : g + h ≤ 1022 := by omega
  have key : ∀ {pairs : List (F64 × F64)} {pt : F64 × F64 → F64}, (∀ w ∈ pairs.map (·.2), Good h w) →
      (∀ p ∈ pairs, Follows k g (u (pt p)) (v (pt p))) →
      Follows k (g + h) (parSumMap s pairs fun p => u (pt p) *ᶠ p.2) (parSumMap s pairs fun p => v (pt p) *ᶠ p.2) := by
    intro pairs pt hw hp
    exact Follows.parSum hgh s fun p hpm => (hp p hpm).mul hgh (hw' hw p hpm).1 (hw' hw p hpm).2
  cases R with
  | midpoint q =>
    exact ((Follows.parSum hg0 s fun i hi => H _ (List.mem_map.2 ⟨i, hi, rfl⟩)).mul (by omega) hf.1 hf.2).mono (by omega)
  | trapezoid q =>
    refine Follows.mono (g := g + 1 + l) (by omega) (Follows.mul (by omega) hf.1 hf.2 ?_)
    refine Follows.add (by omega) (Follows.half (by omega) (Follows.add hg0 (H _ ?_) (H _ ?_)))
      ((Follows.parSum hg0 s fun i hi => H _ ?_).mono (by omega))
    · simp [points]
    · simp [points]
    · obtain ⟨j, hj, rfl⟩ := hrange hi
      exact List.mem_append_right _ (List.mem_map.2 ⟨j, List.mem_range.2 hj, rfl⟩)
  | simpson q =>
    have hpos := q.pos
    refine Follows.mono (g := g + l) (by omega) (Follows.mul' (by omega) hf.1 hf.2 ?_)
    refine Follows.add hg0 (Follows.add hg0 (Follows.add hg0 (Follows.add hg0
      (Follows.twice hg0 (Follows.parSum hg0 s fun i hi => H _ ?_))
      (Follows.four hg0 (Follows.parSum hg0 s' fun i hi => H _ ?_))) (Follows.four hg0 (H _ ?_))) (H _ ?_)) (H _ ?_)
    · obtain ⟨j, hj, rfl⟩ := hrange hi
      exact List.mem_append_left _ (List.mem_append_left _ (List.mem_map.2 ⟨j, List.mem_range.2 hj, rfl⟩))
    · obtain ⟨j, hj, rfl⟩ := hrange hi
      exact List.mem_append_left _ (List.mem_append_right _ (List.mem_map.2 ⟨j, List.mem_range.2 (by omega), rfl⟩))
    · refine List.mem_append_left _ (List.mem_append_right _ (List.mem_map.2 ⟨q.degree - 1, List.mem_range.2 (by omega), ?_⟩))
      rw [Nat.sub_add_cancel hpos]
    · simp [points]
    · simp [points]
  | legendre q => exact ((key hw fun p hp => H _ (List.mem_map.2 ⟨p, hp, rfl⟩)).mul' (by omega) hf.1 hf.2).mono (by omega)
  | chebyshevFirst q => exact ((key hw fun p hp => H _ (List.mem_map.2 ⟨p, hp, rfl⟩)).mul (by omega) hf.1 hf.2).mono (by omega)
  | chebyshevSecond q => exact ((key hw fun p hp => H _ (List.mem_map.2 ⟨p, hp, rfl⟩)).mul (by omega) hf.1 hf.2).mono (by omega)
  | jacobi q => exact ((key hw fun p hp => H _ (List.mem_map.2 ⟨p, hp, rfl⟩)).mul' (by omega) hf.1 hf.2).mono (by omega)
  | hermite q => exact (key hw fun p hp => H _ (List.mem_map.2 ⟨p, hp, rfl⟩)).mono (by omega)
  | laguerre q => exact (key hw fun p hp => H _ (List.mem_map.2 ⟨p, hp, rfl⟩)).mono (by omega)

/-- C118: the integrand `g` returns exactly `2^k` times what `f` returns.  The values of `f` are multiples of `2^-p`, the stored
weights of `2^-h` and the final factor (half the length of the interval, or the step) of `2^-l`, with `p + h + l < 1022`, so that no
product underflows.  If the result for `g` did not overflow, it is exactly `2^k` times the result for `f`, which is finite too. -/
theorem C118_scale {σ τ : Type} {k p h l : ℕ} (hg : p + h + l < 1022) (R : AnyRule F64) (a b : F64)
    (hw : ∀ w ∈ storedWeights R, w.isFinite = true ∧ OnGrid h w.val)
    (hl : (finalFactor a b R).isFinite = true ∧ OnGrid l (finalFactor a b R).val)
    (f : Closure σ F64) (s : σ) (g : Closure τ F64) (t : τ)
    (hv : List.Forall₂ (fun y z => IsScaled k y z ∧ OnGrid p y.val) (callAll f s (points a b R)).1 (callAll g t (points a b R)).1)
    (hfin : ((R.integrate a b (logged g)).run ([], t)).1.isFinite = true) :
    IsScaled k ((R.integrate a b (logged f)).run ([], s)).1 ((R.integrate a b (logged g)).run ([], t)).1 := by
  have H : Follows k (p + h + l + 1) ((R.integrate a b (logged f)).run ([], s)).1 ((R.integrate a b (logged g)).run ([], t)).1 := by
    rw [C15_state_threading, C15_state_threading]
    exact Follows.combine (by omega) R hw hl (hv.imp fun y z hyz _ => ⟨hyz.1.1, hyz.1.2.2, hyz.2⟩)
  exact ⟨(H hfin).1, hfin, (H hfin).2.1⟩

/-- C118 for `par_integrate`, with the same schedule for both integrands. -/
theorem C118_scale_par {k p h l : ℕ} (hg : p + h + l < 1022) (R : AnyRule F64) (a b : F64) (s s' : Schedule)
    (hw : ∀ w ∈ storedWeights R, w.isFinite = true ∧ OnGrid h w.val)
    (hl : (finalFactor a b R).isFinite = true ∧ OnGrid l (finalFactor a b R).val) (f g : F64 → F64)
    (hv : ∀ x ∈ points a b R, IsScaled k (f x) (g x) ∧ OnGrid p (f x).val)
    (hfin : (R.parIntegrate s s' a b g).isFinite = true) :
    IsScaled k (R.parIntegrate s s' a b f) (R.parIntegrate s s' a b g) := by
  have H := Follows.par (k := k) (by omega) R hw hl s s' (u := f) (v := g)
    fun x hx _ => ⟨(hv x hx).1.1, (hv x hx).1.2.2, (hv x hx).2⟩
  exact ⟨(H hfin).1, hfin, (H hfin).2.1⟩

omit L in
/-- C118, the grids in terms of magnitudes: a value of magnitude at least `2^-m` is a multiple of `2^-(m+52)`, and so is zero. -/
theorem C118_grid {m : ℕ} (hm : m ≤ 1022) (x : F64) (h : x.val = 0 ∨ 1 / 2 ^ m ≤ |x.val|) : OnGrid (m + 52) x.val := by
  rcases h with h | h
  · rw [h]; exact onGrid_zero _
  · exact onGrid_of_ge hm h

end

section
attribute [local instance] GaussQuad.Props.Conformance.noLibm

/-- Simpson's rule with three panels on `[0, 1]`, in parallel, for `x` and for `1024 x` -/
example : IsScaled 10
    ((AnyRule.simpson ⟨3, by norm_num, by norm_num⟩).parIntegrate (.split 1 .leaf .leaf) .leaf (zero false) (F64.round 1 false) fun x => x)
    ((AnyRule.simpson ⟨3, by norm_num, by norm_num⟩).parIntegrate (.split 1 .leaf .leaf) .leaf (zero false) (F64.round 1 false)
      fun x => F64.mul x (F64.round 1024 false)) := by
  have hp : ∀ x ∈ points (zero false) (F64.round 1 false) (.simpson ⟨3, by norm_num, by norm_num⟩), x.isFinite = true ∧
      (F64.mul x (F64.round 1024 false)).isFinite = true ∧ (F64.mul x (F64.round 1024 false)).val = 2 ^ 10 * x.val ∧
      (x.val = 0 ∨ 1 / 2 ^ 4 ≤ |x.val|) := by decide +kernel
  refine C118_scale_par (p := 4 + 52) (h := 0) (l := 5 + 52) (by norm_num) _ _ _ _ _ (by simp [storedWeights])
    ⟨by decide +kernel, C118_grid (by norm_num) _ (.inr (by decide +kernel))⟩ _ _
    (fun x hx => ⟨⟨(hp x hx).1, (hp x hx).2.1, (hp x hx).2.2.1⟩, C118_grid (by norm_num) x (hp x hx).2.2.2⟩) (by decide +kernel)

/-- a Gauss rule with two stored pairs on `[0, 1]`, for `x` and for `8 x` -/
example : IsScaled 3
    (((AnyRule.legendre ⟨[(F64.round (-0.57) false, F64.round 0.9 false), (F64.round 0.57 false, F64.round 1.1 false)]⟩).integrate
      (zero false) (F64.round 1 false) (logged fun u x => (x, u))).run ([], ())).1
    (((AnyRule.legendre ⟨[(F64.round (-0.57) false, F64.round 0.9 false), (F64.round 0.57 false, F64.round 1.1 false)]⟩).integrate
      (zero false) (F64.round 1 false) (logged fun u x => (F64.mul x (F64.round 8 false), u))).run ([], ())).1 := by
  refine C118_scale (p := 4 + 52) (h := 4 + 52) (l := 4 + 52) (by norm_num) _ _ _ (fun w hw => ?_)
    ⟨by decide +kernel, C118_grid (by norm_num) _ (.inr (by decide +kernel))⟩ _ _ _ _ ?_ (by decide +kernel)
  · simp only [storedWeights, List.map_cons, List.map_nil, List.mem_cons, List.not_mem_nil, or_false] at hw
    rcases hw with rfl | rfl
    all_goals exact ⟨by decide +kernel, C118_grid (by norm_num) _ (.inr (by decide +kernel))⟩
  · refine .cons ⟨⟨by decide +kernel, by decide +kernel, by decide +kernel⟩, C118_grid (by norm_num) _ (.inr (by decide +kernel))⟩
      (.cons ⟨⟨by decide +kernel, by decide +kernel, by decide +kernel⟩, C118_grid (by norm_num) _ (.inr (by decide +kernel))⟩ .nil)

/-- one third -/
example : OnGrid 54 (F64.round (1 / 3) false).val := C118_grid (m := 2) (by norm_num) _ (.inr (by decide +kernel))

end

end GaussQuad.Props
