import Verif.Proofs.F64Scale
import Verif.Spec.Summands
import Verif.Props.FloatRobust
import Verif.Props.Conformance

/-!
# C119: sums of numbers on a common grid are exact, so the schedule of `par_integrate` does not matter

`C25_not_bitwise` shows that in general it does.
-/

set_option exponentiation.threshold 3000

namespace GaussQuad.Props
open Spec F64 FloatOps

/-! ## Numbers on a grid are rounded to themselves -/

theorem magInt_round_fits {z t : ℕ} (hz : z ≤ 2 ^ 53) : magInt (roundUnbounded (z * 2 ^ t) 1) = z * 2 ^ t := by
  rw [magInt_round, one_mul]
  have hd : 2 ^ expo (z * 2 ^ t) 1 ∣ z * 2 ^ t := by
    by_cases h53 : z = 2 ^ 53
    · have : z * 2 ^ t = 2 ^ (53 + t) := by rw [h53, pow_add]
      unfold expo
      rw [this, Nat.div_one, Nat.log2_two_pow]
      exact pow_dvd_pow 2 (by omega)
    · refine Dvd.dvd.mul_left (pow_dvd_pow 2 ?_) _
      unfold expo
      rw [Nat.div_one]
      by_cases h0 : z * 2 ^ t = 0
      · rw [h0]; simp
      · have : (z * 2 ^ t).log2 < 53 + t := by
          rw [Nat.log2_lt h0, pow_add]
          exact Nat.mul_lt_mul_of_pos_right (by omega) (Nat.two_pow_pos t)
        omega
  have : rne (z * 2 ^ t) (2 ^ expo (z * 2 ^ t) 1) = z * 2 ^ t / 2 ^ expo (z * 2 ^ t) 1 := by
    unfold rne
    simp [Nat.mod_eq_zero_of_dvd hd]
  rw [this, Nat.div_mul_cancel hd]

theorem round_fits {g : ℕ} {q : ℚ} (hg : g ≤ 1074) (hq : OnGrid g q) (h : |q| ≤ 2 ^ 53 / 2 ^ g) (s : Bool) :
    (F64.round q s).isFinite = true ∧ (F64.round q s).val = q := by
  have hgp : (0 : ℚ) < 2 ^ g := by positivity
  have hlt : |q| < overflowThreshold := by
    refine lt_of_le_of_lt (h.trans (div_le_self (by positivity) (one_le_pow₀ (by norm_num)))) ?_
    unfold overflowThreshold; norm_num
  refine ⟨(round_isFinite_iff q s).2 hlt, ?_⟩
  by_cases h0 : q = 0
  · rw [h0, round_zero, val_zero]
  rw [round_val h0 hlt]
  obtain ⟨z, hz⟩ := hq
  have habs : |q| = z.natAbs / 2 ^ g := by
    rw [hz, abs_div, abs_of_pos hgp, Nat.cast_natAbs, Int.cast_abs]
  have hz53 : z.natAbs ≤ 2 ^ 53 := by
    rw [habs, div_le_div_iff_of_pos_right hgp] at h
    exact_mod_cast h
  have hN : roundUnbounded (q.num.natAbs * 2 ^ 1074) q.den = roundUnbounded (z.natAbs * 2 ^ (1074 - g)) 1 := by
    refine roundUnbounded_congr q.den_pos one_pos ?_
    rw [scaled_rat, habs]
    unfold scaled
    push_cast
    rw [div_one, div_mul_eq_mul_div, div_eq_iff hgp.ne', mul_assoc, ← pow_add, Nat.sub_add_cancel hg]
  rw [hN, magInt_round_fits hz53]
  have e : ((z.natAbs * 2 ^ (1074 - g) : ℕ) : ℚ) / 2 ^ 1074 = |q| := by
    rw [habs]
    push_cast
    rw [div_eq_div_iff (by positivity) (by positivity), mul_assoc, ← pow_add, Nat.sub_add_cancel hg]
  rw [e]
  split_ifs with hneg
  · rw [abs_of_neg hneg]; ring
  · rw [abs_of_nonneg (not_lt.1 hneg)]; ring

/-! ## Exact sums -/

section sums
variable {g : ℕ}

theorem sum_abs_nonneg (ys : List F64) : 0 ≤ (ys.map fun y => |y.val|).sum := by
  refine List.sum_nonneg fun x hx => ?_
  obtain ⟨y, -, rfl⟩ := List.mem_map.1 hx
  exact abs_nonneg _

theorem abs_sum_map_le (ys : List F64) : |(ys.map F64.val).sum| ≤ (ys.map fun y => |y.val|).sum := by
  induction ys with
  | nil => simp
  | cons y ys ih => simp only [List.map_cons, List.sum_cons]; exact (abs_add_le _ _).trans (by linarith)

theorem add_fits (hg : g ≤ 1074) {x y : F64} (hx : x.isFinite = true) (hy : y.isFinite = true) (gx : OnGrid g x.val)
    (gy : OnGrid g y.val) (h : |x.val + y.val| ≤ 2 ^ 53 / 2 ^ g) :
    (F64.add x y).isFinite = true ∧ (F64.add x y).val = x.val + y.val := by
  rw [add_fin hx hy]; exact round_fits hg (gx.add gy) h _

theorem foldl_fits (hg : g ≤ 1074) (ys : List F64) (hy : ∀ y ∈ ys, y.isFinite = true ∧ OnGrid g y.val) :
    ∀ acc : F64, acc.isFinite = true → OnGrid g acc.val → |acc.val| + (ys.map fun y => |y.val|).sum ≤ 2 ^ 53 / 2 ^ g →
      (ys.foldl F64.add acc).isFinite = true ∧ (ys.foldl F64.add acc).val = acc.val + (ys.map F64.val).sum ∧
        OnGrid g (ys.foldl F64.add acc).val := by
  induction ys with
  | nil => intro acc ha ga _; exact ⟨ha, by simp, ga⟩
  | cons y ys ih =>
    intro acc ha ga h
    simp only [List.map_cons, List.sum_cons] at h
    have hnn : 0 ≤ (ys.map fun y => |y.val|).sum := sum_abs_nonneg _
    have h1 := abs_add_le acc.val y.val
    obtain ⟨f1, v1⟩ := add_fits hg ha (hy y (by simp)).1 ga (hy y (by simp)).2 (by linarith)
    obtain ⟨f2, v2, g2⟩ := ih (fun z hz => hy z (List.mem_cons_of_mem _ hz)) _ f1 (by rw [v1]; exact ga.add (hy y (by simp)).2)
      (by rw [v1]; linarith)
    refine ⟨f2, ?_, g2⟩
    simp only [List.foldl_cons]
    rw [v2, v1]; simp only [List.map_cons, List.sum_cons]; ring

variable [L : Libm]

theorem sum_fits (hg : g ≤ 1074) {ys : List F64} (h : FitsGrid g ys) :
    (ys.foldl (· +ᶠ ·) sumInit).isFinite = true ∧ (ys.foldl (· +ᶠ ·) sumInit).val = (ys.map F64.val).sum ∧
      OnGrid g (ys.foldl (· +ᶠ ·) sumInit).val := by
  have := foldl_fits hg ys h.1 (zero true) (zero_isFinite _) (by rw [val_zero]; exact onGrid_zero g) (by
    rw [val_zero, abs_zero, zero_add]; exact h.2)
  rw [val_zero, zero_add] at this
  exact this

theorem parSum_fits (hg : g ≤ 1074) {α : Type} (u : α → F64) (s : Schedule) : ∀ {xs : List α}, FitsGrid g (xs.map u) →
    (parSumMap s xs u).isFinite = true ∧ (parSumMap s xs u).val = ((xs.map u).map F64.val).sum ∧ OnGrid g (parSumMap s xs u).val := by
  have red : ∀ {x y : F64}, x.isFinite = true → y.isFinite = true → OnGrid g x.val → OnGrid g y.val →
      |x.val| + |y.val| ≤ 2 ^ 53 / 2 ^ g →
      (sumReduce x y).isFinite = true ∧ (sumReduce x y).val = x.val + y.val ∧ OnGrid g (sumReduce x y).val := by
    intro x y fx fy gx gy h
    have := sum_fits (g := g) hg (ys := [x, y]) ⟨by
      intro z hz
      simp only [List.mem_cons, List.not_mem_nil, or_false] at hz
      rcases hz with rfl | rfl
      exacts [⟨fx, gx⟩, ⟨fy, gy⟩], by simpa using h⟩
    have e : ([x, y].map F64.val).sum = x.val + y.val := by simp
    rw [e] at this
    exact this
  induction s with
  | leaf =>
    intro xs h
    obtain ⟨f1, v1, g1⟩ := sum_fits hg h
    have hz := sum_fits (g := g) hg (ys := []) ⟨by simp, by simp only [List.map_nil, List.sum_nil]; positivity⟩
    have hle := abs_sum_map_le (xs.map u)
    obtain ⟨f2, v2, g2⟩ := red hz.1 f1 hz.2.2 g1 (by
      rw [hz.2.1, v1]; simp only [List.map_nil, List.sum_nil, abs_zero, zero_add]; exact hle.trans h.2)
    exact ⟨f2, by rw [show (parSumMap .leaf xs u).val = _ from v2, hz.2.1, v1]; simp, g2⟩
  | split mid l q ihl ihr =>
    intro xs h
    have hsplit : ((xs.take mid).map u).map (fun y => |y.val|) ++ ((xs.drop mid).map u).map (fun y => |y.val|) =
        (xs.map u).map fun y => |y.val| := by
      rw [← List.map_append, ← List.map_append, List.take_append_drop]
    have hsplit' : ((xs.take mid).map u).map F64.val ++ ((xs.drop mid).map u).map F64.val = (xs.map u).map F64.val := by
      rw [← List.map_append, ← List.map_append, List.take_append_drop]
    have hs := h.2
    rw [← hsplit, List.sum_append] at hs
    have n1 : 0 ≤ (((xs.take mid).map u).map fun y => |y.val|).sum := sum_abs_nonneg _
    have n2 : 0 ≤ (((xs.drop mid).map u).map fun y => |y.val|).sum := sum_abs_nonneg _
    obtain ⟨f1, v1, g1⟩ := ihl (xs := xs.take mid) ⟨fun y hy => h.1 y (by
      rw [List.map_take] at hy; exact List.mem_of_mem_take hy), by linarith⟩
    obtain ⟨f2, v2, g2⟩ := ihr (xs := xs.drop mid) ⟨fun y hy => h.1 y (by
      rw [List.map_drop] at hy; exact List.mem_of_mem_drop hy), by linarith⟩
    have l1 := abs_sum_map_le ((xs.take mid).map u)
    have l2 := abs_sum_map_le ((xs.drop mid).map u)
    obtain ⟨f3, v3, g3⟩ := red f1 f2 g1 g2 (by rw [v1, v2]; linarith)
    exact ⟨f3, by rw [show (parSumMap (.split mid l q) xs u).val = _ from v3, v1, v2, ← hsplit', List.sum_append], g3⟩

end sums

/-! ## The same number -/

theorem same_round (q : ℚ) (s s' : Bool) : SameNumber (F64.round q s) (F64.round q s') := by
  by_cases h : q = 0
  · rw [h, round_zero, round_zero]; exact .inr ⟨isZero_zero _, isZero_zero _⟩
  · left; simp [F64.round, h]

theorem same_finite {x x' : F64} (h : SameNumber x x') : x.isFinite = x'.isFinite := by
  rcases h with rfl | ⟨h, h'⟩
  · rfl
  · rw [finite_of_isZero h, finite_of_isZero h']

theorem same_val {x x' : F64} (h : SameNumber x x') : x.val = x'.val := by
  rcases h with rfl | ⟨h, h'⟩
  · rfl
  · rw [isZero_iff.1 h, isZero_iff.1 h']

theorem same_nonfinite {x x' : F64} (h : SameNumber x x') (hf : x.isFinite = false) : x = x' := by
  rcases h with h | ⟨h, -⟩
  · exact h
  · rw [finite_of_isZero h] at hf; cases hf

theorem same_of_val {x x' : F64} (hx : x.isFinite = true) (hx' : x'.isFinite = true) (h : x.val = x'.val) : SameNumber x x' := by
  by_cases h0 : x.val = 0
  · exact .inr ⟨isZero_iff.2 h0, isZero_iff.2 (h ▸ h0)⟩
  · left
    rw [← round_exact hx h0 false, h, round_exact hx' (h ▸ h0)]

theorem add_nonfinite_left {x y : F64} (hx : x.isFinite = false) (hy : y.isFinite = true) : F64.add x y = if x.isNaN then nan else x := by
  unfold F64.add
  rw [isNaN_of_finite hy, isInf_of_finite hy]
  by_cases hn : x.isNaN = true
  · simp [hn]
  · rw [Bool.not_eq_true] at hn
    have hi : x.isInf = true := by
      rcases nan_trichotomy x hn with h | h
      · exact h
      · rw [hx] at h; cases h
    simp [hn, hi]

theorem same_add {x x' y y' : F64} (hx : SameNumber x x') (hy : SameNumber y y') : SameNumber (F64.add x y) (F64.add x' y') := by
  by_cases fx : x.isFinite = true
  · by_cases fy : y.isFinite = true
    · rw [add_fin fx fy, add_fin (same_finite hx ▸ fx) (same_finite hy ▸ fy), same_val hx, same_val hy]
      exact same_round _ _ _
    · rw [Bool.not_eq_true] at fy
      left
      obtain rfl := same_nonfinite hy fy
      rw [addComm x, addComm x', add_nonfinite_left fy fx, add_nonfinite_left fy (same_finite hx ▸ fx)]
  · rw [Bool.not_eq_true] at fx
    left
    obtain rfl := same_nonfinite hx fx
    by_cases fy : y.isFinite = true
    · rw [add_nonfinite_left fx fy, add_nonfinite_left fx (same_finite hy ▸ fy)]
    · rw [Bool.not_eq_true] at fy
      rw [same_nonfinite hy fy]

theorem same_mul {x x' w : F64} (hx : SameNumber x x') : SameNumber (F64.mul x w) (F64.mul x' w) := by
  rcases hx with rfl | ⟨h, h'⟩
  · exact .inl rfl
  · rw [zero_of_isZero h, zero_of_isZero h']
    by_cases fw : w.isFinite = true
    · rw [zero_mul_finite _ fw, zero_mul_finite _ fw]; exact .inr ⟨isZero_zero _, isZero_zero _⟩
    · rw [Bool.not_eq_true] at fw
      rw [zero_mul_nonfinite _ fw, zero_mul_nonfinite _ fw]; exact .inl rfl

section
variable [L : Libm]

theorem lit_two_not_zero : (lit 2.0 : F64).isZero = false := by show (F64.round 2.0 false).isZero = false; decide +kernel

theorem same_compat : Compat SameNumber (fun _ => True) where
  init := .inl rfl
  add := same_add
  mul := fun _ h => same_mul h
  two := by
    rintro x x' (rfl | ⟨h, h'⟩)
    · exact .inl rfl
    · rw [zero_of_isZero h, zero_of_isZero h', F64.zero_div _ lit_two_finite lit_two_not_zero,
        F64.zero_div _ lit_two_finite lit_two_not_zero]
      exact .inr ⟨isZero_zero _, isZero_zero _⟩
  ok_two := trivial
  ok_four := trivial

theorem parSum_same {g : ℕ} (hg : g ≤ 1074) {α : Type} (u : α → F64) (s : Schedule) {xs : List α} (h : FitsGrid g (xs.map u)) :
    SameNumber (parSumMap s xs u) ((xs.map u).foldl (· +ᶠ ·) sumInit) := by
  obtain ⟨f1, v1, -⟩ := parSum_fits hg u s h
  obtain ⟨f2, v2, -⟩ := sum_fits hg h
  exact same_of_val f1 f2 (v1.trans v2.symm)

omit L in
theorem fits_left {g : ℕ} {xs ys : List F64} (h : FitsGrid g (xs ++ ys)) : FitsGrid g xs := by
  refine ⟨fun y hy => h.1 y (List.mem_append_left _ hy), ?_⟩
  have := h.2
  rw [List.map_append, List.sum_append] at this
  have : 0 ≤ (ys.map fun y => |y.val|).sum := sum_abs_nonneg _
  linarith

omit L in
theorem fits_right {g : ℕ} {xs ys : List F64} (h : FitsGrid g (xs ++ ys)) : FitsGrid g ys := by
  refine ⟨fun y hy => h.1 y (List.mem_append_right _ hy), ?_⟩
  have := h.2
  rw [List.map_append, List.sum_append] at this
  have : 0 ≤ (xs.map fun y => |y.val|).sum := sum_abs_nonneg _
  linarith

omit L in
theorem zipWith_map_self {α : Type} (ps : List α) (pt : α → F64) (v : F64 → α → F64) :
    List.zipWith v (ps.map pt) ps = ps.map fun p => v (pt p) p := by
  induction ps with
  | nil => rfl
  | cons p ps ih => simp [ih]

theorem weighted_map_eq (ps : List (F64 × F64)) (pt : F64 × F64 → F64) (f : F64 → F64) :
    weighted ps ((ps.map pt).map f) = (ps.map fun p => f (pt p) *ᶠ p.2).foldl (· +ᶠ ·) sumInit := by
  unfold weighted
  rw [List.map_map, zipWith_map_self]; rfl

omit L in
/-- the lists of Simpson's rule with `d + 1` panels -/
theorem simpson_lists {α : Type} {d : ℕ} {E M : List α} {m u v z : α} (hE : E.length = d) (hM : M.length = d) :
    (E ++ (M ++ [m]) ++ [u, v]).take d = E ∧ ((E ++ (M ++ [m]) ++ [u, v]).drop d).take d = M ∧
      (E ++ (M ++ [m]) ++ [u, v]).getD (2 * (d + 1) - 2) z = m ∧ (E ++ (M ++ [m]) ++ [u, v]).getD (2 * (d + 1) - 1) z = u ∧
      (E ++ (M ++ [m]) ++ [u, v]).getD (2 * (d + 1)) z = v ∧ (E ++ (M ++ [m]) ++ [u, v]).take (2 * d) = E ++ M := by
  have e : E ++ (M ++ [m]) ++ [u, v] = E ++ (M ++ [m, u, v]) := by simp
  have e' : E ++ (M ++ [m]) ++ [u, v] = (E ++ M) ++ [m, u, v] := by simp
  have hl : (E ++ M).length = 2 * d := by simp [hE, hM]; omega
  refine ⟨?_, ?_, ?_, ?_, ?_, ?_⟩
  · rw [e]; exact List.take_left' hE
  · rw [e, List.drop_left' hE]; exact List.take_left' hM
  · rw [e', List.getD_eq_getElem?_getD, List.getElem?_append_right (by omega), hl, show 2 * (d + 1) - 2 - 2 * d = 0 by omega]; rfl
  · rw [e', List.getD_eq_getElem?_getD, List.getElem?_append_right (by omega), hl, show 2 * (d + 1) - 1 - 2 * d = 1 by omega]; rfl
  · rw [e', List.getD_eq_getElem?_getD, List.getElem?_append_right (by omega), hl, show 2 * (d + 1) - 2 * d = 2 by omega]; rfl
  · rw [e']; exact List.take_left' hl

/-- C119: if the numbers a rule adds up are multiples of `2^-g` whose magnitudes add up to at most `2^53` such units, then
`par_integrate` returns the same number as `integrate`, under every schedule (`C25_not_bitwise`: in general it does not). -/
theorem C119_schedule {g : ℕ} (hg : g ≤ 1074) (R : AnyRule F64) (a b : F64) (f : F64 → F64) (h : FitsGrid g (summands a b f R))
    (s s' : Schedule) : SameNumber (R.parIntegrate s s' a b f) (R.value a b f) := by
  rw [value_eq]
  have H := same_compat
  have gauss : ∀ (ps : List (F64 × F64)) (pt : F64 × F64 → F64),
      FitsGrid g (List.zipWith (fun x p => f x *ᶠ p.2) (ps.map pt) ps) →
      SameNumber (parSumMap s ps fun p => f (pt p) *ᶠ p.2) (weighted ps ((ps.map pt).map f)) := by
    intro ps pt hp
    rw [zipWith_map_self] at hp
    rw [weighted_map_eq]
    exact parSum_same hg _ s hp
  cases R with
  | midpoint r =>
    have h' : FitsGrid g ((List.range r.degree).map fun i => f (a +ᶠ (b -ᶠ a) /ᶠ ofNat r.degree *ᶠ (lit 0.5 +ᶠ ofNat i))) := by
      simpa [summands, points, List.map_map, Function.comp_def] using h
    have := parSum_same hg _ s h'
    refine H.mul trivial ?_
    simpa [points, List.map_map, Function.comp_def] using this
  | trapezoid r =>
    have e : ((points a b (.trapezoid r)).drop 2).map f =
        (List.range' 1 (r.degree - 1)).map fun x => f (a +ᶠ ofNat x *ᶠ ((b -ᶠ a) /ᶠ ofNat r.degree)) := by
      rw [range'_one_eq]; simp [points, Function.comp_def]
    have h' : FitsGrid g (((points a b (.trapezoid r)).drop 2).map f) := h
    rw [e] at h'
    refine H.mul trivial (H.add (.inl rfl) ?_)
    rw [← List.map_drop, e]
    exact parSum_same hg _ s h'
  | simpson r =>
    obtain ⟨d, hd⟩ : ∃ d, r.degree = d + 1 := ⟨r.degree - 1, by have := r.pos; omega⟩
    set pe : ℕ → F64 := fun node => a +ᶠ ofNat node *ᶠ ((b -ᶠ a) /ᶠ ofNat r.degree) with hpe
    set pm : ℕ → F64 := fun node => a +ᶠ (lit 2.0 *ᶠ ofNat node -ᶠ lit 1.0) *ᶠ ((b -ᶠ a) /ᶠ ofNat r.degree) /ᶠ lit 2.0 with hpm
    have ep : (points a b (.simpson r)).map f = (List.range' 1 d).map (fun i => f (pe i)) ++
        ((List.range' 1 d).map (fun i => f (pm i)) ++ [f (pm (d + 1))]) ++ [f a, f b] := by
      rw [range'_one_eq]
      simp only [points, hd, Nat.add_sub_cancel, List.range_succ, List.map_append, List.map_map, List.map_cons, List.map_nil,
        Function.comp_def, hpe, hpm]
    obtain ⟨l1, l2, l3, l4, l5, l6⟩ := simpson_lists (d := d) (E := (List.range' 1 d).map fun i => f (pe i))
      (M := (List.range' 1 d).map fun i => f (pm i)) (m := f (pm (d + 1))) (u := f a) (v := f b) (z := (sumInit : F64)) (by simp) (by simp)
    have h' : FitsGrid g (((points a b (.simpson r)).take (2 * (r.degree - 1))).map f) := h
    simp only [List.map_take, ep, hd, Nat.add_sub_cancel, l6] at h'
    have c : combine a b (.simpson r) ((points a b (.simpson r)).map f) =
        (b -ᶠ a) /ᶠ ofNat r.degree /ᶠ lit 6.0 *ᶠ
          (lit 2.0 *ᶠ ((List.range' 1 d).map fun i => f (pe i)).foldl (· +ᶠ ·) sumInit +ᶠ
            lit 4.0 *ᶠ ((List.range' 1 d).map fun i => f (pm i)).foldl (· +ᶠ ·) sumInit +ᶠ
            lit 4.0 *ᶠ f (pm r.degree) +ᶠ f a +ᶠ f b) := by
      have hn : r.degree - 1 = d := by omega
      simp only [combine, ep, hn]
      rw [hd, l1, l2, l3, l4, l5]
    rw [c]
    refine H.mul' trivial (H.add (H.add (H.add (H.add (H.mul' trivial ?_) (H.mul' trivial ?_)) (.inl rfl)) (.inl rfl)) (.inl rfl))
    · rw [show r.degree - 1 = d by omega]; exact parSum_same hg _ s (fits_left h')
    · rw [show r.degree - 1 = d by omega]; exact parSum_same hg _ s' (fits_right h')
  | legendre r => exact H.mul' trivial (gauss _ _ h)
  | chebyshevFirst r => exact H.mul trivial (gauss _ _ h)
  | chebyshevSecond r => exact H.mul trivial (gauss _ _ h)
  | jacobi r => exact H.mul' trivial (gauss _ _ h)
  | hermite r => exact gauss _ _ h
  | laguerre r => exact gauss _ _ h

/-- C119: under the same condition the sums themselves are exact, sequentially and under every schedule. -/
theorem C119_sum {g : ℕ} (hg : g ≤ 1074) {α : Type} (u : α → F64) (xs : List α) (h : FitsGrid g (xs.map u)) (s : Schedule) :
    ((parSumMap s xs u).isFinite = true ∧ (parSumMap s xs u).val = (xs.map fun x => (u x).val).sum) ∧
      ((sumList (xs.map u)).isFinite = true ∧ (sumList (xs.map u)).val = (xs.map fun x => (u x).val).sum) := by
  obtain ⟨f1, v1, -⟩ := parSum_fits hg u s h
  obtain ⟨f2, v2, -⟩ := sum_fits hg h
  rw [List.map_map] at v1 v2
  exact ⟨⟨f1, v1⟩, ⟨f2, v2⟩⟩

/-- C119: midpoint rule.  The result is rounded only once, in the multiplication by the step. -/
theorem C119_midpoint {g : ℕ} (hg : g ≤ 1074) (r : NodeRule) (a b : F64) (f : F64 → F64) (h : FitsGrid g (summands a b f (.midpoint r)))
    (hs : ((b -ᶠ a) /ᶠ ofNat r.degree : F64).isFinite = true) :
    ((AnyRule.midpoint r).value a b f).val =
      (F64.round (((points a b (.midpoint r)).map fun x => (f x).val).sum * ((b -ᶠ a) /ᶠ ofNat r.degree : F64).val) false).val := by
  rw [value_eq]
  obtain ⟨f2, v2, -⟩ := sum_fits hg h
  show (F64.mul ((summands a b f (.midpoint r)).foldl (· +ᶠ ·) sumInit) _).val = _
  rw [mul_fin f2 hs, v2]
  have e : ((summands a b f (.midpoint r)).map F64.val).sum = ((points a b (.midpoint r)).map fun x => (f x).val).sum := by
    simp only [summands, List.map_map]; rfl
  rw [e]
  exact same_val (same_round _ _ _)

/-- C119: the Gauss rules on a finite interval.  After the products the result is rounded only once. -/
theorem C119_gauss {g : ℕ} (hg : g ≤ 1074) (R : AnyRule F64) (hR : (∃ r, R = .legendre r) ∨ (∃ r, R = .chebyshevFirst r) ∨
      (∃ r, R = .chebyshevSecond r) ∨ ∃ r, R = .jacobi r) (a b : F64) (f : F64 → F64) (h : FitsGrid g (summands a b f R))
    (hs : (lit 0.5 *ᶠ (b -ᶠ a) : F64).isFinite = true) :
    (R.value a b f).val = (F64.round (((summands a b f R).map F64.val).sum * (lit 0.5 *ᶠ (b -ᶠ a) : F64).val) false).val := by
  rw [value_eq]
  have key : ∀ (ps : List (F64 × F64)) (pt : F64 × F64 → F64),
      FitsGrid g (List.zipWith (fun x p => f x *ᶠ p.2) (ps.map pt) ps) →
      (F64.mul (weighted ps ((ps.map pt).map f)) (lit 0.5 *ᶠ (b -ᶠ a))).val =
        (F64.round (((List.zipWith (fun x p => f x *ᶠ p.2) (ps.map pt) ps).map F64.val).sum * (lit 0.5 *ᶠ (b -ᶠ a) : F64).val) false).val := by
    intro ps pt hp
    obtain ⟨f2, v2, -⟩ := sum_fits hg hp
    rw [zipWith_map_self] at f2 v2 ⊢
    rw [weighted_map_eq, mul_fin f2 hs, v2]
    exact same_val (same_round _ _ _)
  rcases hR with ⟨r, rfl⟩ | ⟨r, rfl⟩ | ⟨r, rfl⟩ | ⟨r, rfl⟩
  · exact (congrArg F64.val (mulComm _ _)).trans (key _ _ h)
  · exact key _ _ h
  · exact key _ _ h
  · exact (congrArg F64.val (mulComm _ _)).trans (key _ _ h)

/-- C119: Gauss-Hermite and Gauss-Laguerre.  The result is the exact sum of the products. -/
theorem C119_infinite {g : ℕ} (hg : g ≤ 1074) (R : AnyRule F64) (hR : (∃ r, R = .hermite r) ∨ ∃ r, R = .laguerre r) (a b : F64)
    (f : F64 → F64) (h : FitsGrid g (summands a b f R)) :
    (R.value a b f).isFinite = true ∧ (R.value a b f).val = ((summands a b f R).map F64.val).sum := by
  rw [value_eq]
  have key : ∀ (ps : List (F64 × F64)) (pt : F64 × F64 → F64),
      FitsGrid g (List.zipWith (fun x p => f x *ᶠ p.2) (ps.map pt) ps) →
      (weighted ps ((ps.map pt).map f)).isFinite = true ∧ (weighted ps ((ps.map pt).map f)).val =
        ((List.zipWith (fun x p => f x *ᶠ p.2) (ps.map pt) ps).map F64.val).sum := by
    intro ps pt hp
    obtain ⟨f2, v2, -⟩ := sum_fits hg hp
    rw [zipWith_map_self] at f2 v2 ⊢
    rw [weighted_map_eq]
    exact ⟨f2, v2⟩
  rcases hR with ⟨r, rfl⟩ | ⟨r, rfl⟩
  · exact key _ _ h
  · exact key _ _ h

end

section
attribute [local instance] Conformance.noLibm

theorem onGrid_of_den {g : ℕ} {q : ℚ} (h : (q * 2 ^ g).den = 1) : OnGrid g q :=
  ⟨(q * 2 ^ g).num, by rw [eq_div_iff (by positivity)]; exact (Rat.den_eq_one_iff _).1 h |>.symm⟩

theorem fits_of_check {g : ℕ} {ys : List F64} (h : (∀ y ∈ ys, y.isFinite = true ∧ (y.val * 2 ^ g).den = 1) ∧
    (ys.map fun y => |y.val|).sum ≤ 2 ^ 53 / 2 ^ g) : FitsGrid g ys :=
  ⟨fun y hy => ⟨(h.1 y hy).1, onGrid_of_den (h.1 y hy).2⟩, h.2⟩

/-- Simpson's rule with four panels on `[0, 4]` for `x²`: any schedule, the same number -/
example (s s' : Schedule) : SameNumber
    ((AnyRule.simpson ⟨4, by norm_num, by norm_num⟩).parIntegrate s s' (zero false) (F64.round 4 false) fun x => F64.mul x x)
    ((AnyRule.simpson ⟨4, by norm_num, by norm_num⟩).value (zero false) (F64.round 4 false) fun x => F64.mul x x) :=
  C119_schedule (g := 2) (by norm_num) _ _ _ _ (fits_of_check (by decide +kernel)) s s'

example (s : Schedule) : (parSumMap s [F64.round 3 false, F64.round (1 / 2) false] id).val = 3.5 := by
  have h := (C119_sum (g := 1) (by norm_num) id [F64.round 3 false, F64.round (1 / 2) false] (fits_of_check (by decide +kernel)) s).1.2
  rw [h]; decide +kernel

/-- the midpoint rule with four panels on `[0, 4]` for `x`: the sum is 8 -/
example : ((AnyRule.midpoint ⟨4, by norm_num, by norm_num⟩).value (zero false) (F64.round 4 false) fun x => x).val = 8 := by
  rw [C119_midpoint (g := 1) (by norm_num) _ _ _ _ (fits_of_check (by decide +kernel)) (by decide +kernel)]
  decide +kernel

/-- a Gauss rule with two stored pairs on `[0, 2]`, for the constant 3 -/
example : ((AnyRule.legendre ⟨[(F64.round (-0.5) false, F64.round 0.75 false), (F64.round 0.5 false, F64.round 1.25 false)]⟩).value
    (zero false) (F64.round 2 false) fun _ => F64.round 3 false).val = 6 := by
  rw [C119_gauss (g := 2) (by norm_num) _ (.inl ⟨_, rfl⟩) _ _ _ (fits_of_check (by decide +kernel)) (by decide +kernel)]
  decide +kernel

/-- a Hermite rule with two stored pairs for `x` -/
example : ((AnyRule.hermite ⟨[(F64.round (-0.5) false, F64.round 0.75 false), (F64.round 0.5 false, F64.round 1.25 false)]⟩).value
    (zero false) (zero false) fun x => x).val = 0.25 := by
  rw [(C119_infinite (g := 3) (by norm_num) _ (.inl ⟨_, rfl⟩) _ _ _ (fits_of_check (by decide +kernel))).2]
  decide +kernel

end

end GaussQuad.Props
