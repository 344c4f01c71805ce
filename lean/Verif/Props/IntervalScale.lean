import Verif.Props.PowerScale
import Mathlib.Data.List.Forall2

/-!
# C120: scaling the interval by a power of two scales the evaluation points and the result exactly
-/

set_option exponentiation.threshold 3000

namespace GaussQuad.Props
open Spec F64 FloatOps

/-- a rounded number of magnitude at least `2^-m` stays on the grid of the numbers of that magnitude -/
theorem round_large {q : ℚ} {m : ℕ} (hm : m ≤ 1022) (hq : q = 0 ∨ 1 / 2 ^ m ≤ |q|) (h : |q| < overflowThreshold) (s : Bool) :
    OnGrid (m + 52) (F64.round q s).val := by
  by_cases h0 : q = 0
  · rw [h0, round_zero, val_zero]; exact onGrid_zero _
  have hq := hq.resolve_left h0
  rw [round_val h0 h]
  set A := q.num.natAbs * 2 ^ 1074 with hA
  have hB : 0 < q.den := q.den_pos
  have hB' : (0 : ℚ) < q.den := by exact_mod_cast hB
  have hbig : 2 ^ (1074 - m) ≤ A / q.den := by
    rw [Nat.le_div_iff_mul_le hB]
    have : (2 : ℚ) ^ (1074 - m) * q.den ≤ (A : ℕ) := by
      have e : ((A : ℕ) : ℚ) = |q| * 2 ^ 1074 * q.den := by
        rw [← scaled_rat, hA]; unfold scaled; field_simp
      rw [e]
      refine mul_le_mul_of_nonneg_right ?_ hB'.le
      calc (2 : ℚ) ^ (1074 - m) = 1 / 2 ^ m * 2 ^ 1074 := by
            rw [show (1074 : ℕ) = (1074 - m) + m by omega, pow_add, show 1074 - m + m - m = 1074 - m by omega]; field_simp
        _ ≤ |q| * 2 ^ 1074 := mul_le_mul_of_nonneg_right hq (by positivity)
    exact_mod_cast this
  have hQ0 : A / q.den ≠ 0 := by have := Nat.two_pow_pos (1074 - m); omega
  have he : 1022 - m ≤ expo A q.den := by
    unfold expo
    have := (Nat.le_log2 hQ0).2 hbig
    omega
  have hd : 2 ^ (1022 - m) ∣ magInt (roundUnbounded A q.den) := by
    rw [magInt_round]; exact Dvd.dvd.mul_left (pow_dvd_pow 2 he) _
  obtain ⟨w, hw⟩ := hd
  have e : (magInt (roundUnbounded A q.den) : ℚ) / 2 ^ 1074 = w / 2 ^ (m + 52) := by
    rw [hw]
    push_cast
    rw [div_eq_div_iff (by positivity) (by positivity), mul_comm _ (w : ℚ), mul_assoc, ← pow_add]
    congr 2; omega
  rw [e]
  split_ifs
  · exact ⟨-w, by push_cast; ring⟩
  · exact ⟨w, by push_cast; ring⟩

variable {k : ℕ}

theorem Follows.neg {g : ℕ} {x x' : F64} (hx : Follows k g x x') : Follows k g (F64.neg x) (F64.neg x') := by
  have hv : ∀ y : F64, (F64.neg y).val = -y.val := by
    intro y; rw [val_eq, val_eq]; cases h : y.sign <;> simp [F64.neg, h]
  intro hf
  obtain ⟨fx, vx, z, gz⟩ := hx hf
  exact ⟨fx, by rw [hv, hv, vx]; ring, -z, by rw [hv, gz]; push_cast; ring⟩

theorem Follows.sub {g : ℕ} (hg : g ≤ 1022) {x x' y y' : F64} (hx : Follows k g x x') (hy : Follows k g y y') :
    Follows k g (F64.sub x y) (F64.sub x' y') := hx.add hg hy.neg

theorem OnGrid_large' {g : ℕ} {q : ℚ} (hq : OnGrid g q) : q = 0 ∨ 1 / 2 ^ g ≤ |q| := by
  obtain ⟨z, rfl⟩ := hq
  by_cases hz : z = 0
  · left; simp [hz]
  · right
    have h1 : (1 : ℚ) ≤ |(z : ℚ)| := by exact_mod_cast Int.one_le_abs hz
    rw [abs_div, abs_of_pos (show (0 : ℚ) < 2 ^ g by positivity)]
    exact div_le_div_of_nonneg_right h1 (by positivity)

/-- division by a positive integer below `2^32` -/
theorem Follows.divNat {g c : ℕ} (hg : g + 84 ≤ 1022) {x x' w : F64} (hw : w.isFinite = true) (hc : 0 < c) (hc' : c < 2 ^ 32)
    (hv : w.val = c) (hx : Follows k g x x') : Follows k (g + 84) (F64.div x w) (F64.div x' w) := by
  intro hf
  have fx' : x'.isFinite = true := by
    by_contra hcx; rw [Bool.not_eq_true] at hcx
    have := nonfinite_sticky.div_left _ hw hcx; rw [hf] at this; cases this
  obtain ⟨fx, vx, gx⟩ := hx fx'
  have hc0 : (0 : ℚ) < c := by exact_mod_cast hc
  have h0 : w.isZero = false := by
    by_contra hcz; rw [Bool.not_eq_false] at hcz
    have := isZero_iff.1 hcz; rw [hv] at this; linarith
  have hlow : x.val / c = 0 ∨ 1 / 2 ^ (g + 32) ≤ |x.val / c| := by
    rcases OnGrid_large' gx with h | h
    · left; rw [h]; simp
    · right
      have hc2 : (c : ℚ) ≤ 2 ^ 32 := by exact_mod_cast hc'.le
      rw [abs_div, abs_of_pos hc0, pow_add, ← div_div]
      exact div_le_div₀ (abs_nonneg _) h hc0 hc2
  rw [div_finite fx' hw h0, vx, hv, mul_div_assoc] at hf ⊢
  rw [div_finite fx hw h0, hv]
  have hlow' : x.val / c = 0 ∨ 1 / 2 ^ 1022 ≤ |x.val / c| := hlow.imp id fun h => le_trans (by
    exact div_le_div_of_nonneg_left (by norm_num) (by positivity) (pow_le_pow_right₀ (by norm_num) (by omega))) h
  have hf' := (round_isFinite_iff _ _).1 hf
  have hlt : |x.val / c| < overflowThreshold := by
    refine lt_of_le_of_lt ?_ hf'
    rw [abs_mul, abs_of_pos (show (0 : ℚ) < 2 ^ k by positivity)]
    exact le_mul_of_one_le_left (abs_nonneg _) (one_le_pow₀ (by norm_num))
  exact ⟨(round_isFinite_iff _ _).2 hlt, round_scale k hlow' hf' _ _, round_large (by omega) hlow hlt _⟩

section
variable [L : Libm]

theorem nat_good {i : ℕ} (h : i < 2 ^ 33) : Good 0 (ofNat i : F64) := by
  have := val_round_nat (n := i) (by omega) false
  exact ⟨this.2, i, by rw [show (ofNat i : F64).val = _ from this.1]; simp⟩

theorem half_good : Good 1 (lit 0.5 : F64) :=
  ⟨by show (F64.round 0.5 false).isFinite = true; decide +kernel, 1, by
    show (F64.round 0.5 false).val = _
    rw [show (F64.round 0.5 false).val = 1 / 2 by decide +kernel]; norm_num⟩

theorem one_good : Good 0 (lit 1.0 : F64) :=
  ⟨by show (F64.round 1.0 false).isFinite = true; decide +kernel, 1, by
    show (F64.round 1.0 false).val = _
    rw [show (F64.round 1.0 false).val = 1 by decide +kernel]; norm_num⟩

theorem two_good : Good 0 (lit 2.0 : F64) := ⟨lit_two_finite, 2, by rw [lit_two_val]; norm_num⟩

omit L in
theorem finite_of_small {q : ℚ} (h : |q| ≤ 2 ^ 40) (s : Bool) : (F64.round q s).isFinite = true := by
  rw [round_isFinite_iff]; refine lt_of_le_of_lt h ?_; unfold overflowThreshold; norm_num

/-- `0.5 + i` -/
theorem halfNat_good {i : ℕ} (h : i < 2 ^ 33) : Good 1 (lit 0.5 +ᶠ ofNat i : F64) := by
  have h1 := nat_good h
  have h2 := half_good
  have e : (lit 0.5 +ᶠ ofNat i : F64) = F64.round ((lit 0.5 : F64).val + (ofNat i : F64).val) _ := add_fin h2.1 h1.1
  have v1 : (ofNat i : F64).val = i := (val_round_nat (n := i) (by omega) false).1
  have v2 : (lit 0.5 : F64).val = 1 / 2 := by show (F64.round 0.5 false).val = _; decide +kernel
  have hi : (i : ℚ) ≤ 8589934592 := by exact_mod_cast h.le
  have hs : |(lit 0.5 : F64).val + (ofNat i : F64).val| ≤ 2 ^ 40 := by
    rw [v1, v2, abs_of_nonneg (by positivity)]
    norm_num; linarith
  have hf := finite_of_small hs ((lit 0.5 : F64).sign && (ofNat i : F64).sign)
  rw [e]
  exact ⟨hf, (h2.2.add (h1.2.mono (by norm_num))).round (by norm_num) ((round_isFinite_iff _ _).1 hf) _⟩

/-- `2.0 * i - 1.0` -/
theorem oddNat_good {i : ℕ} (h : i < 2 ^ 33) : Good 0 (lit 2.0 *ᶠ ofNat i -ᶠ lit 1.0 : F64) := by
  have h1 := nat_good h
  have h2 := two_good
  have h3 := one_good
  have v1 : (ofNat i : F64).val = i := (val_round_nat (n := i) (by omega) false).1
  have v2 : (lit 2.0 : F64).val = 2 := lit_two_val
  have v3 : (lit 1.0 : F64).val = 1 := by show (F64.round 1.0 false).val = 1; decide +kernel
  have hi : (i : ℚ) ≤ 8589934592 := by exact_mod_cast h.le
  have e : (lit 2.0 *ᶠ ofNat i : F64) = F64.round ((lit 2.0 : F64).val * (ofNat i : F64).val) _ := mul_fin h2.1 h1.1
  have vm : (lit 2.0 *ᶠ ofNat i : F64).val = ((2 * i : ℕ) : ℚ) ∧ (lit 2.0 *ᶠ ofNat i : F64).isFinite = true := by
    rw [e, v1, v2, show (2 : ℚ) * i = ((2 * i : ℕ) : ℚ) by push_cast; ring]
    exact val_round_nat (by omega) _
  have e2 : (lit 2.0 *ᶠ ofNat i -ᶠ lit 1.0 : F64) = F64.round ((lit 2.0 *ᶠ ofNat i : F64).val - (lit 1.0 : F64).val) _ :=
    sub_finite vm.2 h3.1
  have hs : |(lit 2.0 *ᶠ ofNat i : F64).val - (lit 1.0 : F64).val| ≤ 2 ^ 40 := by
    rw [vm.1, v3]
    push_cast
    have : (0 : ℚ) ≤ i := by positivity
    rw [_root_.abs_le]
    norm_num
    constructor <;> linarith
  rw [e2]
  have hf := finite_of_small hs
  refine ⟨hf _, OnGrid.round (by norm_num) ?_ ((round_isFinite_iff _ true).1 (hf true)) _⟩
  exact ⟨2 * i - 1, by rw [vm.1, v3]; push_cast; ring⟩

/-- the stored nodes of a rule on a finite interval -/
def storedNodes : AnyRule F64 → List F64
  | .legendre r => r.nodeWeightPairs.map (·.1)
  | .chebyshevFirst r => r.nodeWeightPairs.map (·.1)
  | .chebyshevSecond r => r.nodeWeightPairs.map (·.1)
  | .jacobi r => r.nodeWeightPairs.map (·.1)
  | _ => []

variable {a b a' b' : F64} {p q : ℕ}

theorem step_follows (hp : p + 84 ≤ 1022) (ha : Follows k p a a') (hb : Follows k p b b') (r : NodeRule) :
    Follows k (p + 84) ((b -ᶠ a) /ᶠ ofNat r.degree : F64) ((b' -ᶠ a') /ᶠ ofNat r.degree) :=
  Follows.divNat hp (degree_finite r) r.pos r.lt (val_round_nat (n := r.degree) (by have := r.lt; omega) false).1
    (hb.sub (by omega) ha)

theorem gaussPoint_follows (hp : p + q + 1 ≤ 1022) (ha : Follows k p a a') (hb : Follows k p b b') {x : F64} (hx : Good q x) :
    Follows k (p + q + 1) (lit 0.5 *ᶠ ((b -ᶠ a) *ᶠ x +ᶠ (b +ᶠ a)) : F64) (lit 0.5 *ᶠ ((b' -ᶠ a') *ᶠ x +ᶠ (b' +ᶠ a'))) :=
  Follows.mul' hp half_good.1 half_good.2 (Follows.add (by omega) ((hb.sub (by omega) ha).mul (by omega) hx.1 hx.2)
    ((hb.add (by omega) ha).mono (by omega)))

theorem edgePoint_follows (hp : p + 84 ≤ 1022) (ha : Follows k p a a') (hb : Follows k p b b') (r : NodeRule) {i : ℕ} (hi : i < 2 ^ 33) :
    Follows k (p + 84) (a +ᶠ ofNat i *ᶠ ((b -ᶠ a) /ᶠ ofNat r.degree) : F64) (a' +ᶠ ofNat i *ᶠ ((b' -ᶠ a') /ᶠ ofNat r.degree)) :=
  Follows.add hp (ha.mono (by omega)) (Follows.mul' (h := 0) hp (nat_good hi).1 (nat_good hi).2 (step_follows hp ha hb r))

theorem midPoint_follows (hp : p + 85 ≤ 1022) (ha : Follows k p a a') (hb : Follows k p b b') (r : NodeRule) {i : ℕ} (hi : i < 2 ^ 33) :
    Follows k (p + 85) (a +ᶠ (b -ᶠ a) /ᶠ ofNat r.degree *ᶠ (lit 0.5 +ᶠ ofNat i) : F64)
      (a' +ᶠ (b' -ᶠ a') /ᶠ ofNat r.degree *ᶠ (lit 0.5 +ᶠ ofNat i)) :=
  Follows.add hp (ha.mono (by omega)) (Follows.mono (g := p + 84 + 1) (by omega)
    (Follows.mul (by omega) (halfNat_good hi).1 (halfNat_good hi).2 (step_follows (by omega) ha hb r)))

theorem simpsonPoint_follows (hp : p + 85 ≤ 1022) (ha : Follows k p a a') (hb : Follows k p b b') (r : NodeRule) {i : ℕ} (hi : i < 2 ^ 33) :
    Follows k (p + 85) (a +ᶠ (lit 2.0 *ᶠ ofNat i -ᶠ lit 1.0) *ᶠ ((b -ᶠ a) /ᶠ ofNat r.degree) /ᶠ lit 2.0 : F64)
      (a' +ᶠ (lit 2.0 *ᶠ ofNat i -ᶠ lit 1.0) *ᶠ ((b' -ᶠ a') /ᶠ ofNat r.degree) /ᶠ lit 2.0) :=
  Follows.add hp (ha.mono (by omega)) (Follows.mono (g := p + 84 + 1) (by omega) (Follows.half (g := p + 84) (by omega)
    (Follows.mul' (g := p + 84) (h := 0) (by omega) (oddNat_good hi).1 (oddNat_good hi).2 (step_follows (by omega) ha hb r))))

theorem points_follows (hp : p + q + 85 ≤ 1022) (R : AnyRule F64) (hR : hasBounds R = true) (hn : ∀ x ∈ storedNodes R, Good q x)
    (ha : Follows k p a a') (hb : Follows k p b b') :
    List.Forall₂ (Follows k (p + q + 85)) (points a b R) (points a' b' R) := by
  have gauss : ∀ ps : List (F64 × F64), (∀ x ∈ ps.map (·.1), Good q x) → List.Forall₂ (Follows k (p + q + 85))
      (ps.map fun r => (lit 0.5 *ᶠ ((b -ᶠ a) *ᶠ r.1 +ᶠ (b +ᶠ a)) : F64)) (ps.map fun r => lit 0.5 *ᶠ ((b' -ᶠ a') *ᶠ r.1 +ᶠ (b' +ᶠ a'))) := by
    intro ps hps
    rw [List.forall₂_map_left_iff, List.forall₂_map_right_iff, List.forall₂_same]
    exact fun r hr => (gaussPoint_follows (by omega) ha hb (hps _ (List.mem_map_of_mem hr))).mono (by omega)
  have index : ∀ {n : ℕ} {u u' : ℕ → F64}, n < 2 ^ 32 → (∀ i, i < 2 ^ 33 → Follows k (p + q + 85) (u i) (u' i)) →
      List.Forall₂ (Follows k (p + q + 85)) ((List.range n).map u) ((List.range n).map u') := by
    intro n u u' hn h
    rw [List.forall₂_map_left_iff, List.forall₂_map_right_iff, List.forall₂_same]
    exact fun i hi => h i (by rw [List.mem_range] at hi; omega)
  have index' : ∀ {n : ℕ} {u u' : ℕ → F64}, n < 2 ^ 32 → (∀ i, i < 2 ^ 33 → Follows k (p + q + 85) (u i) (u' i)) →
      List.Forall₂ (Follows k (p + q + 85)) ((List.range n).map fun i => u (i + 1)) ((List.range n).map fun i => u' (i + 1)) := by
    intro n u u' hn h
    rw [List.forall₂_map_left_iff, List.forall₂_map_right_iff, List.forall₂_same]
    exact fun i hi => h (i + 1) (by rw [List.mem_range] at hi; omega)
  have hends : List.Forall₂ (Follows k (p + q + 85)) [a, b] [a', b'] :=
    .cons (ha.mono (by omega)) (.cons (hb.mono (by omega)) .nil)
  cases R with
  | midpoint r => exact index r.lt fun i hi => (midPoint_follows (by omega) ha hb r hi).mono (by omega)
  | trapezoid r =>
    exact List.rel_append hends (index' (n := r.degree - 1) (by have := r.lt; omega) fun i hi =>
      (edgePoint_follows (by omega) ha hb r hi).mono (by omega))
  | simpson r =>
    exact List.rel_append (List.rel_append (index' (n := r.degree - 1) (by have := r.lt; omega) fun i hi =>
        (edgePoint_follows (by omega) ha hb r hi).mono (by omega))
      (index' (n := r.degree) r.lt fun i hi => (simpsonPoint_follows (by omega) ha hb r hi).mono (by omega))) hends
  | legendre r => exact gauss _ hn
  | chebyshevFirst r => exact gauss _ hn
  | chebyshevSecond r => exact gauss _ hn
  | jacobi r => exact gauss _ hn
  | hermite r => cases hR
  | laguerre r => cases hR

/-- C120: the evaluation points.  The bounds are multiples of `2^-p` and the stored nodes of `2^-q`.  If both bounds are multiplied by
`2^k` and no evaluation point overflows, every evaluation point is multiplied by exactly `2^k`. -/
theorem C120_points (hp : p + q + 85 ≤ 1022) (R : AnyRule F64) (hR : hasBounds R = true)
    (hn : ∀ x ∈ storedNodes R, x.isFinite = true ∧ OnGrid q x.val)
    (ha : IsScaled k a a') (hb : IsScaled k b b') (ga : OnGrid p a.val) (gb : OnGrid p b.val)
    (hfin : ∀ x ∈ points a' b' R, x.isFinite = true) :
    List.Forall₂ (IsScaled k) (points a b R) (points a' b' R) := by
  have h := points_follows hp R hR hn (k := k) (a := a) (b := b) (a' := a') (b' := b') (fun _ => ⟨ha.1, ha.2.2, ga⟩) (fun _ => ⟨hb.1, hb.2.2, gb⟩)
  have h2 : ∀ {xs ys : List F64}, List.Forall₂ (Follows k (p + q + 85)) xs ys → (∀ y ∈ ys, y.isFinite = true) →
      List.Forall₂ (IsScaled k) xs ys := by
    intro xs ys hxy
    induction hxy with
    | nil => intro _; exact .nil
    | @cons x y xs ys hxy _ ih =>
      intro hy
      have := hxy (hy y (by simp))
      exact .cons ⟨this.1, hy y (by simp), this.2.1⟩ (ih fun z hz => hy z (List.mem_cons_of_mem _ hz))
  exact h2 h hfin

/-! ## The result -/

/-- the sum of a rule before the multiplication by the step or by half the length of the interval -/
def core : AnyRule F64 → List F64 → F64
  | .midpoint _, ys => ys.foldl (· +ᶠ ·) sumInit
  | .trapezoid _, ys => (ys.getD 0 sumInit +ᶠ ys.getD 1 sumInit) /ᶠ lit 2.0 +ᶠ (ys.drop 2).foldl (· +ᶠ ·) sumInit
  | .simpson r, ys =>
      lit 2.0 *ᶠ (ys.take (r.degree - 1)).foldl (· +ᶠ ·) sumInit +ᶠ
        lit 4.0 *ᶠ ((ys.drop (r.degree - 1)).take (r.degree - 1)).foldl (· +ᶠ ·) sumInit +ᶠ
        lit 4.0 *ᶠ ys.getD (2 * r.degree - 2) sumInit +ᶠ ys.getD (2 * r.degree - 1) sumInit +ᶠ ys.getD (2 * r.degree) sumInit
  | .legendre r, ys => weighted r.nodeWeightPairs ys
  | .chebyshevFirst r, ys => weighted r.nodeWeightPairs ys
  | .chebyshevSecond r, ys => weighted r.nodeWeightPairs ys
  | .jacobi r, ys => weighted r.nodeWeightPairs ys
  | .hermite r, ys => weighted r.nodeWeightPairs ys
  | .laguerre r, ys => weighted r.nodeWeightPairs ys

theorem combine_core (R : AnyRule F64) (hR : hasBounds R = true) (ys : List F64) :
    combine a b R ys = F64.mul (finalFactor a b R) (core R ys) := by
  cases R with
  | midpoint r => exact mulComm _ _
  | trapezoid r => exact mulComm _ _
  | simpson r => rfl
  | legendre r => rfl
  | chebyshevFirst r => exact mulComm _ _
  | chebyshevSecond r => exact mulComm _ _
  | jacobi r => rfl
  | hermite r => cases hR
  | laguerre r => cases hR

theorem core_follows {g h : ℕ} (hg : g + h + 1 ≤ 1022) (R : AnyRule F64) (hw : ∀ w ∈ storedWeights R, Good h w) {ys zs : List F64}
    (H : List.Forall₂ (Follows k g) ys zs) : Follows k (g + h + 1) (core R ys) (core R zs) := by
  have hw' : ∀ {pairs : List (F64 × F64)}, (∀ w ∈ pairs.map (·.2), Good h w) → ∀ p ∈ pairs, Good h p.2 :=
    fun h p hp => h _ (List.mem_map_of_mem hp)
  have hz : Follows k g (sumInit : F64) sumInit := follows_zero g true
  have hg0 : g ≤ 1022 := by omega
  cases R with
  | midpoint q => exact (Follows.sum hg0 H).mono (by omega)
  | trapezoid q =>
    refine Follows.mono (g := g + 1) (by omega) ?_
    exact Follows.add (by omega) (Follows.half (by omega) (Follows.add hg0 (forall₂_getD H hz _) (forall₂_getD H hz _)))
      ((Follows.sum hg0 (List.forall₂_drop 2 H)).mono (by omega))
  | simpson q =>
    refine Follows.mono (g := g) (by omega) ?_
    refine Follows.add hg0 (Follows.add hg0 (Follows.add hg0 (Follows.add hg0
      (Follows.twice hg0 (Follows.sum hg0 (List.forall₂_take _ H)))
      (Follows.four hg0 (Follows.sum hg0 (List.forall₂_take _ (List.forall₂_drop _ H))))) (Follows.four hg0 ?_)) ?_) ?_
    all_goals exact forall₂_getD H hz _
  | legendre q => exact (Follows.weighted (by omega) (hw' hw) H).mono (by omega)
  | chebyshevFirst q => exact (Follows.weighted (by omega) (hw' hw) H).mono (by omega)
  | chebyshevSecond q => exact (Follows.weighted (by omega) (hw' hw) H).mono (by omega)
  | jacobi q => exact (Follows.weighted (by omega) (hw' hw) H).mono (by omega)
  | hermite q => exact (Follows.weighted (by omega) (hw' hw) H).mono (by omega)
  | laguerre q => exact (Follows.weighted (by omega) (hw' hw) H).mono (by omega)

theorem factor_follows (hp : p + 168 ≤ 1022) (R : AnyRule F64) (hR : hasBounds R = true) (ha : Follows k p a a') (hb : Follows k p b b') :
    Follows k (p + 168) (finalFactor a b R) (finalFactor a' b' R) := by
  have gauss : Follows k (p + 168) (lit 0.5 *ᶠ (b -ᶠ a) : F64) (lit 0.5 *ᶠ (b' -ᶠ a')) :=
    (Follows.mul' (by omega) half_good.1 half_good.2 (hb.sub (by omega) ha)).mono (by omega)
  cases R with
  | midpoint r => exact (step_follows (by omega) ha hb r).mono (by omega)
  | trapezoid r => exact (step_follows (by omega) ha hb r).mono (by omega)
  | simpson r =>
    refine Follows.mono (g := p + 84 + 84) (by omega) (Follows.divNat (c := 6) (by omega) lit_six_finite (by norm_num) (by norm_num) ?_
      (step_follows (by omega) ha hb r))
    show (F64.round 6.0 false).val = _
    decide +kernel
  | legendre r => exact gauss
  | chebyshevFirst r => exact gauss
  | chebyshevSecond r => exact gauss
  | jacobi r => exact gauss
  | hermite r => cases hR
  | laguerre r => cases hR

omit L in
theorem product_follows {p g : ℕ} (hp : p + g ≤ 1022) {x x' c : F64} (hx : Follows k p x x') (hc : Follows 0 g c c) :
    Follows k (p + g) (F64.mul x c) (F64.mul x' c) := by
  intro hf
  have hcf : c.isFinite = true := by
    by_contra h; rw [Bool.not_eq_true] at h
    have := nonfinite_sticky.mul_right x' h; rw [hf] at this; cases this
  exact hx.mul hp hcf (hc hcf).2.2 hf

/-- C120: the change of variables `x ↦ 2^k x` in binary64.  The bounds are multiples of `2^-p`, the stored nodes of `2^-q`, the weights
of `2^-h` and the values of the integrand of `2^-v`.  If the integrand `g` takes at `2^k x` the value of `f` at `x`, and neither an
evaluation point nor the result over the scaled interval overflows, that result is exactly `2^k` times the one over the original interval. -/
theorem C120_change {h v : ℕ} (hp : p + q + 85 ≤ 1022) (hv : p + h + v + 169 ≤ 1022) (R : AnyRule F64) (hR : hasBounds R = true)
    (hn : ∀ x ∈ storedNodes R, x.isFinite = true ∧ OnGrid q x.val) (hw : ∀ w ∈ storedWeights R, w.isFinite = true ∧ OnGrid h w.val)
    (ha : IsScaled k a a') (hb : IsScaled k b b') (ga : OnGrid p a.val) (gb : OnGrid p b.val)
    (hfin : ∀ x ∈ points a' b' R, x.isFinite = true) (f g : F64 → F64)
    (hfg : ∀ x ∈ points a b R, ∀ x', IsScaled k x x' → g x' = f x)
    (hf : ∀ x ∈ points a b R, (f x).isFinite = true ∧ OnGrid v (f x).val) (hres : (R.value a' b' g).isFinite = true) :
    IsScaled k (R.value a b f) (R.value a' b' g) := by
  have hpts := C120_points hp R hR hn ha hb ga gb hfin
  have hvals : (points a' b' R).map g = (points a b R).map f := by
    have : ∀ {xs ys : List F64}, List.Forall₂ (IsScaled k) xs ys → (∀ x ∈ xs, ∀ x', IsScaled k x x' → g x' = f x) → ys.map g = xs.map f := by
      intro xs ys hxy
      induction hxy with
      | nil => intro _; rfl
      | @cons x y xs ys hxy _ ih =>
        intro hx
        simp only [List.map_cons]
        rw [hx x (by simp) y hxy, ih fun z hz => hx z (List.mem_cons_of_mem _ hz)]
    exact this hpts hfg
  have e' : R.value a' b' g = F64.mul (finalFactor a' b' R) (core R ((points a b R).map f)) := by
    rw [value_eq, combine_core R hR, hvals]
  have e : R.value a b f = F64.mul (finalFactor a b R) (core R ((points a b R).map f)) := by rw [value_eq, combine_core R hR]
  rw [e'] at hres
  rw [e, e']
  have hcore : Follows 0 (v + h + 1) (core R ((points a b R).map f)) (core R ((points a b R).map f)) := by
    refine core_follows (by omega) R hw ?_
    rw [List.forall₂_same]
    intro y hy
    obtain ⟨x, hx, rfl⟩ := List.mem_map.1 hy
    exact fun _ => ⟨(hf x hx).1, by simp, (hf x hx).2⟩
  have := product_follows (by omega) (factor_follows (k := k) (p := p) (by omega) R hR (a := a) (b := b) (a' := a') (b' := b')
    (fun _ => ⟨ha.1, ha.2.2, ga⟩) (fun _ => ⟨hb.1, hb.2.2, gb⟩)) hcore hres
  exact ⟨this.1, hres, this.2.1⟩

end

section
attribute [local instance] Conformance.noLibm

/-- the points of Simpson's rule with three panels on `[0, 1]` and on `[0, 4]` -/
example : List.Forall₂ (IsScaled 2) (points (zero false) (F64.round 1 false) (.simpson ⟨3, by norm_num, by norm_num⟩))
    (points (zero false) (F64.round 4 false) (.simpson ⟨3, by norm_num, by norm_num⟩)) :=
  C120_points (p := 0) (q := 0) (by norm_num) _ rfl (by simp [storedNodes]) ⟨by decide +kernel, by decide +kernel, by decide +kernel⟩
    ⟨by decide +kernel, by decide +kernel, by decide +kernel⟩ ⟨0, by decide +kernel⟩ ⟨1, by decide +kernel⟩ (by decide +kernel)

/-- a Gauss rule with two stored pairs: a step function with its jump at 1/2, on `[0, 1]`, and with its jump at 2, on `[0, 4]` -/
example : IsScaled 2
    ((AnyRule.legendre ⟨[(F64.round (-0.57) false, F64.round 0.9 false), (F64.round 0.57 false, F64.round 1.1 false)]⟩).value
      (zero false) (F64.round 1 false) fun x => if x.val < 1 / 2 then F64.round 3 false else F64.round (-7) false)
    ((AnyRule.legendre ⟨[(F64.round (-0.57) false, F64.round 0.9 false), (F64.round 0.57 false, F64.round 1.1 false)]⟩).value
      (zero false) (F64.round 4 false) fun x => if x.val < 2 then F64.round 3 false else F64.round (-7) false) := by
  refine C120_change (p := 0) (q := 4 + 52) (h := 4 + 52) (v := 0) (by norm_num) (by norm_num) _ rfl (fun x hx => ?_) (fun w hw => ?_)
    ⟨by decide +kernel, by decide +kernel, by decide +kernel⟩ ⟨by decide +kernel, by decide +kernel, by decide +kernel⟩
    ⟨0, by decide +kernel⟩ ⟨1, by decide +kernel⟩ (by decide +kernel) _ _ (fun x _ x' hx' => ?_) (fun x _ => ?_) (by decide +kernel)
  · simp only [storedNodes, List.map_cons, List.map_nil, List.mem_cons, List.not_mem_nil, or_false] at hx
    rcases hx with rfl | rfl
    all_goals exact ⟨by decide +kernel, C118_grid (by norm_num) _ (.inr (by decide +kernel))⟩
  · simp only [storedWeights, List.map_cons, List.map_nil, List.mem_cons, List.not_mem_nil, or_false] at hw
    rcases hw with rfl | rfl
    all_goals exact ⟨by decide +kernel, C118_grid (by norm_num) _ (.inr (by decide +kernel))⟩
  · have : x'.val < 2 ↔ x.val < 1 / 2 := by rw [hx'.2.2]; constructor <;> intro h <;> linarith
    simp only [this]
  · split_ifs
    · exact ⟨by decide +kernel, 3, by decide +kernel⟩
    · exact ⟨by decide +kernel, -7, by decide +kernel⟩

end

end GaussQuad.Props
