import Verif.Props.FloatOrder

/-!
# Order and special values through `+ * /` of binary64

`F64.Le` is the IEEE `<=`.  Rounding is monotone, so addition, multiplication by a nonnegative number and division by
a positive number preserve it exactly, infinities included, as long as the results are not NaN.
-/

set_option exponentiation.threshold 3000

namespace GaussQuad.F64
open Spec Props

/-- IEEE `x <= y`: neither is NaN, and not `y < x` -/
def Le (x y : F64) : Prop := x.isNaN = false ∧ y.isNaN = false ∧ x.key ≤ y.key

theorem le_iff_ltb {x y : F64} : Le x y ↔ x.isNaN = false ∧ y.isNaN = false ∧ y.ltb x = false := by
  unfold Le ltb
  constructor
  · rintro ⟨h1, h2, h3⟩; refine ⟨h1, h2, ?_⟩; simp [h1, h2]; exact h3
  · rintro ⟨h1, h2, h3⟩; refine ⟨h1, h2, ?_⟩; simpa [h1, h2] using h3

theorem Le.refl {x : F64} (h : x.isNaN = false) : Le x x := ⟨h, h, le_rfl⟩
theorem Le.trans {x y z : F64} (h : Le x y) (h' : Le y z) : Le x z := ⟨h.1, h'.2.1, h.2.2.trans h'.2.2⟩

theorem key_le_iff (x y : F64) : x.key ≤ y.key ↔ x.val ≤ y.val := by
  rw [← not_lt, ← not_lt, not_iff_not]; exact key_lt_iff y x

theorem nan_trichotomy (x : F64) (h : x.isNaN = false) : x.isInf = true ∨ x.isFinite = true := by
  simp only [isNaN, isInf, isFinite, decide_eq_false_iff_not, decide_eq_true_eq] at *; omega

theorem key_abs_le {x : F64} (h : x.isNaN = false) : -(infMag : ℤ) ≤ x.key ∧ x.key ≤ infMag := by
  simp only [isNaN, decide_eq_false_iff_not, not_lt] at h
  unfold key; split <;> omega

theorem key_infF (s : Bool) : (inf s).key = if s then -(infMag : ℤ) else infMag := by cases s <;> rfl

theorem inf_isInf (s : Bool) : (inf s).isInf = true := by simp [inf, isInf]
theorem inf_isNaN (s : Bool) : (inf s).isNaN = false := by simp [inf, isNaN]
theorem nan_isNaN : nan.isNaN = true := by decide
theorem zero_isNaN (s : Bool) : (zero s).isNaN = false := isNaN_of_finite (zero_isFinite s)

theorem eq_inf {x : F64} (h : x.isInf = true) : x = inf x.sign := by
  rcases x with ⟨s, m, hm⟩; simp only [isInf, decide_eq_true_eq] at h; subst h; rfl

theorem infMag_pos : (0 : ℤ) < infMag := by decide

/-- anything at or above `+∞` is `+∞` -/
theorem eq_inf_of_ge {x : F64} (h : x.isNaN = false) (hk : (infMag : ℤ) ≤ x.key) : x = inf false := by
  have h1 := infMag_pos
  rcases x with ⟨s, m, hm⟩
  simp only [isNaN, decide_eq_false_iff_not, not_lt] at h
  cases s <;> simp only [key, Bool.false_eq_true, if_true, if_false] at hk
  · have : m = infMag := by omega
    subst this; rfl
  · exfalso; omega

theorem eq_inf_of_le {x : F64} (h : x.isNaN = false) (hk : x.key ≤ -(infMag : ℤ)) : x = inf true := by
  have h1 := infMag_pos
  rcases x with ⟨s, m, hm⟩
  simp only [isNaN, decide_eq_false_iff_not, not_lt] at h
  cases s <;> simp only [key, Bool.false_eq_true, if_true, if_false] at hk
  · exfalso; omega
  · have : m = infMag := by omega
    subst this; rfl

theorem round_isNaN (q : ℚ) (s : Bool) : (round q s).isNaN = false := by
  unfold round
  split
  · exact zero_isNaN s
  · simp only [isNaN, decide_eq_false_iff_not, not_lt]; exact Nat.min_le_right _ _

theorem roundMag_mono {q q' : ℚ} (h : |q| ≤ |q'|) :
    roundMag (q.num.natAbs * 2 ^ 1074) q.den ≤ roundMag (q'.num.natAbs * 2 ^ 1074) q'.den := by
  refine min_le_min (roundUnbounded_mono q.den_pos q'.den_pos ?_) le_rfl
  rw [scaled_rat, scaled_rat]
  exact mul_le_mul_of_nonneg_right h pow1074_pos.le

/-- rounding is monotone, whatever signs the zeros get -/
theorem round_key_mono {q q' : ℚ} (h : q ≤ q') (s s' : Bool) : (round q s).key ≤ (round q' s').key := by
  have key_round : ∀ (q : ℚ) (s : Bool), (round q s).key = if q < 0 then -(roundMag (q.num.natAbs * 2 ^ 1074) q.den : ℤ)
      else if q = 0 then 0 else (roundMag (q.num.natAbs * 2 ^ 1074) q.den : ℤ) := by
    intro q s
    unfold round
    rcases lt_trichotomy q 0 with h | h | h
    · rw [if_neg h.ne, if_pos h]; simp [key, h]
    · rw [if_pos h, if_neg (by rw [h]; exact lt_irrefl _), if_pos h]; cases s <;> rfl
    · rw [if_neg h.ne', if_neg h.le.not_gt, if_neg h.ne']; simp [key, h.le.not_gt]
  rw [key_round, key_round]
  rcases lt_trichotomy q 0 with h1 | h1 | h1 <;> rcases lt_trichotomy q' 0 with h2 | h2 | h2
  · rw [if_pos h1, if_pos h2]
    have := roundMag_mono (q := q') (q' := q) (by rw [abs_of_neg h1, abs_of_neg h2]; linarith)
    omega
  · rw [if_pos h1, h2]; simp
  · rw [if_pos h1, if_neg h2.le.not_gt, if_neg h2.ne']; omega
  · linarith
  · rw [h1, h2]
  · rw [h1, if_neg h2.le.not_gt, if_neg h2.ne']; simp
  · linarith
  · linarith
  · rw [if_neg h1.le.not_gt, if_neg h1.ne', if_neg h2.le.not_gt, if_neg h2.ne']
    have := roundMag_mono (q := q) (q' := q') (by rw [abs_of_pos h1, abs_of_pos h2]; linarith)
    omega

/-! ## NaN is never lost -/

theorem add_nan {x y : F64} (h : x.isNaN = true ∨ y.isNaN = true) : (add x y).isNaN = true := by
  have : (x.isNaN || y.isNaN) = true := by simpa using h
  rw [add, if_pos this]; rfl

theorem mul_nan {x y : F64} (h : x.isNaN = true ∨ y.isNaN = true) : (mul x y).isNaN = true := by
  have : (x.isNaN || y.isNaN) = true := by simpa using h
  rw [mul, if_pos this]; rfl

theorem div_nan {x y : F64} (h : x.isNaN = true ∨ y.isNaN = true) : (div x y).isNaN = true := by
  have : (x.isNaN || y.isNaN) = true := by simpa using h
  rw [div, if_pos this]; rfl

theorem neg_isNaN (x : F64) : (neg x).isNaN = x.isNaN := rfl
theorem neg_isInf (x : F64) : (neg x).isInf = x.isInf := rfl
theorem neg_isFinite (x : F64) : (neg x).isFinite = x.isFinite := rfl
theorem neg_isZero (x : F64) : (neg x).isZero = x.isZero := rfl
theorem neg_val (x : F64) : (neg x).val = -x.val := by
  unfold neg val; cases x.sign <;> simp <;> ring
theorem neg_key (x : F64) : (neg x).key = -x.key := by
  unfold neg key; cases x.sign <;> simp

theorem sub_nan {x y : F64} (h : x.isNaN = true ∨ y.isNaN = true) : (sub x y).isNaN = true := add_nan h

theorem add_args {x y : F64} (h : (add x y).isNaN = false) : x.isNaN = false ∧ y.isNaN = false := by
  constructor <;> by_contra hn <;> rw [Bool.not_eq_false] at hn
  · rw [add_nan (.inl hn)] at h; cases h
  · rw [add_nan (.inr hn)] at h; cases h

theorem mul_args {x y : F64} (h : (mul x y).isNaN = false) : x.isNaN = false ∧ y.isNaN = false := by
  constructor <;> by_contra hn <;> rw [Bool.not_eq_false] at hn
  · rw [mul_nan (.inl hn)] at h; cases h
  · rw [mul_nan (.inr hn)] at h; cases h

theorem div_args {x y : F64} (h : (div x y).isNaN = false) : x.isNaN = false ∧ y.isNaN = false := by
  constructor <;> by_contra hn <;> rw [Bool.not_eq_false] at hn
  · rw [div_nan (.inl hn)] at h; cases h
  · rw [div_nan (.inr hn)] at h; cases h

/-- a NaN in the accumulator or among the terms makes the sum NaN -/
theorem foldl_add_nan (ys : List F64) : ∀ acc : F64, (acc.isNaN = true ∨ ∃ y ∈ ys, y.isNaN = true) →
    (ys.foldl add acc).isNaN = true := by
  induction ys with
  | nil => rintro acc (h | ⟨y, hy, -⟩); exacts [h, absurd hy (by simp)]
  | cons z zs ih =>
    rintro acc h
    refine ih _ ?_
    rcases h with h | ⟨y, hy, hn⟩
    · exact .inl (add_nan (.inl h))
    · rcases List.mem_cons.1 hy with rfl | hy
      · exact .inl (add_nan (.inr hn))
      · exact .inr ⟨y, hy, hn⟩

/-! ## special cases of the operations -/

theorem add_inf_left {s : Bool} {y : F64} (h : (add (inf s) y).isNaN = false) : add (inf s) y = inf s := by
  have hy := (add_args h).2
  unfold add at h ⊢
  rw [inf_isNaN, hy] at h ⊢
  simp only [Bool.or_self, Bool.false_eq_true, if_false, inf_isInf, if_true] at h ⊢
  split at h
  · cases h
  · next hc => rw [if_neg hc]

theorem addComm (x y : F64) : add x y = add y x := by
  unfold add
  rw [Bool.or_comm x.isNaN, Bool.and_comm x.sign, add_comm x.val]
  by_cases hx : x.isInf = true <;> by_cases hy : y.isInf = true
  · by_cases hs : x.sign = y.sign
    · simp [hx, hy, hs]; split
      · rfl
      · rw [eq_inf hx, eq_inf hy, hs]
    · have hs' : y.sign ≠ x.sign := fun h => hs h.symm
      simp [hx, hy, hs, hs']
  · simp [hx, hy]
  · simp [hx, hy]
  · simp [hx, hy]

theorem mulComm (x y : F64) : mul x y = mul y x := by
  unfold mul
  have hb : (x.sign != y.sign) = (y.sign != x.sign) := by cases x.sign <;> cases y.sign <;> rfl
  rw [Bool.or_comm x.isNaN, hb, mul_comm x.val]
  by_cases hx : x.isInf = true <;> by_cases hy : y.isInf = true
  · have h1 : y.isZero = false := by simp only [isInf, isZero, decide_eq_true_eq, decide_eq_false_iff_not] at *; rw [hy]; decide
    have h2 : x.isZero = false := by simp only [isInf, isZero, decide_eq_true_eq, decide_eq_false_iff_not] at *; rw [hx]; decide
    simp [hx, hy, h1, h2]
  · simp [hx, hy]
  · simp [hx, hy]
  · simp [hx, hy]

theorem add_inf_right {s : Bool} {x : F64} (h : (add x (inf s)).isNaN = false) : add x (inf s) = inf s := by
  rw [addComm] at h ⊢; exact add_inf_left h

theorem add_fin {x y : F64} (hx : x.isFinite = true) (hy : y.isFinite = true) : add x y = round (x.val + y.val) (x.sign && y.sign) := by
  unfold add
  simp [isNaN_of_finite hx, isNaN_of_finite hy, isInf_of_finite hx, isInf_of_finite hy]

theorem mul_fin {x y : F64} (hx : x.isFinite = true) (hy : y.isFinite = true) : mul x y = round (x.val * y.val) (x.sign != y.sign) := by
  unfold mul
  simp [isNaN_of_finite hx, isNaN_of_finite hy, isInf_of_finite hx, isInf_of_finite hy]

theorem mul_inf_right {s : Bool} {x : F64} (h : (mul x (inf s)).isNaN = false) :
    x.isZero = false ∧ mul x (inf s) = inf (x.sign != s) := by
  have hx := (mul_args h).1
  rw [mulComm] at h ⊢
  unfold mul at h ⊢
  rw [inf_isNaN, hx] at h ⊢
  simp only [Bool.or_self, Bool.false_eq_true, if_false, inf_isInf, if_true] at h ⊢
  split at h
  · cases h
  · next hz =>
    rw [Bool.not_eq_true] at hz
    refine ⟨hz, ?_⟩
    rw [if_neg (by simp [hz])]
    show inf (s != x.sign) = _
    cases s <;> cases x.sign <;> rfl

/-! ## monotonicity -/

theorem add_mono {x x' y y' : F64} (hx : Le x x') (hy : Le y y') (h : (add x y).isNaN = false) (h' : (add x' y').isNaN = false) :
    Le (add x y) (add x' y') := by
  refine ⟨h, h', ?_⟩
  have low : ∀ z : F64, z.isNaN = false → (inf true).key ≤ z.key := fun z hz => by
    rw [key_infF]; exact (key_abs_le hz).1
  have high : ∀ z : F64, z.isNaN = false → z.key ≤ (inf false).key := fun z hz => by
    rw [key_infF]; exact (key_abs_le hz).2
  rcases nan_trichotomy x hx.1 with hxi | hxf
  · rw [eq_inf hxi] at h hx ⊢
    cases hs : x.sign <;> rw [hs] at h hx
    · have e : x' = inf false := eq_inf_of_ge hx.2.1 (by have := hx.2.2; rwa [key_infF] at this)
      subst e
      rw [add_inf_left h, add_inf_left h']
    · rw [add_inf_left h]; exact low _ h'
  rcases nan_trichotomy y hy.1 with hyi | hyf
  · rw [eq_inf hyi] at h hy ⊢
    cases hs : y.sign <;> rw [hs] at h hy
    · have e : y' = inf false := eq_inf_of_ge hy.2.1 (by have := hy.2.2; rwa [key_infF] at this)
      subst e
      rw [add_inf_right h, add_inf_right h']
    · rw [add_inf_right h]; exact low _ h'
  have up : ∀ u v : F64, u.isFinite = true → Le u v → v.isInf = true → v = inf false := by
    intro u v hu huv hv
    rw [eq_inf hv]
    cases hs : v.sign
    · rfl
    · exfalso
      have := huv.2.2; rw [eq_inf hv, hs, key_infF, if_pos rfl] at this
      have h2 := key_lt_infMag hu; rw [abs_lt] at h2; omega
  rcases nan_trichotomy x' hx.2.1 with hxi | hxf'
  · have e := up x x' hxf hx hxi; subst e
    rw [add_inf_left h']; exact high _ h
  rcases nan_trichotomy y' hy.2.1 with hyi | hyf'
  · have e := up y y' hyf hy hyi; subst e
    rw [add_inf_right h']; exact high _ h
  rw [add_fin hxf hyf, add_fin hxf' hyf']
  exact round_key_mono (add_le_add ((key_le_iff _ _).1 hx.2.2) ((key_le_iff _ _).1 hy.2.2)) _ _

theorem val_nonneg_of_key {w : F64} (h : 0 ≤ w.key) : 0 ≤ w.val := by
  have := (key_le_iff (zero false) w).1 (by simpa [key, zero] using h)
  rwa [val_zero] at this

theorem key_neg_of {x : F64} (hs : x.sign = true) (hz : x.isZero = false) : x.key < 0 := by
  simp only [isZero, decide_eq_false_iff_not] at hz
  simp only [key, hs, if_true]; omega

theorem key_nonneg_of {x : F64} (hs : x.sign = false) : 0 ≤ x.key := by
  simp [key, hs]

theorem mul_mono {x x' w : F64} (hx : Le x x') (hw : 0 ≤ w.key) (h : (mul x w).isNaN = false) (h' : (mul x' w).isNaN = false) :
    Le (mul x w) (mul x' w) := by
  refine ⟨h, h', ?_⟩
  have low : ∀ z : F64, z.isNaN = false → (inf true).key ≤ z.key := fun z hz => by
    rw [key_infF]; exact (key_abs_le hz).1
  have high : ∀ z : F64, z.isNaN = false → z.key ≤ (inf false).key := fun z hz => by
    rw [key_infF]; exact (key_abs_le hz).2
  rcases nan_trichotomy w (mul_args h).2 with hwi | hwf
  · have e : w = inf false := by
      rw [eq_inf hwi]; cases hs : w.sign
      · rfl
      · exfalso; rw [eq_inf hwi, hs, key_infF, if_pos rfl] at hw; have := infMag_pos; omega
    subst e
    obtain ⟨z1, e1⟩ := mul_inf_right h
    obtain ⟨z2, e2⟩ := mul_inf_right h'
    rw [e1, e2]
    cases hs : x'.sign
    · have := (key_abs_le (x := inf (x.sign != false)) (inf_isNaN _)).2
      change _ ≤ (inf false).key; rw [key_infF false]; exact this
    · cases hs' : x.sign
      · exfalso; have h1 := key_neg_of hs z2; have h2 := key_nonneg_of hs'; have := hx.2.2; omega
      · exact le_rfl
  · -- finite factor; if it is zero no argument is infinite
    have posw : ∀ {s : Bool}, (mul (inf s) w).isNaN = false → mul (inf s) w = inf s := by
      intro s hs
      rw [mulComm] at hs ⊢
      obtain ⟨z, e⟩ := mul_inf_right hs
      rw [e]
      have hsg : w.sign = false := by
        by_contra hc; rw [Bool.not_eq_false] at hc
        have := key_neg_of hc z; omega
      rw [hsg]; cases s <;> rfl
    rcases nan_trichotomy x hx.1 with hxi | hxf
    · rw [eq_inf hxi] at h hx ⊢
      cases hs : x.sign <;> rw [hs] at h hx
      · have e : x' = inf false := eq_inf_of_ge hx.2.1 (by have := hx.2.2; rwa [key_infF] at this)
        rw [e]
      · rw [posw h]; exact low _ h'
    rcases nan_trichotomy x' hx.2.1 with hxi | hxf'
    · rw [eq_inf hxi] at h' hx ⊢
      cases hs : x'.sign <;> rw [hs] at h' hx
      · rw [posw h']; exact high _ h
      · exfalso
        have := hx.2.2; rw [key_infF, if_pos rfl] at this
        have h2 := key_lt_infMag hxf; rw [abs_lt] at h2; omega
    rw [mul_fin hxf hwf, mul_fin hxf' hwf]
    exact round_key_mono (mul_le_mul_of_nonneg_right ((key_le_iff _ _).1 hx.2.2) (val_nonneg_of_key hw)) _ _

theorem mul_mono_left {x x' w : F64} (hx : Le x x') (hw : 0 ≤ w.key) (h : (mul w x).isNaN = false) (h' : (mul w x').isNaN = false) :
    Le (mul w x) (mul w x') := by
  rw [mulComm w x] at h ⊢; rw [mulComm w x'] at h' ⊢; exact mul_mono hx hw h h'

/-- division by a positive finite number -/
theorem div_mono {x x' w : F64} (hx : Le x x') (hwf : w.isFinite = true) (hw : 0 < w.key) : Le (div x w) (div x' w) := by
  have hz : w.isZero = false := by
    simp only [isZero, decide_eq_false_iff_not]; intro h0
    simp only [key, h0] at hw; simp at hw
  have hs : w.sign = false := by
    by_contra hc; rw [Bool.not_eq_false] at hc; simp only [key, hc, if_true] at hw; omega
  have dinf : ∀ s, div (inf s) w = inf s := by
    intro s
    unfold div
    simp only [inf_isNaN, isNaN_of_finite hwf, Bool.or_self, Bool.false_eq_true, if_false, inf_isInf, if_true, isInf_of_finite hwf, hs]
    show inf (s != false) = _
    cases s <;> rfl
  have dfin : ∀ {u : F64}, u.isFinite = true → div u w = round (u.val / w.val) (u.sign != w.sign) := by
    intro u hu
    unfold div
    simp [isNaN_of_finite hu, isNaN_of_finite hwf, isInf_of_finite hu, isInf_of_finite hwf, hz]
  have dn : ∀ {u : F64}, u.isNaN = false → (div u w).isNaN = false := by
    intro u hu
    rcases nan_trichotomy u hu with hi | hf
    · rw [eq_inf hi, dinf]; exact inf_isNaN _
    · rw [dfin hf]; exact round_isNaN _ _
  refine ⟨dn hx.1, dn hx.2.1, ?_⟩
  rcases nan_trichotomy x hx.1 with hxi | hxf
  · rw [eq_inf hxi] at hx ⊢
    cases hs : x.sign <;> rw [hs] at hx
    · have e : x' = inf false := eq_inf_of_ge hx.2.1 (by have := hx.2.2; rwa [key_infF] at this)
      rw [e]
    · rw [dinf, key_infF]; exact (key_abs_le (dn hx.2.1)).1
  rcases nan_trichotomy x' hx.2.1 with hxi | hxf'
  · rw [eq_inf hxi] at hx ⊢
    cases hs : x'.sign <;> rw [hs] at hx
    · rw [dinf, key_infF]; exact (key_abs_le (dn hx.1)).2
    · exfalso
      have := hx.2.2; rw [key_infF, if_pos rfl] at this
      have h2 := key_lt_infMag hxf; rw [abs_lt] at h2; omega
  rw [dfin hxf, dfin hxf']
  exact round_key_mono (div_le_div_of_nonneg_right ((key_le_iff _ _).1 hx.2.2) (val_nonneg_of_key hw.le)) _ _

/-- pointwise smaller terms have the smaller sum -/
theorem foldl_add_mono {ys zs : List F64} (h : List.Forall₂ Le ys zs) : ∀ {acc acc' : F64}, Le acc acc' →
    (ys.foldl add acc).isNaN = false → (zs.foldl add acc').isNaN = false → Le (ys.foldl add acc) (zs.foldl add acc') := by
  induction h with
  | nil => intro acc acc' h _ _; exact h
  | @cons y z ys zs hyz _ ih =>
    intro acc acc' hacc h1 h2
    have n1 : (add acc y).isNaN = false := by
      by_contra hc; rw [Bool.not_eq_false] at hc
      rw [List.foldl_cons, foldl_add_nan _ _ (.inl hc)] at h1; cases h1
    have n2 : (add acc' z).isNaN = false := by
      by_contra hc; rw [Bool.not_eq_false] at hc
      rw [List.foldl_cons, foldl_add_nan _ _ (.inl hc)] at h2; cases h2
    exact ih (add_mono hacc hyz n1 n2) h1 h2

end GaussQuad.F64
