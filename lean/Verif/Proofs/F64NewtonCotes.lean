import Verif.Proofs.F64Chebyshev
import Verif.Proofs.F64Gauss
import Verif.Model.NewtonCotes

/-! Rounding errors of the Newton-Cotes rules in binary64: panel width, evaluation points, sums and final product. -/

set_option exponentiation.threshold 3000

namespace GaussQuad.F64
open FloatOps Props Spec

/-- division by an exact number -/
theorem Near.div_exact {x y : F64} {r ε s A : ℝ} (hx : Near x r ε) (hy : y.isFinite = true) (hys : y.rv = s) (hs : 1 ≤ s) (hA : |r| + ε ≤ A)
    (hb : A ≤ 2 ^ 1023) : Near (F64.div x y) (r / s) ((ε + U * A) / s + 1 / 2 ^ 1075) := by
  have hs0 : 0 < s := by linarith
  have hyv : y.val ≠ 0 := by
    intro h; rw [rv, h] at hys; simp at hys; linarith
  have hz : y.isZero = false := by
    simp only [isZero, decide_eq_false_iff_not]
    intro h; exact hyv (val_eq_zero_iff.2 h)
  have hxA : |x.rv| ≤ A := (hx.abs_le le_rfl).trans hA
  have hA0 : 0 ≤ A := (abs_nonneg _).trans hxA
  have e1 : ((x.val / y.val : ℚ) : ℝ) = x.rv / s := by rw [← hys]; simp [rv]
  have hq : |((x.val / y.val : ℚ) : ℝ)| ≤ A / s := by
    rw [e1, abs_div, abs_of_pos hs0]; gcongr
  have hqA : A / s ≤ A := div_le_self hA0 hs
  rw [div_finite hx.1 hy hz]
  have h1 := round_near (s := (x.sign != y.sign)) (hq.trans (hqA.trans hb))
  refine ⟨h1.1, (abs_sub_le _ ((x.val / y.val : ℚ) : ℝ) _).trans ?_⟩
  have h2 : |((x.val / y.val : ℚ) : ℝ) - r / s| ≤ ε / s := by
    rw [e1, ← sub_div, abs_div, abs_of_pos hs0]; have := hx.2; gcongr
  have h3 := mul_le_mul_of_nonneg_left hq U_pos.le
  have e2 : (ε + U * A) / s = ε / s + U * (A / s) := by ring
  rw [e2]
  linarith [h1.2]

theorem half_exp_le : (1 : ℝ) / 2 ^ 1075 ≤ 1 := by norm_num

/-- the panel width `(b - a) / n` -/
theorem width_near {a b n : F64} {N D : ℝ} (ha : a.isFinite = true) (hb : b.isFinite = true) (hn : n.isFinite = true) (hnN : n.rv = N) (hN : 1 ≤ N)
    (hD : |b.rv - a.rv| ≤ D) (hDb : D ≤ 2 ^ 500) : Near (F64.div (F64.sub b a) n) ((b.rv - a.rv) / N) (2.001 * (U * (D / N)) + 1 / 2 ^ 1075) := by
  have hU := U_pos
  have hU7 := U_le
  have hD0 : 0 ≤ D := (abs_nonneg _).trans hD
  have hbig : (2 : ℝ) ^ 500 * 10 ≤ 2 ^ 1023 := by norm_num
  have hUD7 : U * D ≤ 0.0000001 * D := mul_le_mul_of_nonneg_right hU7 hD0
  have s1 : Near (F64.sub b a) (b.rv - a.rv) (0 + 0 + U * D) := (near_self hb).sub (near_self ha) (by linarith) (by linarith)
  have s2 := s1.div_exact hn hnN hN (A := 1.001 * D) (by linarith) (by linarith)
  refine s2.mono (add_le_add ?_ le_rfl)
  have : 0 ≤ U * (D / N) := by positivity
  have e : (0 + 0 + U * D + U * (1.001 * D)) / N = 2.001 * (U * (D / N)) := by ring
  rw [e]

/-- multiples of the panel width; `c ≤ 2n` -/
theorem multiple_near {h m : F64} {Δ N D c : ℝ} (hh : Near h (Δ / N) (2.001 * (U * (D / N)) + 1 / 2 ^ 1075)) (hm : Near m c (U * c)) (hc : 0 ≤ c)
    (hcN : c ≤ 2 * N) (hN : 1 ≤ N) (hNb : N ≤ 2 ^ 32) (hD : |Δ| ≤ D) (hDb : D ≤ 2 ^ 500) :
    Near (F64.mul h m) (Δ * (c / N)) (4.1 * (U * (D * (c / N))) + 1 / 2 ^ 1030) := by
  have hU := U_pos
  have hU7 := U_le
  have hD0 : 0 ≤ D := (abs_nonneg _).trans hD
  have hN0 : 0 < N := by linarith
  obtain ⟨τ, hτ⟩ : ∃ τ : ℝ, τ = 1 / 2 ^ 1075 := ⟨_, rfl⟩
  have hτ0 : 0 < τ := by rw [hτ]; positivity
  have hτ1 : τ ≤ 1 := by rw [hτ]; exact half_exp_le
  have hτ2 : 2 ^ 36 * τ ≤ 1 / 2 ^ 1030 := by rw [hτ]; norm_num
  rw [← hτ] at hh
  have hX0 : 0 ≤ D / N := by positivity
  have hXD : D / N ≤ D := div_le_self hD0 hN
  have hUX : U * (D / N) ≤ 0.0000001 * (D / N) := mul_le_mul_of_nonneg_right hU7 hX0
  have hUc : U * c ≤ 0.0000001 * c := mul_le_mul_of_nonneg_right hU7 hc
  have hr : |Δ / N| ≤ D / N := by rw [abs_div, abs_of_pos hN0]; gcongr
  have hXc : 0 ≤ D / N * c := by positivity
  have hXc2 : D / N * c ≤ 2 * D := by
    calc D / N * c ≤ D / N * (2 * N) := by gcongr
      _ = 2 * D := by field_simp
  have hτc : τ * c ≤ τ * 2 ^ 33 := mul_le_mul_of_nonneg_left (by linarith) hτ0.le
  have hτc0 : 0 ≤ τ * c := by positivity
  have hUτ : U * (τ * c) ≤ 0.0000001 * (τ * c) := mul_le_mul_of_nonneg_right hU7 hτc0
  have hbig : (2 : ℝ) ^ 500 * 10 + 2 ^ 40 ≤ 2 ^ 1023 := by norm_num
  have hAB : (1.001 * (D / N) + τ) * (1.001 * c) = 1.002001 * (D / N * c) + 1.001 * (τ * c) := by ring
  have s := hh.mul hm (A := 1.001 * (D / N) + τ) (B := 1.001 * c) (by linarith) (by rw [abs_of_nonneg hc]; linarith) (by
    rw [hAB]
    have : τ * 2 ^ 33 ≤ 1 * 2 ^ 33 := mul_le_mul_of_nonneg_right hτ1 (by norm_num)
    linarith)
  rw [show Δ * (c / N) = Δ / N * c by ring, show D * (c / N) = D / N * c by ring]
  refine s.mono ?_
  rw [hAB, ← hτ]
  have e : (1.001 * (D / N) + τ) * (U * c) + (2.001 * (U * (D / N)) + τ) * (1.001 * c) + U * (1.002001 * (D / N * c) + 1.001 * (τ * c)) + τ =
    4.006002 * (U * (D / N * c)) + 2.001 * (U * (τ * c)) + 1.001 * (τ * c) + τ := by ring
  rw [e]
  have : 0 ≤ U * (D / N * c) := by positivity
  linarith

variable {a b : F64} {B : ℝ}

/-- the evaluation points -/
theorem point_near {P : F64} {θ : ℝ} (ha : a.isFinite = true) (haB : |a.rv| ≤ B) (hbB : |b.rv| ≤ B) (hB : B ≤ 2 ^ 400)
    (hP : Near P ((b.rv - a.rv) * θ) (5.2 * (U * (2 * B)) + 1 / 2 ^ 1029)) (h0 : 0 ≤ θ) (h1 : θ ≤ 1) :
    Near (F64.add a P) (a.rv + (b.rv - a.rv) * θ) (argErr B) := by
  have hU := U_pos
  have hU7 := U_le
  have hB0 : 0 ≤ B := (abs_nonneg _).trans haB
  have a1 := _root_.abs_le.1 haB
  have b1 := _root_.abs_le.1 hbB
  have ht : |a.rv + (b.rv - a.rv) * θ| ≤ B := by
    rw [show a.rv + (b.rv - a.rv) * θ = a.rv * (1 - θ) + b.rv * θ by ring, _root_.abs_le]
    have k1 := mul_le_mul_of_nonneg_right a1.1 (by linarith : 0 ≤ 1 - θ)
    have k2 := mul_le_mul_of_nonneg_right a1.2 (by linarith : 0 ≤ 1 - θ)
    have k3 := mul_le_mul_of_nonneg_right b1.1 h0
    have k4 := mul_le_mul_of_nonneg_right b1.2 h0
    constructor <;> linarith
  obtain ⟨τ, hτ⟩ : ∃ τ : ℝ, τ = 1 / 2 ^ 1029 := ⟨_, rfl⟩
  have hτ0 : 0 < τ := by rw [hτ]; positivity
  have hτ1 : τ ≤ 1 := by rw [hτ]; norm_num
  have hτ2 : 2 * τ ≤ 1 / 2 ^ 1000 := by rw [hτ]; norm_num
  rw [← hτ] at hP
  have hUB : 0 ≤ U * B := by positivity
  have hUB7 : U * B ≤ 0.0000001 * B := mul_le_mul_of_nonneg_right hU7 hB0
  have hUτ : U * τ ≤ 1 * τ := mul_le_mul_of_nonneg_right (by linarith) hτ0.le
  have hbig : (2 : ℝ) ^ 400 * 10 + 1 ≤ 2 ^ 1023 := by norm_num
  have s := (near_self ha).add hP (A := 1.01 * B + τ) (by linarith) (by linarith)
  refine s.mono ?_
  have hc : 11.5 * U ≤ 4 / 10 ^ 15 := by unfold U; norm_num
  have := mul_le_mul_of_nonneg_right hc hB0
  unfold argErr
  linarith

theorem near_zero_nat {x : F64} {m : ℕ} (h : IsNat x m) : Near x m (U * m) :=
  ⟨h.1, by rw [rv, h.2]; have := U_pos; simp; positivity⟩

section value
variable {f : F64 → F64} {g : ℝ → ℝ} {M Λ η : ℝ}

theorem point_mem {θ : ℝ} (h0 : 0 ≤ θ) (h1 : θ ≤ 1) : min a.rv b.rv ≤ a.rv + (b.rv - a.rv) * θ ∧ a.rv + (b.rv - a.rv) * θ ≤ max a.rv b.rv := by
  rw [show a.rv + (b.rv - a.rv) * θ = a.rv * (1 - θ) + b.rv * θ by ring]
  have p1 : 0 ≤ 1 - θ := by linarith
  constructor
  · have := mul_le_mul_of_nonneg_right (min_le_left a.rv b.rv) p1
    have := mul_le_mul_of_nonneg_right (min_le_right a.rv b.rv) h0
    linarith
  · have := mul_le_mul_of_nonneg_right (le_max_left a.rv b.rv) p1
    have := mul_le_mul_of_nonneg_right (le_max_right a.rv b.rv) h0
    linarith

/-- one evaluation of the integrand -/
theorem eval_near (hf : Computes f g (around a.rv b.rv (argErr B)) M Λ η) (hΛ : 0 ≤ Λ) {y : F64} {θ : ℝ} (h0 : 0 ≤ θ) (h1 : θ ≤ 1)
    (hy : Near y (a.rv + (b.rv - a.rv) * θ) (argErr B)) :
    Near (f y) (g (a.rv + (b.rv - a.rv) * θ)) (η + Λ * argErr B) ∧ |g (a.rv + (b.rv - a.rv) * θ)| ≤ M := by
  have hA : 0 ≤ argErr B := (abs_nonneg _).trans hy.2
  have ht := point_mem (a := a) (b := b) h0 h1
  have hmem : a.rv + (b.rv - a.rv) * θ ∈ around a.rv b.rv (argErr B) := ⟨by linarith [ht.1], by linarith [ht.2]⟩
  have hd := _root_.abs_le.1 hy.2
  have hym : y.rv ∈ around a.rv b.rv (argErr B) := ⟨by linarith [ht.1], by linarith [ht.2]⟩
  obtain ⟨f1, f2⟩ := hf.accurate y hy.1 hym
  refine ⟨⟨f1, ?_⟩, hf.bound _ hmem⟩
  have l1 := hf.lipschitz _ hym _ hmem
  have l2 := mul_le_mul_of_nonneg_left hy.2 hΛ
  have := abs_sub_le (f y).rv (g y.rv) (g (a.rv + (b.rv - a.rv) * θ))
  have f2' : |(f y).rv - g y.rv| ≤ η := f2
  linarith

end value

/-! ## sums of function values -/

/-- `x` approximates `r`, a combination of function values with total weight `m`: `κ` is the error of one function value, `M` bounds them, `c` counts
roundings, `j` underflows -/
def Acc (M κ : ℝ) (x : F64) (r m c j : ℝ) : Prop := Near x r (m * κ + c * (U * (M + κ)) + j * (1 / 2 ^ 1075)) ∧ |r| ≤ m * M

variable {M κ : ℝ}

theorem Acc.size {x : F64} {r m c j : ℝ} (h : Acc M κ x r m c j) (hM : 0 ≤ M) (hκ : 0 ≤ κ) (hm : c * U ≤ 0.001 * m) :
    |r| + (m * κ + c * (U * (M + κ)) + j * (1 / 2 ^ 1075)) ≤ 1.001 * (m * (M + κ)) + j * (1 / 2 ^ 1075) := by
  have := mul_le_mul_of_nonneg_right hm (add_nonneg hM hκ)
  have := h.2
  linarith

theorem Acc.add {x y : F64} {r s m m' c c' j j' : ℝ} (hx : Acc M κ x r m c j) (hy : Acc M κ y s m' c' j') (hM : 0 ≤ M) (hκ : 0 ≤ κ)
    (hc : (c + c') * U ≤ 0.001 * (m + m')) (hb : (m + m') * (M + κ) ≤ 2 ^ 500) (hj : 0 ≤ j + j') (hj' : j + j' ≤ 1000) :
    Acc M κ (F64.add x y) (r + s) (m + m') (c + c' + 1.001 * (m + m')) (2 * (j + j')) := by
  obtain ⟨τ, hτ⟩ : ∃ τ : ℝ, τ = 1 / 2 ^ 1075 := ⟨_, rfl⟩
  have hτ0 : 0 < τ := by rw [hτ]; positivity
  have hτ1 : τ ≤ 1 := by rw [hτ]; exact half_exp_le
  obtain ⟨hx1, hx2⟩ := hx
  obtain ⟨hy1, hy2⟩ := hy
  unfold Acc
  rw [← hτ] at hx1 hy1 ⊢
  have t := abs_add_le r s
  have hjτ : (j + j') * τ ≤ (j + j') * 1 := mul_le_mul_of_nonneg_left hτ1 hj
  have hjτ0 : 0 ≤ (j + j') * τ := by positivity
  have hcK := mul_le_mul_of_nonneg_right hc (add_nonneg hM hκ)
  have hbig : (2 : ℝ) ^ 500 * 10 + 1000 ≤ 2 ^ 1023 := by norm_num
  refine ⟨(hx1.add hy1 (A := 1.001 * ((m + m') * (M + κ)) + (j + j') * τ) (by linarith) (by linarith)).mono ?_, by linarith⟩
  have hUj : U * ((j + j') * τ) ≤ 1 * ((j + j') * τ) := mul_le_mul_of_nonneg_right (by linarith [U_le]) hjτ0
  linarith

theorem Acc.scale {x q : F64} {r m c j Q : ℝ} (hx : Acc M κ x r m c j) (hq : Near q Q 0) (hQ : 0 ≤ Q) (hQ' : Q ≤ 10) (hM : 0 ≤ M) (hκ : 0 ≤ κ)
    (hc : c * U ≤ 0.001 * m) (hb : m * (M + κ) ≤ 2 ^ 500) (hj : 0 ≤ j) (hj' : j ≤ 1000) (hm : 0 ≤ m) :
    Acc M κ (F64.mul q x) (Q * r) (Q * m) (Q * c + 1.001 * (Q * m)) (2 * Q * j + 1) := by
  have hs := hx.size hM hκ hc
  obtain ⟨τ, hτ⟩ : ∃ τ : ℝ, τ = 1 / 2 ^ 1075 := ⟨_, rfl⟩
  have hτ0 : 0 < τ := by rw [hτ]; positivity
  have hτ1 : τ ≤ 1 := by rw [hτ]; exact half_exp_le
  obtain ⟨hx1, hx2⟩ := hx
  unfold Acc
  rw [← hτ] at hs hx1 ⊢
  have hjτ : j * τ ≤ j * 1 := mul_le_mul_of_nonneg_left hτ1 hj
  have hjτ0 : 0 ≤ j * τ := by positivity
  have hbig : (2 : ℝ) ^ 500 * 20 + 20000 ≤ 2 ^ 1023 := by norm_num
  have hmK : 0 ≤ m * (M + κ) := by positivity
  have hB : 1.001 * (m * (M + κ)) + j * τ ≤ 2 ^ 500 * 2 + 2000 := by linarith
  have hQB : Q * (1.001 * (m * (M + κ)) + j * τ) ≤ 10 * (2 ^ 500 * 2 + 2000) := mul_le_mul hQ' hB (by positivity) (by norm_num)
  have key := hq.mul hx1 (A := Q) (B := 1.001 * (m * (M + κ)) + j * τ) (by rw [abs_of_nonneg hQ]; linarith) hs (by linarith)
  rw [← hτ] at key
  refine ⟨key.mono ?_, ?_⟩
  · have hUj : U * (Q * (j * τ)) ≤ 1 * (Q * (j * τ)) := mul_le_mul_of_nonneg_right (by linarith [U_le]) (by positivity)
    linarith
  · rw [abs_mul, abs_of_nonneg hQ, mul_assoc]
    exact mul_le_mul_of_nonneg_left hx2 hQ

theorem Acc.half {x q : F64} {r m c j : ℝ} (hx : Acc M κ x r m c j) (hq : IsNat q 2) (hM : 0 ≤ M) (hκ : 0 ≤ κ)
    (hc : c * U ≤ 0.001 * m) (hb : m * (M + κ) ≤ 2 ^ 500) (hj : 0 ≤ j) (hj' : j ≤ 1000) :
    Acc M κ (F64.div x q) (r / 2) (m / 2) (c / 2 + 1.001 * (m / 2)) (j + 1) := by
  have hs := hx.size hM hκ hc
  obtain ⟨τ, hτ⟩ : ∃ τ : ℝ, τ = 1 / 2 ^ 1075 := ⟨_, rfl⟩
  have hτ0 : 0 < τ := by rw [hτ]; positivity
  have hτ1 : τ ≤ 1 := by rw [hτ]; exact half_exp_le
  obtain ⟨hx1, hx2⟩ := hx
  unfold Acc
  rw [← hτ] at hs hx1 ⊢
  have hjτ : j * τ ≤ j * 1 := mul_le_mul_of_nonneg_left hτ1 hj
  have hjτ0 : 0 ≤ j * τ := by positivity
  have hbig : (2 : ℝ) ^ 500 * 20 + 20000 ≤ 2 ^ 1023 := by norm_num
  have key := hx1.div_exact hq.1 (s := 2) (by rw [rv, hq.2]; norm_num) (by norm_num) (A := 1.001 * (m * (M + κ)) + j * τ) hs (by linarith)
  rw [← hτ] at key
  refine ⟨key.mono ?_, ?_⟩
  · have hUj : U * (j * τ) ≤ 1 * (j * τ) := mul_le_mul_of_nonneg_right (by linarith [U_le]) hjτ0
    linarith
  · rw [abs_div, abs_two]; linarith

theorem acc_one {x : F64} {r : ℝ} (h : Near x r κ) (hr : |r| ≤ M) : Acc M κ x r 1 0 0 := ⟨by simpa using h, by simpa using hr⟩

/-- both ways of summing -/
theorem acc_sum {α : Type} {ys : List α} {y : α → F64} {t : α → ℝ} (hM : 0 ≤ M) (hκ : 0 ≤ κ) (h : ∀ i ∈ ys, Near (y i) (t i) κ ∧ |t i| ≤ M)
    (hlen : ys.length ≤ 2 ^ 32) (hK : M + κ ≤ 2 ^ 400) {d : ℕ} (hd : d ≤ 10 ^ 12) {x : F64} [Libm]
    (hx : x = sumList (ys.map y) ∧ d = ys.length ∨ ∃ s, x = parSumMap s ys y ∧ d = roundings s ys.length) :
    Acc M κ x (ys.map t).sum ys.length (1.001 * d * ys.length) 0 := by
  have hU := U_pos
  have hmass : (ys.map fun i => |t i| + κ).sum ≤ ys.length * (M + κ) := by
    rw [← nsmul_eq_mul]
    refine (List.sum_le_card_nsmul _ (M + κ) ?_).trans (by rw [List.length_map])
    intro z hz
    obtain ⟨i, hi, rfl⟩ := List.mem_map.1 hz
    linarith [(h i hi).2]
  have hl : (ys.length : ℝ) ≤ 2 ^ 32 := by exact_mod_cast hlen
  have hbig : (ys.map fun i => |t i| + κ).sum ≤ 2 ^ 1015 := by
    refine hmass.trans ?_
    calc (ys.length : ℝ) * (M + κ) ≤ 2 ^ 32 * 2 ^ 400 := mul_le_mul hl hK (by positivity) (by positivity)
      _ ≤ _ := by norm_num
  have hs : Sum d x (ys.map t).sum (ys.map fun _ => κ).sum (ys.map fun i => |t i| + κ).sum := by
    have hf2 : List.Forall₂ (fun i i' => Near (y i) (t i') κ) ys ys := List.forall₂_same.2 fun i hi => (h i hi).1
    rcases hx with ⟨rfl, rfl⟩ | ⟨s, rfl, rfl⟩
    · exact sumList_near (e := fun _ => κ) (fun _ => hκ) (by rw [List.forall₂_map_left_iff]; exact hf2) (by omega) hbig
    · exact parSumMap_near (e := fun _ => κ) (fun _ => hκ) s hf2 hd hbig
  constructor
  · refine hs.1.mono ?_
    have e : (ys.map fun _ => κ).sum = ys.length * κ := by simp
    rw [e]
    have := mul_le_mul_of_nonneg_left hmass (by positivity : 0 ≤ d * (1.001 * U))
    linarith
  · have : |(ys.map t).sum| ≤ (ys.map fun i => |t i|).sum := by
      clear hs hx hmass hbig hl hlen h
      induction ys with
      | nil => simp
      | cons i l ih => simp only [List.map_cons, List.sum_cons]; exact (abs_add_le _ _).trans (by linarith)
    refine this.trans ?_
    rw [← nsmul_eq_mul]
    refine (List.sum_le_card_nsmul _ M ?_).trans (by rw [List.length_map])
    intro z hz
    obtain ⟨i, hi, rfl⟩ := List.mem_map.1 hz
    exact (h i hi).2

set_option maxHeartbeats 1000000 in
/-- the final product -/
theorem Acc.final {T w : F64} {r m c j Δ D c' : ℝ} (hT : Acc M κ T r m c j) (hw : Near w (Δ / m) (3.01 * (U * (D / m)) + 2 * (1 / 2 ^ 1075)))
    (hM : 0 ≤ M) (hκ : 0 ≤ κ) (hK : M + κ ≤ 2 ^ 400) (hm1 : 1 ≤ m) (hm2 : m ≤ 2 ^ 40) (hc : c ≤ c' * m) (hc' : c' * U ≤ 0.001) (hj : 0 ≤ j)
    (hj' : j ≤ 1000) (hc0 : 0 ≤ c') (hD : |Δ| ≤ D) (hDb : D ≤ 2 ^ 402) :
    Near (F64.mul T w) (Δ / m * r) (D * (1.001 * κ + (1.002 * c' + 4.1) * (U * (M + κ))) + 1 / 2 ^ 500) := by
  have hU := U_pos
  have hU7 := U_le
  have hm0 : 0 < m := by linarith
  have hD0 : 0 ≤ D := (abs_nonneg _).trans hD
  have hT' : Acc M κ T r m (c' * m) j := ⟨hT.1.mono (by
    have := mul_le_mul_of_nonneg_right hc (by positivity : 0 ≤ U * (M + κ)); linarith), hT.2⟩
  have hs := hT'.size hM hκ (by have := mul_le_mul_of_nonneg_right hc' hm0.le; linarith)
  obtain ⟨hT1, hT2⟩ := hT'
  obtain ⟨K, hKd⟩ : ∃ K, K = M + κ := ⟨_, rfl⟩
  rw [← hKd] at hs hT1 hK ⊢
  have hK0 : 0 ≤ K := by rw [hKd]; positivity
  have hκK : κ ≤ K := by linarith
  obtain ⟨τ, hτ⟩ : ∃ τ : ℝ, τ = 1 / 2 ^ 1075 := ⟨_, rfl⟩
  have hτ0 : 0 < τ := by rw [hτ]; positivity
  have hτ1 : τ ≤ 1 / 2 ^ 1075 := hτ.le
  rw [← hτ] at hs hT1 hw
  obtain ⟨X, hX⟩ : ∃ X, X = D / m := ⟨_, rfl⟩
  have hX0 : 0 ≤ X := by rw [hX]; positivity
  have hXD : X ≤ D := by rw [hX]; exact div_le_self hD0 hm1
  have hmX : m * X = D := by rw [hX]; field_simp
  rw [← hX] at hw
  have hr : |Δ / m| ≤ X := by rw [abs_div, abs_of_pos hm0, hX]; gcongr
  have hUX : U * X ≤ 0.0000001 * X := mul_le_mul_of_nonneg_right hU7 hX0
  -- sizes of the small products
  have q1 : m * K ≤ 2 ^ 440 := by
    calc m * K ≤ 2 ^ 40 * 2 ^ 400 := mul_le_mul hm2 hK hK0 (by positivity)
      _ = _ := by norm_num
  have q2 : τ * (m * K) ≤ 1 / 2 ^ 1075 * 2 ^ 440 := mul_le_mul hτ1 q1 (by positivity) (by positivity)
  have q3 : τ * (j * X) ≤ 1 / 2 ^ 1075 * (1000 * 2 ^ 402) := mul_le_mul hτ1 (mul_le_mul hj' (hXD.trans hDb) hX0 (by norm_num)) (by positivity) (by positivity)
  have q4 : τ * (j * τ) ≤ 1 / 2 ^ 1075 * (1000 * 1) := mul_le_mul hτ1 (mul_le_mul hj' (hτ1.trans (by norm_num)) hτ0.le (by norm_num)) (by positivity) (by positivity)
  have n2 : 0 ≤ τ * (m * K) := by positivity
  have n3 : 0 ≤ τ * (j * X) := by positivity
  have n4 : 0 ≤ τ * (j * τ) := by positivity
  have u2 : U * (τ * (m * K)) ≤ 0.001 * (τ * (m * K)) := mul_le_mul_of_nonneg_right (by linarith) n2
  have u3 : U * (τ * (j * X)) ≤ 0.001 * (τ * (j * X)) := mul_le_mul_of_nonneg_right (by linarith) n3
  have u4 : U * (τ * (j * τ)) ≤ 0.001 * (τ * (j * τ)) := mul_le_mul_of_nonneg_right (by linarith) n4
  have c2 : c' * U * (τ * (m * K)) ≤ 0.001 * (τ * (m * K)) := mul_le_mul_of_nonneg_right hc' n2
  have k2 : τ * (m * κ) ≤ τ * (m * K) := by gcongr
  have hKX : m * K * X = D * K := by rw [← hmX]; ring
  have hDK : D * K ≤ 2 ^ 802 := by
    calc D * K ≤ 2 ^ 402 * 2 ^ 400 := mul_le_mul hDb hK hK0 (by positivity)
      _ = _ := by norm_num
  have hAB : (1.001 * (m * K) + j * τ) * (1.001 * X + 2 * τ) = 1.002001 * (D * K) + 2.002 * (τ * (m * K)) + 1.001 * (τ * (j * X)) + 2 * (τ * (j * τ)) := by
    rw [← hKX]; ring
  have hbig : (1.002001 : ℝ) * 2 ^ 802 + 2.002 * (1 / 2 ^ 1075 * 2 ^ 440) + 1.001 * (1 / 2 ^ 1075 * (1000 * 2 ^ 402)) + 2 * (1 / 2 ^ 1075 * (1000 * 1)) ≤ 2 ^ 1023 := by norm_num
  have key := hT1.mul hw (A := 1.001 * (m * K) + j * τ) (B := 1.001 * X + 2 * τ) hs (by linarith) (by rw [hAB]; linarith)
  rw [mul_comm r (Δ / m), ← hτ, hAB] at key
  refine key.mono ?_
  have e : (1.001 * (m * K) + j * τ) * (3.01 * (U * X) + 2 * τ) + (m * κ + c' * m * (U * K) + j * τ) * (1.001 * X + 2 * τ) +
      U * (1.002001 * (D * K) + 2.002 * (τ * (m * K)) + 1.001 * (τ * (j * X)) + 2 * (τ * (j * τ))) + τ =
      1.001 * (D * κ) + (1.001 * c' + 4.015011) * (U * (D * K)) + (2.002 * (τ * (m * K)) + 3.01 * (U * (τ * (j * X))) + 4 * (τ * (j * τ)) + 2 * (τ * (m * κ)) +
        2 * (c' * U * (τ * (m * K))) + 1.001 * (τ * (j * X)) + 2.002 * (U * (τ * (m * K))) + 1.001 * (U * (τ * (j * X))) + 2 * (U * (τ * (j * τ))) + τ) := by
    rw [← hmX]; ring
  rw [e]
  have htiny : 10 * ((1 : ℝ) / 2 ^ 1075 * 2 ^ 440) + 10 * (1 / 2 ^ 1075 * (1000 * 2 ^ 402)) + 10 * (1 / 2 ^ 1075 * (1000 * 1)) + 1 / 2 ^ 1075 ≤ 1 / 2 ^ 500 := by norm_num
  have hUDK : 0 ≤ U * (D * K) := mul_nonneg hU.le (mul_nonneg hD0 hK0)
  have hcU : 0 ≤ c' * (U * (D * K)) := mul_nonneg hc0 hUDK
  have e2 : D * (1.001 * κ + (1.002 * c' + 4.1) * (U * K)) = 1.001 * (D * κ) + 1.002 * (c' * (U * (D * K))) + 4.1 * (U * (D * K)) := by ring
  rw [e2]
  linarith

end GaussQuad.F64
