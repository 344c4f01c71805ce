import Verif.Proofs.F64NewtonCotes
import Verif.Proofs.Protocol
import Verif.Props.NewtonCotesError
import Verif.Props.LegendreF64Integral

/-!
# C58: the Newton-Cotes rules in binary64
-/

set_option exponentiation.threshold 3000

namespace GaussQuad.Props
open Polynomial Spec FloatOps F64

/-! ### the programs as expressions -/

section generic
variable {F : Type} [FloatOps F]

theorem midpoint_value_eq (r : NodeRule) (a b : F) (f : F → F) : (AnyRule.midpoint r).value a b f =
    sumList ((List.range r.degree).map fun i => f (a +ᶠ ((b -ᶠ a) /ᶠ ofNat r.degree) *ᶠ (lit 0.5 +ᶠ ofNat i))) *ᶠ ((b -ᶠ a) /ᶠ ofNat r.degree) := by
  have := sumMapM_id (F := F) (r.nodes : List F) (fun node => (pure (f (a +ᶠ ((b -ᶠ a) /ᶠ ofNat r.degree) *ᶠ (lit 0.5 +ᶠ node))) : Id F))
  rw [nodes_eq, List.map_map] at this
  have h2 := congrArg (fun x => x *ᶠ ((b -ᶠ a) /ᶠ ofNat r.degree)) this
  rw [← nodes_eq] at h2
  exact h2

theorem trapezoid_value_eq (r : NodeRule) (a b : F) (f : F → F) : (AnyRule.trapezoid r).value a b f =
    ((f a +ᶠ f b) /ᶠ lit 2.0 +ᶠ sumList ((List.range' 1 (r.degree - 1)).map fun i => f (a +ᶠ ofNat i *ᶠ ((b -ᶠ a) /ᶠ ofNat r.degree)))) *ᶠ
      ((b -ᶠ a) /ᶠ ofNat r.degree) := by
  have := sumMapM_id (F := F) (List.range' 1 (r.degree - 1)) (fun x => (pure (f (a +ᶠ ofNat x *ᶠ ((b -ᶠ a) /ᶠ ofNat r.degree))) : Id F))
  exact congrArg (fun x => ((f a +ᶠ f b) /ᶠ lit 2.0 +ᶠ x) *ᶠ ((b -ᶠ a) /ᶠ ofNat r.degree)) this

theorem simpson_value_eq (r : NodeRule) (a b : F) (f : F → F) : (AnyRule.simpson r).value a b f =
    ((b -ᶠ a) /ᶠ ofNat r.degree) /ᶠ lit 6.0 *ᶠ
    (lit 2.0 *ᶠ sumList ((List.range' 1 (r.degree - 1)).map fun i => f (a +ᶠ ofNat i *ᶠ ((b -ᶠ a) /ᶠ ofNat r.degree))) +ᶠ
      lit 4.0 *ᶠ sumList ((List.range' 1 (r.degree - 1)).map fun i => f (a +ᶠ (lit 2.0 *ᶠ ofNat i -ᶠ lit 1.0) *ᶠ ((b -ᶠ a) /ᶠ ofNat r.degree) /ᶠ lit 2.0)) +ᶠ
      lit 4.0 *ᶠ f (a +ᶠ (lit 2.0 *ᶠ ofNat r.degree -ᶠ lit 1.0) *ᶠ ((b -ᶠ a) /ᶠ ofNat r.degree) /ᶠ lit 2.0) +ᶠ f a +ᶠ f b) := by
  have hlen : r.range.len = r.degree := by simp [NodeRule.range, RangeIter.ofDegree, RangeIter.len]
  have h1 := sumMapM_id (F := F) ((r.nodes : List F).drop 1) (fun node => (pure (f (a +ᶠ node *ᶠ ((b -ᶠ a) /ᶠ ofNat r.degree))) : Id F))
  have h2 := sumMapM_id (F := F) ((r.nodes : List F).drop 1)
    (fun node => (pure (f (a +ᶠ (lit 2.0 *ᶠ node -ᶠ lit 1.0) *ᶠ ((b -ᶠ a) /ᶠ ofNat r.degree) /ᶠ lit 2.0)) : Id F))
  rw [nodes_drop, List.map_map] at h1 h2
  rw [range'_one_eq, List.map_map, List.map_map]
  simp only [AnyRule.value, AnyRule.integrate, Simpson.integrate, hlen, nodes_drop]
  simp only [Id.run, bind, pure] at h1 h2 ⊢
  rw [h1, h2]
  rfl

end generic

theorem sum_range' (k : ℕ) (u : ℕ → ℝ) : ((List.range' 1 k).map u).sum = ∑ i ∈ Finset.range k, u (i + 1) := by
  rw [range'_one_eq, List.map_map, sum_map_range]; rfl

/-- the trapezoid sum by panels and by points -/
theorem trapezoid_panels (N : ℕ) (hN : 0 < N) (u : ℕ → ℝ) :
    ∑ i ∈ Finset.range N, (u i + u (i + 1)) / 2 = (u 0 + u N) / 2 + ∑ i ∈ Finset.range (N - 1), u (i + 1) := by
  obtain ⟨d, rfl⟩ : ∃ d, N = d + 1 := ⟨N - 1, by omega⟩
  rw [Nat.add_sub_cancel]
  induction d with
  | zero => simp
  | succ d ih => rw [Finset.sum_range_succ, ih (by omega), Finset.sum_range_succ]; ring

section core
variable [L : Libm] {a b : F64} {f : F64 → F64} {g : ℝ → ℝ} {B M Λ η : ℝ} (r : NodeRule)

/-- the hypotheses on bounds and integrand shared by the three rules -/
structure Setting (a b : F64) (f : F64 → F64) (g : ℝ → ℝ) (B M Λ η : ℝ) : Prop where
  fa : a.isFinite = true
  fb : b.isFinite = true
  aB : |a.rv| ≤ B
  bB : |b.rv| ≤ B
  hB : B ≤ 2 ^ 400
  hf : Computes f g (around a.rv b.rv (argErr B)) M Λ η
  hΛ : 0 ≤ Λ
  hK : M + (η + Λ * argErr B) ≤ 2 ^ 400

theorem Setting.nonneg (h : Setting a b f g B M Λ η) : 0 ≤ B ∧ 0 ≤ M ∧ 0 ≤ η + Λ * argErr B ∧ 0 ≤ argErr B ∧ |b.rv - a.rv| ≤ 2 * B := by
  have hB0 : 0 ≤ B := (abs_nonneg _).trans h.aB
  have hρ : 0 ≤ argErr B := by unfold argErr; positivity
  have hmem : a.rv ∈ around a.rv b.rv (argErr B) := ⟨by linarith [min_le_left a.rv b.rv], by linarith [le_max_left a.rv b.rv]⟩
  have hη : 0 ≤ η := (abs_nonneg _).trans (h.hf.accurate a h.fa hmem).2
  have a1 := _root_.abs_le.1 h.aB
  have b1 := _root_.abs_le.1 h.bB
  exact ⟨hB0, (abs_nonneg _).trans (h.hf.bound _ hmem), add_nonneg hη (mul_nonneg h.hΛ hρ), hρ, _root_.abs_le.2 ⟨by linarith, by linarith⟩⟩

theorem degree_isNat : IsNat (ofNat r.degree : F64) r.degree := ofNat_isNat (by have := r.lt; omega)

theorem degree_bounds : (1 : ℝ) ≤ r.degree ∧ (r.degree : ℝ) ≤ 2 ^ 32 :=
  ⟨by exact_mod_cast r.pos, by exact_mod_cast r.lt.le⟩

theorem Setting.width (h : Setting a b f g B M Λ η) {D : ℝ} (hD : |b.rv - a.rv| ≤ D) (hDb : D ≤ 2 ^ 500) :
    Near (F64.div (F64.sub b a) (ofNat r.degree)) ((b.rv - a.rv) / r.degree) (2.001 * (U * (D / r.degree)) + 1 / 2 ^ 1075) :=
  width_near h.fa h.fb (degree_isNat r).1 (by rw [rv, (degree_isNat r).2]; simp) (degree_bounds r).1 hD hDb

theorem Setting.mult (h : Setting a b f g B M Λ η) {m : F64} {c : ℝ} (hm : Near m c (U * c)) (hc : 0 ≤ c) (hcN : c ≤ 2 * r.degree) :
    Near (F64.mul (F64.div (F64.sub b a) (ofNat r.degree)) m) ((b.rv - a.rv) * (c / r.degree)) (4.1 * (U * (2 * B * (c / r.degree))) + 1 / 2 ^ 1030) := by
  obtain ⟨hB0, -, -, -, hD⟩ := h.nonneg
  have hb : 2 * B ≤ 2 ^ 500 := by have := h.hB; have : (2 : ℝ) * 2 ^ 400 ≤ 2 ^ 500 := by norm_num
                                  linarith
  exact multiple_near (h.width r hD hb) hm hc hcN (degree_bounds r).1 (degree_bounds r).2 hD hb

theorem Setting.point (h : Setting a b f g B M Λ η) {m : F64} {c : ℝ} (hm : Near m c (U * c)) (hc : 0 ≤ c) (hcN : c ≤ r.degree) :
    Near (f (F64.add a (F64.mul (F64.div (F64.sub b a) (ofNat r.degree)) m))) (g (a.rv + c * ((b.rv - a.rv) / r.degree))) (η + Λ * argErr B) ∧
      |g (a.rv + c * ((b.rv - a.rv) / r.degree))| ≤ M := by
  obtain ⟨hB0, -, -, -, hD⟩ := h.nonneg
  obtain ⟨hN1, -⟩ := degree_bounds r
  have hθ0 : 0 ≤ c / r.degree := by positivity
  have hθ1 : c / r.degree ≤ 1 := by rw [div_le_one (by linarith)]; exact hcN
  have hs := (h.mult r hm hc (by linarith)).mono (δ := 5.2 * (U * (2 * B)) + 1 / 2 ^ 1029) (by
    have hU := U_pos
    have k : U * (2 * B * (c / r.degree)) ≤ U * (2 * B * 1) := by gcongr
    have : (1 : ℝ) / 2 ^ 1030 ≤ 1 / 2 ^ 1029 := by norm_num
    have : 0 ≤ U * (2 * B) := by positivity
    linarith)
  have := eval_near h.hf h.hΛ hθ0 hθ1 (point_near h.fa h.aB h.bB h.hB hs hθ0 hθ1)
  rwa [show c * ((b.rv - a.rv) / r.degree) = (b.rv - a.rv) * (c / r.degree) by ring]

theorem Setting.ends (h : Setting a b f g B M Λ η) : (Near (f a) (g a.rv) (η + Λ * argErr B) ∧ |g a.rv| ≤ M) ∧
    (Near (f b) (g b.rv) (η + Λ * argErr B) ∧ |g b.rv| ≤ M) := by
  obtain ⟨-, -, -, hρ, -⟩ := h.nonneg
  have h0 := eval_near h.hf h.hΛ (y := a) (θ := 0) le_rfl zero_le_one (by simpa using (near_self h.fa).mono hρ)
  have h1 := eval_near h.hf h.hΛ (y := b) (θ := 1) zero_le_one le_rfl (by simpa using (near_self h.fb).mono hρ)
  constructor
  · simpa using h0
  · simpa using h1

theorem d_small {d : ℕ} {e : ℝ} (hd : d ≤ 10 ^ 12) (he : e ≤ 100) : (1.001 * d + e) * U ≤ 0.001 := by
  have h1 : (d : ℝ) ≤ 10 ^ 12 := by exact_mod_cast hd
  have := U_pos
  calc (1.001 * d + e) * U ≤ (1.001 * 10 ^ 12 + 100) * U := by gcongr
    _ ≤ 0.001 := by unfold U; norm_num

theorem final_le {D κ K c c' : ℝ} {d : ℕ} (hD : 0 ≤ D) (hκ : 0 ≤ κ) (hK : 0 ≤ K) (hc : (1.002 * c + 4.1) * (1.1103 / 10 ^ 16) ≤ c') (hc0 : 0 ≤ c) :
    D * (1.001 * κ + (1.002 * (1.001 * d + c) + 4.1) * (U * K)) + 1 / 2 ^ 500 ≤ D * (1.01 * κ + (c' + 1.2 / 10 ^ 16 * d) * K) + 1 / 2 ^ 500 := by
  refine add_le_add (mul_le_mul_of_nonneg_left ?_ hD) le_rfl
  have hU : U ≤ 1.1103 / 10 ^ 16 := by unfold U; norm_num
  have h1 : U * K ≤ 1.1103 / 10 ^ 16 * K := mul_le_mul_of_nonneg_right hU hK
  have h2 := mul_le_mul_of_nonneg_left h1 (by positivity : 0 ≤ 1.002 * (1.001 * (d : ℝ) + c) + 4.1)
  have h3 := mul_le_mul_of_nonneg_right hc hK
  have h4 : 0 ≤ (d : ℝ) * K := by positivity
  have e : (1.002 * (1.001 * (d : ℝ) + c) + 4.1) * (1.1103 / 10 ^ 16 * K) = 1.003002 * (1.1103 / 10 ^ 16) * (d * K) + (1.002 * c + 4.1) * (1.1103 / 10 ^ 16) * K := by ring
  rw [e] at h2
  have e2 : (c' + 1.2 / 10 ^ 16 * d) * K = c' * K + 1.2 / 10 ^ 16 * (d * K) := by ring
  rw [e2]
  linarith

/-- midpoint rule: any way of summing -/
theorem midpoint_core (h : Setting a b f g B M Λ η) {d : ℕ} (hd : d ≤ 10 ^ 12) {x : F64}
    (hx : x = sumList ((List.range r.degree).map fun i => f (a +ᶠ ((b -ᶠ a) /ᶠ ofNat r.degree) *ᶠ (lit 0.5 +ᶠ ofNat i))) ∧ d = r.degree ∨
      ∃ s, x = parSumMap s (List.range r.degree) (fun i => f (a +ᶠ ((b -ᶠ a) /ᶠ ofNat r.degree) *ᶠ (lit 0.5 +ᶠ ofNat i))) ∧ d = roundings s r.degree) :
    Near (F64.mul x (F64.div (F64.sub b a) (ofNat r.degree)))
      ((b.rv - a.rv) / r.degree * ∑ i ∈ Finset.range r.degree, g (a.rv + (i + 1 / 2) * ((b.rv - a.rv) / r.degree)))
      (|b.rv - a.rv| * (1.01 * (η + Λ * argErr B) + (5 / 10 ^ 16 + 1.2 / 10 ^ 16 * d) * (M + (η + Λ * argErr B))) + 1 / 2 ^ 500) := by
  obtain ⟨hB0, hM, hκ, hρ, hD⟩ := h.nonneg
  obtain ⟨hN1, hN2⟩ := degree_bounds r
  have hU := U_pos
  have hitem : ∀ i ∈ List.range r.degree, Near (f (a +ᶠ ((b -ᶠ a) /ᶠ ofNat r.degree) *ᶠ (lit 0.5 +ᶠ ofNat i)))
      (g (a.rv + (i + 1 / 2) * ((b.rv - a.rv) / r.degree))) (η + Λ * argErr B) ∧ |g (a.rv + (i + 1 / 2) * ((b.rv - a.rv) / r.degree))| ≤ M := by
    intro i hi
    rw [List.mem_range] at hi
    have hi' : (i : ℝ) + 1 ≤ r.degree := by exact_mod_cast hi
    have n1 := (ofNat_isNat (L := L) (m := i) (by have := r.lt; omega)).rel
    have n2 := (lit_half_rel (L := L)).near.add n1.near (A := i + 1 / 2) (by
      rw [abs_of_nonneg (by positivity)]; simp; linarith) (by
      have : (2 : ℝ) ^ 32 ≤ 2 ^ 1023 := by norm_num
      linarith)
    refine h.point r (c := i + 1 / 2) (m := (lit 0.5 +ᶠ ofNat i : F64)) ?_ (by positivity) (by linarith)
    refine ⟨n2.1, ?_⟩
    have := n2.2
    simp only [zero_mul, zero_add] at this
    rw [add_comm (1 / 2 : ℝ)] at this
    exact this
  have hsum := acc_sum (M := M) (κ := η + Λ * argErr B) (ys := List.range r.degree) hM hκ hitem (by rw [List.length_range]; exact r.lt.le) h.hK hd
    (x := x) (by simpa using hx)
  rw [List.length_range, sum_map_range] at hsum
  have hw := (h.width r (le_refl |b.rv - a.rv|) (by
    have := h.hB; have : (2 : ℝ) * 2 ^ 400 ≤ 2 ^ 500 := by norm_num
    linarith)).mono (δ := 3.01 * (U * (|b.rv - a.rv| / r.degree)) + 2 * (1 / 2 ^ 1075)) (by
    have : 0 ≤ U * (|b.rv - a.rv| / r.degree) := by positivity
    have : (0 : ℝ) ≤ 1 / 2 ^ 1075 := by positivity
    linarith)
  have := hsum.final (c' := 1.001 * d + 0) hw hM hκ h.hK hN1 (hN2.trans (by norm_num)) (by simp) (d_small hd (by norm_num)) le_rfl (by norm_num) (by positivity)
    le_rfl (by
    have := h.hB; have : (2 : ℝ) * 2 ^ 400 ≤ 2 ^ 402 := by norm_num
    linarith)
  exact this.mono (final_le (abs_nonneg _) hκ (add_nonneg hM hκ) (by norm_num) le_rfl)

/-- trapezoid rule: any way of summing -/
theorem trapezoid_core (h : Setting a b f g B M Λ η) {d : ℕ} (hd : d ≤ 10 ^ 12) {x : F64}
    (hx : x = sumList ((List.range' 1 (r.degree - 1)).map fun i => f (a +ᶠ ofNat i *ᶠ ((b -ᶠ a) /ᶠ ofNat r.degree))) ∧ d = r.degree - 1 ∨
      ∃ s, x = parSumMap s (List.range' 1 (r.degree - 1)) (fun i => f (a +ᶠ ofNat i *ᶠ ((b -ᶠ a) /ᶠ ofNat r.degree))) ∧ d = roundings s (r.degree - 1)) :
    Near (F64.mul (F64.add (F64.div (F64.add (f a) (f b)) (lit 2.0)) x) (F64.div (F64.sub b a) (ofNat r.degree)))
      ((b.rv - a.rv) / r.degree * ∑ i ∈ Finset.range r.degree, (g (a.rv + i * ((b.rv - a.rv) / r.degree)) + g (a.rv + (i + 1) * ((b.rv - a.rv) / r.degree))) / 2)
      (|b.rv - a.rv| * (1.01 * (η + Λ * argErr B) + (9 / 10 ^ 16 + 1.2 / 10 ^ 16 * d) * (M + (η + Λ * argErr B))) + 1 / 2 ^ 500) := by
  obtain ⟨hB0, hM, hκ, hρ, hD⟩ := h.nonneg
  obtain ⟨hN1, hN2⟩ := degree_bounds r
  have hU := U_pos
  have hU7 := U_le
  have hitem : ∀ i ∈ List.range' 1 (r.degree - 1), Near (f (a +ᶠ ofNat i *ᶠ ((b -ᶠ a) /ᶠ ofNat r.degree)))
      (g (a.rv + i * ((b.rv - a.rv) / r.degree))) (η + Λ * argErr B) ∧ |g (a.rv + i * ((b.rv - a.rv) / r.degree))| ≤ M := by
    intro i hi
    rw [List.mem_range'_1] at hi
    have hi' : (i : ℝ) ≤ r.degree := by exact_mod_cast (by omega : i ≤ r.degree)
    have n1 := near_zero_nat (ofNat_isNat (L := L) (m := i) (by have := r.lt; omega))
    have := h.point r n1 (by positivity) hi'
    rw [mul_comm'] at this
    exact this
  have hsum := acc_sum (M := M) (κ := η + Λ * argErr B) (ys := List.range' 1 (r.degree - 1)) hM hκ hitem (by rw [List.length_range']; have := r.lt; omega) h.hK hd
    (x := x) (by simpa using hx)
  rw [List.length_range', sum_range'] at hsum
  have hNm : ((r.degree - 1 : ℕ) : ℝ) = r.degree - 1 := by rw [Nat.cast_sub r.pos]; simp
  rw [hNm] at hsum
  obtain ⟨⟨e1, e2⟩, e3, e4⟩ := h.ends
  have hK := h.hK
  have hKN : (r.degree : ℝ) * (M + (η + Λ * argErr B)) ≤ 2 ^ 500 := by
    calc (r.degree : ℝ) * (M + (η + Λ * argErr B)) ≤ 2 ^ 32 * 2 ^ 400 := mul_le_mul hN2 hK (by positivity) (by positivity)
      _ ≤ _ := by norm_num
  have hb : (2 : ℝ) * 2 ^ 400 ≤ 2 ^ 500 := by norm_num
  have s1 := (acc_one e1 e2).add (acc_one e3 e4) hM hκ (by norm_num) (by norm_num at hb ⊢; linarith) (by norm_num) (by norm_num)
  have s2 := s1.half (q := lit 2.0) lit_two_isNat hM hκ (by norm_num; linarith) (by norm_num at hb ⊢; linarith) (by norm_num) (by norm_num)
  have hdu := d_small (e := 10) hd (by norm_num)
  have hN0 : (0 : ℝ) ≤ r.degree - 1 := by linarith
  have hdN := mul_le_mul_of_nonneg_right hdu (by linarith : (0 : ℝ) ≤ r.degree)
  have hdp : 0 ≤ (d : ℝ) * U := by positivity
  have s3 := s2.add hsum hM hκ (by
    have : (1.001 * d * ((r.degree : ℝ) - 1)) * U ≤ (1.001 * d * r.degree) * U := by gcongr; linarith
    have : U * 1 ≤ U * r.degree := mul_le_mul_of_nonneg_left hN1 hU.le
    norm_num at *
    linarith) (by norm_num at hKN ⊢; linarith) (by norm_num) (by norm_num)
  have em : ((1 : ℝ) + 1) / 2 + (r.degree - 1) = r.degree := by ring
  rw [em] at s3
  have hw := (h.width r (le_refl |b.rv - a.rv|) (by
    have := h.hB; have : (2 : ℝ) * 2 ^ 400 ≤ 2 ^ 500 := by norm_num
    linarith)).mono (δ := 3.01 * (U * (|b.rv - a.rv| / r.degree)) + 2 * (1 / 2 ^ 1075)) (by
    have : 0 ≤ U * (|b.rv - a.rv| / r.degree) := by positivity
    have : (0 : ℝ) ≤ 1 / 2 ^ 1075 := by positivity
    linarith)
  have := s3.final (c' := 1.001 * d + 3.1) hw hM hκ h.hK hN1 (hN2.trans (by norm_num)) (by
    have : 0 ≤ (d : ℝ) := by positivity
    norm_num
    linarith) (d_small hd (by norm_num)) (by norm_num) (by norm_num) (by positivity)
    le_rfl (by
    have := h.hB; have : (2 : ℝ) * 2 ^ 400 ≤ 2 ^ 402 := by norm_num
    linarith)
  have e := trapezoid_panels r.degree r.pos (fun i => g (a.rv + i * ((b.rv - a.rv) / r.degree)))
  have ea : a.rv + ((0 : ℕ) : ℝ) * ((b.rv - a.rv) / r.degree) = a.rv := by simp
  have eb : a.rv + (r.degree : ℝ) * ((b.rv - a.rv) / r.degree) = b.rv := by field_simp; ring
  rw [ea, eb] at e
  push_cast at e this
  rw [e]
  exact this.mono (final_le (abs_nonneg _) hκ (add_nonneg hM hκ) (by norm_num) (by norm_num))

theorem lit_isNat_of {q : ℚ} {m : ℕ} (hq : q = m) (h : m < 2 ^ 53) : IsNat (F64.round q false) m := by
  rw [hq]; exact ofNat_isNat (L := L) h

theorem lit_four_isNat : IsNat (lit 4.0 : F64) 4 := lit_isNat_of (L := L) (q := 4.0) (by norm_num) (by norm_num)
theorem lit_six_isNat : IsNat (lit 6.0 : F64) 6 := lit_isNat_of (L := L) (q := 6.0) (by norm_num) (by norm_num)

theorem near_nat {x : F64} {m : ℕ} (h : IsNat x m) : Near x m 0 := ⟨h.1, by rw [rv, h.2]; simp⟩

/-- `(2 i - 1) h / 2`, the midpoints of Simpson's rule -/
theorem Setting.mid (h : Setting a b f g B M Λ η) {i : ℕ} (hi : 1 ≤ i) (hiN : i ≤ r.degree) :
    Near (f (a +ᶠ (lit 2.0 *ᶠ ofNat i -ᶠ lit 1.0) *ᶠ ((b -ᶠ a) /ᶠ ofNat r.degree) /ᶠ lit 2.0)) (g (a.rv + (i - 1 / 2) * ((b.rv - a.rv) / r.degree)))
      (η + Λ * argErr B) ∧ |g (a.rv + (i - 1 / 2) * ((b.rv - a.rv) / r.degree))| ≤ M := by
  obtain ⟨hB0, -, -, -, hD⟩ := h.nonneg
  obtain ⟨hN1, -⟩ := degree_bounds r
  have hU := U_pos
  have hU7 := U_le
  have hN0 : (0 : ℝ) < r.degree := by linarith
  have n1 := ofNat_isNat (L := L) (m := i) (by have := r.lt; omega)
  have n2 := (lit_two_isNat (L := L)).mul n1 (by have := r.lt; omega)
  have n3 := n2.sub (lit_one_isNat (L := L)) (by omega) (by have := r.lt; omega)
  have hi1 : (1 : ℝ) ≤ i := by exact_mod_cast hi
  have hi2 : (i : ℝ) ≤ r.degree := by exact_mod_cast hiN
  have ec : ((2 * i - 1 : ℕ) : ℝ) = 2 * i - 1 := by rw [Nat.cast_sub (by omega)]; push_cast; rfl
  have s1 := h.mult r (near_zero_nat n3) (by positivity) (by rw [ec]; linarith)
  rw [ec, mul_comm'] at s1
  obtain ⟨θ, hθ⟩ : ∃ θ : ℝ, θ = (i - 1 / 2) / r.degree := ⟨_, rfl⟩
  have e2 : (2 * (i : ℝ) - 1) / r.degree = 2 * θ := by rw [hθ]; field_simp
  have h0 : 0 ≤ θ := by rw [hθ]; apply div_nonneg <;> linarith
  have h1 : θ ≤ 1 := by rw [hθ, div_le_one hN0]; linarith
  rw [e2] at s1
  obtain ⟨τ, hτ⟩ : ∃ τ : ℝ, τ = 1 / 2 ^ 1030 := ⟨_, rfl⟩
  have hτ0 : 0 < τ := by rw [hτ]; positivity
  have hτ1 : τ ≤ 1 := by rw [hτ]; norm_num
  have hτ2 : (1 : ℝ) / 2 ^ 1075 ≤ τ := by rw [hτ]; norm_num
  have hτ3 : 2 * τ = 1 / 2 ^ 1029 := by rw [hτ]; norm_num
  rw [← hτ] at s1
  have hUτ : U * τ ≤ 0.001 * τ := mul_le_mul_of_nonneg_right (by linarith) hτ0.le
  have hUB : 0 ≤ U * B := by positivity
  have hUB7 : U * B ≤ 0.0000001 * B := mul_le_mul_of_nonneg_right hU7 hB0
  have hUθ : U * B * θ ≤ U * B * 1 := mul_le_mul_of_nonneg_left h1 hUB
  have hr : |(b.rv - a.rv) * (2 * θ)| ≤ 4 * B := by
    rw [abs_mul, abs_of_nonneg (by linarith : 0 ≤ 2 * θ)]
    calc |b.rv - a.rv| * (2 * θ) ≤ 2 * B * (2 * 1) := by gcongr
      _ = 4 * B := by ring
  have hbig : (2 : ℝ) ^ 400 * 10 + 1 ≤ 2 ^ 1023 := by norm_num
  have s2 := s1.div_exact (lit_two_isNat (L := L)).1 (s := 2) (by rw [rv, (lit_two_isNat (L := L)).2]; norm_num) (by norm_num) (A := 4.01 * B + τ)
    (by linarith) (by have := h.hB; linarith)
  rw [show (b.rv - a.rv) * (2 * θ) / 2 = (b.rv - a.rv) * θ by ring] at s2
  have s3 := s2.mono (δ := 5.2 * (U * (2 * B)) + 1 / 2 ^ 1029) (by linarith)
  have := eval_near h.hf h.hΛ h0 h1 (point_near h.fa h.aB h.bB h.hB s3 h0 h1)
  rw [show (i - 1 / 2 : ℝ) * ((b.rv - a.rv) / r.degree) = (b.rv - a.rv) * θ by rw [hθ]; ring]
  exact this

theorem simpson_panels (N : ℕ) (hN : 0 < N) (u v : ℕ → ℝ) : ∑ i ∈ Finset.range N, (u i + 4 * v (i + 1) + u (i + 1)) =
    2 * ∑ i ∈ Finset.range (N - 1), u (i + 1) + 4 * ∑ i ∈ Finset.range (N - 1), v (i + 1) + 4 * v N + u 0 + u N := by
  obtain ⟨d, rfl⟩ : ∃ d, N = d + 1 := ⟨N - 1, by omega⟩
  rw [Nat.add_sub_cancel]
  induction d with
  | zero => simp; ring
  | succ d ih =>
    rw [Finset.sum_range_succ, ih (by omega), Finset.sum_range_succ (fun i => u (i + 1)), Finset.sum_range_succ (fun i => v (i + 1))]; ring

set_option maxHeartbeats 1000000 in
/-- Simpson's rule: any way of summing -/
theorem simpson_core (h : Setting a b f g B M Λ η) {d : ℕ} (hd : d ≤ 10 ^ 12) {x y : F64} {d₁ d₂ : ℕ} (h1 : d₁ ≤ d) (h2 : d₂ ≤ d)
    (hx : x = sumList ((List.range' 1 (r.degree - 1)).map fun i => f (a +ᶠ ofNat i *ᶠ ((b -ᶠ a) /ᶠ ofNat r.degree))) ∧ d₁ = r.degree - 1 ∨
      ∃ s, x = parSumMap s (List.range' 1 (r.degree - 1)) (fun i => f (a +ᶠ ofNat i *ᶠ ((b -ᶠ a) /ᶠ ofNat r.degree))) ∧ d₁ = roundings s (r.degree - 1))
    (hy : y = sumList ((List.range' 1 (r.degree - 1)).map fun i => f (a +ᶠ (lit 2.0 *ᶠ ofNat i -ᶠ lit 1.0) *ᶠ ((b -ᶠ a) /ᶠ ofNat r.degree) /ᶠ lit 2.0)) ∧ d₂ = r.degree - 1 ∨
      ∃ s, y = parSumMap s (List.range' 1 (r.degree - 1)) (fun i => f (a +ᶠ (lit 2.0 *ᶠ ofNat i -ᶠ lit 1.0) *ᶠ ((b -ᶠ a) /ᶠ ofNat r.degree) /ᶠ lit 2.0)) ∧
        d₂ = roundings s (r.degree - 1)) :
    Near (F64.mul (F64.div (F64.div (F64.sub b a) (ofNat r.degree)) (lit 6.0))
        (F64.add (F64.add (F64.add (F64.add (F64.mul (lit 2.0) x) (F64.mul (lit 4.0) y))
          (F64.mul (lit 4.0) (f (a +ᶠ (lit 2.0 *ᶠ ofNat r.degree -ᶠ lit 1.0) *ᶠ ((b -ᶠ a) /ᶠ ofNat r.degree) /ᶠ lit 2.0)))) (f a)) (f b)))
      ((b.rv - a.rv) / r.degree / 6 * ∑ i ∈ Finset.range r.degree, (g (a.rv + i * ((b.rv - a.rv) / r.degree)) +
        4 * g (a.rv + (i + 1 / 2) * ((b.rv - a.rv) / r.degree)) + g (a.rv + (i + 1) * ((b.rv - a.rv) / r.degree))))
      (|b.rv - a.rv| * (1.01 * (η + Λ * argErr B) + (1.2 / 10 ^ 15 + 1.2 / 10 ^ 16 * d) * (M + (η + Λ * argErr B))) + 1 / 2 ^ 500) := by
  obtain ⟨hB0, hM, hκ, hρ, hD⟩ := h.nonneg
  obtain ⟨hN1, hN2⟩ := degree_bounds r
  have hU := U_pos
  have hU7 := U_le
  have hitem : ∀ i ∈ List.range' 1 (r.degree - 1), Near (f (a +ᶠ ofNat i *ᶠ ((b -ᶠ a) /ᶠ ofNat r.degree)))
      (g (a.rv + i * ((b.rv - a.rv) / r.degree))) (η + Λ * argErr B) ∧ |g (a.rv + i * ((b.rv - a.rv) / r.degree))| ≤ M := by
    intro i hi
    rw [List.mem_range'_1] at hi
    have hi' : (i : ℝ) ≤ r.degree := by exact_mod_cast (by omega : i ≤ r.degree)
    have n1 := near_zero_nat (ofNat_isNat (L := L) (m := i) (by have := r.lt; omega))
    have := h.point r n1 (by positivity) hi'
    rw [mul_comm'] at this
    exact this
  have hitem2 : ∀ i ∈ List.range' 1 (r.degree - 1), Near (f (a +ᶠ (lit 2.0 *ᶠ ofNat i -ᶠ lit 1.0) *ᶠ ((b -ᶠ a) /ᶠ ofNat r.degree) /ᶠ lit 2.0))
      (g (a.rv + (i - 1 / 2) * ((b.rv - a.rv) / r.degree))) (η + Λ * argErr B) ∧ |g (a.rv + (i - 1 / 2) * ((b.rv - a.rv) / r.degree))| ≤ M := by
    intro i hi
    rw [List.mem_range'_1] at hi
    exact h.mid r hi.1 (by omega)
  have hlen : (List.range' 1 (r.degree - 1)).length ≤ 2 ^ 32 := by rw [List.length_range']; have := r.lt; omega
  have hsx := acc_sum (M := M) (κ := η + Λ * argErr B) hM hκ hitem hlen h.hK (h1.trans hd) (x := x) (by simpa using hx)
  have hsy := acc_sum (M := M) (κ := η + Λ * argErr B) hM hκ hitem2 hlen h.hK (h2.trans hd) (x := y) (by simpa using hy)
  rw [List.length_range', sum_range'] at hsx hsy
  have hNm : ((r.degree - 1 : ℕ) : ℝ) = r.degree - 1 := by rw [Nat.cast_sub r.pos]; simp
  rw [hNm] at hsx hsy
  obtain ⟨⟨e1, e2⟩, e3, e4⟩ := h.ends
  obtain ⟨l1, l2⟩ := h.mid r r.pos le_rfl
  have hK := h.hK
  generalize (f (a +ᶠ (lit 2.0 *ᶠ ofNat r.degree -ᶠ lit 1.0) *ᶠ ((b -ᶠ a) /ᶠ ofNat r.degree) /ᶠ lit 2.0)) = z at *
  clear hx hy hitem hitem2
  -- the panels
  have hpan := simpson_panels r.degree r.pos (fun i => g (a.rv + i * ((b.rv - a.rv) / r.degree))) (fun i => g (a.rv + (i - 1 / 2) * ((b.rv - a.rv) / r.degree)))
  have ea : a.rv + ((0 : ℕ) : ℝ) * ((b.rv - a.rv) / r.degree) = a.rv := by simp
  have eb : a.rv + (r.degree : ℝ) * ((b.rv - a.rv) / r.degree) = b.rv := by field_simp; ring
  have em : ∀ i : ℕ, ((i + 1 : ℕ) : ℝ) - 1 / 2 = i + 1 / 2 := by intro i; push_cast; ring
  rw [ea, eb] at hpan
  simp only [em] at hpan
  simp only [em] at hsy
  push_cast at hpan hsx
  rw [hpan]
  generalize (∑ i ∈ Finset.range (r.degree - 1), g (a.rv + ((i : ℝ) + 1) * ((b.rv - a.rv) / r.degree))) = S1 at *
  generalize (∑ i ∈ Finset.range (r.degree - 1), g (a.rv + ((i : ℝ) + 1 / 2) * ((b.rv - a.rv) / r.degree))) = S2 at *
  generalize g (a.rv + ((r.degree : ℝ) - 1 / 2) * ((b.rv - a.rv) / r.degree)) = gz at *
  -- error of the width
  have hw0 := (h.width r (le_refl |b.rv - a.rv|) (by
    have := h.hB; have : (2 : ℝ) * 2 ^ 400 ≤ 2 ^ 500 := by norm_num
    linarith))
  have hDb : |b.rv - a.rv| ≤ 2 ^ 402 := by
    have := h.hB; have : (2 : ℝ) * 2 ^ 400 ≤ 2 ^ 402 := by norm_num
    linarith
  have hN0 : (0 : ℝ) < r.degree := by linarith
  have hw : Near (F64.div (F64.div (F64.sub b a) (ofNat r.degree)) (lit 6.0)) ((b.rv - a.rv) / (6 * r.degree))
      (3.01 * (U * (|b.rv - a.rv| / (6 * r.degree))) + 2 * (1 / 2 ^ 1075)) := by
    obtain ⟨X, hX⟩ : ∃ X, X = |b.rv - a.rv| / r.degree := ⟨_, rfl⟩
    have hX0 : 0 ≤ X := by rw [hX]; positivity
    have hX1 : X ≤ 2 ^ 402 := by rw [hX]; exact (div_le_self (abs_nonneg _) hN1).trans hDb
    have hr : |(b.rv - a.rv) / r.degree| = X := by rw [abs_div, abs_of_pos hN0, hX]
    have hUX0 : 0 ≤ U * X := by positivity
    have hUX : U * X ≤ 0.0000001 * X := mul_le_mul_of_nonneg_right hU7 hX0
    obtain ⟨τ, hτ⟩ : ∃ τ : ℝ, τ = 1 / 2 ^ 1075 := ⟨_, rfl⟩
    have hτ0 : 0 < τ := by rw [hτ]; positivity
    have hτ1 : τ ≤ 1 := by rw [hτ]; exact half_exp_le
    have hUτ : U * τ ≤ 0.001 * τ := mul_le_mul_of_nonneg_right (by linarith) hτ0.le
    rw [← hX, ← hτ] at hw0
    have hbig : (2 : ℝ) ^ 402 * 2 + 2 ≤ 2 ^ 1023 := by norm_num
    have := hw0.div_exact (lit_six_isNat (L := L)).1 (s := 6) (by rw [rv, (lit_six_isNat (L := L)).2]; norm_num) (by norm_num) (A := 1.001 * X + τ)
      (by rw [hr]; linarith) (by linarith)
    rw [show (b.rv - a.rv) / (6 * r.degree) = (b.rv - a.rv) / r.degree / 6 by field_simp,
      show |b.rv - a.rv| / (6 * r.degree) = X / 6 by rw [hX]; field_simp]
    refine this.mono ?_
    rw [← hτ]
    linarith
  generalize F64.div (F64.div (F64.sub b a) (ofNat r.degree)) (lit 6.0) = w at *
  have hbK : (10 : ℝ) * r.degree * (M + (η + Λ * argErr B)) ≤ 2 ^ 500 := by
    calc (10 : ℝ) * r.degree * (M + (η + Λ * argErr B)) ≤ 10 * 2 ^ 32 * 2 ^ 400 := mul_le_mul (by linarith) hK (by positivity) (by positivity)
      _ ≤ _ := by norm_num
  generalize η + Λ * argErr B = κ at *
  have hdu := d_small (e := 20) hd (by norm_num)
  generalize hNr : (r.degree : ℝ) = N at *
  have hdN := mul_le_mul_of_nonneg_right hdu (by linarith : (0 : ℝ) ≤ N)
  have hUN : 0 ≤ U * N := by positivity
  have hU1 : U * 1 ≤ U * N := mul_le_mul_of_nonneg_left hN1 hU.le
  have hd0 : (0 : ℝ) ≤ d := by positivity
  have hm0 : 0 ≤ N - 1 := by linarith
  have hK0 : 0 ≤ M + κ := by positivity
  have hNK : 1 * (M + κ) ≤ N * (M + κ) := mul_le_mul_of_nonneg_right hN1 hK0
  have hdx' : (d₁ : ℝ) ≤ d := by exact_mod_cast h1
  have hdx : 1.001 * (d₁ : ℝ) * (N - 1) ≤ 1.001 * d * (N - 1) := by gcongr
  have hdy' : (d₂ : ℝ) ≤ d := by exact_mod_cast h2
  have hdy : 1.001 * (d₂ : ℝ) * (N - 1) ≤ 1.001 * d * (N - 1) := by gcongr
  have mono : ∀ {x : F64} {r m c c' j : ℝ}, c ≤ c' → Acc M κ x r m c j → Acc M κ x r m c' j := fun hc ha => ⟨ha.1.mono (by
    have := mul_le_mul_of_nonneg_right hc (mul_nonneg hU.le hK0); linarith), ha.2⟩
  have hsx' := mono hdx hsx
  have hsy' := mono hdy hsy
  have hdN1 := mul_le_mul_of_nonneg_right hdu hm0
  have hUN1 : 0 ≤ U * (N - 1) := by positivity
  have hdUN : 0 ≤ d * U * (N - 1) := by positivity
  have hdU1 : 0 ≤ d * U := by positivity
  have t1 := hsx'.scale (near_nat (lit_two_isNat (L := L))) (by norm_num) (by norm_num) hM hκ (by linarith) (by linarith) le_rfl (by norm_num) hm0
  have t2 := hsy'.scale (near_nat (lit_four_isNat (L := L))) (by norm_num) (by norm_num) hM hκ (by linarith) (by linarith) le_rfl (by norm_num) hm0
  have t3 := t1.add t2 hM hκ (by push_cast; linarith) (by push_cast; linarith) (by norm_num) (by norm_num)
  have t4 := (acc_one l1 l2).scale (near_nat (lit_four_isNat (L := L))) (by norm_num) (by norm_num) hM hκ (by norm_num) (by linarith) le_rfl (by norm_num) zero_le_one
  have t5 := t3.add t4 hM hκ (by push_cast; linarith) (by push_cast; linarith) (by norm_num) (by norm_num)
  have t6 := t5.add (acc_one e1 e2) hM hκ (by push_cast; linarith) (by push_cast; linarith) (by norm_num) (by norm_num)
  have t7 := t6.add (acc_one e3 e4) hM hκ (by push_cast; linarith) (by push_cast; linarith) (by norm_num) (by norm_num)
  have e6 : ((2 : ℕ) : ℝ) * (N - 1) + ((4 : ℕ) : ℝ) * (N - 1) + ((4 : ℕ) : ℝ) * 1 + 1 + 1 = 6 * N := by push_cast; ring
  rw [e6] at t7
  have := t7.final (c' := 1.001 * d + 5.1) hw hM hκ hK (by linarith) (by
    have : (6 : ℝ) * 2 ^ 32 ≤ 2 ^ 40 := by norm_num
    linarith) (by push_cast; linarith) (d_small hd (by norm_num)) (by norm_num) (by norm_num) (by positivity) le_rfl hDb
  rw [mul_comm']
  rw [show (b.rv - a.rv) / (6 * N) = (b.rv - a.rv) / N / 6 by field_simp] at this
  push_cast at this
  exact this.mono (final_le (abs_nonneg _) hκ hK0 (by norm_num) (by norm_num))

end core

/-- C58 (midpoint rule): for every rule and every schedule the binary64 result is finite and within `E` of the composite sum `I`; `I` is within the classical
error bound of the integral.  `κ` is the error of one computed function value, `d` the depth of the summation. -/
theorem C58_midpoint [L : Libm] (r : NodeRule) (a b : F64) (f : F64 → F64) (g : ℝ → ℝ) (B M Λ η : ℝ) (ha : a.isFinite = true) (hb : b.isFinite = true)
    (haB : |(a.val : ℝ)| ≤ B) (hbB : |(b.val : ℝ)| ≤ B) (hB : B ≤ 2 ^ 400) :
    let ρ := 4 / 10 ^ 15 * B + 1 / 2 ^ 1000; let κ := η + Λ * ρ; let h := ((b.val : ℝ) - a.val) / r.degree
    let I := h * ∑ i ∈ Finset.range r.degree, g (a.val + (i + 1 / 2) * h)
    let E := fun d : ℕ => |(b.val : ℝ) - a.val| * (1.01 * κ + (5 / 10 ^ 16 + 1.2 / 10 ^ 16 * d) * (M + κ)) + 1 / 2 ^ 500
    Computes f g (around a.val b.val ρ) M Λ η → 0 ≤ Λ → M + κ ≤ 2 ^ 400 →
    (((AnyRule.midpoint r).value a b f).isFinite = true ∧ |(((AnyRule.midpoint r).value a b f).val : ℝ) - I| ≤ E r.degree) ∧
    (∀ s s', roundings s r.degree ≤ 10 ^ 12 → ((AnyRule.midpoint r).parIntegrate s s' a b f).isFinite = true ∧
      |(((AnyRule.midpoint r).parIntegrate s s' a b f).val : ℝ) - I| ≤ E (roundings s r.degree)) ∧
    (∀ K : ℝ, ContDiffOn ℝ 2 g (Set.uIcc (a.val : ℝ) b.val) → (∀ x ∈ Set.uIcc (a.val : ℝ) b.val, |iteratedDerivWithin 2 g (Set.uIcc (a.val : ℝ) b.val) x| ≤ K) →
      |(∫ x in (a.val : ℝ)..b.val, g x) - I| ≤ K * |(b.val : ℝ) - a.val| ^ 3 / (24 * r.degree ^ 2)) := by
  intro ρ κ h I E hf hΛ hK
  have hS : Setting a b f g B M Λ η := ⟨ha, hb, haB, hbB, hB, hf, hΛ, hK⟩
  refine ⟨?_, ?_, ?_⟩
  · rw [midpoint_value_eq]
    exact midpoint_core r hS (by have := r.lt; omega) (Or.inl ⟨rfl, rfl⟩)
  · intro s s' hs
    exact midpoint_core r hS hs (Or.inr ⟨s, rfl, rfl⟩)
  · intro K h1 h2
    have := (C27_error h1 h2 r).1
    rw [value_midpoint] at this
    exact this

/-- C58 (trapezoid rule): for every rule and every schedule the binary64 result is finite and within `E` of the composite sum `I`; `I` is within the classical
error bound of the integral.  `κ` is the error of one computed function value, `d` the depth of the summation. -/
theorem C58_trapezoid [L : Libm] (r : NodeRule) (a b : F64) (f : F64 → F64) (g : ℝ → ℝ) (B M Λ η : ℝ) (ha : a.isFinite = true) (hb : b.isFinite = true)
    (haB : |(a.val : ℝ)| ≤ B) (hbB : |(b.val : ℝ)| ≤ B) (hB : B ≤ 2 ^ 400) :
    let ρ := 4 / 10 ^ 15 * B + 1 / 2 ^ 1000; let κ := η + Λ * ρ; let h := ((b.val : ℝ) - a.val) / r.degree
    let I := h * ∑ i ∈ Finset.range r.degree, (g (a.val + i * h) + g (a.val + (i + 1) * h)) / 2
    let E := fun d : ℕ => |(b.val : ℝ) - a.val| * (1.01 * κ + (9 / 10 ^ 16 + 1.2 / 10 ^ 16 * d) * (M + κ)) + 1 / 2 ^ 500
    Computes f g (around a.val b.val ρ) M Λ η → 0 ≤ Λ → M + κ ≤ 2 ^ 400 →
    (((AnyRule.trapezoid r).value a b f).isFinite = true ∧ |(((AnyRule.trapezoid r).value a b f).val : ℝ) - I| ≤ E (r.degree - 1)) ∧
    (∀ s s', roundings s (r.degree - 1) ≤ 10 ^ 12 → ((AnyRule.trapezoid r).parIntegrate s s' a b f).isFinite = true ∧
      |(((AnyRule.trapezoid r).parIntegrate s s' a b f).val : ℝ) - I| ≤ E (roundings s (r.degree - 1))) ∧
    (∀ K : ℝ, ContDiffOn ℝ 2 g (Set.uIcc (a.val : ℝ) b.val) → (∀ x ∈ Set.uIcc (a.val : ℝ) b.val, |iteratedDerivWithin 2 g (Set.uIcc (a.val : ℝ) b.val) x| ≤ K) →
      |(∫ x in (a.val : ℝ)..b.val, g x) - I| ≤ K * |(b.val : ℝ) - a.val| ^ 3 / (12 * r.degree ^ 2)) := by
  intro ρ κ h I E hf hΛ hK
  have hS : Setting a b f g B M Λ η := ⟨ha, hb, haB, hbB, hB, hf, hΛ, hK⟩
  refine ⟨?_, ?_, ?_⟩
  · rw [trapezoid_value_eq]
    exact trapezoid_core r hS (by have := r.lt; omega) (Or.inl ⟨rfl, rfl⟩)
  · intro s s' hs
    exact trapezoid_core r hS hs (Or.inr ⟨s, rfl, rfl⟩)
  · intro K h1 h2
    have := (C27_error h1 h2 r).2
    rw [value_trapezoid] at this
    exact this

/-- C58 (Simpson's rule): for every rule and every schedule the binary64 result is finite and within `E` of the composite sum `I`; `I` is within the classical
error bound of the integral.  `κ` is the error of one computed function value, `d` the depth of the summation. -/
theorem C58_simpson [L : Libm] (r : NodeRule) (a b : F64) (f : F64 → F64) (g : ℝ → ℝ) (B M Λ η : ℝ) (ha : a.isFinite = true) (hb : b.isFinite = true)
    (haB : |(a.val : ℝ)| ≤ B) (hbB : |(b.val : ℝ)| ≤ B) (hB : B ≤ 2 ^ 400) :
    let ρ := 4 / 10 ^ 15 * B + 1 / 2 ^ 1000; let κ := η + Λ * ρ; let h := ((b.val : ℝ) - a.val) / r.degree
    let I := h / 6 * ∑ i ∈ Finset.range r.degree, (g (a.val + i * h) + 4 * g (a.val + (i + 1 / 2) * h) + g (a.val + (i + 1) * h))
    let E := fun d : ℕ => |(b.val : ℝ) - a.val| * (1.01 * κ + (1.2 / 10 ^ 15 + 1.2 / 10 ^ 16 * d) * (M + κ)) + 1 / 2 ^ 500
    Computes f g (around a.val b.val ρ) M Λ η → 0 ≤ Λ → M + κ ≤ 2 ^ 400 →
    (((AnyRule.simpson r).value a b f).isFinite = true ∧ |(((AnyRule.simpson r).value a b f).val : ℝ) - I| ≤ E (r.degree - 1)) ∧
    (∀ s s', roundings s (r.degree - 1) ≤ 10 ^ 12 → roundings s' (r.degree - 1) ≤ 10 ^ 12 → ((AnyRule.simpson r).parIntegrate s s' a b f).isFinite = true ∧
      |(((AnyRule.simpson r).parIntegrate s s' a b f).val : ℝ) - I| ≤ E (max (roundings s (r.degree - 1)) (roundings s' (r.degree - 1)))) ∧
    (∀ K : ℝ, ContDiffOn ℝ 4 g (Set.uIcc (a.val : ℝ) b.val) → (∀ x ∈ Set.uIcc (a.val : ℝ) b.val, |iteratedDerivWithin 4 g (Set.uIcc (a.val : ℝ) b.val) x| ≤ K) →
      |(∫ x in (a.val : ℝ)..b.val, g x) - I| ≤ K * |(b.val : ℝ) - a.val| ^ 5 / (2880 * r.degree ^ 4)) := by
  intro ρ κ h I E hf hΛ hK
  have hS : Setting a b f g B M Λ η := ⟨ha, hb, haB, hbB, hB, hf, hΛ, hK⟩
  refine ⟨?_, ?_, ?_⟩
  · rw [simpson_value_eq]
    exact simpson_core r hS (by have := r.lt; omega) le_rfl le_rfl (Or.inl ⟨rfl, rfl⟩) (Or.inl ⟨rfl, rfl⟩)
  · intro s s' hs hs'
    exact simpson_core r hS (max_le hs hs') (le_max_left _ _) (le_max_right _ _) (Or.inr ⟨s, rfl, rfl⟩) (Or.inr ⟨s', rfl, rfl⟩)
  · intro K h1 h2
    have := C28_error h1 h2 r
    rw [value_simpson_sum, ← Finset.mul_sum] at this
    rw [show I = (b.val - a.val : ℝ) / r.degree / 2 / 3 * ∑ i ∈ Finset.range r.degree, (g (a.val + (i + 1) * ((b.val - a.val) / r.degree)) +
      4 * g (a.val + (i + 1 / 2) * ((b.val - a.val) / r.degree)) + g (a.val + i * ((b.val - a.val) / r.degree))) by
        rw [show (b.val - a.val : ℝ) / r.degree / 2 / 3 = (b.val - a.val : ℝ) / r.degree / 6 by ring]
        simp only [I, h]
        congr 1
        exact Finset.sum_congr rfl fun i _ => by ring]
    exact this

/-- `∫₀¹ x² = 1/3` by the three rules with 10 panels, in binary64, whatever the library -/
example (L : Libm) : ∃ r : NodeRule, r.degree = 10 ∧
    (((AnyRule.midpoint r).value (F64.zero false) (lit 1.0) fun y => F64.mul y y).isFinite = true ∧
      |((((AnyRule.midpoint r).value (F64.zero false) (lit 1.0) fun y => F64.mul y y).val : ℝ)) - 1 / 3| ≤ 9 / 10 ^ 4) ∧
    (((AnyRule.trapezoid r).value (F64.zero false) (lit 1.0) fun y => F64.mul y y).isFinite = true ∧
      |((((AnyRule.trapezoid r).value (F64.zero false) (lit 1.0) fun y => F64.mul y y).val : ℝ)) - 1 / 3| ≤ 17 / 10 ^ 4) ∧
    (((AnyRule.simpson r).value (F64.zero false) (lit 1.0) fun y => F64.mul y y).isFinite = true ∧
      |((((AnyRule.simpson r).value (F64.zero false) (lit 1.0) fun y => F64.mul y y).val : ℝ)) - 1 / 3| ≤ 2 / 10 ^ 14) := by
  have h1 : (((lit 1.0 : F64)).val : ℝ) = 1 := by rw [(lit_one_isNat (L := L)).2]; norm_num
  have h0 : ((F64.zero false).val : ℝ) = 0 := by rw [val_zero]; simp
  refine ⟨⟨10, by norm_num, by norm_num⟩, rfl, ?_⟩
  have a0 := (zero_isFinite false)
  have a1 := (lit_one_isNat (L := L)).1
  have sq : Computes (fun y => F64.mul y y) (fun t => t ^ 2) (around (F64.zero false).val ((lit 1.0 : F64)).val (4 / 10 ^ 15 * 1 + 1 / 2 ^ 1000)) 1.1 2.1 (1 / 10 ^ 15) := by
    rw [h0, h1]; exact square_computes
  obtain ⟨⟨m1, m2⟩, -⟩ := C58_midpoint ⟨10, by norm_num, by norm_num⟩ (F64.zero false) (lit 1.0) (fun y => F64.mul y y) (fun t => t ^ 2) 1 1.1 2.1 (1 / 10 ^ 15) a0 a1
    (by rw [h0]; norm_num) (by rw [h1]; norm_num) (by norm_num) sq (by norm_num) (by norm_num)
  obtain ⟨⟨t1, t2⟩, -⟩ := C58_trapezoid ⟨10, by norm_num, by norm_num⟩ (F64.zero false) (lit 1.0) (fun y => F64.mul y y) (fun t => t ^ 2) 1 1.1 2.1 (1 / 10 ^ 15) a0 a1
    (by rw [h0]; norm_num) (by rw [h1]; norm_num) (by norm_num) sq (by norm_num) (by norm_num)
  obtain ⟨⟨s1, s2⟩, -⟩ := C58_simpson ⟨10, by norm_num, by norm_num⟩ (F64.zero false) (lit 1.0) (fun y => F64.mul y y) (fun t => t ^ 2) 1 1.1 2.1 (1 / 10 ^ 15) a0 a1
    (by rw [h0]; norm_num) (by rw [h1]; norm_num) (by norm_num) sq (by norm_num) (by norm_num)
  refine ⟨⟨m1, ?_⟩, ⟨t1, ?_⟩, s1, ?_⟩
  all_goals simp only [h0, h1, Finset.sum_range_succ, Finset.sum_range_zero] at m2 t2 s2
  all_goals norm_num at m2 t2 s2
  · rw [_root_.abs_le] at m2 ⊢
    constructor <;> linarith
  · rw [_root_.abs_le] at t2 ⊢
    constructor <;> linarith
  · rw [_root_.abs_le] at s2 ⊢
    constructor <;> linarith

end GaussQuad.Props
