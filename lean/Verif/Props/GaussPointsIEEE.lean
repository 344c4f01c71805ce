import Verif.Props.LegendreF64Order
import Verif.Props.ChebyshevF64
import Verif.Props.Protocol
import Verif.Proofs.F64Integrate
import Verif.Proofs.F64Outside
import Verif.Proofs.F64Monotone
import Verif.Proofs.F64Overflow

/-!
# C110: where the Gauss rules evaluate the integrand in binary64

`argument_transformation` of Gauss-Legendre (`/repo/src/legendre/mod.rs:113-115`) and of both Gauss-Chebyshev rules (`/repo/src/chebyshev/mod.rs:61-63` and `187-189`), with all roundings.
-/

set_option exponentiation.threshold 3000

namespace GaussQuad.Props
open Spec FloatOps F64

/-- the transformation used by the rules with bounds -/
abbrev argT [Libm] (a b x : F64) : F64 := lit 0.5 *ᶠ ((b -ᶠ a) *ᶠ x +ᶠ (b +ᶠ a))

section
variable [Libm]

theorem argT_inside {a b x : F64} {B δ : ℝ} (ha : a.isFinite = true) (hb : b.isFinite = true) (haB : |a.rv| ≤ B) (hbB : |b.rv| ≤ B) (hB : B ≤ 2 ^ 400)
    (hx : x.isFinite = true) (hX : |x.rv| ≤ 1 - δ) (hδ : 0 ≤ δ) (hab : a.rv < b.rv) (h : 12 * U * B + 2 / 2 ^ 1000 < δ * (b.rv - a.rv)) :
    (argT a b x).isFinite = true ∧ a.rv < (argT a b x).rv ∧ (argT a b x).rv < b.rv := by
  have h1 := argT_near (δ := 0) ha hb haB hbB hB (near_self hx) (by linarith) (by norm_num)
  have h2 := _root_.abs_le.1 h1.2
  have h3 := _root_.abs_le.1 hX
  refine ⟨h1.1, ?_, ?_⟩
  · have : 0 ≤ (b.rv - a.rv) * (x.rv + 1 - δ) := mul_nonneg (by linarith) (by linarith)
    have h4 := h2.1
    show a.rv < (lit 0.5 *ᶠ ((b -ᶠ a) *ᶠ x +ᶠ (b +ᶠ a)) : F64).rv
    linarith
  · have : 0 ≤ (b.rv - a.rv) * (1 - δ - x.rv) := mul_nonneg (by linarith) (by linarith)
    have h4 := h2.2
    show (lit 0.5 *ᶠ ((b -ᶠ a) *ᶠ x +ᶠ (b +ᶠ a)) : F64).rv < b.rv
    linarith

/-- all transformed nodes of a list with a margin of `0.49/(n+1)^2` -/
theorem inside_of_margin {L : List (F64 × F64)} {n : ℕ} (hL : ∀ p ∈ L, p.1.isFinite = true ∧ |p.1.rv| ≤ 1 - 0.49 / ((n : ℝ) + 1) ^ 2) {a b : F64} {B : ℝ} (ha : a.isFinite = true)
    (hb : b.isFinite = true) (haB : |(a.val : ℝ)| ≤ B) (hbB : |(b.val : ℝ)| ≤ B) (hB : B ≤ 2 ^ 400) (hB0 : 1 / 2 ^ 900 ≤ B) (h : B * ((n : ℝ) + 1) ^ 2 ≤ 2 ^ 48 * (b.val - a.val)) :
    ∀ x ∈ L.map (fun p => argT a b p.1), x.isFinite = true ∧ a.val < x.val ∧ x.val < b.val := by
  intro x hx
  obtain ⟨p, hp, rfl⟩ := List.mem_map.1 hx
  obtain ⟨h1, h2⟩ := hL p hp
  have hN : (0 : ℝ) < ((n : ℝ) + 1) ^ 2 := by positivity
  have hBp : 0 < B := lt_of_lt_of_le (by positivity) hB0
  have h3 : B / 2 ^ 48 ≤ (b.rv - a.rv) / ((n : ℝ) + 1) ^ 2 := by
    rw [div_le_div_iff₀ (by positivity) hN]
    have : b.rv - a.rv = (b.val : ℝ) - a.val := rfl
    linarith
  have hab : a.rv < b.rv := by
    have : 0 < (b.rv - a.rv) / ((n : ℝ) + 1) ^ 2 := lt_of_lt_of_le (by positivity) h3
    have := (div_pos_iff_of_pos_right hN).1 this
    linarith
  obtain ⟨e1, e2, e3⟩ := argT_inside (δ := 0.49 / ((n : ℝ) + 1) ^ 2) ha hb haB hbB hB h1 h2 (by positivity) hab (by
    have e : 0.49 / ((n : ℝ) + 1) ^ 2 * (b.rv - a.rv) = 0.49 * ((b.rv - a.rv) / ((n : ℝ) + 1) ^ 2) := by ring
    rw [e]
    have h4 : (2 : ℝ) / 2 ^ 1000 ≤ 1 / 2 ^ 53 * (1 / 2 ^ 900) := by norm_num
    have h5 : 1 / 2 ^ 53 * (1 / 2 ^ 900) ≤ U * B := by unfold U; gcongr
    have h6 : B / 2 ^ 48 = 32 * (U * B) := by unfold U; ring
    have h7 : 0 < U * B := mul_pos U_pos hBp
    rw [h6] at h3
    nlinarith)
  refine ⟨e1, ?_, ?_⟩
  · rw [rv, rv] at e2; exact_mod_cast e2
  · rw [rv, rv] at e3; exact_mod_cast e3

/-- one node close to -1 is enough for a point below the interval -/
theorem outside_of_first {L : List (F64 × F64)} {n m : ℕ} (hL : ∃ p ∈ L, p.1.isFinite = true ∧ -1 ≤ p.1.rv ∧ p.1.rv ≤ -1 + 5 / ((n : ℝ) + 1) ^ 2) {a b : F64} (ha : a.isFinite = true)
    (hb : b.isFinite = true) (hav : a.val = 1) (hbv : b.val = 1 + m / 2 ^ 52) (hm4 : m % 4 = 1) (hm : m < 2 ^ 50) (hmn : 20 * m ≤ (n + 1) ^ 2) :
    ∃ x ∈ L.map (fun p => argT a b p.1), x.isFinite = true ∧ x.val = 1 - 1 / 2 ^ 53 := by
  obtain ⟨p, hp, h1, h2, h3⟩ := hL
  have h4 : (20 : ℝ) * m ≤ ((n : ℝ) + 1) ^ 2 := by exact_mod_cast hmn
  refine ⟨_, List.mem_map.2 ⟨p, hp, rfl⟩, argT_outside ha hb h1 hav hbv hm4 hm ?_ ?_⟩
  · rw [rv] at h2; exact_mod_cast h2
  · have : (m : ℝ) * (1 + p.1.rv) ≤ 1 / 4 := by
      have h5 : (m : ℝ) * (1 + p.1.rv) ≤ m * (5 / ((n : ℝ) + 1) ^ 2) := mul_le_mul_of_nonneg_left (by linarith) (Nat.cast_nonneg m)
      refine h5.trans ?_
      rw [mul_div_assoc', div_le_iff₀ (by positivity)]
      linarith
    rw [rv] at this
    have h6 : (((m : ℚ) * (1 + p.1.val) : ℚ) : ℝ) ≤ ((1 / 4 : ℚ) : ℝ) := by push_cast; linarith
    exact_mod_cast h6

end

/-- binary64 nodes of Gauss-Legendre: margin at both ends, and the first one -/
theorem legendre_margin [L : Libm] (hL : AccurateTrig L) (mode : Overflow) {n : ℕ} (hn : 0 < n) (h6 : n ≤ 10 ^ 6) :
    ∃ r : Rule F64, GaussLegendre.new mode n = some r ∧ (∀ p ∈ r.nodeWeightPairs, p.1.isFinite = true ∧ |p.1.rv| ≤ 1 - 0.49 / ((n : ℝ) + 1) ^ 2) ∧
      (2 ≤ n → ∃ p ∈ r.nodeWeightPairs, p.1.isFinite = true ∧ -1 ≤ p.1.rv ∧ p.1.rv ≤ -1 + 5 / ((n : ℝ) + 1) ^ 2) := by
  have hlt : n + 1 < 2 ^ 64 := by omega
  obtain ⟨θ, w, h, hr⟩ := legendre_pairs mode hn hlt
  obtain ⟨r', hr', hclose⟩ := legendre_f64_close hL mode hlt hr
  have hlen : r'.nodeWeightPairs.length = n := by
    have := hclose.length_eq
    simpa [Rule.asNodeWeightPairs, length_rangeRev] using this
  have hget := List.forall₂_iff_get.1 hclose
  have hU := U_pos
  have hix : ∀ i (hi : i < n), Near (r'.nodeWeightPairs[i]'(by omega)).1 (Real.cos (θ (n - i))) (23 * U) := by
    intro i hi
    have := hget.2 i (by simpa [Rule.asNodeWeightPairs, hlen] using hi) (by rw [← hget.1]; simpa [Rule.asNodeWeightPairs, hlen] using hi)
    simp only [List.get_eq_getElem] at this
    have e : (Rule.asNodeWeightPairs (⟨(rangeRev (n + 1)).map fun k => (Real.cos (θ k), w k)⟩ : Rule ℝ))[i]'(by rw [← hget.1]; simpa [Rule.asNodeWeightPairs, hlen] using hi) =
        (Real.cos (θ (n - i)), w (n - i)) := by
      simp only [Rule.asNodeWeightPairs, List.getElem_map]
      have := getElem_rangeRev (hi := n + 1) (i := i) (by rw [length_rangeRev]; omega)
      rw [this]; rfl
    rw [e] at this
    exact this.1
  have hn1 : (1 : ℝ) ≤ n := by exact_mod_cast hn
  have hn6 : (n : ℝ) ≤ 10 ^ 6 := by exact_mod_cast h6
  have hsm : 23 * U ≤ 0.01 / ((n : ℝ) + 1) ^ 2 := by
    rw [le_div_iff₀ (by positivity)]
    have : ((n : ℝ) + 1) ^ 2 ≤ (10 ^ 6 + 1) ^ 2 := by gcongr
    have h2 := mul_le_mul_of_nonneg_left this (show 0 ≤ 23 * U by positivity)
    refine h2.trans ?_
    unfold U; norm_num
  have hNN : (0 : ℝ) < ((n : ℝ) + 1) ^ 2 := by positivity
  have hedge : 0.5 / ((n : ℝ) + 1) ^ 2 ≤ 1.05 / ((n : ℝ) + 1 / 2) ^ 2 := by gcongr <;> linarith
  have hspl : 0.5 / ((n : ℝ) + 1) ^ 2 = 0.49 / ((n : ℝ) + 1) ^ 2 + 0.01 / ((n : ℝ) + 1) ^ 2 := by ring
  have hmar : ∀ p ∈ r'.nodeWeightPairs, p.1.isFinite = true ∧ |p.1.rv| ≤ 1 - 0.49 / ((n : ℝ) + 1) ^ 2 := by
    intro p hp
    obtain ⟨i, hi, rfl⟩ := List.getElem_of_mem hp
    obtain ⟨h0, h1⟩ := hix i (by omega)
    have h1 := _root_.abs_le.1 h1
    obtain ⟨e1, e2⟩ := h.edge (k := n - i) (by omega) (by omega)
    exact ⟨h0, _root_.abs_le.2 ⟨by linarith, by linarith⟩⟩
  refine ⟨r', hr', hmar, fun h2 => ⟨r'.nodeWeightPairs[0]'(by omega), List.getElem_mem _, ?_⟩⟩
  obtain ⟨h0, h1⟩ := hmar _ (List.getElem_mem (show 0 < r'.nodeWeightPairs.length by omega))
  refine ⟨h0, ?_, ?_⟩
  · have := (_root_.abs_le.1 h1).1
    have : 0 ≤ 0.49 / ((n : ℝ) + 1) ^ 2 := by positivity
    linarith
  · have e0 := _root_.abs_le.1 (hix 0 hn).2
    rw [Nat.sub_zero] at e0
    have e1 := _root_.abs_le.1 (h.near (k := n) (by omega) le_rfl)
    obtain ⟨r1, r2⟩ := h.range (k := n) (by omega) le_rfl
    have hp := Real.pi_lt_d6
    have hN : (0 : ℝ) < n + 1 / 2 := by positivity
    have h22 : (2 : ℝ) ≤ n := by exact_mod_cast h2
    have t1 : Real.pi - θ n ≤ 2.4163 / (n + 1 / 2) := by
      rw [le_div_iff₀ hN]; nlinarith
    have t2 : 1 + Real.cos (θ n) ≤ (2.4163 / ((n : ℝ) + 1 / 2)) ^ 2 / 2 := by
      have := Real.one_sub_sq_div_two_le_cos (x := Real.pi - θ n)
      rw [Real.cos_pi_sub] at this
      have h3 : (Real.pi - θ n) ^ 2 ≤ (2.4163 / ((n : ℝ) + 1 / 2)) ^ 2 := by
        have : 0 ≤ Real.pi - θ n := by linarith
        gcongr
      linarith
    have t3 : (2.4163 / ((n : ℝ) + 1 / 2)) ^ 2 / 2 ≤ 4.99 / ((n : ℝ) + 1) ^ 2 := by
      rw [div_pow, div_div, div_le_div_iff₀ (by positivity) hNN]
      nlinarith
    have t4 : 5 / ((n : ℝ) + 1) ^ 2 = 4.99 / ((n : ℝ) + 1) ^ 2 + 0.01 / ((n : ℝ) + 1) ^ 2 := by ring
    linarith

/-- the same for the two Chebyshev rules, from the position of their nodes -/
theorem chebyshev_margin [Libm] {R : List (F64 × F64)} {n N : ℕ} (hN : n = N ∨ n + 1 = N) (hn : 0 < n) (h6 : n ≤ 10 ^ 6) (hlen : R.length = n) (k : ℕ → ℕ) (hk : ∀ i < n, 0 < k i ∧ k i < 2 * N)
    (hk0 : k 0 + 1 = 2 * N ∧ n = N ∨ k 0 + 2 = 2 * N ∧ n + 1 = N)
    (hnear : ∀ i (hi : i < n), (R[i]'(by omega)).1.isFinite = true ∧ |((R[i]'(by omega)).1.val : ℝ) - Real.cos (Real.pi * (k i : ℝ) / (2 * N))| ≤ 1.5 / 10 ^ 15) :
    (∀ p ∈ R, p.1.isFinite = true ∧ |p.1.rv| ≤ 1 - 0.49 / ((n : ℝ) + 1) ^ 2) ∧ ∃ p ∈ R, p.1.isFinite = true ∧ -1 ≤ p.1.rv ∧ p.1.rv ≤ -1 + 5 / ((n : ℝ) + 1) ^ 2 := by
  have hn1 : (1 : ℝ) ≤ n := by exact_mod_cast hn
  have hn6 : (n : ℝ) ≤ 10 ^ 6 := by exact_mod_cast h6
  have hNN : (0 : ℝ) < ((n : ℝ) + 1) ^ 2 := by positivity
  have hsm : (1.5 : ℝ) / 10 ^ 15 ≤ 0.01 / ((n : ℝ) + 1) ^ 2 := by
    rw [le_div_iff₀ (by positivity)]
    have : ((n : ℝ) + 1) ^ 2 ≤ (10 ^ 6 + 1) ^ 2 := by gcongr
    have h2 := mul_le_mul_of_nonneg_left this (show (0 : ℝ) ≤ 1.5 / 10 ^ 15 by positivity)
    refine h2.trans ?_
    norm_num
  have hN0 : (0 : ℝ) < N := by exact_mod_cast (by omega : 0 < N)
  have hNle : (N : ℝ) ≤ n + 1 := by exact_mod_cast (by omega : N ≤ n + 1)
  have hedge : 0.5 / ((n : ℝ) + 1) ^ 2 ≤ 1 / (2 * (N : ℝ) ^ 2) := by
    rw [show (1 : ℝ) / (2 * (N : ℝ) ^ 2) = 0.5 / (N : ℝ) ^ 2 by rw [div_eq_div_iff (by positivity) (by positivity)]; ring]
    gcongr
  have hspl : 0.5 / ((n : ℝ) + 1) ^ 2 = 0.49 / ((n : ℝ) + 1) ^ 2 + 0.01 / ((n : ℝ) + 1) ^ 2 := by ring
  have hmar : ∀ p ∈ R, p.1.isFinite = true ∧ |p.1.rv| ≤ 1 - 0.49 / ((n : ℝ) + 1) ^ 2 := by
    intro p hp
    obtain ⟨i, hi, rfl⟩ := List.getElem_of_mem hp
    obtain ⟨h0, h1⟩ := hnear i (by omega)
    have h1 := _root_.abs_le.1 h1
    obtain ⟨e1, e2⟩ := cos_edge (N := N) (m := k i) (hk i (by omega)).1 (hk i (by omega)).2
    refine ⟨h0, _root_.abs_le.2 ⟨?_, ?_⟩⟩
    · rw [rv]; linarith
    · rw [rv]; linarith
  refine ⟨hmar, R[0]'(by omega), List.getElem_mem _, ?_⟩
  obtain ⟨h0, h1⟩ := hmar _ (List.getElem_mem (show 0 < R.length by omega))
  have hq : 0 ≤ 0.49 / ((n : ℝ) + 1) ^ 2 := by positivity
  refine ⟨h0, by linarith [(_root_.abs_le.1 h1).1], ?_⟩
  have e0 := _root_.abs_le.1 (hnear 0 hn).2
  have hp := Real.pi_lt_d6
  have hp0 := Real.pi_pos
  have key : 1 + Real.cos (Real.pi * (k 0 : ℝ) / (2 * N)) ≤ 4.99 / ((n : ℝ) + 1) ^ 2 := by
    have hc : Real.cos (Real.pi * (k 0 : ℝ) / (2 * N)) = -Real.cos (Real.pi - Real.pi * (k 0 : ℝ) / (2 * N)) := by rw [Real.cos_pi_sub, neg_neg]
    have := Real.one_sub_sq_div_two_le_cos (x := Real.pi - Real.pi * (k 0 : ℝ) / (2 * N))
    rw [hc]
    rcases hk0 with ⟨h2, h3⟩ | ⟨h2, h3⟩
    · have e : (k 0 : ℝ) = 2 * N - 1 := by have : ((k 0 + 1 : ℕ) : ℝ) = (2 * N : ℕ) := by rw [h2]
                                           push_cast at this; linarith
      have e2 : Real.pi - Real.pi * (k 0 : ℝ) / (2 * N) = Real.pi / (2 * N) := by rw [e]; field_simp; ring
      rw [e2] at this ⊢
      have h4 : (Real.pi / (2 * N)) ^ 2 / 2 ≤ 4.99 / ((n : ℝ) + 1) ^ 2 := by
        subst h3
        rw [div_pow, div_div, div_le_div_iff₀ (by positivity) hNN]
        have : Real.pi ^ 2 ≤ 3.1416 ^ 2 := by gcongr; linarith
        have h5 : ((n : ℝ) + 1) ^ 2 ≤ (2 * n) ^ 2 := by gcongr; linarith
        nlinarith [mul_le_mul this h5 (by positivity) (by positivity)]
      linarith
    · have e : (k 0 : ℝ) = 2 * N - 2 := by have : ((k 0 + 2 : ℕ) : ℝ) = (2 * N : ℕ) := by rw [h2]
                                           push_cast at this; linarith
      have e2 : Real.pi - Real.pi * (k 0 : ℝ) / (2 * N) = Real.pi / N := by rw [e]; field_simp; ring
      rw [e2] at this ⊢
      have h4 : (Real.pi / N) ^ 2 / 2 ≤ 4.99 / ((n : ℝ) + 1) ^ 2 := by
        have h3' : (N : ℝ) = n + 1 := by rw [← h3]; push_cast; rfl
        rw [h3', div_pow, div_div, div_le_div_iff₀ (by positivity) hNN]
        have : Real.pi ^ 2 ≤ 3.1416 ^ 2 := by gcongr; linarith
        nlinarith
      linarith
  have t4 : 5 / ((n : ℝ) + 1) ^ 2 = 4.99 / ((n : ℝ) + 1) ^ 2 + 0.01 / ((n : ℝ) + 1) ^ 2 := by ring
  rw [rv]
  linarith

theorem chebyshev1_margin [L : Libm] (hL : AccurateTrig L) (mode : Overflow) {n : ℕ} (hn : 0 < n) (h6 : n ≤ 10 ^ 6) :
    ∃ r : Rule F64, GaussChebyshevFirstKind.new mode n = some r ∧ (∀ p ∈ r.nodeWeightPairs, p.1.isFinite = true ∧ |p.1.rv| ≤ 1 - 0.49 / ((n : ℝ) + 1) ^ 2) ∧
      ∃ p ∈ r.nodeWeightPairs, p.1.isFinite = true ∧ -1 ≤ p.1.rv ∧ p.1.rv ≤ -1 + 5 / ((n : ℝ) + 1) ^ 2 := by
  obtain ⟨r, h1, hlen, h2, -⟩ := C56_first_kind hL mode hn (by omega)
  refine ⟨r, h1, chebyshev_margin (N := n) (Or.inl rfl) hn h6 hlen (fun i => 2 * (n - i) - 1) (fun i hi => by constructor <;> omega) (Or.inl ⟨by omega, rfl⟩) fun i hi => ?_⟩
  obtain ⟨e1, -, e2, -⟩ := h2 i hi
  refine ⟨e1, ?_⟩
  rw [Nat.cast_sub (by omega)]
  push_cast
  refine e2.trans (by norm_num)

theorem chebyshev2_margin [L : Libm] (hL : AccurateTrig L) (hS : AccurateSin L) (mode : Overflow) {n : ℕ} (hn : 0 < n) (h6 : n ≤ 10 ^ 6) :
    ∃ r : Rule F64, GaussChebyshevSecondKind.new mode n = some r ∧ (∀ p ∈ r.nodeWeightPairs, p.1.isFinite = true ∧ |p.1.rv| ≤ 1 - 0.49 / ((n : ℝ) + 1) ^ 2) ∧
      ∃ p ∈ r.nodeWeightPairs, p.1.isFinite = true ∧ -1 ≤ p.1.rv ∧ p.1.rv ≤ -1 + 5 / ((n : ℝ) + 1) ^ 2 := by
  obtain ⟨r, h1, hlen, h2, -⟩ := C56_second_kind hL hS mode hn (by omega)
  refine ⟨r, h1, chebyshev_margin (N := n + 1) (Or.inr rfl) hn h6 hlen (fun i => 2 * (n - i)) (fun i hi => by constructor <;> omega) (Or.inr ⟨by omega, rfl⟩) fun i hi => ?_⟩
  obtain ⟨e1, -, e2, -⟩ := h2 i hi
  refine ⟨e1, ?_⟩
  have e : Real.pi * ((2 * (n - i) : ℕ) : ℝ) / (2 * ((n + 1 : ℕ) : ℝ)) = Real.pi * (n - i : ℕ) / (n + 1) := by push_cast; field_simp
  rw [e]
  exact e2

/-- a sum of the bounds that overflows puts every transformed node at +∞ -/
theorem argT_overflow [Libm] {a b x : F64} (ha : a.isFinite = true) (hb : b.isFinite = true) (ha0 : 0 < a.val) (hb0 : 0 < b.val) (hab : overflowThreshold ≤ a.val + b.val)
    (hx : x.isFinite = true) (hx1 : |x.rv| ≤ 1) : argT a b x = F64.inf false := by
  have hx2 : |x.val| ≤ 1 := by rw [rv] at hx1; exact_mod_cast hx1
  obtain ⟨hx3, hx4⟩ := _root_.abs_le.1 hx2
  have hna : (F64.neg a).isFinite = true := by rwa [neg_isFinite]
  have hva : (F64.neg a).val = -a.val := val_neg' a
  -- the difference lies between the bounds
  have hd : (F64.sub b a).isFinite = true ∧ -a.val ≤ (F64.sub b a).val ∧ (F64.sub b a).val ≤ b.val := by
    rw [sub_finite hb ha, ← hva]
    exact round_between hna hb (by rw [hva]; linarith) (by linarith)
  have hm : (F64.mul (F64.sub b a) x).isFinite = true := by
    rw [mul_finite hd.1 hx, round_isFinite_iff, abs_mul]
    have h1 := val_lt_threshold hd.1
    have h2 := mul_le_mul_of_nonneg_left hx2 (abs_nonneg (F64.sub b a).val)
    linarith
  have hs : F64.add b a = F64.inf false := by
    have hq : b.val + a.val ≠ 0 := by linarith
    have h0 : (F64.add b a).isFinite = false := by
      rw [add_finite hb ha]
      cases h : (F64.round (b.val + a.val) (b.sign && a.sign)).isFinite
      · rfl
      · rw [round_isFinite_iff, abs_of_pos (by linarith)] at h
        linarith
    rw [add_finite hb ha] at h0 ⊢
    rcases round_correct hq (b.sign && a.sign) with ⟨h1, ⟨-, h2⟩ | ⟨-, h2, -⟩⟩
    · rw [F64.eq_inf h2]
      congr 1
      cases h : (F64.round (b.val + a.val) (b.sign && a.sign)).sign
      · rfl
      · rw [h] at h1; simp at h1; linarith
    · rw [h2] at h0; exact absurd h0 (by simp)
  have hsum : F64.add (F64.mul (F64.sub b a) x) (F64.add b a) = F64.inf false := by
    rw [hs]
    unfold F64.add
    rw [isNaN_of_finite hm, isInf_of_finite hm, F64.inf_isNaN, F64.inf_isInf]; rfl
  have hh : (lit 0.5 : F64).isFinite = true ∧ (0 : ℚ) < (lit 0.5 : F64).val := by
    obtain ⟨h1, h2⟩ := lit_half_rel
    refine ⟨h1, ?_⟩
    have h3 : (lit 0.5 : F64).rv = 1 / 2 := by simpa [sub_eq_zero] using h2
    rw [rv] at h3
    have : (0 : ℝ) < (lit 0.5 : F64).val := by rw [h3]; norm_num
    exact_mod_cast this
  show F64.mul (lit 0.5) (F64.add (F64.mul (F64.sub b a) x) (F64.add b a)) = F64.inf false
  rw [hsum]
  obtain ⟨h1, h2⟩ := mul_pos_inf hh.1 hh.2 (F64.inf_isInf false) rfl
  rw [F64.eq_inf h1, h2]

/-- **C110 (inside).**  An interval that is not too short for the degree: all three rules evaluate the integrand at finite points strictly between the bounds. -/
theorem C110_inside [L : Libm] (hL : AccurateTrig L) (hS : AccurateSin L) (mode : Overflow) {n : ℕ} (hn : 0 < n) (h6 : n ≤ 10 ^ 6) :
    ∃ r r1 r2 : Rule F64, GaussLegendre.new mode n = some r ∧ GaussChebyshevFirstKind.new mode n = some r1 ∧ GaussChebyshevSecondKind.new mode n = some r2 ∧
      ∀ R ∈ [AnyRule.legendre r, .chebyshevFirst r1, .chebyshevSecond r2], ∀ (a b : F64) (B : ℝ), a.isFinite = true → b.isFinite = true →
        |(a.val : ℝ)| ≤ B → |(b.val : ℝ)| ≤ B → 1 / 2 ^ 900 ≤ B → B ≤ 2 ^ 400 → B * ((n : ℝ) + 1) ^ 2 ≤ 2 ^ 48 * (b.val - a.val) →
        ∀ x ∈ points a b R, x.isFinite = true ∧ a.val < x.val ∧ x.val < b.val := by
  obtain ⟨r, h1, h2, -⟩ := legendre_margin hL mode hn h6
  obtain ⟨r1, h3, h4, -⟩ := chebyshev1_margin hL mode hn h6
  obtain ⟨r2, h5, h7, -⟩ := chebyshev2_margin hL hS mode hn h6
  refine ⟨r, r1, r2, h1, h3, h5, fun R hR a b B ha hb haB hbB hB0 hB h => ?_⟩
  simp only [List.mem_cons, List.not_mem_nil, or_false] at hR
  rcases hR with rfl | rfl | rfl
  · exact inside_of_margin h2 ha hb haB hbB hB hB0 h
  · exact inside_of_margin h4 ha hb haB hbB hB hB0 h
  · exact inside_of_margin h7 ha hb haB hbB hB hB0 h

/-- **C110 (outside).**  The condition cannot be dropped: between 1 and `1 + m 2^-52`, with `m = 4k + 1` at most a twentieth of `(n+1)^2`, all three rules evaluate the integrand at `1 - 2^-53`. -/
theorem C110_outside [L : Libm] (hL : AccurateTrig L) (hS : AccurateSin L) (mode : Overflow) {n : ℕ} (hn : 0 < n) (h6 : n ≤ 10 ^ 6) :
    ∃ r r1 r2 : Rule F64, GaussLegendre.new mode n = some r ∧ GaussChebyshevFirstKind.new mode n = some r1 ∧ GaussChebyshevSecondKind.new mode n = some r2 ∧
      ∀ R ∈ [AnyRule.legendre r, .chebyshevFirst r1, .chebyshevSecond r2], ∀ (a b : F64) (k : ℕ), a.isFinite = true → b.isFinite = true → a.val = 1 →
        b.val = 1 + (4 * k + 1) / 2 ^ 52 → 20 * (4 * k + 1) ≤ (n + 1) ^ 2 → ∃ x ∈ points a b R, x.isFinite = true ∧ x.val = 1 - 1 / 2 ^ 53 := by
  obtain ⟨r, h1, -, h2⟩ := legendre_margin hL mode hn h6
  obtain ⟨r1, h3, -, h4⟩ := chebyshev1_margin hL mode hn h6
  obtain ⟨r2, h5, -, h7⟩ := chebyshev2_margin hL hS mode hn h6
  refine ⟨r, r1, r2, h1, h3, h5, fun R hR a b k ha hb hav hbv hk => ?_⟩
  have hn2 : 2 ≤ n := by nlinarith
  have hm : 4 * k + 1 < 2 ^ 50 := by
    have : (n + 1) ^ 2 ≤ (10 ^ 6 + 1) ^ 2 := Nat.pow_le_pow_left (by omega) 2
    have h8 : (10 ^ 6 + 1) ^ 2 < 2 ^ 50 := by norm_num
    omega
  have hbv' : b.val = 1 + ((4 * k + 1 : ℕ) : ℚ) / 2 ^ 52 := by rw [hbv]; push_cast; rfl
  simp only [List.mem_cons, List.not_mem_nil, or_false] at hR
  rcases hR with rfl | rfl | rfl
  · exact outside_of_first (h2 hn2) ha hb hav hbv' (by omega) hm hk
  · exact outside_of_first h4 ha hb hav hbv' (by omega) hm hk
  · exact outside_of_first h7 ha hb hav hbv' (by omega) hm hk

/-- **C110 (overflow).**  Positive finite bounds whose sum overflows: every point is +∞, and the result is the one for the constant integrand `f(+∞)`, whatever `f` does between the bounds. -/
theorem C110_overflow [L : Libm] (hL : AccurateTrig L) (hS : AccurateSin L) (mode : Overflow) {n : ℕ} (hn : 0 < n) (h6 : n ≤ 10 ^ 6) :
    ∃ r r1 r2 : Rule F64, GaussLegendre.new mode n = some r ∧ GaussChebyshevFirstKind.new mode n = some r1 ∧ GaussChebyshevSecondKind.new mode n = some r2 ∧
      ∀ R ∈ [AnyRule.legendre r, .chebyshevFirst r1, .chebyshevSecond r2], ∀ a b : F64, a.isFinite = true → b.isFinite = true → 0 < a.val → 0 < b.val →
        overflowThreshold ≤ a.val + b.val → (∀ x ∈ points a b R, x = F64.inf false) ∧ ∀ f : F64 → F64, R.value a b f = R.value a b fun _ => f (F64.inf false) := by
  have mar : ∀ {x : F64}, |x.rv| ≤ 1 - 0.49 / ((n : ℝ) + 1) ^ 2 → |x.rv| ≤ 1 := fun h => h.trans (by
    have : 0 ≤ 0.49 / ((n : ℝ) + 1) ^ 2 := by positivity
    linarith)
  obtain ⟨r, h1, h2, -⟩ := legendre_margin hL mode hn h6
  obtain ⟨r1, h3, h4, -⟩ := chebyshev1_margin hL mode hn h6
  obtain ⟨r2, h5, h7, -⟩ := chebyshev2_margin hL hS mode hn h6
  refine ⟨r, r1, r2, h1, h3, h5, fun R hR a b ha hb ha0 hb0 hab => ?_⟩
  have key : ∀ x ∈ points a b R, x = F64.inf false := by
    simp only [List.mem_cons, List.not_mem_nil, or_false] at hR
    rcases hR with rfl | rfl | rfl <;> intro x hx <;> obtain ⟨p, hp, rfl⟩ := List.mem_map.1 hx
    · exact argT_overflow ha hb ha0 hb0 hab (h2 p hp).1 (mar (h2 p hp).2)
    · exact argT_overflow ha hb ha0 hb0 hab (h4 p hp).1 (mar (h4 p hp).2)
    · exact argT_overflow ha hb ha0 hb0 hab (h7 p hp).1 (mar (h7 p hp).2)
  refine ⟨key, fun f => ?_⟩
  rw [C15_value, C15_value]
  congr 1
  exact List.map_congr_left fun x hx => by rw [key x hx]

/-- `C110_inside`: a thousand nodes on `[1, 1 + 2^-20]` -/
example : ∃ (L : Libm) (_ : AccurateTrig L) (_ : AccurateSin L) (r : Rule F64) (a b : F64), @GaussLegendre.new F64 (f64Ops) .wrapping 1000 = some r ∧ a.val = 1 ∧ b.val = 1 + 1 / 2 ^ 20 ∧
    ∀ x ∈ points a b (.legendre r), x.isFinite = true ∧ 1 < x.val ∧ x.val < 1 + 1 / 2 ^ 20 := by
  obtain ⟨L, hL, hS⟩ := accurateTrigSin_exists
  obtain ⟨a, ha, hav⟩ := exists_dyadic (m := 1) (j := 0) (by norm_num) (by norm_num) false
  obtain ⟨b, hb, hbv⟩ := exists_dyadic (m := 2 ^ 20 + 1) (j := 20) (by norm_num) (by norm_num) false
  norm_num at hav hbv
  obtain ⟨r, r1, r2, h1, -, -, h⟩ := C110_inside hL hS .wrapping (n := 1000) (by norm_num) (by norm_num)
  refine ⟨L, hL, hS, r, a, b, h1, hav, by rw [hbv]; norm_num, fun x hx => ?_⟩
  have := h (.legendre r) (by simp) a b 2 ha hb (by rw [hav]; norm_num) (by rw [hbv]; norm_num) (by norm_num) (by norm_num) (by rw [hav, hbv]; norm_num) x hx
  rw [hav, hbv] at this
  norm_num at this ⊢
  exact this

/-- `C110_outside`: ten nodes between 1 and 1 + 2^-52, or between 1 and 1 + 5·2^-52 -/
example : ∃ (L : Libm) (_ : AccurateTrig L) (_ : AccurateSin L) (r : Rule F64) (a b : F64), @GaussLegendre.new F64 (f64Ops) .wrapping 10 = some r ∧ a.val = 1 ∧ b.val = 1 + 5 / 2 ^ 52 ∧
    ∃ x ∈ points a b (.legendre r), x.isFinite = true ∧ x.val = 1 - 1 / 2 ^ 53 := by
  obtain ⟨L, hL, hS⟩ := accurateTrigSin_exists
  obtain ⟨a, ha, hav⟩ := exists_dyadic (m := 1) (j := 0) (by norm_num) (by norm_num) false
  obtain ⟨b, hb, hbv⟩ := exists_dyadic (m := 2 ^ 52 + 5) (j := 52) (by norm_num) (by norm_num) false
  norm_num at hav hbv
  obtain ⟨r, r1, r2, h1, -, -, h⟩ := C110_outside hL hS .wrapping (n := 10) (by norm_num) (by norm_num)
  refine ⟨L, hL, hS, r, a, b, h1, hav, by rw [hbv]; norm_num, ?_⟩
  exact h (.legendre r) (by simp) a b 1 ha hb hav (by rw [hbv]; norm_num) (by norm_num)

/-- `C110_overflow`: between `2^1023` and `1.5·2^1023` the integrals of `x ↦ 1/x` (about 0.4) and of the constant `1/∞` come out the same -/
example : ∃ (L : Libm) (_ : AccurateTrig L) (_ : AccurateSin L) (r : Rule F64) (a b : F64), @GaussLegendre.new F64 (f64Ops) .wrapping 10 = some r ∧ a.val = 2 ^ 1023 ∧ b.val = 3 * 2 ^ 1022 ∧
    (AnyRule.legendre r).value a b (fun x => FloatOps.lit 1.0 /ᶠ x) = (AnyRule.legendre r).value a b (fun _ => FloatOps.lit 1.0 /ᶠ F64.inf false) := by
  obtain ⟨L, hL, hS⟩ := accurateTrigSin_exists
  obtain ⟨a, ha, -, hav⟩ := exists_repr (m := 1) 2097 (by norm_num) (by norm_num) false
  obtain ⟨b, hb, -, hbv⟩ := exists_repr (m := 3) 2096 (by norm_num) (by norm_num) false
  have hav' : a.val = 2 ^ 1023 := by rw [hav]; push_cast; norm_num
  have hbv' : b.val = 3 * 2 ^ 1022 := by rw [hbv]; push_cast; norm_num
  obtain ⟨r, r1, r2, h1, -, -, h⟩ := C110_overflow hL hS .wrapping (n := 10) (by norm_num) (by norm_num)
  refine ⟨L, hL, hS, r, a, b, h1, hav', hbv', ?_⟩
  exact (h (.legendre r) (by simp) a b ha hb (by rw [hav']; positivity) (by rw [hbv']; positivity) (by rw [hav', hbv']; unfold overflowThreshold; norm_num)).2 _

end GaussQuad.Props
