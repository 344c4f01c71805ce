import Verif.Props.LegendreF64
import Verif.Props.Legendre
import Verif.Proofs.LegendreSpacing

/-!
# C54: structure of the binary64 Gauss-Legendre rule
-/

set_option exponentiation.threshold 3000

namespace GaussQuad.Props
open Polynomial Spec FloatOps Bogaert LegendrePoly F64

theorem U_lt_scaled {c : ℝ} {n : ℕ} (hn : n ≤ 10 ^ 7) (hc : 1 ≤ c) : 23 * U < c / ((n : ℝ) + 1 / 2) ^ 2 := by
  have h1 : (n : ℝ) ≤ 10 ^ 7 := by exact_mod_cast hn
  have h2 : (0 : ℝ) < (n : ℝ) + 1 / 2 := by positivity
  have h3 : ((n : ℝ) + 1 / 2) ^ 2 ≤ (10 ^ 7 + 1 / 2) ^ 2 := by gcongr
  rw [lt_div_iff₀ (by positivity)]
  calc 23 * U * ((n : ℝ) + 1 / 2) ^ 2 ≤ 23 * U * (10 ^ 7 + 1 / 2) ^ 2 := by
        have := U_pos; gcongr
    _ < 1 := by unfold U; norm_num
    _ ≤ c := hc

/-- C54: for every degree the binary64 weights are positive; up to degree ten million the binary64 nodes are strictly increasing (as the program
compares them) and lie strictly between -1 and 1. -/
theorem C54_ordered [L : Libm] (hL : AccurateTrig L) (mode : Overflow) {n : ℕ} (hn : 0 < n) (hlt : n + 1 < 2 ^ 64) :
    ∃ r : Rule F64, GaussLegendre.new mode n = some r ∧ r.asNodeWeightPairs.length = n ∧ (∀ p ∈ r.asNodeWeightPairs, p.2.isFinite = true ∧ 0 < p.2.val) ∧
      (n ≤ 10 ^ 7 → r.asNodeWeightPairs.Pairwise (fun p q => FloatOps.lt p.1 q.1 = true) ∧
        ∀ p ∈ r.asNodeWeightPairs, p.1.isFinite = true ∧ -1 < p.1.val ∧ p.1.val < 1) := by
  obtain ⟨θ, w, h, hr⟩ := legendre_pairs mode hn hlt
  obtain ⟨r', hr', hclose⟩ := legendre_f64_close hL mode hlt hr
  have hlen : r'.asNodeWeightPairs.length = n := by
    rw [hclose.length_eq]; simp [Rule.asNodeWeightPairs, length_rangeRev]
  have hget := List.forall₂_iff_get.1 hclose
  have hU := U_pos
  -- index-wise form
  have hix : ∀ i (hi : i < n), Near (r'.asNodeWeightPairs[i]'(by omega)).1 (Real.cos (θ (n - i))) (23 * U) ∧
      Rel (r'.asNodeWeightPairs[i]'(by omega)).2 (w (n - i)) 38 := by
    intro i hi
    have := hget.2 i (by omega) (by rw [← hget.1]; omega)
    simp only [List.get_eq_getElem] at this
    have e : (Rule.asNodeWeightPairs (⟨(rangeRev (n + 1)).map fun k => (Real.cos (θ k), w k)⟩ : Rule ℝ))[i]'(by rw [← hget.1]; omega) =
        (Real.cos (θ (n - i)), w (n - i)) := by
      simp only [Rule.asNodeWeightPairs, List.getElem_map]
      have := getElem_rangeRev (hi := n + 1) (i := i) (by rw [length_rangeRev]; omega)
      rw [this]; rfl
    rw [e] at this
    exact this
  refine ⟨r', hr', hlen, ?_, fun h7 => ⟨?_, ?_⟩⟩
  · intro p hp
    obtain ⟨i, hi, rfl⟩ := List.getElem_of_mem hp
    have h1 := (hix i (by omega)).2
    have hw := h.wpos (n - i) (by omega) (by omega)
    refine ⟨h1.1, ?_⟩
    have h2 := (_root_.abs_le.1 h1.2).1
    rw [abs_of_pos hw] at h2
    have h3 := half_le (show (38 : ℝ) ≤ 100000 by norm_num)
    have : 0 < (r'.asNodeWeightPairs[i]).2.rv := by nlinarith
    rw [rv] at this
    exact_mod_cast this
  · have hstep : ∀ i (hi : i + 1 < n), (r'.asNodeWeightPairs[i]'(by omega)).1.rv < (r'.asNodeWeightPairs[i + 1]'(by omega)).1.rv := by
      intro i hi
      have h1 := _root_.abs_le.1 (hix i (by omega)).1.2
      have h2 := _root_.abs_le.1 (hix (i + 1) hi).1.2
      have h3 := h.gap (k := n - (i + 1)) (by omega) (by omega)
      rw [show n - (i + 1) + 1 = n - i by omega] at h3
      have h4 := U_lt_scaled (c := 2.25) h7 (by norm_num)
      have h5 : 4.5 / ((n : ℝ) + 1 / 2) ^ 2 = 2 * (2.25 / ((n : ℝ) + 1 / 2) ^ 2) := by ring
      linarith
    have hmono : ∀ i j (hij : i < j) (hj : j < n), (r'.asNodeWeightPairs[i]'(by omega)).1.rv < (r'.asNodeWeightPairs[j]'(by omega)).1.rv := by
      intro i j hij
      induction j with
      | zero => omega
      | succ j ih =>
        intro hj
        rcases Nat.lt_or_ge i j with h1 | h1
        · exact (ih h1 (by omega)).trans (hstep j hj)
        · have : i = j := by omega
          subst this
          exact hstep i hj
    rw [List.pairwise_iff_getElem]
    intro i j hi hj hij
    have := hmono i j hij (by omega)
    show F64.ltb _ _ = true
    rw [ltb_finite (hix i (by omega)).1.1 (hix j (by omega)).1.1]
    rw [rv, rv] at this
    exact_mod_cast this
  · intro p hp
    obtain ⟨i, hi, rfl⟩ := List.getElem_of_mem hp
    obtain ⟨h0, h1⟩ := (hix i (by omega)).1
    have h1 := _root_.abs_le.1 h1
    obtain ⟨e1, e2⟩ := h.edge (k := n - i) (by omega) (by omega)
    have h4 := U_lt_scaled (c := 1.05) h7 (by norm_num)
    refine ⟨h0, ?_, ?_⟩
    · have : (-1 : ℝ) < (r'.asNodeWeightPairs[i]).1.rv := by linarith
      rw [rv] at this
      exact_mod_cast this
    · have : (r'.asNodeWeightPairs[i]).1.rv < (1 : ℝ) := by linarith
      rw [rv] at this
      exact_mod_cast this

example : ∃ L : Libm, ∃ r : Rule F64, GaussLegendre.new .wrapping 1000001 = some r ∧ r.asNodeWeightPairs.Pairwise (fun p q => FloatOps.lt p.1 q.1 = true) := by
  obtain ⟨L, hL⟩ := accurateTrig_exists
  obtain ⟨r, h1, -, -, h2⟩ := C54_ordered hL .wrapping (n := 1000001) (by norm_num) (by norm_num)
  exact ⟨L, r, h1, (h2 (by norm_num)).1⟩

end GaussQuad.Props
