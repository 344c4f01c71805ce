import Verif.Proofs.F64Chebyshev
import Verif.Proofs.F64Gauss
import Verif.Proofs.TrigExists
import Verif.Props.Chebyshev

/-!
# C56, C57: the Chebyshev rules in binary64
-/

set_option exponentiation.threshold 3000

namespace GaussQuad.Props
open Polynomial Spec FloatOps F64

/-- order of the nodes from error bounds and spacing -/
theorem ordered_of_near {l : List (F64 × F64)} {n : ℕ} (hlen : l.length = n) {c : ℕ → ℝ} {ε : ℝ} (hnear : ∀ i (hi : i < n), Near (l[i]'(by omega)).1 (c i) ε)
    (hgap : ∀ i, i + 1 < n → 2 * ε < c (i + 1) - c i) : l.Pairwise (fun p q => F64.ltb p.1 q.1 = true) := by
  have hstep : ∀ i (hi : i + 1 < n), (l[i]'(by omega)).1.rv < (l[i + 1]'(by omega)).1.rv := by
    intro i hi
    have h1 := _root_.abs_le.1 (hnear i (by omega)).2
    have h2 := _root_.abs_le.1 (hnear (i + 1) hi).2
    have h3 := hgap i hi
    linarith
  have hmono : ∀ i j (hij : i < j) (hj : j < n), (l[i]'(by omega)).1.rv < (l[j]'(by omega)).1.rv := by
    intro i j hij
    induction j with
    | zero => omega
    | succ j ih =>
      intro hj
      rcases Nat.lt_or_ge i j with h1 | h1
      · exact (ih h1 (by omega)).trans (hstep j hj)
      · have : i = j := by omega
        subst this
        exact hstep i hj
  rw [List.pairwise_iff_getElem]
  intro i j hi hj hij
  have := hmono i j hij (by omega)
  rw [ltb_finite (hnear i (by omega)).1 (hnear j (by omega)).1]
  rw [rv, rv] at this
  exact_mod_cast this

theorem inside_of_near {x : F64} {c ε : ℝ} (h : Near x c ε) (h1 : ε < 1 - c) (h2 : ε < 1 + c) : -1 < x.val ∧ x.val < 1 := by
  have h3 := _root_.abs_le.1 h.2
  constructor
  · have : (-1 : ℝ) < x.rv := by linarith
    rw [rv] at this; exact_mod_cast this
  · have : x.rv < (1 : ℝ) := by linarith
    rw [rv] at this; exact_mod_cast this

theorem small_lt {N : ℕ} (hN : 0 < N) (h7 : N ≤ 10 ^ 7 + 1) : 31 * U < 1 / (2 * (N : ℝ) ^ 2) := by
  have h1 : (N : ℝ) ≤ 10 ^ 7 + 1 := by exact_mod_cast h7
  have h0 : (0 : ℝ) < N := by exact_mod_cast hN
  rw [lt_div_iff₀ (by positivity)]
  calc 31 * U * (2 * (N : ℝ) ^ 2) ≤ 31 * U * (2 * (10 ^ 7 + 1) ^ 2) := by have := U_pos; gcongr
    _ < 1 := by unfold U; norm_num

theorem gap_lt {N : ℕ} (hN : 0 < N) (h7 : N ≤ 10 ^ 7 + 1) : 2 * (13 * U) < 4 / (N : ℝ) ^ 2 := by
  have h1 := small_lt hN h7
  have h0 : (0 : ℝ) < N := by exact_mod_cast hN
  have e : 4 / (N : ℝ) ^ 2 = 8 * (1 / (2 * (N : ℝ) ^ 2)) := by field_simp; norm_num
  have := U_pos
  have : 0 < 1 / (2 * (N : ℝ) ^ 2) := by positivity
  linarith

/-- C56, first kind: for every degree below `2^52` the binary64 rule consists of `n` finite pairs, the `i`-th node within `1.2e-15` of
`cos(π(2(n-i)-1)/(2n))`, the weights within `1.6e-16` relatively of `π/n` and positive; up to degree ten million the nodes are strictly increasing
and strictly inside `(-1, 1)`. -/
theorem C56_first_kind [L : Libm] (hL : AccurateTrig L) (mode : Overflow) {n : ℕ} (hn : 0 < n) (hlt : n < 2 ^ 52) :
    ∃ r : Rule F64, GaussChebyshevFirstKind.new mode n = some r ∧ ∃ hlen : r.asNodeWeightPairs.length = n,
      (∀ i (hi : i < n), (r.asNodeWeightPairs[i]'(by omega)).1.isFinite = true ∧ (r.asNodeWeightPairs[i]'(by omega)).2.isFinite = true ∧
        |((r.asNodeWeightPairs[i]'(by omega)).1.val : ℝ) - Real.cos (Real.pi * (2 * (n - i : ℕ) - 1) / (2 * n))| ≤ 1.2 / 10 ^ 15 ∧
        |((r.asNodeWeightPairs[i]'(by omega)).2.val : ℝ) - Real.pi / n| ≤ 1.6 / 10 ^ 16 * (Real.pi / n) ∧ 0 < (r.asNodeWeightPairs[i]'(by omega)).2.val) ∧
      (n ≤ 10 ^ 7 → r.asNodeWeightPairs.Pairwise (fun p q => FloatOps.lt p.1 q.1 = true) ∧
        ∀ p ∈ r.asNodeWeightPairs, -1 < p.1.val ∧ p.1.val < 1) := by
  refine ⟨_, cheb1_new_eq (by omega), ?_⟩
  have hlen : (Rule.asNodeWeightPairs (⟨(rangeRev (n + 1)).map (GaussChebyshevFirstKind.pair n)⟩ : Rule F64)).length = n := by
    simp [Rule.asNodeWeightPairs, length_rangeRev]
  refine ⟨hlen, ?_⟩
  have hget : ∀ i (hi : i < n), (Rule.asNodeWeightPairs (⟨(rangeRev (n + 1)).map (GaussChebyshevFirstKind.pair n)⟩ : Rule F64))[i]'(by omega) =
      GaussChebyshevFirstKind.pair n (n - i) := by
    intro i hi
    simp only [Rule.asNodeWeightPairs, List.getElem_map]
    rw [getElem_rangeRev (hi := n + 1) (i := i) (by rw [length_rangeRev]; omega), Nat.add_sub_cancel]
  have hclose : ∀ i (hi : i < n), _ := fun i hi => cheb1_pair_close hL (n := n) (i := n - i) (by omega) (by omega) hlt
  have hU := U_pos
  have hnp : (0 : ℝ) < Real.pi / n := by have := Real.pi_pos; positivity
  refine ⟨fun i hi => ?_, fun h7 => ?_⟩
  · rw [hget i hi]
    obtain ⟨h1, h2⟩ := hclose i hi
    have hw := h2.2
    rw [abs_of_pos hnp] at hw
    refine ⟨h1.1, h2.1, h1.2.trans (by unfold U; norm_num), hw.trans (mul_le_mul_of_nonneg_right (by unfold U; norm_num) hnp.le), ?_⟩
    have h3 := (_root_.abs_le.1 hw).1
    have h4 : 1.4 * U * (Real.pi / n) ≤ 0.5 * (Real.pi / n) := mul_le_mul_of_nonneg_right (by unfold U; norm_num) hnp.le
    have : 0 < (GaussChebyshevFirstKind.pair n (n - i) : F64 × F64).2.rv := by linarith
    rw [rv] at this
    exact_mod_cast this
  · have e : ∀ i, i < n → Real.cos (Real.pi * (2 * (n - i : ℕ) - 1) / (2 * n)) = Real.cos (Real.pi * ((2 * (n - i) - 1 : ℕ) : ℝ) / (2 * n)) := by
      intro i hi
      rw [Nat.cast_sub (by omega : 1 ≤ 2 * (n - i))]; push_cast; rfl
    have hnear : ∀ i (hi : i < n), Near ((Rule.asNodeWeightPairs (⟨(rangeRev (n + 1)).map (GaussChebyshevFirstKind.pair n)⟩ : Rule F64))[i]'(by omega)).1 (Real.cos (Real.pi * ((2 * (n - i) - 1 : ℕ) : ℝ) / (2 * n))) (10 * U) := by
      intro i hi
      rw [hget i hi, ← e i hi]
      exact (hclose i hi).1
    refine ⟨ordered_of_near hlen hnear ?_, ?_⟩
    · intro i hi
      have h1 := cos_gap (N := n) (m := 2 * (n - (i + 1)) - 1) (by omega) (by omega)
      rw [show 2 * (n - (i + 1)) - 1 + 2 = 2 * (n - i) - 1 by omega] at h1
      have h2 := gap_lt hn (by omega : n ≤ 10 ^ 7 + 1)
      linarith
    · intro p hp
      obtain ⟨i, hi, rfl⟩ := List.getElem_of_mem hp
      have h1 := cos_edge (N := n) (m := 2 * (n - i) - 1) (by omega) (by omega)
      have h2 := small_lt hn (by omega : n ≤ 10 ^ 7 + 1)
      exact inside_of_near (hnear i (by omega)) (by linarith [h1.1]) (by linarith [h1.2])

/-- C56, second kind: the nodes are within `1.5e-15` of `cos(π(n-i)/(n+1))`, the weights within `3.5e-15·π/(n+1)` of `π/(n+1)·sin²`; up to degree ten
million the nodes are strictly increasing and strictly inside `(-1, 1)` and the weights are positive. -/
theorem C56_second_kind [L : Libm] (hL : AccurateTrig L) (hS : AccurateSin L) (mode : Overflow) {n : ℕ} (hn : 0 < n) (hlt : n < 2 ^ 52) :
    ∃ r : Rule F64, GaussChebyshevSecondKind.new mode n = some r ∧ ∃ hlen : r.asNodeWeightPairs.length = n,
      (∀ i (hi : i < n), (r.asNodeWeightPairs[i]'(by omega)).1.isFinite = true ∧ (r.asNodeWeightPairs[i]'(by omega)).2.isFinite = true ∧
        |((r.asNodeWeightPairs[i]'(by omega)).1.val : ℝ) - Real.cos (Real.pi * (n - i : ℕ) / (n + 1))| ≤ 1.5 / 10 ^ 15 ∧
        |((r.asNodeWeightPairs[i]'(by omega)).2.val : ℝ) - Real.pi / (n + 1) * Real.sin (Real.pi * (n - i : ℕ) / (n + 1)) ^ 2| ≤
          3.5 / 10 ^ 15 * (Real.pi / (n + 1))) ∧
      (n ≤ 10 ^ 7 → r.asNodeWeightPairs.Pairwise (fun p q => FloatOps.lt p.1 q.1 = true) ∧
        ∀ p ∈ r.asNodeWeightPairs, -1 < p.1.val ∧ p.1.val < 1 ∧ 0 < p.2.val) := by
  refine ⟨_, cheb2_new_eq (by omega), ?_⟩
  have hlen : (Rule.asNodeWeightPairs (⟨(rangeRev (n + 1)).map (GaussChebyshevSecondKind.pair n)⟩ : Rule F64)).length = n := by
    simp [Rule.asNodeWeightPairs, length_rangeRev]
  refine ⟨hlen, ?_⟩
  have hget : ∀ i (hi : i < n), (Rule.asNodeWeightPairs (⟨(rangeRev (n + 1)).map (GaussChebyshevSecondKind.pair n)⟩ : Rule F64))[i]'(by omega) =
      GaussChebyshevSecondKind.pair n (n - i) := by
    intro i hi
    simp only [Rule.asNodeWeightPairs, List.getElem_map]
    rw [getElem_rangeRev (hi := n + 1) (i := i) (by rw [length_rangeRev]; omega), Nat.add_sub_cancel]
  have hclose : ∀ i (hi : i < n), _ := fun i hi => cheb2_pair_close hL hS (n := n) (i := n - i) (by omega) (by omega) hlt
  have hU := U_pos
  have hnp : (0 : ℝ) < Real.pi / (n + 1) := by have := Real.pi_pos; positivity
  refine ⟨fun i hi => ?_, fun h7 => ?_⟩
  · rw [hget i hi]
    obtain ⟨h1, h2⟩ := hclose i hi
    exact ⟨h1.1, h2.1, h1.2.trans (by unfold U; norm_num), h2.2.trans (mul_le_mul_of_nonneg_right (by unfold U; norm_num) hnp.le)⟩
  · have e : ∀ i, i < n → Real.cos (Real.pi * (n - i : ℕ) / (n + 1)) = Real.cos (Real.pi * ((2 * (n - i) : ℕ) : ℝ) / (2 * ((n + 1 : ℕ) : ℝ))) := by
      intro i hi
      congr 1
      push_cast
      field_simp
    have hnear : ∀ i (hi : i < n), Near ((Rule.asNodeWeightPairs (⟨(rangeRev (n + 1)).map (GaussChebyshevSecondKind.pair n)⟩ : Rule F64))[i]'(by omega)).1 (Real.cos (Real.pi * ((2 * (n - i) : ℕ) : ℝ) / (2 * ((n + 1 : ℕ) : ℝ)))) (13 * U) := by
      intro i hi
      rw [hget i hi, ← e i hi]
      exact (hclose i hi).1
    refine ⟨ordered_of_near hlen hnear ?_, ?_⟩
    · intro i hi
      have h1 := cos_gap (N := n + 1) (m := 2 * (n - (i + 1))) (by omega) (by omega)
      rw [show 2 * (n - (i + 1)) + 2 = 2 * (n - i) by omega] at h1
      have h2 := gap_lt (N := n + 1) (by omega) (by omega)
      linarith
    · intro p hp
      obtain ⟨i, hi, rfl⟩ := List.getElem_of_mem hp
      have h1 := cos_edge (N := n + 1) (m := 2 * (n - i)) (by omega) (by omega)
      have h2 := small_lt (N := n + 1) (by omega) (by omega)
      have hin := inside_of_near (hnear i (by omega)) (by linarith [h1.1]) (by linarith [h1.2])
      refine ⟨hin.1, hin.2, ?_⟩
      rw [hget i (by omega)]
      have h3 := (_root_.abs_le.1 (hclose i (by omega)).2.2).1
      have h4 := sin_ratio (N := n + 1) (j := 2 * (n - i)) (by omega) (by omega)
      have h5 : (1 : ℝ) / ((n + 1 : ℕ) : ℝ) ≤ Real.sin (Real.pi * (n - i : ℕ) / (n + 1)) := by
        have e : Real.pi * (n - i : ℕ) / (n + 1) = Real.pi * ((2 * (n - i) : ℕ) : ℝ) / (2 * ((n + 1 : ℕ) : ℝ)) := by push_cast; field_simp
        rw [e]
        refine le_trans ?_ h4
        gcongr
        exact_mod_cast (by omega : 1 ≤ min (2 * (n - i)) (2 * (n + 1) - 2 * (n - i)))
      have h6 : 31 * U < Real.sin (Real.pi * (n - i : ℕ) / (n + 1)) ^ 2 := by
        refine h2.trans_le ?_
        calc 1 / (2 * ((n + 1 : ℕ) : ℝ) ^ 2) ≤ (1 / ((n + 1 : ℕ) : ℝ)) ^ 2 := by
              rw [div_pow, one_pow]; gcongr; linarith [sq_nonneg ((n + 1 : ℕ) : ℝ)]
          _ ≤ _ := pow_le_pow_left₀ (by positivity) h5 2
      have h7 := mul_lt_mul_of_pos_left h6 hnp
      have : 0 < (GaussChebyshevSecondKind.pair n (n - i) : F64 × F64).2.rv := by linarith
      rw [rv] at this
      exact_mod_cast this

example : ∃ _L : Libm, (∃ r : Rule F64, GaussChebyshevFirstKind.new .checked 1001 = some r ∧
      r.asNodeWeightPairs.Pairwise (fun p q => FloatOps.lt p.1 q.1 = true)) ∧
    ∃ r : Rule F64, GaussChebyshevSecondKind.new .checked 1001 = some r ∧ r.asNodeWeightPairs.Pairwise (fun p q => FloatOps.lt p.1 q.1 = true) := by
  obtain ⟨L, hL, hS⟩ := accurateTrigSin_exists
  obtain ⟨r, h1, -, -, h2⟩ := C56_first_kind hL .checked (n := 1001) (by norm_num) (by norm_num)
  obtain ⟨r', h1', -, -, h2'⟩ := C56_second_kind hL hS .checked (n := 1001) (by norm_num) (by norm_num)
  exact ⟨L, ⟨r, h1, (h2 (by norm_num)).1⟩, r', h1', (h2' (by norm_num)).1⟩

end GaussQuad.Props
