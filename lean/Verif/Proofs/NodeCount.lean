import Verif.Spec.Window
import Verif.Proofs.Structure
import Mathlib.Analysis.SpecialFunctions.Trigonometric.Inverse
import Mathlib.Algebra.Order.Floor.Ring
import Mathlib.Data.Finset.Card

/-!
# Counting points from their spacing
-/

namespace GaussQuad
open Spec

/-- points at least `g` apart -/
theorem count_le {ι : Type*} {L : List ι} (hnd : L.Nodup) {p : ι → Bool} {f : ι → ℝ} {s t g : ℝ} (hg : 0 < g) (hst : s ≤ t) (h1 : ∀ x ∈ L, p x = true → s ≤ f x ∧ f x ≤ t)
    (h2 : ∀ x ∈ L, p x = true → ∀ y ∈ L, p y = true → x ≠ y → g ≤ |f x - f y|) : ((L.filter p).length : ℝ) ≤ (t - s) / g + 1 := by
  classical
  have hq : 0 ≤ (t - s) / g := div_nonneg (by linarith) hg.le
  have hcard : (L.filter p).toFinset.card = (L.filter p).length := List.toFinset_card_of_nodup (hnd.filter _)
  have hmem : ∀ x ∈ (L.filter p).toFinset, x ∈ L ∧ p x = true := fun x hx => by simpa using hx
  have hle : (L.filter p).toFinset.card ≤ (Finset.range (⌊(t - s) / g⌋₊ + 1)).card := by
    refine Finset.card_le_card_of_injOn (fun x => ⌊(f x - s) / g⌋₊) (fun x hx => ?_) (fun x hx y hy hxy => ?_)
    · obtain ⟨hx1, hx2⟩ := hmem x hx
      simp only [Finset.coe_range, Set.mem_Iio]
      refine Nat.lt_succ_of_le (Nat.floor_le_floor ?_)
      have := (h1 x hx1 hx2).2
      gcongr
    · obtain ⟨hx1, hx2⟩ := hmem x hx
      obtain ⟨hy1, hy2⟩ := hmem y hy
      by_contra hne
      have h3 := h2 x hx1 hx2 y hy1 hy2 hne
      have hxy : ⌊(f x - s) / g⌋₊ = ⌊(f y - s) / g⌋₊ := hxy
      have hx0 : 0 ≤ (f x - s) / g := div_nonneg (by linarith [(h1 x hx1 hx2).1]) hg.le
      have hy0 : 0 ≤ (f y - s) / g := div_nonneg (by linarith [(h1 y hy1 hy2).1]) hg.le
      have a1 := Nat.floor_le hx0
      have a2 := Nat.lt_floor_add_one ((f x - s) / g)
      have a3 := Nat.floor_le hy0
      have a4 := Nat.lt_floor_add_one ((f y - s) / g)
      rw [hxy] at a1 a2
      have h4 : |(f x - s) / g - (f y - s) / g| < 1 := abs_lt.2 ⟨by linarith, by linarith⟩
      rw [← sub_div, abs_div, abs_of_pos hg, div_lt_one hg] at h4
      have : f x - s - (f y - s) = f x - f y := by ring
      rw [this] at h4
      linarith
  rw [Finset.card_range, hcard] at hle
  have h5 : ((L.filter p).length : ℝ) ≤ ⌊(t - s) / g⌋₊ + 1 := by exact_mod_cast hle
  have := Nat.floor_le hq
  linarith

/-- no gap longer than `g` -/
theorem le_count {ι : Type*} {L : List ι} {p : ι → Bool} {f : ι → ℝ} {s t g : ℝ} (hg : 0 < g)
    (h : ∀ u, s ≤ u → u + g ≤ t → ∃ x ∈ L, p x = true ∧ u < f x ∧ f x ≤ u + g) : (t - s) / g - 1 ≤ ((L.filter p).length : ℝ) := by
  classical
  rcases le_or_gt (t - s) 0 with hts | hts
  · have : (t - s) / g ≤ 0 := div_nonpos_of_nonpos_of_nonneg hts hg.le
    have h0 : (0 : ℝ) ≤ ((L.filter p).length : ℝ) := Nat.cast_nonneg _
    linarith
  set m := ⌊(t - s) / g⌋₊ with hm
  have hq : 0 ≤ (t - s) / g := by positivity
  have key : ∀ i : ℕ, i < m → ∃ x ∈ L, p x = true ∧ s + i * g < f x ∧ f x ≤ s + i * g + g := fun i hi => by
    refine h _ (by have : 0 ≤ (i : ℝ) * g := by positivity
                   linarith) ?_
    have h1 : ((i : ℝ) + 1) ≤ (t - s) / g := by
      have : ((i + 1 : ℕ) : ℝ) ≤ m := by exact_mod_cast hi
      push_cast at this
      exact this.trans (Nat.floor_le hq)
    rw [le_div_iff₀ hg] at h1
    linarith
  rcases Nat.eq_zero_or_pos m with h0 | h0
  · have h1 := Nat.lt_floor_add_one ((t - s) / g)
    rw [← hm, h0] at h1
    have h2 : (0 : ℝ) ≤ ((L.filter p).length : ℝ) := Nat.cast_nonneg _
    simp only [Nat.cast_zero, zero_add] at h1
    linarith
  have : Nonempty ι := ⟨(key 0 h0).choose⟩
  choose! x hx1 hx2 hx3 hx4 using key
  have hle : (Finset.range m).card ≤ (L.filter p).toFinset.card := by
    refine Finset.card_le_card_of_injOn x (fun i hi => ?_) (fun i hi j hj hij => ?_)
    · have hi : i < m := by simpa using hi
      simpa using ⟨hx1 i hi, hx2 i hi⟩
    · have hi : i < m := by simpa using hi
      have hj : j < m := by simpa using hj
      by_contra hne
      have aux : ∀ i j : ℕ, i < m → j < m → i < j → x i ≠ x j := fun i j hi hj hlt he => by
        have h1 := hx4 i hi
        have h2 := hx3 j hj
        rw [he] at h1
        have : ((i : ℝ) + 1) ≤ j := by exact_mod_cast hlt
        nlinarith
      rcases Nat.lt_or_gt_of_ne hne with h | h
      · exact aux i j hi hj h hij
      · exact aux j i hj hi h hij.symm
  have h2 : m ≤ (L.filter p).length := by
    rw [Finset.card_range] at hle
    exact hle.trans (List.toFinset_card_le _)
  have h3 : (m : ℝ) ≤ ((L.filter p).length : ℝ) := by exact_mod_cast h2
  have := Nat.lt_floor_add_one ((t - s) / g)
  linarith

theorem nodup_rangeRev (hi : ℕ) : (rangeRev hi).Nodup := by
  unfold rangeRev
  exact List.nodup_reverse.2 (List.nodup_range' ..)

/-- angles close to an arithmetic progression -/
theorem count_angles {n : ℕ} {θ : ℕ → ℝ} {N s η τ : ℝ} (hN : 0 < N) (hη : 0 ≤ η) (hτ : 0 ≤ τ) (h : ∀ k, 1 ≤ k → k ≤ n → |θ k * N - Real.pi * (k - s)| ≤ Real.pi * η) (hs : 0 ≤ s + η)
    (hn : N + s - η - τ < n + 1) {φ ψ : ℝ} (h0 : 0 ≤ φ) (hφψ : φ ≤ ψ) (hψ : ψ ≤ Real.pi) :
    N * (ψ - φ) / Real.pi - 2 * η - τ - 1 ≤ (((rangeRev (n + 1)).filter fun k => φ ≤ θ k ∧ θ k ≤ ψ).length : ℝ) ∧
      (((rangeRev (n + 1)).filter fun k => φ ≤ θ k ∧ θ k ≤ ψ).length : ℝ) ≤ N * (ψ - φ) / Real.pi + 2 * η + 1 := by
  have hp := Real.pi_pos
  have hA : 0 ≤ φ * N / Real.pi := by positivity
  have hB : ψ * N / Real.pi ≤ N := by rw [div_le_iff₀ hp]; nlinarith
  have hAB : N * (ψ - φ) / Real.pi = ψ * N / Real.pi - φ * N / Real.pi := by ring
  have eA : φ * N / Real.pi * Real.pi = φ * N := div_mul_cancel₀ _ hp.ne'
  have eB : ψ * N / Real.pi * Real.pi = ψ * N := div_mul_cancel₀ _ hp.ne'
  have hAB0 : φ * N / Real.pi ≤ ψ * N / Real.pi := by gcongr
  constructor
  · have := le_count (L := rangeRev (n + 1)) (p := fun k => decide (φ ≤ θ k ∧ θ k ≤ ψ)) (f := fun k => (k : ℝ)) (s := φ * N / Real.pi + s + η) (t := ψ * N / Real.pi + s - η - τ) one_pos (fun u hu hu1 => by
      have hu0 : 0 ≤ u := by linarith
      have f1 := Nat.floor_le hu0
      have f2 := Nat.lt_floor_add_one u
      have hk1 : 1 ≤ ⌊u⌋₊ + 1 := by omega
      have hkn : ⌊u⌋₊ + 1 ≤ n := by
        have : ((⌊u⌋₊ + 1 : ℕ) : ℝ) < n + 1 := by push_cast; linarith
        have h5 : ⌊u⌋₊ + 1 < n + 1 := by exact_mod_cast this
        omega
      obtain ⟨g1, g2⟩ := abs_le.1 (h _ hk1 hkn)
      push_cast at g1 g2
      refine ⟨⌊u⌋₊ + 1, mem_rangeRev.2 ⟨hk1, by omega⟩, ?_, by push_cast; linarith, by push_cast; linarith⟩
      rw [decide_eq_true_eq]
      constructor
      · by_contra hc
        have : θ (⌊u⌋₊ + 1) * N < φ * N := mul_lt_mul_of_pos_right (not_le.1 hc) hN
        nlinarith
      · by_contra hc
        have : ψ * N < θ (⌊u⌋₊ + 1) * N := mul_lt_mul_of_pos_right (not_le.1 hc) hN
        nlinarith)
    rw [div_one] at this
    linarith
  · have := count_le (nodup_rangeRev (n + 1)) (p := fun k => decide (φ ≤ θ k ∧ θ k ≤ ψ)) (f := fun k => (k : ℝ)) (s := φ * N / Real.pi + s - η) (t := ψ * N / Real.pi + s + η) one_pos (by linarith) (fun k hk hk2 => by
      obtain ⟨k1, k2⟩ := mem_rangeRev.1 hk
      rw [decide_eq_true_eq] at hk2
      obtain ⟨g1, g2⟩ := abs_le.1 (h k k1 (by omega))
      have a1 : φ * N ≤ θ k * N := mul_le_mul_of_nonneg_right hk2.1 hN.le
      have a2 : θ k * N ≤ ψ * N := mul_le_mul_of_nonneg_right hk2.2 hN.le
      constructor
      · by_contra hc
        nlinarith [mul_lt_mul_of_pos_right (not_le.1 hc) hp]
      · by_contra hc
        nlinarith [mul_lt_mul_of_pos_right (not_le.1 hc) hp]) (fun x _ _ y _ _ hxy => by
      have h3 : (1 : ℤ) ≤ |(x : ℤ) - y| := Int.one_le_abs (by omega)
      exact_mod_cast h3)
    rw [div_one] at this
    linarith

end GaussQuad
