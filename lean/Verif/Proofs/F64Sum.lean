import Verif.Proofs.F64Approx
import Verif.Props.ParallelError

/-! Sums of perturbed terms in binary64, sequential and parallel: finiteness and error. -/

set_option exponentiation.threshold 3000

namespace GaussQuad.F64
open FloatOps Props

/-- `x` approximates `r` up to the error `ε` of the terms and `k` roundings relative to the size `μ` -/
def Sum (k : ℕ) (x : F64) (r ε μ : ℝ) : Prop := Near x r (ε + k * (1.001 * U * μ)) ∧ |r| + ε ≤ μ

theorem Sum.mono {k k' : ℕ} {x : F64} {r ε μ : ℝ} (h : Sum k x r ε μ) (hk : k ≤ k') (hε : 0 ≤ ε) : Sum k' x r ε μ := by
  refine ⟨h.1.mono ?_, h.2⟩
  have hμ : 0 ≤ μ := by linarith [h.2, abs_nonneg r]
  have : (k : ℝ) ≤ k' := by exact_mod_cast hk
  have h0 : 0 ≤ 1.001 * U * μ := by have := U_pos; positivity
  linarith [mul_le_mul_of_nonneg_right this h0]

theorem Sum.zero (k : ℕ) : Sum k (F64.zero true) 0 0 0 := by
  refine ⟨⟨zero_isFinite _, ?_⟩, by simp⟩
  simp [rv, val_zero]

theorem Near.sum {x : F64} {r ε : ℝ} (h : Near x r ε) : Sum 0 x r ε (|r| + ε) := ⟨by simpa using h, le_rfl⟩

theorem Sum.add {k : ℕ} {x y : F64} {r s ε δ μ ν : ℝ} (hx : Sum k x r ε μ) (hy : Sum k y s δ ν) (hk : k ≤ 10 ^ 12) (hb : μ + ν ≤ 2 ^ 1015) :
    Sum (k + 1) (F64.add x y) (r + s) (ε + δ) (μ + ν) := by
  have hU := U_pos
  have hk' : (k : ℝ) ≤ 10 ^ 12 := by exact_mod_cast hk
  have hε : 0 ≤ ε + k * (1.001 * U * μ) := (abs_nonneg _).trans hx.1.2
  have hδ : 0 ≤ δ + k * (1.001 * U * ν) := (abs_nonneg _).trans hy.1.2
  have t := abs_add_le r s
  have hm : 0 ≤ μ + ν := by
    have h1 := hx.2; have h2 := hy.2
    by_contra hneg
    have h3 : (k : ℝ) * (1.001 * U * μ) + k * (1.001 * U * ν) ≤ 0 := by
      have : (k : ℝ) * (1.001 * U * μ) + k * (1.001 * U * ν) = k * (1.001 * U) * (μ + ν) := by ring
      rw [this]
      exact mul_nonpos_of_nonneg_of_nonpos (by positivity) (by linarith)
    linarith [abs_nonneg r, abs_nonneg s]
  have hkU : (k : ℝ) * (1.001 * U) ≤ 0.001 := by
    calc (k : ℝ) * (1.001 * U) ≤ 10 ^ 12 * (1.001 * U) := by gcongr
      _ ≤ 0.001 := by unfold U; norm_num
  have hkm := mul_le_mul_of_nonneg_right hkU hm
  have e : (k : ℝ) * (1.001 * U * μ) + k * (1.001 * U * ν) = k * (1.001 * U) * (μ + ν) := by ring
  have := Near.add hx.1 hy.1 (A := 1.001 * (μ + ν)) (by linarith [hx.2, hy.2]) (by
    refine (mul_le_mul_of_nonneg_left hb (by norm_num)).trans ?_; norm_num)
  refine ⟨this.mono (le_of_eq ?_), by linarith [hx.2, hy.2]⟩
  push_cast
  ring

variable {β : Type}

theorem foldl_sum {t e : β → ℝ} (he : ∀ q, 0 ≤ e q) : ∀ {ys : List F64} {l : List β}, List.Forall₂ (fun y q => Near y (t q) (e q)) ys l →
    ∀ {k : ℕ} {acc : F64} {r ε μ : ℝ}, Sum k acc r ε μ → k + l.length ≤ 10 ^ 12 → μ + (l.map fun q => |t q| + e q).sum ≤ 2 ^ 1015 →
    Sum (k + l.length) (ys.foldl F64.add acc) (r + (l.map t).sum) (ε + (l.map e).sum) (μ + (l.map fun q => |t q| + e q).sum)
  | _, _, .nil, _, _, _, _, _, h, _, _ => by simpa using h
  | y :: ys, q :: l, .cons hy hys, k, acc, r, ε, μ, h, hk, hb => by
    simp only [List.length_cons, List.map_cons, List.sum_cons, List.foldl_cons] at *
    have hnn : 0 ≤ (l.map fun q => |t q| + e q).sum := List.sum_nonneg (by
      intro z hz; obtain ⟨w, -, rfl⟩ := List.mem_map.1 hz; exact add_nonneg (abs_nonneg _) (he w))
    have h1 := h.add (hy.sum.mono (Nat.zero_le k) (he q)) (by omega) (by linarith)
    have h2 := foldl_sum he hys h1 (by omega) (by linarith)
    rw [show k + 1 + l.length = k + (l.length + 1) by omega, add_assoc, add_assoc, add_assoc] at h2
    exact h2

variable [Libm]

/-- the sequential sum -/
theorem sumList_near {t e : β → ℝ} (he : ∀ q, 0 ≤ e q) {ys : List F64} {l : List β} (h : List.Forall₂ (fun y q => Near y (t q) (e q)) ys l)
    (hk : l.length ≤ 10 ^ 12) (hb : (l.map fun q => |t q| + e q).sum ≤ 2 ^ 1015) :
    Sum l.length (sumList ys) (l.map t).sum (l.map e).sum (l.map fun q => |t q| + e q).sum := by
  have := foldl_sum he h (Sum.zero 0) (by omega) (by linarith)
  simp only [zero_add] at this
  exact this

/-- the parallel sum, for every schedule -/
theorem parSumMap_near {α : Type} {g : α → F64} {t e : β → ℝ} (he : ∀ q, 0 ≤ e q) (s : Schedule) : ∀ {xs : List α} {l : List β},
    List.Forall₂ (fun x q => Near (g x) (t q) (e q)) xs l → roundings s l.length ≤ 10 ^ 12 → (l.map fun q => |t q| + e q).sum ≤ 2 ^ 1015 →
    Sum (roundings s l.length) (parSumMap s xs g) (l.map t).sum (l.map e).sum (l.map fun q => |t q| + e q).sum := by
  induction s with
  | leaf =>
    intro xs l h hk hb
    simp only [roundings] at hk ⊢
    have hen : 0 ≤ (l.map e).sum := List.sum_nonneg (by intro z hz; obtain ⟨w, -, rfl⟩ := List.mem_map.1 hz; exact he w)
    have h1 := sumList_near he (ys := xs.map g) (l := l) (by rw [List.forall₂_map_left_iff]; exact h) (by omega) hb
    have h0 := (Sum.zero l.length).add (Sum.zero l.length) (by omega) (by norm_num)
    have h2 := h0.add (h1.mono (Nat.le_succ _) hen) (by omega) (by linarith)
    simp only [zero_add, add_zero] at h2
    exact h2
  | split mid a b iha ihb =>
    intro xs l h hk hb
    simp only [roundings] at hk ⊢
    have hen : ∀ l : List β, 0 ≤ (l.map e).sum := fun l => List.sum_nonneg (by intro z hz; obtain ⟨w, -, rfl⟩ := List.mem_map.1 hz; exact he w)
    have hmn : ∀ l : List β, 0 ≤ (l.map fun q => |t q| + e q).sum := fun l => List.sum_nonneg (by
      intro z hz; obtain ⟨w, -, rfl⟩ := List.mem_map.1 hz; exact add_nonneg (abs_nonneg _) (he w))
    have hsum : ∀ f : β → ℝ, ((l.take mid).map f).sum + ((l.drop mid).map f).sum = (l.map f).sum := fun f => by
      rw [← List.sum_append, ← List.map_append, List.take_append_drop]
    have hm := hsum fun q => |t q| + e q
    set K := max (roundings a (min mid l.length)) (roundings b (l.length - mid)) with hK
    have k1 : roundings a (min mid l.length) ≤ K := le_max_left _ _
    have k2 : roundings b (l.length - mid) ≤ K := le_max_right _ _
    have h1 := iha (List.forall₂_take mid h) (by rw [List.length_take]; omega) (by linarith [hmn (l.drop mid)])
    have h2 := ihb (List.forall₂_drop mid h) (by rw [List.length_drop]; omega) (by linarith [hmn (l.take mid)])
    rw [List.length_take] at h1
    rw [List.length_drop] at h2
    have h3 := (Sum.zero K).add (h1.mono k1 (hen _)) (by omega) (by linarith [hmn (l.drop mid)])
    have h4 := h3.add (h2.mono (k2.trans (Nat.le_succ _)) (hen _)) (by omega) (by linarith)
    simp only [zero_add] at h4
    rw [hsum t, hsum e, hm] at h4
    exact h4

end GaussQuad.F64
