import Verif.Proofs.F64Legendre
import Verif.Proofs.TrigExists
import Verif.Props.LegendreAccuracy
import Verif.Props.LegendreLarge

/-!
# C52: the Gauss-Legendre rule the program computes, in binary64 arithmetic
-/

set_option exponentiation.threshold 3000

namespace GaussQuad.Props
open Polynomial Spec FloatOps Bogaert LegendrePoly F64

theorem forall₂_trans_mem {α β γ : Type} {R : α → β → Prop} {S : β → γ → Prop} {T : α → γ → Prop} :
    ∀ {xs : List α} {ys : List β} {zs : List γ}, (∀ a b c, c ∈ zs → R a b → S b c → T a c) → List.Forall₂ R xs ys → List.Forall₂ S ys zs → List.Forall₂ T xs zs
  | _, _, _, _, .nil, .nil => .nil
  | _, _, _, h, .cons a as, .cons b bs => .cons (h _ _ _ (by simp) a b) (forall₂_trans_mem (fun a b c hc => h a b c (List.mem_cons_of_mem _ hc)) as bs)

/-- the binary64 rule and the exact-arithmetic rule, pair by pair -/
theorem legendre_f64_close [L : Libm] (hL : AccurateTrig L) (mode : Overflow) {n : ℕ} (hlt : n + 1 < 2 ^ 64) {r : Rule ℝ} (hr : GaussLegendre.new mode n = some r) :
    ∃ r' : Rule F64, GaussLegendre.new mode n = some r' ∧
      List.Forall₂ (fun (p' : F64 × F64) (p : ℝ × ℝ) => Near p'.1 p.1 (23 * U) ∧ Rel p'.2 p.2 38) r'.asNodeWeightPairs r.asNodeWeightPairs := by
  obtain ⟨r', h1, h2, h3⟩ := legendre_new_some (F := F64) (mode := mode) hlt
  obtain ⟨r0, g1, g2, g3⟩ := legendre_new_some (F := ℝ) (mode := mode) hlt
  rw [hr] at g1
  cases g1
  refine ⟨r', h1, List.forall₂_iff_get.2 ⟨by simp [Rule.asNodeWeightPairs, h2, g2], ?_⟩⟩
  intro i hi1 hi2
  have hi : i < n := by simpa [Rule.asNodeWeightPairs, h2] using hi1
  have a1 := h3 i hi
  have a2 := g3 i hi
  obtain ⟨q', e1, e2, e3⟩ := nodeWeightPair_close hL (n := n) (k := n - i) (by omega) (by omega) (by omega)
    (q := r.nodeWeightPairs[i]'(by omega)) (by rw [a2, List.getElem?_eq_getElem])
  rw [a1, List.getElem?_eq_getElem (by omega), Option.some.injEq] at e1
  rw [← e1] at e2 e3
  exact ⟨e2, e3⟩

/-- C52: run in binary64 arithmetic – every literal, `+`, `-`, `*`, `/` rounded, `sin` with relative error `2^-52` and `cos` with absolute error
`2^-52` – `GaussLegendre::new` returns, for every degree, `n` finite pairs each of which is close to the corresponding pair of an exact Gauss
rule `G`: nodes within `3e-15`, weights within `6e-15` relatively plus, up to degree 100, `6e-17`. -/
theorem C52_binary64 [L : Libm] (hL : AccurateTrig L) (mode : Overflow) {n : ℕ} (hn : 0 < n) (hlt : n + 1 < 2 ^ 64) :
    ∃ r : Rule F64, GaussLegendre.new mode n = some r ∧ ∃ G : List (ℝ × ℝ), G.length = n ∧ (G.map (·.1)).Pairwise (· < ·) ∧
      (∀ q ∈ G, (legendreP n).eval q.1 = 0 ∧ -1 < q.1 ∧ q.1 < 1 ∧ 0 < q.2) ∧ ExactUpTo G (2 * n - 1) (Set.Ioo (-1) 1) (fun _ => 1) 1 ∧
      List.Forall₂ (fun (p : F64 × F64) (q : ℝ × ℝ) => p.1.isFinite = true ∧ p.2.isFinite = true ∧ |(p.1.val : ℝ) - q.1| ≤ 3 / 10 ^ 15 ∧
        |(p.2.val : ℝ) - q.2| ≤ 6 / 10 ^ 15 * q.2 + 6 / 10 ^ 17 ∧ (100 < n → |(p.2.val : ℝ) - q.2| ≤ 6 / 10 ^ 15 * q.2)) r.asNodeWeightPairs G := by
  have hU : U = 1 / 2 ^ 53 := rfl
  by_cases h100 : n ≤ 100
  · obtain ⟨r, hr, G, h1, h2, h3, h4, h5⟩ := C38_tables mode hn h100
    obtain ⟨r', hr', h6⟩ := legendre_f64_close hL mode hlt hr
    have h3' : ∀ q ∈ G, (legendreP n).eval q.1 = 0 ∧ -1 < q.1 ∧ q.1 < 1 ∧ 0 < q.2 := fun q hq =>
      ⟨(h3 q hq).1, (h3 q hq).2.1, (h3 q hq).2.2, gauss_weights_pos one_pos (by rw [h1]; exact h4) posDef_one q hq⟩
    refine ⟨r', hr', G, h1, h2, h3', h4, forall₂_trans_mem (fun p' p q hq => ?_) h6 h5⟩
    have hq := (h3' q hq).2.2.2
    rintro ⟨⟨a1, a2⟩, a3, a4⟩ ⟨b1, b2⟩
    refine ⟨a1, a3, ?_, ?_, fun h => absurd h (by omega)⟩
    · have := abs_sub_le p'.1.rv p.1 q.1
      refine this.trans ?_
      rw [hU] at a2
      norm_num at a2 b1 ⊢
      linarith
    · have := abs_sub_le p'.2.rv p.2 q.2
      refine this.trans ?_
      have hp : |p.2| ≤ q.2 + 5 / 10 ^ 17 := by
        have := abs_sub_abs_le_abs_sub p.2 q.2
        rw [abs_of_pos hq] at this
        linarith
      have h7 : 38 * U * |p.2| ≤ 38 * U * (q.2 + 5 / 10 ^ 17) := mul_le_mul_of_nonneg_left hp (by rw [hU]; positivity)
      rw [hU] at h7 a4
      norm_num at a4 b2 h7 ⊢
      linarith
  · obtain ⟨r, hr, G, h1, h2, h3, h4, h5⟩ := C50_asymptotic mode (by omega : 100 < n) hlt
    obtain ⟨r', hr', h6⟩ := legendre_f64_close hL mode hlt hr
    refine ⟨r', hr', G, h1, h2, h3, h4, forall₂_trans_mem (fun p' p q hq => ?_) h6 h5⟩
    have hq := (h3 q hq).2.2.2
    rintro ⟨⟨a1, a2⟩, a3, a4⟩ ⟨b1, b2⟩
    have hw : |p'.2.rv - q.2| ≤ 6 / 10 ^ 15 * q.2 := by
      have := abs_sub_le p'.2.rv p.2 q.2
      refine this.trans ?_
      have hp : |p.2| ≤ q.2 + 1 / 10 ^ 15 * q.2 := by
        have := abs_sub_abs_le_abs_sub p.2 q.2
        rw [abs_of_pos hq] at this
        linarith
      have h7 : 38 * U * |p.2| ≤ 38 * U * (q.2 + 1 / 10 ^ 15 * q.2) := mul_le_mul_of_nonneg_left hp (by rw [hU]; positivity)
      rw [hU] at h7 a4
      norm_num at a4 b2 h7 ⊢
      linarith
    refine ⟨a1, a3, ?_, hw.trans (by norm_num), fun _ => hw⟩
    · have := abs_sub_le p'.1.rv p.1 q.1
      refine this.trans ?_
      rw [hU] at a2
      norm_num at a2 b1 ⊢
      linarith

example : ∃ L : Libm, ∃ r : Rule F64, GaussLegendre.new .wrapping 1000 = some r ∧ ∀ p ∈ r.asNodeWeightPairs, p.1.isFinite = true ∧ p.2.isFinite = true := by
  obtain ⟨L, hL⟩ := accurateTrig_exists
  obtain ⟨r, h1, G, -, -, -, -, h2⟩ := C52_binary64 hL .wrapping (n := 1000) (by norm_num) (by norm_num)
  refine ⟨L, r, h1, fun p hp => ?_⟩
  obtain ⟨i, hi, rfl⟩ := List.getElem_of_mem hp
  have := List.forall₂_iff_get.1 h2
  exact ⟨(this.2 i hi (this.1 ▸ hi)).1, (this.2 i hi (this.1 ▸ hi)).2.1⟩

end GaussQuad.Props
