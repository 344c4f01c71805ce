import Verif.Spec.RayonTree
import Verif.Props.ParallelDifference
import Mathlib.Data.Nat.Log
import Mathlib.Algebra.Order.Ring.Pow

/-!
# C121: rounding of the sums in rayon's reduction trees

The bounds for `par_integrate` (C25, C55, C57, C58, …) contain `roundings s n`, the number of roundings on the longest path of the tree.
-/

set_option exponentiation.threshold 3000

namespace GaussQuad.Props
open Spec F64 FloatOps

/-- C121: any tree: the items of the largest piece, two roundings per split and two for the piece. -/
theorem C121_any (s : Schedule) : ∀ n, roundings s n ≤ largestPiece s n + 2 * splits s + 2 := by
  induction s with
  | leaf => intro n; simp [roundings, largestPiece, splits]
  | split mid l r ihl ihr =>
    intro n
    have h1 := ihl (min mid n)
    have h2 := ihr (n - mid)
    simp only [roundings, largestPiece, splits]
    omega

/-- C121: rayon's trees are never worse than the sequential loop by more than four roundings, however the threads steal. -/
theorem C121_rayon (s : Schedule) (n : ℕ) (h : Halving s n) : roundings s n ≤ n + 4 := by
  have key : ∀ (s : Schedule) (n : ℕ), Halving s n → roundings s n ≤ n + 4 ∧ (n ≤ 1 → roundings s n ≤ n + 2) ∧ (n = 2 → roundings s n ≤ 5) := by
    intro s
    induction s with
    | leaf => intro n _; simp only [roundings]; omega
    | split mid l r ihl ihr =>
      intro n h
      obtain ⟨h1, h2, h3, h4⟩ := h
      obtain ⟨a1, a2, a3⟩ := ihl _ h3
      obtain ⟨b1, b2, b3⟩ := ihr _ h4
      have e : min (n / 2) n = n / 2 := by omega
      simp only [roundings, h1, e]
      refine ⟨?_, by omega, ?_⟩
      · by_cases hn : n = 2
        · have := a2 (by omega); have := b2 (by omega); omega
        by_cases hn3 : n = 3
        · have := a2 (by omega); have := b3 (by omega); omega
        omega
      · intro hn
        have := a2 (by omega); have := b2 (by omega); omega
  exact (key s n h).1

/-- C121: a piece is never split more than `⌈log₂ n⌉` times. -/
theorem C121_depth (s : Schedule) : ∀ n, Halving s n → splits s ≤ Nat.clog 2 n := by
  induction s with
  | leaf => intro n _; simp [splits]
  | split mid l r ihl ihr =>
    intro n h
    obtain ⟨-, h2, h3, h4⟩ := h
    have a := ihl _ h3
    have b := ihr _ h4
    rw [Nat.clog_of_two_le (by norm_num) h2]
    have m1 : Nat.clog 2 (n / 2) ≤ Nat.clog 2 ((n + 2 - 1) / 2) := Nat.clog_mono_right 2 (by omega)
    have m2 : Nat.clog 2 (n - n / 2) ≤ Nat.clog 2 ((n + 2 - 1) / 2) := Nat.clog_mono_right 2 (by omega)
    simp only [splits]
    omega

/-- C121: rayon's trees with pieces of at most `m` items. -/
theorem C121_pieces (s : Schedule) {n m : ℕ} (h : Halving s n) (hm : largestPiece s n ≤ m) : roundings s n ≤ m + 2 * Nat.clog 2 n + 2 := by
  have := C121_any s n
  have := C121_depth s n h
  omega

/-- C121: splitting `k` times leaves pieces of at most `⌈n / 2^k⌉` items (or one). -/
theorem C121_halve (k : ℕ) : ∀ n, Halving (halve k n) n ∧ largestPiece (halve k n) n ≤ max 1 ((n + 2 ^ k - 1) / 2 ^ k) ∧ splits (halve k n) ≤ k := by
  induction k with
  | zero => intro n; simp [halve, Halving, largestPiece, splits]
  | succ k ih =>
    intro n
    unfold halve
    by_cases hn : 2 ≤ n
    · rw [if_pos hn]
      obtain ⟨a1, a2, a3⟩ := ih (n / 2)
      obtain ⟨b1, b2, b3⟩ := ih (n - n / 2)
      refine ⟨⟨rfl, hn, a1, b1⟩, ?_, ?_⟩
      · simp only [largestPiece]
        rw [show min (n / 2) n = n / 2 by omega]
        have hp : 0 < 2 ^ k := Nat.two_pow_pos k
        have e : (n + 2 ^ (k + 1) - 1) / 2 ^ (k + 1) = ((n + 2 ^ (k + 1) - 1) / 2) / 2 ^ k := by
          rw [Nat.div_div_eq_div_mul]; congr 1; rw [pow_succ, mul_comm]
        rw [e]
        have hpow : 2 ^ (k + 1) = 2 * 2 ^ k := by rw [pow_succ, mul_comm]
        have m1 : (n / 2 + 2 ^ k - 1) / 2 ^ k ≤ ((n + 2 ^ (k + 1) - 1) / 2) / 2 ^ k := Nat.div_le_div_right (by omega)
        have m2 : (n - n / 2 + 2 ^ k - 1) / 2 ^ k ≤ ((n + 2 ^ (k + 1) - 1) / 2) / 2 ^ k := Nat.div_le_div_right (by omega)
        omega
      · simp only [splits]; omega
    · rw [if_neg hn]
      refine ⟨trivial, ?_, Nat.zero_le _⟩
      simp only [largestPiece]
      omega

/-- the usual form of the accumulated relative error -/
theorem gamma_bound {k : ℕ} (h : k * u < 1) : (1 + u) ^ k - 1 ≤ k * u / (1 - k * u) := by
  have h1 : 0 < 1 - k * u := by linarith
  have hu := u_pos
  have hu1 : u ≤ 1 := by unfold u; norm_num
  have b : 1 - k * u ≤ (1 - u) ^ k := by
    have := one_add_mul_le_pow (a := -u) (by linarith) k
    rw [← sub_eq_add_neg] at this
    linarith
  have c : (1 + u) ^ k * (1 - u) ^ k ≤ 1 := by
    rw [← mul_pow]
    exact pow_le_one₀ (by nlinarith) (by nlinarith)
  rw [le_div_iff₀ h1]
  have d : (1 + u) ^ k * (1 - k * u) ≤ 1 := (mul_le_mul_of_nonneg_left b (by positivity)).trans c
  linarith

section
variable [L : Libm]

/-- C121: the sum of a rayon run that splits `n` items down to single ones is accurate to `2⌈log₂ n⌉ + 3` roundings; the sequential
loop needs `n`. -/
theorem C121_sum {α : Type} (g : α → F64) (s : Schedule) (xs : List α) (h : Halving s xs.length)
    (hf : (parSumMap s xs g).isFinite = true) {k : ℕ} (hk : k = xs.length + 4 ∨ largestPiece s xs.length ≤ 1 ∧ k = 2 * Nat.clog 2 xs.length + 3)
    (hku : k * u < 1) :
    |(parSumMap s xs g).val - (xs.map fun x => (g x).val).sum| ≤ k * u / (1 - k * u) * (xs.map fun x => |(g x).val|).sum := by
  have hr : roundings s xs.length ≤ k := by
    rcases hk with rfl | ⟨h1, rfl⟩
    · exact C121_rayon s _ h
    · have := C121_pieces s h h1
      omega
  refine ((parSum_within g s xs hf).mono hr).1.trans (mul_le_mul_of_nonneg_right (gamma_bound hku) ?_)
  refine List.sum_nonneg fun y hy => ?_
  obtain ⟨x, -, rfl⟩ := List.mem_map.1 hy
  exact abs_nonneg _

/-- C121: a Gauss rule on a finite interval, run by rayon, differs from the sequential loop by at most
`2·(n+5)u/(1-(n+5)u)` times the sum of the magnitudes of the terms, whatever the threads do. -/
theorem C121_gauss (R : AnyRule F64) (hR : (∃ r, R = .legendre r) ∨ (∃ r, R = .chebyshevFirst r) ∨ (∃ r, R = .chebyshevSecond r) ∨
      ∃ r, R = .jacobi r) (s s' : Schedule) (a b : F64) (f : F64 → F64) (h : Halving s (points a b R).length)
    (h1 : (R.parIntegrate s s' a b f).isFinite = true) (h2 : (R.value a b f).isFinite = true) {k : ℕ}
    (hk : k = (points a b R).length + 5) (hku : k * u < 1) :
    |(R.parIntegrate s s' a b f).val - (R.value a b f).val| ≤ |(lit 0.5 *ᶠ (b -ᶠ a) : F64).val| *
      (2 * (k * u / (1 - k * u)) * ((summands a b f R).map fun y => |y.val|).sum) + 1 / 2 ^ 1074 := by
  refine (C25_gauss_difference R hR s s' a b f h1 h2).trans ?_
  have hr := C121_rayon s _ h
  have hs : 0 ≤ ((summands a b f R).map fun y => |y.val|).sum := sum_abs_nonneg _
  have hu1 : 1 ≤ 1 + u := by linarith [u_pos]
  have m1 : (1 + u) ^ (roundings s (points a b R).length + 1) ≤ (1 + u) ^ k := pow_le_pow_right₀ hu1 (by omega)
  have m2 : (1 + u) ^ ((points a b R).length + 1) ≤ (1 + u) ^ k := pow_le_pow_right₀ hu1 (by omega)
  have hg := gamma_bound hku
  gcongr
  linarith

end

/-- 100 nodes on 8 threads: three levels of splits, pieces of 13 items, at most 21 roundings instead of 100 -/
example : roundings (halve 3 100) 100 ≤ 21 := by
  have h := C121_halve 3 100
  have := C121_any (halve 3 100) 100
  have h2 : largestPiece (halve 3 100) 100 ≤ 13 := h.2.1.trans (by norm_num)
  omega

/-- the bound `n + 4` is attained: three items, split down to single ones -/
example : Halving (.split 1 .leaf (.split 1 .leaf .leaf)) 3 ∧ roundings (.split 1 .leaf (.split 1 .leaf .leaf)) 3 = 3 + 4 := by
  simp [Halving, roundings]

example : splits (.split 1 .leaf (.split 1 .leaf .leaf)) = Nat.clog 2 3 := by decide

section
attribute [local instance] Conformance.noLibm

example : |(parSumMap (.split 1 .leaf (.split 1 .leaf .leaf)) [F64.round 0.1 false, F64.round 0.2 false, F64.round 0.3 false] id).val - 0.6| ≤
    1 / 2 ^ 49 := by
  have h := C121_sum id (.split 1 .leaf (.split 1 .leaf .leaf)) [F64.round 0.1 false, F64.round 0.2 false, F64.round 0.3 false]
    (by simp [Halving]) (by decide +kernel) (k := 7) (.inl rfl) (by unfold u; norm_num)
  have e : |(parSumMap (.split 1 .leaf (.split 1 .leaf .leaf)) [F64.round 0.1 false, F64.round 0.2 false, F64.round 0.3 false] id).val - 0.6| ≤
      |(parSumMap (.split 1 .leaf (.split 1 .leaf .leaf)) [F64.round 0.1 false, F64.round 0.2 false, F64.round 0.3 false] id).val -
        ([F64.round 0.1 false, F64.round 0.2 false, F64.round 0.3 false].map fun x => (id x).val).sum| +
      |([F64.round 0.1 false, F64.round 0.2 false, F64.round 0.3 false].map fun x => (id x).val).sum - 0.6| := abs_sub_le _ _ _
  refine (e.trans (add_le_add_left h _)).trans ?_
  decide +kernel

example : |((AnyRule.legendre ⟨[(F64.round (-0.3) false, F64.round 0.7 false), (F64.round 0.6 false, F64.round 1.1 false)]⟩).parIntegrate
      (.split 1 .leaf .leaf) .leaf (zero false) (F64.round 2 false) id).val -
    ((AnyRule.legendre ⟨[(F64.round (-0.3) false, F64.round 0.7 false), (F64.round 0.6 false, F64.round 1.1 false)]⟩).value
      (zero false) (F64.round 2 false) id).val| ≤ 1 / 2 ^ 48 := by
  refine (C121_gauss _ (.inl ⟨_, rfl⟩) _ _ _ _ _ (by simp [points, Halving]) (by decide +kernel) (by decide +kernel) (k := 7) rfl
    (by unfold u; norm_num)).trans ?_
  decide +kernel

end

end GaussQuad.Props
