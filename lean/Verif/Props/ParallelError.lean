import Verif.Proofs.F64Error
import Verif.Proofs.Protocol
import Mathlib.Algebra.BigOperators.Group.List.Basic
import Mathlib.Algebra.Order.BigOperators.Group.List

/-!
# C25, IEEE part: sequential and parallel sums differ only by summation rounding
-/

set_option exponentiation.threshold 3000

namespace GaussQuad.Props
open F64 FloatOps

/-- number of roundings on the longest path of the reduction tree over `n` items -/
def roundings : Schedule → ℕ → ℕ
  | .leaf, n => n + 2
  | .split mid l r, n => max (roundings l (min mid n)) (roundings r (n - mid)) + 2

/-- `r` approximates the exact sum `e` of terms with absolute sum `m` up to `k` roundings -/
def Within (k : ℕ) (r e m : ℚ) : Prop := |r - e| ≤ ((1 + u) ^ k - 1) * m ∧ |e| ≤ m

theorem Within.mono {k k' : ℕ} {r e m : ℚ} (h : Within k r e m) (hk : k ≤ k') : Within k' r e m := by
  refine ⟨h.1.trans ?_, h.2⟩
  have hm : 0 ≤ m := (abs_nonneg _).trans h.2
  have : (1 + u) ^ k ≤ (1 + u) ^ k' := pow_le_pow_right₀ (by linarith [u_pos]) hk
  nlinarith

theorem Within.add {k : ℕ} {x y : F64} {e₁ m₁ e₂ m₂ : ℚ} (hf : (F64.add x y).isFinite = true)
    (h₁ : Within k x.val e₁ m₁) (h₂ : Within k y.val e₂ m₂) : Within (k + 1) (F64.add x y).val (e₁ + e₂) (m₁ + m₂) := by
  obtain ⟨hx, hy, herr⟩ := add_error hf
  obtain ⟨a1, b1⟩ := h₁
  obtain ⟨a2, b2⟩ := h₂
  refine ⟨?_, (abs_add_le _ _).trans (add_le_add b1 b2)⟩
  set U := (1 + u) ^ k with hU
  have hU1 : 1 ≤ U := one_le_pow₀ (by linarith [u_pos])
  have hup := u_pos
  have hs : |x.val + y.val - (e₁ + e₂)| ≤ (U - 1) * (m₁ + m₂) := by
    have : x.val + y.val - (e₁ + e₂) = (x.val - e₁) + (y.val - e₂) := by ring
    rw [this]
    refine (abs_add_le _ _).trans ?_
    linarith
  have hsum : |x.val + y.val| ≤ U * (m₁ + m₂) := by
    have : x.val + y.val = (x.val + y.val - (e₁ + e₂)) + (e₁ + e₂) := by ring
    rw [this]
    refine (abs_add_le _ _).trans ?_
    have := abs_add_le e₁ e₂
    linarith
  have : (F64.add x y).val - (e₁ + e₂) = ((F64.add x y).val - (x.val + y.val)) + (x.val + y.val - (e₁ + e₂)) := by ring
  rw [this]
  refine (abs_add_le _ _).trans ?_
  rw [pow_succ, ← hU]
  nlinarith

theorem within_exact (x : F64) : Within 0 x.val x.val |x.val| := by
  refine ⟨by simp, le_rfl⟩

theorem within_negZero (k : ℕ) : Within k (F64.zero true).val 0 0 := by
  rw [val_zero]; exact ⟨by simp, by simp⟩

variable [Libm]

theorem foldl_within (ys : List F64) : ∀ (k : ℕ) (acc : F64) (e m : ℚ), (ys.foldl F64.add acc).isFinite = true →
    (acc.isFinite = true → Within k acc.val e m) →
    Within (k + ys.length) (ys.foldl F64.add acc).val (e + (ys.map F64.val).sum) (m + (ys.map fun y => |y.val|).sum) ∧
      acc.isFinite = true ∧ ∀ y ∈ ys, y.isFinite = true := by
  induction ys with
  | nil =>
    intro k acc e m hf h
    simp only [List.foldl_nil] at hf
    simpa using ⟨h hf, hf⟩
  | cons y ys ih =>
    intro k acc e m hf h
    simp only [List.foldl_cons] at hf
    have := ih (k + 1) (F64.add acc y) (e + y.val) (m + |y.val|) hf (fun hf' =>
      Within.add hf' (h (add_error hf').1) ((within_exact y).mono (Nat.zero_le k)))
    obtain ⟨h1, h2, h3⟩ := this
    have h4 := add_error h2
    refine ⟨?_, h4.1, ?_⟩
    · have e1 : k + (y :: ys).length = k + 1 + ys.length := by simp; omega
      rw [e1, List.foldl_cons, List.map_cons, List.map_cons, List.sum_cons, List.sum_cons, ← add_assoc, ← add_assoc]
      exact h1
    · intro z hz
      rcases List.mem_cons.1 hz with rfl | hz
      · exact h4.2.1
      · exact h3 z hz

/-- C25, sequential: `iter().map(g).sum()` of `n` terms is within `((1+u)^n - 1)·Σ|term|` of the exact sum whenever
the result is finite (then every term is finite too). -/
theorem C25_sequential_error (ys : List F64) (hf : (sumList ys).isFinite = true) :
    |(sumList ys).val - (ys.map F64.val).sum| ≤ ((1 + u) ^ ys.length - 1) * (ys.map fun y => |y.val|).sum ∧
      ∀ y ∈ ys, y.isFinite = true := by
  have := foldl_within ys 0 (F64.zero true) 0 0 hf (fun _ => within_negZero 0)
  simp only [zero_add] at this
  exact ⟨this.1.1, this.2.2⟩

theorem parSum_within {α : Type} (g : α → F64) (s : Schedule) : ∀ (xs : List α), (parSumMap s xs g).isFinite = true →
    Within (roundings s xs.length) (parSumMap s xs g).val ((xs.map fun x => (g x).val).sum) ((xs.map fun x => |(g x).val|).sum) := by
  induction s with
  | leaf =>
    intro xs hf
    have hf' : (F64.add (F64.add (F64.zero true) (F64.zero true)) (sumList (xs.map g))).isFinite = true := hf
    have h1 := add_error hf'
    have h2 := foldl_within (xs.map g) 0 (F64.zero true) 0 0 h1.2.1 (fun _ => within_negZero 0)
    simp only [zero_add, List.length_map, List.map_map] at h2
    have hz := Within.add (k := xs.length) h1.1 (within_negZero _) (within_negZero _)
    have h3 := Within.add hf' hz (h2.1.mono (Nat.le_succ _))
    simp only [zero_add] at h3
    exact h3
  | split mid l r ihl ihr =>
    intro xs hf
    have hf' : (F64.add (F64.add (F64.zero true) (parSumMap l (xs.take mid) g)) (parSumMap r (xs.drop mid) g)).isFinite = true := hf
    have h1 := add_error hf'
    have h2 := add_error h1.1
    have hl := ihl _ h2.2.1
    have hr := ihr _ h1.2.1
    rw [List.length_take] at hl
    rw [List.length_drop] at hr
    have a1 := Within.add (k := max (roundings l (min mid xs.length)) (roundings r (xs.length - mid))) h1.1 (within_negZero _)
      (hl.mono (le_max_left _ _))
    have a2 := Within.add hf' a1 (hr.mono ((le_max_right _ _).trans (Nat.le_succ _)))
    have e1 : (0 + ((xs.take mid).map fun x => (g x).val).sum) + ((xs.drop mid).map fun x => (g x).val).sum = (xs.map fun x => (g x).val).sum := by
      rw [zero_add, ← List.sum_append, ← List.map_append, List.take_append_drop]
    have e2 : (0 + ((xs.take mid).map fun x => |(g x).val|).sum) + ((xs.drop mid).map fun x => |(g x).val|).sum = (xs.map fun x => |(g x).val|).sum := by
      rw [zero_add, ← List.sum_append, ← List.map_append, List.take_append_drop]
    rw [e1, e2] at a2
    exact a2

/-- C25, parallel: for every schedule, the parallel sum is within `((1+u)^k - 1)·Σ|term|` of the exact sum, `k` the
number of roundings on the longest path of the reduction tree. -/
theorem C25_parallel_error {α : Type} (g : α → F64) (s : Schedule) (xs : List α) (hf : (parSumMap s xs g).isFinite = true) :
    |(parSumMap s xs g).val - (xs.map fun x => (g x).val).sum| ≤
      ((1 + u) ^ roundings s xs.length - 1) * (xs.map fun x => |(g x).val|).sum :=
  (parSum_within g s xs hf).1

/-- C25: distance between `par_integrate` and `integrate` of Gauss-Hermite in binary64, for every schedule. -/
theorem C25_hermite_difference (s : Schedule) (r : Rule F64) (f : F64 → F64)
    (h1 : (GaussHermite.parIntegrate s r f).isFinite = true) (h2 : (Id.run (GaussHermite.integrate r fun x => pure (f x))).isFinite = true) :
    |(GaussHermite.parIntegrate s r f).val - (Id.run (GaussHermite.integrate r fun x => pure (f x))).val| ≤
      ((1 + u) ^ roundings s r.degree - 1 + ((1 + u) ^ r.degree - 1)) *
        (r.nodeWeightPairs.map fun p => |(f p.1 *ᶠ p.2).val|).sum := by
  have e : Id.run (GaussHermite.integrate r fun x => pure (f x)) = sumList (r.nodeWeightPairs.map fun p => f p.1 *ᶠ p.2) := by
    unfold GaussHermite.integrate
    exact sumMapM_id _ _
  rw [e] at h2 ⊢
  have a := C25_parallel_error (fun p : F64 × F64 => f p.1 *ᶠ p.2) s r.nodeWeightPairs h1
  have b := (C25_sequential_error _ h2).1
  simp only [List.map_map, List.length_map, Function.comp_def] at b
  have : (GaussHermite.parIntegrate s r f).val - (sumList (r.nodeWeightPairs.map fun p => f p.1 *ᶠ p.2)).val =
      ((GaussHermite.parIntegrate s r f).val - (r.nodeWeightPairs.map fun p => (f p.1 *ᶠ p.2).val).sum) -
      ((sumList (r.nodeWeightPairs.map fun p => f p.1 *ᶠ p.2)).val - (r.nodeWeightPairs.map fun p => (f p.1 *ᶠ p.2).val).sum) := by ring
  rw [this]
  refine (abs_sub _ _).trans ?_
  rw [add_mul]
  exact add_le_add a b

/-- the three additions orders of `1, 2^53, -2^53` -/
def one : F64 := F64.round 1 false
def big : F64 := F64.round (2 ^ 53) false
def negBig : F64 := F64.round (-2 ^ 53) false

omit [Libm] in
theorem seq_value : (F64.add (F64.add (F64.add (F64.zero true) (F64.mul one one)) (F64.mul big one)) (F64.mul negBig one)).val = 0 := by
  decide +kernel

omit [Libm] in
theorem leaf_value : (F64.add (F64.add (F64.zero true) (F64.zero true)) (F64.add (F64.add (F64.add (F64.zero true)
    (F64.mul one one)) (F64.mul big one)) (F64.mul negBig one))).val = 0 := by
  decide +kernel

omit [Libm] in
theorem split_value : (F64.add (F64.add (F64.zero true) (F64.add (F64.add (F64.zero true) (F64.zero true)) (F64.add (F64.zero true)
    (F64.mul one one)))) (F64.add (F64.add (F64.zero true) (F64.zero true)) (F64.add (F64.add (F64.zero true) (F64.mul big one))
    (F64.mul negBig one)))).val = 1 := by
  decide +kernel

theorem orders (a b c : F64) : let r : Rule F64 := ⟨[(a, a), (b, a), (c, a)]⟩
    GaussHermite.parIntegrate .leaf r id = F64.add (F64.add (F64.zero true) (F64.zero true)) (F64.add (F64.add (F64.add (F64.zero true)
      (F64.mul a a)) (F64.mul b a)) (F64.mul c a)) ∧
    GaussHermite.parIntegrate (.split 1 .leaf .leaf) r id = F64.add (F64.add (F64.zero true) (F64.add (F64.add (F64.zero true)
      (F64.zero true)) (F64.add (F64.zero true) (F64.mul a a)))) (F64.add (F64.add (F64.zero true) (F64.zero true))
      (F64.add (F64.add (F64.zero true) (F64.mul b a)) (F64.mul c a))) ∧
    Id.run (GaussHermite.integrate r fun x => pure x) =
      F64.add (F64.add (F64.add (F64.zero true) (F64.mul a a)) (F64.mul b a)) (F64.mul c a) :=
  ⟨rfl, rfl, rfl⟩

/-- C25: bitwise equality is not guaranteed: the terms `1, 2^53, -2^53` sum to 0 sequentially but to 1 when the
scheduler splits after the first item. -/
theorem C25_not_bitwise :
    let r : Rule F64 := ⟨[(one, one), (big, one), (negBig, one)]⟩
    (GaussHermite.parIntegrate .leaf r id).val = 0 ∧ (GaussHermite.parIntegrate (.split 1 .leaf .leaf) r id).val = 1 ∧
      (Id.run (GaussHermite.integrate r fun x => pure x)).val = 0 := by
  intro r
  obtain ⟨h1, h2, h3⟩ := orders one big negBig
  refine ⟨(congrArg F64.val h1).trans leaf_value, (congrArg F64.val h2).trans split_value, (congrArg F64.val h3).trans seq_value⟩

example : |(sumList [one, one, one]).val - 3| ≤ ((1 + u) ^ 3 - 1) * 3 := by
  have h : (sumList [one, one, one]).isFinite = true := by
    have e : ∀ a : F64, sumList [a, a, a] = F64.add (F64.add (F64.add (F64.zero true) a) a) a := fun _ => rfl
    rw [e]
    clear e
    decide +kernel
  have := (C25_sequential_error [one, one, one] h).1
  have h1 : one.val = 1 := by decide +kernel
  simpa [h1, show (1 : ℚ) + (1 + 1) = 3 by norm_num] using this

/-- the error bounds apply to these sums: all three are finite -/
example : (GaussHermite.parIntegrate (.split 1 .leaf .leaf) (⟨[(one, one), (big, one), (negBig, one)]⟩ : Rule F64) id).isFinite = true := by
  have h := (orders one big negBig).2.1
  refine (congrArg F64.isFinite h).trans ?_
  clear h
  decide +kernel

/-- `1 + 2^60 - 2^60` added in two halves: the bound for this tree -/
example (h : (parSumMap (.split 1 .leaf .leaf) [one, big, negBig] id).isFinite = true) :
    |(parSumMap (.split 1 .leaf .leaf) [one, big, negBig] id).val - (one.val + (big.val + (negBig.val + 0)))| ≤
      ((1 + u) ^ roundings (.split 1 .leaf .leaf) 3 - 1) * (|one.val| + (|big.val| + (|negBig.val| + 0))) :=
  C25_parallel_error id _ _ h

end GaussQuad.Props
