import Verif.Proofs.CountedLegendre
import Verif.Props.Protocol
import Verif.Props.DataAccess
import Mathlib.Tactic.Ring
import Mathlib.Tactic.Linarith
import Mathlib.Algebra.BigOperators.Group.List.Basic

/-!
# C81: number of operations and of calls

`GaussLegendre` is documented to compute its nodes and weights in O(n) time (/repo/src/legendre/mod.rs l.62, l.90-91), and
nested integrals to need O(n^d) evaluations (/repo/src/lib.rs l.178-179).
-/

namespace GaussQuad.Props
open Spec FloatOps Bogaert

section
variable {F : Type} [FloatOps F]

/-- forgetting the counts of a rule -/
def eraseRule (r : Rule (Counted F)) : Rule F := ⟨r.nodeWeightPairs.map fun p => (p.1.val, p.2.val)⟩

/-- all operations spent on the pairs of a rule -/
def ruleCost (r : Rule (Counted F)) : ℕ := (r.nodeWeightPairs.map fun p => p.1.cost + p.2.cost).sum

omit [FloatOps F] in
theorem mapM_some_length {α β : Type} {g : α → Option β} : ∀ {l : List α} {ps : List β}, l.mapM g = some ps → ps.length = l.length := by
  intro l
  induction l with
  | nil => intro ps h; simp at h; subst h; rfl
  | cons x xs ih =>
    intro ps h
    simp only [List.mapM_cons, Option.bind_eq_bind, Option.bind_eq_some_iff, Option.pure_def, Option.some_inj] at h
    obtain ⟨y, -, ys, hys, rfl⟩ := h
    simp [ih hys]

/-- C81: `GaussLegendre::new(n)` computes the same rule when its operations are counted, and needs at most `11901 n` of them
(counted without sharing of intermediate results): linear time. -/
theorem C81_legendre_linear (mode : Overflow) (n : ℕ) :
    (GaussLegendre.new mode n : Option (Rule (Counted F))).map eraseRule = GaussLegendre.new mode n ∧
    ∀ r : Rule (Counted F), GaussLegendre.new mode n = some r → ruleCost r ≤ 11901 * r.degree ∧ r.degree ≤ n := by
  unfold GaussLegendre.new
  cases hh : usizeAddOne mode n with
  | none => exact ⟨rfl, fun r hr => by cases hr⟩
  | some hi =>
    have hle : hi ≤ n + 1 := by
      unfold usizeAddOne at hh
      split at hh
      · rw [Option.some_inj] at hh; omega
      · split at hh <;> simp at hh; omega
    obtain ⟨h1, h2⟩ := costs_mapM (F := F) n (rangeRev hi)
    simp only [Option.bind_eq_bind, Option.bind_some]
    rw [← h1]
    cases hp : ((rangeRev hi).mapM (nodeWeightPair n) : Option (List (Counted F × Counted F))) with
    | none => exact ⟨rfl, fun r hr => by cases hr⟩
    | some ps =>
      refine ⟨rfl, fun r hr => ?_⟩
      simp only [Option.bind_some, Option.pure_def, Option.some_inj] at hr
      subst hr
      have hlen : ps.length = (rangeRev hi).length := mapM_some_length hp
      have := h2 ps hp
      refine ⟨?_, ?_⟩
      · show (ps.map fun p => p.1.cost + p.2.cost).sum ≤ 11901 * ps.length
        rw [hlen]; exact this
      · show ps.length ≤ n
        rw [hlen, length_rangeRev]; omega

/-- on counted arithmetic the rule of degree 1000 exists and took at most 11901000 operations -/
example : ∃ r : Rule (Counted F), GaussLegendre.new .checked 1000 = some r ∧ ruleCost r ≤ 11901000 := by
  obtain ⟨r, hr, -⟩ := C08_legendre (F := Counted F) .checked (n := 1000) (by decide)
  obtain ⟨h1, h2⟩ := (C81_legendre_linear (F := F) .checked 1000).2 r hr
  exact ⟨r, hr, h1.trans (by omega)⟩

/-- C81: the Chebyshev rules need at most 11 and 27 operations per pair. -/
theorem C81_chebyshev_linear (mode : Overflow) (n : ℕ) :
    ((GaussChebyshevFirstKind.new mode n : Option (Rule (Counted F))).map eraseRule = GaussChebyshevFirstKind.new mode n ∧
      ∀ r : Rule (Counted F), GaussChebyshevFirstKind.new mode n = some r → ruleCost r ≤ 11 * r.degree) ∧
    ((GaussChebyshevSecondKind.new mode n : Option (Rule (Counted F))).map eraseRule = GaussChebyshevSecondKind.new mode n ∧
      ∀ r : Rule (Counted F), GaussChebyshevSecondKind.new mode n = some r → ruleCost r ≤ 27 * r.degree) := by
  have sum : ∀ (l : List (Counted F × Counted F)) (c : ℕ), (∀ p ∈ l, p.1.cost + p.2.cost ≤ c) → (l.map fun p => p.1.cost + p.2.cost).sum ≤ c * l.length := by
    intro l c
    induction l with
    | nil => intro _; simp
    | cons p l ih =>
      intro h
      have h1 := h p (by simp)
      have h2 := ih fun q hq => h q (List.mem_cons_of_mem _ hq)
      simp only [List.map_cons, List.sum_cons, List.length_cons]
      rw [Nat.mul_succ]; omega
  constructor
  · unfold GaussChebyshevFirstKind.new
    cases usizeAddOne mode n with
    | none => exact ⟨rfl, fun r hr => by cases hr⟩
    | some hi =>
      refine ⟨?_, fun r hr => ?_⟩
      · simp only [Option.bind_eq_bind, Option.bind_some, Option.pure_def, Option.map_some, eraseRule, List.map_map]; rfl
      · simp only [Option.bind_eq_bind, Option.bind_some, Option.pure_def, Option.some_inj] at hr
        subst hr
        refine sum _ _ fun p hp => ?_
        obtain ⟨i, -, rfl⟩ := List.mem_map.1 hp
        simp [GaussChebyshevFirstKind.pair]
  · unfold GaussChebyshevSecondKind.new
    cases usizeAddOne mode n with
    | none => exact ⟨rfl, fun r hr => by cases hr⟩
    | some hi =>
      refine ⟨?_, fun r hr => ?_⟩
      · simp only [Option.bind_eq_bind, Option.bind_some, Option.pure_def, Option.map_some, eraseRule, List.map_map]; rfl
      · simp only [Option.bind_eq_bind, Option.bind_some, Option.pure_def, Option.some_inj] at hr
        subst hr
        refine sum _ _ fun p hp => ?_
        obtain ⟨i, -, rfl⟩ := List.mem_map.1 hp
        simp [GaussChebyshevSecondKind.pair]

/-! ## nested integration -/

/-- number of calls `integrate` makes -/
def calls : AnyRule F → ℕ
  | .midpoint r => r.degree
  | .trapezoid r => r.degree + 1
  | .simpson r => 2 * r.degree + 1
  | .legendre r => r.degree
  | .chebyshevFirst r => r.degree
  | .chebyshevSecond r => r.degree
  | .jacobi r => r.degree
  | .hermite r => r.degree
  | .laguerre r => r.degree

theorem length_points (R : AnyRule F) (a b : F) : (points a b R).length = calls R := by
  obtain ⟨h1, h2, h3, h4, h5, h6⟩ := C15_number_of_calls (F := F) a b
  cases R with
  | midpoint r => exact h4 r
  | trapezoid r => exact h5 r
  | simpson r => exact h6 r
  | legendre r => exact (h1 r).1
  | chebyshevFirst r => exact (h1 r).2.1
  | chebyshevSecond r => exact (h1 r).2.2.1
  | jacobi r => exact h2 r
  | hermite r => exact (h1 r).2.2.2
  | laguerre r => exact h3 r

/-- a nested integral of any depth, as in the documentation of the crate, /repo/src/lib.rs l.163-179: at each level a rule and two
bounds that may depend on the outer variables -/
def nested {m : Type → Type} [Monad m] : List (AnyRule F × (List F → F) × (List F → F)) → List F → (List F → m F) → m F
  | [], xs, f => f xs
  | (R, a, b) :: levels, xs, f => R.integrate (a xs) (b xs) fun x => nested levels (xs ++ [x]) f

/-- the points of the nested rule, in calling order -/
def nestedPoints : List (AnyRule F × (List F → F) × (List F → F)) → List F → List (List F)
  | [], xs => [xs]
  | (R, a, b) :: levels, xs => (points (a xs) (b xs) R).flatMap fun x => nestedPoints levels (xs ++ [x])

theorem length_nestedPoints (levels : List (AnyRule F × (List F → F) × (List F → F))) : ∀ xs,
    (nestedPoints levels xs).length = (levels.map fun l => calls l.1).prod := by
  induction levels with
  | nil => intro xs; rfl
  | cons l levels ih =>
    intro xs
    obtain ⟨R, a, b⟩ := l
    simp only [nestedPoints, List.length_flatMap, ih, List.map_cons, List.prod_cons]
    rw [List.map_const', List.sum_replicate, length_points, smul_eq_mul]

/-- the integrand `f` (a closure with state `σ`, of several variables), logging its arguments -/
def logCalls {σ : Type} (f : σ → List F → F × σ) (xs : List F) : StateM (List (List F) × σ) F := fun st =>
  ((f st.2 xs).1, (st.1 ++ [xs], (f st.2 xs).2))

/-- C81: in a nested integral of any depth, whatever the bounds do with the outer variables, the innermost integrand is called
exactly at the points of the product rule, in lexicographic order; their number is the product of the numbers of calls of the
rules.  For a stateful integrand that logs its arguments. -/
theorem C81_nested_calls {σ : Type} (levels : List (AnyRule F × (List F → F) × (List F → F))) (f : σ → List F → F × σ) (s : σ) :
    ((nested levels [] (logCalls f)).run ([], s)).2.1 =
      nestedPoints levels [] ∧ (nestedPoints levels []).length = (levels.map fun l => calls l.1).prod := by
  refine ⟨?_, length_nestedPoints levels []⟩
  have main : ∀ (levels : List (AnyRule F × (List F → F) × (List F → F))) (xs : List F) (log : List (List F)) (s : σ),
      ((nested levels xs (logCalls f)).run (log, s)).2.1 =
        log ++ nestedPoints levels xs := by
    intro levels
    induction levels with
    | nil => intro xs log s; rfl
    | cons l levels ih =>
      intro xs log s
      obtain ⟨R, a, b⟩ := l
      simp only [nested, nestedPoints]
      rw [C15_protocol]
      have inner : ∀ (ys : List F) (log : List (List F)) (s : σ),
          ((ys.mapM fun x => nested levels (xs ++ [x]) (logCalls f)).run (log, s)).2.1 = log ++ ys.flatMap fun x => nestedPoints levels (xs ++ [x]) := by
        intro ys
        induction ys with
        | nil => intro log s; simp; rfl
        | cons y ys ih2 =>
          intro log s
          rw [List.mapM_cons, StateT.run_bind]
          generalize hr : ((nested levels (xs ++ [y]) (logCalls f)).run (log, s)) = r
          have h1 := ih (xs ++ [y]) log s
          rw [hr] at h1
          obtain ⟨v, log', s'⟩ := r
          simp only at h1
          have h2 := ih2 log' s'
          rw [List.flatMap_cons, ← List.append_assoc, ← h1, ← h2]
          rfl
      exact inner _ log s
  have := main levels [] [] s
  rw [List.nil_append] at this
  exact this

/-- a triple integral with Simpson's rule on `n` panels at each level: `(2n+1)^3` calls -/
example (q : NodeRule) (a b : List F → F) : (nestedPoints [(.simpson q, a, b), (.simpson q, a, b), (.simpson q, a, b)] []).length = (2 * q.degree + 1) ^ 3 := by
  rw [length_nestedPoints]; simp [calls]; ring

/-! ## one integration -/

/-- the stored pairs of a rule -/
def storedPairs : AnyRule F → List (F × F)
  | .midpoint _ | .trapezoid _ | .simpson _ => []
  | .legendre r | .chebyshevFirst r | .chebyshevSecond r | .hermite r => r.nodeWeightPairs
  | .jacobi r => r.nodeWeightPairs
  | .laguerre r => r.nodeWeightPairs

/-- a fold of additions over values of cost at most `c` -/
theorem cost_fold (c : ℕ) (ys : List (Counted F)) (h : ∀ y ∈ ys, y.cost ≤ c) (z : Counted F) :
    (ys.foldl (· +ᶠ ·) z).cost ≤ z.cost + (c + 1) * ys.length := by
  induction ys generalizing z with
  | nil => simp
  | cons y ys ih =>
    have h1 := h y (by simp)
    have h2 := ih (fun q hq => h q (List.mem_cons_of_mem _ hq)) (z +ᶠ y)
    simp only [List.foldl_cons, List.length_cons, Nat.mul_succ]
    rw [Counted.cost_add] at h2
    omega

theorem cost_weighted (c : ℕ) (pairs : List (Counted F × Counted F)) (ys : List (Counted F)) (hl : ys.length = pairs.length)
    (hp : ∀ p ∈ pairs, p.2.cost = 0) (h : ∀ y ∈ ys, y.cost ≤ c) : (weighted pairs ys).cost ≤ (c + 2) * pairs.length := by
  have h1 := cost_fold (F := F) (c + 1) (List.zipWith (fun y p => y *ᶠ p.2) ys pairs) ?_ sumInit
  · rw [Counted.cost_sumInit, List.length_zipWith, hl, Nat.min_self, Nat.zero_add] at h1
    exact h1
  · intro z hz
    obtain ⟨i, hi, rfl⟩ := List.mem_iff_getElem.1 hz
    rw [List.getElem_zipWith, Counted.cost_mul, hp _ (List.getElem_mem _)]
    have := h _ (List.getElem_mem (l := ys) (n := i) (by simp at hi; omega))
    omega

/-- C81: one call of `integrate`, for any of the nine rules: with an integrand that costs at most `k` operations per call, the
integration costs at most `k + 12` operations per call of the integrand, and 12 more. -/
theorem C81_integrate_linear (R : AnyRule (Counted F)) (hR : ∀ p ∈ storedPairs R, p.1.cost = 0 ∧ p.2.cost = 0) (a b : Counted F)
    (ha : a.cost = 0) (hb : b.cost = 0) (g : Counted F → Counted F) (k : ℕ) (hg : ∀ x, (g x).cost ≤ x.cost + k) :
    (R.value a b g).cost ≤ (k + 12) * calls R + 12 := by
  have hpts : ∀ x ∈ points a b R, x.cost ≤ 9 := by
    intro x hx
    cases R <;> simp only [points, List.mem_append, List.mem_map, List.mem_cons, List.not_mem_nil, or_false] at hx
    case midpoint r => obtain ⟨i, -, rfl⟩ := hx; simp [ha, hb]
    case trapezoid r => rcases hx with (rfl | rfl) | ⟨i, -, rfl⟩ <;> simp [ha, hb]
    case simpson r => rcases hx with (⟨i, -, rfl⟩ | ⟨i, -, rfl⟩) | (rfl | rfl) <;> simp [ha, hb]
    case hermite r => obtain ⟨p, hp, rfl⟩ := hx; simp [(hR p hp).1]
    case laguerre r => obtain ⟨p, hp, rfl⟩ := hx; simp [(hR p hp).1]
    all_goals obtain ⟨p, hp, rfl⟩ := hx; simp [(hR p hp).1, ha, hb]
  have hys : ∀ y ∈ (points a b R).map g, y.cost ≤ k + 9 := by
    intro y hy
    obtain ⟨x, hx, rfl⟩ := List.mem_map.1 hy
    have := hpts x hx
    have := hg x
    omega
  have hlen : ((points a b R).map g).length = calls R := by rw [List.length_map, length_points]
  rw [C15_value]
  generalize (points a b R).map g = ys at hys hlen
  have hget : ∀ i, (ys.getD i sumInit).cost ≤ k + 9 := by
    intro i
    rw [List.getD_eq_getElem?_getD]
    by_cases h : i < ys.length
    · rw [List.getElem?_eq_getElem h]; exact hys _ (List.getElem_mem h)
    · rw [List.getElem?_eq_none (by omega)]; simp
  cases R
  case midpoint r =>
    have h1 := cost_fold (F := F) (k + 9) ys hys sumInit
    rw [hlen] at h1
    simp only [Spec.combine, Counted.cost_mul, Counted.cost_div, Counted.cost_sub, Counted.cost_ofNat, Counted.cost_sumInit, calls, ha, hb] at h1 ⊢
    nlinarith
  case trapezoid r =>
    have h1 := cost_fold (F := F) (k + 9) (ys.drop 2) (fun y hy => hys y (List.mem_of_mem_drop hy)) sumInit
    have h2 := hget 0
    have h3 := hget 1
    rw [List.length_drop, hlen] at h1
    have := r.pos
    obtain ⟨m, hm⟩ : ∃ m, r.degree = m + 1 := ⟨r.degree - 1, by omega⟩
    simp only [Spec.combine, Counted.cost_mul, Counted.cost_div, Counted.cost_sub, Counted.cost_ofNat, Counted.cost_sumInit, Counted.cost_add, Counted.cost_lit, calls, ha, hb, hm] at h1 ⊢
    rw [show m + 1 + 1 - 2 = m by omega] at h1
    nlinarith
  case simpson r =>
    have h1 := cost_fold (F := F) (k + 9) (ys.take (r.degree - 1)) (fun y hy => hys y (List.mem_of_mem_take hy)) sumInit
    have h2 := cost_fold (F := F) (k + 9) ((ys.drop (r.degree - 1)).take (r.degree - 1))
      (fun y hy => hys y (List.mem_of_mem_drop (List.mem_of_mem_take hy))) sumInit
    have h3 := hget (2 * r.degree - 2)
    have h4 := hget (2 * r.degree - 1)
    have h5 := hget (2 * r.degree)
    have := r.pos
    obtain ⟨m, hm⟩ : ∃ m, r.degree = m + 1 := ⟨r.degree - 1, by omega⟩
    rw [List.length_take, hlen] at h1
    rw [List.length_take, List.length_drop, hlen] at h2
    simp only [Spec.combine, Counted.cost_mul, Counted.cost_div, Counted.cost_sub, Counted.cost_ofNat, Counted.cost_sumInit, Counted.cost_add, Counted.cost_lit, calls, ha, hb, hm] at h1 h2 h3 h4 h5 ⊢
    rw [show min (m + 1 - 1) (2 * (m + 1) + 1) = m by omega] at h1
    rw [show min (m + 1 - 1) (2 * (m + 1) + 1 - (m + 1 - 1)) = m by omega] at h2
    nlinarith
  all_goals
    have h1 := cost_weighted (F := F) (k + 9) _ ys hlen (fun p hp => (hR p hp).2) hys
    simp only [Spec.combine, Counted.cost_mul, Counted.cost_sub, Counted.cost_lit, calls, Rule.degree, ha, hb] at h1 ⊢
    nlinarith

/-- Simpson's rule on `n` panels and the integrand `x * x`: at most `13 (2n+1) + 12` operations -/
example (q : NodeRule) (a b : F) : ((AnyRule.simpson q).value (⟨a, 0⟩ : Counted F) ⟨b, 0⟩ fun x => ⟨x.val *ᶠ x.val, x.cost + 1⟩).cost ≤
    13 * (2 * q.degree + 1) + 12 :=
  C81_integrate_linear (.simpson q) (by intro p hp; cases hp) _ _ rfl rfl _ 1 fun x => by simp

end

end GaussQuad.Props
