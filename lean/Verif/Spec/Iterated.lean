import Verif.Spec.RealRule
import Mathlib.Algebra.Polynomial.Eval.Defs
import Mathlib.Algebra.Polynomial.Degree.Defs

/-!
Iterated integrals of any depth, and the errors of the levels of a nested integral (C90).
-/

namespace GaussQuad.Spec

/-- The iterated integral: level by level a functional of one variable (an integral, with or without weight, with bounds that may depend on the outer variables). -/
noncomputable def iterated : List (List ℝ → (ℝ → ℝ) → ℝ) → List ℝ → (List ℝ → ℝ) → ℝ
  | [], xs, f => f xs
  | J :: Js, xs, f => J xs fun x => iterated Js (xs ++ [x]) f

/-- One level of a nested integral: the rule and its two bounds, the integral it stands for, a bound `τ` of its error and a bound `W` of the sum of its absolute coefficients. -/
structure Level where
  rule : AnyRule ℝ
  lower : List ℝ → ℝ
  upper : List ℝ → ℝ
  integral : List ℝ → (ℝ → ℝ) → ℝ
  τ : ℝ
  W : ℝ

/-- For the values `xs` of the outer variables, and at all points of the product rule below, every level integrates the exact inner integral with error at most `τ`. -/
def LevelsWithin (f : List ℝ → ℝ) : List Level → List ℝ → Prop
  | [], _ => True
  | l :: ls, xs =>
    |quad (rulePairs (l.lower xs) (l.upper xs) l.rule) (fun x => iterated (ls.map Level.integral) (xs ++ [x]) f) -
      l.integral xs (fun x => iterated (ls.map Level.integral) (xs ++ [x]) f)| ≤ l.τ ∧
    ((rulePairs (l.lower xs) (l.upper xs) l.rule).map fun p => |p.2|).sum ≤ l.W ∧
    ∀ p ∈ rulePairs (l.lower xs) (l.upper xs) l.rule, LevelsWithin f ls (xs ++ [p.1])

/-- `τ₁ + W₁ (τ₂ + W₂ (τ₃ + …))` -/
noncomputable def totalError : List Level → ℝ
  | [] => 0
  | l :: ls => l.τ + l.W * totalError ls

/-- the bounds do not depend on the outer variables -/
def Box (levels : List Level) : Prop := ∀ l ∈ levels, ∀ xs, l.lower xs = l.lower [] ∧ l.upper xs = l.upper []

/-- In each of its first `Ns.length` variables `f` is a polynomial of degree at most the corresponding entry of `Ns`. -/
def PolyInEach (Ns : List ℕ) (f : List ℝ → ℝ) : Prop :=
  ∀ (i : ℕ) (hi : i < Ns.length) (xs ys : List ℝ), xs.length = i → xs.length + 1 + ys.length = Ns.length →
    ∃ p : Polynomial ℝ, p.natDegree ≤ Ns[i] ∧ ∀ x, f (xs ++ x :: ys) = p.eval x

end GaussQuad.Spec
