import Mathlib.Analysis.Calculus.Deriv.Pow
import Mathlib.Analysis.Calculus.Deriv.Mul
import Mathlib.Analysis.Calculus.Deriv.Add
import Mathlib.Analysis.SpecificLimits.Basic
import Mathlib.Tactic.Ring
import Mathlib.Tactic.Linarith
import Mathlib.Tactic.Positivity
import Mathlib.Tactic.FieldSimp
import Mathlib.Tactic.Push

/-! Polynomials with integer coefficients as coefficient lists (lowest degree first), computable in the kernel. -/

namespace GaussQuad.ListPoly

/-- value of the polynomial at a real point -/
def ev (x : ℝ) : List ℤ → ℝ
  | [] => 0
  | c :: p => c + x * ev x p

def add : List ℤ → List ℤ → List ℤ
  | [], q => q
  | p, [] => p
  | a :: p, b :: q => (a + b) :: add p q

def smul (c : ℤ) (p : List ℤ) : List ℤ := p.map (c * ·)

def mul : List ℤ → List ℤ → List ℤ
  | [], _ => []
  | a :: p, q => add (smul a q) (0 :: mul p q)

def der : List ℤ → List ℤ
  | [] => []
  | _ :: p => add p (0 :: der p)

/-- every coefficient is at least 0 -/
def nonneg (p : List ℤ) : Bool := p.all (fun c => decide (0 ≤ c))

@[simp] theorem ev_nil (x : ℝ) : ev x [] = 0 := rfl
@[simp] theorem ev_cons (x : ℝ) (c : ℤ) (p : List ℤ) : ev x (c :: p) = c + x * ev x p := rfl

theorem ev_add (x : ℝ) : ∀ p q : List ℤ, ev x (add p q) = ev x p + ev x q
  | [], q => by simp [add]
  | a :: p, [] => by simp [add]
  | a :: p, b :: q => by simp [add, ev_add x p q]; ring

theorem ev_smul (x : ℝ) (c : ℤ) (p : List ℤ) : ev x (smul c p) = c * ev x p := by
  induction p with
  | nil => simp [smul]
  | cons a p ih =>
    have : ev x (smul c (a :: p)) = ((c * a : ℤ) : ℝ) + x * ev x (smul c p) := rfl
    rw [this, ih, ev_cons]; push_cast; ring

theorem ev_mul (x : ℝ) (p q : List ℤ) : ev x (mul p q) = ev x p * ev x q := by
  induction p with
  | nil => simp [mul]
  | cons a p ih => rw [mul, ev_add, ev_smul, ev_cons, ih, ev_cons]; push_cast; ring

theorem hasDerivAt_ev (p : List ℤ) (x : ℝ) : HasDerivAt (fun y => ev y p) (ev x (der p)) x := by
  induction p with
  | nil => exact hasDerivAt_const x (0 : ℝ)
  | cons c p ih =>
    have h := ((hasDerivAt_id x).mul ih).const_add (c : ℝ)
    have e : ev x (der (c :: p)) = 1 * ev x p + id x * ev x (der p) := by
      rw [der, ev_add, ev_cons]; push_cast; simp
    rw [e]; exact h

theorem ev_nonneg {p : List ℤ} (h : nonneg p = true) {x : ℝ} (hx : 0 ≤ x) : 0 ≤ ev x p := by
  induction p with
  | nil => simp
  | cons c p ih =>
    simp only [nonneg, List.all_cons, Bool.and_eq_true, decide_eq_true_eq] at h
    have h1 : (0 : ℝ) ≤ c := by exact_mod_cast h.1
    have := ih (by simpa [nonneg] using h.2)
    rw [ev_cons]; positivity

theorem ev_pos {c : ℤ} {p : List ℤ} (hc : 0 < c) (h : nonneg p = true) {x : ℝ} (hx : 0 ≤ x) : 0 < ev x (c :: p) := by
  have h1 : (0 : ℝ) < c := by exact_mod_cast hc
  have := ev_nonneg h hx
  rw [ev_cons]; positivity

open Filter in
/-- leading behaviour at infinity -/
theorem tendsto_ev (p : List ℤ) (c : ℤ) :
    Tendsto (fun x => ev x (p ++ [c]) / x ^ p.length) atTop (nhds (c : ℝ)) := by
  induction p with
  | nil => simp
  | cons a p ih =>
    have h1 : Tendsto (fun x : ℝ => (a : ℝ) / x ^ (p.length + 1)) atTop (nhds 0) :=
      tendsto_const_nhds.div_atTop (tendsto_pow_atTop (by omega))
    have h2 := h1.add ih
    rw [zero_add] at h2
    refine h2.congr' ?_
    filter_upwards [eventually_gt_atTop (0 : ℝ)] with x hx
    simp only [List.cons_append, ev_cons, List.length_cons]
    field_simp
    ring

end GaussQuad.ListPoly
