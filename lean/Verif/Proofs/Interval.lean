import Mathlib.Data.Real.Basic
import Mathlib.Data.Rat.Cast.Order
import Mathlib.Tactic.Linarith
import Mathlib.Tactic.FieldSimp
import Mathlib.Algebra.Order.Group.MinMax
import Mathlib.Algebra.Order.Ring.Abs

/-!
# Rational interval arithmetic, used to evaluate closed real expressions in the kernel
-/

namespace GaussQuad.Interval

/-- `x` lies in the interval with rational end points `I` -/
def Mem (x : ℝ) (I : ℚ × ℚ) : Prop := (I.1 : ℝ) ≤ x ∧ x ≤ (I.2 : ℝ)

def add (I J : ℚ × ℚ) : ℚ × ℚ := (I.1 + J.1, I.2 + J.2)
def sub (I J : ℚ × ℚ) : ℚ × ℚ := (I.1 - J.2, I.2 - J.1)
def mul (I J : ℚ × ℚ) : ℚ × ℚ :=
  (min (min (I.1 * J.1) (I.1 * J.2)) (min (I.2 * J.1) (I.2 * J.2)), max (max (I.1 * J.1) (I.1 * J.2)) (max (I.2 * J.1) (I.2 * J.2)))
def inv (I : ℚ × ℚ) : ℚ × ℚ := (1 / I.2, 1 / I.1)

variable {x y : ℝ} {I J : ℚ × ℚ}

theorem mem_const (q : ℚ) : Mem (q : ℝ) (q, q) := ⟨le_rfl, le_rfl⟩

theorem Mem.add (hx : Mem x I) (hy : Mem y J) : Mem (x + y) (add I J) := by
  constructor
  · simp only [Interval.add]; push_cast; linarith [hx.1, hy.1]
  · simp only [Interval.add]; push_cast; linarith [hx.2, hy.2]

theorem Mem.sub (hx : Mem x I) (hy : Mem y J) : Mem (x - y) (sub I J) := by
  constructor
  · simp only [Interval.sub]; push_cast; linarith [hx.1, hy.2]
  · simp only [Interval.sub]; push_cast; linarith [hx.2, hy.1]

theorem mul_le_max {a b x y : ℝ} (hx : a ≤ x ∧ x ≤ b) : x * y ≤ max (a * y) (b * y) := by
  rcases le_total 0 y with h | h
  · exact le_max_of_le_right (mul_le_mul_of_nonneg_right hx.2 h)
  · exact le_max_of_le_left (mul_le_mul_of_nonpos_right hx.1 h)

theorem min_le_mul {a b x y : ℝ} (hx : a ≤ x ∧ x ≤ b) : min (a * y) (b * y) ≤ x * y := by
  rcases le_total 0 y with h | h
  · exact min_le_of_left_le (mul_le_mul_of_nonneg_right hx.1 h)
  · exact min_le_of_right_le (mul_le_mul_of_nonpos_right hx.2 h)

theorem Mem.mul (hx : Mem x I) (hy : Mem y J) : Mem (x * y) (mul I J) := by
  have h1 : ∀ c : ℝ, min (c * J.1) (c * J.2) ≤ c * y ∧ c * y ≤ max (c * J.1) (c * J.2) := by
    intro c
    rw [mul_comm c y, mul_comm c J.1, mul_comm c J.2]
    exact ⟨min_le_mul hy, mul_le_max hy⟩
  constructor
  · simp only [Interval.mul]; push_cast
    refine le_trans ?_ (min_le_mul hx)
    exact min_le_min (h1 _).1 (h1 _).1
  · simp only [Interval.mul]; push_cast
    refine le_trans (mul_le_max hx) ?_
    exact max_le_max (h1 _).2 (h1 _).2

theorem Mem.inv (hx : Mem x I) (h : 0 < I.1) : Mem (1 / x) (inv I) := by
  have h0 : (0 : ℝ) < I.1 := by exact_mod_cast h
  have hx0 : 0 < x := lt_of_lt_of_le h0 hx.1
  constructor
  · simp only [Interval.inv]; push_cast
    exact one_div_le_one_div_of_le hx0 hx.2
  · simp only [Interval.inv]; push_cast
    exact one_div_le_one_div_of_le h0 hx.1

theorem Mem.lt_zero (hx : Mem x I) (h : I.2 < 0) : x < 0 :=
  lt_of_le_of_lt hx.2 (by exact_mod_cast h)

theorem Mem.pos (hx : Mem x I) (h : 0 < I.1) : 0 < x :=
  lt_of_lt_of_le (by exact_mod_cast h) hx.1

/-- widen to simpler end points -/
theorem Mem.mono (hx : Mem x I) (h1 : J.1 ≤ I.1) (h2 : I.2 ≤ J.2) : Mem x J :=
  ⟨le_trans (by exact_mod_cast h1) hx.1, le_trans hx.2 (by exact_mod_cast h2)⟩

end GaussQuad.Interval
