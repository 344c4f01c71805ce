import Verif.Model.F64
import Mathlib.Data.Rat.Lemmas

/-!
# Exact multiples of a power of two

What the theorems on scaling by a power of two (C118) are stated with.
-/

namespace GaussQuad.Spec

/-- `q` is an integer multiple of `2^-g`.  Every binary64 number of magnitude at least `2^-m` is one for `g = m + 52`. -/
def OnGrid (g : ℕ) (q : ℚ) : Prop := ∃ z : ℤ, q = z / 2 ^ g

/-- both numbers are finite and the second is exactly `2^k` times the first -/
def IsScaled (k : ℕ) (x y : F64) : Prop := x.isFinite = true ∧ y.isFinite = true ∧ y.val = 2 ^ k * x.val

end GaussQuad.Spec
