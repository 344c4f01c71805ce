import Verif.Spec.Deque
import Mathlib.Logic.Function.Iterate

/-! What it means for an iterator to yield a sequence, stated by calling `next` repeatedly. -/

namespace GaussQuad.Spec

/-- An iterator with step function `next` and state `it` yields exactly `xs`: the `k`-th call to `next` (counting
from 0) returns `xs[k]`, and `None` for every later call. -/
def Yields {α σ : Type} (next : σ → Option α × σ) (it : σ) (xs : List α) : Prop :=
  ∀ k, (next ((fun s => (next s).2)^[k] it)).1 = xs[k]?

end GaussQuad.Spec
