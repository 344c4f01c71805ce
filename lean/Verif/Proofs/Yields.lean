import Verif.Proofs.Iter
import Verif.Spec.Yields

namespace GaussQuad
open Spec

theorem SliceIter.yields {α : Type} (it : SliceIter α) (h : it.WF) : Yields SliceIter.next it it.asSlice := by
  intro k
  induction k generalizing it with
  | zero =>
    have := (step_sim it h .next).1
    simpa [step, dequeStep, List.head?_eq_getElem?] using this
  | succ k ih =>
    obtain ⟨-, h2, h3⟩ := step_sim it h .next
    simp only [step, dequeStep] at h2 h3
    rw [Function.iterate_succ_apply, ih _ h3, h2]
    simp

theorem RangeIter.yields (it : RangeIter) : Yields RangeIter.next it it.items := by
  intro k
  induction k generalizing it with
  | zero => simpa [List.head?_eq_getElem?] using (next_sim it).1
  | succ k ih =>
    rw [Function.iterate_succ_apply, ih, (next_sim it).2]
    simp

/-- a yielded sequence is determined by the iterator -/
theorem Spec.Yields.unique {α σ : Type} {next : σ → Option α × σ} {it : σ} {xs ys : List α}
    (h1 : Yields next it xs) (h2 : Yields next it ys) : xs = ys := by
  apply List.ext_getElem?
  intro k; rw [← h1 k, ← h2 k]

end GaussQuad
