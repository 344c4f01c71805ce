import Verif.Proofs.Iter
import Verif.Proofs.Yields
import Verif.Proofs.F64Nat

/-!
# C11: node iterators of Midpoint, Trapezoid, Simpson
-/

namespace GaussQuad.Props
open Spec F64

/-- outputs of an iterator after `map` -/
def mapOut {α β : Type} (g : α → β) : IterOut α → IterOut β
  | .item x => .item (x.map g)
  | .count n => .count n
  | .hint lo hi => .hint lo hi

theorem dequeRun_map {α β : Type} (g : α → β) (ops : List IterOp) (l : List α) :
    dequeRun (l.map g) ops = ((dequeRun l ops).1.map (mapOut g), (dequeRun l ops).2.map g) := by
  induction ops generalizing l with
  | nil => simp [dequeRun]
  | cons op ops ih =>
    have h : dequeStep (l.map g) op = (mapOut g (dequeStep l op).1, (dequeStep l op).2.map g) := by
      cases op <;> simp [dequeStep, mapOut, List.map_take, List.map_drop, ← List.map_reverse]
    simp only [dequeRun, h, ih, List.map_cons]

/-- C11: the node iterator of a rule of degree `n` behaves like a deque holding `0.0, 1.0, .., n-1`, under every
history of operations, for every arithmetic. -/
theorem C11_operations {F : Type} [FloatOps F] (r : NodeRule) (ops : List IterOp) :
    (r.range.run ops).1.map (mapOut (FloatOps.ofNat (F := F))) =
      (dequeRun ((List.range r.degree).map (FloatOps.ofNat (F := F))) ops).1 := by
  rw [dequeRun_map]
  have h := RangeIter.run_sim ops r.range
  have hr : r.range.items = List.range r.degree := by
    simp [NodeRule.range, RangeIter.ofDegree, RangeIter.items, RangeIter.len, List.range_eq_range']
  rw [hr] at h
  rw [h.1]

/-- taking one node from each end of the two-node rule yields `0` and `1` -/
example {F : Type} [FloatOps F] : ((NodeRule.range ⟨2, by decide, by decide⟩).run [.next, .nextBack]).1.map (mapOut (FloatOps.ofNat (F := F))) =
    (dequeRun [FloatOps.ofNat (F := F) 0, FloatOps.ofNat 1] [.next, .nextBack]).1 :=
  C11_operations ⟨2, by decide, by decide⟩ _

/-- C11: repeated `next` yields `0.0, 1.0, .., n-1` and then `None`. -/
theorem C11_yields (r : NodeRule) : Yields RangeIter.next r.range (List.range r.degree) := by
  have h := RangeIter.yields r.range
  have hr : r.range.items = List.range r.degree := by
    simp [NodeRule.range, RangeIter.ofDegree, RangeIter.items, RangeIter.len, List.range_eq_range']
  rwa [hr] at h

example : Yields RangeIter.next (NodeRule.range ⟨4, by decide, by decide⟩) [0, 1, 2, 3] := C11_yields ⟨4, by decide, by decide⟩

/-- C26: the rule made by `new`, by `From` or by any number of calls of `change_degree` has the degree asked for last: its iterator yields that many nodes. -/
theorem C26_degree (n : Nat) (pos : 0 < n) (lt : n < 2 ^ 32) (r : NodeRule) :
    Yields RangeIter.next (NodeRule.new n pos lt).range (List.range n) ∧ Yields RangeIter.next (NodeRule.ofDegree n pos lt).range (List.range n) ∧
    Yields RangeIter.next (r.changeDegree n pos lt).range (List.range n) ∧ (NodeRule.new n pos lt).range.len = n :=
  ⟨C11_yields (NodeRule.new n pos lt), C11_yields (NodeRule.ofDegree n pos lt), C11_yields (r.changeDegree n pos lt), Nat.sub_zero n⟩

example : Yields RangeIter.next ((NodeRule.new 7 (by decide) (by decide)).changeDegree 3 (by decide) (by decide)).range [0, 1, 2] :=
  (C26_degree 3 (by decide) (by decide) _).2.2.1

/-- C11: in binary64 every index of a rule is converted exactly, so the nodes are exactly the numbers
`0, 1, .., n-1` and no two of them are equal. -/
theorem C11_exact [Libm] (r : NodeRule) :
    (r.nodes (F := F64)).map F64.val = (List.range r.degree).map (fun n : ℕ => (n : ℚ)) ∧
    (∀ x ∈ r.nodes (F := F64), x.isFinite = true) ∧ (r.nodes (F := F64)).Nodup := by
  have hr : r.nodes (F := F64) = (List.range r.degree).map (fun n : ℕ => F64.round (n : ℚ) false) := by
    simp [NodeRule.nodes, NodeRule.range, RangeIter.ofDegree, RangeIter.items, RangeIter.len, List.range_eq_range']
    intro a _; rfl
  have hlt : ∀ n ∈ List.range r.degree, n < 2 ^ 53 := by
    intro n hn; have := r.lt; rw [List.mem_range] at hn; omega
  have hval : (r.nodes (F := F64)).map F64.val = (List.range r.degree).map (fun n : ℕ => (n : ℚ)) := by
    rw [hr, List.map_map]
    exact List.map_congr_left fun n hn => (val_round_nat (hlt n hn) false).1
  refine ⟨hval, ?_, ?_⟩
  · intro x hx
    rw [hr, List.mem_map] at hx
    obtain ⟨n, hn, rfl⟩ := hx
    exact (val_round_nat (hlt n hn) false).2
  · apply List.Nodup.of_map F64.val
    rw [hval]
    exact List.Nodup.map Nat.cast_injective List.nodup_range

/-- the largest possible degree is covered -/
example [Libm] : (NodeRule.nodes (F := F64) ⟨2 ^ 32 - 1, by decide, by decide⟩).Nodup := (C11_exact _).2.2

end GaussQuad.Props
