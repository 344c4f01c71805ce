import Verif.Model.DataApi
import Verif.Spec.Deque

/-! Simulation of the model's index-window iterators by the abstract deque. -/

namespace GaussQuad
open Spec

namespace SliceIter
variable {α : Type}

/-- One operation on the concrete iterator. -/
def step (it : SliceIter α) : IterOp → IterOut α × SliceIter α
  | .next => (.item it.next.1, it.next.2)
  | .nextBack => (.item it.nextBack.1, it.nextBack.2)
  | .nth n => (.item (it.nth n).1, (it.nth n).2)
  | .nthBack n => (.item (it.nthBack n).1, (it.nthBack n).2)
  | .len => (.count it.len, it)
  | .sizeHint => (.hint it.sizeHint.1 it.sizeHint.2, it)

/-- A history of operations on the concrete iterator. -/
def run (it : SliceIter α) : List IterOp → List (IterOut α) × SliceIter α
  | [] => ([], it)
  | op :: ops => ((it.step op).1 :: ((it.step op).2.run ops).1, ((it.step op).2.run ops).2)

/-- The window is inside the buffer. -/
def WF (it : SliceIter α) : Prop := it.start ≤ it.stop ∧ it.stop ≤ it.buf.length

theorem wf_ofList (xs : List α) : (ofList xs).WF := by simp [WF, ofList]

theorem asSlice_ofList (xs : List α) : (ofList xs).asSlice = xs := by simp [asSlice, ofList]

theorem length_asSlice (it : SliceIter α) (h : it.WF) : it.asSlice.length = it.len := by
  obtain ⟨h1, h2⟩ := h
  simp only [asSlice, len, List.length_take, List.length_drop]; omega

theorem getElem?_asSlice (it : SliceIter α) (i : Nat) :
    it.asSlice[i]? = if i < it.stop - it.start then it.buf[it.start + i]? else none := by
  simp [asSlice, List.getElem?_take]

theorem step_sim (it : SliceIter α) (h : it.WF) (op : IterOp) :
    (it.step op).1 = (dequeStep it.asSlice op).1 ∧
    (it.step op).2.asSlice = (dequeStep it.asSlice op).2 ∧ (it.step op).2.WF := by
  have hl := length_asSlice it h
  obtain ⟨buf, s, e⟩ := it
  obtain ⟨h1, h2⟩ := h
  simp only at h1 h2
  cases op with
  | next =>
    simp only [step, next, dequeStep]
    split
    · refine ⟨?_, ?_, ?_⟩
      · simp only [List.head?_eq_getElem?, getElem?_asSlice]
        congr 1; rw [if_pos (by omega)]; simp
      · simp only [asSlice]; rw [← List.drop_one]
        apply List.ext_getElem?; intro i
        simp only [List.getElem?_take, List.getElem?_drop]
        split <;> split <;> first | rfl | (exfalso; omega) | (congr 1; omega)
      · simp [WF]; omega
    · have : e - s = 0 := by omega
      simp [asSlice, WF, this]; omega
  | nextBack =>
    simp only [step, nextBack, dequeStep]
    split
    · refine ⟨?_, ?_, ?_⟩
      · congr 1
        rw [List.getLast?_eq_getElem?, getElem?_asSlice]
        simp only [hl, len]
        rw [if_pos (by omega)]; congr 1; omega
      · simp only [asSlice]; rw [List.dropLast_eq_take]
        apply List.ext_getElem?; intro i
        simp only [List.getElem?_take, List.getElem?_drop, List.length_take, List.length_drop]
        split <;> split <;> first | rfl | (exfalso; omega) | skip
        all_goals (try split) <;> first | rfl | (exfalso; omega)
      · simp [WF]; omega
    · have : e - s = 0 := by omega
      simp [asSlice, WF, this]; omega
  | nth n =>
    simp only [step, nth, dequeStep, len]
    by_cases hn : e - s ≤ n
    · simp only [hn, if_true]
      refine ⟨?_, ?_, ?_⟩
      · rw [getElem?_asSlice]; simp only; rw [if_neg (by omega)]
      · rw [List.drop_eq_nil_of_le (by rw [hl]; simp [len]; omega)]; simp [asSlice]
      · simp [WF]; omega
    · simp only [hn, if_false, next]
      rw [if_pos (by omega)]
      refine ⟨?_, ?_, ?_⟩
      · rw [getElem?_asSlice]; simp only; rw [if_pos (by omega)]
      · simp only [asSlice]
        apply List.ext_getElem?; intro i
        simp only [List.getElem?_take, List.getElem?_drop]
        split <;> split <;> first | rfl | (exfalso; omega) | (congr 1; omega)
      · simp [WF]; omega
  | nthBack n =>
    simp only [step, nthBack, dequeStep, len]
    by_cases hn : e - s ≤ n
    · simp only [hn, if_true]
      refine ⟨?_, ?_, ?_⟩
      · congr 1; symm; rw [List.getElem?_eq_none]; simp [hl, len]; omega
      · have : (asSlice ⟨buf, s, e⟩).length - (n + 1) = 0 := by rw [hl]; simp [len]; omega
        rw [this]; simp [asSlice]
      · simp [WF]; omega
    · simp only [hn, if_false, nextBack]
      rw [if_pos (by omega)]
      refine ⟨?_, ?_, ?_⟩
      · congr 1
        rw [List.getElem?_reverse (by rw [hl]; simp [len]; omega), getElem?_asSlice, hl,
          if_pos (by simp only [len]; omega)]
        simp only [len]
        congr 1; omega
      · rw [hl]; simp only [asSlice, len]
        apply List.ext_getElem?; intro i
        simp only [List.getElem?_take, List.getElem?_drop]
        split <;> split <;> first | rfl | (exfalso; omega) | skip
        all_goals (try split) <;> first | rfl | (exfalso; omega)
      · simp [WF]; omega
  | len => simp [step, dequeStep, hl]; exact ⟨h1, h2⟩
  | sizeHint => simp [step, sizeHint, dequeStep, hl]; exact ⟨h1, h2⟩

theorem run_sim (ops : List IterOp) : ∀ (it : SliceIter α), it.WF →
    (it.run ops).1 = (dequeRun it.asSlice ops).1 ∧
    (it.run ops).2.asSlice = (dequeRun it.asSlice ops).2 ∧ (it.run ops).2.WF := by
  induction ops with
  | nil => intro it h; simp [run, dequeRun, h]
  | cons op ops ih =>
    intro it h
    obtain ⟨h1, h2, h3⟩ := step_sim it h op
    obtain ⟨i1, i2, i3⟩ := ih _ h3
    simp only [run, dequeRun]
    rw [h2] at i1 i2
    exact ⟨by rw [h1, i1], i2, i3⟩

theorem last_eq (it : SliceIter α) (h : it.WF) : it.last = it.asSlice.getLast? := by
  have := (step_sim it h .nextBack).1
  simpa [step, dequeStep, last] using this

theorem count_eq (it : SliceIter α) (h : it.WF) : it.count = it.asSlice.length := by
  rw [length_asSlice it h]; rfl

end SliceIter

namespace RangeIter

/-- One operation on the concrete iterator (items still unconverted integers). -/
def step (it : RangeIter) : IterOp → IterOut Nat × RangeIter
  | .next => (.item it.next.1, it.next.2)
  | .nextBack => (.item it.nextBack.1, it.nextBack.2)
  | .nth n => (.item (it.nth n).1, (it.nth n).2)
  | .nthBack n => (.item (it.nthBack n).1, (it.nthBack n).2)
  | .len => (.count it.len, it)
  | .sizeHint => (.hint it.len (some it.len), it)

/-- A history of operations on the concrete iterator. -/
def run (it : RangeIter) : List IterOp → List (IterOut Nat) × RangeIter
  | [] => ([], it)
  | op :: ops => ((it.step op).1 :: ((it.step op).2.run ops).1, ((it.step op).2.run ops).2)

theorem length_items (it : RangeIter) : it.items.length = it.len := by simp [items]

theorem next_sim (it : RangeIter) : it.next.1 = it.items.head? ∧ it.next.2.items = it.items.tail := by
  obtain ⟨s, e⟩ := it
  by_cases h : s < e
  · obtain ⟨d, hd⟩ : ∃ d, e - s = d + 1 := ⟨e - s - 1, by omega⟩
    have : e - (s + 1) = d := by omega
    simp [next, h, items, len, hd, List.range'_succ, this]
  · have : e - s = 0 := by omega
    simp [next, h, items, len, this]

theorem nextBack_sim (it : RangeIter) :
    it.nextBack.1 = it.items.getLast? ∧ it.nextBack.2.items = it.items.dropLast := by
  obtain ⟨s, e⟩ := it
  by_cases h : s < e
  · obtain ⟨d, hd⟩ : ∃ d, e - s = d + 1 := ⟨e - s - 1, by omega⟩
    have h2 : e - 1 - s = d := by omega
    have h3 : s + d = e - 1 := by omega
    simp [nextBack, h, items, len, hd, h2, List.range'_concat, h3]
  · have : e - s = 0 := by omega
    simp [nextBack, h, items, len, this]

theorem nth_sim (n : Nat) : ∀ it : RangeIter,
    (it.nth n).1 = it.items[n]? ∧ (it.nth n).2.items = it.items.drop (n + 1) := by
  induction n with
  | zero => intro it; simpa [nth, List.head?_eq_getElem?] using next_sim it
  | succ n ih =>
    intro it
    obtain ⟨h1, h2⟩ := next_sim it
    simp only [nth]
    rcases hc : it.items with _ | ⟨x, l⟩
    · rw [hc] at h1 h2
      split
      · simp_all
      · simp_all
    · rw [hc] at h1 h2
      split
      · simp_all
      · rename_i y it' he
        obtain ⟨i1, i2⟩ := ih it'
        simp [he] at h1 h2
        simp [i1, i2, h2]

theorem nthBack_sim (n : Nat) : ∀ it : RangeIter,
    (it.nthBack n).1 = it.items.reverse[n]? ∧
    (it.nthBack n).2.items = it.items.take (it.items.length - (n + 1)) := by
  induction n with
  | zero =>
    intro it
    obtain ⟨h1, h2⟩ := nextBack_sim it
    refine ⟨?_, ?_⟩
    · simp [nthBack, h1, ← List.head?_eq_getElem?]
    · simp [nthBack, h2, List.dropLast_eq_take]
  | succ n ih =>
    intro it
    obtain ⟨h1, h2⟩ := nextBack_sim it
    simp only [nthBack]
    rcases List.eq_nil_or_concat it.items with hc | ⟨l, x, hc⟩
    · rw [hc] at h1 h2
      split <;> simp_all
    · rw [hc] at h1 h2
      split
      · simp_all
      · rename_i y it' he
        obtain ⟨i1, i2⟩ := ih it'
        simp [he] at h1 h2
        rw [hc, i1, i2, h2]
        simp
        rw [List.take_append_of_le_length (by omega)]

theorem step_sim (it : RangeIter) (op : IterOp) :
    (it.step op).1 = (dequeStep it.items op).1 ∧ (it.step op).2.items = (dequeStep it.items op).2 := by
  cases op with
  | next => simp [step, dequeStep, next_sim]
  | nextBack => simp [step, dequeStep, nextBack_sim]
  | nth n => simp [step, dequeStep, nth_sim]
  | nthBack n => simp [step, dequeStep, nthBack_sim]
  | len => simp [step, dequeStep, length_items]
  | sizeHint => simp [step, dequeStep, length_items]

theorem run_sim (ops : List IterOp) : ∀ (it : RangeIter),
    (it.run ops).1 = (dequeRun it.items ops).1 ∧ (it.run ops).2.items = (dequeRun it.items ops).2 := by
  induction ops with
  | nil => intro it; simp [run, dequeRun]
  | cons op ops ih =>
    intro it
    obtain ⟨h1, h2⟩ := step_sim it op
    obtain ⟨i1, i2⟩ := ih (it.step op).2
    simp only [run, dequeRun]
    rw [h2] at i1 i2
    exact ⟨by rw [h1, i1], i2⟩

theorem last_eq (it : RangeIter) : it.last = it.items.getLast? := (nextBack_sim it).1

end RangeIter

end GaussQuad
