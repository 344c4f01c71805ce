import Verif.Proofs.Structure
import Verif.Proofs.Yields
import Verif.Model.F64

/-!
# Data access: C08, C09, C10, C11, C26, C36, C45 and par_new (C24)
-/

namespace GaussQuad.Props
open Spec FloatOps

section
variable {F : Type} [FloatOps F]

/-! ## C08 -/

/-- All views of a rule have `n` items: `degree()`, both pair views, and the four iterators when drained. -/
structure AllViewsHave (r : Rule F) (n : Nat) : Prop where
  degree : r.degree = n
  asPairs : r.asNodeWeightPairs.length = n
  intoPairs : r.intoNodeWeightPairs.length = n
  nodes : ∃ xs, xs.length = n ∧ Yields SliceIter.next r.nodes xs
  weights : ∃ xs, xs.length = n ∧ Yields SliceIter.next r.weights xs
  iter : ∃ xs, xs.length = n ∧ Yields SliceIter.next r.iter xs
  intoIter : ∃ xs, xs.length = n ∧ Yields SliceIter.next r.intoIter xs
  refIntoIter : ∃ xs, xs.length = n ∧ Yields SliceIter.next r.refIntoIter xs

theorem yields_ofList {α : Type} (xs : List α) : Yields SliceIter.next (SliceIter.ofList xs) xs := by
  have := SliceIter.yields (SliceIter.ofList xs) (SliceIter.wf_ofList xs)
  rwa [SliceIter.asSlice_ofList] at this

theorem allViewsHave_of_length {r : Rule F} {n : Nat} (h : r.nodeWeightPairs.length = n) : AllViewsHave r n :=
  ⟨h, h, h, ⟨_, by simpa using h, yields_ofList _⟩, ⟨_, by simpa using h, yields_ofList _⟩,
    ⟨_, h, yields_ofList _⟩, ⟨_, h, yields_ofList _⟩, ⟨_, h, yields_ofList _⟩⟩

/-- C08 for Gauss-Legendre, every degree, arithmetic and overflow mode. -/
theorem C08_legendre (mode : Overflow) {n : Nat} (h : n + 1 < 2 ^ 64) :
    ∃ r : Rule F, GaussLegendre.new mode n = some r ∧ AllViewsHave r n := by
  obtain ⟨r, h1, h2, -⟩ := legendre_new_some (F := F) (mode := mode) h
  exact ⟨r, h1, allViewsHave_of_length h2⟩

/-- C08 for Gauss-Chebyshev of the first kind. -/
theorem C08_chebyshev_first (mode : Overflow) {n : Nat} (h : n + 1 < 2 ^ 64) :
    ∃ r : Rule F, GaussChebyshevFirstKind.new mode n = some r ∧ AllViewsHave r n :=
  ⟨_, cheb1_new_eq h, allViewsHave_of_length (by simp [length_rangeRev])⟩

example [Libm] : ∃ r : Rule F64, GaussChebyshevFirstKind.new .wrapping 12 = some r ∧ AllViewsHave r 12 := C08_chebyshev_first _ (by decide)

/-- C08 for Gauss-Chebyshev of the second kind. -/
theorem C08_chebyshev_second (mode : Overflow) {n : Nat} (h : n + 1 < 2 ^ 64) :
    ∃ r : Rule F, GaussChebyshevSecondKind.new mode n = some r ∧ AllViewsHave r n :=
  ⟨_, cheb2_new_eq h, allViewsHave_of_length (by simp [length_rangeRev])⟩

example [Libm] : ∃ r : Rule F64, GaussChebyshevSecondKind.new .wrapping 12 = some r ∧ AllViewsHave r 12 := C08_chebyshev_second _ (by decide)

/-- C08 for Gauss-Hermite, every behaviour of the eigen-solver. -/
theorem C08_hermite (ext : Externals F) {n : Nat} (hn : 0 < n) :
    ∃ r : Rule F, GaussHermite.new ext n = some r ∧ AllViewsHave r n := by
  obtain ⟨l, h1, h2, -⟩ := golubWelsch_isSome ext hn GaussHermite.diag GaussHermite.offDiag (sqrt pi)
  exact ⟨⟨l⟩, by simp [GaussHermite.new, h1], allViewsHave_of_length h2⟩

example (ext : Externals F) : ∃ r : Rule F, GaussHermite.new ext 9 = some r ∧ AllViewsHave r 9 := C08_hermite ext (by decide)

/-- C08 for Gauss-Laguerre, every parameter and eigen-solver. -/
theorem C08_laguerre (ext : Externals F) {n : Nat} (hn : 0 < n) (α : FiniteAboveNegOne F) :
    ∃ r : LaguerreRule F, GaussLaguerre.new ext n α = some r ∧ AllViewsHave r.toRule n ∧ r.alpha = α := by
  obtain ⟨l, h1, h2, -⟩ := golubWelsch_isSome ext hn (GaussLaguerre.diag α.get) (GaussLaguerre.offDiag α.get)
    (gamma (α.get +ᶠ lit 1.0))
  exact ⟨{ nodeWeightPairs := l, alpha := α }, by simp [GaussLaguerre.new, h1], allViewsHave_of_length h2, rfl⟩

example (ext : Externals F) (α : FiniteAboveNegOne F) : ∃ r : LaguerreRule F, GaussLaguerre.new ext 9 α = some r ∧ AllViewsHave r.toRule 9 ∧ r.alpha = α :=
  C08_laguerre ext (by decide) α

/-- C08 for Gauss-Jacobi, every parameter pair and eigen-solver, all five branches of `new`. -/
theorem C08_jacobi (mode : Overflow) (ext : Externals F) {n : Nat} (hn : 0 < n) (h : n + 1 < 2 ^ 64)
    (α β : FiniteAboveNegOne F) :
    ∃ r : JacobiRule F, GaussJacobi.new mode ext n α β = some r ∧ AllViewsHave r.toRule n := by
  obtain ⟨r, h1, h2⟩ := jacobi_new_some mode ext hn h α β
  exact ⟨r, h1, allViewsHave_of_length h2⟩

example (ext : Externals F) (α β : FiniteAboveNegOne F) : ∃ r : JacobiRule F, GaussJacobi.new .checked ext 9 α β = some r ∧ AllViewsHave r.toRule 9 :=
  C08_jacobi .checked ext (by decide) (by decide) α β

/-- the hypotheses are met, e.g. by a degree-7 rule in IEEE arithmetic -/
example [Libm] : ∃ r : Rule F64, GaussLegendre.new .checked 7 = some r ∧ AllViewsHave r 7 :=
  C08_legendre _ (by decide)

/-! ## C09 -/

omit [FloatOps F] in
/-- C09: the pairs seen through every view are the zip of the nodes view and the weights view, in order. -/
theorem C09_views_agree (r : Rule F) (xs ws : List F)
    (hx : Yields SliceIter.next r.nodes xs) (hw : Yields SliceIter.next r.weights ws) :
    Yields SliceIter.next r.iter (xs.zip ws) ∧ Yields SliceIter.next r.intoIter (xs.zip ws) ∧
    Yields SliceIter.next r.refIntoIter (xs.zip ws) ∧
    r.asNodeWeightPairs = xs.zip ws ∧ r.intoNodeWeightPairs = xs.zip ws ∧ r.degree = xs.length := by
  obtain rfl := hx.unique (yields_ofList (r.nodeWeightPairs.map (·.1)))
  obtain rfl := hw.unique (yields_ofList (r.nodeWeightPairs.map (·.2)))
  have hz : (r.nodeWeightPairs.map (·.1)).zip (r.nodeWeightPairs.map (·.2)) = r.nodeWeightPairs := by
    rw [List.zip_map', List.map_congr_left (g := id) (by simp)]; simp
  rw [hz]
  refine ⟨yields_ofList _, yields_ofList _, yields_ofList _, rfl, rfl, ?_⟩
  simp [Rule.degree]

example : (⟨[(1, 2), (3, 4)]⟩ : Rule Nat).asNodeWeightPairs = [1, 3].zip [2, 4] :=
  (C09_views_agree (⟨[(1, 2), (3, 4)]⟩ : Rule Nat) [1, 3] [2, 4] (yields_ofList _) (yields_ofList _)).2.2.2.1

omit [FloatOps F] in
/-- such node and weight sequences exist for every rule -/
theorem C09_views_exist (r : Rule F) :
    ∃ xs ws, Yields SliceIter.next r.nodes xs ∧ Yields SliceIter.next r.weights ws ∧ xs.length = ws.length :=
  ⟨_, _, yields_ofList _, yields_ofList _, by simp⟩

example : Yields SliceIter.next (Rule.nodes (⟨[(1, 2), (3, 4)]⟩ : Rule Nat)) [1, 3] := yields_ofList _

/-! ## C10 -/

/-- C10: after any history of operations on an iterator over `xs`, the outputs, the remaining slice, the
remaining length, `count` and `last` are those of a deque holding `xs`. -/
theorem C10_slice_iterator {α : Type} (xs : List α) (ops : List IterOp) :
    let out := (SliceIter.ofList xs).run ops
    let ref := dequeRun xs ops
    out.1 = ref.1 ∧ out.2.asSlice = ref.2 ∧ out.2.len = ref.2.length ∧
      out.2.count = ref.2.length ∧ out.2.last = ref.2.getLast? := by
  obtain ⟨h1, h2, h3⟩ := SliceIter.run_sim ops _ (SliceIter.wf_ofList xs)
  rw [SliceIter.asSlice_ofList] at h1 h2
  refine ⟨h1, h2, ?_, ?_, ?_⟩
  · rw [← SliceIter.length_asSlice _ h3, h2]
  · rw [SliceIter.count_eq _ h3, h2]
  · rw [SliceIter.last_eq _ h3, h2]

/-- front, back and a jump on three items -/
example : ((SliceIter.ofList [10, 20, 30]).run [.next, .nextBack]).2.asSlice = [20] ∧
    ((SliceIter.ofList [10, 20, 30]).run [.next, .nextBack]).2.len = 1 :=
  ⟨(C10_slice_iterator [10, 20, 30] [.next, .nextBack]).2.1, (C10_slice_iterator [10, 20, 30] [.next, .nextBack]).2.2.1⟩

omit [FloatOps F] in
/-- C10 for the four iterators of a rule. -/
theorem C10_rule_iterators (r : Rule F) (ops : List IterOp) :
    (r.nodes.run ops).1 = (dequeRun (r.asNodeWeightPairs.map (·.1)) ops).1 ∧
    (r.weights.run ops).1 = (dequeRun (r.asNodeWeightPairs.map (·.2)) ops).1 ∧
    (r.iter.run ops).1 = (dequeRun r.asNodeWeightPairs ops).1 ∧
    (r.intoIter.run ops).1 = (dequeRun r.asNodeWeightPairs ops).1 ∧
    (r.iter.run ops).2.asSlice = (dequeRun r.asNodeWeightPairs ops).2 ∧
    (r.intoIter.run ops).2.asSlice = (dequeRun r.asNodeWeightPairs ops).2 :=
  ⟨(C10_slice_iterator _ ops).1, (C10_slice_iterator _ ops).1, (C10_slice_iterator _ ops).1,
    (C10_slice_iterator _ ops).1, (C10_slice_iterator _ ops).2.1, (C10_slice_iterator _ ops).2.1⟩

example : ((⟨[(1, 2), (3, 4)]⟩ : Rule Nat).iter.run [.nextBack]).2.asSlice = [(1, 2)] :=
  (C10_rule_iterators (⟨[(1, 2), (3, 4)]⟩ : Rule Nat) [.nextBack]).2.2.2.2.1

/-- C10, no loss or duplication: the items taken from the front, the remaining slice and the items taken from the
back always make up the original sequence. -/
theorem C10_conservation {α : Type} (xs : List α) (ops : List IterOp) :
    ∃ front back, xs = front ++ ((SliceIter.ofList xs).run ops).2.asSlice ++ back := by
  rw [(C10_slice_iterator xs ops).2.1]
  clear * -
  induction ops generalizing xs with
  | nil => exact ⟨[], [], by simp [dequeRun]⟩
  | cons op ops ih =>
    have key : ∃ f b, xs = f ++ (dequeStep xs op).2 ++ b := by
      cases op with
      | next => cases xs with
        | nil => exact ⟨[], [], by simp [dequeStep]⟩
        | cons x xs => exact ⟨[x], [], by simp [dequeStep]⟩
      | nextBack =>
        rcases List.eq_nil_or_concat xs with h | ⟨l, x, h⟩
        · exact ⟨[], [], by simp [dequeStep, h]⟩
        · exact ⟨[], [x], by simp [dequeStep, h]⟩
      | nth n => exact ⟨xs.take (n + 1), [], by simp [dequeStep]⟩
      | nthBack n => exact ⟨[], xs.drop (xs.length - (n + 1)), by simp [dequeStep]⟩
      | len => exact ⟨[], [], by simp [dequeStep]⟩
      | sizeHint => exact ⟨[], [], by simp [dequeStep]⟩
    obtain ⟨f, b, h⟩ := key
    obtain ⟨f', b', h'⟩ := ih (dequeStep xs op).2
    refine ⟨f ++ f', b' ++ b, ?_⟩
    simp only [dequeRun]
    conv_lhs => rw [h, h']
    simp only [List.append_assoc]

example : ∃ front back, [10, 20, 30] = front ++ ((SliceIter.ofList [10, 20, 30]).run [.next, .nextBack]).2.asSlice ++ back :=
  C10_conservation _ _

/-- C10, fused: once nothing is left every further item operation returns `None` and the length stays 0. -/
theorem C10_fused {α : Type} (xs : List α) (ops ops' : List IterOp)
    (hend : ((SliceIter.ofList xs).run ops).2.asSlice = []) :
    ∀ o ∈ (((SliceIter.ofList xs).run ops).2.run ops').1,
      o = .item none ∨ o = .count 0 ∨ o = .hint 0 (some 0) := by
  obtain ⟨-, -, h3⟩ := SliceIter.run_sim ops _ (SliceIter.wf_ofList xs)
  rw [(SliceIter.run_sim ops' _ h3).1, hend]
  clear * -
  induction ops' with
  | nil => simp [dequeRun]
  | cons op ops ih =>
    have h : (dequeStep ([] : List α) op).2 = [] := by cases op <;> simp [dequeStep]
    intro o ho
    simp only [dequeRun, List.mem_cons] at ho
    rcases ho with rfl | ho
    · cases op <;> simp [dequeStep]
    · rw [h] at ho; exact ih o ho

example : ∀ o ∈ (((SliceIter.ofList [10, 20, 30]).run [.next, .nextBack, .nth 5]).2.run [.next, .nextBack, .sizeHint]).1,
    o = .item none ∨ o = .count 0 ∨ o = .hint 0 (some 0) := C10_fused _ _ _ (by decide)

/-- a history that exhausts a non-empty iterator -/
example : ((SliceIter.ofList [10, 20, 30]).run [.next, .nextBack, .nth 5]).2.asSlice = [] := by decide

end

/-! ## C36 -/

/-- C36: building a Gauss-Legendre rule never panics (no table index out of range, no index underflow), for every
degree below the `usize` limit; every single node index is fine as well. -/
theorem C36_legendre_no_panic {F : Type} [FloatOps F] (mode : Overflow) (n : Nat) (h : n + 1 < 2 ^ 64) :
    GaussLegendre.new (F := F) mode n ≠ none ∧
    ∀ k, 1 ≤ k → k ≤ n → Bogaert.nodeWeightPair (F := F) n k ≠ none := by
  refine ⟨?_, fun k hk hkn => ?_⟩
  · obtain ⟨r, h1, -⟩ := legendre_new_some (F := F) (mode := mode) h; simp [h1]
  · obtain ⟨p, hp⟩ := nodeWeightPair_some (F := F) hk hkn; simp [hp]

/-- the largest tabulated degree and the first asymptotic one -/
example {F : Type} [FloatOps F] : GaussLegendre.new (F := F) .checked 100 ≠ none ∧ GaussLegendre.new (F := F) .checked 101 ≠ none :=
  ⟨(C36_legendre_no_panic .checked 100 (by decide)).1, (C36_legendre_no_panic .checked 101 (by decide)).1⟩

/-- outside `1 ≤ k ≤ n` the code would panic, so the range passed by `new` matters -/
example {F : Type} [FloatOps F] : Bogaert.nodeWeightPair (F := F) 5 0 = none := rfl

/-! ## C24 -/

/-- C24: the parallel constructors give bit-identical rules for every schedule. -/
theorem C24_par_new {F : Type} [FloatOps F] (mode : Overflow) (s : Schedule) (n : Nat) :
    GaussLegendre.parNew (F := F) mode s n = GaussLegendre.new mode n ∧
    GaussChebyshevFirstKind.parNew (F := F) mode s n = GaussChebyshevFirstKind.new mode n ∧
    GaussChebyshevSecondKind.parNew (F := F) mode s n = GaussChebyshevSecondKind.new mode n := by
  have hp : ∀ {α β : Type} (g : α → β) (l : List α), l.mapM (fun i => some (g i)) = some (l.map g) := by
    intro α β g l
    induction l with
    | nil => rfl
    | cons x l ih => simp [List.mapM_cons, ih]
  refine ⟨?_, ?_, ?_⟩
  · simp only [GaussLegendre.parNew, GaussLegendre.new, parCollect_eq]
  · simp only [GaussChebyshevFirstKind.parNew, GaussChebyshevFirstKind.new, parCollect_eq, hp,
      Option.bind_eq_bind, Option.bind_some]
  · simp only [GaussChebyshevSecondKind.parNew, GaussChebyshevSecondKind.new, parCollect_eq, hp,
      Option.bind_eq_bind, Option.bind_some]

/-- a schedule that really splits -/
example {F : Type} [FloatOps F] :
    GaussLegendre.parNew (F := F) .wrapping (.split 3 .leaf (.split 1 .leaf .leaf)) 7 = GaussLegendre.new .wrapping 7 :=
  (C24_par_new _ _ _).1

/-! ## C26 -/

/-- C26: after any sequence of `change_degree` calls the rule is the one `new` builds with the last degree;
`From` agrees with `new`. -/
theorem C26_change_degree (r : NodeRule) (ds : List { n : Nat // 0 < n ∧ n < 2 ^ 32 }) (d : { n : Nat // 0 < n ∧ n < 2 ^ 32 }) :
    (ds ++ [d]).foldl (fun r d => r.changeDegree d.1 d.2.1 d.2.2) r = NodeRule.new d.1 d.2.1 d.2.2 ∧
    NodeRule.ofDegree d.1 d.2.1 d.2.2 = NodeRule.new d.1 d.2.1 d.2.2 := by
  simp [List.foldl_append, NodeRule.changeDegree, NodeRule.new, NodeRule.ofDegree]

example : ([⟨5, by decide⟩, ⟨9, by decide⟩] ++ [⟨2, by decide⟩] : List { n : Nat // 0 < n ∧ n < 2 ^ 32 }).foldl
    (fun r d => r.changeDegree d.1 d.2.1 d.2.2) (NodeRule.new 7 (by decide) (by decide)) = NodeRule.new 2 (by decide) (by decide) :=
  (C26_change_degree _ _ ⟨2, by decide⟩).1

/-! ## C45 -/

/-- C45 (refutation): at `usize::MAX` the promise "new() yields a rule of the requested degree" fails: with
overflow checks construction panics, without them it returns an empty rule. -/
theorem C45_usize_max {F : Type} [FloatOps F] :
    GaussLegendre.new (F := F) .checked (2 ^ 64 - 1) = none ∧
    GaussChebyshevFirstKind.new (F := F) .checked (2 ^ 64 - 1) = none ∧
    GaussChebyshevSecondKind.new (F := F) .checked (2 ^ 64 - 1) = none ∧
    (∃ r, GaussLegendre.new (F := F) .wrapping (2 ^ 64 - 1) = some r ∧ r.degree = 0) ∧
    (∃ r, GaussChebyshevFirstKind.new (F := F) .wrapping (2 ^ 64 - 1) = some r ∧ r.degree = 0) ∧
    (∃ r, GaussChebyshevSecondKind.new (F := F) .wrapping (2 ^ 64 - 1) = some r ∧ r.degree = 0) :=
  ⟨rfl, rfl, rfl, ⟨⟨[]⟩, rfl, rfl⟩, ⟨⟨[]⟩, rfl, rfl⟩, ⟨⟨[]⟩, rfl, rfl⟩⟩

example [Libm] : GaussLegendre.new (F := F64) .checked (2 ^ 64 - 1) = none := C45_usize_max.1

/-- C45: `usize::MAX` is the only degree where this happens. -/
theorem C45_all_other_degrees {F : Type} [FloatOps F] (mode : Overflow) (n : Nat) (hn : n < 2 ^ 64) (hne : n ≠ 2 ^ 64 - 1) :
    (∃ r, GaussLegendre.new (F := F) mode n = some r ∧ r.degree = n) ∧
    (∃ r, GaussChebyshevFirstKind.new (F := F) mode n = some r ∧ r.degree = n) ∧
    (∃ r, GaussChebyshevSecondKind.new (F := F) mode n = some r ∧ r.degree = n) := by
  have h : n + 1 < 2 ^ 64 := by omega
  obtain ⟨r1, a1, b1⟩ := C08_legendre (F := F) mode h
  obtain ⟨r2, a2, b2⟩ := C08_chebyshev_first (F := F) mode h
  obtain ⟨r3, a3, b3⟩ := C08_chebyshev_second (F := F) mode h
  exact ⟨⟨r1, a1, b1.degree⟩, ⟨r2, a2, b2.degree⟩, ⟨r3, a3, b3.degree⟩⟩

example {F : Type} [FloatOps F] : ∃ r, GaussLegendre.new (F := F) .wrapping (2 ^ 64 - 2) = some r ∧ r.degree = 2 ^ 64 - 2 :=
  (C45_all_other_degrees .wrapping (2 ^ 64 - 2) (by decide) (by decide)).1

end GaussQuad.Props
