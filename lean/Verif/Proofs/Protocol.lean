import Verif.Proofs.Structure
import Verif.Spec.Protocol

/-! `integrate` of every rule is `combine <$> points.mapM integrand`. -/

namespace GaussQuad
open FloatOps Spec
variable {F : Type} [FloatOps F] {m : Type → Type} [Monad m] [LawfulMonad m]

theorem sumList_eq_foldl (ys : List F) : sumList ys = ys.foldl (· +ᶠ ·) sumInit := rfl

theorem zipWith_mul_eq (ys : List F) (ps : List (F × F)) :
    List.zipWith FloatOps.mul ys (ps.map (·.2)) = List.zipWith (fun y p => y *ᶠ p.2) ys ps := by
  rw [List.zipWith_map_right]

theorem gauss_sum_eq (ps : List (F × F)) (φ : F → F) (f : F → m F) :
    sumMapM ps (fun p => do let y ← f (φ p.1); pure (y *ᶠ p.2))
      = weighted ps <$> (ps.map fun p => φ p.1).mapM f := by
  rw [sumMapM_eq, mapM_map_mul, Functor.map_map]
  congr 1; funext ys
  rw [zipWith_mul_eq]; rfl

theorem nodes_eq (r : NodeRule) : (r.nodes : List F) = (List.range r.degree).map ofNat := by
  simp [NodeRule.nodes, NodeRule.range, RangeIter.ofDegree, RangeIter.items, RangeIter.len, List.range_eq_range']

theorem range'_one_eq (k : Nat) : List.range' 1 k = (List.range k).map (· + 1) := by
  apply List.ext_getElem <;> simp [Nat.add_comm]

theorem nodes_drop (r : NodeRule) : (r.nodes : List F).drop 1 = (List.range (r.degree - 1)).map fun i => ofNat (i + 1) := by
  rw [nodes_eq]
  obtain ⟨d, hd⟩ : ∃ d, r.degree = d + 1 := ⟨r.degree - 1, by have := r.pos; omega⟩
  rw [hd, List.range_succ_eq_map]
  simp

theorem sumMapM_map {α : Type} (xs : List α) (h : α → F) (f : F → m F) :
    sumMapM xs (fun x => f (h x)) = sumList <$> (xs.map h).mapM f := by
  rw [sumMapM_eq, List.mapM_map]; rfl

theorem mapM_length {α β : Type} (xs : List α) (f : α → m β) :
    ∀ (γ : Type) (k k' : List β → m γ), (∀ ys, ys.length = xs.length → k ys = k' ys) →
      (xs.mapM f >>= k) = (xs.mapM f >>= k') := by
  induction xs with
  | nil => intro γ k k' h; simp [h]
  | cons x xs ih =>
    intro γ k k' h
    simp only [List.mapM_cons, bind_assoc, pure_bind]
    congr 1; funext y
    apply ih
    intro ys hy
    exact h _ (by simp [hy])

theorem map_congr_length {α β γ : Type} (xs : List α) (f : α → m β) (g g' : List β → γ)
    (h : ∀ ys, ys.length = xs.length → g ys = g' ys) : g <$> xs.mapM f = g' <$> xs.mapM f := by
  rw [map_eq_pure_bind, map_eq_pure_bind]
  exact mapM_length xs f γ _ _ (fun ys hy => by rw [h ys hy])

theorem midpoint_protocol (r : NodeRule) (a b : F) (f : F → m F) :
    Midpoint.integrate r a b f = combine a b (.midpoint r) <$> (points a b (.midpoint r)).mapM f := by
  unfold Midpoint.integrate
  simp only [points]
  rw [sumMapM_map, nodes_eq, List.map_map]
  simp only [map_eq_pure_bind, bind_assoc, pure_bind]
  rfl

theorem trapezoid_protocol (r : NodeRule) (a b : F) (f : F → m F) :
    Trapezoid.integrate r a b f = combine a b (.trapezoid r) <$> (points a b (.trapezoid r)).mapM f := by
  unfold Trapezoid.integrate
  simp only [points]
  rw [sumMapM_map, range'_one_eq, List.map_map]
  simp only [map_eq_pure_bind, bind_assoc, pure_bind, List.mapM_cons, List.cons_append, List.nil_append]
  rfl

theorem simpson_protocol (r : NodeRule) (a b : F) (f : F → m F) :
    Simpson.integrate r a b f = combine a b (.simpson r) <$> (points a b (.simpson r)).mapM f := by
  have hlen : r.range.len = r.degree := by simp [NodeRule.range, RangeIter.ofDegree, RangeIter.len]
  obtain ⟨d, hd⟩ : ∃ d, r.degree = d + 1 := ⟨r.degree - 1, by have := r.pos; omega⟩
  unfold Simpson.integrate
  simp only [points, hlen]
  rw [sumMapM_map, sumMapM_map, nodes_drop, List.map_map, List.map_map, hd]
  simp only [Nat.add_sub_cancel, List.range_succ, List.map_append, List.map_cons, List.map_nil]
  simp only [List.mapM_append, List.mapM_cons, List.mapM_nil, map_eq_pure_bind, bind_assoc, pure_bind]
  refine mapM_length _ _ _ _ _ (fun ys hys => ?_)
  refine mapM_length _ _ _ _ _ (fun zs hzs => ?_)
  simp only [List.length_map, List.length_range] at hys hzs
  congr 1; funext y1
  congr 1; funext y2
  congr 1; funext y3
  congr 1
  simp only [combine, hd, sumList_eq_foldl]
  have e1 : (ys ++ (zs ++ [y1]) ++ [y2, y3]).take (d + 1 - 1) = ys := by
    simp [← hys]
  have e2 : ((ys ++ (zs ++ [y1]) ++ [y2, y3]).drop (d + 1 - 1)).take (d + 1 - 1) = zs := by
    have h1 : (ys ++ (zs ++ [y1]) ++ [y2, y3]).drop (d + 1 - 1) = zs ++ [y1, y2, y3] := by simp [← hys]
    rw [h1]; simp [← hzs]
  have e3 : ∀ j, (ys ++ (zs ++ [y1]) ++ [y2, y3]).getD (2 * d + j) sumInit = [y1, y2, y3].getD j sumInit := by
    intro j
    simp only [List.getD_eq_getElem?_getD, List.append_assoc]
    rw [List.getElem?_append_right (by omega), List.getElem?_append_right (by omega)]
    congr 2
    omega
  rw [e1, e2, show 2 * (d + 1) - 2 = 2 * d + 0 by omega, show 2 * (d + 1) - 1 = 2 * d + 1 by omega,
    show 2 * (d + 1) = 2 * d + 2 by omega, e3, e3, e3]
  rfl

theorem protocol (R : AnyRule F) (a b : F) (f : F → m F) :
    R.integrate a b f = combine a b R <$> (points a b R).mapM f := by
  cases R with
  | midpoint r => exact midpoint_protocol r a b f
  | trapezoid r => exact trapezoid_protocol r a b f
  | simpson r => exact simpson_protocol r a b f
  | legendre r =>
    simp only [AnyRule.integrate, GaussLegendre.integrate, points]
    rw [gauss_sum_eq r.nodeWeightPairs (fun x => GaussLegendre.argumentTransformation x a b)]
    simp only [map_eq_pure_bind, bind_assoc, pure_bind]; rfl
  | chebyshevFirst r =>
    simp only [AnyRule.integrate, GaussChebyshevFirstKind.integrate, points]
    rw [gauss_sum_eq r.nodeWeightPairs (fun x => GaussChebyshevFirstKind.argumentTransformation x a b)]
    simp only [map_eq_pure_bind, bind_assoc, pure_bind]; rfl
  | chebyshevSecond r =>
    simp only [AnyRule.integrate, GaussChebyshevSecondKind.integrate, points]
    rw [gauss_sum_eq r.nodeWeightPairs (fun x => GaussChebyshevSecondKind.argumentTransformation x a b)]
    simp only [map_eq_pure_bind, bind_assoc, pure_bind]; rfl
  | jacobi r =>
    simp only [AnyRule.integrate, GaussJacobi.integrate, points]
    rw [gauss_sum_eq r.nodeWeightPairs (fun x => GaussJacobi.argumentTransformation x a b)]
    simp only [map_eq_pure_bind, bind_assoc, pure_bind]; rfl
  | hermite r =>
    simp only [AnyRule.integrate, GaussHermite.integrate, points]
    rw [gauss_sum_eq r.nodeWeightPairs (fun x => x)]; rfl
  | laguerre r =>
    simp only [AnyRule.integrate, GaussLaguerre.integrate, points]
    rw [gauss_sum_eq r.nodeWeightPairs (fun x => x)]; rfl

theorem mapM_run_id {α β : Type} (xs : List α) (f : α → β) :
    Id.run (xs.mapM (fun x => (pure (f x) : Id β))) = xs.map f := by
  induction xs with
  | nil => rfl
  | cons x xs ih => rw [List.mapM_cons, List.map_cons, ← ih]; rfl

theorem value_eq (R : AnyRule F) (a b : F) (f : F → F) :
    R.value a b f = combine a b R ((points a b R).map f) := by
  unfold AnyRule.value
  rw [protocol, ← mapM_run_id]; rfl

end GaussQuad
