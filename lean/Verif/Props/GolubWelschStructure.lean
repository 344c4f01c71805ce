import Verif.Proofs.Structure
import Verif.Model.F64

/-!
# Structure of the Golub-Welsch routine: C12 (structural part), C13, C14, C39
-/

namespace GaussQuad.Props
open FloatOps

section
variable {F : Type} [FloatOps F]

/-! ## C14 -/

/-- C14: for every degree `n ≥ 1` the matrix handed to the eigen-solver is the symmetric tridiagonal matrix with
`diag i` on the diagonal, `off_diag i` next to it, zeros elsewhere; no index is out of bounds (the result is `some`). -/
theorem C14_companion_matrix {n : Nat} (hn : 0 < n) (diag offDiag : Nat → F) :
    ∃ M : Fin n → Fin n → F, companionMatrix n diag offDiag = some M ∧
      (∀ i, M i i = diag i) ∧
      (∀ i j : Fin n, (j : Nat) = i + 1 → M i j = offDiag i ∧ M j i = offDiag i) ∧
      (∀ i j : Fin n, (i : Nat) + 1 < j ∨ (j : Nat) + 1 < i → M i j = lit 0.0) := by
  refine ⟨_, companionMatrix_eq hn diag offDiag, ?_, ?_, ?_⟩
  · intro i; simp
  · intro i j h
    refine ⟨?_, ?_⟩
    · have : (i : Nat) ≠ j := by omega
      simp [this, h]
    · have h1 : (j : Nat) ≠ i := by omega
      have h2 : (i : Nat) ≠ j + 1 := by omega
      show (if (j : Nat) = i then _ else if (i : Nat) = j + 1 then _ else if (j : Nat) = i + 1 then _ else _) = _
      rw [if_neg h1, if_neg h2, if_pos h]
  · intro i j h
    have h1 : (i : Nat) ≠ j := by omega
    have h2 : (j : Nat) ≠ i + 1 := by omega
    have h3 : (i : Nat) ≠ j + 1 := by omega
    simp [h1, h2, h3]

/-- C14: only `diag 0 .. diag (n-1)` and `off_diag 0 .. off_diag (n-2)` are used. -/
theorem C14_only_indices {n : Nat} (hn : 0 < n) (diag diag' offDiag offDiag' : Nat → F)
    (hd : ∀ i < n, diag i = diag' i) (ho : ∀ i, i + 1 < n → offDiag i = offDiag' i) :
    companionMatrix n diag offDiag = companionMatrix n diag' offDiag' := by
  rw [companionMatrix_eq hn, companionMatrix_eq hn]
  congr 1; funext i j
  split
  · exact hd i i.2
  · split
    · exact ho i (by omega)
    · split
      · exact ho j (by omega)
      · rfl

/-- two diagonals that differ only beyond the matrix give the same 3 x 3 matrix -/
example (d o : Nat → F) : companionMatrix 3 d o = companionMatrix 3 (fun i => if i < 3 then d i else lit 7.0) (fun i => if i < 2 then o i else lit 9.0) :=
  C14_only_indices (by decide) _ _ _ _ (fun i hi => by simp [hi]) (fun i hi => by simp [show i < 2 by omega])

/-- degree 1 and degree 0: a degree-0 call would panic, `NonZeroUsize` excludes it -/
example (d o : Nat → F) : companionMatrix 0 d o = none := rfl
example : companionMatrix (F := F) 3 (fun i => ofNat i) (fun i => ofNat (10 + i)) ≠ none := by
  obtain ⟨M, h, -⟩ := C14_companion_matrix (F := F) (n := 3) (by decide) (fun i => ofNat i) (fun i => ofNat (10 + i))
  simp [h]

/-! ## C13 -/

theorem eigenPairs_eq_ofFn {n : Nat} (h : 0 < n) (E : SymEigen F n) (s : F) :
    eigenPairs h E s = List.ofFn fun i : Fin n =>
      (E.eigenvalues i, E.eigenvectors ⟨0, h⟩ i *ᶠ E.eigenvectors ⟨0, h⟩ i *ᶠ s) := by
  apply List.ext_getElem
  · simp [eigenPairs]
  · intro i h1 h2; simp [eigenPairs]

/-- C13: whatever the eigen-solver returns, the stored pairs are a rearrangement of
`(λ_i, V_{0i}² · scale)`: each exactly once, never separated. -/
theorem C13_pairs_kept (ext : Externals F) {n : Nat} (hn : 0 < n) (diag offDiag : Nat → F) (scale : F) :
    ∃ M pairs, companionMatrix n diag offDiag = some M ∧
      golubWelsch ext n diag offDiag scale = some pairs ∧
      pairs.Perm (List.ofFn fun i : Fin n =>
        ((ext.eig n M).eigenvalues i,
          (ext.eig n M).eigenvectors ⟨0, hn⟩ i *ᶠ (ext.eig n M).eigenvectors ⟨0, hn⟩ i *ᶠ scale)) := by
  obtain ⟨M, h1, h2⟩ := golubWelsch_eq ext hn diag offDiag scale
  refine ⟨M, _, h1, h2, ?_⟩
  rw [← eigenPairs_eq_ofFn]
  exact ext.sort_perm _

/-- a fixed solver whose eigenvalues come in descending order: all four pairs survive the sorting -/
example (ext : Externals F) : ∃ pairs, golubWelsch ext 4 (fun _ => lit 0.0) (fun i => ofNat (i + 1)) (lit 2.0) = some pairs ∧ pairs.length = 4 := by
  obtain ⟨M, pairs, -, h, hp⟩ := C13_pairs_kept ext (n := 4) (by decide) (fun _ => lit 0.0) (fun i => ofNat (i + 1)) (lit 2.0)
  exact ⟨pairs, h, by rw [hp.length_eq]; simp⟩

/-! ## C12, structural part -/

/-- Ascending by `f64::total_cmp` on the node. -/
def SortedByNode (l : List (F × F)) : Prop := l.Pairwise fun p q => totalLe p.1 q.1 = true

/-- C12 for Gauss-Hermite: sorted for whatever floats the eigen-solver returns. -/
theorem C12_hermite (ext : Externals F) {n : Nat} (hn : 0 < n) :
    ∃ r, GaussHermite.new ext n = some r ∧ SortedByNode r.asNodeWeightPairs := by
  obtain ⟨l, h1, -, h3⟩ := golubWelsch_isSome ext hn GaussHermite.diag GaussHermite.offDiag (sqrt pi)
  exact ⟨⟨l⟩, by simp [GaussHermite.new, h1], h3⟩

example (ext : Externals F) : ∃ r, GaussHermite.new ext 7 = some r ∧ SortedByNode r.asNodeWeightPairs :=
  C12_hermite ext (by decide)

/-- C12 for Gauss-Laguerre. -/
theorem C12_laguerre (ext : Externals F) {n : Nat} (hn : 0 < n) (α : FiniteAboveNegOne F) :
    ∃ r, GaussLaguerre.new ext n α = some r ∧ SortedByNode r.asNodeWeightPairs := by
  obtain ⟨l, h1, -, h3⟩ := golubWelsch_isSome ext hn (GaussLaguerre.diag α.get) (GaussLaguerre.offDiag α.get)
    (gamma (α.get +ᶠ lit 1.0))
  exact ⟨{ nodeWeightPairs := l, alpha := α }, by simp [GaussLaguerre.new, h1], h3⟩

example (ext : Externals F) : ∃ r, GaussLaguerre.new ext 7 ⟨lit 0.5⟩ = some r ∧ SortedByNode r.asNodeWeightPairs :=
  C12_laguerre ext (by decide) _

/-- C12 for the general branch of Gauss-Jacobi at even degrees (at odd degrees see
`C12_jacobi_odd_refuted`). -/
theorem C12_jacobi_even (ext : Externals F) {n : Nat} (hn : 0 < n) (heven : n % 2 = 0) (α β : FiniteAboveNegOne F) :
    ∃ r, GaussJacobi.newGeneral ext n α β = some r ∧ SortedByNode r.asNodeWeightPairs := by
  obtain ⟨l, h1, h2, h3⟩ := golubWelsch_isSome ext hn (GaussJacobi.diag α.get β.get)
    (GaussJacobi.offDiag α.get β.get) (GaussJacobi.weightScale α.get β.get)
  have h4 : GaussJacobi.fixMiddle n l = some l := by simp [GaussJacobi.fixMiddle, heven]
  exact ⟨{ nodeWeightPairs := l, alpha := α, beta := β }, by simp [GaussJacobi.newGeneral, h1, h4], h3⟩

example (ext : Externals F) : ∃ r, GaussJacobi.newGeneral ext 8 ⟨lit 0.25⟩ ⟨lit 1.5⟩ = some r ∧ SortedByNode r.asNodeWeightPairs :=
  C12_jacobi_even ext (by decide) (by decide) _ _

/-- C12 for Gauss-Jacobi at odd degrees: everything but the middle entry stays sorted, the weights are untouched
and the middle node is exactly the literal `0.0`. -/
theorem C12_jacobi_odd_partial (ext : Externals F) {n : Nat} (hn : 0 < n) (hodd : n % 2 = 1) (α β : FiniteAboveNegOne F) :
    ∃ r l, GaussJacobi.newGeneral ext n α β = some r ∧
      golubWelsch ext n (GaussJacobi.diag α.get β.get) (GaussJacobi.offDiag α.get β.get)
        (GaussJacobi.weightScale α.get β.get) = some l ∧ SortedByNode l ∧
      r.asNodeWeightPairs.map (·.2) = l.map (·.2) ∧
      (∀ i, i ≠ n / 2 → r.asNodeWeightPairs[i]? = l[i]?) ∧
      r.asNodeWeightPairs[n / 2]?.map (·.1) = some (lit 0.0) := by
  obtain ⟨l, h1, h2, h3⟩ := golubWelsch_isSome ext hn (GaussJacobi.diag α.get β.get)
    (GaussJacobi.offDiag α.get β.get) (GaussJacobi.weightScale α.get β.get)
  have hlt : n / 2 < l.length := by omega
  have h4 : GaussJacobi.fixMiddle n l = some (l.set (n / 2) (lit 0.0, (l[n / 2]).2)) := by
    simp [GaussJacobi.fixMiddle, hodd, hlt]
  refine ⟨{ nodeWeightPairs := l.set (n / 2) (lit 0.0, (l[n / 2]).2), alpha := α, beta := β }, l,
    by simp [GaussJacobi.newGeneral, h1, h4], h1, h3, ?_, ?_, ?_⟩
  · show List.map _ (l.set _ _) = _
    rw [List.map_set]
    apply List.ext_getElem?
    intro i
    rw [List.getElem?_set]
    split
    · rename_i h; subst h; simp [hlt]
    · rfl
  · intro i hi
    show (l.set _ _)[i]? = _
    rw [List.getElem?_set, if_neg (Ne.symm hi)]
  · show ((l.set _ _)[n / 2]?).map _ = _
    simp [hlt]

/-- the middle node of the 5-point rule is overwritten by 0 -/
example (ext : Externals F) : ∃ r, GaussJacobi.newGeneral ext 5 ⟨lit 0.25⟩ ⟨lit 1.5⟩ = some r ∧
    r.asNodeWeightPairs[2]?.map (·.1) = some (lit 0.0) :=
  let ⟨r, _, h, _, _, _, _, hm⟩ := C12_jacobi_odd_partial ext (n := 5) (by decide) (by decide) ⟨lit 0.25⟩ ⟨lit 1.5⟩
  ⟨r, h, hm⟩

/-! ## C39 -/

/-- C39: the delegations, stated through float equality, plus the accessors. -/
theorem C39_delegation (mode : Overflow) (ext : Externals F) (n : Nat) (α β : FiniteAboveNegOne F)
    (hz : ∀ x : F, feq x (lit 0.0) = true → feq x (lit (-0.5)) = false ∧ feq x (lit 0.5) = false)
    (hm : ∀ x : F, feq x (lit (-0.5)) = true → feq x (lit 0.5) = false) :
    (feq α.get (lit 0.0) = true ∧ feq β.get (lit 0.0) = true →
      (GaussJacobi.new mode ext n α β).map (·.toRule) = GaussLegendre.new mode n) ∧
    (feq α.get (lit (-0.5)) = true ∧ feq β.get (lit (-0.5)) = true →
      (GaussJacobi.new mode ext n α β).map (·.toRule) = GaussChebyshevFirstKind.new mode n) ∧
    (feq α.get (lit 0.5) = true ∧ feq β.get (lit 0.5) = true →
      (GaussJacobi.new mode ext n α β).map (·.toRule) = GaussChebyshevSecondKind.new mode n) := by
  have e : ∀ (o : Option (Rule F)) (g : Rule F → JacobiRule F), (∀ r, (g r).toRule = r) →
      (o.map g).map (·.toRule) = o := by
    intro o g hg; cases o <;> simp [hg]
  refine ⟨?_, ?_, ?_⟩
  · rintro ⟨h1, h2⟩
    simp only [GaussJacobi.new, h1, h2, Bool.and_self, if_true]
    exact e _ _ fun r => rfl
  · rintro ⟨h1, h2⟩
    have h3 : feq α.get (lit 0.0) = false := by
      by_contra h; have := (hz _ (by simpa using h)).1; simp [h1] at this
    simp only [GaussJacobi.new, h1, h2, h3, Bool.and_self, if_true, Bool.false_and, Bool.false_eq_true, if_false]
    exact e _ _ fun r => rfl
  · rintro ⟨h1, h2⟩
    have h3 : feq α.get (lit 0.0) = false := by
      by_contra h; have := (hz _ (by simpa using h)).2; simp [h1] at this
    have h4 : feq α.get (lit (-0.5)) = false := by
      by_contra h; have := hm _ (by simpa using h); simp [h1] at this
    simp only [GaussJacobi.new, h1, h2, h3, h4, Bool.and_self, if_true, Bool.false_and, Bool.false_eq_true,
      if_false]
    exact e _ _ fun r => rfl

/-- C39: in every other case the eigen-solver branch (or the closed form at degree 1) is taken, for every
arithmetic. -/
theorem C39_no_delegation (mode : Overflow) (ext : Externals F) (n : Nat) (α β : FiniteAboveNegOne F)
    (h0 : ¬ (feq α.get (lit 0.0) = true ∧ feq β.get (lit 0.0) = true))
    (h1 : ¬ (feq α.get (lit (-0.5)) = true ∧ feq β.get (lit (-0.5)) = true))
    (h2 : ¬ (feq α.get (lit 0.5) = true ∧ feq β.get (lit 0.5) = true)) :
    (n ≠ 1 → GaussJacobi.new mode ext n α β = GaussJacobi.newGeneral ext n α β) ∧
    (n = 1 → ∃ w, GaussJacobi.new mode ext n α β = some
      { nodeWeightPairs := [((β.get -ᶠ α.get) /ᶠ (α.get +ᶠ β.get +ᶠ lit 2.0), w)], alpha := α, beta := β }) := by
  refine ⟨fun hn => ?_, fun hn => ⟨GaussJacobi.weightOne α.get β.get, ?_⟩⟩
  · simp only [GaussJacobi.new, Bool.and_eq_true, h0, h1, h2, hn, if_false]
  · simp only [GaussJacobi.new, Bool.and_eq_true, h0, h1, h2, hn, if_false, if_true]
    rfl

/-- C39: `alpha()` and `beta()` of the result are IEEE-equal to the arguments (bit-equal outside the
delegated cases).  `hr` says that the arguments are not NaN, `hs` that `==` is symmetric. -/
theorem C39_parameters (mode : Overflow) (ext : Externals F) (n : Nat) (α β : FiniteAboveNegOne F)
    (hs : ∀ x y : F, feq x y = feq y x) (hα : feq α.get α.get = true) (hβ : feq β.get β.get = true)
    (r : JacobiRule F) (hr : GaussJacobi.new mode ext n α β = some r) :
    feq r.alpha.get α.get = true ∧ feq r.beta.get β.get = true := by
  unfold GaussJacobi.new at hr
  split at hr
  · rename_i h; rw [Bool.and_eq_true] at h
    obtain ⟨q, -, rfl⟩ := Option.map_eq_some_iff.1 hr
    exact ⟨by rw [hs]; exact h.1, by rw [hs]; exact h.2⟩
  · split at hr
    · rename_i h; rw [Bool.and_eq_true] at h
      obtain ⟨q, -, rfl⟩ := Option.map_eq_some_iff.1 hr
      exact ⟨by rw [hs]; exact h.1, by rw [hs]; exact h.2⟩
    · split at hr
      · rename_i h; rw [Bool.and_eq_true] at h
        obtain ⟨q, -, rfl⟩ := Option.map_eq_some_iff.1 hr
        exact ⟨by rw [hs]; exact h.1, by rw [hs]; exact h.2⟩
      · split at hr
        · injection hr with hr; subst hr; exact ⟨hα, hβ⟩
        · simp only [GaussJacobi.newGeneral, Option.bind_eq_bind, Option.bind_eq_some_iff] at hr
          obtain ⟨l, -, l', -, h⟩ := hr
          injection h with h; subst h; exact ⟨hα, hβ⟩

/-- C39: the `From` conversions keep the pairs and set the documented parameters. -/
theorem C39_from_conversions (r : Rule F) :
    (GaussJacobi.ofLegendre r).asNodeWeightPairs = r.asNodeWeightPairs ∧
    (GaussJacobi.ofChebyshevFirstKind r).asNodeWeightPairs = r.asNodeWeightPairs ∧
    (GaussJacobi.ofChebyshevSecondKind r).asNodeWeightPairs = r.asNodeWeightPairs ∧
    (GaussJacobi.ofLegendre r).alpha.get = lit 0.0 ∧ (GaussJacobi.ofLegendre r).beta.get = lit 0.0 ∧
    (GaussJacobi.ofChebyshevFirstKind r).alpha.get = lit (-0.5) ∧ (GaussJacobi.ofChebyshevFirstKind r).beta.get = lit (-0.5) ∧
    (GaussJacobi.ofChebyshevSecondKind r).alpha.get = lit 0.5 ∧ (GaussJacobi.ofChebyshevSecondKind r).beta.get = lit 0.5 :=
  ⟨rfl, rfl, rfl, rfl, rfl, rfl, rfl, rfl, rfl⟩

example (x w : F) : (GaussJacobi.ofChebyshevFirstKind ⟨[(x, w)]⟩).asNodeWeightPairs = [(x, w)] ∧
    (GaussJacobi.ofChebyshevFirstKind ⟨[(x, w)]⟩).alpha.get = lit (-0.5) :=
  let h := C39_from_conversions (⟨[(x, w)]⟩ : Rule F)
  ⟨h.2.1, h.2.2.2.2.2.1⟩

end

/-! IEEE facts used to instantiate C39 -/

theorem f64_feq_symm (x y : F64) [Libm] : feq x y = feq y x := by
  show F64.eqb x y = F64.eqb y x
  unfold F64.eqb
  rw [Bool.and_comm (!x.isNaN)]
  congr 1
  exact decide_eq_decide.2 eq_comm

/-- C39 in IEEE arithmetic: the delegation theorem applies as is (`-0.0` included), because the three literals are
pairwise different under `==`. -/
theorem C39_delegation_f64 [Libm] (mode : Overflow) (ext : Externals F64) (n : Nat) (α β : FiniteAboveNegOne F64) :
    (feq α.get (lit 0.0) = true ∧ feq β.get (lit 0.0) = true →
      (GaussJacobi.new mode ext n α β).map (·.toRule) = GaussLegendre.new mode n) ∧
    (feq α.get (lit (-0.5)) = true ∧ feq β.get (lit (-0.5)) = true →
      (GaussJacobi.new mode ext n α β).map (·.toRule) = GaussChebyshevFirstKind.new mode n) ∧
    (feq α.get (lit 0.5) = true ∧ feq β.get (lit 0.5) = true →
      (GaussJacobi.new mode ext n α β).map (·.toRule) = GaussChebyshevSecondKind.new mode n) := by
  have key : ∀ (q q' : Rat), F64.eqb (F64.round q false) (F64.round q' false) = false →
      ∀ x : F64, F64.eqb x (F64.round q false) = true → F64.eqb x (F64.round q' false) = false := by
    intro q q' hne x hx
    unfold F64.eqb at hx hne ⊢
    simp only [Bool.and_eq_true, Bool.not_eq_true', decide_eq_true_eq] at hx
    obtain ⟨⟨hx1, hx2⟩, hx3⟩ := hx
    rw [hx2] at hne
    rw [hx1, hx3]
    exact hne
  apply C39_delegation
  · intro x hx
    exact ⟨key _ _ (by decide +kernel) x hx, key _ _ (by decide +kernel) x hx⟩
  · intro x hx
    exact key _ _ (by decide +kernel) x hx

/-- the two-parameter constructor with `alpha = beta = 0.0` returns the Gauss-Legendre rule, also for `-0.0` -/
example [Libm] (ext : Externals F64) : (GaussJacobi.new .checked ext 9 ⟨F64.zero true⟩ ⟨F64.zero false⟩).map (·.toRule) = GaussLegendre.new .checked 9 := by
  refine (C39_delegation_f64 .checked ext 9 ⟨F64.zero true⟩ ⟨F64.zero false⟩).1 ⟨?_, ?_⟩
  · show F64.eqb (F64.zero true) (F64.round 0.0 false) = true
    decide +kernel
  · show F64.eqb (F64.zero false) (F64.round 0.0 false) = true
    decide +kernel

/-- negative zero is accepted as zero, yet `alpha()` then returns `+0.0`, a different bit pattern -/
example [Libm] : feq (F64.zero true) (lit 0.0 : F64) = true ∧ F64.zero true ≠ (lit 0.0 : F64) := by
  show F64.eqb (F64.zero true) (F64.round 0.0 false) = true ∧ F64.zero true ≠ F64.round 0.0 false
  decide +kernel

end GaussQuad.Props
