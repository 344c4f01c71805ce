import Verif.Model.Ext
import Verif.Model.F64
import Verif.Model.RealOps

/-! The external routines assumed by the model exist: merge sort meets the contract of
`sort_unstable_by(total_cmp)` for binary64 and for exact real arithmetic, with any eigen-solver. -/

namespace GaussQuad
open FloatOps

/-- externals from any eigen-solver and a total, transitive `total_cmp` -/
def Externals.ofEig {F : Type} [FloatOps F] (trans : ∀ x y z : F, totalLe x y = true → totalLe y z = true → totalLe x z = true)
    (total : ∀ x y : F, (totalLe x y || totalLe y x) = true)
    (eig : (n : Nat) → (Fin n → Fin n → F) → SymEigen F n) : Externals F where
  eig := eig
  sort := fun l => l.mergeSort (fun p q => totalLe p.1 q.1)
  sort_perm := fun l => List.mergeSort_perm l _
  sort_sorted := fun l => List.pairwise_mergeSort (fun p q r => trans p.1 q.1 r.1) (fun p q => total p.1 q.1) l

/-- binary64 `total_cmp` is a total preorder (it is even antisymmetric on bit patterns) -/
def Externals.f64 [Libm] (eig : (n : Nat) → (Fin n → Fin n → F64) → SymEigen F64 n) : Externals F64 :=
  .ofEig (by
      intro x y z h1 h2
      simp only [FloatOps.totalLe, F64.totalLeb, decide_eq_true_eq] at *
      omega)
    (by
      intro x y
      simp only [FloatOps.totalLe, F64.totalLeb, Bool.or_eq_true, decide_eq_true_eq]
      omega) eig

noncomputable def Externals.real (eig : (n : Nat) → (Fin n → Fin n → ℝ) → SymEigen ℝ n) : Externals ℝ :=
  .ofEig (by intro x y z h1 h2; simp at *; exact le_trans h1 h2)
    (by intro x y; simpa using le_total x y) eig

end GaussQuad
