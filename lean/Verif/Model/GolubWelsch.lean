import Verif.Model.Ext
import Verif.Model.DataApi

/-! Model of `/repo/src/golub_welsch.rs`. -/

namespace GaussQuad
open FloatOps

/-- `SquareMatrix::zeros`, /repo/src/golub_welsch.rs l.32-33 -/
def zerosMatrix {F : Type} [FloatOps F] (n : Nat) : Fin n → Fin n → F := fun _ _ => lit 0.0

/-- `matrix[(i, j)] = v`; `none` is the out-of-bounds panic. /repo/src/golub_welsch.rs l.36-41 -/
def setEntry {F : Type} {n : Nat} (M : Fin n → Fin n → F) (i j : Nat) (v : F) :
    Option (Fin n → Fin n → F) :=
  if i < n ∧ j < n then some (fun i' j' => if i'.1 = i ∧ j'.1 = j then v else M i' j') else none

/-- body of the loop over `idx`, /repo/src/golub_welsch.rs l.35-40 -/
def companionStep {F : Type} {n : Nat} (diag offDiag : Nat → F)
    (M : Fin n → Fin n → F) (idx : Nat) : Option (Fin n → Fin n → F) := do
  let M ← setEntry M idx idx (diag idx)
  let offDiagElem := offDiag idx
  let M ← setEntry M idx (idx + 1) offDiagElem
  setEntry M (idx + 1) idx offDiagElem

/-- the companion matrix, /repo/src/golub_welsch.rs l.32-41 -/
def companionMatrix {F : Type} [FloatOps F] (n : Nat) (diag offDiag : Nat → F) :
    Option (Fin n → Fin n → F) := do
  let nm1 ← csub n 1
  let M ← (List.range nm1).foldlM (companionStep diag offDiag) (zerosMatrix n)
  setEntry M nm1 nm1 (diag nm1)

/-- the unsorted pairs, /repo/src/golub_welsch.rs l.45-56: eigenvalues zipped with the first row of the
eigenvector matrix mapped through `x * x * scale_factor` -/
def eigenPairs {F : Type} [FloatOps F] {n : Nat} (h : 0 < n) (E : SymEigen F n) (scaleFactor : F) :
    List (F × F) :=
  (List.ofFn E.eigenvalues).zip
    ((List.ofFn (E.eigenvectors ⟨0, h⟩)).map (fun x => x *ᶠ x *ᶠ scaleFactor))

/-- `golub_welsch`, /repo/src/golub_welsch.rs l.22-61; `none` is a panic. -/
def golubWelsch {F : Type} [FloatOps F] (ext : Externals F) (degree : Nat)
    (diag offDiag : Nat → F) (scaleFactor : F) : Option (List (F × F)) := do
  let M ← companionMatrix degree diag offDiag
  if h : 0 < degree then
    let E := ext.eig degree M
    pure (ext.sort (eigenPairs h E scaleFactor))
  else none

end GaussQuad
