import Verif.Model.Ext
import Verif.Model.DataApi
import Verif.Model.LegendreData

/-! Model of `/repo/src/legendre/bogaert/mod.rs` and `/repo/src/legendre/mod.rs`.
The polynomial expressions were translated mechanically by `/verif/tools/gen_bogaert.py`. -/

namespace GaussQuad
open FloatOps
variable {F : Type} [FloatOps F] {m : Type → Type} [Monad m]

/-- A table entry read as `f64`: the stored integer is the source literal times `10^20`
(`Verif.Model.LegendreData`). (/repo/src/legendre/bogaert/data.rs) -/
def tableLit (v : Int) : F := lit ((v : Rat) / 100000000000000000000)

namespace Bogaert
open LegendreData

/-- the branch `k > 20` of `bessel_j0_zero`, /repo/src/legendre/bogaert/mod.rs l.34-37 -/
def besselJ0ZeroAsymptotic (k : Nat) : F :=
  let z : F := pi *ᶠ (ofNat k -ᶠ (lit 0.25))
  let r := (lit 1.0) /ᶠ z
  let r2 := r *ᶠ r
  z +ᶠ r *ᶠ ((lit 0.125) +ᶠ r2 *ᶠ ((lit (-8.072916666666667e-2)) +ᶠ r2 *ᶠ ((lit 0.24602864583333334) +ᶠ r2 *ᶠ ((lit (-1.824438767206101)) +ᶠ r2 *ᶠ ((lit 25.336414797343906) +ᶠ r2 *ᶠ ((lit (-567.6444121351834)) +ᶠ r2 *ᶠ ((lit 18690.476528232066) +ᶠ r2 *ᶠ ((lit (-8.493535802991488e5)) +ᶠ (lit 5.092254624022268e7) *ᶠ r2))))))))

/-- `bessel_j0_zero`, /repo/src/legendre/bogaert/mod.rs l.32-41; `none` is a panic. -/
def besselJ0Zero (k : Nat) : Option F :=
  if k > 20 then some (besselJ0ZeroAsymptotic k)
  else do
    let i ← csub k 1
    let v ← JZ[i]?
    pure (tableLit v)

/-- the branch `k > 21` of `bessel_j1_squared`, /repo/src/legendre/bogaert/mod.rs l.55-57 -/
def besselJ1SquaredAsymptotic (k : Nat) : F :=
  let x : F := (lit 1.0) /ᶠ (ofNat k -ᶠ (lit 0.25))
  let x2 := x *ᶠ x
  x *ᶠ ((lit 0.20264236728467555) +ᶠ x2 *ᶠ x2 *ᶠ ((lit (-3.0338042971129027e-4)) +ᶠ x2 *ᶠ ((lit 1.989243642459693e-4) +ᶠ x2 *ᶠ ((lit (-2.2896990277211166e-4)) +ᶠ x2 *ᶠ ((lit 4.337107191307463e-4) +ᶠ x2 *ᶠ ((lit (-1.236323497271754e-3)) +ᶠ x2 *ᶠ ((lit 4.9610142326888314e-3) +ᶠ x2 *ᶠ ((lit (-2.6683739370232377e-2)) +ᶠ (lit 0.18539539820634562) *ᶠ x2))))))))

/-- `bessel_j1_squared`, /repo/src/legendre/bogaert/mod.rs l.53-61 -/
def besselJ1Squared (k : Nat) : Option F :=
  if k > 21 then some (besselJ1SquaredAsymptotic k)
  else do
    let i ← csub k 1
    let v ← J1[i]?
    pure (tableLit v)

/-- `struct ThetaWeightPair`, /repo/src/legendre/bogaert/mod.rs l.97-101 -/
structure ThetaWeightPair (F : Type) where
  theta : F
  weight : F

/-- `sf1t`, /repo/src/legendre/bogaert/mod.rs l.141 -/
def sf1t (x : F) : F := ((((((lit (-1.2905299627428051e-12)) *ᶠ x +ᶠ (lit 2.4072468586433013e-10)) *ᶠ x -ᶠ (lit 3.1314865463599204e-8)) *ᶠ x +ᶠ (lit 2.7557316896206124e-6)) *ᶠ x -ᶠ (lit 1.4880952371390914e-4)) *ᶠ x +ᶠ (lit 4.166666666651934e-3)) *ᶠ x -ᶠ (lit 4.16666666666663e-2)
/-- `sf2t`, /repo/src/legendre/bogaert/mod.rs l.142 -/
def sf2t (x : F) : F := ((((((lit 2.20639421781871e-9) *ᶠ x -ᶠ (lit 7.530367713737693e-8)) *ᶠ x +ᶠ (lit 1.6196925945383627e-6)) *ᶠ x -ᶠ (lit 2.53300326008232e-5)) *ᶠ x +ᶠ (lit 2.8211688605756045e-4)) *ᶠ x -ᶠ (lit 2.090222483878529e-3)) *ᶠ x +ᶠ (lit 8.159722217729322e-3)
/-- `sf3t`, /repo/src/legendre/bogaert/mod.rs l.143 -/
def sf3t (x : F) : F := ((((((lit (-2.9705822537552623e-8)) *ᶠ x +ᶠ (lit 5.558453302237962e-7)) *ᶠ x -ᶠ (lit 5.677978413568331e-6)) *ᶠ x +ᶠ (lit 4.184981003295046e-5)) *ᶠ x -ᶠ (lit 2.513952932839659e-4)) *ᶠ x +ᶠ (lit 1.2865419854284513e-3)) *ᶠ x -ᶠ (lit 4.160121656202043e-3)
/-- `wsf1t`, /repo/src/legendre/bogaert/mod.rs l.146 -/
def wsf1t (x : F) : F := (((((((((lit (-2.2090286104461664e-14)) *ᶠ x +ᶠ (lit 2.3036572686037738e-12)) *ᶠ x -ᶠ (lit 1.752577007354238e-10)) *ᶠ x +ᶠ (lit 1.037560669279168e-8)) *ᶠ x -ᶠ (lit 4.639686475532213e-7)) *ᶠ x +ᶠ (lit 1.4964459362502864e-5)) *ᶠ x -ᶠ (lit 3.262786595944122e-4)) *ᶠ x +ᶠ (lit 4.365079365075981e-3)) *ᶠ x -ᶠ (lit 3.05555555555553e-2)) *ᶠ x +ᶠ (lit 8.333333333333333e-2)
/-- `wsf2t`, /repo/src/legendre/bogaert/mod.rs l.147 -/
def wsf2t (x : F) : F := ((((((((lit 3.631174121526548e-12) *ᶠ x +ᶠ (lit 7.676435450698932e-11)) *ᶠ x -ᶠ (lit 7.129128572336422e-9)) *ᶠ x +ᶠ (lit 2.1148388068594716e-7)) *ᶠ x -ᶠ (lit 3.818179186800454e-6)) *ᶠ x +ᶠ (lit 4.659695306949684e-5)) *ᶠ x -ᶠ (lit 4.0729718561133575e-4)) *ᶠ x +ᶠ (lit 2.689594356947297e-3)) *ᶠ x -ᶠ (lit 1.1111111111121492e-2)
/-- `wsf3t`, /repo/src/legendre/bogaert/mod.rs l.148 -/
def wsf3t (x : F) : F := ((((((((lit 2.018267912567033e-9) *ᶠ x -ᶠ (lit 4.386471225202067e-8)) *ᶠ x +ᶠ (lit 5.088983472886716e-7)) *ᶠ x -ᶠ (lit 3.9793331651913525e-6)) *ᶠ x +ᶠ (lit 2.0055932639645834e-5)) *ᶠ x -ᶠ (lit 4.228880592829212e-5)) *ᶠ x -ᶠ (lit 1.0564605025407614e-4)) *ᶠ x -ᶠ (lit 9.479693089585773e-5)) *ᶠ x +ᶠ (lit 6.569664899264848e-3)

/-- the arithmetic of `compute_pair` once `nu` and `b` are known, /repo/src/legendre/bogaert/mod.rs l.132-160 -/
def computePairCore (n : Nat) (nu b : F) : ThetaWeightPair F :=
  let w : F := (lit 1.0) /ᶠ (ofNat n +ᶠ (lit 0.5))
  let theta := w *ᶠ nu
  let x := theta *ᶠ theta
  let nuOSin := nu /ᶠ sin theta
  let bNuOSin := b *ᶠ nuOSin
  let wInvSinc := w *ᶠ w *ᶠ nuOSin
  let wis2 := wInvSinc *ᶠ wInvSinc
  let theta' := w *ᶠ (nu +ᶠ theta *ᶠ wInvSinc *ᶠ (sf1t x +ᶠ wis2 *ᶠ (sf2t x +ᶠ wis2 *ᶠ sf3t x)))
  let weight := (lit 2.0) *ᶠ w /ᶠ
    (bNuOSin +ᶠ bNuOSin *ᶠ wis2 *ᶠ (wsf1t x +ᶠ wis2 *ᶠ (wsf2t x +ᶠ wis2 *ᶠ wsf3t x)))
  ⟨theta', weight⟩

/-- `compute_pair`, /repo/src/legendre/bogaert/mod.rs l.130-161 -/
def computePair (n k : Nat) : Option (ThetaWeightPair F) := do
  let nu ← besselJ0Zero k
  let b ← besselJ1Squared k
  pure (computePairCore n nu b)

/-- `TABLE[i][j]` on one of the static tables; `none` is the out-of-bounds panic. (/repo/src/legendre/bogaert/mod.rs l.174-197) -/
def table2 (T : List (List Int)) (i j : Nat) : Option F := do
  let row ← T[i]?
  let v ← row[j]?
  pure (tableLit v)

/-- `tabulated_pair`, /repo/src/legendre/bogaert/mod.rs l.169-199 -/
def tabulatedPair (n k : Nat) : Option (ThetaWeightPair F) :=
  if n % 2 == 1 then do
    let nm1 ← csub n 1
    let n2 := nm1 / 2
    match compare k n2 with
    | .eq => do
        let c ← CL[n]?
        pure ⟨pi /ᶠ lit 2.0, lit 2.0 /ᶠ (tableLit c *ᶠ tableLit c)⟩
    | .lt => do
        let i ← csub n2 1
        let d ← csub n2 k
        let j ← csub d 1
        let th ← table2 ODD_THETA_ZEROS i j
        let w ← table2 ODD_WEIGHTS i j
        pure ⟨th, w⟩
    | .gt => do
        let i ← csub n2 1
        let d ← csub k n2
        let j ← csub d 1
        let th ← table2 ODD_THETA_ZEROS i j
        let w ← table2 ODD_WEIGHTS i j
        pure ⟨pi -ᶠ th, w⟩
  else do
    let n2 := n / 2
    match compare k n2 with
    | .lt => do
        let i ← csub n2 1
        let d ← csub n2 k
        let j ← csub d 1
        let th ← table2 EVEN_THETA_ZEROS i j
        let w ← table2 EVEN_WEIGHTS i j
        pure ⟨th, w⟩
    | _ => do
        let i ← csub n2 1
        let j ← csub k n2
        let th ← table2 EVEN_THETA_ZEROS i j
        let w ← table2 EVEN_WEIGHTS i j
        pure ⟨pi -ᶠ th, w⟩

/-- `ThetaWeightPair::new`, /repo/src/legendre/bogaert/mod.rs l.110-121.
Simplification: `2 * k` is computed in `Nat` (it overflows `usize` only for `k ≥ 2^63`, larger than any
rule that fits in memory). -/
def ThetaWeightPair.new (n k : Nat) : Option (ThetaWeightPair F) :=
  if n ≤ 100 then do
    let km1 ← csub k 1
    tabulatedPair n km1
  else do
    let twoKm1 ← csub (2 * k) 1
    if twoKm1 > n then do
      let d ← csub n k
      let p ← computePair n (d + 1)
      pure { p with theta := pi -ᶠ p.theta }
    else computePair n k

/-- `NodeWeightPair::new(n, k).into_tuple()`, /repo/src/legendre/bogaert/mod.rs l.71-94 -/
def nodeWeightPair (n k : Nat) : Option (F × F) := do
  let p ← ThetaWeightPair.new n k
  pure (cos p.theta, p.weight)

end Bogaert

namespace GaussLegendre

/-- `GaussLegendre::new`, /repo/src/legendre/mod.rs l.92-99; `none` is a panic. -/
def new (mode : Overflow) (degree : Nat) : Option (Rule F) := do
  let hi ← usizeAddOne mode degree
  let pairs ← (rangeRev hi).mapM (Bogaert.nodeWeightPair degree)
  pure ⟨pairs⟩

/-- `GaussLegendre::par_new`, /repo/src/legendre/mod.rs l.103-111 -/
def parNew (mode : Overflow) (s : Schedule) (degree : Nat) : Option (Rule F) := do
  let hi ← usizeAddOne mode degree
  let pairs ← parCollect s (rangeRev hi) (Bogaert.nodeWeightPair degree)
  pure ⟨pairs⟩

/-- `argument_transformation`, /repo/src/legendre/mod.rs l.113-115 -/
def argumentTransformation (x a b : F) : F := lit 0.5 *ᶠ ((b -ᶠ a) *ᶠ x +ᶠ (b +ᶠ a))

/-- `scale_factor`, /repo/src/legendre/mod.rs l.117-119 -/
def scaleFactor (a b : F) : F := lit 0.5 *ᶠ (b -ᶠ a)

/-- `GaussLegendre::integrate`, /repo/src/legendre/mod.rs l.134-144 -/
def integrate (r : Rule F) (a b : F) (integrand : F → m F) : m F := do
  let result ← sumMapM r.nodeWeightPairs (fun p => do
    let y ← integrand (argumentTransformation p.1 a b)
    pure (y *ᶠ p.2))
  pure (scaleFactor a b *ᶠ result)

/-- `GaussLegendre::par_integrate`, /repo/src/legendre/mod.rs l.158-168 -/
def parIntegrate (s : Schedule) (r : Rule F) (a b : F) (integrand : F → F) : F :=
  let result := parSumMap s r.nodeWeightPairs
    (fun p => integrand (argumentTransformation p.1 a b) *ᶠ p.2)
  scaleFactor a b *ᶠ result

end GaussLegendre

end GaussQuad
