import Verif.Model.Ops

/-! Model of `/repo/src/math.rs`: the Lanczos approximation of the gamma function. -/

namespace GaussQuad
variable {F : Type} [FloatOps F]
open FloatOps

/-- `TWO_SQRT_E_OVER_PI`, /repo/src/math.rs l.94 -/
def twoSqrtEOverPi : Rat := 1.8603827342052657

/-- `GAMMA_R`, /repo/src/math.rs l.97 -/
def gammaR : Rat := 10.900511

/-- `GAMMA_DK`, /repo/src/math.rs l.100-112 -/
def gammaDK : List Rat :=
  [ 2.4857408913875355e-5,
    1.0514237858172197,
    -3.4568709722201625,
    4.512277094668948,
    -2.9828522532357664,
    1.056397115771267,
    -1.9542877319164587e-1,
    1.709705434044412e-2,
    -5.719261174043057e-4,
    4.633994733599057e-6,
    -2.7199490848860772e-9 ]

/-- the `enumerate().skip(1).fold(GAMMA_DK[0], |s, t| s + t.1 / den(t.0))` of both branches,
/repo/src/math.rs l.120-124 and l.128-132.  The indices are the positions in `GAMMA_DK`. -/
def gammaSeries (den : Nat → F) : F :=
  (gammaDK.zipIdx.drop 1).foldl (fun s t => s +ᶠ lit t.1 /ᶠ den t.2) (lit (gammaDK.headD 0))

/-- `gamma`, /repo/src/math.rs l.118-136 -/
def gamma (x : F) : F :=
  if lt x (lit 0.5) then
    let s := gammaSeries (fun i => ofNat i -ᶠ x)
    pi /ᶠ (sin (pi *ᶠ x) *ᶠ s *ᶠ lit twoSqrtEOverPi *ᶠ
      pow ((lit 0.5 -ᶠ x +ᶠ lit gammaR) /ᶠ e) (lit 0.5 -ᶠ x))
  else
    let s := gammaSeries (fun i => x +ᶠ ofNat i -ᶠ lit 1.0)
    s *ᶠ lit twoSqrtEOverPi *ᶠ pow ((x -ᶠ lit 0.5 +ᶠ lit gammaR) /ᶠ e) (x -ᶠ lit 0.5)

end GaussQuad
