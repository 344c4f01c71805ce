import Verif.Proofs.F64Horner

/-!
# binary64: the series of `compute_pair`
-/

set_option exponentiation.threshold 3000

namespace GaussQuad.F64
open FloatOps Spec Bogaert
variable [Libm]

omit [Libm] in
theorem sf1t_eq {F : Type} [FloatOps F] (x : F) : sf1t x = hornerG ((-1.2905299627428051e-12)) [(false, 2.4072468586433013e-10), (true, 3.1314865463599204e-8), (false, 2.7557316896206124e-6), (true, 1.4880952371390914e-4), (false, 4.166666666651934e-3), (true, 4.16666666666663e-2)] x := rfl

theorem sf1t_near {x : F64} {ξ : ℝ} (hx : Near x ξ ((50 : ℚ) * U)) (hξ : |ξ| ≤ (2.56 : ℚ)) :
    Near (sf1t x) (sf1t ξ) ((1 : ℚ) * U) ∧ |(sf1t ξ : ℝ)| ≤ (0.054 : ℚ) := by
  rw [sf1t_eq, sf1t_eq]
  exact hornerG_near hx hξ (by norm_num) (by norm_num) (by norm_num) (by decide +kernel) (by decide +kernel)

omit [Libm] in
theorem sf2t_eq {F : Type} [FloatOps F] (x : F) : sf2t x = hornerG (2.20639421781871e-9) [(true, 7.530367713737693e-8), (false, 1.6196925945383627e-6), (true, 2.53300326008232e-5), (false, 2.8211688605756045e-4), (true, 2.090222483878529e-3), (false, 8.159722217729322e-3)] x := rfl

theorem sf2t_near {x : F64} {ξ : ℝ} (hx : Near x ξ ((50 : ℚ) * U)) (hξ : |ξ| ≤ (2.56 : ℚ)) :
    Near (sf2t x) (sf2t ξ) ((1 : ℚ) * U) ∧ |(sf2t ξ : ℝ)| ≤ (0.02 : ℚ) := by
  rw [sf2t_eq, sf2t_eq]
  exact hornerG_near hx hξ (by norm_num) (by norm_num) (by norm_num) (by decide +kernel) (by decide +kernel)

omit [Libm] in
theorem sf3t_eq {F : Type} [FloatOps F] (x : F) : sf3t x = hornerG ((-2.9705822537552623e-8)) [(false, 5.558453302237962e-7), (true, 5.677978413568331e-6), (false, 4.184981003295046e-5), (true, 2.513952932839659e-4), (false, 1.2865419854284513e-3), (true, 4.160121656202043e-3)] x := rfl

theorem sf3t_near {x : F64} {ξ : ℝ} (hx : Near x ξ ((50 : ℚ) * U)) (hξ : |ξ| ≤ (2.56 : ℚ)) :
    Near (sf3t x) (sf3t ξ) ((1 : ℚ) * U) ∧ |(sf3t ξ : ℝ)| ≤ (0.02 : ℚ) := by
  rw [sf3t_eq, sf3t_eq]
  exact hornerG_near hx hξ (by norm_num) (by norm_num) (by norm_num) (by decide +kernel) (by decide +kernel)

omit [Libm] in
theorem wsf1t_eq {F : Type} [FloatOps F] (x : F) : wsf1t x = hornerG ((-2.2090286104461664e-14)) [(false, 2.3036572686037738e-12), (true, 1.752577007354238e-10), (false, 1.037560669279168e-8), (true, 4.639686475532213e-7), (false, 1.4964459362502864e-5), (true, 3.262786595944122e-4), (false, 4.365079365075981e-3), (true, 3.05555555555553e-2), (false, 8.333333333333333e-2)] x := rfl

theorem wsf1t_near {x : F64} {ξ : ℝ} (hx : Near x ξ ((50 : ℚ) * U)) (hξ : |ξ| ≤ (2.56 : ℚ)) :
    Near (wsf1t x) (wsf1t ξ) ((10 : ℚ) * U) ∧ |(wsf1t ξ : ℝ)| ≤ (0.2 : ℚ) := by
  rw [wsf1t_eq, wsf1t_eq]
  exact hornerG_near hx hξ (by norm_num) (by norm_num) (by norm_num) (by decide +kernel) (by decide +kernel)

omit [Libm] in
theorem wsf2t_eq {F : Type} [FloatOps F] (x : F) : wsf2t x = hornerG (3.631174121526548e-12) [(false, 7.676435450698932e-11), (true, 7.129128572336422e-9), (false, 2.1148388068594716e-7), (true, 3.818179186800454e-6), (false, 4.659695306949684e-5), (true, 4.0729718561133575e-4), (false, 2.689594356947297e-3), (true, 1.1111111111121492e-2)] x := rfl

theorem wsf2t_near {x : F64} {ξ : ℝ} (hx : Near x ξ ((50 : ℚ) * U)) (hξ : |ξ| ≤ (2.56 : ℚ)) :
    Near (wsf2t x) (wsf2t ξ) ((10 : ℚ) * U) ∧ |(wsf2t ξ : ℝ)| ≤ (0.1 : ℚ) := by
  rw [wsf2t_eq, wsf2t_eq]
  exact hornerG_near hx hξ (by norm_num) (by norm_num) (by norm_num) (by decide +kernel) (by decide +kernel)

omit [Libm] in
theorem wsf3t_eq {F : Type} [FloatOps F] (x : F) : wsf3t x = hornerG (2.018267912567033e-9) [(true, 4.386471225202067e-8), (false, 5.088983472886716e-7), (true, 3.9793331651913525e-6), (false, 2.0055932639645834e-5), (true, 4.228880592829212e-5), (true, 1.0564605025407614e-4), (true, 9.479693089585773e-5), (false, 6.569664899264848e-3)] x := rfl

theorem wsf3t_near {x : F64} {ξ : ℝ} (hx : Near x ξ ((50 : ℚ) * U)) (hξ : |ξ| ≤ (2.56 : ℚ)) :
    Near (wsf3t x) (wsf3t ξ) ((10 : ℚ) * U) ∧ |(wsf3t ξ : ℝ)| ≤ (0.1 : ℚ) := by
  rw [wsf3t_eq, wsf3t_eq]
  exact hornerG_near hx hξ (by norm_num) (by norm_num) (by norm_num) (by decide +kernel) (by decide +kernel)

end GaussQuad.F64
