import Verif.Proofs.BesselZeros
import Verif.Model.Legendre
import Verif.Model.RealOps

/-!
# `bessel_j0_zero` and `bessel_j1_squared` of the code

Every value returned by `bessel_j0_zero` is a zero of `J₀` up to `3.31e-15`, and `bessel_j1_squared` is `J₁²` there up to a relative `2.61e-16`.
-/

namespace GaussQuad.McMahon
open ListPoly TaylorModel Bessel Bogaert Phase

def tR : TM := ⟨[[0, 23668639053254437869822485207]], 1⟩
def tP : TM := ⟨[[986960440108935861883449099987615]], 10000000000000⟩
def tH : TM := ⟨[[50000000000000000000000000000000]], 0⟩
def bTM : TM := (Phase.mul (Phase.mul (Phase.mul tH tP) (hor (Phase.mul tP tR) G)) (Phase.mul (hor tR L1) (hor tR ST))).sub one

theorem b_ok : bTM.bound ≤ 4000000000000000 := by decide +kernel

theorem b_close {β : ℝ} (hβ : 65 ≤ β) :
    |1 / 2 * Real.pi ^ 2 * (ev (Real.pi ^ 2 * (1 / β ^ 2)) G / Phase.M) * (ev (1 / β ^ 2) L1 / Phase.M * (ev (1 / β ^ 2) ST / Phase.M)) - 1| ≤ 4 / 10 ^ 17 := by
  obtain ⟨h1, h2⟩ := ρ_le hβ
  set ρ := 1 / β ^ 2
  have hx0 : 0 ≤ 4225 * ρ := by positivity
  have hx1 : 4225 * ρ ≤ 1 := by push_cast at h2; linarith
  have mmul : ∀ {f g : ℝ} {s t : TM}, Mem Phase.M (4225 * ρ) 0 f s → Mem Phase.M (4225 * ρ) 0 g t → Mem Phase.M (4225 * ρ) 0 (f * g) (Phase.mul s t) :=
    fun hf hg => hf.mul 28 5 M_pos hx0 hx1 le_rfl zero_le_one hg
  have mhor : ∀ {f : ℝ} {s : TM} (hf : Mem Phase.M (4225 * ρ) 0 f s) (l : List ℤ), Mem Phase.M (4225 * ρ) 0 (ev f l / Phase.M) (hor s l) :=
    fun hf l => hf.horner 28 5 M_pos hx0 hx1 le_rfl zero_le_one l
  have mR : Mem Phase.M (4225 * ρ) 0 ρ tR := by
    have e : ρ * (Phase.M : ℝ) - ev2 (4225 * ρ) 0 tR.p = (4225 * ρ) * (100000000000000000000000000000000 / 4225 - 23668639053254437869822485207) := by
      simp [tR, ev2, Phase.M]; ring
    rw [Mem, e, abs_mul, abs_of_nonneg hx0]
    have h : |(100000000000000000000000000000000 / 4225 - 23668639053254437869822485207 : ℝ)| ≤ 1 := by
      rw [abs_le]; constructor <;> norm_num
    simp only [tR, Nat.cast_one]
    nlinarith [abs_nonneg (100000000000000000000000000000000 / 4225 - 23668639053254437869822485207 : ℝ)]
  have mP : Mem Phase.M (4225 * ρ) 0 (Real.pi ^ 2) tP := by
    have e : Real.pi ^ 2 * (Phase.M : ℝ) - ev2 (4225 * ρ) 0 tP.p = Real.pi ^ 2 * 100000000000000000000000000000000 - 986960440108935861883449099987615 := by
      simp [tP, ev2, Phase.M]
    rw [Mem, e]
    have g1 := Real.pi_gt_d20
    have g2 := Real.pi_lt_d20
    have q1 : (3.14159265358979323846 : ℝ) ^ 2 ≤ Real.pi ^ 2 := by gcongr
    have q2 : Real.pi ^ 2 ≤ (3.14159265358979323847 : ℝ) ^ 2 := by gcongr
    simp only [tP]
    rw [abs_le]
    norm_num at q1 q2 ⊢
    constructor <;> linarith
  have mH : Mem Phase.M (4225 * ρ) 0 (1 / 2) tH := by
    simp [Mem, tH, ev2, Phase.M]; norm_num
  have key := (mmul (mmul (mmul mH mP) (mhor (mmul mP mR) G)) (mmul (mhor mR L1) (mhor mR ST))).sub mem_one
  have h3 := key.bound hx0 hx1 le_rfl zero_le_one
  have h4 : (bTM.bound : ℝ) ≤ 4000000000000000 := by exact_mod_cast b_ok
  have h5 := h3.trans h4
  rw [show ((Phase.M : ℕ) : ℝ) = 100000000000000000000000000000000 by norm_num [Phase.M]] at h5 ⊢
  rw [le_div_iff₀ (by norm_num)]
  norm_num at h5 ⊢
  linarith

/-! ## the code -/

theorem j0_asymptotic {k : ℕ} (hk : 21 ≤ k) : (besselJ0ZeroAsymptotic k : ℝ) = S (bk k) := by
  have hb : bk k ≠ 0 := by linarith [anc_ge.trans (bk_ge hk)]
  have e : (besselJ0ZeroAsymptotic k : ℝ) = bk k + 1 / bk k * (0.125 + 1 / bk k * (1 / bk k) * (-8.072916666666667e-2 + 1 / bk k * (1 / bk k) * (0.24602864583333334 +
      1 / bk k * (1 / bk k) * (-1.824438767206101 + 1 / bk k * (1 / bk k) * (25.336414797343906 + 1 / bk k * (1 / bk k) * (-567.6444121351834 +
      1 / bk k * (1 / bk k) * (18690.476528232066 + 1 / bk k * (1 / bk k) * (-8.493535802991488e5 + 5.092254624022268e7 * (1 / bk k * (1 / bk k)))))))))) := by
    simp only [besselJ0ZeroAsymptotic, bk, real_add, real_sub, real_mul, real_div, real_lit, real_ofNat, real_pi]
    norm_num
  rw [e, S]
  generalize bk k = z at *
  simp only [ST, ev_cons, ev_nil, Q]
  push_cast
  have : 1 / z ^ 2 = 1 / z * (1 / z) := by ring
  rw [this]
  have hz : z * (1 / z) = 1 := mul_one_div_cancel hb
  generalize 1 / z = r at *
  have hz2 : z * (r * r) = r := by rw [← mul_assoc, hz, one_mul]
  generalize hR : r * r = R at *
  linear_combination (-(0.125 + R * (-8.072916666666667e-2 + R * (0.24602864583333334 +
      R * (-1.824438767206101 + R * (25.336414797343906 + R * (-567.6444121351834 +
      R * (18690.476528232066 + R * (-8.493535802991488e5 + 5.092254624022268e7 * R))))))))) * hz2

theorem j1_asymptotic (k : ℕ) : (besselJ1SquaredAsymptotic k : ℝ) = 1 / ((k : ℝ) - 0.25) * (ev ((1 / ((k : ℝ) - 0.25)) ^ 2) G / Phase.M) := by
  simp only [besselJ1SquaredAsymptotic, real_add, real_sub, real_mul, real_div, real_lit, real_ofNat, G, ev_cons, ev_nil, Phase.M]
  push_cast
  norm_num only [show ((0.25 : ℚ) : ℝ) = 0.25 by norm_num, show ((1.0 : ℚ) : ℝ) = 1 by norm_num]
  generalize 1 / ((k : ℝ) - 1 / 4) = x
  ring

/-- the asymptotic branch of `bessel_j1_squared` -/
theorem j1_close {k : ℕ} (hk : 21 ≤ k) : |(besselJ1SquaredAsymptotic k : ℝ) - J1 (S (bk k)) ^ 2| ≤ 9 / 10 ^ 17 * J1 (S (bk k)) ^ 2 := by
  have h65 := anc_ge.trans (bk_ge hk)
  have h1 := b_close h65
  have h2 := (φ_bk hk).2
  have hk' : (21 : ℝ) ≤ k := by exact_mod_cast hk
  have hkp : (k : ℝ) - 0.25 ≠ 0 := by norm_num; linarith
  have hS1 := S1_pos h65
  have hS := S_ge h65
  set p := S1 (bk k) * (S (bk k) * (Real.pi / 2)) with hp
  have hp0 : 0 < p := by
    have := Real.pi_pos
    have : 0 < S1 (bk k) := by linarith
    have : 0 < S (bk k) := by linarith
    positivity
  have e1 : (besselJ1SquaredAsymptotic k : ℝ) * p = 1 / 2 * Real.pi ^ 2 * (ev (Real.pi ^ 2 * (1 / bk k ^ 2)) G / Phase.M) *
      (ev (1 / bk k ^ 2) L1 / Phase.M * (ev (1 / bk k ^ 2) ST / Phase.M)) := by
    rw [j1_asymptotic, hp, S1, S]
    have hπ := Real.pi_ne_zero
    have : Real.pi ^ 2 * (1 / bk k ^ 2) = (1 / ((k : ℝ) - 0.25)) ^ 2 := by rw [bk]; field_simp
    rw [this, show (Q : ℝ) = (Phase.M : ℝ) by norm_num [Q, Phase.M]]
    have eb : bk k = Real.pi * (k - 0.25) := rfl
    generalize ev ((1 / ((k : ℝ) - 0.25)) ^ 2) G = g
    generalize ev (1 / bk k ^ 2) L1 = a
    generalize ev (1 / bk k ^ 2) ST = b
    rw [eb]
    field_simp
  have e2 : J1 (S (bk k)) ^ 2 * p = X2 (bk k) * (Real.pi / 2) := by rw [hp, X2]; ring
  rw [← e1] at h1
  rw [← e2] at h2
  set b := (besselJ1SquaredAsymptotic k : ℝ)
  set j := J1 (S (bk k)) ^ 2
  have h3 : |b - j| * p ≤ 9 / 10 ^ 17 * j * p := by
    rw [← abs_of_pos hp0, ← abs_mul, abs_of_pos hp0]
    rw [abs_le] at *
    norm_num at *
    constructor <;> nlinarith
  exact le_of_mul_le_mul_right h3 hp0

/-- Accuracy of `bessel_j0_zero` and `bessel_j1_squared`. -/
theorem bessel_accuracy {k : ℕ} (hk : 1 ≤ k) {nu b : ℝ} (hnu : besselJ0Zero k = some nu) (hb : besselJ1Squared k = some b) :
    |φ nu| ≤ 331 / 10 ^ 17 ∧ |φ nu| ≤ 81 / 10 ^ 18 * nu ∧ |b - J1 nu ^ 2| ≤ 261 / 10 ^ 18 * J1 nu ^ 2 ∧
      0.63 ≤ nu * J1 nu ^ 2 ∧ nu * J1 nu ^ 2 ≤ 0.65 ∧ 2 ≤ nu := by
  rcases Nat.lt_or_ge 20 k with h | h
  · have e1 : nu = S (bk k) := by
      rw [besselJ0Zero, if_pos h, Option.some.injEq] at hnu
      rw [← hnu, j0_asymptotic h]
    subst e1
    have h65 := anc_ge.trans (bk_ge h)
    have hSk := S_ge h65
    have hX := (φ_bk h).2
    have hS1 := S1_pos h65
    have hS1' := S1_le h65
    have hp1 := Real.pi_gt_d2
    have hp2 := Real.pi_lt_d2
    have hXr : 0.63 ≤ S (bk k) * J1 (S (bk k)) ^ 2 ∧ S (bk k) * J1 (S (bk k)) ^ 2 ≤ 0.65 := by
      rw [X2] at hX
      have hZ : 0 ≤ S (bk k) * J1 (S (bk k)) ^ 2 := mul_nonneg (by linarith) (sq_nonneg _)
      generalize S (bk k) * J1 (S (bk k)) ^ 2 = Z at *
      have hX1 := (abs_le.1 hX).1
      have hX2 := (abs_le.1 hX).2
      have l1 : S1 (bk k) * Z * (Real.pi / 2) ≤ 1.001 * Z * (3.15 / 2) := by gcongr
      have l2 : 0.999 * Z * (3.14 / 2) ≤ S1 (bk k) * Z * (Real.pi / 2) := by gcongr
      norm_num at *
      constructor <;> linarith
    refine ⟨(φ_bk h).1.trans (by norm_num), (φ_bk h).1.trans ?_, ?_, hXr.1, hXr.2, by linarith⟩
    · calc (3 / 10 ^ 18 : ℝ) ≤ 81 / 10 ^ 18 * 64.9 := by norm_num
        _ ≤ _ := by gcongr
    have hj := j1_close h
    rcases Nat.lt_or_ge 21 k with h' | h'
    · rw [besselJ1Squared, if_pos h', Option.some.injEq] at hb
      rw [← hb]
      exact hj.trans (mul_le_mul_of_nonneg_right (by norm_num) (sq_nonneg _))
    · obtain rfl : k = 21 := by omega
      have e2 : b = 0.009765897139791051 := by
        have : (besselJ1Squared 21 : Option ℝ) = some (tableLit 976589713979105100) := rfl
        rw [this, Option.some.injEq] at hb
        rw [← hb, tableLit, real_lit]
        norm_num
      have e3 : |0.009765897139791051 - (besselJ1SquaredAsymptotic 21 : ℝ)| ≤ 1 / 10 ^ 18 := by
        simp only [besselJ1SquaredAsymptotic, real_add, real_sub, real_mul, real_div, real_lit, real_ofNat]
        rw [abs_le]
        constructor <;> norm_num
      have e4 : |(besselJ1SquaredAsymptotic 21 : ℝ) - 0.0097| ≤ 0.001 := by
        rw [abs_le] at *; norm_num at *; constructor <;> linarith
      rw [e2]
      set B := (besselJ1SquaredAsymptotic 21 : ℝ)
      set j := J1 (S (bk 21)) ^ 2
      rw [abs_le] at *
      norm_num at *
      constructor <;> linarith
  · have hi : k - 1 < 20 := by omega
    have ht := BesselTable.table hi
    have e1 : nu = (LegendreData.JZ.getD (k - 1) 0 : ℤ) / 100000000000000000000 := by
      have hl : k - 1 < LegendreData.JZ.length := by have : LegendreData.JZ.length = 20 := rfl; omega
      rw [besselJ0Zero, if_neg (by omega), csub, if_pos hk] at hnu
      simp only [Option.bind_eq_bind, Option.bind_some, List.getElem?_eq_getElem hl, Option.pure_def, Option.some.injEq] at hnu
      rw [← hnu, tableLit, real_lit, List.getD_eq_getElem?_getD, List.getElem?_eq_getElem hl, Option.getD_some]
      push_cast; ring
    have e2 : b = (LegendreData.J1.getD (k - 1) 0 : ℤ) / 100000000000000000000 := by
      have hl : k - 1 < LegendreData.J1.length := by have : LegendreData.J1.length = 21 := rfl; omega
      rw [besselJ1Squared, if_neg (by omega), csub, if_pos hk] at hb
      simp only [Option.bind_eq_bind, Option.bind_some, List.getElem?_eq_getElem hl, Option.pure_def, Option.some.injEq] at hb
      rw [← hb, tableLit, real_lit, List.getD_eq_getElem?_getD, List.getElem?_eq_getElem hl, Option.getD_some]
      push_cast; ring
    obtain ⟨t1, t2, t3, t4, t5, t6⟩ := ht
    rw [← e1] at t1 t2 t3 t4 t5 t6
    rw [← e2] at t3 t4 t5
    refine ⟨t1, t2, t3, ?_, ?_, t6⟩
    · have : nu * |b - J1 nu ^ 2| ≤ nu * (261 / 10 ^ 18 * J1 nu ^ 2) := by gcongr
      have h1 := (abs_le.1 t3).2
      have h2 : nu * (b - J1 nu ^ 2) ≤ nu * (261 / 10 ^ 18 * J1 nu ^ 2) := by gcongr
      norm_num at *
      linarith
    · have h1 := (abs_le.1 t3).1
      have h2 : nu * -(261 / 10 ^ 18 * J1 nu ^ 2) ≤ nu * (b - J1 nu ^ 2) := by gcongr
      norm_num at *
      linarith

end GaussQuad.McMahon
