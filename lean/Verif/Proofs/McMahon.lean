import Verif.Proofs.BesselTable
import Verif.Proofs.OdeCompare
import Verif.Proofs.Phase

/-!
# The asymptotic formulas for the zeros of `J₀` and the values of `J₁²`

`S β = β + 1/(8β) - …` with the coefficients of the code.  The Liouville transform `Φ` of `√s J₀(s)` under `s = S β` satisfies
`Φ'' = -(1 + R) Φ` with `|R| ≤ 3e-17 / β⁴`, so it is a trigonometric function to high accuracy.
-/

namespace GaussQuad.McMahon
open ListPoly TaylorModel Bessel Ode

/-- the scale of the coefficients -/
def Q : ℤ := 100000000000000000000000000000000

/-- coefficients of `S β / β` in powers of `1/β²` -/
def ST : List ℤ := [100000000000000000000000000000000, 12500000000000000000000000000000, -8072916666666667000000000000000, 24602864583333334000000000000000, -182443876720610100000000000000000, 2533641479734390600000000000000000, -56764441213518340000000000000000000, 1869047652823206600000000000000000000, -84935358029914880000000000000000000000, 5092254624022268000000000000000000000000]
def L1 : List ℤ := add ST (0 :: smul (-2) (der ST))
def L2 : List ℤ := 0 :: smul (-2) (der L1)
def L3 : List ℤ := smul (-1) (add L2 (0 :: smul 2 (der L2)))

/-- coefficients of `besselJ1SquaredAsymptotic` -/
def G : List ℤ := [20264236728467555000000000000000, 0, -30338042971129027000000000000, 19892436424596930000000000000, -22896990277211166000000000000, 43371071913074630000000000000, -123632349727175400000000000000, 496101423268883140000000000000, -2668373937023237700000000000000, 18539539820634562000000000000000]

def numL : List ℤ :=
  add (add (add (smul 4 (mul (mul ST ST) (mul (mul L1 L1) (mul L1 L1)))) (smul (Q * Q) (0 :: mul (mul L1 L1) (mul L1 L1))))
    (add (smul (2 * Q * Q) (0 :: mul (mul ST ST) (mul L1 L3))) (smul (-3 * Q * Q) (0 :: mul (mul ST ST) (mul L2 L2)))))
    (smul (-4 * Q * Q) (mul (mul ST ST) (mul L1 L1)))

/-- bound of a polynomial on `[0, 1/k]` -/
def bnd (k : ℕ) : List ℤ → ℕ
  | [] => 0
  | c :: p => c.natAbs + bnd k p / k + 1

theorem ev_abs_le_bnd {k : ℕ} (hk : 0 < k) {x : ℝ} (hx : 0 ≤ x) (hx1 : x ≤ 1 / k) : ∀ p : List ℤ, |ev x p| ≤ bnd k p
  | [] => by simp [bnd]
  | c :: p => by
    have ih := ev_abs_le_bnd hk hx hx1 p
    rw [ev_cons, bnd]
    push_cast
    rw [add_assoc]
    refine (abs_add_le _ _).trans (add_le_add (le_of_eq ?_) ?_)
    · rw [Nat.cast_natAbs, Int.cast_abs]
    · rw [abs_mul, abs_of_nonneg hx]
      have hk' : (0 : ℝ) < k := by exact_mod_cast hk
      have h1 : (bnd k p : ℝ) < ((bnd k p / k : ℕ) + 1 : ℝ) * k := by
        have := Nat.lt_div_mul_add (a := bnd k p) hk
        have : bnd k p < (bnd k p / k + 1) * k := by rw [add_mul, one_mul]; exact this
        exact_mod_cast this
      calc x * |ev x p| ≤ 1 / k * bnd k p := by gcongr
        _ ≤ _ := by rw [div_mul_eq_mul_div, one_mul, div_le_iff₀ hk']; exact h1.le

def tail2 (l : List ℤ) : List ℤ := l.tail.tail

set_option maxRecDepth 100000 in
theorem num_ok : numL.head? = some 0 ∧ numL.tail.head? = some 0 ∧
    bnd 4225 numL.tail.tail ≤ 88 * 10 ^ 174 := by decide +kernel

theorem small_ok : bnd 4225 ST.tail ≤ 200000000000000000000000000000000 ∧ bnd 4225 L1.tail ≤ 200000000000000000000000000000000 ∧
    bnd 4225 L2 ≤ 10000000000000000000000000000 ∧ ST.head? = some Q ∧ L1.head? = some Q := by decide +kernel

/-! ## the functions -/

noncomputable def S (β : ℝ) : ℝ := β * (ev (1 / β ^ 2) ST / Q)
noncomputable def S1 (β : ℝ) : ℝ := ev (1 / β ^ 2) L1 / Q
noncomputable def S2 (β : ℝ) : ℝ := 1 / β * (ev (1 / β ^ 2) L2 / Q)
noncomputable def S3 (β : ℝ) : ℝ := 1 / β ^ 2 * (ev (1 / β ^ 2) L3 / Q)

variable {β : ℝ}

theorem ρ_hasDerivAt (hβ : 0 < β) : HasDerivAt (fun β : ℝ => 1 / β ^ 2) (-2 * (1 / β ^ 2) / β) β := by
  have h := (hasDerivAt_const β (1 : ℝ)).div (hasDerivAt_pow 2 β) (by positivity)
  refine h.congr_deriv ?_
  field_simp
  norm_num
  ring

theorem ev_ρ_hasDerivAt (hβ : 0 < β) (p : List ℤ) :
    HasDerivAt (fun β : ℝ => ev (1 / β ^ 2) p / Q) (ev (1 / β ^ 2) (der p) * (-2 * (1 / β ^ 2) / β) / Q) β :=
  ((hasDerivAt_ev p (1 / β ^ 2)).comp β (ρ_hasDerivAt hβ)).div_const _

theorem S_hasDerivAt (hβ : 0 < β) : HasDerivAt S (S1 β) β := by
  refine ((hasDerivAt_id β).mul (ev_ρ_hasDerivAt hβ ST)).congr_deriv ?_
  simp only [S1, L1, ev_add, ev_cons, ev_smul, id]
  push_cast
  field_simp
  ring

theorem S1_hasDerivAt (hβ : 0 < β) : HasDerivAt S1 (S2 β) β := by
  refine (ev_ρ_hasDerivAt hβ L1).congr_deriv ?_
  simp only [S2, L2, ev_cons, ev_smul]
  push_cast
  field_simp
  ring

theorem S2_hasDerivAt (hβ : 0 < β) : HasDerivAt S2 (S3 β) β := by
  have h := ((hasDerivAt_const β (1 : ℝ)).div (hasDerivAt_id β) hβ.ne').mul (ev_ρ_hasDerivAt hβ L2)
  refine h.congr_deriv ?_
  simp only [S3, L3, ev_cons, ev_smul, ev_add, id, Pi.div_apply]
  push_cast
  field_simp
  ring

theorem ρ_le (hβ : 65 ≤ β) : 0 ≤ 1 / β ^ 2 ∧ 1 / β ^ 2 ≤ 1 / ((4225 : ℕ) : ℝ) := by
  refine ⟨by positivity, ?_⟩
  apply one_div_le_one_div_of_le (by norm_num)
  push_cast; nlinarith

theorem Q_pos : (0 : ℝ) < Q := by norm_num [Q]

theorem cons_of_head {l : List ℤ} {c : ℤ} (h : l.head? = some c) : l = c :: l.tail := by
  rcases l with _ | ⟨a, l⟩
  · simp at h
  · simp at h; simp [h]

theorem st_close (hβ : 65 ≤ β) : |ev (1 / β ^ 2) ST / Q - 1| ≤ 1 / 1000 := by
  obtain ⟨h1, h2⟩ := ρ_le hβ
  obtain ⟨k1, _, _, k2, _⟩ := small_ok
  have hb := ev_abs_le_bnd (by norm_num : 0 < 4225) h1 h2 ST.tail
  have hk : ((bnd 4225 ST.tail : ℕ) : ℝ) ≤ 200000000000000000000000000000000 := by exact_mod_cast k1
  rw [cons_of_head k2, ev_cons]
  have hQ := Q_pos
  have e : ((Q : ℝ) + 1 / β ^ 2 * ev (1 / β ^ 2) ST.tail) / Q - 1 = 1 / β ^ 2 * ev (1 / β ^ 2) ST.tail / Q := by field_simp; ring
  rw [e, abs_div, abs_of_pos hQ, div_le_iff₀ hQ, abs_mul, abs_of_nonneg h1]
  calc 1 / β ^ 2 * |ev (1 / β ^ 2) ST.tail| ≤ 1 / (4225 : ℕ) * 200000000000000000000000000000000 :=
        mul_le_mul h2 (hb.trans hk) (abs_nonneg _) (by positivity)
    _ ≤ _ := by norm_num [Q]

theorem S1_close (hβ : 65 ≤ β) : |S1 β - 1| ≤ 1 / 1000 := by
  obtain ⟨h1, h2⟩ := ρ_le hβ
  obtain ⟨_, k1, _, _, k2⟩ := small_ok
  have hb := ev_abs_le_bnd (by norm_num : 0 < 4225) h1 h2 L1.tail
  have hk : ((bnd 4225 L1.tail : ℕ) : ℝ) ≤ 200000000000000000000000000000000 := by exact_mod_cast k1
  rw [S1, cons_of_head k2, ev_cons]
  have hQ := Q_pos
  have e : ((Q : ℝ) + 1 / β ^ 2 * ev (1 / β ^ 2) L1.tail) / Q - 1 = 1 / β ^ 2 * ev (1 / β ^ 2) L1.tail / Q := by field_simp; ring
  rw [e, abs_div, abs_of_pos hQ, div_le_iff₀ hQ, abs_mul, abs_of_nonneg h1]
  calc 1 / β ^ 2 * |ev (1 / β ^ 2) L1.tail| ≤ 1 / (4225 : ℕ) * 200000000000000000000000000000000 :=
        mul_le_mul h2 (hb.trans hk) (abs_nonneg _) (by positivity)
    _ ≤ _ := by norm_num [Q]

theorem S2_small (hβ : 65 ≤ β) : |S2 β| ≤ 2 / 1000000 := by
  obtain ⟨h1, h2⟩ := ρ_le hβ
  obtain ⟨_, _, k1, _, _⟩ := small_ok
  have hb := ev_abs_le_bnd (by norm_num : 0 < 4225) h1 h2 L2
  have hk : ((bnd 4225 L2 : ℕ) : ℝ) ≤ 10000000000000000000000000000 := by exact_mod_cast k1
  have hQ := Q_pos
  have hβ0 : 0 < β := by linarith
  rw [S2, abs_mul, abs_div (ev _ _), abs_of_pos hQ, abs_of_pos (show 0 < 1 / β by positivity)]
  have hβi : 1 / β ≤ 1 / 65 := one_div_le_one_div_of_le (by norm_num) hβ
  calc 1 / β * (|ev (1 / β ^ 2) L2| / Q) ≤ 1 / 65 * (10000000000000000000000000000 / Q) := by
        gcongr; exact hb.trans hk
    _ ≤ _ := by norm_num [Q]

theorem num_bound (hβ : 65 ≤ β) : |ev (1 / β ^ 2) numL.tail.tail| ≤ 88 / 10 ^ 18 * (Q : ℝ) ^ 6 := by
  obtain ⟨h1, h2⟩ := ρ_le hβ
  have hb := ev_abs_le_bnd (by norm_num : 0 < 4225) h1 h2 numL.tail.tail
  have hk : ((bnd 4225 numL.tail.tail : ℕ) : ℝ) ≤ ((88 * 10 ^ 174 : ℕ) : ℝ) := Nat.cast_le.2 num_ok.2.2
  refine (hb.trans hk).trans (le_of_eq ?_)
  rw [Q]
  norm_num

theorem residual (hβ : 65 ≤ β) : |liouQ qB S S1 S2 S3 β - 1| ≤ 23 / 10 ^ 18 * (1 / β ^ 4) := by
  have hβ0 : 0 < β := by linarith
  have hb := num_bound hβ
  have k1 := num_ok.1
  have k2 := num_ok.2.1
  have hst := abs_le.1 (st_close hβ)
  have hs1 := abs_le.1 (S1_close hβ)
  have hQ := Q_pos
  have e1 : ev (1 / β ^ 2) numL = 1 / β ^ 4 * ev (1 / β ^ 2) numL.tail.tail := by
    conv_lhs => rw [cons_of_head k1, cons_of_head k2]
    simp only [ev_cons]
    push_cast
    ring
  have e2 : liouQ qB S S1 S2 S3 β - 1 = ev (1 / β ^ 2) numL / (4 * (ev (1 / β ^ 2) ST / Q) ^ 2 * S1 β ^ 2 * Q ^ 6) := by
    simp only [liouQ, qB, S, S2, S3, numL, ev_add, ev_smul, ev_mul, ev_cons]
    have es : S1 β = ev (1 / β ^ 2) L1 / Q := rfl
    have hs0 : S1 β ≠ 0 := by linarith [hs1.1]
    have ht0 : ev (1 / β ^ 2) ST / Q ≠ 0 := by intro h; rw [h] at hst; linarith [hst.1]
    have ht0' : ev (1 / β ^ 2) ST ≠ 0 := fun h => ht0 (by rw [h, zero_div])
    have hs0' : ev (1 / β ^ 2) L1 ≠ 0 := fun h => hs0 (by rw [es, h, zero_div])
    rw [es]
    generalize ev (1 / β ^ 2) ST = a at *
    generalize ev (1 / β ^ 2) L1 = b at *
    generalize ev (1 / β ^ 2) L2 = c at *
    generalize ev (1 / β ^ 2) L3 = d at *
    push_cast
    generalize (Q : ℝ) = q at *
    field_simp
    ring
  rw [e2, e1, abs_div]
  have hp : 0 < 4 * (ev (1 / β ^ 2) ST / Q) ^ 2 * S1 β ^ 2 * (Q : ℝ) ^ 6 := by
    have : 0 < ev (1 / β ^ 2) ST / Q := by linarith [hst.1]
    have : 0 < S1 β := by linarith [hs1.1]
    positivity
  rw [abs_of_pos hp, div_le_iff₀ hp, abs_mul, abs_of_pos (by positivity)]
  have hst2 : 0.99 ≤ (ev (1 / β ^ 2) ST / Q) ^ 2 := by nlinarith [hst.1]
  have hs12 : 0.99 ≤ S1 β ^ 2 := by nlinarith [hs1.1]
  have hprod : 0.98 ≤ (ev (1 / β ^ 2) ST / Q) ^ 2 * S1 β ^ 2 := by nlinarith
  generalize ev (1 / β ^ 2) numL.tail.tail = A at *
  generalize (ev (1 / β ^ 2) ST / Q) ^ 2 = b at *
  generalize S1 β ^ 2 = c at *
  have hq6 : (0 : ℝ) < (Q : ℝ) ^ 6 := by positivity
  generalize (Q : ℝ) ^ 6 = q at *
  have hβ4 : 0 < 1 / β ^ 4 := by positivity
  generalize 1 / β ^ 4 = d at *
  calc d * |A| ≤ d * (88 / 10 ^ 18 * q) := by gcongr
    _ ≤ d * (23 / 10 ^ 18 * (4 * (b * c) * q)) := by
        apply mul_le_mul_of_nonneg_left _ hβ4.le
        have : 0.98 * q ≤ b * c * q := mul_le_mul_of_nonneg_right hprod hq6.le
        linarith
    _ = _ := by ring

end GaussQuad.McMahon
