import Verif.Proofs.Gamma
import Verif.Proofs.ListPoly
import Mathlib.Analysis.SpecialFunctions.Gamma.BohrMollerup
import Mathlib.Analysis.SpecialFunctions.Gamma.Beta
import Mathlib.Analysis.SpecialFunctions.Log.Deriv
import Mathlib.Analysis.SpecialFunctions.Complex.LogBounds
import Mathlib.Analysis.Complex.ExponentialBounds
import Mathlib.Analysis.Calculus.Deriv.MeanValue

/-!
# The Lanczos formula against the gamma function

`E(t) = log γ(1/2+t) - log Γ(1/2+t)` satisfies `E(t+1) - E(t) = λ(t)` with an elementary `λ` whose second derivative is a
rational function.  That rational function is bounded by a kernel computation with exact integer polynomials.
-/

namespace GaussQuad.GammaAcc
open ListPoly Filter

/-- numerator of the Lanczos series at `1/2 + t`, times `1280000000000000000000000000` -/
def P0 : List ℤ := [779730058328090933511863267674725, 712822486687829488981971420742470, 293250693907631619701971198120392, 71492561642370906846481734194464, 11438256409767941579236936403808, 1254901814714148203621069975616, 95610334834759139399241474048, 4995174977517672056382767616, 171266878085566274189597952, 3479843268323873562781184, 31817483409760454400000]

/-- the same at `3/2 + t` -/
def P1 : List ℤ := [1870089739078756152936509458132275, 1566439124148488068343862369091830, 590450911316273538911567395978728, 131891530319597796597586825018144, 19334185453462502707261911544992, 1943499921680993932258593654336, 135671020769833954545927209472, 6494402457871032952687673856, 204017254253920356702628608, 3798018102421478106781184, 31817483409760454400000]

theorem num0 (t : ℝ) : ev t P0 = 1280000000000000000000000000 * lanczosNum (1 / 2 + t) := by
  simp only [P0, ev_cons, ev_nil, lanczosNum]; push_cast; ring

theorem num1 (t : ℝ) : ev t P1 = 1280000000000000000000000000 * lanczosNum (3 / 2 + t) := by
  simp only [P1, ev_cons, ev_nil, lanczosNum]; push_cast; ring

theorem P0_pos {t : ℝ} (ht : 0 ≤ t) : 0 < ev t P0 := ev_pos (by decide) (by decide) ht
theorem P1_pos {t : ℝ} (ht : 0 ≤ t) : 0 < ev t P1 := ev_pos (by decide) (by decide) ht

/-- `10^6 (t + 10.900511)` -/
def LA : List ℤ := [10900511, 1000000]
/-- `10^6 (t + 11.900511)` -/
def LB : List ℤ := [11900511, 1000000]
/-- `2 (t + 10.5)` -/
def LT : List ℤ := [21, 2]
/-- `2 (t + 20.5)` -/
def LS : List ℤ := [41, 2]

/-- numerator of the second logarithmic derivative -/
def wr (p : List ℤ) : List ℤ := add (mul (der (der p)) p) (smul (-1) (mul (der p) (der p)))

def A2 := mul LA LA
def B2 := mul LB LB
def T2 := mul LT LT
def S4 := mul (mul LS LS) (mul LS LS)
def Q0 := mul P0 P0
def Q1 := mul P1 P1
def Q01 := mul Q0 Q1
def AB := mul A2 B2

/-- common denominator -/
def den : List ℤ := mul (mul AB T2) Q01
/-- numerator of `λ''` over `den` -/
def num : List ℤ :=
  add (smul 1000000 (mul (mul (mul LB A2) T2) Q01))
  (add (smul 10900511000000 (mul (mul A2 T2) Q01))
  (add (smul (-1000000) (mul (mul (mul LA B2) T2) Q01))
  (add (smul (-10900511000000) (mul (mul B2 T2) Q01))
  (add (smul 4 (mul AB Q01))
  (add (mul (mul AB T2) (mul Q0 (wr P1)))
    (smul (-1) (mul (mul AB T2) (mul (wr P0) Q1))))))))

theorem upper_cert : nonneg (add (smul 16 den) (smul (-10000000000) (mul S4 num))) = true := by decide +kernel
theorem lower_cert : nonneg (add (smul 16 den) (smul 10000000000 (mul S4 num))) = true := by decide +kernel

/-- the defect of the functional equation -/
noncomputable def lam (t : ℝ) : ℝ :=
  (t + 1) * Real.log (t + 11.900511) - t * Real.log (t + 10.900511) - 1 - Real.log (t + 10.5)
    + Real.log (ev t P1) - Real.log (ev t P0)

noncomputable def lam1 (t : ℝ) : ℝ :=
  Real.log (t + 11.900511) + (t + 1) / (t + 11.900511) - Real.log (t + 10.900511) - t / (t + 10.900511) - 1 / (t + 10.5)
    + ev t (der P1) / ev t P1 - ev t (der P0) / ev t P0

noncomputable def lam2 (t : ℝ) : ℝ :=
  1 / (t + 11.900511) + 10.900511 / (t + 11.900511) ^ 2 - 1 / (t + 10.900511) - 10.900511 / (t + 10.900511) ^ 2
    + 1 / (t + 10.5) ^ 2
    + (ev t (der (der P1)) * ev t P1 - ev t (der P1) ^ 2) / ev t P1 ^ 2
    - (ev t (der (der P0)) * ev t P0 - ev t (der P0) ^ 2) / ev t P0 ^ 2

theorem hasDerivAt_lam {t : ℝ} (ht : 0 ≤ t) : HasDerivAt lam (lam1 t) t := by
  have hid := hasDerivAt_id t
  have h1 : HasDerivAt (fun t : ℝ => Real.log (t + 11.900511)) (1 / (t + 11.900511)) t :=
    (hid.add_const _).log (by simp only [id]; positivity)
  have h2 : HasDerivAt (fun t : ℝ => Real.log (t + 10.900511)) (1 / (t + 10.900511)) t :=
    (hid.add_const _).log (by simp only [id]; positivity)
  have h3 : HasDerivAt (fun t : ℝ => Real.log (t + 10.5)) (1 / (t + 10.5)) t :=
    (hid.add_const _).log (by simp only [id]; positivity)
  have h4 := (hasDerivAt_ev P1 t).log (P1_pos ht).ne'
  have h5 := (hasDerivAt_ev P0 t).log (P0_pos ht).ne'
  have h := ((((((hid.add_const (1 : ℝ)).mul h1).sub (hid.mul h2)).sub_const 1).sub h3).add h4).sub h5
  refine h.congr_deriv ?_
  simp only [lam1, id]
  have : t + 11.900511 ≠ 0 := by positivity
  have : t + 10.900511 ≠ 0 := by positivity
  have : t + 10.5 ≠ 0 := by positivity
  ring

theorem hasDerivAt_lam1 {t : ℝ} (ht : 0 ≤ t) : HasDerivAt lam1 (lam2 t) t := by
  have hid := hasDerivAt_id t
  have e1 : t + 11.900511 ≠ 0 := by positivity
  have e2 : t + 10.900511 ≠ 0 := by positivity
  have e3 : t + 10.5 ≠ 0 := by positivity
  have h1 : HasDerivAt (fun t : ℝ => Real.log (t + 11.900511)) (1 / (t + 11.900511)) t :=
    (hid.add_const _).log (by simpa only [id] using e1)
  have h2 : HasDerivAt (fun t : ℝ => Real.log (t + 10.900511)) (1 / (t + 10.900511)) t :=
    (hid.add_const _).log (by simpa only [id] using e2)
  have h3 := (hid.add_const (1 : ℝ)).div (hid.add_const (11.900511 : ℝ)) (by simpa only [id] using e1)
  have h4 := hid.div (hid.add_const (10.900511 : ℝ)) (by simpa only [id] using e2)
  have h5 := (hasDerivAt_const t (1 : ℝ)).div (hid.add_const (10.5 : ℝ)) (by simpa only [id] using e3)
  have h6 := (hasDerivAt_ev (der P1) t).div (hasDerivAt_ev P1 t) (P1_pos ht).ne'
  have h7 := (hasDerivAt_ev (der P0) t).div (hasDerivAt_ev P0 t) (P0_pos ht).ne'
  have h := (((((h1.add h3).sub h2).sub h4).sub h5).add h6).sub h7
  refine h.congr_deriv ?_
  simp only [lam2, id]
  generalize ev t P1 = p1
  generalize ev t P0 = p0
  field_simp
  ring

theorem ev_LA (t : ℝ) : ev t LA = 1000000 * (t + 10.900511) := by simp only [LA, ev_cons, ev_nil]; push_cast; ring
theorem ev_LB (t : ℝ) : ev t LB = 1000000 * (t + 11.900511) := by simp only [LB, ev_cons, ev_nil]; push_cast; ring
theorem ev_LT (t : ℝ) : ev t LT = 2 * (t + 10.5) := by simp only [LT, ev_cons, ev_nil]; push_cast; ring
theorem ev_LS (t : ℝ) : ev t LS = 2 * (t + 20.5) := by simp only [LS, ev_cons, ev_nil]; push_cast; ring

theorem ev_num {t : ℝ} (ht : 0 ≤ t) : ev t num = lam2 t * ev t den := by
  have e1 : t + 11.900511 ≠ 0 := by positivity
  have e2 : t + 10.900511 ≠ 0 := by positivity
  have e3 : t + 10.5 ≠ 0 := by positivity
  have e4 := (P1_pos ht).ne'
  have e5 := (P0_pos ht).ne'
  simp only [num, den, AB, A2, B2, T2, Q0, Q1, Q01, wr, ev_add, ev_smul, ev_mul, ev_LA, ev_LB, ev_LT, lam2]
  generalize ev t P1 = p1 at *
  generalize ev t P0 = p0 at *
  generalize ev t (der P1) = p1'
  generalize ev t (der P0) = p0'
  generalize ev t (der (der P1)) = p1''
  generalize ev t (der (der P0)) = p0''
  generalize hx : t + 11.900511 = x at *
  generalize hy : t + 10.900511 = y at *
  generalize hz : t + 10.5 = z at *
  push_cast
  field_simp
  ring

theorem ev_den_pos {t : ℝ} (ht : 0 ≤ t) : 0 < ev t den := by
  simp only [den, AB, A2, B2, T2, Q0, Q1, Q01, ev_mul, ev_LA, ev_LB, ev_LT]
  have := P0_pos ht
  have := P1_pos ht
  positivity

theorem lam2_bound {t : ℝ} (ht : 0 ≤ t) : |lam2 t| ≤ 1e-10 / (t + 20.5) ^ 4 := by
  have hd := ev_den_pos ht
  have hu := ev_nonneg upper_cert ht
  have hl := ev_nonneg lower_cert ht
  simp only [ev_add, ev_smul, ev_mul t S4, ev_num ht] at hu hl
  simp only [S4, ev_mul, ev_LS] at hu hl
  have hs : (0 : ℝ) < (t + 20.5) ^ 4 := by positivity
  rw [abs_le, ← neg_div, div_le_iff₀ hs, le_div_iff₀ hs]
  generalize ev t den = d at *
  generalize lam2 t = l at *
  push_cast at hu hl
  constructor
  · have : 0 ≤ d * (1e-10 + l * (t + 20.5) ^ 4) := by nlinarith
    have := nonneg_of_mul_nonneg_right this hd
    linarith
  · have : 0 ≤ d * (1e-10 - l * (t + 20.5) ^ 4) := by nlinarith
    have := nonneg_of_mul_nonneg_right this hd
    linarith

/-! ### integration from infinity -/

theorem le_of_deriv {f f' : ℝ → ℝ} {C b : ℝ} {k : ℕ} (hk : 0 < k) (hb : 0 < b) (hf : ∀ t, 0 ≤ t → HasDerivAt f (f' t) t)
    (hf' : ∀ t, 0 ≤ t → -(C * k / (t + b) ^ (k + 1)) ≤ f' t) (hlim : Tendsto f atTop (nhds 0)) {t : ℝ} (ht : 0 ≤ t) :
    f t ≤ C / (t + b) ^ k := by
  have hd : ∀ s, 0 ≤ s → HasDerivAt (fun s => f s - C / (s + b) ^ k) (f' s + C * k / (s + b) ^ (k + 1)) s := by
    intro s hs
    have e : s + b ≠ 0 := by positivity
    have h1 := ((hasDerivAt_id s).add_const b).pow k
    have h2 := (hasDerivAt_const s C).div h1 (pow_ne_zero k e)
    refine ((hf s hs).sub h2).congr_deriv ?_
    obtain ⟨k, rfl⟩ : ∃ m, k = m + 1 := ⟨k - 1, by omega⟩
    simp only [id, Nat.add_sub_cancel, zero_mul, zero_sub, mul_one, Pi.pow_apply]
    field_simp
    ring
  have hmono : MonotoneOn (fun s => f s - C / (s + b) ^ k) (Set.Ici 0) := by
    apply monotoneOn_of_deriv_nonneg (convex_Ici 0)
    · exact fun s hs => (hd s hs).continuousAt.continuousWithinAt
    · exact fun s hs => (hd s (interior_subset hs)).differentiableAt.differentiableWithinAt
    · intro s hs
      rw [(hd s (interior_subset hs)).deriv]
      linarith [hf' s (interior_subset hs)]
  have hl2 : Tendsto (fun s : ℝ => C / (s + b) ^ k) atTop (nhds 0) :=
    tendsto_const_nhds.div_atTop ((tendsto_pow_atTop hk.ne').comp (tendsto_atTop_add_const_right _ b tendsto_id))
  have hl := hlim.sub hl2
  rw [sub_zero] at hl
  have := ge_of_tendsto hl (b := f t - C / (t + b) ^ k) (by
    filter_upwards [eventually_ge_atTop t] with s hs
    exact hmono ht (ht.trans hs) hs)
  linarith

theorem abs_le_of_deriv {f f' : ℝ → ℝ} {C b : ℝ} {k : ℕ} (hk : 0 < k) (hb : 0 < b) (hf : ∀ t, 0 ≤ t → HasDerivAt f (f' t) t)
    (hf' : ∀ t, 0 ≤ t → |f' t| ≤ C * k / (t + b) ^ (k + 1)) (hlim : Tendsto f atTop (nhds 0)) {t : ℝ} (ht : 0 ≤ t) :
    |f t| ≤ C / (t + b) ^ k := by
  rw [abs_le']
  refine ⟨le_of_deriv hk hb hf (fun s hs => (abs_le.1 (hf' s hs)).1) hlim ht,
    le_of_deriv (f := fun s => -f s) (f' := fun s => -f' s) hk hb (fun s hs => (hf s hs).neg) (fun s hs => ?_) (by simpa using hlim.neg) ht⟩
  linarith [(abs_le.1 (hf' s hs)).2]

theorem tendsto_ratio {p q : List ℤ} {a b : ℤ} (hb : b ≠ 0) (hl : p.length = q.length) :
    Tendsto (fun x => ev x (p ++ [a]) / ev x (q ++ [b])) atTop (nhds ((a : ℝ) / b)) := by
  have := (tendsto_ev p a).div (tendsto_ev q b) (by exact_mod_cast hb)
  refine this.congr' ?_
  filter_upwards [eventually_gt_atTop (0 : ℝ)] with x hx
  simp only [Pi.div_apply, hl]
  field_simp

theorem lim_log {c d : ℝ} : Tendsto (fun t : ℝ => Real.log (t + c) - Real.log (t + d)) atTop (nhds 0) := by
  have h : Tendsto (fun t : ℝ => 1 + (c - d) / (t + d)) atTop (nhds 1) := by
    simpa using (tendsto_const_nhds (x := (1 : ℝ))).add
      ((tendsto_const_nhds (x := c - d)).div_atTop (tendsto_atTop_add_const_right atTop d tendsto_id))
  have h2 := h.log one_ne_zero
  rw [Real.log_one] at h2
  refine h2.congr' ?_
  filter_upwards [eventually_gt_atTop (-c), eventually_gt_atTop (-d)] with t h1 h2
  rw [← Real.log_div (by linarith) (by linarith)]
  congr 1
  have : t + d ≠ 0 := by linarith
  field_simp
  ring

theorem lim_lam1 : Tendsto lam1 atTop (nhds 0) := by
  have h1 := lim_log (c := 11.900511) (d := 10.900511)
  have hd : ∀ c : ℝ, Tendsto (fun t : ℝ => (t + c)) atTop atTop := fun c => tendsto_atTop_add_const_right atTop c tendsto_id
  have h2 := (tendsto_const_nhds (x := (-10.900511 : ℝ))).div_atTop (hd 11.900511)
  have h3 := (tendsto_const_nhds (x := (-10.900511 : ℝ))).div_atTop (hd 10.900511)
  have h4 := (tendsto_const_nhds (x := (1 : ℝ))).div_atTop (hd 10.5)
  have h5 : Tendsto (fun t => ev t (der P1) / ev t P1) atTop (nhds 0) :=
    (tendsto_ratio (p := (der P1).dropLast) (a := 0) (q := P1.dropLast) (b := 31817483409760454400000) (by decide) (by decide)).trans
      (by simp)
  have h6 : Tendsto (fun t => ev t (der P0) / ev t P0) atTop (nhds 0) :=
    (tendsto_ratio (p := (der P0).dropLast) (a := 0) (q := P0.dropLast) (b := 31817483409760454400000) (by decide) (by decide)).trans
      (by simp)
  have h := ((((h1.add h2).sub h3).sub h4).add h5).sub h6
  simp only [add_zero, sub_zero] at h
  refine h.congr' ?_
  filter_upwards [eventually_ge_atTop (0 : ℝ)] with t ht
  simp only [lam1]
  have e1 : t + 11.900511 ≠ 0 := by positivity
  have e2 : t + 10.900511 ≠ 0 := by positivity
  have : (t + 1) / (t + 11.900511) = 1 + -10.900511 / (t + 11.900511) := by field_simp; ring
  have : t / (t + 10.900511) = 1 + -10.900511 / (t + 10.900511) := by field_simp; ring
  linarith

theorem lim_mul_log {b : ℝ} (c : ℝ) : Tendsto (fun t : ℝ => t * (Real.log (t + b + c) - Real.log (t + b))) atTop (nhds c) := by
  have h := (Real.tendsto_mul_log_one_add_div_atTop c).comp (tendsto_atTop_add_const_right atTop b tendsto_id)
  have h2 := h.sub ((lim_log (c := b + c) (d := b)).const_mul b)
  rw [mul_zero, sub_zero] at h2
  refine h2.congr' ?_
  filter_upwards [eventually_gt_atTop (-b), eventually_gt_atTop (-(b + c))] with t h1 h2
  have e : t + b ≠ 0 := by linarith
  simp only [Function.comp, id]
  rw [show 1 + c / (t + b) = (t + b + c) / (t + b) by field_simp, Real.log_div (by linarith) e, ← add_assoc]
  ring

theorem lim_lam : Tendsto lam atTop (nhds 0) := by
  have h1 := lim_mul_log (b := 10.900511) 1
  have h2 := lim_log (c := 11.900511) (d := 10.5)
  have h3 : Tendsto (fun t => ev t P1 / ev t P0) atTop (nhds ((31817483409760454400000 : ℤ) / (31817483409760454400000 : ℤ))) :=
    tendsto_ratio (p := P1.dropLast) (q := P0.dropLast) (by decide) (by decide)
  rw [div_self (by norm_num)] at h3
  have h4 := h3.log one_ne_zero
  have h := ((h1.sub_const 1).add h2).add h4
  rw [Real.log_one, sub_self, zero_add, zero_add] at h
  refine h.congr' ?_
  filter_upwards [eventually_ge_atTop (0 : ℝ)] with t ht
  rw [Real.log_div (P1_pos ht).ne' (P0_pos ht).ne']
  simp only [lam]
  rw [show t + 10.900511 + 1 = t + 11.900511 by ring]
  ring

theorem lam_bound {t : ℝ} (ht : 0 ≤ t) : |lam t| ≤ (1e-10 / 6) / (t + 20.5) ^ 2 := by
  have h1 : ∀ t, 0 ≤ t → |lam1 t| ≤ (1e-10 / 3) / (t + 20.5) ^ 3 := fun t ht =>
    abs_le_of_deriv (by norm_num) (by norm_num) (fun t ht => hasDerivAt_lam1 ht) (fun t ht => by
      refine (lam2_bound ht).trans (le_of_eq ?_); norm_num) lim_lam1 ht
  exact abs_le_of_deriv (by norm_num) (by norm_num) (fun t ht => hasDerivAt_lam ht) (fun t ht => by
      refine (h1 t ht).trans (le_of_eq ?_); norm_num) lim_lam ht

/-! ### the error function -/

/-- logarithm of the ratio of the crate's function and `Γ` at `1/2 + t` -/
noncomputable def E (t : ℝ) : ℝ := Real.log (gamma (1 / 2 + t)) - Real.log (Real.Gamma (1 / 2 + t))

theorem log_gamma {t : ℝ} (ht : 0 ≤ t) : Real.log (gamma (1 / 2 + t)) =
    Real.log (ev t P0) - Real.log 1280000000000000000000000000 - ∑ k ∈ Finset.range 10, Real.log (1 / 2 + t + k)
      + Real.log (twoSqrtEOverPi : ℝ) + t * (Real.log (t + 10.900511) - 1) := by
  have hx : (0 : ℝ) < 1 / 2 + t := by linarith
  have hn := lanczosNum_pos hx
  have e0 : ((1 / 2 + t) - 1 / 2 + (gammaR : ℝ)) = t + 10.900511 := by norm_num [gammaR]
  rw [gamma_right (by linarith), e0, show 1 / 2 + t - 1 / 2 = t by ring,
    Real.log_mul (mul_pos (lanczosSum_pos hx) gammaConst_pos.1).ne' (Real.rpow_pos_of_pos (by positivity) _).ne',
    Real.log_mul (lanczosSum_pos hx).ne' gammaConst_pos.1.ne', Real.log_rpow (by positivity),
    Real.log_div (by positivity) (Real.exp_pos 1).ne', Real.log_exp, lanczosSum_eq hx, num0,
    Real.log_mul (by norm_num) hn.ne', Real.log_div hn.ne' (by positivity)]
  simp only [Finset.sum_range_succ, Finset.sum_range_zero]
  generalize (1 / 2 + t) = x at *
  rw [Real.log_mul (by positivity) (by positivity), Real.log_mul (by positivity) (by positivity),
    Real.log_mul (by positivity) (by positivity), Real.log_mul (by positivity) (by positivity),
    Real.log_mul (by positivity) (by positivity), Real.log_mul (by positivity) (by positivity),
    Real.log_mul (by positivity) (by positivity), Real.log_mul (by positivity) (by positivity),
    Real.log_mul (by positivity) (by positivity)]
  push_cast
  simp only [add_zero]
  ring

theorem E_step {t : ℝ} (ht : 0 ≤ t) : E (t + 1) - E t = lam t := by
  have hx : (0 : ℝ) < 1 / 2 + t := by linarith
  have h1 : Real.Gamma (1 / 2 + (t + 1)) = (1 / 2 + t) * Real.Gamma (1 / 2 + t) := by
    rw [← add_assoc]; exact Real.Gamma_add_one hx.ne'
  have h2 : ev (t + 1) P0 = ev t P1 := by rw [num0, num1]; congr 2; ring
  unfold E
  rw [log_gamma ht, log_gamma (by linarith : 0 ≤ t + 1), h1, h2, Real.log_mul hx.ne' (Real.Gamma_pos_of_pos hx).ne',
    Finset.sum_range_succ, Finset.sum_range_succ' (fun k : ℕ => Real.log (1 / 2 + t + k))]
  have h3 : ∑ k ∈ Finset.range 9, Real.log (1 / 2 + t + ((k + 1 : ℕ) : ℝ)) =
      ∑ k ∈ Finset.range 9, Real.log (1 / 2 + (t + 1) + (k : ℝ)) := by
    refine Finset.sum_congr rfl fun k _ => ?_
    congr 1; push_cast; ring
  rw [h3]
  unfold lam
  rw [show 1 / 2 + (t + 1) + ((9 : ℕ) : ℝ) = t + 10.5 by push_cast; ring, show t + 1 + 10.900511 = t + 11.900511 by ring]
  simp only [Nat.cast_zero, add_zero]
  ring

theorem E_far {t : ℝ} (ht : 0 ≤ t) (N : ℕ) :
    |E (t + N) - E t| ≤ (1e-10 / 6) * (1 / (t + 19.5) - 1 / (t + N + 19.5)) := by
  induction N with
  | zero => simp
  | succ N ih =>
    have h0 : 0 ≤ t + N := by positivity
    have h1 := lam_bound h0
    rw [← E_step h0] at h1
    have h2 : (1e-10 / 6 : ℝ) / (t + N + 20.5) ^ 2 ≤ (1e-10 / 6) * (1 / (t + N + 19.5) - 1 / (t + N + 20.5)) := by
      rw [div_eq_mul_one_div]
      refine mul_le_mul_of_nonneg_left ?_ (by norm_num)
      have e : 1 / (t + N + 19.5) - 1 / (t + N + 20.5) = 1 / ((t + N + 19.5) * (t + N + 20.5)) := by
        have : t + N + 19.5 ≠ 0 := by positivity
        have : t + N + 20.5 ≠ 0 := by positivity
        field_simp
        norm_num
      rw [e]
      apply one_div_le_one_div_of_le (by positivity)
      nlinarith
    have e1 : t + ((N + 1 : ℕ) : ℝ) = t + N + 1 := by push_cast; ring
    rw [e1, show t + N + 1 + 19.5 = t + N + 20.5 by ring]
    calc |E (t + N + 1) - E t| = |(E (t + N + 1) - E (t + N)) + (E (t + N) - E t)| := by congr 1; ring
      _ ≤ _ := abs_add_le _ _
      _ ≤ _ := add_le_add (h1.trans h2) ih
      _ = _ := by ring

/-- `log Γ(x + n + 1) - (x - 1) log n - log Γ(n + 2)` tends to 0 -/
theorem lim_Gamma {x : ℝ} (hx : 0 < x) : Tendsto (fun n : ℕ => Real.log (Real.Gamma (x + (n + 1 : ℕ))) - x * Real.log n - Real.log n.factorial)
    atTop (nhds 0) := by
  have h := (Real.BohrMollerup.tendsto_logGammaSeq Real.convexOn_log_Gamma (fun {y} hy => by
    simp only [Function.comp_apply]
    rw [Real.Gamma_add_one hy.ne', Real.log_mul hy.ne' (Real.Gamma_pos_of_pos hy).ne', add_comm]) hx)
  have h2 := h.const_sub (Real.log (Real.Gamma x))
  simp only [Function.comp_apply, Real.Gamma_one, Real.log_one, sub_zero, sub_self] at h2
  refine h2.congr fun n => ?_
  have h3 := Real.BohrMollerup.f_add_nat_eq (f := Real.log ∘ Real.Gamma) (fun {y} hy => by
    simp only [Function.comp_apply]
    rw [Real.Gamma_add_one hy.ne', Real.log_mul hy.ne' (Real.Gamma_pos_of_pos hy).ne', add_comm]) hx (n + 1)
  simp only [Function.comp_apply] at h3
  rw [h3, Real.BohrMollerup.logGammaSeq]
  ring

theorem lim_P0 (t s : ℝ) : Tendsto (fun y => Real.log (ev (y + t) P0) - Real.log (ev (y + s) P0)) atTop (nhds 0) := by
  have h0 : Tendsto (fun y => Real.log (ev y P0) - 10 * Real.log y) atTop (nhds (Real.log (31817483409760454400000 : ℤ))) := by
    have := (tendsto_ev P0.dropLast 31817483409760454400000).log (by norm_num)
    refine this.congr' ?_
    filter_upwards [eventually_gt_atTop (0 : ℝ)] with y hy
    rw [show P0.dropLast ++ [31817483409760454400000] = P0 from rfl, show P0.dropLast.length = 10 from rfl,
      Real.log_div (P0_pos hy.le).ne' (by positivity), Real.log_pow]
    norm_num
  have hd : ∀ c : ℝ, Tendsto (fun t : ℝ => (t + c)) atTop atTop := fun c => tendsto_atTop_add_const_right atTop c tendsto_id
  have h := ((h0.comp (hd t)).sub (h0.comp (hd s))).add ((lim_log (c := t) (d := s)).const_mul 10)
  rw [sub_self, mul_zero, add_zero] at h
  refine h.congr fun y => ?_
  simp only [Function.comp_apply]
  ring

theorem lim_gamma {t s : ℝ} (ht : 0 ≤ t) (hs : 0 ≤ s) :
    Tendsto (fun y : ℝ => Real.log (gamma (1 / 2 + (y + t))) - Real.log (gamma (1 / 2 + (y + s))) - (t - s) * Real.log y) atTop (nhds 0) := by
  have h1 := lim_P0 t s
  have h2 : Tendsto (fun y : ℝ => ∑ k ∈ Finset.range 10, (Real.log (y + (1 / 2 + t + k)) - Real.log (y + (1 / 2 + s + k)))) atTop
      (nhds (∑ _k ∈ Finset.range 10, (0 : ℝ))) := tendsto_finset_sum _ fun k _ => lim_log
  have h3 := lim_mul_log (b := s + 10.900511) (t - s)
  have h4 := (lim_log (c := t + 10.900511) (d := 0)).const_mul t
  have h5 := (lim_log (c := s + 10.900511) (d := 0)).const_mul s
  have h := (((h1.sub h2).add (h3.sub_const (t - s))).add h4).sub h5
  simp only [Finset.sum_const_zero, mul_zero, sub_self, add_zero, sub_zero] at h
  refine h.congr' ?_
  filter_upwards [eventually_gt_atTop (0 : ℝ)] with y hy
  rw [log_gamma (by linarith : 0 ≤ y + t), log_gamma (by linarith : 0 ≤ y + s), Finset.sum_sub_distrib]
  have e : ∀ u : ℝ, ∑ k ∈ Finset.range 10, Real.log (y + (1 / 2 + u + k)) = ∑ k ∈ Finset.range 10, Real.log (1 / 2 + (y + u) + k) :=
    fun u => Finset.sum_congr rfl fun k _ => by congr 1; ring
  rw [e, e, show y + (s + 10.900511) + (t - s) = y + t + 10.900511 by ring, ← add_assoc, ← add_assoc]
  ring

theorem lim_E {t s : ℝ} (ht : 0 ≤ t) (hs : 0 ≤ s) : Tendsto (fun N : ℕ => E (t + (N + 1 : ℕ)) - E (s + (N + 1 : ℕ))) atTop (nhds 0) := by
  have h1 := (lim_Gamma (x := 1 / 2 + t) (by linarith)).sub (lim_Gamma (x := 1 / 2 + s) (by linarith))
  have hc : Tendsto (fun N : ℕ => ((N : ℝ) + 1)) atTop atTop := tendsto_atTop_add_const_right atTop 1 tendsto_natCast_atTop_atTop
  have h2 := (lim_gamma ht hs).comp hc
  have h3 := ((lim_log (c := 1) (d := 0)).comp tendsto_natCast_atTop_atTop).const_mul (t - s)
  have h := (h2.add h3).sub h1
  simp only [mul_zero, sub_self, add_zero] at h
  refine h.congr fun N => ?_
  simp only [Function.comp_apply, E, add_zero]
  push_cast
  rw [show 1 / 2 + ((N : ℝ) + 1 + t) = 1 / 2 + (t + (N + 1)) by ring, show 1 / 2 + ((N : ℝ) + 1 + s) = 1 / 2 + (s + (N + 1)) by ring,
    show 1 / 2 + t + ((N : ℝ) + 1) = 1 / 2 + (t + (N + 1)) by ring, show 1 / 2 + s + ((N : ℝ) + 1) = 1 / 2 + (s + (N + 1)) by ring]
  ring

theorem E_diff {t s : ℝ} (ht : 0 ≤ t) (hs : 0 ≤ s) : |E t - E s| ≤ (1e-10 / 6) * (1 / (t + 19.5) + 1 / (s + 19.5)) := by
  have h := (lim_E ht hs).abs
  rw [abs_zero] at h
  have h2 := h.const_add ((1e-10 / 6) * (1 / (t + 19.5) + 1 / (s + 19.5)))
  rw [add_zero] at h2
  refine ge_of_tendsto' h2 fun N => ?_
  have a1 := E_far ht (N + 1)
  have a2 := E_far hs (N + 1)
  have b1 : 0 ≤ 1 / (t + ((N + 1 : ℕ) : ℝ) + 19.5) := by positivity
  have b2 : 0 ≤ 1 / (s + ((N + 1 : ℕ) : ℝ) + 19.5) := by positivity
  have c0 := abs_le.1 a1
  have c1 := abs_le.1 a2
  have c2 := abs_le.1 (le_refl |E (t + ((N + 1 : ℕ) : ℝ)) - E (s + ((N + 1 : ℕ) : ℝ))|)
  rw [abs_le]
  constructor <;> nlinarith [c0.1, c0.2, c1.1, c1.2, c2.1, c2.2]

/-- the value at 1 -/
theorem gamma_one : |(gamma (1 : ℝ) : ℝ) - 1| ≤ 1e-14 := by
  have hp : 0 < (gamma (1 : ℝ) : ℝ) := gamma_right_pos (by norm_num)
  have hsq : (gamma (1 : ℝ) : ℝ) ^ 2 = (lanczosSum 1 * (twoSqrtEOverPi : ℝ)) ^ 2 * (11.400511 / Real.exp 1) := by
    have h0 : (0 : ℝ) ≤ 11.400511 / Real.exp 1 := by positivity
    rw [gamma_right (by norm_num), show (1 : ℝ) - 1 / 2 + (gammaR : ℝ) = 11.400511 by norm_num [gammaR], mul_pow,
      ← Real.rpow_natCast ((11.400511 / Real.exp 1) ^ ((1 : ℝ) - 1 / 2)), ← Real.rpow_mul h0]
    norm_num
  have he := abs_le.1 Real.exp_one_near_20
  have hS : lanczosSum 1 * (twoSqrtEOverPi : ℝ) = (366223615099302527879310790521150994509097 / 750000000000000000000000000000000000000000 : ℝ) := by
    norm_num [lanczosSum, twoSqrtEOverPi]
  rw [hS] at hsq
  have hpos := Real.exp_pos 1
  have h1 : (gamma (1 : ℝ) : ℝ) ^ 2 * Real.exp 1 = (366223615099302527879310790521150994509097 / 750000000000000000000000000000000000000000 : ℝ) ^ 2 * 11.400511 := by
    rw [hsq]; field_simp
  have h2 : (1 - 1e-14 : ℝ) ^ 2 * Real.exp 1 ≤ (366223615099302527879310790521150994509097 / 750000000000000000000000000000000000000000 : ℝ) ^ 2 * 11.400511 :=
    (mul_le_mul_of_nonneg_left (by linarith [he.2] : Real.exp 1 ≤ 363916618873 / 133877442384 + 1 / 10 ^ 20) (by norm_num)).trans (by norm_num)
  have h3 : (366223615099302527879310790521150994509097 / 750000000000000000000000000000000000000000 : ℝ) ^ 2 * 11.400511 ≤ (1 + 1e-14 : ℝ) ^ 2 * Real.exp 1 :=
    le_trans (by norm_num) (mul_le_mul_of_nonneg_left (by linarith [he.1] : 363916618873 / 133877442384 - 1 / 10 ^ 20 ≤ Real.exp 1) (by norm_num))
  rw [← h1] at h2 h3
  have h4 := le_of_mul_le_mul_right h2 hpos
  have h5 := le_of_mul_le_mul_right h3 hpos
  have h6 := abs_le_of_sq_le_sq' h5 (by norm_num)
  have h7 := le_of_sq_le_sq h4 hp.le
  rw [abs_le]
  constructor <;> linarith [h6.2]

theorem E_half : |E (1 / 2)| ≤ 2e-14 := by
  have h := abs_le.1 gamma_one
  have hp : 0 < (gamma (1 : ℝ) : ℝ) := gamma_right_pos (by norm_num)
  unfold E
  rw [show (1 / 2 : ℝ) + 1 / 2 = 1 by norm_num, Real.Gamma_one, Real.log_one, sub_zero, abs_le]
  have h1 := Real.log_le_sub_one_of_pos hp
  have h2 := Real.one_sub_inv_le_log_of_pos hp
  have h3 : (gamma (1 : ℝ) : ℝ)⁻¹ ≤ 1 + 2e-14 := by
    rw [inv_le_comm₀ hp (by norm_num)]
    refine le_trans ?_ (by linarith [h.1] : (1 - 1e-14 : ℝ) ≤ _)
    norm_num
  constructor <;> linarith [h.2]

/-- the logarithmic error on the right branch -/
theorem E_bound {t : ℝ} (ht : 0 ≤ t) : |E t| ≤ 1.72e-12 := by
  have h1 := abs_le.1 (E_diff ht (by norm_num : (0 : ℝ) ≤ 1 / 2))
  have h2 := abs_le.1 E_half
  have h3 : 1 / (t + 19.5) ≤ 1 / 19.5 := one_div_le_one_div_of_le (by norm_num) (by linarith)
  have h4 : (1e-10 / 6 : ℝ) * (1 / (t + 19.5) + 1 / (1 / 2 + 19.5)) ≤ 1.69e-12 := by
    refine (mul_le_mul_of_nonneg_left (add_le_add_left h3 _) (by norm_num)).trans (by norm_num)
  rw [abs_le]
  constructor <;> linarith [h1.1, h1.2, h2.1, h2.2]

theorem ratio_right {x : ℝ} (hx : 1 / 2 ≤ x) : |Real.log (gamma x / Real.Gamma x)| ≤ 1.72e-12 := by
  have h := E_bound (t := x - 1 / 2) (by linarith)
  unfold E at h
  rw [show (1 / 2 : ℝ) + (x - 1 / 2) = x by ring] at h
  rwa [Real.log_div (gamma_right_pos hx).ne' (Real.Gamma_pos_of_pos (by linarith)).ne']

/-- The crate's gamma function in exact arithmetic is `Γ` up to a relative error of `2e-12`, on its whole domain. -/
theorem gamma_accurate {x : ℝ} (hpole : ∀ n : ℕ, x ≠ -n) : 0 < gamma x / Real.Gamma x ∧ |Real.log (gamma x / Real.Gamma x)| ≤ 1.72e-12 := by
  rcases le_or_gt (1 / 2) x with h | h
  · exact ⟨div_pos (gamma_right_pos h) (Real.Gamma_pos_of_pos (by linarith)), ratio_right h⟩
  · have h1 := Real.Gamma_mul_Gamma_one_sub x
    have hg := Real.Gamma_pos_of_pos (s := 1 - x) (by linarith)
    have hG := gamma_right_pos (x := 1 - x) (by linarith)
    have hG0 : Real.Gamma x ≠ 0 := Real.Gamma_ne_zero hpole
    have hs : Real.sin (Real.pi * x) ≠ 0 := by
      intro hs
      rw [hs, div_zero] at h1
      exact (mul_ne_zero hG0 hg.ne') h1
    have e : gamma x / Real.Gamma x = (gamma (1 - x) / Real.Gamma (1 - x))⁻¹ := by
      rw [gamma_left h, inv_div, div_div, div_eq_div_iff (by positivity) hG.ne']
      rw [eq_div_iff hs] at h1
      linear_combination (-gamma (1 - x)) * h1
    rw [e, Real.log_inv, abs_neg]
    exact ⟨inv_pos.2 (div_pos hG hg), ratio_right (by linarith)⟩

end GaussQuad.GammaAcc
