import Verif.Proofs.PhaseData
import Verif.Proofs.Sinc
import Verif.Proofs.OdeCompare
import Verif.Proofs.LegendreAsymptotic
import Mathlib.Analysis.Real.Pi.Bounds
import Mathlib.Analysis.SpecialFunctions.Trigonometric.Bounds

/-!
# The phase function of the Gauss-Legendre asymptotics

`T(α) = α (1 + W η(α², W))` with `W = 1/(n+1/2)²`; `α ∈ (0, √2.5]`, `W ≤ 4/41209`.
-/

namespace GaussQuad.Phase
open ListPoly TaylorModel Sinc

def M : ℕ := 100000000000000000000000000000000
theorem M_pos : 0 < M := by norm_num [M]

/-- coefficients of `d/dα (α p(α²))` -/
def odd1 (p : List ℤ) : List ℤ := add p (0 :: smul 2 (der p))

def H1 : List (List ℤ) := H.map odd1
def HX : List (List ℤ) := H.map der
def H2 : List (List ℤ) := H1.map der
def H3 : List (List ℤ) := H2.map odd1

/-! ## enclosures -/

def mul (s t : TM) : TM := s.mul M 28 5 t
def hor (z : TM) (l : List ℤ) : TM := TM.horner M 28 5 z l

def one : TM := ⟨[[100000000000000000000000000000000]], 0⟩
def tX : TM := ⟨[[0, 250000000000000000000000000000000]], 0⟩
def tW : TM := ⟨[[], [9706617486471401878230483632]], 1⟩
def c25 : TM := ⟨[[40000000000000000000000000000000]], 0⟩
def c45 : TM := ⟨[[80000000000000000000000000000000]], 0⟩
def eta : TM := ⟨H, 0⟩
def eta1 : TM := ⟨H1, 0⟩
def etaX : TM := mul c25 ⟨HX, 0⟩
def eta2 : TM := mul c45 ⟨H2, 0⟩
def eta3 : TM := mul c45 ⟨H3, 0⟩
def tau : TM := one.add (mul tW eta)
def tau1 : TM := one.add (mul tW eta1)
def tauX : TM := mul tW etaX
def tau2 : TM := mul tW eta2
def tau3 : TM := mul tW eta3
def tsq : TM := mul tau tau
def z : TM := mul tX tsq
def s2z : TM := ⟨(hor z S2).p, (hor z S2).e + 1000000000⟩
def sz : TM := one.sub (mul z s2z)
def k2 : TM := mul s2z (one.add sz)
def kt : TM := mul (mul sz sz) tsq
def t1sq : TM := mul tau1 tau1
def b : TM := ((mul tauX (tau1.add tau)).imul 2).add (mul (mul tsq tsq) k2)
def num : TM := (((mul (mul kt t1sq) (mul eta1 (one.add tau1))).imul 4).add (mul t1sq b)).add
  (((mul (mul kt tau1) tau3).imul 2).sub ((mul (mul kt tX) (mul tau2 tau2)).imul 3))

theorem num_ok : num.bound ≤ 240000000000000000 := by decide +kernel
theorem tau1_ok : (mul tW eta1).bound ≤ 1000000000000000000000000000 := by decide +kernel
theorem tau_ok : (mul tW eta).bound ≤ 1000000000000000000000000000 := by decide +kernel

/-! ## the real functions -/

variable (α y : ℝ)

/-- `W` -/
noncomputable def W : ℝ := 4 / 41209 * y
/-- scaled `α²` -/
noncomputable def xx : ℝ := 2 / 5 * α ^ 2
noncomputable def rη : ℝ := ev2 (xx α) y H / M
noncomputable def rη1 : ℝ := ev2 (xx α) y H1 / M
noncomputable def rηX : ℝ := 2 / 5 * (ev2 (xx α) y HX / M)
noncomputable def rη2 : ℝ := 4 / 5 * (ev2 (xx α) y H2 / M)
noncomputable def rη3 : ℝ := 4 / 5 * (ev2 (xx α) y H3 / M)

/-- the phase function and its first three derivatives -/
noncomputable def T : ℝ := α * (1 + W y * rη α y)
noncomputable def T1 : ℝ := 1 + W y * rη1 α y
noncomputable def T2 : ℝ := α * (W y * rη2 α y)
noncomputable def T3 : ℝ := W y * rη3 α y

theorem ev2_map_odd1 (x y : ℝ) (p : List (List ℤ)) : ev2 x y (p.map odd1) = ev2 x y p + 2 * x * ev2 x y (p.map der) := by
  induction p with
  | nil => simp [ev2]
  | cons a p ih =>
    simp only [List.map_cons, ev2, ih, odd1, ev_add, ev_cons, ev_smul]
    push_cast; ring

theorem ev2_hasDerivAt (y : ℝ) (p : List (List ℤ)) (x : ℝ) : HasDerivAt (fun x => ev2 x y p) (ev2 x y (p.map der)) x := by
  induction p with
  | nil => exact hasDerivAt_const x (0 : ℝ)
  | cons a p ih => exact (hasDerivAt_ev a x).add (ih.const_mul y)

theorem xx_hasDerivAt : HasDerivAt xx (4 / 5 * α) α := by
  refine ((hasDerivAt_pow 2 α).const_mul (2 / 5 : ℝ)).congr_deriv ?_
  norm_num; ring

theorem ev2_xx_hasDerivAt (p : List (List ℤ)) : HasDerivAt (fun α => ev2 (xx α) y p) (ev2 (xx α) y (p.map der) * (4 / 5 * α)) α :=
  (ev2_hasDerivAt y p (xx α)).comp α (xx_hasDerivAt α)

theorem T_hasDerivAt : HasDerivAt (fun α => T α y) (T1 α y) α := by
  have h := (hasDerivAt_id α).mul ((((ev2_xx_hasDerivAt α y H).div_const (M : ℝ)).const_mul (W y)).const_add 1)
  refine h.congr_deriv ?_
  simp only [T1, rη1, H1, ev2_map_odd1, id, xx]
  ring

theorem T1_hasDerivAt : HasDerivAt (fun α => T1 α y) (T2 α y) α := by
  have h := (((ev2_xx_hasDerivAt α y H1).div_const (M : ℝ)).const_mul (W y)).const_add 1
  refine h.congr_deriv ?_
  simp only [T2, rη2, H2]
  ring

theorem T2_hasDerivAt : HasDerivAt (fun α => T2 α y) (T3 α y) α := by
  have h := (hasDerivAt_id α).mul ((((ev2_xx_hasDerivAt α y H2).div_const (M : ℝ)).const_mul (4 / 5)).const_mul (W y))
  refine h.congr_deriv ?_
  simp only [T3, rη3, H3, ev2_map_odd1, id, xx]
  ring

variable {α y : ℝ}

theorem mem_one {x y : ℝ} : Mem M x y 1 one := by
  simp [Mem, one, ev2, M]

theorem mem_X {x y : ℝ} : Mem M x y (5 / 2 * x) tX := by
  have : 5 / 2 * x * (M : ℝ) - ev2 x y tX.p = 0 := by simp [tX, ev2, M]; ring
  rw [Mem, this]; simp [tX]

theorem mem_c25 {x y : ℝ} : Mem M x y (2 / 5) c25 := by
  simp [Mem, c25, ev2, M]; norm_num

theorem mem_c45 {x y : ℝ} : Mem M x y (4 / 5) c45 := by
  simp [Mem, c45, ev2, M]; norm_num

theorem mem_W {x : ℝ} (hy : 0 ≤ y) (hy1 : y ≤ 1) : Mem M x y (W y) tW := by
  have : W y * (M : ℝ) - ev2 x y tW.p = y * (4 / 41209 * 100000000000000000000000000000000 - 9706617486471401878230483632) := by
    simp [tW, ev2, M, W]; ring
  rw [Mem, this, abs_mul, abs_of_nonneg hy]
  have h : |(4 / 41209 * 100000000000000000000000000000000 - 9706617486471401878230483632 : ℝ)| ≤ 1 := by
    rw [abs_le]; constructor <;> norm_num
  simp only [tW, Nat.cast_one]
  nlinarith [abs_nonneg (4 / 41209 * 100000000000000000000000000000000 - 9706617486471401878230483632 : ℝ)]

/-- the admissible range -/
structure Box (α y : ℝ) : Prop where
  pos : 0 < α
  le : α ^ 2 ≤ 5 / 2
  y0 : 0 < y
  y1 : y ≤ 1

namespace Box

variable (h : Box α y)
include h

theorem x0 : 0 ≤ xx α := by unfold xx; positivity
theorem x1 : xx α ≤ 1 := by unfold xx; linarith [h.le]
theorem W0 : 0 < W y := by unfold W; linarith [h.y0]
theorem α_le : α ≤ 1.5812 := by nlinarith [h.le, h.pos]

theorem mm {f g : ℝ} {s t : TM} (hf : Mem M (xx α) y f s) (hg : Mem M (xx α) y g t) : Mem M (xx α) y (f * g) (mul s t) :=
  hf.mul 28 5 M_pos h.x0 h.x1 h.y0.le h.y1 hg

theorem horner {f : ℝ} {s : TM} (hf : Mem M (xx α) y f s) (l : List ℤ) : Mem M (xx α) y (ev f l / M) (hor s l) :=
  hf.horner 28 5 M_pos h.x0 h.x1 h.y0.le h.y1 l

theorem bd {f : ℝ} {s : TM} (hf : Mem M (xx α) y f s) : |f| * M ≤ s.bound := hf.bound h.x0 h.x1 h.y0.le h.y1

theorem mW : Mem M (xx α) y (W y) tW := mem_W h.y0.le h.y1
theorem mX : Mem M (xx α) y (α ^ 2) tX := by
  have := mem_X (x := xx α) (y := y)
  rwa [show 5 / 2 * xx α = α ^ 2 by unfold xx; ring] at this
theorem mη : Mem M (xx α) y (rη α y) eta := mem_poly M_pos H
theorem mη1 : Mem M (xx α) y (rη1 α y) eta1 := mem_poly M_pos H1
theorem mηX : Mem M (xx α) y (rηX α y) etaX := h.mm mem_c25 (mem_poly M_pos HX)
theorem mη2 : Mem M (xx α) y (rη2 α y) eta2 := h.mm mem_c45 (mem_poly M_pos H2)
theorem mη3 : Mem M (xx α) y (rη3 α y) eta3 := h.mm mem_c45 (mem_poly M_pos H3)
theorem mτ : Mem M (xx α) y (1 + W y * rη α y) tau := mem_one.add (h.mm h.mW h.mη)
theorem mτ1 : Mem M (xx α) y (1 + W y * rη1 α y) tau1 := mem_one.add (h.mm h.mW h.mη1)

theorem τ1_close : |W y * rη1 α y| ≤ 1 / 100000 := by
  have h1 := h.bd (h.mm h.mW h.mη1)
  have h2 : ((mul tW eta1).bound : ℝ) ≤ 1000000000000000000000000000 := by exact_mod_cast tau1_ok
  have h3 := h1.trans h2
  rw [show (M : ℝ) = 100000000000000000000000000000000 by norm_num [M]] at h3
  linarith

theorem τ_close : |W y * rη α y| ≤ 1 / 100000 := by
  have h1 := h.bd (h.mm h.mW h.mη)
  have h2 : ((mul tW eta).bound : ℝ) ≤ 1000000000000000000000000000 := by exact_mod_cast tau_ok
  have h3 := h1.trans h2
  rw [show (M : ℝ) = 100000000000000000000000000000000 by norm_num [M]] at h3
  linarith

theorem T_pos : 0 < T α y := by
  have := (abs_le.1 h.τ_close).1
  exact mul_pos h.pos (by linarith)

theorem T_le : T α y ≤ 1.5813 := by
  have h1 := (abs_le.1 h.τ_close).2
  have h2 := h.α_le
  have := h.pos
  rw [T]; nlinarith

theorem T1_pos : 0.9999 ≤ T1 α y := by
  have := (abs_le.1 h.τ1_close).1
  rw [T1]; linarith

theorem T1_le : T1 α y ≤ 1.0001 := by
  have := (abs_le.1 h.τ1_close).2
  rw [T1]; linarith

theorem mz : Mem M (xx α) y (T α y ^ 2) z := by
  have := h.mm h.mX (h.mm h.mτ h.mτ)
  rwa [show α ^ 2 * ((1 + W y * rη α y) * (1 + W y * rη α y)) = T α y ^ 2 by rw [T]; ring] at this

theorem ms2z : Mem M (xx α) y (sinc2 (T α y)) s2z :=
  (h.horner h.mz S2).widen (sinc2_approx h.T_pos (h.T_le.trans (by norm_num)))

theorem msz : Mem M (xx α) y (1 - T α y ^ 2 * sinc2 (T α y)) sz := mem_one.sub (h.mm h.mz h.ms2z)

theorem num_bound : |4 * (((1 - T α y ^ 2 * sinc2 (T α y)) * (1 - T α y ^ 2 * sinc2 (T α y)) * ((1 + W y * rη α y) * (1 + W y * rη α y))) *
      ((1 + W y * rη1 α y) * (1 + W y * rη1 α y)) * (rη1 α y * (1 + (1 + W y * rη1 α y)))) +
    (1 + W y * rη1 α y) * (1 + W y * rη1 α y) * (2 * (W y * rηX α y * ((1 + W y * rη1 α y) + (1 + W y * rη α y))) +
      (1 + W y * rη α y) * (1 + W y * rη α y) * ((1 + W y * rη α y) * (1 + W y * rη α y)) *
        (sinc2 (T α y) * (1 + (1 - T α y ^ 2 * sinc2 (T α y))))) +
    (2 * ((1 - T α y ^ 2 * sinc2 (T α y)) * (1 - T α y ^ 2 * sinc2 (T α y)) * ((1 + W y * rη α y) * (1 + W y * rη α y)) *
        (1 + W y * rη1 α y) * (W y * rη3 α y)) -
      3 * ((1 - T α y ^ 2 * sinc2 (T α y)) * (1 - T α y ^ 2 * sinc2 (T α y)) * ((1 + W y * rη α y) * (1 + W y * rη α y)) * α ^ 2 *
        (W y * rη2 α y * (W y * rη2 α y))))| ≤ 24 / 10 ^ 16 := by
  have hkt := h.mm (h.mm h.msz h.msz) (h.mm h.mτ h.mτ)
  have ht1 := h.mm h.mτ1 h.mτ1
  have hk2 := h.mm h.ms2z (mem_one.add h.msz)
  have ht2 := h.mm h.mτ h.mτ
  have hb := ((h.mm (h.mm h.mW h.mηX) (h.mτ1.add h.mτ)).imul 2).add (h.mm (h.mm ht2 ht2) hk2)
  have key := (((h.mm (h.mm hkt ht1) (h.mm h.mη1 (mem_one.add h.mτ1))).imul 4).add (h.mm ht1 hb)).add
    (((h.mm (h.mm hkt h.mτ1) (h.mm h.mW h.mη3)).imul 2).sub ((h.mm (h.mm hkt h.mX) (h.mm (h.mm h.mW h.mη2) (h.mm h.mW h.mη2))).imul 3))
  have h1 := h.bd key
  have h2 : (num.bound : ℝ) ≤ 240000000000000000 := by exact_mod_cast num_ok
  have h3 := h1.trans h2
  rw [show (M : ℝ) = 100000000000000000000000000000000 by norm_num [M]] at h3
  push_cast at h3
  rw [le_div_iff₀ (by norm_num)]
  norm_num at h3 ⊢
  linarith

theorem sin_T : Real.sin (T α y) = T α y * (1 - T α y ^ 2 * sinc2 (T α y)) := sin_eq h.T_pos.ne'

theorem sinc_T_ge : 1 / 1.7 ≤ 1 - T α y ^ 2 * sinc2 (T α y) := by
  obtain ⟨h1, h2⟩ := Asymptotic.sin_lower h.T_pos (h.T_le.trans (by norm_num))
  have h3 := h.T_pos
  rw [div_le_iff₀ h1, h.sin_T] at h2
  rw [div_le_iff₀ (by norm_num)]
  have : T α y * 1 ≤ T α y * ((1 - T α y ^ 2 * sinc2 (T α y)) * 1.7) := by linarith
  exact le_of_mul_le_mul_left this h3

/-- the transformed Legendre equation is Bessel's equation up to `2e-15` -/
theorem residual : |Ode.liouQ (fun θ => 1 / W y + 1 / (4 * Real.sin θ ^ 2)) (fun a => T a y) (fun a => T1 a y) (fun a => T2 a y) (fun a => T3 a y) α -
    (1 / W y + 1 / (4 * α ^ 2))| ≤ 2 / 10 ^ 15 := by
  have hn := h.num_bound
  have hs := h.sinc_T_ge
  have hτ1 := h.T1_pos
  have hτ : 0.9999 ≤ 1 + W y * rη α y := by have := (abs_le.1 h.τ_close).1; linarith
  have hW := h.W0
  have hα := h.pos
  have e1 : T1 α y = (1 + W y * rη α y) + 2 * α ^ 2 * (W y * rηX α y) := by
    simp only [T1, rη1, rη, rηX, H1, ev2_map_odd1, HX, xx]; ring
  obtain ⟨N, hN⟩ : ∃ N, N = 4 * (((1 - T α y ^ 2 * sinc2 (T α y)) * (1 - T α y ^ 2 * sinc2 (T α y)) * ((1 + W y * rη α y) * (1 + W y * rη α y))) *
      ((1 + W y * rη1 α y) * (1 + W y * rη1 α y)) * (rη1 α y * (1 + (1 + W y * rη1 α y)))) +
    (1 + W y * rη1 α y) * (1 + W y * rη1 α y) * (2 * (W y * rηX α y * ((1 + W y * rη1 α y) + (1 + W y * rη α y))) +
      (1 + W y * rη α y) * (1 + W y * rη α y) * ((1 + W y * rη α y) * (1 + W y * rη α y)) *
        (sinc2 (T α y) * (1 + (1 - T α y ^ 2 * sinc2 (T α y))))) +
    (2 * ((1 - T α y ^ 2 * sinc2 (T α y)) * (1 - T α y ^ 2 * sinc2 (T α y)) * ((1 + W y * rη α y) * (1 + W y * rη α y)) *
        (1 + W y * rη1 α y) * (W y * rη3 α y)) -
      3 * ((1 - T α y ^ 2 * sinc2 (T α y)) * (1 - T α y ^ 2 * sinc2 (T α y)) * ((1 + W y * rη α y) * (1 + W y * rη α y)) * α ^ 2 *
        (W y * rη2 α y * (W y * rη2 α y)))) := ⟨_, rfl⟩
  rw [← hN] at hn
  have key : Ode.liouQ (fun θ => 1 / W y + 1 / (4 * Real.sin θ ^ 2)) (fun a => T a y) (fun a => T1 a y) (fun a => T2 a y) (fun a => T3 a y) α -
      (1 / W y + 1 / (4 * α ^ 2)) = N / (4 * ((1 - T α y ^ 2 * sinc2 (T α y)) ^ 2 * (1 + W y * rη α y) ^ 2 * T1 α y ^ 2)) := by
    simp only [Ode.liouQ, h.sin_T]
    have eT : T α y = α * (1 + W y * rη α y) := rfl
    have e2 : T2 α y = α * (W y * rη2 α y) := rfl
    have e3 : T3 α y = W y * rη3 α y := rfl
    have e4 : 1 + W y * rη1 α y = T1 α y := rfl
    have e5 : W y * rη1 α y = T1 α y - 1 := by rw [← e4]; ring
    have e6 : rη1 α y = (T1 α y - 1) / W y := by rw [← e5]; field_simp
    rw [hN, e4, e6, e2, e3]
    generalize W y * rηX α y = p at *
    generalize W y * rη2 α y = q at *
    generalize W y * rη3 α y = r at *
    have hs0 : 0 < 1 - T α y ^ 2 * sinc2 (T α y) := by linarith [show (0 : ℝ) < 1 / 1.7 by norm_num]
    have hS : ∃ S, S = sinc2 (T α y) := ⟨_, rfl⟩
    obtain ⟨S, hS⟩ := hS
    rw [← hS] at hs0 ⊢
    rw [eT] at hs0 ⊢
    have hτ0 : 0 < 1 + W y * rη α y := by linarith
    generalize 1 + W y * rη α y = τ at *
    have hV : ∃ V, V = 1 - (α * τ) ^ 2 * S := ⟨_, rfl⟩
    obtain ⟨V, hV⟩ := hV
    rw [← hV] at hs0 ⊢
    have hT1 : 0 < T1 α y := by linarith
    generalize T1 α y = t at *
    generalize W y = w at *
    field_simp
    rw [e1, hV]
    ring
  rw [key, abs_div]
  have hden : 1.38 ≤ 4 * ((1 - T α y ^ 2 * sinc2 (T α y)) ^ 2 * (1 + W y * rη α y) ^ 2 * T1 α y ^ 2) := by
    have a1 : (1 / 1.7 : ℝ) ^ 2 ≤ (1 - T α y ^ 2 * sinc2 (T α y)) ^ 2 := by gcongr
    have a2 : (0.9999 : ℝ) ^ 2 ≤ (1 + W y * rη α y) ^ 2 := by gcongr
    have a3 : (0.9999 : ℝ) ^ 2 ≤ T1 α y ^ 2 := by gcongr
    calc (1.38 : ℝ) ≤ 4 * ((1 / 1.7) ^ 2 * 0.9999 ^ 2 * 0.9999 ^ 2) := by norm_num
      _ ≤ _ := by gcongr
  have hp : (0 : ℝ) < 4 * ((1 - T α y ^ 2 * sinc2 (T α y)) ^ 2 * (1 + W y * rη α y) ^ 2 * T1 α y ^ 2) :=
    lt_of_lt_of_le (by norm_num) hden
  rw [abs_of_pos hp, div_le_iff₀ hp]
  refine hn.trans ?_
  refine le_trans (by norm_num) (mul_le_mul_of_nonneg_left hden (by norm_num : (0 : ℝ) ≤ 2 / 10 ^ 15))

end Box

end GaussQuad.Phase
