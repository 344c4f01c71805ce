import Verif.Proofs.Phase

/-!
# The code's angle and weight against the phase function

`compute_pair` evaluates `θ = α (1 + W/σ · S)` and a weight with `α = w ν`, `σ = sin α / α`.  Here the two are compared with
`T α` and with `sin (T α) T' α / sin α`.
-/

namespace GaussQuad.TaylorModel
open ListPoly

/-! ## sharper bounds by recentring -/

/-- `b ^ length · p ((a + t) / b)` -/
def shift (a b : ℤ) : List ℤ → List ℤ
  | [] => []
  | c :: p => add [c * b ^ (p.length + 1)] (add (smul a (shift a b p)) (0 :: shift a b p))

theorem ev_shift (a : ℤ) {b : ℤ} (hb : b ≠ 0) (t : ℝ) (p : List ℤ) : ev t (shift a b p) = (b : ℝ) ^ p.length * ev ((a + t) / b) p := by
  have hb' : (b : ℝ) ≠ 0 := by exact_mod_cast hb
  induction p with
  | nil => simp [shift]
  | cons c p ih =>
    rw [shift, ev_add, ev_add, ev_smul, ev_cons, ev_cons, ev_cons, ih]
    push_cast [List.length_cons, ev_nil]
    field_simp
    ring

theorem ev_abs_le' {x : ℝ} (hx : |x| ≤ 1) (p : List ℤ) : |ev x p| ≤ norm1 p := by
  induction p with
  | nil => simp [norm1]
  | cons c p ih =>
    rw [ev_cons, norm1]
    push_cast
    refine (abs_add_le _ _).trans (add_le_add (le_of_eq ?_) ?_)
    · rw [Nat.cast_natAbs, Int.cast_abs]
    · rw [abs_mul]
      nlinarith [abs_nonneg (ev x p), abs_nonneg x]

/-- largest recentred norm over the pieces `0 … i - 1` of `k` -/
def pieces (k : ℕ) (r : List ℤ) : ℕ → ℕ
  | 0 => 0
  | i + 1 => max (norm1 (shift (2 * i + 1) (2 * k) r)) (pieces k r i)

def rowB (k : ℕ) (r : List ℤ) : ℕ := pieces k r k / (2 * k) ^ r.length + 1

theorem le_pieces (k : ℕ) (r : List ℤ) : ∀ m i : ℕ, i < m → norm1 (shift (2 * i + 1) (2 * k) r) ≤ pieces k r m
  | 0, i, h => by omega
  | m + 1, i, h => by
    rw [pieces]
    rcases Nat.lt_succ_iff_lt_or_eq.1 h with h | rfl
    · exact (le_pieces k r m i h).trans (le_max_right _ _)
    · exact le_max_left _ _

theorem ev_abs_le_rowB {x : ℝ} (hx : 0 ≤ x) (hx1 : x ≤ 1) {k : ℕ} (hk : 0 < k) (r : List ℤ) : |ev x r| ≤ rowB k r := by
  have hk' : (0 : ℝ) < k := by exact_mod_cast hk
  obtain ⟨i, hi, t, ht, e⟩ : ∃ i < k, ∃ t : ℝ, |t| ≤ 1 ∧ ((2 * i + 1 : ℤ) + t) / (2 * k : ℤ) = x := by
    rcases hx1.lt_or_eq with hlt | rfl
    · refine ⟨⌊x * k⌋₊, ?_, 2 * k * x - (2 * ⌊x * k⌋₊ + 1), ?_, ?_⟩
      · rw [Nat.floor_lt (by positivity)]; nlinarith
      · have h1 := Nat.floor_le (show 0 ≤ x * k by positivity)
        have h2 := Nat.lt_floor_add_one (x * k)
        rw [abs_le]; constructor <;> linarith
      · push_cast; field_simp; ring
    · refine ⟨k - 1, by omega, 1, by simp, ?_⟩
      push_cast [Nat.cast_sub (show 1 ≤ k by omega)]
      field_simp; ring
  have h1 := ev_shift (2 * i + 1) (b := 2 * k) (by positivity) t r
  rw [e] at h1
  have h2 := ev_abs_le' ht (shift (2 * i + 1) (2 * k) r)
  have h3 : (norm1 (shift (2 * i + 1) (2 * k) r) : ℝ) ≤ pieces k r k := by exact_mod_cast le_pieces k r k i hi
  have hp : (0 : ℝ) < ((2 * k : ℕ) : ℝ) ^ r.length := by positivity
  rw [h1, abs_mul, show (((2 * k : ℤ) : ℝ)) = ((2 * k : ℕ) : ℝ) by push_cast; ring, abs_of_pos hp] at h2
  rw [rowB]
  push_cast
  have h4 : (pieces k r k : ℝ) < ((pieces k r k / (2 * k) ^ r.length : ℕ) + 1 : ℝ) * ((2 * k : ℕ) : ℝ) ^ r.length := by
    have := Nat.lt_div_mul_add (a := pieces k r k) (b := (2 * k) ^ r.length) (by positivity)
    have : pieces k r k < (pieces k r k / (2 * k) ^ r.length + 1) * (2 * k) ^ r.length := by rw [add_mul, one_mul]; exact this
    exact_mod_cast this
  have h5 : ((2 * k : ℕ) : ℝ) ^ r.length * |ev x r| ≤ ((2 * k : ℕ) : ℝ) ^ r.length * ((pieces k r k / (2 * k) ^ r.length : ℕ) + 1 : ℝ) := by
    linarith
  exact le_of_mul_le_mul_left h5 hp

def polyB (k : ℕ) : List (List ℤ) → ℕ
  | [] => 0
  | r :: p => rowB k r + polyB k p

theorem ev2_abs_le_polyB {x y : ℝ} (hx : 0 ≤ x) (hx1 : x ≤ 1) (hy : 0 ≤ y) (hy1 : y ≤ 1) {k : ℕ} (hk : 0 < k) (p : List (List ℤ)) :
    |ev2 x y p| ≤ polyB k p := by
  induction p with
  | nil => simp [polyB, ev2]
  | cons c p ih =>
    rw [ev2, polyB]
    push_cast
    refine (abs_add_le _ _).trans (add_le_add (ev_abs_le_rowB hx hx1 hk c) ?_)
    rw [abs_mul, abs_of_nonneg hy]
    nlinarith [abs_nonneg (ev2 x y p)]

def TM.boundK (k : ℕ) (t : TM) : ℕ := polyB k t.p + t.e

theorem Mem.boundK {M : ℕ} {x y f : ℝ} {s : TM} (hx : 0 ≤ x) (hx1 : x ≤ 1) (hy : 0 ≤ y) (hy1 : y ≤ 1) {k : ℕ} (hk : 0 < k)
    (hf : Mem M x y f s) : |f| * M ≤ s.boundK k := by
  have h1 := ev2_abs_le_polyB hx hx1 hy hy1 hk s.p
  rw [TM.boundK]
  push_cast
  calc |f| * M = |f * M| := by rw [abs_mul, Nat.abs_cast]
    _ = |ev2 x y s.p + (f * M - ev2 x y s.p)| := by ring_nf
    _ ≤ _ := (abs_add_le _ _).trans (add_le_add h1 hf)

end GaussQuad.TaylorModel

namespace GaussQuad.Phase
open ListPoly TaylorModel Sinc Bogaert

/-- the coefficients of `sf1t` times `10^32` -/
def SF1 : List ℤ := [-4166666666666630000000000000000, 416666666665193400000000000000, -14880952371390914000000000000, 275573168962061240000000000, -3131486546359920400000000, 24072468586433013000000, -129052996274280510000]
/-- the coefficients of `sf2t` times `10^32` -/
def SF2 : List ℤ := [815972221772932200000000000000, -209022248387852900000000000000, 28211688605756045000000000000, -2533003260082320000000000000, 161969259453836270000000000, -7530367713737693000000000, 220639421781871000000000]
/-- the coefficients of `sf3t` times `10^32` -/
def SF3 : List ℤ := [-416012165620204300000000000000, 128654198542845130000000000000, -25139529328396590000000000000, 4184981003295046000000000000, -567797841356833100000000000, 55584533022379620000000000, -2970582253755262300000000]
/-- the coefficients of `wsf1t` times `10^32` -/
def WF1 : List ℤ := [8333333333333333000000000000000, -3055555555555530000000000000000, 436507936507598100000000000000, -32627865959441220000000000000, 1496445936250286400000000000, -46396864755322130000000000, 1037560669279168000000000, -17525770073542380000000, 230365726860377380000, -2209028610446166400]
/-- the coefficients of `wsf2t` times `10^32` -/
def WF2 : List ℤ := [-1111111111112149200000000000000, 268959435694729700000000000000, -40729718561133575000000000000, 4659695306949684000000000000, -381817918680045400000000000, 21148388068594716000000000, -712912857233642200000000, 7676435450698932000000, 363117412152654800000]
/-- the coefficients of `wsf3t` times `10^32` -/
def WF3 : List ℤ := [656966489926484800000000000000, -9479693089585773000000000000, -10564605025407614000000000000, -4228880592829212000000000000, 2005593263964583400000000000, -397933316519135250000000000, 50889834728867160000000000, -4386471225202067000000000, 201826791256703300000000]

theorem sf1t_eq (x : ℝ) : sf1t x = ev x SF1 / M := by
  simp only [sf1t, real_add, real_sub, real_mul, real_lit, SF1, ev_cons, ev_nil, M]
  push_cast
  ring

theorem sf2t_eq (x : ℝ) : sf2t x = ev x SF2 / M := by
  simp only [sf2t, real_add, real_sub, real_mul, real_lit, SF2, ev_cons, ev_nil, M]
  push_cast
  ring

theorem sf3t_eq (x : ℝ) : sf3t x = ev x SF3 / M := by
  simp only [sf3t, real_add, real_sub, real_mul, real_lit, SF3, ev_cons, ev_nil, M]
  push_cast
  ring

theorem wsf1t_eq (x : ℝ) : wsf1t x = ev x WF1 / M := by
  simp only [wsf1t, real_add, real_sub, real_mul, real_lit, WF1, ev_cons, ev_nil, M]
  push_cast
  ring

theorem wsf2t_eq (x : ℝ) : wsf2t x = ev x WF2 / M := by
  simp only [wsf2t, real_add, real_sub, real_mul, real_lit, WF2, ev_cons, ev_nil, M]
  push_cast
  ring

theorem wsf3t_eq (x : ℝ) : wsf3t x = ev x WF3 / M := by
  simp only [wsf3t, real_add, real_sub, real_mul, real_lit, WF3, ev_cons, ev_nil, M]
  push_cast
  ring

def sX2 : TM := ⟨(hor tX S2).p, (hor tX S2).e + 1000000000⟩
def sX : TM := one.sub (mul tX sX2)
def p2 : TM := mul sX sX
def p4 : TM := mul p2 p2
def nodeTM : TM := (mul (mul p4 sX) eta).sub ((mul p4 (hor tX SF1)).add (mul tW ((mul p2 (hor tX SF2)).add (mul tW (hor tX SF3)))))
def p6 : TM := mul p4 p2
def weightTM : TM := (mul (mul (mul tau sz) tau1)
  (p6.add (mul tW ((mul p4 (hor tX WF1)).add (mul tW ((mul p2 (hor tX WF2)).add (mul tW (hor tX WF3)))))))).sub (mul p6 sX)

set_option maxRecDepth 100000 in
theorem node_ok : nodeTM.boundK 4 ≤ 1400000000000000000 := by decide +kernel
set_option maxRecDepth 100000 in
theorem weight_ok : weightTM.boundK 1 ≤ 250000000000000 := by decide +kernel

variable {α y : ℝ}

namespace Box
variable (h : Box α y)
include h

theorem bdK {f : ℝ} {s : TM} {k : ℕ} (hk : 0 < k) (hf : Mem M (xx α) y f s) : |f| * M ≤ s.boundK k :=
  hf.boundK h.x0 h.x1 h.y0.le h.y1 hk

/-- `σ = sin α / α` -/
theorem msX : Mem M (xx α) y (1 - α ^ 2 * sinc2 α) sX :=
  mem_one.sub (h.mm h.mX ((h.horner h.mX S2).widen (sinc2_approx h.pos (h.α_le.trans (by norm_num)))))

theorem sin_α : Real.sin α = α * (1 - α ^ 2 * sinc2 α) := sin_eq h.pos.ne'

theorem sinc_ge : 1 / 1.7 ≤ 1 - α ^ 2 * sinc2 α := by
  obtain ⟨h1, h2⟩ := Asymptotic.sin_lower h.pos (h.α_le.trans (by norm_num))
  have h3 := h.pos
  rw [div_le_iff₀ h1, h.sin_α] at h2
  rw [div_le_iff₀ (by norm_num)]
  have : α * 1 ≤ α * ((1 - α ^ 2 * sinc2 α) * 1.7) := by linarith
  exact le_of_mul_le_mul_left this h3

/-- the angle formula of the code agrees with the phase function -/
theorem node_close : |α * (1 + W y * (α / Real.sin α) * (sf1t (α * α) + W y * (α / Real.sin α) ^ 2 *
    (sf2t (α * α) + W y * (α / Real.sin α) ^ 2 * sf3t (α * α)))) - T α y| ≤ 31 / 10 ^ 18 := by
  have hs := h.sinc_ge
  have hp2 := h.mm h.msX h.msX
  have hp4 := h.mm hp2 hp2
  have key := (h.mm (h.mm hp4 h.msX) h.mη).sub ((h.mm hp4 (h.horner h.mX SF1)).add (h.mm h.mW ((h.mm hp2 (h.horner h.mX SF2)).add
    (h.mm h.mW (h.horner h.mX SF3)))))
  have h1 := h.bdK (k := 4) (by norm_num) key
  have h2 : (nodeTM.boundK 4 : ℝ) ≤ 1400000000000000000 := by exact_mod_cast node_ok
  have h3 := h1.trans h2
  rw [← sf1t_eq, ← sf2t_eq, ← sf3t_eq] at h3
  rw [h.sin_α, ← pow_two α]
  have hα := h.pos
  have hα1 := h.α_le
  have hW := h.W0
  have hW1 : W y ≤ 0.000098 := by rw [W]; linarith [h.y1]
  have hσ0 : 0 < 1 - α ^ 2 * sinc2 α := lt_of_lt_of_le (by norm_num) hs
  generalize 1 - α ^ 2 * sinc2 α = σ at *
  rw [T]
  generalize sf1t (α ^ 2) = f1 at *
  generalize sf2t (α ^ 2) = f2 at *
  generalize sf3t (α ^ 2) = f3 at *
  generalize rη α y = η at *
  generalize W y = w at *
  set E := σ * σ * (σ * σ) * σ * η - (σ * σ * (σ * σ) * f1 + w * (σ * σ * f2 + w * f3)) with hE
  have e : α * (1 + w * (α / (α * σ)) * (f1 + w * (α / (α * σ)) ^ 2 * (f2 + w * (α / (α * σ)) ^ 2 * f3))) - α * (1 + w * η) =
      -(α * w * E * (1 / σ) ^ 5) := by
    rw [hE]; field_simp; ring
  have hi : 1 / σ ≤ 1.7 := by
    rw [div_le_iff₀ hσ0]
    rw [div_le_iff₀ (by norm_num)] at hs
    linarith
  have hi0 : 0 < 1 / σ := by positivity
  rw [show (M : ℝ) = 100000000000000000000000000000000 by norm_num [M]] at h3
  have hE' : |E| ≤ 14 / 10 ^ 15 := by rw [le_div_iff₀ (by norm_num)]; norm_num; linarith
  rw [e, abs_neg, abs_mul, abs_mul, abs_mul, abs_of_pos hα, abs_of_pos hW, abs_of_pos (pow_pos hi0 5)]
  calc α * w * |E| * (1 / σ) ^ 5 ≤ 1.5812 * 0.000098 * (14 / 10 ^ 15) * 1.7 ^ 5 := by gcongr
    _ ≤ 31 / 10 ^ 18 := by norm_num

/-- the weight formula of the code agrees with the phase function -/
theorem weight_close : |Real.sin (T α y) * T1 α y / Real.sin α * (1 + W y * (α / Real.sin α) ^ 2 * (wsf1t (α * α) + W y * (α / Real.sin α) ^ 2 *
    (wsf2t (α * α) + W y * (α / Real.sin α) ^ 2 * wsf3t (α * α)))) - 1| ≤ 11 / 10 ^ 17 := by
  have hs := h.sinc_ge
  have hp2 := h.mm h.msX h.msX
  have hp4 := h.mm hp2 hp2
  have hp6 := h.mm hp4 hp2
  have key := (h.mm (h.mm (h.mm h.mτ h.msz) h.mτ1) (hp6.add (h.mm h.mW ((h.mm hp4 (h.horner h.mX WF1)).add (h.mm h.mW
    ((h.mm hp2 (h.horner h.mX WF2)).add (h.mm h.mW (h.horner h.mX WF3)))))))).sub (h.mm hp6 h.msX)
  have h1 := h.bdK (k := 1) (by norm_num) key
  have h2 : (weightTM.boundK 1 : ℝ) ≤ 250000000000000 := by exact_mod_cast weight_ok
  have h3 := h1.trans h2
  rw [← wsf1t_eq, ← wsf2t_eq, ← wsf3t_eq] at h3
  rw [h.sin_α, h.sin_T, ← pow_two α]
  have hα := h.pos
  have e4 : 1 + W y * rη1 α y = T1 α y := rfl
  have e5 : T α y = α * (1 + W y * rη α y) := rfl
  rw [e4] at h3
  have hσ0 : 0 < 1 - α ^ 2 * sinc2 α := lt_of_lt_of_le (by norm_num) hs
  generalize 1 - α ^ 2 * sinc2 α = σ at *
  generalize 1 - T α y ^ 2 * sinc2 (T α y) = κ at *
  rw [e5]
  generalize wsf1t (α ^ 2) = f1 at *
  generalize wsf2t (α ^ 2) = f2 at *
  generalize wsf3t (α ^ 2) = f3 at *
  generalize 1 + W y * rη α y = τ at *
  generalize T1 α y = t at *
  generalize W y = w at *
  set E := τ * κ * t * (σ * σ * (σ * σ) * (σ * σ) + w * (σ * σ * (σ * σ) * f1 + w * (σ * σ * f2 + w * f3))) - σ * σ * (σ * σ) * (σ * σ) * σ with hE
  have e : α * τ * κ * t / (α * σ) * (1 + w * (α / (α * σ)) ^ 2 * (f1 + w * (α / (α * σ)) ^ 2 * (f2 + w * (α / (α * σ)) ^ 2 * f3))) - 1 =
      E * (1 / σ) ^ 7 := by
    rw [hE]; field_simp
  have hi : 1 / σ ≤ 1.7 := by
    rw [div_le_iff₀ hσ0]
    rw [div_le_iff₀ (by norm_num)] at hs
    linarith
  have hi0 : 0 < 1 / σ := by positivity
  rw [show (M : ℝ) = 100000000000000000000000000000000 by norm_num [M]] at h3
  have hE' : |E| ≤ 25 / 10 ^ 19 := by rw [le_div_iff₀ (by norm_num)]; norm_num; linarith
  rw [e, abs_mul, abs_of_pos (pow_pos hi0 7)]
  calc |E| * (1 / σ) ^ 7 ≤ (25 / 10 ^ 19) * 1.7 ^ 7 := by gcongr
    _ ≤ 11 / 10 ^ 17 := by norm_num

end Box

end GaussQuad.Phase
