import Verif.Proofs.F64GolubRules
import Verif.Proofs.GammaPerturb
import Verif.Props.GammaF64

/-! The Laguerre rule in binary64. -/

set_option exponentiation.threshold 3000

namespace GaussQuad.F64
open FloatOps Spec MeasureTheory Polynomial Props

/-- a binary64 number above `-1` is at least `-1 + 2^-55` -/
theorem param_gap {a : F64} (ha : a.isFinite = true) (h : (-1 : ℚ) < a.val) : (-1 + 1 / 2 ^ 55 : ℝ) ≤ a.rv := by
  have hd : (round (-1 + 1 / 2 ^ 55) false).isFinite = true ∧ (round (-1 + 1 / 2 ^ 55) false).val = -1 := by decide +kernel
  have h1 : (-1 + 1 / 2 ^ 55 : ℚ) ≤ a.val := by
    by_contra hc
    have := le_round hd.1 ha (not_le.1 hc).le
    rw [hd.2] at this
    exact absurd h (not_lt.2 this)
  have : ((-1 + 1 / 2 ^ 55 : ℚ) : ℝ) ≤ (a.val : ℝ) := by exact_mod_cast h1
  change _ ≤ (a.val : ℝ)
  push_cast at this
  exact this

section
variable [L : Libm]

/-- the sum of a positive integer and a parameter is rounded once -/
theorem nat_add_param {x a : F64} {k : ℕ} (hx : IsNat x k) (hk : 1 ≤ k) (hk1 : k ≤ 10 ^ 13) (ha : a.isFinite = true) (h : (-1 : ℚ) < a.val) (ha1 : a.rv ≤ 1000) :
    Rel (F64.add x a) (k + a.rv) 1 := by
  have hg := param_gap ha h
  have hk' : (1 : ℝ) ≤ k := by exact_mod_cast hk
  have hk1' : (k : ℝ) ≤ 10 ^ 13 := by exact_mod_cast hk1
  have hp : (1 : ℝ) / 2 ^ 55 ≤ k + a.rv := by linarith
  have e : ((x.val + a.val : ℚ) : ℝ) = k + a.rv := by
    have := hx.2
    rw [this]; push_cast; rfl
  rw [add_finite hx.1 ha, ← e]
  have h0 : 0 < (k : ℝ) + a.rv := lt_of_lt_of_le (by positivity) hp
  exact round_rel (by rw [e, abs_of_pos h0]; exact le_trans (by linarith : _ ≤ (10 : ℝ) ^ 13 + 1000) (by norm_num))
    (by rw [e, abs_of_pos h0]; exact le_trans (by norm_num) hp)

theorem param_add_nat {x a : F64} {k : ℕ} (hx : IsNat x k) (hk : 1 ≤ k) (hk1 : k ≤ 10 ^ 13) (ha : a.isFinite = true) (h : (-1 : ℚ) < a.val) (ha1 : a.rv ≤ 1000) :
    Rel (F64.add a x) (a.rv + k) 1 := by
  have hg := param_gap ha h
  have hk' : (1 : ℝ) ≤ k := by exact_mod_cast hk
  have hk1' : (k : ℝ) ≤ 10 ^ 13 := by exact_mod_cast hk1
  have hp : (1 : ℝ) / 2 ^ 55 ≤ a.rv + k := by linarith
  have e : ((a.val + x.val : ℚ) : ℝ) = a.rv + k := by
    have := hx.2
    rw [this]; push_cast; rfl
  rw [add_finite ha hx.1, ← e]
  have h0 : 0 < a.rv + (k : ℝ) := lt_of_lt_of_le (by positivity) hp
  exact round_rel (by rw [e, abs_of_pos h0]; exact le_trans (by linarith : _ ≤ (10 : ℝ) ^ 13 + 1000) (by norm_num))
    (by rw [e, abs_of_pos h0]; exact le_trans (by norm_num) hp)

theorem lag_diag {a : F64} (ha : a.isFinite = true) (h : (-1 : ℚ) < a.val) (ha1 : a.rv ≤ 1000) {k : ℕ} (hk : k < 10 ^ 12) :
    Rel (GaussLaguerre.diag a k) (lagA a.rv k) 2.001 := by
  have hg := param_gap ha h
  have h1 := param_add_nat lit_one_isNat le_rfl (by norm_num) ha h ha1
  have h2 : IsNat (F64.mul (lit 2.0 : F64) (ofNat k)) (2 * k) := lit_two_isNat.mul (ofNat_isNat (by omega)) (by omega)
  have hk' : (k : ℝ) < 10 ^ 12 := by exact_mod_cast hk
  have hk0 : (0 : ℝ) ≤ k := by positivity
  have e1 : lagA a.rv k = (a.rv + (1 : ℕ)) + ((2 * k : ℕ) : ℝ) := by unfold lagA; push_cast; ring
  rw [e1]
  refine h1.add_pos (h2.rel.mono (by norm_num)) ?_ (by positivity) ?_ (by norm_num) (by norm_num) (by norm_num)
  · push_cast
    have : (0 : ℝ) < 1 / 2 ^ 55 := by positivity
    linarith
  · push_cast
    exact le_trans (by linarith : _ ≤ (10 : ℝ) ^ 13) (by norm_num)

theorem lagB_arg {α : ℝ} (hα : -1 + 1 / 2 ^ 55 ≤ α) (k : ℕ) : 1 / 2 ^ 55 ≤ (1 + (k : ℝ)) * (1 + k + α) := by
  have hk0 : (0 : ℝ) ≤ k := by positivity
  have h1 : 1 / 2 ^ 55 ≤ 1 + (k : ℝ) + α := by linarith
  have h2 : (0 : ℝ) ≤ 1 / 2 ^ 55 := by positivity
  calc (1 : ℝ) / 2 ^ 55 ≤ 1 + (k : ℝ) + α := h1
    _ = 1 * (1 + k + α) := (one_mul _).symm
    _ ≤ _ := mul_le_mul_of_nonneg_right (by linarith) (h2.trans h1)

theorem lag_offDiag (hs : AccurateSqrt L) {a : F64} (ha : a.isFinite = true) (h : (-1 : ℚ) < a.val) (ha1 : a.rv ≤ 1000) {k : ℕ} (hk : k < 10 ^ 12) :
    Rel (GaussLaguerre.offDiag a k) (lagB a.rv k) 3.1 := by
  have hg := param_gap ha h
  have h1 : IsNat (F64.add (lit 1.0 : F64) (ofNat k)) (1 + k) := lit_one_isNat.add (ofNat_isNat (by omega)) (by omega)
  have h2 := nat_add_param h1 (by omega) (by omega) ha h ha1
  have hk' : (k : ℝ) < 10 ^ 12 := by exact_mod_cast hk
  have hk0 : (0 : ℝ) ≤ k := by positivity
  have e : ((1 + k : ℕ) : ℝ) = 1 + k := by push_cast; ring
  have h3 := h1.rel
  rw [e] at h2 h3
  have hp := lagB_arg hg k
  have hp0 : 0 < (1 + (k : ℝ)) * (1 + k + a.rv) := lt_of_lt_of_le (by positivity) hp
  have h4 := h3.mul h2 (d := 2.001) (by rw [abs_of_pos hp0]; exact le_trans (by norm_num) hp)
    (by
      rw [abs_of_pos hp0]
      have hs0 : (0 : ℝ) ≤ 1 + k + a.rv := by
        have : (0 : ℝ) < 1 / 2 ^ 55 := by positivity
        linarith
      exact le_trans (mul_le_mul (by linarith : _ ≤ (10 : ℝ) ^ 13) (by linarith : _ ≤ (10 : ℝ) ^ 13) hs0 (by norm_num)) (by norm_num))
    le_rfl (by norm_num) (by norm_num) (by norm_num) (by norm_num)
  exact (sqrt_rel hs h4 hp0 (by norm_num) (by norm_num)).mono (by norm_num)

/-- the scale factor -/
theorem lag_scale (hL : AccurateTrig L) (hP : AccuratePow L) {a : F64} (ha : a.isFinite = true) (h : (-1 : ℚ) < a.val) (ha1 : a.rv ≤ 168) :
    Near (gamma (a +ᶠ (lit 1.0 : F64))) (Real.Gamma (a.rv + 1)) (1.24e-11 * Real.Gamma (a.rv + 1)) := by
  have hU := U_pos
  have hU1 := U_le_eta
  have hg := param_gap ha h
  have h1 := param_add_nat lit_one_isNat le_rfl (by norm_num) ha h (by linarith)
  rw [Nat.cast_one] at h1
  have h55 : (0 : ℝ) < 1 / 2 ^ 55 := by positivity
  have hx0 : 0 < a.rv + 1 := by linarith
  set x := F64.add a (lit 1.0 : F64)
  have hx := h1.2
  rw [abs_of_pos hx0, one_mul] at hx
  have hUx : U * (a.rv + 1) ≤ 1 / 10 ^ 15 * (a.rv + 1) := mul_le_mul_of_nonneg_right hU1 hx0.le
  have hx' := _root_.abs_le.1 hx
  have h169 : x.rv ≤ 169 := by
    have hd : (round 169 false).isFinite = true ∧ (round 169 false).val = 169 := by decide +kernel
    have hx1 : x = round (a.val + (lit 1.0 : F64).val) (a.sign && (lit 1.0 : F64).sign) := add_finite ha lit_one_isNat.1
    have hle : a.val + (lit 1.0 : F64).val ≤ (round 169 false).val := by
      rw [hd.2, lit_one_isNat.2]
      have : ((a.val : ℚ) : ℝ) ≤ ((168 : ℚ) : ℝ) := by push_cast; exact ha1
      have : a.val ≤ 168 := by exact_mod_cast this
      push_cast
      linarith
    have := round_le (s := a.sign && (lit 1.0 : F64).sign) (by rw [← hx1]; exact h1.1) hd.1 hle
    rw [← hx1, hd.2] at this
    have : ((x.val : ℚ) : ℝ) ≤ ((169 : ℚ) : ℝ) := by exact_mod_cast this
    push_cast at this
    exact this
  have hlo : 1 / 2 ^ 100 ≤ x.rv := by
    have : (1 : ℝ) / 2 ^ 100 ≤ 1 / 2 ^ 55 * (1 - 1 / 10 ^ 15) := by norm_num
    have h3 : 1 / 2 ^ 55 * (1 - 1 / 10 ^ 15) ≤ (a.rv + 1) * (1 - 1 / (10 : ℝ) ^ 15) := mul_le_mul_of_nonneg_right (by linarith) (by norm_num)
    linarith [hx'.1]
  obtain ⟨g1, g2⟩ := C59_gamma hL hP h1.1 hlo h169
  change |(gamma x).rv - Real.Gamma x.rv| ≤ 1.2e-11 * Real.Gamma x.rv at g2
  have hp := gamma_perturb (y := x.rv) hx0 hx (by linarith) (by linarith)
  have hG := Real.Gamma_pos_of_pos hx0
  have hp1 : 2620 * U * Real.Gamma (a.rv + 1) ≤ 3e-13 * Real.Gamma (a.rv + 1) := by
    refine mul_le_mul_of_nonneg_right ?_ hG.le
    unfold U; norm_num
  refine ⟨g1, ?_⟩
  have h4 := abs_sub_le (gamma x).rv (Real.Gamma x.rv) (Real.Gamma (a.rv + 1))
  have h5 := (_root_.abs_le.1 hp).2
  have h6 : (gamma (a +ᶠ (lit 1.0 : F64)) : F64).rv = (gamma x).rv := rfl
  rw [h6]
  linarith

theorem lagB_le {α : ℝ} (hα : -1 < α) {n : ℕ} (k : ℕ) (hk : k + 1 < n) : |lagB α k| ≤ n + |α| / 2 := by
  have hk' : (1 + k : ℝ) ≤ n := by
    have : ((1 + k : ℕ) : ℝ) ≤ n := by exact_mod_cast (by omega : 1 + k ≤ n)
    push_cast at this; exact this
  have hk0 : (0 : ℝ) ≤ k := by positivity
  have ha0 := abs_nonneg α
  have ha1 := le_abs_self α
  unfold lagB
  rw [abs_of_nonneg (Real.sqrt_nonneg _)]
  refine Real.sqrt_le_iff.2 ⟨by positivity, ?_⟩
  calc (1 + (k : ℝ)) * (1 + k + α) ≤ n * (n + |α|) := mul_le_mul hk' (by linarith) (by linarith) (by positivity)
    _ ≤ _ := by nlinarith [sq_nonneg |α|]

theorem lagA_le {α : ℝ} (hα : -1 < α) {n : ℕ} (k : ℕ) (hk : k < n) : |lagA α k| ≤ 2 * n + |α| := by
  have hk' : (k + 1 : ℝ) ≤ n := by exact_mod_cast hk
  have hk0 : (0 : ℝ) ≤ k := by positivity
  have ha1 := le_abs_self α
  unfold lagA
  rw [abs_of_nonneg (by linarith)]
  linarith

/-- the nodes lie in `(0, 4n + 2|α|]` -/
theorem lag_nodes {α : ℝ} (hα : -1 < α) {n : ℕ} (hn : 0 < n) {G : List (ℝ × ℝ)} (hG : G.length = n) (hex : ExactUpTo G (2 * n - 1) (Set.Ioi 0) (lagW α) 1) :
    ∀ q ∈ G, 0 < q.1 ∧ q.1 ≤ 4 * n + 2 * |α| := by
  have hΓ := Real.Gamma_pos_of_pos (by linarith : 0 < α + 1)
  obtain ⟨E, hE, hGE⟩ := gauss_decomposition hn (lagA α) (lagB α) (integrable_laguerre hα) (posDef_laguerre hα) (laguerre_mass hα) hΓ (laguerre_orthogonal hα) hG hex
  intro q hq
  refine ⟨gauss_nodes_gt one_pos (by rw [hG]; exact hex) (posDef_laguerre hα) (fun x hx => (show (0 : ℝ) < x from hx).le) q hq, ?_⟩
  rw [hGE.mem_iff, List.mem_ofFn] at hq
  obtain ⟨j, rfl⟩ := hq
  have h := eig_le hE (jacobiMatrix_row (fun k hk => lagA_le hα k hk) (fun k hk => lagB_le hα k hk) (by positivity)) j
  have h2 := (le_abs_self _).trans h
  refine h2.trans (le_of_eq (by ring))

theorem lag_mass_le {α : ℝ} (hg : -1 + 1 / 2 ^ 55 ≤ α) (h2 : α ≤ 168) : Real.Gamma (α + 1) ≤ 2 ^ 1015 := by
  rcases le_total 0 α with h | h
  · refine (Gamma_le_factorial (δ := 1) (k := 168) (by linarith) one_pos le_rfl (by norm_num) (by push_cast; linarith)).trans ?_
    rw [div_one]
    have : Nat.factorial 168 ≤ 2 ^ 1015 := by decide +kernel
    exact_mod_cast this
  · refine (Gamma_le_factorial (δ := 1 / 2 ^ 55) (k := 1) (by linarith) (by positivity) (by norm_num) le_rfl (by push_cast; linarith)).trans ?_
    norm_num

/-- the Laguerre rule -/
theorem laguerre_close (hL : AccurateTrig L) (hP : AccuratePow L) (hs : AccurateSqrt L) {ext : Externals F64} {n : ℕ} (hn : 0 < n) (hn1 : n ≤ 10 ^ 12) {ε : ℝ}
    (hst : StableSolver ext n ε) (hε : 0 ≤ ε) (hε1 : ε ≤ 0.01) {al : FiniteAboveNegOne F64} (ha : al.val.isFinite = true) (h1 : (-1 : ℚ) < al.val.val)
    (h2 : al.val.rv ≤ 168) {G : List (ℝ × ℝ)} (hG : G.length = n) (hGs : G.Pairwise fun p q => p.1 ≤ q.1)
    (hex : ExactUpTo G (2 * n - 1) (Set.Ioi 0) (lagW al.val.rv) 1) :
    ∃ r, GaussLaguerre.new ext n al = some r ∧ r.alpha = al ∧
      CloseRule r.nodeWeightPairs G (Real.Gamma (al.val.rv + 1)) (1.74 * Real.sqrt n * (2 * n + |al.val.rv|) * (ε + 4 * U)) (2.01 * ε + 1.3e-11) := by
  have hU := U_pos
  have hU1 := U_le_eta
  have hn0 : (0 : ℝ) < n := by exact_mod_cast hn
  have hn1' : (n : ℝ) ≤ 10 ^ 12 := by exact_mod_cast hn1
  have hg := param_gap ha h1
  have h55 : (0 : ℝ) < 1 / 2 ^ 55 := by positivity
  set α := al.val.rv with hαdef
  have hα : -1 < α := by linarith
  have hα2 : |α| ≤ 168 := _root_.abs_le.2 ⟨by linarith, h2⟩
  have hα0 := abs_nonneg α
  have hΓ := Real.Gamma_pos_of_pos (by linarith : 0 < α + 1)
  obtain ⟨E, hE, hGE⟩ := gauss_decomposition hn (lagA α) (lagB α) (integrable_laguerre hα) (posDef_laguerre hα) (laguerre_mass hα) hΓ (laguerre_orthogonal hα) hG hex
  have hm := lag_scale hL hP ha h1 h2
  have hκb : ∀ k, k + 1 < n → |lagB α k| ≤ 2 * n + |α| := fun k hk => (lagB_le hα k hk).trans (by linarith)
  have hκ : (2 * n + |α| : ℝ) ≤ 2 ^ 390 := le_trans (by linarith : _ ≤ (10 : ℝ) ^ 13) (by norm_num)
  have hdR : ∀ k, k < n → Rel (GaussLaguerre.diag al.val k) (lagA α k) 2.001 := fun k hk => lag_diag ha h1 (by linarith) (by omega)
  have hoR : ∀ k, k + 1 < n → Rel (GaussLaguerre.offDiag al.val k) (lagB α k) 3.1 := fun k hk => lag_offDiag hs ha h1 (by linarith) (by omega)
  have hmlo : (1 : ℝ) / 2 ^ 200 ≤ Real.Gamma (α + 1) := le_trans (by norm_num) (half_le_Gamma (by linarith : 0 < α + 1))
  have hmhi := lag_mass_le hg h2
  obtain ⟨R, hR, hC⟩ := golub_close (κ := 2 * n + |α|) (θ := 3.1 * U) (ah := GaussLaguerre.diag al.val) (bh := GaussLaguerre.offDiag al.val) hn hn1 hst hε hε1
    (a := lagA α) (b := lagB α)
    (fun k hk => (hdR k hk).near.mono (by
      have := lagA_le hα k hk
      have h0 := abs_nonneg (lagA α k)
      exact mul_le_mul (by linarith) this h0 (by positivity)))
    (fun k hk => (hoR k hk).near.mono (mul_le_mul_of_nonneg_left (hκb k hk) (by positivity)))
    (by
      have h0 : (0 : ℝ) ≤ 2 * n + |α| := by positivity
      have h3 : 3.1 * U * (2 * n + |α|) ≤ 1 * (2 * n + |α|) := mul_le_mul_of_nonneg_right (by linarith) h0
      linarith [show (2 : ℝ) * 2 ^ 390 ≤ 2 ^ 400 by norm_num])
    (Or.inr (Or.inl ⟨0, hn, (hdR 0 hn).lower (by norm_num) (by norm_num) (by
      have : 1 / 2 ^ 55 ≤ lagA α 0 := by unfold lagA; push_cast; linarith
      rw [abs_of_nonneg (h55.le.trans this)]
      exact le_trans (by norm_num) this)⟩))
    (fun k hk => lagA_le hα k hk) hκb (by positivity) hm
    hmlo hmhi (by norm_num) (by norm_num) hE hGE hGs
  have hω : 2.01 * ε + 1.03 * 1.24e-11 + 2.2 * U ≤ 2.01 * ε + 1.3e-11 := by
    have : 1.03 * 1.24e-11 + 2.2 * U ≤ 1.3e-11 := by unfold U; norm_num
    rw [add_assoc]
    exact (add_le_add_iff_left _).2 this
  refine ⟨{ nodeWeightPairs := R, alpha := al }, ?_, rfl, hC.mono hΓ.le ?_ hω⟩
  · have : GaussLaguerre.new ext n al = (golubWelsch ext n (GaussLaguerre.diag al.val) (GaussLaguerre.offDiag al.val) (gamma (al.val +ᶠ (lit 1.0 : F64)))).bind
      fun R => some { nodeWeightPairs := R, alpha := al } := rfl
    rw [this, hR]; rfl
  · have h3 : Real.sqrt (3 * n) ≤ 1.7325 * Real.sqrt n := by
      rw [Real.sqrt_mul (by norm_num)]
      refine mul_le_mul_of_nonneg_right (Real.sqrt_le_iff.2 ⟨by norm_num, by norm_num⟩) (Real.sqrt_nonneg _)
    have h4 : ε * (1 + 3.1 * U) + 3.1 * U ≤ ε + 4 * U := by
      have : ε * U ≤ 0.01 * U := mul_le_mul_of_nonneg_right hε1 hU.le
      linarith
    have h5 : 0 ≤ Real.sqrt n := Real.sqrt_nonneg _
    calc (ε * (1 + 3.1 * U) + 3.1 * U) * (2 * n + |α|) * Real.sqrt (3 * n) ≤ (ε + 4 * U) * (2 * n + |α|) * (1.7325 * Real.sqrt n) :=
          mul_le_mul (mul_le_mul_of_nonneg_right h4 (by positivity)) h3 (Real.sqrt_nonneg _) (by positivity)
      _ = 1.7325 * (Real.sqrt n * (2 * n + |α|) * (ε + 4 * U)) := by ring
      _ ≤ 1.74 * (Real.sqrt n * (2 * n + |α|) * (ε + 4 * U)) := mul_le_mul_of_nonneg_right (by norm_num) (by positivity)
      _ = _ := by ring

end
end GaussQuad.F64
