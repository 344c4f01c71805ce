import Verif.Proofs.F64Overflow
import Verif.Props.JacobiF64
import Verif.Props.JacobiNaN

/-!
# C99: large parameters of Gauss-Laguerre and Gauss-Jacobi in binary64

`gamma` (`/repo/src/math.rs` l.118-136) overflows before the gamma function does, and the scale of the Jacobi weights
(`/repo/src/jacobi/mod.rs` l.90-93 and l.125-129) is computed as a quotient of two numbers that overflow long before it does.
-/

set_option exponentiation.threshold 6000

namespace GaussQuad.Props
open Spec FloatOps F64

/-! ## sums of weights -/

theorem add_not_finite {x y : F64} (h : x.isFinite = false ∨ y.isFinite = false) : (F64.add x y).isFinite = false := by
  by_cases hnx : x.isNaN = true
  · rw [add_nan_left hnx]; exact not_finite_of_nan nan_isNaN
  by_cases hny : y.isNaN = true
  · rw [add_nan_right hny]; exact not_finite_of_nan nan_isNaN
  have hnx' : x.isNaN = false := by simpa using hnx
  have hny' : y.isNaN = false := by simpa using hny
  unfold F64.add
  rw [hnx', hny']
  simp only [Bool.or_self, Bool.false_eq_true, if_false]
  split
  · rename_i hi
    split
    · exact not_finite_of_nan nan_isNaN
    · exact not_finite_of_inf hi
  · rename_i hx
    split
    · rename_i hi; exact not_finite_of_inf hi
    · rename_i hy
      rcases h with h | h
      · rcases inf_of_not_finite h with h | h
        · exact absurd h hx
        · exact absurd h hnx
      · rcases inf_of_not_finite h with h | h
        · exact absurd h hy
        · exact absurd h hny

theorem sum_not_finite [L : Libm] {l : List F64} (hl : l ≠ []) (h : ∀ x ∈ l, x.isFinite = false) : (sumList l).isFinite = false := by
  unfold sumList
  obtain ⟨l', x, rfl⟩ := List.eq_nil_or_concat l |>.resolve_left hl
  rw [List.concat_eq_append, List.foldl_append]
  exact add_not_finite (.inr (h x (by simp)))

theorem add_zeroOrNaN {x y : F64} (hx : x.isZero = true ∨ x.isNaN = true) (hy : y.isZero = true ∨ y.isNaN = true) :
    (F64.add x y).isZero = true ∨ (F64.add x y).isNaN = true := by
  rcases hx with hx | hx
  · rcases hy with hy | hy
    · left
      rw [add_finite (finite_of_isZero hx) (finite_of_isZero hy), isZero_iff.1 hx, isZero_iff.1 hy, add_zero, round_zero]
      exact isZero_zero _
    · right; rw [add_nan_right hy]; exact nan_isNaN
  · right; rw [add_nan_left hx]; exact nan_isNaN

theorem sum_zeroOrNaN [L : Libm] {l : List F64} (h : ∀ x ∈ l, x.isZero = true ∨ x.isNaN = true) : (sumList l).isZero = true ∨ (sumList l).isNaN = true := by
  have : ∀ (l : List F64) (a : F64), (a.isZero = true ∨ a.isNaN = true) → (∀ x ∈ l, x.isZero = true ∨ x.isNaN = true) →
      ((l.foldl FloatOps.add a).isZero = true ∨ (l.foldl FloatOps.add a).isNaN = true) := by
    intro l
    induction l with
    | nil => intro a ha _; exact ha
    | cons x l ih => intro a ha hl; exact ih _ (add_zeroOrNaN ha (hl x (by simp))) fun y hy => hl y (by simp [hy])
  exact this l _ (.inl (isZero_zero true)) h

theorem mul_zeroOrNaN' {x y : F64} (hy : y.isZero = true ∨ y.isNaN = true) : (F64.mul x y).isZero = true ∨ (F64.mul x y).isNaN = true := by
  rcases hy with h | h
  · rw [zero_of_isZero h]
    by_cases hx : x.isFinite = true
    · rw [mul_zero_finite _ hx]; exact .inl (isZero_zero _)
    · rw [mul_zero_nonfinite _ (by simpa using hx)]; exact .inr nan_isNaN
  · rw [mul_nan_right h]; exact .inr nan_isNaN

/-! ## gamma -/

theorem Gamma_171 {x : ℝ} (h1 : 2 ≤ x) (h2 : x ≤ 171) : Real.Gamma x < 2 ^ 1023 := by
  have hm := Real.Gamma_strictMonoOn_Ici.monotoneOn (a := x) (b := 171) h1 (by norm_num) h2
  have e : Real.Gamma 171 = (Nat.factorial 170 : ℝ) := by
    have := Real.Gamma_nat_eq_factorial 170
    rw [← this]; norm_num
  rw [e] at hm
  refine hm.trans_lt ?_
  have : Nat.factorial 170 < 2 ^ 1023 := by decide +kernel
  exact_mod_cast this

/-- C99: `gamma` returns `+inf` for every float from 169.99 to `2^800`, although the gamma function is below `2^1023` up to 171 -/
theorem C99_gamma [L : Libm] (hO : PowOverflow L) {x : F64} (hx : x.isFinite = true) (h1 : 169.99 ≤ (x.val : ℝ)) (h2 : (x.val : ℝ) ≤ 2 ^ 800) :
    gamma x = F64.inf false ∧ ((x.val : ℝ) ≤ 171 → Real.Gamma x.val < 2 ^ 1023) := by
  refine ⟨?_, fun h => Gamma_171 (by linarith) h⟩
  obtain ⟨h3, h4⟩ := gamma_overflow hO hx h1 h2
  generalize (gamma x : F64) = g at h3 h4
  simp only [isInf, decide_eq_true_eq] at h3
  cases g
  simp_all [F64.inf]

/-! ## Gauss-Laguerre -/

theorem laguerre_arg [L : Libm] {a : F64} (ha : a.isFinite = true) (h1 : 169 ≤ a.rv) (h2 : a.rv ≤ 2 ^ 799) :
    (F64.add a (lit 1.0 : F64)).isFinite = true ∧ 169.99 ≤ (F64.add a (lit 1.0 : F64)).rv ∧ (F64.add a (lit 1.0 : F64)).rv ≤ 2 ^ 800 := by
  have hU := U_pos
  have hU1 : U ≤ 1 / 10 ^ 15 := U_le_eta
  have na : Near a a.rv 0 := ⟨ha, by simp⟩
  have nb := (lit_one_rel (L := L)).near
  rw [zero_mul, zero_mul] at nb
  have big : (2 : ℝ) ^ 799 + 2 ^ 799 ≤ 2 ^ 1000 := by norm_num
  have e8 : (2 : ℝ) ^ 800 = 2 * 2 ^ 799 := by ring
  have one8 : (1000 : ℝ) ≤ 2 ^ 799 := by norm_num
  have h := na.add nb (A := a.rv + 1) (by rw [abs_of_pos (by linarith)]; linarith) (by linarith)
  have h3 := _root_.abs_le.1 h.2
  have h4 : U * (a.rv + 1) ≤ 1 / 10 ^ 15 * (a.rv + 1) := mul_le_mul_of_nonneg_right hU1 (by linarith)
  refine ⟨h.1, ?_, ?_⟩
  · linarith
  · rw [e8]; linarith

/-- C99: for every parameter from 169 to `2^799`, every degree and every eigen-solver, `GaussLaguerre::new` succeeds with a rule none of whose weights is
finite, and `integrate` never returns a finite number, whatever the integrand; up to 170 the integral of the weight function is below `2^1023`. -/
theorem C99_laguerre [L : Libm] (hO : PowOverflow L) (ext : Externals F64) {n : ℕ} (hn : 0 < n) {al : FiniteAboveNegOne F64} {x : F64}
    (hal : FiniteAboveNegOne.new x = some al) (h1 : 169 ≤ (x.val : ℝ)) (h2 : (x.val : ℝ) ≤ 2 ^ 799) :
    (∃ r, GaussLaguerre.new ext n al = some r ∧ r.nodeWeightPairs.length = n ∧ (∀ p ∈ r.nodeWeightPairs, p.2.isFinite = false) ∧
      ∀ (a b : F64) (f : F64 → F64), ((AnyRule.laguerre r).value a b f).isFinite = false) ∧
    ((x.val : ℝ) ≤ 170 → ∫ t in Set.Ioi (0 : ℝ), t ^ (x.val : ℝ) * Real.exp (-t) < 2 ^ 1023) := by
  have hv := valid_of_new hal
  obtain rfl : al = ⟨x⟩ := by
    unfold FiniteAboveNegOne.new at hal
    split at hal
    · exact (Option.some.inj hal).symm
    · exact absurd hal (by simp)
  constructor
  · obtain ⟨a1, a2, a3⟩ := laguerre_arg hv.1 h1 h2
    have hg := not_finite_of_inf (gamma_overflow hO a1 a2 a3).1
    obtain ⟨M, pairs, -, hgw, hperm⟩ := C13_pairs_kept ext hn (GaussLaguerre.diag x) (GaussLaguerre.offDiag x) (gamma (x +ᶠ lit 1.0))
    have hlen : pairs.length = n := by rw [hperm.length_eq]; simp
    have hw : ∀ p ∈ pairs, p.2.isFinite = false := by
      intro p hp
      obtain ⟨i, rfl⟩ := List.mem_ofFn.1 (hperm.mem_iff.1 hp)
      exact mul_not_finite_right hg
    refine ⟨{ nodeWeightPairs := pairs, alpha := ⟨x⟩ }, ?_, hlen, hw, ?_⟩
    · unfold GaussLaguerre.new
      have : golubWelsch ext n (GaussLaguerre.diag (⟨x⟩ : FiniteAboveNegOne F64).get) (GaussLaguerre.offDiag (⟨x⟩ : FiniteAboveNegOne F64).get)
        (gamma ((⟨x⟩ : FiniteAboveNegOne F64).get +ᶠ lit 1.0)) = some pairs := hgw
      rw [this]; rfl
    · intro a b f
      rw [laguerre_value_eq]
      refine sum_not_finite (by intro h; rw [List.map_eq_nil_iff] at h; simp only at h; rw [h] at hlen; simp at hlen; omega) ?_
      intro y hy
      obtain ⟨p, hp, rfl⟩ := List.mem_map.1 hy
      exact mul_not_finite_right (hw p hp)
  · intro h3
    have := laguerre_mass (α := (x.val : ℝ)) (by linarith)
    change ∫ t in Set.Ioi (0 : ℝ), lagW x.val t < _
    rw [this]
    exact Gamma_171 (by linarith) (by linarith)

/-! ## Gauss-Jacobi -/

/-- the numerator of the scale of the weights, as a real number -/
noncomputable def jacobiNumerator (α β : ℝ) : ℝ := 2 ^ (α + β + 1) * Real.Gamma (α + 1) * Real.Gamma (β + 1)

section
variable [L : Libm]

theorem feq_lit_rv {x : F64} (hx : x.isFinite = true) {q : ℚ} (hf : (F64.round q false).isFinite = true) (hv : (F64.round q false).val = q)
    (h : feq x (lit q : F64) = true) : x.rv = q := by
  have := (eqb_finite hx hf).1 h
  rw [hv] at this
  unfold rv; rw [this]

theorem small_pair {α β : FiniteAboveNegOne F64} (ha : α.get.isFinite = true) (hb : β.get.isFinite = true)
    (hbig : 168 ≤ α.get.rv + β.get.rv ∨ 2 ^ 1025 ≤ jacobiNumerator α.get.rv β.get.rv) :
    ¬ (feq α.get (lit 0.0) = true ∧ feq β.get (lit 0.0) = true) ∧ ¬ (feq α.get (lit (-0.5)) = true ∧ feq β.get (lit (-0.5)) = true) ∧
    ¬ (feq α.get (lit 0.5) = true ∧ feq β.get (lit 0.5) = true) := by
  have hno : ∀ a b : ℝ, a + b ≤ 1 → 0 < Real.Gamma (a + 1) → Real.Gamma (a + 1) ≤ 2 → 0 < Real.Gamma (b + 1) → Real.Gamma (b + 1) ≤ 2 →
      (168 ≤ a + b ∨ 2 ^ 1025 ≤ jacobiNumerator a b) → False := by
    intro a b h1 h2 h2' h3 h3' h
    rcases h with h | h
    · linarith
    · have h4 : (2 : ℝ) ^ (a + b + 1) ≤ 2 ^ (2 : ℝ) := Real.rpow_le_rpow_of_exponent_le (by norm_num) (by linarith)
      have h5 : jacobiNumerator a b ≤ 2 ^ (2 : ℝ) * 2 * 2 := by
        unfold jacobiNumerator
        have h0 : (0 : ℝ) ≤ 2 ^ (a + b + 1) := Real.rpow_nonneg (by norm_num) _
        exact mul_le_mul (mul_le_mul h4 h2' h2.le (by positivity)) h3' h3.le (by positivity)
      have h6 : (2 : ℝ) ^ (2 : ℝ) * 2 * 2 = 16 := by norm_num
      rw [h6] at h5
      have : (16 : ℝ) < 2 ^ 1025 := by norm_num
      linarith
  have hsq : Real.sqrt Real.pi ≤ 2 := by
    rw [Real.sqrt_le_left (by norm_num)]; linarith [Real.pi_le_four]
  have hsq0 : 0 < Real.sqrt Real.pi := Real.sqrt_pos.2 Real.pi_pos
  refine ⟨fun h => ?_, fun h => ?_, fun h => ?_⟩
  · have e1 := feq_lit_rv ha (by decide +kernel) (by decide +kernel) h.1
    have e2 := feq_lit_rv hb (by decide +kernel) (by decide +kernel) h.2
    rw [e1, e2] at hbig
    have e : ((0.0 : ℚ) : ℝ) = 0 := by norm_num
    rw [e] at hbig
    refine hno 0 0 (by norm_num) ?_ ?_ ?_ ?_ hbig <;> norm_num
  · have e1 := feq_lit_rv ha (by decide +kernel) (by decide +kernel) h.1
    have e2 := feq_lit_rv hb (by decide +kernel) (by decide +kernel) h.2
    rw [e1, e2] at hbig
    have e : ((-0.5 : ℚ) : ℝ) = -1 / 2 := by norm_num
    rw [e] at hbig
    have g : Real.Gamma (-1 / 2 + 1) = Real.sqrt Real.pi := by rw [← Real.Gamma_one_half_eq]; norm_num
    refine hno _ _ (by norm_num) ?_ ?_ ?_ ?_ hbig <;> rw [g] <;> assumption
  · have e1 := feq_lit_rv ha (by decide +kernel) (by decide +kernel) h.1
    have e2 := feq_lit_rv hb (by decide +kernel) (by decide +kernel) h.2
    rw [e1, e2] at hbig
    have e : ((0.5 : ℚ) : ℝ) = 1 / 2 := by norm_num
    rw [e] at hbig
    have g : Real.Gamma (1 / 2 + 1) = 1 / 2 * Real.sqrt Real.pi := by rw [Real.Gamma_add_one (by norm_num), Real.Gamma_one_half_eq]
    refine hno _ _ (by norm_num) ?_ ?_ ?_ ?_ hbig <;> rw [g] <;> linarith

/-- the float numerator -/
theorem numerator_cases (hL : AccurateTrig L) (hP : AccuratePow L) {a b : F64} (ha : a.isFinite = true) (hb : b.isFinite = true)
    (a1 : (-1 : ℚ) < a.val) (b1 : (-1 : ℚ) < b.val) (a2 : a.rv ≤ 168) (b2 : b.rv ≤ 168) :
    (2 ^ 1025 ≤ jacobiNumerator a.rv b.rv →
      (pow (lit 2.0) (a +ᶠ b +ᶠ lit 1.0) *ᶠ gamma (a +ᶠ lit 1.0) *ᶠ gamma (b +ᶠ lit 1.0) : F64).isFinite = false) ∧
    (jacobiNumerator a.rv b.rv ≤ 2 ^ 1022 →
      (pow (lit 2.0) (a +ᶠ b +ᶠ lit 1.0) *ᶠ gamma (a +ᶠ lit 1.0) *ᶠ gamma (b +ᶠ lit 1.0) : F64).isFinite = true) := by
  have a1' : -1 < a.rv := by unfold rv; exact_mod_cast a1
  have b1' : -1 < b.rv := by unfold rv; exact_mod_cast b1
  have hs := param_sum ha hb a1' b1' a2 b2 lit_one_isNat (by norm_num)
  rw [Nat.cast_one] at hs
  have hp := two_pow_near hP hs (by linarith) (by linarith)
  have g1 := lag_scale hL hP ha a1 (a2.trans (by norm_num))
  have g2 := lag_scale hL hP hb b1 (b2.trans (by norm_num))
  have q1 := half_le_Gamma (by linarith : 0 < a.rv + 1)
  have q2 := half_le_Gamma (by linarith : 0 < b.rv + 1)
  have q0 : (1 : ℝ) / 2 ≤ 2 ^ (a.rv + b.rv + 1) := by
    have : (2 : ℝ) ^ (-1 : ℝ) ≤ 2 ^ (a.rv + b.rv + 1) := Real.rpow_le_rpow_of_exponent_le (by norm_num) (by linarith)
    rw [Real.rpow_neg_one] at this
    linarith
  have w1 := g1.mono (show _ ≤ 1 / 1000 * Real.Gamma (a.rv + 1) by linarith)
  have w2 := g2.mono (show _ ≤ 1 / 1000 * Real.Gamma (b.rv + 1) by linarith)
  exact ⟨fun h => num_overflow hp w1 w2 q0 q1 q2 h, fun h => num_finite hp w1 w2 q0 q1 q2 h⟩

/-- the weights of the rule are what the scale makes of them -/
theorem jacobi_weights (mode : Overflow) (ext : Externals F64) {n : ℕ} (hn : 0 < n) {α β : FiniteAboveNegOne F64} (ha : α.get.isFinite = true)
    (hb : β.get.isFinite = true) (hbig : 168 ≤ α.get.rv + β.get.rv ∨ 2 ^ 1025 ≤ jacobiNumerator α.get.rv β.get.rv) (Q : F64 → Prop)
    (h1 : Q (GaussJacobi.weightOne α.get β.get)) (h2 : ∀ v : F64, Q (v *ᶠ GaussJacobi.weightScale α.get β.get)) :
    ∃ r, GaussJacobi.new mode ext n α β = some r ∧ r.nodeWeightPairs.length = n ∧ ∀ p ∈ r.nodeWeightPairs, Q p.2 := by
  obtain ⟨d0, dm, dp⟩ := small_pair ha hb hbig
  by_cases hn1 : n = 1
  · subst hn1
    refine ⟨{ nodeWeightPairs := [(GaussJacobi.nodeOne α.get β.get, GaussJacobi.weightOne α.get β.get)], alpha := α, beta := β }, ?_, rfl, ?_⟩
    · simp only [GaussJacobi.new, Bool.and_eq_true, d0, dm, dp, if_false, if_true]
    · intro p hp
      simp only [List.mem_singleton] at hp
      rw [hp]; exact h1
  rw [(C39_no_delegation mode ext n α β d0 dm dp).1 hn1]
  obtain ⟨M, pairs, -, hgw, hperm⟩ := C13_pairs_kept ext hn (GaussJacobi.diag α.get β.get)
    (GaussJacobi.offDiag α.get β.get) (GaussJacobi.weightScale α.get β.get)
  have hq : ∀ w ∈ pairs.map (·.2), Q w := by
    intro w hw
    obtain ⟨p, hp, rfl⟩ := List.mem_map.1 hw
    obtain ⟨i, rfl⟩ := List.mem_ofFn.1 (hperm.mem_iff.1 hp)
    exact h2 _
  have hlen : pairs.length = n := by rw [hperm.length_eq]; simp
  obtain ⟨l', hl', hlen'⟩ := fixMiddle_some (F := F64) hn hlen
  have hw' : l'.map (·.2) = pairs.map (·.2) := by
    unfold GaussJacobi.fixMiddle at hl'
    split at hl'
    · split at hl'
      · rename_i p hp
        injection hl' with hl'
        rw [← hl', List.map_set]
        apply List.ext_getElem?
        intro i
        rw [List.getElem?_set]
        split
        · rename_i h; subst h; simp [hp]
          exact List.getElem?_eq_some_iff.1 hp |>.1
        · rfl
      · exact absurd hl' (by simp)
    · injection hl' with hl'; rw [hl']
  refine ⟨{ nodeWeightPairs := l', alpha := α, beta := β }, ?_, hlen', ?_⟩
  · unfold GaussJacobi.newGeneral
    rw [hgw]
    simp [hl']
  · intro p hp
    apply hq
    rw [← hw']
    exact List.mem_map_of_mem hp

variable {x y : F64} {α β : FiniteAboveNegOne F64}

theorem valid_pair (hα : FiniteAboveNegOne.new x = some α) : α = ⟨x⟩ ∧ x.isFinite = true ∧ (-1 : ℚ) < x.val := by
  have hv := valid_of_new hα
  obtain rfl : α = ⟨x⟩ := by
    unfold FiniteAboveNegOne.new at hα
    split at hα
    · exact (Option.some.inj hα).symm
    · exact absurd hα (by simp)
  exact ⟨rfl, hv⟩

/-- C99: if the numerator `2^(α+β+1) Γ(α+1) Γ(β+1)` of the scale is at least `2^1025` (parameters up to 168), no weight of the rule is finite and
`integrate` never returns a finite number, for every degree, eigen-solver, interval and integrand.  The integral of the weight function is the numerator
divided by `Γ(α+β+2)` and need not be large. -/
theorem C99_jacobi_nonfinite (hL : AccurateTrig L) (hP : AccuratePow L) (mode : Overflow) (ext : Externals F64) {n : ℕ} (hn : 0 < n)
    (hα : FiniteAboveNegOne.new x = some α) (hβ : FiniteAboveNegOne.new y = some β) (h1 : (x.val : ℝ) ≤ 168) (h2 : (y.val : ℝ) ≤ 168)
    (hN : 2 ^ 1025 ≤ (2 : ℝ) ^ ((x.val : ℝ) + y.val + 1) * Real.Gamma (x.val + 1) * Real.Gamma (y.val + 1)) :
    ∃ r, GaussJacobi.new mode ext n α β = some r ∧ r.nodeWeightPairs.length = n ∧ (∀ p ∈ r.nodeWeightPairs, p.2.isFinite = false) ∧
      ∀ (a b : F64) (f : F64 → F64), ((AnyRule.jacobi r).value a b f).isFinite = false := by
  obtain ⟨rfl, ha, a1⟩ := valid_pair hα
  obtain ⟨rfl, hb, b1⟩ := valid_pair hβ
  have hnum := (numerator_cases hL hP ha hb a1 b1 h1 h2).1 hN
  obtain ⟨r, hr, hlen, hw⟩ := jacobi_weights mode ext hn (α := ⟨x⟩) (β := ⟨y⟩) ha hb (.inr hN) (fun w => w.isFinite = false)
    (div_not_finite_left hnum) (fun v => mul_not_finite_right (div_not_finite_left (div_not_finite_left hnum)))
  refine ⟨r, hr, hlen, hw, fun a b f => ?_⟩
  rw [jacobi_value_eq]
  refine mul_not_finite_right (sum_not_finite (by intro h; rw [List.map_eq_nil_iff] at h; rw [h] at hlen; simp at hlen; omega) ?_)
  intro z hz
  obtain ⟨p, hp, rfl⟩ := List.mem_map.1 hz
  exact mul_not_finite_right (hw p hp)

/-- C99: the same if one of the parameters is at least 169 (and at most `2^799`), whatever the other one is. -/
theorem C99_jacobi_huge (hO : PowOverflow L) (mode : Overflow) (ext : Externals F64) {n : ℕ} (hn : 0 < n)
    (hα : FiniteAboveNegOne.new x = some α) (hβ : FiniteAboveNegOne.new y = some β)
    (hbig : (169 ≤ (x.val : ℝ) ∧ (x.val : ℝ) ≤ 2 ^ 799) ∨ (169 ≤ (y.val : ℝ) ∧ (y.val : ℝ) ≤ 2 ^ 799)) :
    ∃ r, GaussJacobi.new mode ext n α β = some r ∧ r.nodeWeightPairs.length = n ∧ (∀ p ∈ r.nodeWeightPairs, p.2.isFinite = false) ∧
      ∀ (a b : F64) (f : F64 → F64), ((AnyRule.jacobi r).value a b f).isFinite = false := by
  obtain ⟨rfl, ha, a1⟩ := valid_pair hα
  obtain ⟨rfl, hb, b1⟩ := valid_pair hβ
  have a1' : -1 < (x.val : ℝ) := by exact_mod_cast a1
  have b1' : -1 < (y.val : ℝ) := by exact_mod_cast b1
  have hnum : (F64.mul (F64.mul (pow (lit 2.0) (x +ᶠ y +ᶠ lit 1.0)) (gamma (x +ᶠ lit 1.0))) (gamma (y +ᶠ lit 1.0) : F64)).isFinite = false := by
    rcases hbig with h | h
    · obtain ⟨c1, c2, c3⟩ := laguerre_arg ha h.1 h.2
      exact mul_not_finite_left (mul_not_finite_right (not_finite_of_inf (gamma_overflow hO c1 c2 c3).1))
    · obtain ⟨c1, c2, c3⟩ := laguerre_arg hb h.1 h.2
      exact mul_not_finite_right (not_finite_of_inf (gamma_overflow hO c1 c2 c3).1)
  obtain ⟨r, hr, hlen, hw⟩ := jacobi_weights mode ext hn (α := ⟨x⟩) (β := ⟨y⟩) ha hb
    (.inl (show 168 ≤ (x.val : ℝ) + y.val by rcases hbig with h | h <;> linarith [h.1])) (fun w => w.isFinite = false)
    (div_not_finite_left hnum) (fun v => mul_not_finite_right (div_not_finite_left (div_not_finite_left hnum)))
  refine ⟨r, hr, hlen, hw, fun a b f => ?_⟩
  rw [jacobi_value_eq]
  refine mul_not_finite_right (sum_not_finite (by intro h; rw [List.map_eq_nil_iff] at h; rw [h] at hlen; simp at hlen; omega) ?_)
  intro z hz
  obtain ⟨p, hp, rfl⟩ := List.mem_map.1 hz
  exact mul_not_finite_right (hw p hp)

theorem denominators (hO : PowOverflow L) {a b : F64} (ha : a.isFinite = true) (hb : b.isFinite = true)
    (a1 : (-1 : ℚ) < a.val) (b1 : (-1 : ℚ) < b.val) (a2 : a.rv ≤ 168) (b2 : b.rv ≤ 168) (hs : 169 ≤ a.rv + b.rv) :
    (gamma (a +ᶠ b +ᶠ lit 1.0) : F64).isInf = true ∧ (gamma (a +ᶠ b +ᶠ lit 2.0) : F64).isInf = true ∧
      (a +ᶠ b +ᶠ lit 1.0 : F64).isFinite = true ∧ (a +ᶠ b +ᶠ lit 1.0 : F64).isZero = false := by
  have a1' : -1 < a.rv := by unfold rv; exact_mod_cast a1
  have b1' : -1 < b.rv := by unfold rv; exact_mod_cast b1
  have s1 := param_sum ha hb a1' b1' a2 b2 lit_one_isNat (by norm_num)
  have s2 := param_sum ha hb a1' b1' a2 b2 lit_two_isNat (by norm_num)
  rw [Nat.cast_one] at s1
  rw [Nat.cast_ofNat] at s2
  have t1 := _root_.abs_le.1 s1.2
  have t2 := _root_.abs_le.1 s2.2
  have big : (1000 : ℝ) ≤ 2 ^ 800 := by norm_num
  have eps : (1 : ℝ) / 10 ^ 12 ≤ 1 / 1000 := by norm_num
  have c1 : 169.99 ≤ (F64.add (F64.add a b) (lit 1.0 : F64)).rv := by linarith
  refine ⟨(gamma_overflow hO s1.1 c1 (by linarith)).1, (gamma_overflow hO s2.1 (by linarith) (by linarith)).1, s1.1, ?_⟩
  cases hz : (F64.add (F64.add a b) (lit 1.0 : F64)).isZero
  · rfl
  · exfalso
    rw [isZero_iff] at hz
    unfold rv at c1
    rw [hz] at c1
    norm_num at c1

/-- C99: if in addition `α + β` is at least 169, every weight is NaN and `integrate` always returns NaN. -/
theorem C99_jacobi_nan (hL : AccurateTrig L) (hP : AccuratePow L) (hO : PowOverflow L) (mode : Overflow) (ext : Externals F64) {n : ℕ} (hn : 0 < n)
    (hα : FiniteAboveNegOne.new x = some α) (hβ : FiniteAboveNegOne.new y = some β) (h1 : (x.val : ℝ) ≤ 168) (h2 : (y.val : ℝ) ≤ 168)
    (hs : 169 ≤ (x.val : ℝ) + y.val) (hN : 2 ^ 1025 ≤ (2 : ℝ) ^ ((x.val : ℝ) + y.val + 1) * Real.Gamma (x.val + 1) * Real.Gamma (y.val + 1)) :
    ∃ r, GaussJacobi.new mode ext n α β = some r ∧ r.nodeWeightPairs.length = n ∧ (∀ p ∈ r.nodeWeightPairs, p.2.isNaN = true) ∧
      ∀ (a b : F64) (f : F64 → F64), ((AnyRule.jacobi r).value a b f).isNaN = true := by
  obtain ⟨rfl, ha, a1⟩ := valid_pair hα
  obtain ⟨rfl, hb, b1⟩ := valid_pair hβ
  have hnum := (numerator_cases hL hP ha hb a1 b1 h1 h2).1 hN
  obtain ⟨d1, d2, -⟩ := denominators hO ha hb a1 b1 h1 h2 hs
  have e1 : (GaussJacobi.weightOne x y : F64) = F64.nan := div_not_finite_inf hnum d2
  have e2 : (GaussJacobi.weightScale x y : F64) = F64.nan := by
    unfold GaussJacobi.weightScale
    refine div_nan_left ?_
    have : F64.div _ (gamma (x +ᶠ y +ᶠ lit 1.0) : F64) = F64.nan := div_not_finite_inf hnum d1
    exact (congrArg F64.isNaN this).trans nan_isNaN
  obtain ⟨r, hr, hlen, hw⟩ := jacobi_weights mode ext hn (α := ⟨x⟩) (β := ⟨y⟩) ha hb (.inl (show 168 ≤ x.rv + y.rv from le_trans (by norm_num) hs)) (fun w => w.isNaN = true)
    (by
      have : (GaussJacobi.weightOne x y : F64).isNaN = true := by rw [e1]; exact nan_isNaN
      exact this)
    (fun v => by
      have : (F64.mul v (GaussJacobi.weightScale x y)).isNaN = true := by rw [e2, mul_nan_right nan_isNaN]; exact nan_isNaN
      exact this)
  refine ⟨r, hr, hlen, hw, fun a b f => ?_⟩
  rw [jacobi_value_eq]
  have hsum : ∀ (l : List F64) (c : F64), (∀ z ∈ l, z.isNaN = true) → (l ≠ [] ∨ c.isNaN = true) → (l.foldl FloatOps.add c).isNaN = true := by
    intro l
    induction l with
    | nil => intro c _ hc; exact hc.resolve_left (fun h => h rfl)
    | cons z l ih =>
      intro c hz _
      refine ih _ (fun w hw => hz w (by simp [hw])) (.inr ?_)
      have : (F64.add c z).isNaN = true := by rw [add_nan_right (hz z (by simp))]; exact nan_isNaN
      exact this
  have hS : (sumList (r.nodeWeightPairs.map fun p => f (GaussJacobi.argumentTransformation p.1 a b) *ᶠ p.2)).isNaN = true := by
    refine hsum _ _ ?_ (.inl (by intro h; rw [List.map_eq_nil_iff] at h; rw [h] at hlen; simp at hlen; omega))
    intro z hz
    obtain ⟨p, hp, rfl⟩ := List.mem_map.1 hz
    have : (F64.mul (f (GaussJacobi.argumentTransformation p.1 a b)) p.2).isNaN = true := by rw [mul_nan_right (hw p hp)]; exact nan_isNaN
    exact this
  have : (F64.mul (GaussJacobi.scaleFactor a b) (sumList (r.nodeWeightPairs.map fun p => f (GaussJacobi.argumentTransformation p.1 a b) *ᶠ p.2))).isNaN = true := by
    rw [mul_nan_right hS]; exact nan_isNaN
  exact this

/-- C99: if `α + β` is at least 169 and the numerator is at most `2^1022`, every weight is zero (or NaN, if the eigen-solver's vector is not finite), and
`integrate` returns zero or NaN for every integrand, although the integral of the weight function is positive. -/
theorem C99_jacobi_zero (hL : AccurateTrig L) (hP : AccuratePow L) (hO : PowOverflow L) (mode : Overflow) (ext : Externals F64) {n : ℕ} (hn : 0 < n)
    (hα : FiniteAboveNegOne.new x = some α) (hβ : FiniteAboveNegOne.new y = some β) (h1 : (x.val : ℝ) ≤ 168) (h2 : (y.val : ℝ) ≤ 168)
    (hs : 169 ≤ (x.val : ℝ) + y.val) (hN : (2 : ℝ) ^ ((x.val : ℝ) + y.val + 1) * Real.Gamma (x.val + 1) * Real.Gamma (y.val + 1) ≤ 2 ^ 1022) :
    (∃ r, GaussJacobi.new mode ext n α β = some r ∧ r.nodeWeightPairs.length = n ∧ (∀ p ∈ r.nodeWeightPairs, p.2.isZero = true ∨ p.2.isNaN = true) ∧
      ∀ (a b : F64) (f : F64 → F64), ((AnyRule.jacobi r).value a b f).isZero = true ∨ ((AnyRule.jacobi r).value a b f).isNaN = true) ∧
    0 < ∫ t in Set.Ioo (-1 : ℝ) 1, (1 - t) ^ (x.val : ℝ) * (1 + t) ^ (y.val : ℝ) := by
  obtain ⟨rfl, ha, a1⟩ := valid_pair hα
  obtain ⟨rfl, hb, b1⟩ := valid_pair hβ
  have hnum := (numerator_cases hL hP ha hb a1 b1 h1 h2).2 hN
  obtain ⟨d1, d2, d3, d4⟩ := denominators hO ha hb a1 b1 h1 h2 hs
  have e1 : (GaussJacobi.weightOne x y : F64).isZero = true := div_finite_inf hnum d2
  have e2 : (GaussJacobi.weightScale x y : F64).isZero = true := by
    have h3 : (F64.div (pow (lit 2.0) (x +ᶠ y +ᶠ lit 1.0) *ᶠ gamma (x +ᶠ lit 1.0) *ᶠ gamma (y +ᶠ lit 1.0)) (gamma (x +ᶠ y +ᶠ lit 1.0) : F64)).isZero = true :=
      div_finite_inf hnum d1
    show (F64.div (F64.div (pow (lit 2.0) (x +ᶠ y +ᶠ lit 1.0) *ᶠ gamma (x +ᶠ lit 1.0) *ᶠ gamma (y +ᶠ lit 1.0)) (gamma (x +ᶠ y +ᶠ lit 1.0) : F64))
      (x +ᶠ y +ᶠ lit 1.0)).isZero = true
    rw [zero_of_isZero h3, F64.zero_div _ d3 d4]
    exact isZero_zero _
  constructor
  · obtain ⟨r, hr, hlen, hw⟩ := jacobi_weights mode ext hn (α := ⟨x⟩) (β := ⟨y⟩) ha hb (.inl (show 168 ≤ x.rv + y.rv from le_trans (by norm_num) hs)) (fun w => w.isZero = true ∨ w.isNaN = true)
      (.inl e1) (fun v => mul_zeroOrNaN' (.inl e2))
    refine ⟨r, hr, hlen, hw, fun a b f => ?_⟩
    rw [jacobi_value_eq]
    refine mul_zeroOrNaN' (sum_zeroOrNaN ?_)
    intro z hz
    obtain ⟨p, hp, rfl⟩ := List.mem_map.1 hz
    exact mul_zeroOrNaN' (hw p hp)
  · have a1' : -1 < (x.val : ℝ) := by exact_mod_cast a1
    have b1' : -1 < (y.val : ℝ) := by exact_mod_cast b1
    have := jacobi_mass a1' b1'
    change 0 < ∫ t in Set.Ioo (-1 : ℝ) 1, jacW x.val y.val t
    rw [this]
    have g1 := Real.Gamma_pos_of_pos (by linarith : (0 : ℝ) < x.val + 1)
    have g2 := Real.Gamma_pos_of_pos (by linarith : (0 : ℝ) < y.val + 1)
    have g3 := Real.Gamma_pos_of_pos (by linarith : (0 : ℝ) < x.val + y.val + 2)
    have g4 : (0 : ℝ) < 2 ^ ((x.val : ℝ) + y.val + 1) := Real.rpow_pos_of_pos (by norm_num) _
    positivity

end

/-! ## concrete parameters -/

theorem nat_param [L : Libm] {k : ℕ} (hk : k ≤ 1000) : ∃ (x : F64) (α : FiniteAboveNegOne F64), FiniteAboveNegOne.new x = some α ∧ (x.val : ℝ) = k := by
  have h := ofNat_isNat (L := L) (m := k) (by omega)
  refine ⟨ofNat k, ⟨ofNat k⟩, new_valid ⟨h.1, ?_⟩, by rw [h.2]; norm_num⟩
  rw [h.2]
  have : (0 : ℚ) ≤ k := Nat.cast_nonneg k
  linarith

theorem nat_numerator (k l : ℕ) : (2 : ℝ) ^ ((k : ℝ) + l + 1) * Real.Gamma (k + 1) * Real.Gamma (l + 1) = ((2 ^ (k + l + 1) * k.factorial * l.factorial : ℕ) : ℝ) := by
  rw [Real.Gamma_nat_eq_factorial, Real.Gamma_nat_eq_factorial]
  have : (k : ℝ) + l + 1 = ((k + l + 1 : ℕ) : ℝ) := by push_cast; ring
  rw [this, Real.rpow_natCast]
  push_cast; rfl

theorem nat_mass (k l : ℕ) : ∫ t in Set.Ioo (-1 : ℝ) 1, (1 - t) ^ (k : ℝ) * (1 + t) ^ (l : ℝ) =
    ((2 ^ (k + l + 1) * k.factorial * l.factorial : ℕ) : ℝ) / ((k + l + 1).factorial : ℝ) := by
  have hk : (0 : ℝ) ≤ k := Nat.cast_nonneg k
  have hl : (0 : ℝ) ≤ l := Nat.cast_nonneg l
  have := jacobi_mass (α := (k : ℝ)) (β := (l : ℝ)) (by linarith) (by linarith)
  change ∫ t in Set.Ioo (-1 : ℝ) 1, jacW k l t = _
  rw [this, nat_numerator]
  congr 1
  rw [← Real.Gamma_nat_eq_factorial]
  congr 1; push_cast; ring

/-- C99, concrete parameters: for every degree and every eigen-solver, Gauss-Jacobi with `(84, 85)` has zero weights (or NaN, see above) and with
`(90, 90)` NaN weights; in both cases the integral of the weight function is larger than 0.1. -/
theorem C99_jacobi_parameters [L : Libm] (hL : AccurateTrig L) (hP : AccuratePow L) (hO : PowOverflow L) (mode : Overflow) (ext : Externals F64) {n : ℕ} (hn : 0 < n) :
    (∃ (x y : F64) (α β : FiniteAboveNegOne F64), FiniteAboveNegOne.new x = some α ∧ FiniteAboveNegOne.new y = some β ∧ (x.val : ℝ) = 84 ∧ (y.val : ℝ) = 85 ∧
      1 / 10 < ∫ t in Set.Ioo (-1 : ℝ) 1, (1 - t) ^ (x.val : ℝ) * (1 + t) ^ (y.val : ℝ) ∧
      ∃ r, GaussJacobi.new mode ext n α β = some r ∧ r.nodeWeightPairs.length = n ∧ ∀ p ∈ r.nodeWeightPairs, p.2.isZero = true ∨ p.2.isNaN = true) ∧
    (∃ (x : F64) (α : FiniteAboveNegOne F64), FiniteAboveNegOne.new x = some α ∧ (x.val : ℝ) = 90 ∧
      1 / 10 < ∫ t in Set.Ioo (-1 : ℝ) 1, (1 - t) ^ (x.val : ℝ) * (1 + t) ^ (x.val : ℝ) ∧
      ∃ r, GaussJacobi.new mode ext n α α = some r ∧ r.nodeWeightPairs.length = n ∧ ∀ p ∈ r.nodeWeightPairs, p.2.isNaN = true) := by
  constructor
  · obtain ⟨x, α, hα, hx⟩ := nat_param (L := L) (k := 84) (by norm_num)
    obtain ⟨y, β, hβ, hy⟩ := nat_param (L := L) (k := 85) (by norm_num)
    have hN := nat_numerator 84 85
    have hM := nat_mass 84 85
    rw [← hx, ← hy] at hN hM
    have key : 2 ^ (84 + 85 + 1) * Nat.factorial 84 * Nat.factorial 85 ≤ 2 ^ 1022 := by decide +kernel
    have key' : Nat.factorial (84 + 85 + 1) < 10 * (2 ^ (84 + 85 + 1) * Nat.factorial 84 * Nat.factorial 85) := by decide +kernel
    obtain ⟨⟨r, h1, h2, h3, -⟩, -⟩ := C99_jacobi_zero hL hP hO mode ext hn hα hβ (by rw [hx]; norm_num) (by rw [hy]; norm_num) (by rw [hx, hy]; norm_num)
      (by rw [hN]; exact_mod_cast key)
    refine ⟨x, y, α, β, hα, hβ, by rw [hx]; norm_num, by rw [hy]; norm_num, ?_, r, h1, h2, h3⟩
    rw [hM, lt_div_iff₀ (by positivity), one_div, inv_mul_lt_iff₀ (by norm_num)]
    exact_mod_cast key'
  · obtain ⟨x, α, hα, hx⟩ := nat_param (L := L) (k := 90) (by norm_num)
    have hN := nat_numerator 90 90
    have hM := nat_mass 90 90
    rw [← hx] at hN hM
    have key : 2 ^ 1025 ≤ 2 ^ (90 + 90 + 1) * Nat.factorial 90 * Nat.factorial 90 := by decide +kernel
    have key' : Nat.factorial (90 + 90 + 1) < 10 * (2 ^ (90 + 90 + 1) * Nat.factorial 90 * Nat.factorial 90) := by decide +kernel
    obtain ⟨r, h1, h2, h3, -⟩ := C99_jacobi_nan hL hP hO mode ext hn hα hα (by rw [hx]; norm_num) (by rw [hx]; norm_num) (by rw [hx]; norm_num)
      (by rw [hN]; exact_mod_cast key)
    refine ⟨x, α, hα, by rw [hx]; norm_num, ?_, r, h1, h2, h3⟩
    rw [hM, lt_div_iff₀ (by positivity), one_div, inv_mul_lt_iff₀ (by norm_num)]
    exact_mod_cast key'

/-- a backend with all that is asked, and parameters for each theorem: `(150, 2)` for the first theorem on Gauss-Jacobi (the mass is below 10^40) -/
example : ∃ L : Libm, AccurateTrig L ∧ AccuratePow L ∧ PowOverflow L ∧ ∃ (x y : F64) (α β : FiniteAboveNegOne F64),
    FiniteAboveNegOne.new x = some α ∧ FiniteAboveNegOne.new y = some β ∧ (x.val : ℝ) = 150 ∧ (y.val : ℝ) = 2 ∧
    2 ^ 1025 ≤ (2 : ℝ) ^ ((x.val : ℝ) + y.val + 1) * Real.Gamma (x.val + 1) * Real.Gamma (y.val + 1) := by
  obtain ⟨L, h1, h2, h3⟩ := accurateOverflow_exists
  obtain ⟨x, α, hα, hx⟩ := nat_param (L := L) (k := 150) (by norm_num)
  obtain ⟨y, β, hβ, hy⟩ := nat_param (L := L) (k := 2) (by norm_num)
  refine ⟨L, h1, h2, h3, x, y, α, β, hα, hβ, by rw [hx]; norm_num, by rw [hy]; norm_num, ?_⟩
  have hN := nat_numerator 150 2
  rw [← hx, ← hy] at hN
  rw [hN]
  have key : 2 ^ 1025 ≤ 2 ^ (150 + 2 + 1) * Nat.factorial 150 * Nat.factorial 2 := by decide +kernel
  exact_mod_cast key

/-- `(140, 2)` is in the range of C64 and C65, `(150, 2)` in that of `C99_jacobi_nonfinite` -/
example : (140 : ℝ) + 2 ≤ 164 ∧ (2 : ℝ) ^ ((140 : ℝ) + 2 + 1) * Real.Gamma (140 + 1) * Real.Gamma (2 + 1) ≤ 2 ^ 1000 := by
  have hN := nat_numerator 140 2
  refine ⟨by norm_num, ?_⟩
  have e : ((140 : ℕ) : ℝ) = 140 := by norm_num
  have e' : ((2 : ℕ) : ℝ) = 2 := by norm_num
  rw [e, e'] at hN
  rw [hN]
  have key : 2 ^ (140 + 2 + 1) * Nat.factorial 140 * Nat.factorial 2 ≤ 2 ^ 1000 := by decide +kernel
  exact_mod_cast key

/-- Gauss-Laguerre with `alpha = 169` and one node (for Gauss-Jacobi take it for both parameters): the documentation of the crate allows every finite parameter above -1 -/
example : ∃ (L : Libm) (x : F64) (α : FiniteAboveNegOne F64), PowOverflow L ∧ FiniteAboveNegOne.new x = some α ∧ 169 ≤ (x.val : ℝ) ∧ (x.val : ℝ) ≤ 170 := by
  obtain ⟨L, h1, h2, h3⟩ := accurateOverflow_exists
  obtain ⟨x, α, hα, hx⟩ := nat_param (L := L) (k := 169) (by norm_num)
  exact ⟨L, x, α, h3, hα, by rw [hx]; norm_num, by rw [hx]; norm_num⟩

/-- instances: `Γ(170)`, Gauss-Laguerre with parameter 169, Gauss-Jacobi with parameters (169, 2), (150, 2), (90, 90) and (84, 85) -/
example : ∃ L : Libm, ∀ ext : Externals F64,
    (∃ x : F64, (x.val : ℝ) = 170 ∧ gamma x = F64.inf false) ∧
    (∃ (x : F64) (α : FiniteAboveNegOne F64) (r : LaguerreRule F64), FiniteAboveNegOne.new x = some α ∧ (x.val : ℝ) = 169 ∧ GaussLaguerre.new ext 4 α = some r ∧
      ∀ p ∈ r.nodeWeightPairs, p.2.isFinite = false) ∧
    (∃ (x y : F64) (α β : FiniteAboveNegOne F64) (r : JacobiRule F64), FiniteAboveNegOne.new x = some α ∧ FiniteAboveNegOne.new y = some β ∧ (x.val : ℝ) = 169 ∧ (y.val : ℝ) = 2 ∧
      GaussJacobi.new .checked ext 4 α β = some r ∧ ∀ p ∈ r.nodeWeightPairs, p.2.isFinite = false) ∧
    (∃ (x : F64) (α : FiniteAboveNegOne F64) (r : JacobiRule F64), FiniteAboveNegOne.new x = some α ∧ (x.val : ℝ) = 90 ∧
      GaussJacobi.new .checked ext 4 α α = some r ∧ ∀ p ∈ r.nodeWeightPairs, p.2.isNaN = true) := by
  obtain ⟨L, h1, h2, h3⟩ := accurateOverflow_exists
  refine ⟨L, fun ext => ⟨?_, ?_, ?_, ?_⟩⟩
  · obtain ⟨x, α, hα, hx⟩ := nat_param (L := L) (k := 170) (by norm_num)
    have hv := (valid_pair hα).2
    push_cast at hx
    exact ⟨x, hx, (C99_gamma h3 hv.1 (by rw [hx]; norm_num) (by rw [hx]; norm_num)).1⟩
  · obtain ⟨x, α, hα, hx⟩ := nat_param (L := L) (k := 169) (by norm_num)
    push_cast at hx
    obtain ⟨⟨r, hr, -, hw, -⟩, -⟩ := C99_laguerre h3 ext (n := 4) (by norm_num) hα (by rw [hx]) (by rw [hx]; norm_num)
    exact ⟨x, α, r, hα, hx, hr, hw⟩
  · obtain ⟨x, α, hα, hx⟩ := nat_param (L := L) (k := 169) (by norm_num)
    obtain ⟨y, β, hβ, hy⟩ := nat_param (L := L) (k := 2) (by norm_num)
    push_cast at hx hy
    obtain ⟨r, hr, -, hw, -⟩ := C99_jacobi_huge h3 .checked ext (n := 4) (by norm_num) hα hβ (.inl ⟨by rw [hx], by rw [hx]; norm_num⟩)
    exact ⟨x, y, α, β, r, hα, hβ, hx, hy, hr, hw⟩
  · obtain ⟨-, x, α, hα, hx, -, r, hr, -, hw⟩ := C99_jacobi_parameters h1 h2 h3 .checked ext (n := 4) (by norm_num)
    exact ⟨x, α, r, hα, hx, hr, hw⟩

end GaussQuad.Props
