import Verif.Proofs.GaussWeights
import Verif.Props.GolubWelschExact

/-!
# Convergence of Gauss-Jacobi (C41), uniqueness (C47), reflection and monotonicity (C48)
-/

namespace GaussQuad.Props
open Polynomial Spec FloatOps Filter MeasureTheory

/-! ## C41 -/

/-- replacing one node of a rule changes the sum by at most the weight times the oscillation -/
theorem quad_set_sub (L : List (ℝ × ℝ)) {k : ℕ} (hk : k < L.length) (y : ℝ) (f : ℝ → ℝ) :
    quad (L.set k (y, (L[k]).2)) f - quad L f = (L[k]).2 * (f y - f (L[k]).1) := by
  induction L generalizing k with
  | nil => simp at hk
  | cons p L ih =>
    cases k with
    | zero => simp [quad]; ring
    | succ k =>
      have := ih (k := k) (by simpa using hk)
      simp only [quad, List.set_cons_succ, List.map_cons, List.sum_cons, List.getElem_cons_succ] at *
      linarith

/-- C41 for Gauss-Jacobi (general branch), along all degrees: for every continuous integrand the sums converge to the weighted
integral (times the gamma factor).  The overwritten node of the odd degrees does not destroy convergence, because the
weights tend to 0. -/
theorem C41_jacobi {ext : Externals ℝ} (hext : ExactSolver ext) {α β : FiniteAboveNegOne ℝ} (hα : -1 < α.get) (hβ : -1 < β.get)
    (hs : α.get + β.get ≠ -1) (r : ℕ → JacobiRule ℝ) (hr : ∀ m, GaussJacobi.newGeneral ext (m + 1) α β = some (r m)) {a b : ℝ}
    (hab : a ≠ b) {f : ℝ → ℝ} (hf : ContinuousOn f (Set.uIcc a b)) :
    Tendsto (fun m => (AnyRule.jacobi (r m)).value a b f) atTop
      (nhds (jacobiFactor α.get β.get *
        ∫ t in a..b, f t * ((1 - (2 * t - a - b) / (b - a)) ^ α.get * (1 + (2 * t - a - b) / (b - a)) ^ β.get))) := by
  set c := jacobiFactor α.get β.get with hc'
  have hc : 0 < c := jacobiFactor_pos hα hβ hs
  set w := jacW α.get β.get with hw'
  have hpd := posDef_jacobi hα hβ
  have hwpos : ∀ x ∈ Set.Ioo (-1 : ℝ) 1, 0 ≤ w x := fun x hx =>
    mul_nonneg (Real.rpow_nonneg (by linarith [hx.2]) _) (Real.rpow_nonneg (by linarith [hx.1]) _)
  have hwi : IntegrableOn w (Set.Ioo (-1) 1) := by simpa [hw'] using integrable_jacobi hα hβ 1
  set g : ℝ → ℝ := fun x => f ((b - a) / 2 * x + (a + b) / 2) with hg
  have hgc : ContinuousOn g (Set.Icc (-1) 1) := continuousOn_transport hf
  -- the true Gauss rules
  have hL : ∀ m, ∃ L, IsGauss L (m + 1) (Set.Ioo (-1) 1) w c ∧ ((r m).nodeWeightPairs = L ∨
      ∃ h : (m + 1) / 2 < L.length, (r m).nodeWeightPairs = L.set ((m + 1) / 2) (0, (L[(m + 1) / 2]).2)) := by
    intro m
    obtain ⟨r', L, h1, h2, -, he, ho, -⟩ := jacobi_general hext (Nat.succ_pos m) hα hβ hs
    rw [Nat.succ_eq_add_one, hr m, Option.some.injEq] at h1
    subst h1
    refine ⟨L, h2, ?_⟩
    rcases Nat.mod_two_eq_zero_or_one (m + 1) with h | h
    · exact Or.inl (he h)
    · exact Or.inr (ho h)
  choose L hLG hLr using hL
  have hlen : ∀ m, (L m).length = m + 1 := fun m => (hLG m).length
  have hLpos : ∀ m, ∀ q ∈ L m, 0 < q.2 := fun m => gauss_weights_pos hc (hLG m).exact' hpd
  have hLnode : ∀ m, ∀ q ∈ L m, q.1 ∈ Set.Icc (-1 : ℝ) 1 := fun m q hq =>
    ⟨(jacobi_nodes hα hβ (hLG m) hc q hq).1.le, (jacobi_nodes hα hβ (hLG m) hc q hq).2.le⟩
  have hd : Tendsto (fun m : ℕ => 2 * m + 1) atTop atTop :=
    tendsto_atTop_mono (fun m => by omega : ∀ m : ℕ, m ≤ 2 * m + 1) tendsto_id
  -- scaled rules converge
  have hscale : ∀ m (h : ℝ → ℝ), quad ((L m).map fun q => (q.1, c⁻¹ * q.2)) h = c⁻¹ * quad (L m) h := by
    intro m h
    simp only [quad, List.map_map, Function.comp_def, ← List.sum_map_mul_left, mul_assoc]
  have h1 := gauss_tendsto (L := fun m => (L m).map fun q => (q.1, c⁻¹ * q.2)) (w := w) (f := g) _ hd
    (Eventually.of_forall fun m p hp => by
      have := (hLG m).exact' p (by rw [hlen]; omega)
      rw [hscale, this, ← mul_assoc, inv_mul_cancel₀ hc.ne', one_mul])
    (Eventually.of_forall fun m q hq => by
      obtain ⟨q', hq', rfl⟩ := List.mem_map.1 hq
      exact mul_nonneg (inv_nonneg.2 hc.le) (hLpos m q' hq').le)
    (Eventually.of_forall fun m q hq => by
      obtain ⟨q', hq', rfl⟩ := List.mem_map.1 hq
      exact hLnode m q' hq') hwpos hwi hgc
  have h2 : Tendsto (fun m => quad (L m) g) atTop (nhds (c * ∫ x in Set.Ioo (-1 : ℝ) 1, g x * w x)) := by
    have := h1.const_mul c
    refine this.congr fun m => ?_
    rw [hscale, ← mul_assoc, mul_inv_cancel₀ hc.ne', one_mul]
  -- the overwritten node does not matter in the limit
  obtain ⟨B, hB⟩ := isCompact_Icc.exists_bound_of_continuousOn hgc
  have hB0 : 0 ≤ B := (norm_nonneg _).trans (hB 0 (by norm_num))
  have h3 : Tendsto (fun m => quad (r m).nodeWeightPairs g - quad (L m) g) atTop (nhds 0) := by
    rw [Metric.tendsto_atTop]
    intro ε hε
    obtain ⟨N, hN⟩ := gauss_weights_small hc hwi hwpos (show 0 < ε / (2 * (2 * B + 1)) by positivity)
    refine ⟨N, fun m hm => ?_⟩
    rw [Real.dist_eq, sub_zero]
    rcases hLr m with h | ⟨h, h'⟩
    · rw [h, sub_self, abs_zero]; exact hε
    · rw [h', quad_set_sub, abs_mul]
      have hmem := List.getElem_mem h
      have hwt := hN (L m) (by rw [hlen]; omega) (hLG m).exact' (fun q hq => (hLpos m q hq).le) (hLnode m) _ hmem
      have hb1 : |g 0 - g ((L m)[(m + 1) / 2]).1| ≤ 2 * B := by
        have e1 := hB 0 (by norm_num)
        have e2 := hB _ (hLnode m _ hmem)
        rw [Real.norm_eq_abs] at e1 e2
        refine (abs_sub _ _).trans ?_
        linarith
      rw [abs_of_pos (hLpos m _ hmem)]
      calc _ ≤ ε / (2 * (2 * B + 1)) * (2 * B) :=
            mul_le_mul hwt hb1 (abs_nonneg _) (by positivity)
        _ ≤ ε / (2 * (2 * B + 1)) * (2 * B + 1) := by
            apply mul_le_mul_of_nonneg_left (by linarith) (by positivity)
        _ = ε / 2 := by field_simp
        _ < ε := by linarith
  have h4 : Tendsto (fun m => quad (r m).nodeWeightPairs g) atTop (nhds (c * ∫ x in Set.Ioo (-1 : ℝ) 1, g x * w x)) := by
    have := h3.add h2
    rw [zero_add] at this
    exact this.congr fun m => by ring
  have h5 := h4.const_mul ((b - a) / 2)
  have e : (b - a) / 2 * (c * ∫ x in Set.Ioo (-1 : ℝ) 1, g x * w x) = c * ∫ t in a..b, f t * w ((2 * t - a - b) / (b - a)) := by
    rw [← integral_transport w f hab]; ring
  rw [e] at h5
  refine h5.congr fun m => ?_
  rw [value_gauss_quad rfl]

/-- such a sequence of rules exists, and the theorem covers the non-smooth integrand `|x|` on `[-1, 2]` -/
example : ∃ ext : Externals ℝ, ExactSolver ext ∧ ∃ r : ℕ → JacobiRule ℝ,
    (∀ m, GaussJacobi.newGeneral ext (m + 1) ⟨1⟩ ⟨0⟩ = some (r m)) ∧
    Tendsto (fun m => (AnyRule.jacobi (r m)).value (-1) 2 (fun x => |x|)) atTop
      (nhds (jacobiFactor 1 0 * ∫ t in (-1 : ℝ)..2, |t| * ((1 - (2 * t - -1 - 2) / (2 - -1)) ^ (1 : ℝ) *
        (1 + (2 * t - -1 - 2) / (2 - -1)) ^ (0 : ℝ)))) := by
  refine ⟨_, exactSolver_exists, ?_⟩
  choose r hr _ using fun m : ℕ => jacobi_newGeneral_some (Externals.real spectralEig) (Nat.succ_pos m)
    (⟨1⟩ : FiniteAboveNegOne ℝ) ⟨0⟩
  exact ⟨r, hr, C41_jacobi exactSolver_exists (α := ⟨1⟩) (β := ⟨0⟩) (by norm_num) (by norm_num) (by norm_num) r hr (by norm_num)
    continuous_abs.continuousOn⟩

/-! ## C47: the rule does not depend on the eigen-solver -/

theorem IsGauss.unique {L L' : List (ℝ × ℝ)} {n : ℕ} {S : Set ℝ} {w : ℝ → ℝ} {c : ℝ} (h : IsGauss L n S w c) (h' : IsGauss L' n S w c)
    (hc : 0 < c) (hpos : PosDef S w) : L = L' := by
  have hlen : L'.length = L.length := h'.length.trans h.length.symm
  have hp := gauss_unique hc hc hlen h.exact' (by rw [← hlen]; exact h'.exact') hpos
  rw [div_self hc.ne'] at hp
  simp only [one_mul, Prod.mk.eta, List.map_id'] at hp
  have hs := h.strict hc hpos
  have hs' := h'.strict hc hpos
  rw [List.pairwise_map] at hs hs'
  exact hp.eq_of_pairwise (fun _ _ _ _ h1 h2 => absurd h1 (lt_asymm h2)) hs hs'

/-- C47: any two exact eigen-solvers (whatever the order, signs and normalisation of what they return) give the same rules. -/
theorem C47_solver_independent {ext ext' : Externals ℝ} (hext : ExactSolver ext) (hext' : ExactSolver ext') (mode : Overflow) {n : ℕ}
    (hn : 0 < n) :
    GaussHermite.new ext n = GaussHermite.new ext' n ∧
    (∀ α : FiniteAboveNegOne ℝ, -1 < α.get → GaussLaguerre.new ext n α = GaussLaguerre.new ext' n α) ∧
    (∀ α β : FiniteAboveNegOne ℝ, -1 < α.get → -1 < β.get → α.get + β.get ≠ -1 →
      GaussJacobi.new mode ext n α β = GaussJacobi.new mode ext' n α β) := by
  refine ⟨?_, fun α hα => ?_, fun α β hα hβ hs => ?_⟩
  · obtain ⟨r, h1, h2⟩ := hermite_gauss hext hn
    obtain ⟨r', h1', h2'⟩ := hermite_gauss hext' hn
    rw [h1, h1', show r = r' by cases r; cases r'; exact congrArg _ (IsGauss.unique h2 h2' one_pos posDef_hermite)]
  · obtain ⟨r, h1, ha, h2⟩ := laguerre_gauss hext hn α hα
    obtain ⟨r', h1', ha', h2'⟩ := laguerre_gauss hext' hn α hα
    have := IsGauss.unique h2 h2' (laguerre_factor_pos hα) (posDef_laguerre hα)
    rw [h1, h1']
    congr 1
    obtain ⟨⟨l⟩, a⟩ := r
    obtain ⟨⟨l'⟩, a'⟩ := r'
    simp only at ha ha' this
    subst ha ha' this; rfl
  · obtain ⟨L, h1, h2⟩ := jacobi_golub hext hn hα hβ hs
    obtain ⟨L', h1', h2'⟩ := jacobi_golub hext' hn hα hβ hs
    have e := IsGauss.unique h2 h2' (jacobiFactor_pos hα hβ hs) (posDef_jacobi hα hβ)
    unfold GaussJacobi.new GaussJacobi.newGeneral
    rw [h1, h1', e]

/-- two exact solvers (here the same one twice) build the same Laguerre rule -/
example (ext : Externals ℝ) (h : ExactSolver ext) :
    GaussLaguerre.new ext 5 ⟨1⟩ = GaussLaguerre.new (Externals.real spectralEig) 5 ⟨1⟩ :=
  (C47_solver_independent h exactSolver_exists .checked (by norm_num)).2.1 ⟨1⟩ (by norm_num)

/-- C47: the general (Golub-Welsch) branch would give, for `(½,½)`, the nodes of the Chebyshev rule of the second kind that
`GaussJacobi::new` delegates to, and its weights times the relative error of the gamma function. -/
theorem C47_general_vs_chebyshev {ext : Externals ℝ} (hext : ExactSolver ext) (mode : Overflow) {n : ℕ} (hn : 0 < n)
    (hlt : n + 1 < 2 ^ 64) :
    ∃ r r', GaussJacobi.newGeneral ext n ⟨1 / 2⟩ ⟨1 / 2⟩ = some r ∧ GaussJacobi.new mode ext n ⟨1 / 2⟩ ⟨1 / 2⟩ = some r' ∧
      r.asNodeWeightPairs.map (fun p => (p.1, p.2 / jacobiFactor (1 / 2) (1 / 2))) = r'.asNodeWeightPairs := by
  have h12 : (-1 : ℝ) < 1 / 2 := by norm_num
  have hs : (1 / 2 : ℝ) + 1 / 2 ≠ -1 := by norm_num
  have hc := jacobiFactor_pos h12 h12 hs
  obtain ⟨r, L, h1, h2, -, he, ho, -⟩ := jacobi_general hext hn (α := ⟨1 / 2⟩) (β := ⟨1 / 2⟩) h12 h12 hs
  simp only [finiteAboveNegOne_get_mk] at h2 he ho
  have hL : r.nodeWeightPairs = L := by
    rcases Nat.mod_two_eq_zero_or_one n with h | h
    · exact he h
    · obtain ⟨hl, h4⟩ := ho h
      have hm := h2.middle hc (posDef_jacobi h12 h12) (jacobi_reflect _ _) h hl
      have e : (0, (L[n / 2]).2) = L[n / 2] := by rw [← hm]
      rw [h4, e, List.set_getElem_self]
  have e : (lit (-0.5) : ℝ) = -1 / 2 := by simp; norm_num
  refine ⟨r, GaussJacobi.ofChebyshevSecondKind ⟨pairs2 n⟩, h1, ?_, ?_⟩
  · unfold GaussJacobi.new
    simp only [real_feq, real_lit_zero, real_lit_half, e]
    rw [if_neg (by norm_num), if_neg (by norm_num), if_pos (by norm_num), cheb2_new_eq hlt]; rfl
  · show r.nodeWeightPairs.map _ = pairs2 n
    rw [hL]
    have hcheb : ∀ p : ℝ[X], weightIntegral (Set.Ioo (-1) 1) chebW2 p = weightIntegral (Set.Ioo (-1) 1) (jacW (1 / 2) (1 / 2)) p := by
      intro p
      apply setIntegral_congr_fun measurableSet_Ioo
      intro x hx
      simp only [chebW2, jacW]
      rw [← Real.mul_rpow (by linarith [hx.2]) (by linarith [hx.1]), Real.sqrt_eq_rpow]
      congr 2; ring
    have hlen : (pairs2 n).length = L.length := by rw [length_pairs2, h2.length]
    have hex2 : ExactUpTo (pairs2 n) (2 * L.length - 1) (Set.Ioo (-1) 1) (jacW (1 / 2) (1 / 2)) 1 := by
      intro p hp
      rw [h2.length] at hp
      rw [cheb2_exact hn p hp, hcheb]
    have hp := gauss_unique hc one_pos hlen h2.exact' hex2 (posDef_jacobi h12 h12)
    have hs1 := h2.strict hc (posDef_jacobi h12 h12)
    obtain ⟨r2, q1, hs2⟩ := (C12_chebyshev mode hn hlt).2
    rw [cheb2_new_eq hlt, Option.some.injEq] at q1
    subst q1
    rw [List.pairwise_map] at hs1 hs2
    have e2 : (L.map fun p => (p.1, p.2 / jacobiFactor (1 / 2) (1 / 2))) =
        L.map fun p => (p.1, 1 / jacobiFactor (1 / 2) (1 / 2) * p.2) := by
      apply List.map_congr_left
      intro p _
      rw [Prod.mk.injEq]; exact ⟨rfl, by ring⟩
    rw [e2]
    exact hp.eq_of_pairwise (le := fun p q => p.1 < q.1) (fun _ _ _ _ h1 h2 => absurd h1 (lt_asymm h2))
      (by rw [List.pairwise_map]; exact hs1) hs2

example : ∃ ext : Externals ℝ, ∃ r r', GaussJacobi.newGeneral ext 6 ⟨1 / 2⟩ ⟨1 / 2⟩ = some r ∧ GaussJacobi.new .checked ext 6 ⟨1 / 2⟩ ⟨1 / 2⟩ = some r' ∧
    r.asNodeWeightPairs.map (fun p => (p.1, p.2 / jacobiFactor (1 / 2) (1 / 2))) = r'.asNodeWeightPairs :=
  ⟨_, C47_general_vs_chebyshev exactSolver_exists .checked (by norm_num) (by norm_num)⟩

/-! ## C48: reflection and monotonicity -/

/-- C48: swapping the parameters reflects the rule (also the overwritten odd ones), so
`jacobi(β, α).integrate(a, b, f) = jacobi(α, β).integrate(a, b, x ↦ f(a+b-x))`. -/
theorem C48_reflect {ext : Externals ℝ} (hext : ExactSolver ext) {n : ℕ} (hn : 0 < n) {α β : FiniteAboveNegOne ℝ}
    (hα : -1 < α.get) (hβ : -1 < β.get) (hs : α.get + β.get ≠ -1) :
    ∃ r r', GaussJacobi.newGeneral ext n α β = some r ∧ GaussJacobi.newGeneral ext n β α = some r' ∧
      r'.asNodeWeightPairs = (r.asNodeWeightPairs.map fun p => (-p.1, p.2)).reverse ∧
      ∀ (a b : ℝ) (f : ℝ → ℝ), (AnyRule.jacobi r').value a b f = (AnyRule.jacobi r).value a b (fun x => f (a + b - x)) := by
  obtain ⟨r, L, h1, h2, -, he, ho, -⟩ := jacobi_general hext hn hα hβ hs
  obtain ⟨r', L', h1', h2', -, he', ho', -⟩ := jacobi_general hext hn hβ hα (by rwa [add_comm])
  rw [jacobiFactor_comm] at h2'
  have hc := jacobiFactor_pos hα hβ hs
  have hrev := h2'.reverse h2 hc (posDef_jacobi hβ hα) (jacobi_reflect _ _)
  have hl := h2.length
  have hl' := h2'.length
  have hr : r'.nodeWeightPairs = (r.nodeWeightPairs.map fun p => (-p.1, p.2)).reverse := by
    rcases Nat.mod_two_eq_zero_or_one n with h | h
    · rw [he h, he' h, hrev]
    · obtain ⟨k1, k2⟩ := ho h
      obtain ⟨k1', k2'⟩ := ho' h
      rw [k2, k2']
      apply List.ext_getElem
      · simp [hl, hl']
      · intro i i1 i2
        have hi : i < n := by simpa [hl'] using i1
        have e : ∀ (j : ℕ) (hj : j < L'.length), L'[j] = (-(L[n - 1 - j]'(by omega)).1, (L[n - 1 - j]'(by omega)).2) := by
          intro j hj
          have e2 : L'[j]? = (L.map fun p => (-p.1, p.2)).reverse[j]? := by rw [← hrev]
          rw [List.getElem?_eq_getElem hj, List.getElem?_eq_getElem (by simpa [hl] using (by omega : j < n)), Option.some.injEq,
            List.getElem_reverse, List.getElem_map] at e2
          simp only [List.length_map, hl] at e2
          exact e2
        rw [List.getElem_reverse, List.getElem_map]
        simp only [List.length_map, List.length_set, hl]
        by_cases hi2 : n / 2 = i
        · subst hi2
          rw [List.getElem_set_self]
          have hmid : n - 1 - n / 2 = n / 2 := by omega
          have e3 := e (n / 2) k1'
          simp only [hmid] at e3 ⊢
          rw [List.getElem_set_self, e3]; simp
        · rw [List.getElem_set_ne hi2, List.getElem_set_ne (by omega), e]
  refine ⟨r, r', h1, h1', hr, fun a b f => ?_⟩
  rw [value_gauss_quad rfl, value_gauss_quad rfl, hr]
  congr 1
  simp only [quad, List.map_reverse, List.sum_reverse, List.map_map, Function.comp_def]
  congr 1
  apply List.map_congr_left
  intro p _
  congr 2; ring

example : ∃ ext : Externals ℝ, ∃ r r', GaussJacobi.newGeneral ext 4 ⟨2⟩ ⟨0⟩ = some r ∧ GaussJacobi.newGeneral ext 4 ⟨0⟩ ⟨2⟩ = some r' ∧
    r'.asNodeWeightPairs = (r.asNodeWeightPairs.map fun p => (-p.1, p.2)).reverse :=
  let ⟨r, r', h1, h2, h3, _⟩ := C48_reflect exactSolver_exists (n := 4) (by norm_num) (α := ⟨2⟩) (β := ⟨0⟩) (by norm_num) (by norm_num) (by norm_num)
  ⟨_, r, r', h1, h2, h3⟩

/-- C48: the Hermite rule is symmetric about 0. -/
theorem C48_hermite_symmetric {ext : Externals ℝ} (hext : ExactSolver ext) {n : ℕ} (hn : 0 < n) :
    ∃ r, GaussHermite.new ext n = some r ∧ r.asNodeWeightPairs = (r.asNodeWeightPairs.map fun p => (-p.1, p.2)).reverse ∧
      ∀ f : ℝ → ℝ, (∀ x, f (-x) = -f x) → ∀ a b, (AnyRule.hermite r).value a b f = 0 := by
  obtain ⟨r, h1, h2⟩ := hermite_gauss hext hn
  have hrev := h2.reverse h2 one_pos posDef_hermite hermite_reflect
  refine ⟨r, h1, hrev, fun f hf a b => ?_⟩
  rw [value_real]
  show quad r.nodeWeightPairs f = 0
  have : quad r.nodeWeightPairs f = -quad r.nodeWeightPairs f := by
    conv_lhs => rw [hrev]
    simp only [quad, List.map_reverse, List.sum_reverse, List.map_map, Function.comp_def, hf, mul_neg]
    rw [List.sum_neg, List.map_map]
    rfl
  linarith

example : ∃ ext : Externals ℝ, ∃ r, GaussHermite.new ext 4 = some r ∧ (AnyRule.hermite r).value 0 0 Real.sin = 0 :=
  let ⟨r, h1, _, h2⟩ := C48_hermite_symmetric exactSolver_exists (n := 4) (by norm_num)
  ⟨_, r, h1, h2 Real.sin Real.sin_neg 0 0⟩

/-- C48 (Markov): at even degrees every node moves strictly to the left when `α` grows and strictly to the right when `β` grows. -/
theorem C48_monotone {ext : Externals ℝ} (hext : ExactSolver ext) {n : ℕ} (hn : 0 < n) (heven : n % 2 = 0)
    {α₁ β₁ α₂ β₂ : FiniteAboveNegOne ℝ} (hα₁ : -1 < α₁.get) (hβ₁ : -1 < β₁.get) (hα₂ : -1 < α₂.get) (hβ₂ : -1 < β₂.get)
    (hs₁ : α₁.get + β₁.get ≠ -1) (hs₂ : α₂.get + β₂.get ≠ -1) (hα : α₁.get ≤ α₂.get) (hβ : β₂.get ≤ β₁.get)
    (hne : (α₁.get, β₁.get) ≠ (α₂.get, β₂.get)) :
    ∃ r₁ r₂, GaussJacobi.newGeneral ext n α₁ β₁ = some r₁ ∧ GaussJacobi.newGeneral ext n α₂ β₂ = some r₂ ∧
      ∀ k (h₁ : k < r₁.asNodeWeightPairs.length) (h₂ : k < r₂.asNodeWeightPairs.length),
        (r₂.asNodeWeightPairs[k]).1 < (r₁.asNodeWeightPairs[k]).1 := by
  obtain ⟨r₁, L₁, g1, g2, -, g3, -⟩ := jacobi_general hext hn hα₁ hβ₁ hs₁
  obtain ⟨r₂, L₂, k1, k2, -, k3, -⟩ := jacobi_general hext hn hα₂ hβ₂ hs₂
  refine ⟨r₁, r₂, g1, k1, fun k h₁ h₂ => ?_⟩
  rw [← g3 heven] at g2
  rw [← k3 heven] at k2
  exact jacobi_markov hα₁ hβ₁ hα₂ hβ₂ hα hβ hne (jacobiFactor_pos hα₁ hβ₁ hs₁) (jacobiFactor_pos hα₂ hβ₂ hs₂) g2 k2 h₁ h₂

example : ∃ ext : Externals ℝ, ExactSolver ext ∧ ∃ r₁ r₂, GaussJacobi.newGeneral ext 4 ⟨0⟩ ⟨1⟩ = some r₁ ∧
    GaussJacobi.newGeneral ext 4 ⟨2⟩ ⟨1⟩ = some r₂ ∧
      ∀ k (h₁ : k < r₁.asNodeWeightPairs.length) (h₂ : k < r₂.asNodeWeightPairs.length),
        (r₂.asNodeWeightPairs[k]).1 < (r₁.asNodeWeightPairs[k]).1 :=
  ⟨_, exactSolver_exists, C48_monotone exactSolver_exists (by norm_num) (by norm_num) (by norm_num) (by norm_num) (by norm_num)
    (by norm_num) (by norm_num) (by norm_num) (by norm_num) (by norm_num) (by norm_num)⟩

end GaussQuad.Props
