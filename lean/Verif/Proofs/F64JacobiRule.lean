import Verif.Proofs.F64JacobiScale
import Verif.Proofs.F64GolubSum

/-! The Jacobi rule in binary64. -/

set_option exponentiation.threshold 3000

namespace GaussQuad.F64
open FloatOps Spec MeasureTheory Polynomial Props

/-- well separated nodes stay in order -/
theorem _root_.GaussQuad.Spec.NearRule.ascending {R : List (F64 × F64)} {G : List (ℝ × ℝ)} {m η ω : ℝ} (h : NearRule R G m η ω)
    (hgap : ∀ i j (hi : i < G.length) (hj : j < G.length), i < j → (G[i]).1 + 2 * η ≤ (G[j]).1) : R.Pairwise fun p q => p.1.val ≤ q.1.val := by
  rw [List.pairwise_iff_getElem]
  intro i j hi hj hij
  have hl := h.length
  have h1 := _root_.abs_le.1 (h.nodes i hi (by omega))
  have h2 := _root_.abs_le.1 (h.nodes j hj (by omega))
  have h3 := hgap i j (by omega) (by omega) hij
  have : ((R[i].1.val : ℚ) : ℝ) ≤ R[j].1.val := by linarith [h1.2, h2.1]
  exact_mod_cast this

/-- overwriting a node whose exact value is `0` with `0` -/
theorem _root_.GaussQuad.Spec.NearRule.set_zero {R : List (F64 × F64)} {G : List (ℝ × ℝ)} {m η ω : ℝ} (h : NearRule R G m η ω) (hη : 0 ≤ η) (hω : ω ≤ 0.05)
    (hm0 : 0 ≤ m) (hm : quad G (fun _ => 1) = m) {i : ℕ} (hi : i < R.length) (hi' : i < G.length) (hz : (G[i]).1 = 0) {z : F64} (hzf : z.isFinite = true)
    (hz0 : z.rv = 0) : NearRule (R.set i (z, (R[i]).2)) G m (2.05 * η) ω := by
  have ht := h.total hη hm
  have hωm : ω * m ≤ 0.05 * m := mul_le_mul_of_nonneg_right hω hm0
  have hpos : ∀ x ∈ R.map fun p => (p.2.val : ℝ), 0 ≤ x := by
    intro z hz; obtain ⟨p, hp, rfl⟩ := List.mem_map.1 hz; exact_mod_cast h.nonneg p hp
  have hw : ((R[i]).2.val : ℝ) ≤ 1.05 * m := by
    have := List.single_le_sum hpos _ (List.mem_map_of_mem (List.getElem_mem hi))
    linarith [(_root_.abs_le.1 ht).2]
  have hw0 : (0 : ℝ) ≤ (R[i]).2.val := by exact_mod_cast h.nonneg _ (List.getElem_mem hi)
  refine ⟨by rw [List.length_set]; exact h.length, ?_, ?_, ?_, ?_⟩
  · intro p hp
    rcases List.mem_or_eq_of_mem_set hp with hp | rfl
    · exact h.finite p hp
    · exact ⟨hzf, (h.finite _ (List.getElem_mem hi)).2⟩
  · intro p hp
    rcases List.mem_or_eq_of_mem_set hp with hp | rfl
    · exact h.nonneg p hp
    · exact h.nonneg (R[i]) (List.getElem_mem hi)
  · intro j hj hj'
    rw [List.getElem_set]
    split
    · next e =>
      subst e
      have e0 : ((z.val : ℚ) : ℝ) = 0 := hz0
      rw [hz, e0, sub_zero, abs_zero]; positivity
    · exact (h.nodes j (by simpa using hj) hj').trans (by linarith)
  · intro g lo hi2 Λ M hΛ hM hin hb hl
    have h1 := h.sums g lo hi2 Λ M hΛ hM (fun q hq => ⟨by linarith [(hin q hq).1], by linarith [(hin q hq).2]⟩) hb hl
    have hGi := hin _ (List.getElem_mem hi')
    rw [hz] at hGi
    have hnode := h.nodes i hi hi'
    rw [hz, sub_zero] at hnode
    have hn' := _root_.abs_le.1 hnode
    have e0 : ((z.val : ℚ) : ℝ) = 0 := hz0
    have hd := hl 0 ⟨by linarith [hGi.1], by linarith [hGi.2]⟩ ((R[i]).1.val : ℝ) ⟨by linarith [hGi.1], by linarith [hGi.2]⟩
    rw [zero_sub, abs_neg] at hd
    have es : ((R.set i (z, (R[i]).2)).map fun p => (p.2.val : ℝ) * g p.1.val).sum = (R.map fun p => (p.2.val : ℝ) * g p.1.val).sum +
        ((R[i]).2.val : ℝ) * (g 0 - g (R[i]).1.val) := by
      rw [List.map_set, List.sum_set', dif_pos (by simpa using hi), List.getElem_map, e0]
      ring
    rw [es]
    have h3 : |((R[i]).2.val : ℝ) * (g 0 - g (R[i]).1.val)| ≤ 1.05 * m * (Λ * η) := by
      rw [abs_mul, abs_of_nonneg hw0]
      exact mul_le_mul hw (hd.trans (mul_le_mul_of_nonneg_left hnode hΛ)) (abs_nonneg _) (by positivity)
    rw [add_sub_right_comm]
    refine (abs_add_le _ _).trans ((add_le_add h1 h3).trans (le_of_eq ?_))
    ring

section
variable [L : Libm]

theorem jacobi_golub_close (hL : AccurateTrig L) (hP : AccuratePow L) (hs : AccurateSqrt L) {ext : Externals F64} {n : ℕ} (hn : 2 ≤ n) (hn1 : n ≤ 10 ^ 12) {ε : ℝ}
    (hst : StableSolver ext n ε) (hε : 0 ≤ ε) (hε1 : ε ≤ 0.01) {a b : F64} {μ : ℝ} (h : JacOk a b μ) (hSN : a.rv + b.rv < -1 → AccurateSinNeg L)
    {G : List (ℝ × ℝ)} (hG : G.length = n) (hGs : G.Pairwise fun p q => p.1 ≤ q.1) (hex : ExactUpTo G (2 * n - 1) (Set.Ioo (-1) 1) (jacW a.rv b.rv) 1) :
    ∃ R, golubWelsch ext n (GaussJacobi.diag a b) (GaussJacobi.offDiag a b) (GaussJacobi.weightScale a b) = some R ∧
      CloseRule R G (2 ^ (a.rv + b.rv + 1) * Real.Gamma (a.rv + 1) * Real.Gamma (b.rv + 1) / Real.Gamma (a.rv + b.rv + 2))
        (1.74 * Real.sqrt n * (ε + 21 * U / μ)) (2.01 * ε + 4.2e-11) := by
  have hU := U_pos
  have hU1 := U_le_eta
  have hn0 : 0 < n := by omega
  have hμ0 := h.μ0
  have hμ1 := h.μ1
  have hμp : 0 < μ := by linarith
  have hga := h.ga
  have hgb := h.gb
  have hsum := h.t
  have h55 : (0 : ℝ) < 1 / 2 ^ 55 := by positivity
  have hα : -1 < a.rv := by linarith
  have hβ : -1 < b.rv := by linarith
  have hne := h.ne
  have hi : 1 ≤ 1 / μ := by rw [le_div_iff₀ hμp]; linarith
  have hi2 : 1 / μ ≤ 1000 := by rw [div_le_iff₀ hμp]; linarith
  have mm := jac_mass_mag h
  have hm := jac_scale hL hP h hSN
  obtain ⟨m, hmd⟩ : ∃ m, m = 2 ^ (a.rv + b.rv + 1) * Real.Gamma (a.rv + 1) * Real.Gamma (b.rv + 1) / Real.Gamma (a.rv + b.rv + 2) := ⟨_, rfl⟩
  rw [← hmd] at mm hm ⊢
  obtain ⟨E, hE, hGE⟩ := gauss_decomposition hn0 (jacA a.rv b.rv) (jacB a.rv b.rv) (integrable_jacobi hα hβ) (posDef_jacobi hα hβ)
    ((jacobi_mass hα hβ).trans hmd.symm) mm.pos (jacobi_orthogonal hα hβ hne) hG hex
  obtain ⟨θ, hθ⟩ : ∃ θ, θ = 20 / μ * U := ⟨_, rfl⟩
  have hθe : θ = 20 * (1 / μ * U) := by rw [hθ]; ring
  have hiU : U ≤ 1 / μ * U := le_mul_of_one_le_left hU.le hi
  have hiU2 : 1 / μ * U ≤ 1000 * (1 / 10 ^ 15) := mul_le_mul hi2 hU1 hU.le (by norm_num)
  obtain ⟨R, hR, hC⟩ := golub_close (κ := 1) (θ := θ) (γ := 4e-11) (ah := GaussJacobi.diag a b) (bh := GaussJacobi.offDiag a b) hn0 hn1 hst hε hε1
    (a := jacA a.rv b.rv) (b := jacB a.rv b.rv)
    (fun k hk => (jac_diag h (by omega)).1.mono (by linarith))
    (fun k hk => (jac_offDiag hs h (by omega)).1.near.mono (by
      rw [← hθ]
      exact mul_le_mul_of_nonneg_left (jacB_le h k) (by linarith)))
    (by linarith [show (2 : ℝ) ≤ 2 ^ 400 by norm_num])
    (Or.inr (Or.inr ⟨0, by omega, (jac_offDiag hs h (by norm_num)).1.lower (by positivity) (by
        rw [show (20 : ℝ) / μ = 20 * (1 / μ) by ring]; linarith) (by
      have := (jac_offDiag hs h (k := 0) (by norm_num)).2
      rw [abs_of_pos this.pos]
      exact (this.mono (by norm_num : 200 ≤ 390) le_rfl).1)⟩))
    (fun k hk => (jac_diag h (by omega)).2) (fun k _ => jacB_le h k) (by linarith) hm mm.1 mm.2 (by norm_num) (by norm_num) hE hGE hGs
  refine ⟨R, hR, hC.mono mm.pos.le ?_ ?_⟩
  · have h3 : Real.sqrt (3 * n) ≤ 1.7325 * Real.sqrt n := by
      rw [Real.sqrt_mul (by norm_num)]
      refine mul_le_mul_of_nonneg_right (Real.sqrt_le_iff.2 ⟨by norm_num, by norm_num⟩) (Real.sqrt_nonneg _)
    have hθ0 : 0 ≤ θ := by linarith
    have h4 : ε * (1 + θ) + θ ≤ ε + 21 * U / μ := by
      have h5 : ε * θ ≤ 0.01 * θ := mul_le_mul_of_nonneg_right hε1 hθ0
      rw [show 21 * U / μ = 21 * (1 / μ * U) by ring]
      linarith
    have h6 : 0 ≤ ε * (1 + θ) + θ := by positivity
    calc (ε * (1 + θ) + θ) * 1 * Real.sqrt (3 * n) = (ε * (1 + θ) + θ) * Real.sqrt (3 * n) := by ring
      _ ≤ (ε + 21 * U / μ) * (1.74 * Real.sqrt n) := by
          refine mul_le_mul h4 (h3.trans (mul_le_mul_of_nonneg_right (by norm_num) (Real.sqrt_nonneg _))) (Real.sqrt_nonneg _) (h6.trans h4)
      _ = _ := by ring
  · have : 1.03 * 4e-11 + 2.2 * U ≤ 4.2e-11 := by unfold U; norm_num
    rw [add_assoc]
    exact (add_le_add_iff_left _).2 this

/-- the degree-1 rule -/
theorem jacobi_one_close (hL : AccurateTrig L) (hP : AccuratePow L) {a b : F64} {μ : ℝ} (h : JacOk a b μ)
    {G : List (ℝ × ℝ)} (hG : G.length = 1) (hex : ExactUpTo G 1 (Set.Ioo (-1) 1) (jacW a.rv b.rv) 1) :
    CloseRule [(GaussJacobi.nodeOne a b, GaussJacobi.weightOne a b)] G
      (2 ^ (a.rv + b.rv + 1) * Real.Gamma (a.rv + 1) * Real.Gamma (b.rv + 1) / Real.Gamma (a.rv + b.rv + 2)) (6 * (1 / μ * U)) 4.2e-11 := by
  have hU := U_pos
  have hU1 := U_le_eta
  have ha2 := h.a2
  have hb2 := h.b2
  have hμ0 := h.μ0
  have hga := h.ga
  have hgb := h.gb
  have hsum := h.t
  have h55 : (0 : ℝ) < 1 / 2 ^ 55 := by positivity
  have hα : -1 < a.rv := by linarith
  have hβ : -1 < b.rv := by linarith
  have hne := h.ne
  have mm := jac_mass_mag h
  have hm := jac_weightOne hL hP h
  obtain ⟨m, hmd⟩ : ∃ m, m = 2 ^ (a.rv + b.rv + 1) * Real.Gamma (a.rv + 1) * Real.Gamma (b.rv + 1) / Real.Gamma (a.rv + b.rv + 2) := ⟨_, rfl⟩
  rw [← hmd] at mm hm ⊢
  have mpos := mm.pos
  obtain ⟨E, hE, hGE⟩ := gauss_decomposition (n := 1) one_pos (jacA a.rv b.rv) (jacB a.rv b.rv) (integrable_jacobi hα hβ) (posDef_jacobi hα hβ)
    ((jacobi_mass hα hβ).trans hmd.symm) mm.pos (jacobi_orthogonal hα hβ hne) hG hex
  have ho : E.eigenvectors 0 0 ^ 2 = 1 := by
    have := hE.orthonormal 0 0
    simpa [sq] using this
  have hev : E.eigenvalues 0 = jacA a.rv b.rv 0 := by
    have h1 := hE.eigen 0 0
    have h2 : E.eigenvectors 0 0 ≠ 0 := by intro h0; rw [h0] at ho; norm_num at ho
    simp [jacobiMatrix] at h1
    exact (mul_right_cancel₀ h2 (h1.resolve_right h2 ▸ rfl)).symm
  have hGeq : G = [(jacA a.rv b.rv 0, m)] := by
    have := List.perm_singleton.1 (by simpa [List.ofFn_succ, ho, hev] using hGE)
    exact this
  have e : jacA a.rv b.rv 0 = (b.rv - a.rv) / (a.rv + b.rv + 2) := by unfold jacA; rw [if_pos rfl]; congr 1; ring
  -- the node
  have hs0 : 0 < a.rv + b.rv + 2 := by linarith
  have nx := jac_sum_rel h lit_two_isNat
  rw [← abs_of_pos hs0, abs_of_pos hs0] at nx
  have n1 := (near_self h.fb).sub (near_self h.fa) (A := |b.rv - a.rv|) (by simp) (by
    refine (abs_sub _ _).trans ?_
    have h1 : |b.rv| ≤ 200 := _root_.abs_le.2 ⟨by linarith, by linarith⟩
    have h2 : |a.rv| ≤ 200 := _root_.abs_le.2 ⟨by linarith, by linarith⟩
    exact le_trans (by linarith : _ ≤ (1000 : ℝ)) (by norm_num))
  rw [add_zero, zero_add] at n1
  have hle : |b.rv - a.rv| ≤ a.rv + b.rv + 2 := _root_.abs_le.2 ⟨by linarith, by linarith⟩
  obtain ⟨q, hqd⟩ : ∃ q, q = |b.rv - a.rv| / |a.rv + b.rv + 2| := ⟨_, rfl⟩
  have hq : q ≤ 1 := by rw [hqd, abs_of_pos hs0, div_le_one hs0]; exact hle
  have hq0 : 0 ≤ q := by rw [hqd]; positivity
  have hε : U * |b.rv - a.rv| / |a.rv + b.rv + 2| = U * q := by rw [hqd]; ring
  have hUq : U * q ≤ U * 1 := mul_le_mul_of_nonneg_left hq hU.le
  obtain ⟨hi, hi2, -⟩ := h.inv
  have hiU : 1 / μ * U ≤ 1000 * (1 / 10 ^ 15) := mul_le_mul hi2 hU1 hU.le (by norm_num)
  have hiU2 : U ≤ 1 / μ * U := le_mul_of_one_le_left hU.le hi
  have hiU0 : 0 ≤ 1 / μ * U := hU.le.trans hiU2
  have hd := n1.div (δ := 3.01 * (1 / μ * U)) (by rw [abs_of_pos hs0]; exact nx) hs0.ne' (by linarith) (by linarith) (by
    rw [hε, ← hqd]
    exact le_trans (by linarith : _ ≤ (2 : ℝ)) (by norm_num))
  have nN : Near (GaussJacobi.nodeOne a b) (jacA a.rv b.rv 0) (6 * (1 / μ * U)) := by
    have eM : GaussJacobi.nodeOne a b = F64.div (F64.sub b a) (F64.add (F64.add a b) (lit 2.0)) := rfl
    rw [e, eM]
    refine hd.mono ?_
    rw [hε, ← hqd]
    have h1 : (1.002 + 1.002 * U) * (U * q) ≤ (1.002 + 1.002 * U) * (U * 1) := mul_le_mul_of_nonneg_left hUq (by positivity)
    have h2 : (1.002 * (3.01 * (1 / μ * U)) + 1.003 * U) * q ≤ (1.002 * (3.01 * (1 / μ * U)) + 1.003 * U) * 1 := mul_le_mul_of_nonneg_left hq (by positivity)
    have h3 : (1 : ℝ) / 2 ^ 1075 ≤ 0.001 * U := by unfold U; norm_num
    have h4 : U * U ≤ U * 0.001 := mul_le_mul_of_nonneg_left (by linarith) hU.le
    linarith
  have hmn := hm.2
  have hmabs := _root_.abs_le.1 hmn
  have hwpos : 0 ≤ (GaussJacobi.weightOne a b).rv := by
    have : 4e-11 * m ≤ 1 * m := mul_le_mul_of_nonneg_right (by norm_num) mpos.le
    linarith [hmabs.1]
  subst hGeq
  generalize GaussJacobi.nodeOne a b = N at nN ⊢
  generalize GaussJacobi.weightOne a b = W at hm hmn hmabs hwpos ⊢
  refine ⟨⟨rfl, ?_, ?_, ?_, ?_⟩, by simp⟩
  · intro p hp
    rw [List.mem_singleton] at hp
    subst hp
    exact ⟨nN.1, hm.1⟩
  · intro p hp
    rw [List.mem_singleton] at hp
    subst hp
    have : (0 : ℝ) ≤ (W.val : ℝ) := hwpos
    exact_mod_cast this
  · intro i hi hi'
    have : i = 0 := by simpa using hi
    subst this
    exact nN.2
  · intro g lo hi Λ M hΛ hM hin hb hl
    have hin := hin _ (List.mem_singleton.2 rfl)
    simp only at hin
    have hN' := _root_.abs_le.1 nN.2
    have hNm : N.rv ∈ Set.Icc lo hi := ⟨by linarith [hin.1], by linarith [hin.2]⟩
    have hAm : jacA a.rv b.rv 0 ∈ Set.Icc lo hi := ⟨by linarith [hin.1], by linarith [hin.2]⟩
    have h1 := hl _ hNm _ hAm
    have h2 := hb _ hNm
    simp only [quad, List.map_cons, List.map_nil, List.sum_cons, List.sum_nil, add_zero]
    change |W.rv * g N.rv - m * g (jacA a.rv b.rv 0)| ≤ _
    rw [show W.rv * g N.rv - m * g (jacA a.rv b.rv 0) = (W.rv - m) * g N.rv + m * (g N.rv - g (jacA a.rv b.rv 0)) by ring]
    refine (abs_add_le _ _).trans ?_
    rw [abs_mul, abs_mul, abs_of_pos mpos]
    have h3 : |W.rv - m| * |g N.rv| ≤ 4e-11 * m * M := mul_le_mul hmn h2 (abs_nonneg _) (by positivity)
    have h4 : m * |g N.rv - g (jacA a.rv b.rv 0)| ≤ m * (Λ * (6 * (1 / μ * U))) :=
      mul_le_mul_of_nonneg_left (h1.trans (mul_le_mul_of_nonneg_left nN.2 hΛ)) mpos.le
    have h5 : 4e-11 * m * M ≤ m * (4.2e-11 * M) := by
      rw [show m * (4.2e-11 * M) = 4.2e-11 * m * M by ring]
      refine mul_le_mul_of_nonneg_right (mul_le_mul_of_nonneg_right (by norm_num) mpos.le) hM
    rw [mul_add]
    linarith

theorem feq_false {a b l : F64} {q : ℚ} (ha : a.isFinite = true) (hb : b.isFinite = true) (hl : l.isFinite = true)
    (hv : l.val = q) (h : ¬ (a.val = q ∧ b.val = q)) : (feq a l && feq b l) = false := by
  by_contra hc
  rw [Bool.not_eq_false, Bool.and_eq_true] at hc
  have h1 := (eqb_finite ha hl).1 hc.1
  have h2 := (eqb_finite hb hl).1 hc.2
  rw [hv] at h1 h2
  exact h ⟨h1, h2⟩

theorem fixMiddle_even {F : Type} [FloatOps F] {n : ℕ} {R : List (F × F)} (h : n % 2 = 0) : GaussJacobi.fixMiddle n R = some R := by
  unfold GaussJacobi.fixMiddle
  rw [if_neg (by simp [h])]

theorem fixMiddle_odd {F : Type} [FloatOps F] {n : ℕ} {R : List (F × F)} (h : n % 2 = 1) (hi : n / 2 < R.length) :
    GaussJacobi.fixMiddle n R = some (R.set (n / 2) (lit 0.0, (R[n / 2]).2)) := by
  unfold GaussJacobi.fixMiddle
  rw [if_pos (by simp [h]), List.getElem?_eq_getElem hi]

theorem jacobi_new_eq {F : Type} [FloatOps F] {mode : Overflow} {ext : Externals F} {n : ℕ} {al be : FiniteAboveNegOne F}
    (h0 : (feq al.get (lit 0.0) && feq be.get (lit 0.0)) = false) (h1 : (feq al.get (lit (-0.5)) && feq be.get (lit (-0.5))) = false)
    (h2 : (feq al.get (lit 0.5) && feq be.get (lit 0.5)) = false) {R : List (F × F)}
    (h : n = 1 ∧ R = [(GaussJacobi.nodeOne al.get be.get, GaussJacobi.weightOne al.get be.get)] ∨
      n ≠ 1 ∧ ∃ R', golubWelsch ext n (GaussJacobi.diag al.get be.get) (GaussJacobi.offDiag al.get be.get) (GaussJacobi.weightScale al.get be.get) = some R' ∧
        GaussJacobi.fixMiddle n R' = some R) :
    GaussJacobi.new mode ext n al be = some { nodeWeightPairs := R, alpha := al, beta := be } := by
  unfold GaussJacobi.new
  rw [h0, h1, h2]
  simp only [Bool.false_eq_true, if_false]
  rcases h with ⟨h, rfl⟩ | ⟨h, R', h3, h4⟩
  · rw [if_pos h]
  · rw [if_neg h]
    unfold GaussJacobi.newGeneral
    rw [h3]
    change (GaussJacobi.fixMiddle n R').bind _ = _
    rw [h4]
    rfl

/-- the Jacobi rule -/
theorem jacobi_close (hL : AccurateTrig L) (hP : AccuratePow L) (hs : AccurateSqrt L) (mode : Overflow) {ext : Externals F64} {n : ℕ} (hn : 0 < n) (hn1 : n ≤ 10 ^ 12)
    {ε : ℝ} (hst : StableSolver ext n ε) (hε : 0 ≤ ε) (hε1 : ε ≤ 0.01) {al be : FiniteAboveNegOne F64} {μ : ℝ} (h : JacOk al.val be.val μ)
    (hSN : al.val.rv + be.val.rv < -1 → AccurateSinNeg L)
    (hd : ¬ (al.val.val = 0 ∧ be.val.val = 0) ∧ ¬ (al.val.val = -1 / 2 ∧ be.val.val = -1 / 2) ∧ ¬ (al.val.val = 1 / 2 ∧ be.val.val = 1 / 2))
    (hodd : n % 2 = 0 ∨ n = 1 ∨ al.val.val = be.val.val)
    {G : List (ℝ × ℝ)} (hG : G.length = n) (hGs : G.Pairwise fun p q => p.1 ≤ q.1) (hex : ExactUpTo G (2 * n - 1) (Set.Ioo (-1) 1) (jacW al.val.rv be.val.rv) 1) :
    ∃ r, GaussJacobi.new mode ext n al be = some r ∧ r.alpha = al ∧ r.beta = be ∧
      NearRule r.nodeWeightPairs G
        (2 ^ (al.val.rv + be.val.rv + 1) * Real.Gamma (al.val.rv + 1) * Real.Gamma (be.val.rv + 1) / Real.Gamma (al.val.rv + be.val.rv + 2))
        (3.6 * Real.sqrt n * (ε + 21 * U / μ)) (2.01 * ε + 4.2e-11) ∧
      (n % 2 = 0 → r.nodeWeightPairs.Pairwise fun p q => p.1.val ≤ q.1.val) := by
  have hU := U_pos
  have hμ0 := h.μ0
  have hμ1 := h.μ1
  have hμp : 0 < μ := by linarith
  have hga := h.ga
  have hgb := h.gb
  have h55 : (0 : ℝ) < 1 / 2 ^ 55 := by positivity
  have hα : -1 < al.val.rv := by linarith
  have hβ : -1 < be.val.rv := by linarith
  have mm := jac_mass_mag h
  have hmass := jacobi_mass hα hβ
  have l0 : (lit 0.0 : F64).isFinite = true ∧ (lit 0.0 : F64).val = 0 := by
    change (round 0.0 false).isFinite = true ∧ (round 0.0 false).val = 0
    decide +kernel
  have l1 : (lit (-0.5) : F64).isFinite = true ∧ (lit (-0.5) : F64).val = -1 / 2 := by
    change (round (-0.5) false).isFinite = true ∧ (round (-0.5) false).val = -1 / 2
    decide +kernel
  have l2 : (lit 0.5 : F64).isFinite = true ∧ (lit 0.5 : F64).val = 1 / 2 := by
    change (round 0.5 false).isFinite = true ∧ (round 0.5 false).val = 1 / 2
    decide +kernel
  have new_eq := fun {R} h' => jacobi_new_eq (mode := mode) (ext := ext) (n := n) (al := al) (be := be) (R := R) (feq_false h.fa h.fb l0.1 l0.2 hd.1)
    (feq_false h.fa h.fb l1.1 l1.2 hd.2.1) (feq_false h.fa h.fb l2.1 l2.2 hd.2.2) h'
  have hη0 : 0 ≤ Real.sqrt n * (ε + 21 * U / μ) := by positivity
  by_cases hn2 : n = 1
  · subst hn2
    have hc := jacobi_one_close hL hP h hG hex
    refine ⟨_, new_eq (Or.inl ⟨rfl, rfl⟩), rfl, rfl, (hc.toNearRule).mono mm.pos.le ?_ ?_, fun h => absurd h (by norm_num)⟩
    · rw [Nat.cast_one, Real.sqrt_one, mul_one]
      rw [show 21 * U / μ = 21 * (1 / μ * U) by ring]
      have : 0 ≤ 1 / μ * U := by positivity
      linarith
    · exact le_add_of_nonneg_left (by positivity)
  obtain ⟨R, hR, hC⟩ := jacobi_golub_close hL hP hs (by omega) hn1 hst hε hε1 h hSN hG hGs hex
  rcases Nat.mod_two_eq_zero_or_one n with he | ho
  · refine ⟨_, new_eq (Or.inr ⟨hn2, R, hR, fixMiddle_even he⟩), rfl, rfl, hC.toNearRule.mono mm.pos.le (by linarith) le_rfl, fun _ => hC.ascending⟩
  · have hab : al.val.val = be.val.val := by
      rcases hodd with h | h | h
      · omega
      · exact absurd h hn2
      · exact h
    have hab' : al.val.rv = be.val.rv := by unfold rv; rw [hab]
    have hlen : R.length = n := hC.length.trans hG
    have hmid : (G[n / 2]'(by omega)).1 = 0 := by
      have hIs : IsGauss G n (Set.Ioo (-1) 1) (jacW al.val.rv be.val.rv) 1 := ⟨hG, hGs, by rw [hG]; exact hex⟩
      refine hIs.middle one_pos (posDef_jacobi hα hβ) (fun p => ?_) ho (by omega)
      rw [hab']
      exact jacobi_reflect _ _ p
    have hω : 2.01 * ε + 4.2e-11 ≤ 0.05 := by
      calc 2.01 * ε + 4.2e-11 ≤ 2.01 * 0.01 + 4.2e-11 := by gcongr
        _ ≤ _ := by norm_num
    have hN := hC.toNearRule.set_zero (by linarith) hω mm.pos.le (quad_one hmass hex) (i := n / 2) (by omega) (by omega) hmid l0.1
      (show ((lit 0.0 : F64).val : ℝ) = 0 by rw [l0.2, Rat.cast_zero])
    refine ⟨_, new_eq (Or.inr ⟨hn2, R, hR, fixMiddle_odd ho (by omega)⟩), rfl, rfl, hN.mono mm.pos.le (by linarith) le_rfl, fun h => by omega⟩

end
end GaussQuad.F64
