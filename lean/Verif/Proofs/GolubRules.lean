import Verif.Proofs.OrthogonalJacobi
import Verif.Proofs.GaussUnique
import Verif.Proofs.Gamma
import Verif.Model.GolubRules

/-! The Hermite, Laguerre and Jacobi rules built with an exact eigen-solver are Gauss rules of their weight functions. -/

namespace GaussQuad
open Polynomial Spec MeasureTheory FloatOps

theorem hermA_eq : (GaussHermite.diag : ℕ → ℝ) = hermA := by
  funext k; simp only [GaussHermite.diag, hermA, real_lit_zero]

theorem hermB_eq : (GaussHermite.offDiag : ℕ → ℝ) = hermB := by
  funext k
  simp only [GaussHermite.offDiag, hermB, real_lit_one, real_lit_half, real_sqrt, real_mul, real_add, real_ofNat]

theorem lagA_eq (α : ℝ) : (GaussLaguerre.diag α : ℕ → ℝ) = lagA α := by
  funext k
  simp only [GaussLaguerre.diag, lagA, real_lit_one, real_lit_two, real_mul, real_add, real_ofNat]

theorem lagB_eq (α : ℝ) : (GaussLaguerre.offDiag α : ℕ → ℝ) = lagB α := by
  funext k
  simp only [GaussLaguerre.offDiag, lagB, real_lit_one, real_sqrt, real_mul, real_add, real_ofNat]

theorem jacA_eq (α β : ℝ) : (GaussJacobi.diag α β : ℕ → ℝ) = jacA α β := by
  funext k
  simp only [GaussJacobi.diag, jacA, real_lit_two, real_mul, real_add, real_sub, real_div, real_ofNat]

theorem jacB_eq (α β : ℝ) : (GaussJacobi.offDiag α β : ℕ → ℝ) = jacB α β := by
  funext k
  simp only [GaussJacobi.offDiag, jacB, real_lit_two, real_lit_one, real_mul, real_add, real_sub, real_div, real_ofNat,
    real_sqrt]

/-- a list of pairs in ascending node order that is a Gauss rule with `n` nodes for `(S, w)` up to the factor `c` -/
structure IsGauss (L : List (ℝ × ℝ)) (n : ℕ) (S : Set ℝ) (w : ℝ → ℝ) (c : ℝ) : Prop where
  length : L.length = n
  sorted : L.Pairwise fun p q => p.1 ≤ q.1
  exact' : ExactUpTo L (2 * L.length - 1) S w c

theorem golubWelsch_gauss {ext : Externals ℝ} (hext : ExactSolver ext) {n : ℕ} (hn : 0 < n) (a b : ℕ → ℝ) (scale : ℝ) {S : Set ℝ}
    {w : ℝ → ℝ} (hint : ∀ p : ℝ[X], IntegrableOn (fun x => p.eval x * w x) S) (hpos : PosDef S w)
    (h : ∀ m, 1 ≤ m → weightFunctional S w hint (monicSeq a b m) = 0) :
    ∃ L, golubWelsch ext n a b scale = some L ∧ IsGauss L n S w (scale / ∫ x in S, w x) := by
  have h1 : weightFunctional S w hint 1 = ∫ x in S, w x := by
    rw [weightFunctional_apply, weightIntegral]; simp
  have h2 : weightFunctional S w hint 1 ≠ 0 := by
    have := hpos 1 one_ne_zero (fun x _ => by simp)
    exact this.ne'
  obtain ⟨L, e1, e2, e3, e4⟩ := golubWelsch_exact hext hn a b scale h h2
  refine ⟨L, e1, e2, e3, ?_⟩
  intro p hp
  rw [e4 p (by rwa [e2] at hp), h1]; rfl

theorem hermite_gauss {ext : Externals ℝ} (hext : ExactSolver ext) {n : ℕ} (hn : 0 < n) :
    ∃ r : Rule ℝ, GaussHermite.new ext n = some r ∧ IsGauss r.nodeWeightPairs n Set.univ hermW 1 := by
  obtain ⟨L, h1, h2⟩ := golubWelsch_gauss hext hn hermA hermB (Real.sqrt Real.pi) integrable_hermite posDef_hermite
    hermite_orthogonal
  refine ⟨⟨L⟩, ?_, ?_⟩
  · simp only [GaussHermite.new, hermA_eq, hermB_eq, real_sqrt, real_pi, h1]; rfl
  · rwa [hermite_mass, div_self (by positivity)] at h2

theorem laguerre_mass {α : ℝ} (hα : -1 < α) : ∫ x in Set.Ioi 0, lagW α x = Real.Gamma (α + 1) := by
  have := (lag_monomial hα 0).2
  simpa using this

theorem laguerre_gauss {ext : Externals ℝ} (hext : ExactSolver ext) {n : ℕ} (hn : 0 < n) (α : FiniteAboveNegOne ℝ)
    (hα : -1 < α.get) :
    ∃ r : LaguerreRule ℝ, GaussLaguerre.new ext n α = some r ∧ r.alpha = α ∧
      IsGauss r.nodeWeightPairs n (Set.Ioi 0) (lagW α.get) (gamma (α.get + 1) / Real.Gamma (α.get + 1)) := by
  obtain ⟨L, h1, h2⟩ := golubWelsch_gauss hext hn (lagA α.get) (lagB α.get) (gamma (α.get + 1)) (integrable_laguerre hα)
    (posDef_laguerre hα) (laguerre_orthogonal hα)
  refine ⟨{ nodeWeightPairs := L, alpha := α }, ?_, rfl, ?_⟩
  · simp only [GaussLaguerre.new, lagA_eq, lagB_eq, real_add, real_lit_one, h1]; rfl
  · rwa [laguerre_mass hα] at h2

theorem laguerre_factor_pos {α : ℝ} (hα : -1 < α) : 0 < (gamma (α + 1) : ℝ) / Real.Gamma (α + 1) :=
  div_pos (gamma_pos (by linarith)) (Real.Gamma_pos_of_pos (by linarith))

/-! ### Jacobi -/

/-- relative error of the scale factor of the general branch: `γ` for the crate's gamma function -/
noncomputable def jacobiFactor (α β : ℝ) : ℝ :=
  (gamma (α + 1) / Real.Gamma (α + 1)) * (gamma (β + 1) / Real.Gamma (β + 1)) /
    ((α + β + 1) * gamma (α + β + 1) / Real.Gamma (α + β + 2))

theorem jacobi_scale_pos {α β : ℝ} (hα : -1 < α) (hβ : -1 < β) (hs : α + β ≠ -1) : 0 < (α + β + 1) * (gamma (α + β + 1) : ℝ) := by
  rcases lt_or_gt_of_ne hs with h | h
  · exact mul_pos_of_neg_of_neg (by linarith) (gamma_neg (by linarith) (by linarith))
  · exact mul_pos (by linarith) (gamma_pos (by linarith))

theorem jacobiFactor_pos {α β : ℝ} (hα : -1 < α) (hβ : -1 < β) (hs : α + β ≠ -1) : 0 < jacobiFactor α β := by
  unfold jacobiFactor
  exact div_pos (mul_pos (laguerre_factor_pos hα) (laguerre_factor_pos hβ))
    (div_pos (jacobi_scale_pos hα hβ hs) (Real.Gamma_pos_of_pos (by linarith)))

theorem weightScale_eq {α β : ℝ} (hα : -1 < α) (hβ : -1 < β) (hs : α + β ≠ -1) :
    (GaussJacobi.weightScale α β : ℝ) / ∫ x in Set.Ioo (-1 : ℝ) 1, jacW α β x = jacobiFactor α β := by
  rw [jacobi_mass hα hβ]
  have h1 := (Real.Gamma_pos_of_pos (by linarith : 0 < α + 1)).ne'
  have h2 := (Real.Gamma_pos_of_pos (by linarith : 0 < β + 1)).ne'
  have h3 := (Real.Gamma_pos_of_pos (by linarith : 0 < α + β + 2)).ne'
  have h4 : (2 : ℝ) ^ (α + β + 1) ≠ 0 := (Real.rpow_pos_of_pos (by norm_num) _).ne'
  have h5 := (jacobi_scale_pos hα hβ hs).ne'
  have h6 : (gamma (α + β + 1) : ℝ) ≠ 0 := right_ne_zero_of_mul h5
  have h7 : α + β + 1 ≠ 0 := left_ne_zero_of_mul h5
  simp only [GaussJacobi.weightScale, jacobiFactor, real_lit_two, real_lit_one, real_mul, real_add, real_div, real_pow]
  field_simp

theorem jacobi_golub {ext : Externals ℝ} (hext : ExactSolver ext) {n : ℕ} (hn : 0 < n) {α β : ℝ} (hα : -1 < α) (hβ : -1 < β)
    (hs : α + β ≠ -1) :
    ∃ L, golubWelsch ext n (GaussJacobi.diag α β) (GaussJacobi.offDiag α β) (GaussJacobi.weightScale α β) = some L ∧
      IsGauss L n (Set.Ioo (-1) 1) (jacW α β) (jacobiFactor α β) := by
  obtain ⟨L, h1, h2⟩ := golubWelsch_gauss hext hn (jacA α β) (jacB α β) (GaussJacobi.weightScale α β) (integrable_jacobi hα hβ)
    (posDef_jacobi hα hβ) (jacobi_orthogonal hα hβ hs)
  refine ⟨L, by rw [jacA_eq, jacB_eq, h1], ?_⟩
  rwa [weightScale_eq hα hβ hs] at h2

/-- reflection of the Jacobi weight -/
theorem jacobi_reflect (α β : ℝ) (p : ℝ[X]) :
    weightIntegral (Set.Ioo (-1) 1) (jacW β α) (p.comp (-X)) = weightIntegral (Set.Ioo (-1) 1) (jacW α β) p := by
  unfold weightIntegral
  rw [setIntegral_Ioo_eq_interval (by norm_num), setIntegral_Ioo_eq_interval (by norm_num)]
  have h := intervalIntegral.integral_comp_neg (a := -1) (b := 1) (fun x => p.eval x * jacW α β x)
  rw [neg_neg] at h
  rw [← h]
  apply intervalIntegral.integral_congr
  intro x _
  simp only [jacW, eval_comp, eval_neg, eval_X]
  rw [sub_neg_eq_add, ← sub_eq_add_neg]; ring

theorem hermite_reflect (p : ℝ[X]) : weightIntegral Set.univ hermW (p.comp (-X)) = weightIntegral Set.univ hermW p := by
  unfold weightIntegral
  rw [setIntegral_univ, setIntegral_univ, ← integral_neg_eq_self]
  congr 1; ext x
  simp [hermW]

theorem jacobiFactor_comm (α β : ℝ) : jacobiFactor α β = jacobiFactor β α := by
  unfold jacobiFactor
  rw [add_comm β α, mul_comm (gamma (β + 1) / Real.Gamma (β + 1))]

/-- strictly sorted nodes -/
theorem IsGauss.strict {L : List (ℝ × ℝ)} {n : ℕ} {S : Set ℝ} {w : ℝ → ℝ} {c : ℝ} (h : IsGauss L n S w c) (hc : 0 < c)
    (hpos : PosDef S w) : (L.map Prod.fst).Pairwise (· < ·) := by
  have h1 := gauss_nodes_nodup hc h.exact' hpos
  have h2 : (L.map Prod.fst).Pairwise (· ≤ ·) := by rw [List.pairwise_map]; exact h.sorted
  exact List.Pairwise.imp₂ (fun _ _ hle hne => lt_of_le_of_ne hle hne) h2 h1

/-- two strictly sorted lists that are permutations of each other are equal -/
theorem sorted_perm_eq {l l' : List ℝ} (h : l.Perm l') (hs : l.Pairwise (· ≤ ·)) (hs' : l'.Pairwise (· ≤ ·)) : l = l' :=
  h.eq_of_pairwise (fun _ _ _ _ h1 h2 => le_antisymm h1 h2) hs hs'

/-- the rule of the reflected weight is the reflected rule, in reverse order -/
theorem IsGauss.reverse {L L' : List (ℝ × ℝ)} {n : ℕ} {S : Set ℝ} {w w' : ℝ → ℝ} {c : ℝ} (h : IsGauss L n S w c)
    (h' : IsGauss L' n S w' c) (hc : 0 < c) (hpos : PosDef S w)
    (hrefl : ∀ p : ℝ[X], weightIntegral S w' (p.comp (-X)) = weightIntegral S w p) :
    L = (L'.map fun p => (-p.1, p.2)).reverse := by
  have hlen : L'.length = L.length := h'.length.trans h.length.symm
  have hp := gauss_reflect hc h.exact' (by rw [← hlen]; exact h'.exact') hlen hpos hrefl
  have hstrict := h.strict hc hpos
  rw [List.pairwise_map] at hstrict
  refine List.Perm.eq_of_pairwise (le := fun p q : ℝ × ℝ => p.1 ≤ q.1) ?_ h.sorted ?_ (hp.symm.trans (List.reverse_perm _).symm)
  · intro p q hp' hq' h1 h2
    have hq2 : q ∈ L := hp.mem_iff.1 (List.mem_reverse.1 hq')
    have e : p.1 = q.1 := le_antisymm h1 h2
    have hinj := List.inj_on_of_nodup_map (f := Prod.fst) (gauss_nodes_nodup hc h.exact' hpos)
    exact hinj hp' hq2 e
  · rw [List.pairwise_reverse, List.pairwise_map]
    exact h'.sorted.imp fun h => neg_le_neg h

/-- the middle node of an odd symmetric rule is 0 -/
theorem IsGauss.middle {L : List (ℝ × ℝ)} {n : ℕ} {S : Set ℝ} {w : ℝ → ℝ} {c : ℝ} (h : IsGauss L n S w c) (hc : 0 < c)
    (hpos : PosDef S w) (hrefl : ∀ p : ℝ[X], weightIntegral S w (p.comp (-X)) = weightIntegral S w p) (hodd : n % 2 = 1)
    (hlt : n / 2 < L.length) : (L[n / 2]).1 = 0 := by
  have e := h.reverse h hc hpos hrefl
  have hl := h.length
  have e2 : L[n / 2]? = (L.map fun p => (-p.1, p.2)).reverse[n / 2]? := by rw [← e]
  rw [List.getElem?_eq_getElem hlt, List.getElem?_eq_getElem (by simpa using hlt), List.getElem_reverse, List.getElem_map] at e2
  have e3 : L.length - 1 - n / 2 = n / 2 := by omega
  simp only [List.length_map, e3] at e2
  have := congrArg Prod.fst (Option.some.inj e2)
  simp only at this
  linarith

/-- the nodes of Gauss-Jacobi lie in `(-1, 1)` -/
theorem jacobi_nodes {L : List (ℝ × ℝ)} {n : ℕ} {α β c : ℝ} (hα : -1 < α) (hβ : -1 < β)
    (h : IsGauss L n (Set.Ioo (-1) 1) (jacW α β) c) (hc : 0 < c) : ∀ p ∈ L, -1 < p.1 ∧ p.1 < 1 := fun p hp =>
  ⟨gauss_nodes_gt hc h.exact' (posDef_jacobi hα hβ) (fun _ hx => hx.1.le) p hp,
    gauss_nodes_lt hc h.exact' (posDef_jacobi hα hβ) (fun _ hx => hx.2.le) p hp⟩

/-- monotone dependence of the Jacobi nodes on the parameters: a smaller `α` and a larger `β` move every node to the right -/
theorem jacobi_markov {L₁ L₂ : List (ℝ × ℝ)} {n : ℕ} {α₁ β₁ α₂ β₂ c₁ c₂ : ℝ} (hα₁ : -1 < α₁) (hβ₁ : -1 < β₁) (hα₂ : -1 < α₂)
    (hβ₂ : -1 < β₂) (hα : α₁ ≤ α₂) (hβ : β₂ ≤ β₁) (hne : (α₁, β₁) ≠ (α₂, β₂)) (hc₁ : 0 < c₁) (hc₂ : 0 < c₂)
    (h₁ : IsGauss L₁ n (Set.Ioo (-1) 1) (jacW α₁ β₁) c₁) (h₂ : IsGauss L₂ n (Set.Ioo (-1) 1) (jacW α₂ β₂) c₂) {k : ℕ}
    (hk₁ : k < L₁.length) (hk₂ : k < L₂.length) : (L₂[k]).1 < (L₁[k]).1 := by
  have hlen : L₂.length = L₁.length := h₂.length.trans h₁.length.symm
  refine gauss_markov (f := fun x => (1 - x) ^ (α₁ - α₂) * (1 + x) ^ (β₁ - β₂)) isOpen_Ioo ⟨0, by simp⟩ (w₁ := jacW α₁ β₁)
    (w₂ := jacW α₂ β₂) ?_ ?_ ?_ ?_ (integrable_jacobi hα₁ hβ₁) (integrable_jacobi hα₂ hβ₂) hc₁ hc₂ hlen h₁.sorted h₂.sorted
    (fun p hp => (gauss_weights_pos hc₁ h₁.exact' (posDef_jacobi hα₁ hβ₁) p hp).le)
    (fun p hp => (gauss_weights_pos hc₂ h₂.exact' (posDef_jacobi hα₂ hβ₂) p hp).le)
    h₁.exact' (by rw [← hlen]; exact h₂.exact') hk₁ (jacobi_nodes hα₁ hβ₁ h₁ hc₁ _ (List.getElem_mem _))
  · intro x hx
    exact mul_pos (Real.rpow_pos_of_pos (by linarith [hx.2]) _) (Real.rpow_pos_of_pos (by linarith [hx.1]) _)
  · intro x hx
    have h1 : 0 < 1 - x := by linarith [hx.2]
    have h2 : 0 < 1 + x := by linarith [hx.1]
    simp only [jacW]
    rw [show (1 - x) ^ (α₁ - α₂) * (1 + x) ^ (β₁ - β₂) * ((1 - x) ^ α₂ * (1 + x) ^ β₂) =
      ((1 - x) ^ (α₁ - α₂) * (1 - x) ^ α₂) * ((1 + x) ^ (β₁ - β₂) * (1 + x) ^ β₂) by ring, ← Real.rpow_add h1,
      ← Real.rpow_add h2, sub_add_cancel, sub_add_cancel]
  · intro x hx
    exact mul_pos (Real.rpow_pos_of_pos (by linarith [hx.2]) _) (Real.rpow_pos_of_pos (by linarith [hx.1]) _)
  · intro x hx y hy hxy
    have hx1 : 0 < 1 - x := by linarith [hx.2]
    have hx2 : 0 < 1 + x := by linarith [hx.1]
    have hy1 : 0 < 1 - y := by linarith [hy.2]
    have hy2 : 0 < 1 + y := by linarith [hy.1]
    simp only
    have hA : (1 - x) ^ (α₁ - α₂) ≤ (1 - y) ^ (α₁ - α₂) :=
      Real.rpow_le_rpow_of_nonpos hy1 (by linarith) (by linarith)
    have hB : (1 + x) ^ (β₁ - β₂) ≤ (1 + y) ^ (β₁ - β₂) := Real.rpow_le_rpow hx2.le (by linarith) (by linarith)
    have hApos : 0 < (1 - x) ^ (α₁ - α₂) := Real.rpow_pos_of_pos hx1 _
    have hBpos : 0 < (1 + x) ^ (β₁ - β₂) := Real.rpow_pos_of_pos hx2 _
    rcases eq_or_lt_of_le hα with ha | ha
    · have hb : β₂ < β₁ := by
        rcases eq_or_lt_of_le hβ with hb | hb
        · exact absurd (by rw [ha, hb]) hne
        · exact hb
      have hB' : (1 + x) ^ (β₁ - β₂) < (1 + y) ^ (β₁ - β₂) := Real.rpow_lt_rpow hx2.le (by linarith) (by linarith)
      exact mul_lt_mul' hA hB' hBpos.le (hApos.trans_le hA)
    · have hA' : (1 - x) ^ (α₁ - α₂) < (1 - y) ^ (α₁ - α₂) :=
        Real.rpow_lt_rpow_of_neg hy1 (by linarith) (by linarith)
      exact mul_lt_mul hA' hB hBpos (hApos.trans hA').le

end GaussQuad
