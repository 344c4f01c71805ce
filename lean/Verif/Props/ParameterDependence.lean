import Verif.Props.ClassicalForm
import Verif.Proofs.ParameterLimit

/-!
# C107: how nodes and results depend on the parameters

Gauss-Laguerre (`/repo/src/laguerre/mod.rs:75-92`) and Gauss-Jacobi (`/repo/src/jacobi/mod.rs:77-144`).
-/

namespace GaussQuad.Props
open Polynomial Spec FloatOps MeasureTheory

/-- if every entry grows, no entry grows by more than the sum -/
theorem entry_le_sum {xs ys : List ℝ} (hlen : xs.length = ys.length) (h : ∀ k (h₁ : k < xs.length) (h₂ : k < ys.length), xs[k] ≤ ys[k]) {k : ℕ} (h₁ : k < xs.length)
    (h₂ : k < ys.length) : ys[k] - xs[k] ≤ ys.sum - xs.sum := by
  induction xs generalizing ys k with
  | nil => simp at h₁
  | cons x xs ih =>
    cases ys with
    | nil => simp at h₂
    | cons y ys =>
      have h0 : x ≤ y := h 0 (by simp) (by simp)
      have hl : xs.length = ys.length := by simpa using hlen
      have ht : ∀ k (h₁ : k < xs.length) (h₂ : k < ys.length), xs[k] ≤ ys[k] := fun k h₁ h₂ => h (k + 1) (by simpa using h₁) (by simpa using h₂)
      have hsum : xs.sum ≤ ys.sum := by
        refine List.Forall₂.sum_le_sum (List.forall₂_iff_get.2 ⟨hl, fun i h1 h2 => by simpa using ht i h1 h2⟩)
      rw [List.sum_cons, List.sum_cons]
      cases k with
      | zero => simp only [List.getElem_cons_zero]; linarith
      | succ k =>
        simp only [List.getElem_cons_succ]
        have := ih hl ht (k := k) (by simpa using h₁) (by simpa using h₂)
        linarith

theorem node_le_sum {L L' : List (ℝ × ℝ)} (hlen : L.length = L'.length) (h : ∀ k (h₁ : k < L.length) (h₂ : k < L'.length), (L[k]).1 ≤ (L'[k]).1) {k : ℕ} (h₁ : k < L.length)
    (h₂ : k < L'.length) : (L'[k]).1 - (L[k]).1 ≤ (L'.map Prod.fst).sum - (L.map Prod.fst).sum := by
  have := entry_le_sum (xs := L.map Prod.fst) (ys := L'.map Prod.fst) (by simpa using hlen) (fun k h1 h2 => by simpa using h k (by simpa using h1) (by simpa using h2))
    (k := k) (by simpa using h₁) (by simpa using h₂)
  simpa using this

theorem laguerre_markov {L₁ L₂ : List (ℝ × ℝ)} {n : ℕ} {α₁ α₂ c₁ c₂ : ℝ} (hα₁ : -1 < α₁) (hα₂ : -1 < α₂) (hα : α₂ < α₁) (hc₁ : 0 < c₁) (hc₂ : 0 < c₂)
    (h₁ : IsGauss L₁ n (Set.Ioi 0) (lagW α₁) c₁) (h₂ : IsGauss L₂ n (Set.Ioi 0) (lagW α₂) c₂) {k : ℕ} (hk₁ : k < L₁.length) (hk₂ : k < L₂.length) : (L₂[k]).1 < (L₁[k]).1 := by
  refine gauss_markov (f := fun x => x ^ (α₁ - α₂)) isOpen_Ioi ⟨1, by simp⟩ (w₁ := lagW α₁) (w₂ := lagW α₂) ?_ ?_ ?_ ?_ (integrable_laguerre hα₁) (integrable_laguerre hα₂) hc₁ hc₂
    (h₂.length.trans h₁.length.symm) h₁.sorted h₂.sorted (fun p hp => (gauss_weights_pos hc₁ h₁.exact' (posDef_laguerre hα₁) p hp).le)
    (fun p hp => (gauss_weights_pos hc₂ h₂.exact' (posDef_laguerre hα₂) p hp).le) h₁.exact' (by have := h₂.exact'; rwa [h₂.length.trans h₁.length.symm] at this) hk₁ ?_
  · intro x hx; exact mul_pos (Real.rpow_pos_of_pos hx _) (Real.exp_pos _)
  · intro x hx
    have hx' : (0 : ℝ) < x := hx
    simp only [lagW]
    rw [← mul_assoc, ← Real.rpow_add hx', sub_add_cancel]
  · intro x hx; exact Real.rpow_pos_of_pos hx _
  · intro x hx y _ hxy; exact Real.rpow_lt_rpow (show (0 : ℝ) < x from hx).le hxy (by linarith)
  · exact gauss_nodes_gt hc₁ h₁.exact' (posDef_laguerre hα₁) (fun x hx => (show (0 : ℝ) < x from hx).le) _ (List.getElem_mem hk₁)

theorem laguerre_nodes_move {L₁ L₂ : List (ℝ × ℝ)} {n : ℕ} (hn : 0 < n) {α₁ α₂ c₁ c₂ : ℝ} (hα₁ : -1 < α₁) (hα₂ : -1 < α₂) (hα : α₂ < α₁) (hc₁ : 0 < c₁) (hc₂ : 0 < c₂)
    (h₁ : IsGauss L₁ n (Set.Ioi 0) (lagW α₁) c₁) (h₂ : IsGauss L₂ n (Set.Ioi 0) (lagW α₂) c₂) {k : ℕ} (hk₁ : k < L₁.length) (hk₂ : k < L₂.length) :
    (L₂[k]).1 < (L₁[k]).1 ∧ (L₁[k]).1 ≤ (L₂[k]).1 + n * (α₁ - α₂) := by
  refine ⟨laguerre_markov hα₁ hα₂ hα hc₁ hc₂ h₁ h₂ hk₁ hk₂, ?_⟩
  have := node_le_sum (h₂.length.trans h₁.length.symm) (fun k a b => (laguerre_markov hα₁ hα₂ hα hc₁ hc₂ h₁ h₂ b a).le) hk₂ hk₁
  rw [h₁.node_sum hn hc₁ (posDef_laguerre hα₁) (integrable_laguerre hα₁) (laguerre_orthogonal hα₁), sum_lagA,
    h₂.node_sum hn hc₂ (posDef_laguerre hα₂) (integrable_laguerre hα₂) (laguerre_orthogonal hα₂), sum_lagA] at this
  linarith

/-- C107: when `α` grows by `δ`, every Gauss-Laguerre node moves to the right, by at most `n δ` -/
theorem C107_laguerre {ext : Externals ℝ} (hext : ExactSolver ext) {n : ℕ} (hn : 0 < n) {α α' : FiniteAboveNegOne ℝ} (hα : -1 < α.get) (hlt : α.get < α'.get) :
    ∃ r r' : LaguerreRule ℝ, GaussLaguerre.new ext n α = some r ∧ GaussLaguerre.new ext n α' = some r' ∧
      ∀ k (h : k < r.asNodeWeightPairs.length) (h' : k < r'.asNodeWeightPairs.length),
        (r.asNodeWeightPairs[k]).1 < (r'.asNodeWeightPairs[k]).1 ∧ (r'.asNodeWeightPairs[k]).1 ≤ (r.asNodeWeightPairs[k]).1 + n * (α'.get - α.get) := by
  have hα' : -1 < α'.get := hα.trans hlt
  obtain ⟨r, h1, -, h2⟩ := laguerre_gauss hext hn α hα
  obtain ⟨r', h1', -, h2'⟩ := laguerre_gauss hext hn α' hα'
  exact ⟨r, r', h1, h1', fun k h h' => laguerre_nodes_move hn hα' hα hlt (laguerre_factor_pos hα') (laguerre_factor_pos hα) h2' h2 h' h⟩

theorem jacobi_nodes_move {L₁ L₂ : List (ℝ × ℝ)} {n : ℕ} (hn : 0 < n) {α₁ β₁ α₂ β₂ c₁ c₂ : ℝ} (hα₁ : -1 < α₁) (hβ₁ : -1 < β₁) (hα₂ : -1 < α₂) (hβ₂ : -1 < β₂) (hα : α₁ ≤ α₂)
    (hβ : β₂ ≤ β₁) (hne : (α₁, β₁) ≠ (α₂, β₂)) (hs₁ : α₁ + β₁ ≠ -1) (hs₂ : α₂ + β₂ ≠ -1) (hc₁ : 0 < c₁) (hc₂ : 0 < c₂) (h₁ : IsGauss L₁ n (Set.Ioo (-1) 1) (jacW α₁ β₁) c₁)
    (h₂ : IsGauss L₂ n (Set.Ioo (-1) 1) (jacW α₂ β₂) c₂) {k : ℕ} (hk₁ : k < L₁.length) (hk₂ : k < L₂.length) :
    (L₂[k]).1 < (L₁[k]).1 ∧ (L₁[k]).1 ≤ (L₂[k]).1 + (n * (β₁ - α₁) / (2 * n + α₁ + β₁) - n * (β₂ - α₂) / (2 * n + α₂ + β₂)) := by
  refine ⟨jacobi_markov hα₁ hβ₁ hα₂ hβ₂ hα hβ hne hc₁ hc₂ h₁ h₂ hk₁ hk₂, ?_⟩
  have := node_le_sum (h₂.length.trans h₁.length.symm) (fun k a b => (jacobi_markov hα₁ hβ₁ hα₂ hβ₂ hα hβ hne hc₁ hc₂ h₁ h₂ b a).le) hk₂ hk₁
  rw [jacobi_node_sum hα₁ hβ₁ hs₁ hc₁ hn h₁, jacobi_node_sum hα₂ hβ₂ hs₂ hc₂ hn h₂] at this
  linarith

theorem alpha_alg {n a a' b : ℝ} (f1 : 2 * n + a + b ≠ 0) (f2 : 2 * n + a' + b ≠ 0) :
    n * (b - a) / (2 * n + a + b) - n * (b - a') / (2 * n + a' + b) = 2 * n * (n + b) / ((2 * n + a + b) * (2 * n + a' + b)) * (a' - a) := by
  rw [div_sub_div _ _ f1 f2, div_mul_eq_mul_div]
  congr 1
  ring

theorem beta_alg {n a b b' : ℝ} (f1 : 2 * n + a + b ≠ 0) (f2 : 2 * n + a + b' ≠ 0) :
    n * (b' - a) / (2 * n + a + b') - n * (b - a) / (2 * n + a + b) = 2 * n * (n + a) / ((2 * n + a + b) * (2 * n + a + b')) * (b' - b) := by
  rw [div_sub_div _ _ f2 f1, div_mul_eq_mul_div, mul_comm (2 * n + a + b') (2 * n + a + b)]
  congr 1
  ring

/-- C107: when `α` grows by `δ`, every Gauss-Jacobi node moves to the left, by at most `2n(n + β)/((2n + α + β)(2n + α' + β)) δ` -/
theorem C107_jacobi_alpha {ext : Externals ℝ} (hext : ExactSolver ext) (mode : Overflow) {n : ℕ} (hn : 0 < n) (hodd : n % 2 = 0 ∨ n = 1) {α α' β : FiniteAboveNegOne ℝ}
    (hα : -1 < α.get) (hβ : -1 < β.get) (hlt : α.get < α'.get) (hs : α.get + β.get ≠ -1) (hs' : α'.get + β.get ≠ -1) (hd : ¬ Delegated α.get β.get) (hd' : ¬ Delegated α'.get β.get) :
    ∃ r r' : JacobiRule ℝ, GaussJacobi.new mode ext n α β = some r ∧ GaussJacobi.new mode ext n α' β = some r' ∧
      ∀ k (h : k < r.asNodeWeightPairs.length) (h' : k < r'.asNodeWeightPairs.length),
        (r'.asNodeWeightPairs[k]).1 < (r.asNodeWeightPairs[k]).1 ∧
        (r.asNodeWeightPairs[k]).1 ≤ (r'.asNodeWeightPairs[k]).1 +
          2 * n * (n + β.get) / ((2 * n + α.get + β.get) * (2 * n + α'.get + β.get)) * (α'.get - α.get) := by
  have hα' : -1 < α'.get := hα.trans hlt
  have hn1 : (1 : ℝ) ≤ n := by exact_mod_cast hn
  have hodd' : ∀ x y : FiniteAboveNegOne ℝ, n % 2 = 0 ∨ n = 1 ∨ x = y := fun x y => hodd.imp id Or.inl
  obtain ⟨r, c, h1, hc, -, h2⟩ := jacobi_isGauss hext mode hn hα hβ hs hd (hodd' _ _)
  obtain ⟨r', c', h1', hc', -, h2'⟩ := jacobi_isGauss hext mode hn hα' hβ hs' hd' (hodd' _ _)
  refine ⟨r, r', h1, h1', fun k h h' => ?_⟩
  obtain ⟨e1, e2⟩ := jacobi_nodes_move hn hα hβ hα' hβ hlt.le le_rfl (fun e => hlt.ne (congrArg Prod.fst e)) hs hs' hc hc' h2 h2' h h'
  refine ⟨e1, e2.trans (le_of_eq ?_)⟩
  have f1 : 2 * (n : ℝ) + α.get + β.get ≠ 0 := by linarith
  have f2 : 2 * (n : ℝ) + α'.get + β.get ≠ 0 := by linarith
  show _ = (r'.nodeWeightPairs[k]'h').1 + _
  congr 1
  exact alpha_alg f1 f2

/-- C107: when `β` grows by `δ`, every Gauss-Jacobi node moves to the right, by at most `2n(n + α)/((2n + α + β)(2n + α + β')) δ` -/
theorem C107_jacobi_beta {ext : Externals ℝ} (hext : ExactSolver ext) (mode : Overflow) {n : ℕ} (hn : 0 < n) (hodd : n % 2 = 0 ∨ n = 1) {α β β' : FiniteAboveNegOne ℝ}
    (hα : -1 < α.get) (hβ : -1 < β.get) (hlt : β.get < β'.get) (hs : α.get + β.get ≠ -1) (hs' : α.get + β'.get ≠ -1) (hd : ¬ Delegated α.get β.get) (hd' : ¬ Delegated α.get β'.get) :
    ∃ r r' : JacobiRule ℝ, GaussJacobi.new mode ext n α β = some r ∧ GaussJacobi.new mode ext n α β' = some r' ∧
      ∀ k (h : k < r.asNodeWeightPairs.length) (h' : k < r'.asNodeWeightPairs.length),
        (r.asNodeWeightPairs[k]).1 < (r'.asNodeWeightPairs[k]).1 ∧
        (r'.asNodeWeightPairs[k]).1 ≤ (r.asNodeWeightPairs[k]).1 +
          2 * n * (n + α.get) / ((2 * n + α.get + β.get) * (2 * n + α.get + β'.get)) * (β'.get - β.get) := by
  have hβ' : -1 < β'.get := hβ.trans hlt
  have hn1 : (1 : ℝ) ≤ n := by exact_mod_cast hn
  have hodd' : ∀ x y : FiniteAboveNegOne ℝ, n % 2 = 0 ∨ n = 1 ∨ x = y := fun x y => hodd.imp id Or.inl
  obtain ⟨r, c, h1, hc, -, h2⟩ := jacobi_isGauss hext mode hn hα hβ hs hd (hodd' _ _)
  obtain ⟨r', c', h1', hc', -, h2'⟩ := jacobi_isGauss hext mode hn hα hβ' hs' hd' (hodd' _ _)
  refine ⟨r, r', h1, h1', fun k h h' => ?_⟩
  obtain ⟨e1, e2⟩ := jacobi_nodes_move hn hα hβ' hα hβ le_rfl hlt.le (fun e => hlt.ne' (congrArg Prod.snd e)) hs' hs hc' hc h2' h2 h' h
  refine ⟨e1, e2.trans (le_of_eq ?_)⟩
  have f1 : 2 * (n : ℝ) + α.get + β.get ≠ 0 := by linarith
  have f2 : 2 * (n : ℝ) + α.get + β'.get ≠ 0 := by linarith
  show _ = (r.nodeWeightPairs[k]'h).1 + _
  congr 1
  exact beta_alg f1 f2

/-! ### Continuity of the results -/

open Filter Topology

/-- two results whose scale factors are close to 1 -/
theorem close_of_ratio {Q Q' c c' η ε : ℝ} (hη : η ≤ 1e-3) (hc : |c - 1| ≤ η) (hc' : |c' - 1| ≤ η) (hε : 0 < ε) (h : |Q' / c' - Q / c| < ε / 2) : |Q' - Q| ≤ ε + 2.01 * η * |Q| := by
  obtain ⟨a1, a2⟩ := abs_le.1 hc
  obtain ⟨b1, b2⟩ := abs_le.1 hc'
  have hcp : 0.999 ≤ c := by norm_num at hη ⊢; linarith
  have hcp' : 0.999 ≤ c' := by norm_num at hη ⊢; linarith
  have e : Q' - Q = c' * (Q' / c' - Q / c) + (c' - c) * (Q / c) := by
    have : c ≠ 0 := by norm_num at hcp; linarith
    have : c' ≠ 0 := by norm_num at hcp'; linarith
    field_simp
    ring
  rw [e]
  refine (abs_add_le _ _).trans (add_le_add ?_ ?_)
  · rw [abs_mul, abs_of_pos (by norm_num at hcp'; linarith)]
    have : c' ≤ 2 := by norm_num at hη; linarith
    nlinarith [abs_nonneg (Q' / c' - Q / c)]
  · have h1 : |c' - c| ≤ 2 * η := abs_le.2 ⟨by linarith, by linarith⟩
    have h2 : |Q / c| ≤ 1.005 * |Q| := by
      rw [abs_div, abs_of_pos (a := c) (by norm_num at hcp; linarith), div_le_iff₀ (by norm_num at hcp; linarith)]
      norm_num at hcp ⊢
      nlinarith [abs_nonneg Q]
    rw [abs_mul]
    calc |c' - c| * |Q / c| ≤ (2 * η) * (1.005 * |Q|) := mul_le_mul h1 h2 (abs_nonneg _) (le_trans (abs_nonneg _) h1)
      _ = 2.01 * η * |Q| := by ring

theorem abs_move {x y d : ℝ} (h : x < y ∧ y ≤ x + d) : |y - x| ≤ |d| := by
  rw [abs_of_pos (by linarith)]
  exact le_trans (by linarith [h.2]) (le_abs_self d)

theorem laguerre_limit {n : ℕ} (hn : 0 < n) {A : ℝ → List (ℝ × ℝ)} (hA : ∀ α, -1 < α → IsGauss (A α) n (Set.Ioi 0) (lagW α) (gamma (α + 1) / Real.Gamma (α + 1))) {α : ℝ} (hα : -1 < α)
    {f : ℝ → ℝ} (hf : ContinuousOn f (Set.Ioi 0)) :
    Tendsto (fun s => quad (A s) f / (gamma (s + 1) / Real.Gamma (s + 1))) (𝓝 α) (𝓝 (quad (A α) f / (gamma (α + 1) / Real.Gamma (α + 1)))) := by
  have hev : ∀ᶠ s in 𝓝 α, -1 < s := eventually_gt_nhds hα
  have hpos : ∀ s, -1 < s → ∀ p ∈ A s, 0 < p.1 := fun s hs =>
    gauss_nodes_gt (laguerre_factor_pos hs) (hA s hs).exact' (posDef_laguerre hs) (fun x hx => (show (0 : ℝ) < x from hx).le)
  have hw : ∀ s, -1 < s → ∀ p ∈ A s, p.2 * (p.1 * (derivative (rootPoly ((A s).map Prod.fst))).eval p.1 ^ 2) =
      gamma (s + 1) / Real.Gamma (s + 1) * (n.factorial * Real.Gamma (n + s + 1)) := by
    intro s hs p hp
    rw [(hA s hs).rootPoly hn (laguerre_factor_pos hs) (posDef_laguerre hs) (integrable_laguerre hs) (laguerre_orthogonal hs)]
    exact (laguerre_weight hs (laguerre_factor_pos hs) hn (hA s hs) hp).1
  refine quad_tendsto (n := n) (K := fun s => n.factorial * Real.Gamma (n + s + 1)) (K₀ := n.factorial * Real.Gamma (n + α + 1)) (q := fun x => x) (hA α hα).length ?_ ?_ ?_ (hw α hα) ?_ ?_ ?_ ?_ ?_
    (laguerre_factor_pos hα).ne'
  · filter_upwards [hev] with s hs using (hA s hs).length
  · intro k hk
    rw [tendsto_iff_norm_sub_tendsto_zero]
    refine squeeze_zero' (Eventually.of_forall fun _ => norm_nonneg _) (g := fun s => |(n : ℝ) * (s - α)|) ?_ ?_
    · filter_upwards [hev] with s hs
      have l1 := (hA s hs).length
      have l2 := (hA α hα).length
      rw [List.getD_eq_getElem _ _ (by omega), List.getD_eq_getElem _ _ (by omega), Real.norm_eq_abs]
      rcases lt_trichotomy s α with h | h | h
      · have := abs_move (laguerre_nodes_move hn hα hs h (laguerre_factor_pos hα) (laguerre_factor_pos hs) (hA α hα) (hA s hs) (k := k) (by omega) (by omega))
        rw [abs_sub_comm]
        refine this.trans (le_of_eq ?_)
        rw [← abs_neg]
        congr 1
        ring
      · subst h; simp
      · exact abs_move (laguerre_nodes_move hn hs hα h (laguerre_factor_pos hs) (laguerre_factor_pos hα) (hA s hs) (hA α hα) (k := k) (by omega) (by omega))
    · have : Continuous fun s : ℝ => |(n : ℝ) * (s - α)| := by fun_prop
      simpa using this.tendsto α
  · filter_upwards [hev] with s hs using hw s hs
  · have h1 : ContinuousAt Real.Gamma (n + α + 1) := (Real.differentiableAt_Gamma fun m h => by
      have : (0 : ℝ) ≤ m := Nat.cast_nonneg m
      have : (0 : ℝ) ≤ n := Nat.cast_nonneg n
      linarith).continuousAt
    have h2 : Tendsto (fun s : ℝ => (n : ℝ) + s + 1) (𝓝 α) (𝓝 (n + α + 1)) := by
      have : Continuous fun s : ℝ => (n : ℝ) + s + 1 := by fun_prop
      exact this.tendsto α
    exact (h1.tendsto.comp h2).const_mul _
  · exact fun p hp => ⟨continuousAt_id, (hpos α hα p hp).ne'⟩
  · exact fun p hp => rootPoly_deriv_ne (gauss_nodes_nodup (laguerre_factor_pos hα) (hA α hα).exact' (posDef_laguerre hα)) (List.mem_map.2 ⟨p, hp, rfl⟩)
  · exact fun p hp => hf.continuousAt (Ioi_mem_nhds (hpos α hα p hp))
  · filter_upwards [hev] with s hs using (laguerre_factor_pos hs).ne'

theorem laguerre_factor_close {α : ℝ} (hα : -1 < α) : |(gamma (α + 1) : ℝ) / Real.Gamma (α + 1) - 1| ≤ 2e-12 :=
  C49_gamma_accurate fun m h => by
    have : (0 : ℝ) ≤ m := Nat.cast_nonneg m
    linarith

/-- C107: a small change of `α` changes the result of `GaussLaguerre::integrate` little: up to the error of the crate's gamma function the result is continuous in `α` -/
theorem C107_laguerre_value {ext : Externals ℝ} (hext : ExactSolver ext) {n : ℕ} (hn : 0 < n) {α : FiniteAboveNegOne ℝ} (hα : -1 < α.get) {f : ℝ → ℝ} (hf : ContinuousOn f (Set.Ioi 0))
    (a b : ℝ) {ε : ℝ} (hε : 0 < ε) :
    ∃ r : LaguerreRule ℝ, GaussLaguerre.new ext n α = some r ∧ ∃ δ > 0, ∀ α' : FiniteAboveNegOne ℝ, |α'.get - α.get| < δ →
      ∃ r' : LaguerreRule ℝ, GaussLaguerre.new ext n α' = some r' ∧
        |(AnyRule.laguerre r').value a b f - (AnyRule.laguerre r).value a b f| ≤ ε + 5e-12 * |(AnyRule.laguerre r).value a b f| := by
  have hA : ∀ s : ℝ, -1 < s → IsGauss (((GaussLaguerre.new ext n ⟨s⟩).map (·.nodeWeightPairs)).getD []) n (Set.Ioi 0) (lagW s) (gamma (s + 1) / Real.Gamma (s + 1)) := by
    intro s hs
    obtain ⟨r, h1, -, h2⟩ := laguerre_gauss hext hn ⟨s⟩ hs
    rw [h1]
    exact h2
  have hlim := laguerre_limit hn hA hα hf
  rw [Metric.tendsto_nhds_nhds] at hlim
  obtain ⟨δ, hδ, h⟩ := hlim (ε / 2) (by linarith)
  obtain ⟨r, h1, -, -⟩ := laguerre_gauss hext hn α hα
  refine ⟨r, h1, min δ (α.get + 1), lt_min hδ (by linarith), fun α' hα' => ?_⟩
  have hα1 : -1 < α'.get := by linarith [(abs_lt.1 (hα'.trans_le (min_le_right _ _))).1]
  obtain ⟨r', h1', -, -⟩ := laguerre_gauss hext hn α' hα1
  refine ⟨r', h1', ?_⟩
  have := h (x := α'.get) (by rw [Real.dist_eq]; exact hα'.trans_le (min_le_left _ _))
  rw [Real.dist_eq, show (⟨α'.get⟩ : FiniteAboveNegOne ℝ) = α' from rfl, show (⟨α.get⟩ : FiniteAboveNegOne ℝ) = α from rfl, h1, h1'] at this
  rw [value_real, value_real]
  refine (close_of_ratio (by norm_num) (laguerre_factor_close hα) (laguerre_factor_close hα1) hε this).trans ?_
  have := abs_nonneg (quad r.nodeWeightPairs f)
  show ε + 2.01 * 2e-12 * |quad r.nodeWeightPairs f| ≤ ε + 5e-12 * |quad r.nodeWeightPairs f|
  norm_num
  linarith

theorem gauss_quad_div {L L' : List (ℝ × ℝ)} {n : ℕ} {S : Set ℝ} {w : ℝ → ℝ} {c c' : ℝ} (hc : 0 < c) (hc' : 0 < c') (hpos : PosDef S w) (hl : L.length = n) (hl' : L'.length = n)
    (h : ExactUpTo L (2 * n - 1) S w c) (h' : ExactUpTo L' (2 * n - 1) S w c') (f : ℝ → ℝ) : quad L f / c = quad L' f / c' := by
  have hp := gauss_unique hc hc' (hl'.trans hl.symm) (by rwa [hl]) (by rwa [hl]) hpos
  rw [← quad_perm hp f]
  simp only [quad, List.map_map]
  have : (L.map ((fun p : ℝ × ℝ => p.2 * f p.1) ∘ fun p => (p.1, c' / c * p.2))) = L.map fun p => c' / c * (p.2 * f p.1) := by
    refine List.map_congr_left fun p _ => ?_
    simp only [Function.comp]
    ring
  rw [this, List.sum_map_mul_left]
  have := hc.ne'
  have := hc'.ne'
  field_simp

theorem jacobi_limit {n : ℕ} (hn : 0 < n) {A : ℝ × ℝ → List (ℝ × ℝ)} {c : ℝ × ℝ → ℝ} {U : Set (ℝ × ℝ)} (hU : ∀ θ, θ ∈ U ↔ -1 < θ.1 ∧ -1 < θ.2 ∧ θ.1 + θ.2 ≠ -1)
    (hc : ∀ θ ∈ U, 0 < c θ) (hA : ∀ θ ∈ U, IsGauss (A θ) n (Set.Ioo (-1) 1) (jacW θ.1 θ.2) (c θ)) {θ : ℝ × ℝ} (hθ : θ ∈ U) {f : ℝ → ℝ} (hf : ContinuousOn f (Set.Ioo (-1) 1)) :
    Tendsto (fun s => quad (A s) f / c s) (𝓝 θ) (𝓝 (quad (A θ) f / c θ)) := by
  obtain ⟨t1, t2, t3⟩ := (hU θ).1 hθ
  have hn1 : (1 : ℝ) ≤ n := by exact_mod_cast hn
  have c1 : Tendsto (fun s : ℝ × ℝ => s.1) (𝓝 θ) (𝓝 θ.1) := continuous_fst.tendsto θ
  have c2 : Tendsto (fun s : ℝ × ℝ => s.2) (𝓝 θ) (𝓝 θ.2) := continuous_snd.tendsto θ
  have hev : ∀ᶠ s in 𝓝 θ, s ∈ U := by
    filter_upwards [c1.eventually (eventually_gt_nhds t1), c2.eventually (eventually_gt_nhds t2), (c1.add c2).eventually_ne t3] with s h1 h2 h3 using (hU s).2 ⟨h1, h2, h3⟩
  have hev2 : ∀ᶠ s in 𝓝 θ, (s.1, θ.2) ∈ U := by
    filter_upwards [c1.eventually (eventually_gt_nhds t1), (c1.add tendsto_const_nhds).eventually_ne t3] with s h1 h3 using (hU _).2 ⟨h1, t2, h3⟩
  have hw : ∀ s ∈ U, ∀ p ∈ A s, p.2 * ((1 - p.1 ^ 2) * (derivative (rootPoly ((A s).map Prod.fst))).eval p.1 ^ 2) =
      c s * (2 ^ (2 * n + s.1 + s.2 + 1) * n.factorial * Real.Gamma (n + s.1 + 1) * Real.Gamma (n + s.2 + 1) * Real.Gamma (n + s.1 + s.2 + 1) / Real.Gamma (2 * n + s.1 + s.2 + 1) ^ 2) := by
    intro s hs p hp
    obtain ⟨h1, h2, h3⟩ := (hU s).1 hs
    rw [(hA s hs).rootPoly hn (hc s hs) (posDef_jacobi h1 h2) (integrable_jacobi h1 h2) (jacobi_orthogonal h1 h2 h3)]
    exact jacobi_weight h1 h2 h3 (hc s hs) hn (hA s hs) hp
  have hbox : ∀ p ∈ A θ, -1 < p.1 ∧ p.1 < 1 := jacobi_nodes t1 t2 (hA θ hθ) (hc θ hθ)
  have hG : ∀ {g : ℝ × ℝ → ℝ} , Continuous g → 0 < g θ → Tendsto (fun s => Real.Gamma (g s)) (𝓝 θ) (𝓝 (Real.Gamma (g θ))) := by
    intro g hg h0
    have h1 : ContinuousAt Real.Gamma (g θ) := (Real.differentiableAt_Gamma fun m h => by
      have : (0 : ℝ) ≤ m := Nat.cast_nonneg m
      linarith).continuousAt
    exact h1.tendsto.comp (hg.tendsto θ)
  -- the sum of the nodes
  have hS : Tendsto (fun s : ℝ × ℝ => (n : ℝ) * (s.2 - s.1) / (2 * n + s.1 + s.2)) (𝓝 θ) (𝓝 (n * (θ.2 - θ.1) / (2 * n + θ.1 + θ.2))) := by
    refine Tendsto.div ?_ ?_ (by linarith)
    · have : Continuous fun s : ℝ × ℝ => (n : ℝ) * (s.2 - s.1) := by fun_prop
      exact this.tendsto θ
    · have : Continuous fun s : ℝ × ℝ => 2 * (n : ℝ) + s.1 + s.2 := by fun_prop
      exact this.tendsto θ
  have hmid : Tendsto (fun s : ℝ × ℝ => (s.1, θ.2)) (𝓝 θ) (𝓝 θ) := by
    have : Continuous fun s : ℝ × ℝ => (s.1, θ.2) := by fun_prop
    exact this.tendsto θ
  have move : ∀ s ∈ U, ∀ t ∈ U, s.1 ≤ t.1 → t.2 ≤ s.2 → ∀ k (h1 : k < (A s).length) (h2 : k < (A t).length), |(A s)[k].1 - (A t)[k].1| ≤
      |(n : ℝ) * (s.2 - s.1) / (2 * n + s.1 + s.2) - n * (t.2 - t.1) / (2 * n + t.1 + t.2)| := by
    intro s hs t ht h1 h2 k k1 k2
    by_cases e : s = t
    · subst e; simp
    · obtain ⟨a1, a2, a3⟩ := (hU s).1 hs
      obtain ⟨b1, b2, b3⟩ := (hU t).1 ht
      exact abs_move (jacobi_nodes_move hn a1 a2 b1 b2 h1 h2 e a3 b3 (hc s hs) (hc t ht) (hA s hs) (hA t ht) k1 k2)
  have move' : ∀ s ∈ U, ∀ t ∈ U, (s.1 = t.1 ∨ s.2 = t.2) → ∀ k (h1 : k < (A s).length) (h2 : k < (A t).length), |(A s)[k].1 - (A t)[k].1| ≤
      |(n : ℝ) * (s.2 - s.1) / (2 * n + s.1 + s.2) - n * (t.2 - t.1) / (2 * n + t.1 + t.2)| := by
    intro s hs t ht h k k1 k2
    rcases h with h | h
    · rcases le_total s.2 t.2 with g | g
      · rw [abs_sub_comm, abs_sub_comm (n * (s.2 - s.1) / (2 * n + s.1 + s.2))]
        exact move t ht s hs h.ge g k k2 k1
      · exact move s hs t ht h.le g k k1 k2
    · rcases le_total s.1 t.1 with g | g
      · exact move s hs t ht g h.ge k k1 k2
      · rw [abs_sub_comm, abs_sub_comm (n * (s.2 - s.1) / (2 * n + s.1 + s.2))]
        exact move t ht s hs g h.le k k2 k1
  refine quad_tendsto (n := n) (K := fun s => (2 : ℝ) ^ (2 * (n : ℝ) + s.1 + s.2 + 1) * n.factorial * Real.Gamma (n + s.1 + 1) * Real.Gamma (n + s.2 + 1) * Real.Gamma (n + s.1 + s.2 + 1) /
    Real.Gamma (2 * n + s.1 + s.2 + 1) ^ 2) (q := fun x => 1 - x ^ 2) (hA θ hθ).length ?_ ?_ ?_ (hw θ hθ) ?_ ?_ ?_ ?_ ?_ (hc θ hθ).ne'
  · filter_upwards [hev] with s hs using (hA s hs).length
  · intro k hk
    rw [tendsto_iff_norm_sub_tendsto_zero]
    refine squeeze_zero' (Eventually.of_forall fun _ => norm_nonneg _) (g := fun s => |(n : ℝ) * (s.2 - s.1) / (2 * n + s.1 + s.2) - n * (θ.2 - s.1) / (2 * n + s.1 + θ.2)| +
      |(n : ℝ) * (θ.2 - s.1) / (2 * n + s.1 + θ.2) - n * (θ.2 - θ.1) / (2 * n + θ.1 + θ.2)|) ?_ ?_
    · filter_upwards [hev, hev2] with s hs hs2
      have l1 := (hA s hs).length
      have l2 := (hA θ hθ).length
      have l3 := (hA _ hs2).length
      rw [List.getD_eq_getElem _ _ (by omega), List.getD_eq_getElem _ _ (by omega), Real.norm_eq_abs]
      have e1 := move' s hs _ hs2 (Or.inl rfl) k (by omega) (by omega)
      have e2 := move' _ hs2 θ hθ (Or.inr rfl) k (by omega) (by omega)
      exact (abs_sub_le _ _ _).trans (add_le_add e1 e2)
    · have h2 := hS.comp hmid
      have := ((hS.sub h2).abs).add ((h2.sub_const (n * (θ.2 - θ.1) / (2 * n + θ.1 + θ.2))).abs)
      simpa using this
  · filter_upwards [hev] with s hs using hw s hs
  · refine Tendsto.div (((Tendsto.mul ?_ tendsto_const_nhds).mul ?_).mul ?_ |>.mul ?_) ((?_ : Tendsto _ _ _).pow 2) ?_
    · have : Continuous fun s : ℝ × ℝ => (2 : ℝ) ^ (2 * (n : ℝ) + s.1 + s.2 + 1) := Continuous.rpow (by fun_prop) (by fun_prop) (fun _ => Or.inl (by norm_num))
      exact this.tendsto θ
    · exact hG (g := fun s => n + s.1 + 1) (by fun_prop) (by linarith)
    · exact hG (g := fun s => n + s.2 + 1) (by fun_prop) (by linarith)
    · exact hG (g := fun s => n + s.1 + s.2 + 1) (by fun_prop) (by linarith)
    · exact hG (g := fun s => 2 * n + s.1 + s.2 + 1) (by fun_prop) (by linarith)
    · exact pow_ne_zero 2 (Real.Gamma_pos_of_pos (by linarith)).ne'
  · refine fun p hp => ⟨by fun_prop, ?_⟩
    nlinarith [hbox p hp]
  · exact fun p hp => rootPoly_deriv_ne (gauss_nodes_nodup (hc θ hθ) (hA θ hθ).exact' (posDef_jacobi t1 t2)) (List.mem_map.2 ⟨p, hp, rfl⟩)
  · exact fun p hp => hf.continuousAt (Ioo_mem_nhds (hbox p hp).1 (hbox p hp).2)
  · filter_upwards [hev] with s hs using (hc s hs).ne'

theorem jacobi_value_close {ext : Externals ℝ} (hext : ExactSolver ext) (mode : Overflow) {n : ℕ} (hn : 0 < n) {α β : FiniteAboveNegOne ℝ} (hα : -1 < α.get) (hβ : -1 < β.get)
    (hs : α.get + β.get ≠ -1) {r : JacobiRule ℝ} {c : ℝ} (hc : 0 < c) (hc1 : |c - 1| ≤ 6e-12) (hlen : r.nodeWeightPairs.length = n) (hex : JacobiExact r n α.get β.get c)
    {a b : ℝ} (hab : a < b) {f : ℝ → ℝ} (hf : ContinuousOn f (Set.Ioo a b)) {ε : ℝ} (hε : 0 < ε) :
    ∃ δ > 0, ∀ α' β' : FiniteAboveNegOne ℝ, |α'.get - α.get| < δ → |β'.get - β.get| < δ → ¬ Delegated α'.get β'.get → (n % 2 = 0 ∨ n = 1 ∨ α' = β') →
      ∃ r' : JacobiRule ℝ, GaussJacobi.new mode ext n α' β' = some r' ∧
        |(AnyRule.jacobi r').value a b f - (AnyRule.jacobi r).value a b f| ≤ ε + 13e-12 * |(AnyRule.jacobi r).value a b f| := by
  have h2 : 0 < (b - a) / 2 := by linarith
  set g : ℝ → ℝ := fun x => f ((b - a) / 2 * x + (a + b) / 2) with hg
  have hgc : ContinuousOn g (Set.Ioo (-1) 1) := by
    refine hf.comp (by fun_prop) fun x hx => ?_
    have h3 : 0 < (b - a) / 2 * (1 + x) := mul_pos h2 (by linarith [hx.1])
    have h4 : 0 < (b - a) / 2 * (1 - x) := mul_pos h2 (by linarith [hx.2])
    constructor <;> linarith
  set U : Set (ℝ × ℝ) := {θ | -1 < θ.1 ∧ -1 < θ.2 ∧ θ.1 + θ.2 ≠ -1} with hU
  set A : ℝ × ℝ → List (ℝ × ℝ) := fun θ => (golubWelsch ext n (GaussJacobi.diag θ.1 θ.2) (GaussJacobi.offDiag θ.1 θ.2) (GaussJacobi.weightScale θ.1 θ.2)).getD [] with hAd
  have hA : ∀ θ ∈ U, IsGauss (A θ) n (Set.Ioo (-1) 1) (jacW θ.1 θ.2) (jacobiFactor θ.1 θ.2) := by
    rintro θ ⟨e1, e2, e3⟩
    obtain ⟨L, h1, h2⟩ := jacobi_golub hext hn e1 e2 e3
    rw [hAd]
    simp only [h1]
    exact h2
  have hlim := jacobi_limit hn (U := U) (fun _ => Iff.rfl) (fun θ h => jacobiFactor_pos h.1 h.2.1 h.2.2) hA (θ := (α.get, β.get)) ⟨hα, hβ, hs⟩ hgc
  have hev : ∀ᶠ s in 𝓝 (α.get, β.get), s ∈ U := by
    have c1 : Tendsto (fun s : ℝ × ℝ => s.1) (𝓝 (α.get, β.get)) (𝓝 α.get) := continuous_fst.tendsto _
    have c2 : Tendsto (fun s : ℝ × ℝ => s.2) (𝓝 (α.get, β.get)) (𝓝 β.get) := continuous_snd.tendsto _
    filter_upwards [c1.eventually (eventually_gt_nhds hα), c2.eventually (eventually_gt_nhds hβ), (c1.add c2).eventually_ne hs] with s h1 h2 h3 using ⟨h1, h2, h3⟩
  have hε' : 0 < ε / ((b - a) / 2) / 2 := by positivity
  obtain ⟨δ, hδ, h⟩ := Metric.eventually_nhds_iff.1 (hev.and (Metric.tendsto_nhds.1 hlim _ hε'))
  refine ⟨δ, hδ, fun α' β' h3 h4 hd' hodd' => ?_⟩
  obtain ⟨⟨u1, u2, u3⟩, h5⟩ := h (y := (α'.get, β'.get)) (by rw [Prod.dist_eq]; exact max_lt h3 h4)
  obtain ⟨r', c', h1', hc', hc1', h2'⟩ := jacobi_isGauss hext mode hn u1 u2 u3 hd' hodd'
  refine ⟨r', h1', ?_⟩
  have q1 := gauss_quad_div hc (jacobiFactor_pos hα hβ hs) (posDef_jacobi hα hβ) hlen (hA (α.get, β.get) ⟨hα, hβ, hs⟩).length (exactUpTo_of_jacobiExact hex)
    (by have := (hA (α.get, β.get) ⟨hα, hβ, hs⟩).exact'; rwa [(hA (α.get, β.get) ⟨hα, hβ, hs⟩).length] at this) g
  have q2 := gauss_quad_div hc' (jacobiFactor_pos u1 u2 u3) (posDef_jacobi u1 u2) h2'.length (hA (α'.get, β'.get) ⟨u1, u2, u3⟩).length (by have := h2'.exact'; rwa [h2'.length] at this)
    (by have := (hA (α'.get, β'.get) ⟨u1, u2, u3⟩).exact'; rwa [(hA (α'.get, β'.get) ⟨u1, u2, u3⟩).length] at this) g
  rw [Real.dist_eq, ← q1, ← q2] at h5
  rw [value_gauss_quad (R := AnyRule.jacobi r') rfl, value_gauss_quad (R := AnyRule.jacobi r) rfl, ← mul_sub, abs_mul, abs_mul, abs_of_pos h2]
  have h6 := close_of_ratio (by norm_num) hc1 hc1' (by positivity) h5
  have h7 := mul_le_mul_of_nonneg_left h6 h2.le
  refine h7.trans ?_
  rw [mul_add, mul_div_cancel₀ _ h2.ne']
  have h8 : 0 ≤ (b - a) / 2 * |quad r.nodeWeightPairs g| := mul_nonneg h2.le (abs_nonneg _)
  show ε + (b - a) / 2 * (2.01 * 6e-12 * |quad r.nodeWeightPairs g|) ≤ ε + 13e-12 * ((b - a) / 2 * |quad r.nodeWeightPairs g|)
  norm_num
  linarith

/-- C107: a small change of `(α, β)` changes the result of `GaussJacobi::integrate` little: up to the error of the crate's gamma function the result is continuous in the parameters -/
theorem C107_jacobi_value {ext : Externals ℝ} (hext : ExactSolver ext) (mode : Overflow) {n : ℕ} (hn : 0 < n) {α β : FiniteAboveNegOne ℝ} (hα : -1 < α.get) (hβ : -1 < β.get)
    (hs : α.get + β.get ≠ -1) (hd : ¬ Delegated α.get β.get) (hodd : n % 2 = 0 ∨ n = 1 ∨ α = β) {a b : ℝ} (hab : a < b) {f : ℝ → ℝ} (hf : ContinuousOn f (Set.Ioo a b)) {ε : ℝ} (hε : 0 < ε) :
    ∃ r : JacobiRule ℝ, GaussJacobi.new mode ext n α β = some r ∧ ∃ δ > 0, ∀ α' β' : FiniteAboveNegOne ℝ, |α'.get - α.get| < δ → |β'.get - β.get| < δ → ¬ Delegated α'.get β'.get →
      (n % 2 = 0 ∨ n = 1 ∨ α' = β') → ∃ r' : JacobiRule ℝ, GaussJacobi.new mode ext n α' β' = some r' ∧
        |(AnyRule.jacobi r').value a b f - (AnyRule.jacobi r).value a b f| ≤ ε + 13e-12 * |(AnyRule.jacobi r).value a b f| := by
  obtain ⟨r, c, h1, hc, hc1, hex, hlen⟩ := jacobi_exact_rule hext mode hn hα hβ hs hd hodd
  exact ⟨r, h1, jacobi_value_close hext mode hn hα hβ hs hc hc1 hlen hex hab hf hε⟩

/-- C107: no jump where the constructor switches to the Chebyshev rule of the second kind -/
theorem C107_jacobi_half {ext : Externals ℝ} (hext : ExactSolver ext) (mode : Overflow) {n : ℕ} (hn : 0 < n) (hlt : n + 1 < 2 ^ 64) {a b : ℝ} (hab : a < b) {f : ℝ → ℝ}
    (hf : ContinuousOn f (Set.Ioo a b)) {ε : ℝ} (hε : 0 < ε) :
    ∃ r : JacobiRule ℝ, GaussJacobi.new mode ext n ⟨1 / 2⟩ ⟨1 / 2⟩ = some r ∧ ∃ δ > 0, ∀ α' β' : FiniteAboveNegOne ℝ, |α'.get - 1 / 2| < δ → |β'.get - 1 / 2| < δ → ¬ Delegated α'.get β'.get →
      (n % 2 = 0 ∨ n = 1 ∨ α' = β') → ∃ r' : JacobiRule ℝ, GaussJacobi.new mode ext n α' β' = some r' ∧
        |(AnyRule.jacobi r').value a b f - (AnyRule.jacobi r).value a b f| ≤ ε + 13e-12 * |(AnyRule.jacobi r).value a b f| := by
  obtain ⟨r, h1, hex⟩ := (C34_chebyshev mode ext hn hlt).2
  refine ⟨r, h1, jacobi_value_close hext mode hn (α := ⟨1 / 2⟩) (β := ⟨1 / 2⟩) ?_ ?_ ?_ one_pos (by norm_num) ?_ hex hab hf hε⟩
  · norm_num [FiniteAboveNegOne.get]
  · norm_num [FiniteAboveNegOne.get]
  · norm_num [FiniteAboveNegOne.get]
  · have e : (lit (-0.5) : ℝ) = -1 / 2 := by simp; norm_num
    unfold GaussJacobi.new at h1
    simp only [real_feq, real_lit_zero, real_lit_half, e] at h1
    rw [if_neg (by norm_num), if_neg (by norm_num), if_pos (by norm_num), cheb2_new_eq hlt] at h1
    cases h1
    exact length_pairs2 n

/-! ### Instances -/

/-- eight nodes: from `α = 0` to `α = 1/100` every Laguerre node moves right by at most 8/100 -/
example {ext : Externals ℝ} (hext : ExactSolver ext) : ∃ r r' : LaguerreRule ℝ, GaussLaguerre.new ext 8 ⟨0⟩ = some r ∧ GaussLaguerre.new ext 8 ⟨1 / 100⟩ = some r' ∧
    ∀ k (h : k < r.asNodeWeightPairs.length) (h' : k < r'.asNodeWeightPairs.length),
      (r.asNodeWeightPairs[k]).1 < (r'.asNodeWeightPairs[k]).1 ∧ (r'.asNodeWeightPairs[k]).1 ≤ (r.asNodeWeightPairs[k]).1 + 8 / 100 := by
  obtain ⟨r, r', h1, h2, h3⟩ := C107_laguerre hext (n := 8) (by norm_num) (α := ⟨0⟩) (α' := ⟨1 / 100⟩) (by norm_num [FiniteAboveNegOne.get]) (by norm_num [FiniteAboveNegOne.get])
  refine ⟨r, r', h1, h2, fun k h h' => ⟨(h3 k h h').1, (h3 k h h').2.trans (le_of_eq ?_)⟩⟩
  norm_num [FiniteAboveNegOne.get]

/-- four nodes: from `(1, 2)` to `(3, 2)` every Jacobi node moves left by at most 96/143; from `(1, 2)` to `(1, 3)` right by at most 10/33 -/
example {ext : Externals ℝ} (hext : ExactSolver ext) : ∃ r r' r'' : JacobiRule ℝ, GaussJacobi.new .wrapping ext 4 ⟨1⟩ ⟨2⟩ = some r ∧ GaussJacobi.new .wrapping ext 4 ⟨3⟩ ⟨2⟩ = some r' ∧
    GaussJacobi.new .wrapping ext 4 ⟨1⟩ ⟨3⟩ = some r'' ∧
    (∀ k (h : k < r.asNodeWeightPairs.length) (h' : k < r'.asNodeWeightPairs.length),
      (r'.asNodeWeightPairs[k]).1 < (r.asNodeWeightPairs[k]).1 ∧ (r.asNodeWeightPairs[k]).1 ≤ (r'.asNodeWeightPairs[k]).1 + 96 / 143) ∧
    ∀ k (h : k < r.asNodeWeightPairs.length) (h' : k < r''.asNodeWeightPairs.length),
      (r.asNodeWeightPairs[k]).1 < (r''.asNodeWeightPairs[k]).1 ∧ (r''.asNodeWeightPairs[k]).1 ≤ (r.asNodeWeightPairs[k]).1 + 10 / 33 := by
  obtain ⟨r, r', h1, h2, h3⟩ := C107_jacobi_alpha hext .wrapping (n := 4) (by norm_num) (Or.inl rfl) (α := ⟨1⟩) (α' := ⟨3⟩) (β := ⟨2⟩) (by norm_num [FiniteAboveNegOne.get])
    (by norm_num [FiniteAboveNegOne.get]) (by norm_num [FiniteAboveNegOne.get]) (by norm_num [FiniteAboveNegOne.get]) (by norm_num [FiniteAboveNegOne.get])
    (by norm_num [Delegated, FiniteAboveNegOne.get]) (by norm_num [Delegated, FiniteAboveNegOne.get])
  obtain ⟨r₁, r'', h1', h2', h3'⟩ := C107_jacobi_beta hext .wrapping (n := 4) (by norm_num) (Or.inl rfl) (α := ⟨1⟩) (β := ⟨2⟩) (β' := ⟨3⟩) (by norm_num [FiniteAboveNegOne.get])
    (by norm_num [FiniteAboveNegOne.get]) (by norm_num [FiniteAboveNegOne.get]) (by norm_num [FiniteAboveNegOne.get]) (by norm_num [FiniteAboveNegOne.get])
    (by norm_num [Delegated, FiniteAboveNegOne.get]) (by norm_num [Delegated, FiniteAboveNegOne.get])
  obtain rfl : r = r₁ := Option.some.inj (h1.symm.trans h1')
  refine ⟨r, r', r'', h1, h2, h2', fun k h h' => ⟨(h3 k h h').1, (h3 k h h').2.trans (le_of_eq ?_)⟩, fun k h h' => ⟨(h3' k h h').1, (h3' k h h').2.trans (le_of_eq ?_)⟩⟩
  · norm_num [FiniteAboveNegOne.get]
  · norm_num [FiniteAboveNegOne.get]

/-- the result for `ln x`, with five nodes, near `α = 1/2` -/
example {ext : Externals ℝ} (hext : ExactSolver ext) : ∃ r : LaguerreRule ℝ, GaussLaguerre.new ext 5 ⟨1 / 2⟩ = some r ∧ ∃ δ > 0, ∀ α' : FiniteAboveNegOne ℝ, |α'.get - 1 / 2| < δ →
    ∃ r' : LaguerreRule ℝ, GaussLaguerre.new ext 5 α' = some r' ∧ |(AnyRule.laguerre r').value 0 0 Real.log - (AnyRule.laguerre r).value 0 0 Real.log| ≤
      1e-6 + 5e-12 * |(AnyRule.laguerre r).value 0 0 Real.log| :=
  C107_laguerre_value hext (n := 5) (by norm_num) (α := ⟨1 / 2⟩) (by norm_num [FiniteAboveNegOne.get])
    (Real.continuousOn_log.mono fun x hx => (show (0 : ℝ) < x from hx).ne') 0 0 (by norm_num)

/-- the result for `1/x` over `[0, 1]`, near `(1, 2)` with four nodes, and near the delegated pair `(1/2, 1/2)` with seven -/
example {ext : Externals ℝ} (hext : ExactSolver ext) :
    (∃ r : JacobiRule ℝ, GaussJacobi.new .checked ext 4 ⟨1⟩ ⟨2⟩ = some r ∧ ∃ δ > 0, ∀ α' β' : FiniteAboveNegOne ℝ, |α'.get - 1| < δ → |β'.get - 2| < δ → ¬ Delegated α'.get β'.get →
      (4 % 2 = 0 ∨ 4 = 1 ∨ α' = β') → ∃ r' : JacobiRule ℝ, GaussJacobi.new .checked ext 4 α' β' = some r' ∧
        |(AnyRule.jacobi r').value 0 1 (fun x => 1 / x) - (AnyRule.jacobi r).value 0 1 (fun x => 1 / x)| ≤ 1e-6 + 13e-12 * |(AnyRule.jacobi r).value 0 1 (fun x => 1 / x)|) ∧
    ∃ r : JacobiRule ℝ, GaussJacobi.new .checked ext 7 ⟨1 / 2⟩ ⟨1 / 2⟩ = some r ∧ ∃ δ > 0, ∀ α' : FiniteAboveNegOne ℝ, |α'.get - 1 / 2| < δ → ¬ Delegated α'.get α'.get →
      ∃ r' : JacobiRule ℝ, GaussJacobi.new .checked ext 7 α' α' = some r' ∧
        |(AnyRule.jacobi r').value 0 1 (fun x => 1 / x) - (AnyRule.jacobi r).value 0 1 (fun x => 1 / x)| ≤ 1e-6 + 13e-12 * |(AnyRule.jacobi r).value 0 1 (fun x => 1 / x)| := by
  have hf : ContinuousOn (fun x : ℝ => 1 / x) (Set.Ioo 0 1) := continuousOn_const.div continuousOn_id fun x hx => hx.1.ne'
  constructor
  · exact C107_jacobi_value hext .checked (n := 4) (by norm_num) (α := ⟨1⟩) (β := ⟨2⟩) (by norm_num [FiniteAboveNegOne.get]) (by norm_num [FiniteAboveNegOne.get])
      (by norm_num [FiniteAboveNegOne.get]) (by norm_num [Delegated, FiniteAboveNegOne.get]) (Or.inl rfl) zero_lt_one hf (by norm_num)
  · obtain ⟨r, h1, δ, hδ, h2⟩ := C107_jacobi_half hext .checked (n := 7) (by norm_num) (by norm_num) zero_lt_one hf (ε := 1e-6) (by norm_num)
    exact ⟨r, h1, δ, hδ, fun α' h3 h4 => h2 α' α' h3 h3 h4 (Or.inr (Or.inr rfl))⟩

end GaussQuad.Props
