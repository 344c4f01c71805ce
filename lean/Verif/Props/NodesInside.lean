import Verif.Proofs.RecipSums
import Verif.Props.ClassicalForm
import Verif.Props.Interlacing
import Verif.Props.LaguerreF64
import Verif.Props.JacobiF64
import Verif.Props.GaussPointsIEEE

/-!
# C112: how far the nodes stay from the ends of the support

`GaussLaguerre::new` (`/repo/src/laguerre/mod.rs:84-105`) and `GaussJacobi::new` (`/repo/src/jacobi/mod.rs:75-167`), in exact arithmetic and in binary64.
-/

set_option exponentiation.threshold 3000

namespace GaussQuad.Props
open Polynomial Spec FloatOps F64

theorem laguerre_gap {α : ℝ} {L : List (ℝ × ℝ)} {n : ℕ} {c : ℝ} (hα : -1 < α) (hc : 0 < c) (hn : 0 < n) (h : IsGauss L n (Set.Ioi 0) (lagW α) c) :
    (L.map fun p => 1 / p.1).sum = n / (α + 1) ∧ ∀ p ∈ L, (α + 1) / n ≤ p.1 := by
  have hl := gauss_nodes_nodup hc h.exact' (posDef_laguerre hα)
  have hx : ∀ x ∈ L.map Prod.fst, 0 < x ∧ 2 * x * repulsion (L.map Prod.fst) x = x - (α + 1) := fun x hx => by
    obtain ⟨p, hp, rfl⟩ := List.mem_map.1 hx
    have := laguerre_equations hα hc hn h hp
    exact ⟨this.1, this.2.1⟩
  have hs := laguerre_recip hl hα hx
  have hn0 : (0 : ℝ) < n := by exact_mod_cast hn
  rw [List.length_map, h.length] at hs
  refine ⟨by rw [← hs, List.map_map]; rfl, fun p hp => ?_⟩
  have hm := List.mem_map_of_mem (f := Prod.fst) hp
  have := le_map_sum (f := fun x => 1 / x) (fun x hx' => (one_div_pos.2 (hx x hx').1).le) hm
  rw [hs] at this
  have h0 := (hx _ hm).1
  have hα1 : 0 < α + 1 := by linarith
  rw [div_le_div_iff₀ h0 hα1] at this
  rw [div_le_iff₀ hn0]
  linarith

theorem jacobi_gap {α β : ℝ} {L : List (ℝ × ℝ)} {n : ℕ} {c : ℝ} (hα : -1 < α) (hβ : -1 < β) (hs : α + β ≠ -1) (hc : 0 < c) (hn : 0 < n)
    (h : IsGauss L n (Set.Ioo (-1) 1) (jacW α β) c) :
    (L.map fun p => 1 / (1 - p.1)).sum = n * (n + α + β + 1) / (2 * (α + 1)) ∧ (L.map fun p => 1 / (1 + p.1)).sum = n * (n + α + β + 1) / (2 * (β + 1)) ∧
    ∀ p ∈ L, 2 * (α + 1) / (n * (n + α + β + 1)) ≤ 1 - p.1 ∧ 2 * (β + 1) / (n * (n + α + β + 1)) ≤ 1 + p.1 := by
  have hl := gauss_nodes_nodup hc h.exact' (posDef_jacobi hα hβ)
  have hx : ∀ x ∈ L.map Prod.fst, -1 < x ∧ x < 1 ∧ 2 * (1 - x ^ 2) * repulsion (L.map Prod.fst) x = α - β + (α + β + 2) * x := fun x hx => by
    obtain ⟨p, hp, rfl⟩ := List.mem_map.1 hx
    have := jacobi_equations hα hβ hs hc hn h hp
    exact ⟨this.1, this.2.1, this.2.2.1⟩
  obtain ⟨h1, h2⟩ := jacobi_recip hl hα hβ hx
  have hn1 : (1 : ℝ) ≤ n := by exact_mod_cast hn
  rw [List.length_map, h.length] at h1 h2
  refine ⟨by rw [← h1, List.map_map]; rfl, by rw [← h2, List.map_map]; rfl, fun p hp => ?_⟩
  have hm := List.mem_map_of_mem (f := Prod.fst) hp
  have b1 := le_map_sum (f := fun x => 1 / (1 - x)) (fun x hx' => (one_div_pos.2 (by linarith [(hx x hx').2.1])).le) hm
  have b2 := le_map_sum (f := fun x => 1 / (1 + x)) (fun x hx' => (one_div_pos.2 (by linarith [(hx x hx').1])).le) hm
  rw [h1] at b1
  rw [h2] at b2
  obtain ⟨x1, x2, -⟩ := hx _ hm
  have hN : 0 < (n : ℝ) * (n + α + β + 1) := mul_pos (by linarith) (by linarith)
  rw [div_le_div_iff₀ (by linarith) (by linarith)] at b1 b2
  constructor
  · rw [div_le_iff₀ hN]; linarith
  · rw [div_le_iff₀ hN]; linarith

/-- C112: the reciprocals of the `n` nodes of Gauss-Laguerre add up to exactly `n/(α+1)`, so no node is closer to 0 than `(α+1)/n` -/
theorem C112_laguerre {ext : Externals ℝ} (hext : ExactSolver ext) {n : ℕ} (hn : 0 < n) {α : FiniteAboveNegOne ℝ} (hα : -1 < α.get) :
    ∃ r : LaguerreRule ℝ, GaussLaguerre.new ext n α = some r ∧ (r.nodeWeightPairs.map fun p => 1 / p.1).sum = n / (α.get + 1) ∧
      ∀ p ∈ r.nodeWeightPairs, (α.get + 1) / n ≤ p.1 := by
  obtain ⟨r, h1, -, h2⟩ := laguerre_gauss hext hn α hα
  exact ⟨r, h1, laguerre_gap hα (laguerre_factor_pos hα) hn h2⟩

/-- C112: the reciprocals of the distances of the nodes of Gauss-Jacobi from the two ends add up to exactly `n(n+α+β+1)/(2(α+1))` and `n(n+α+β+1)/(2(β+1))`, so every evaluation point for a
range `[a, b]` stays away from the ends by at least `(β+1)/(n(n+α+β+1))` and `(α+1)/(n(n+α+β+1))` times the length of the range -/
theorem C112_jacobi {ext : Externals ℝ} (hext : ExactSolver ext) (mode : Overflow) {n : ℕ} (hn : 0 < n) {α β : FiniteAboveNegOne ℝ} (hα : -1 < α.get) (hβ : -1 < β.get)
    (hs : α.get + β.get ≠ -1) (hd : ¬ Delegated α.get β.get) (hodd : n % 2 = 0 ∨ n = 1 ∨ α = β) :
    ∃ r : JacobiRule ℝ, GaussJacobi.new mode ext n α β = some r ∧
      (r.nodeWeightPairs.map fun p => 1 / (1 - p.1)).sum = n * (n + α.get + β.get + 1) / (2 * (α.get + 1)) ∧
      (r.nodeWeightPairs.map fun p => 1 / (1 + p.1)).sum = n * (n + α.get + β.get + 1) / (2 * (β.get + 1)) ∧
      ∀ a b : ℝ, a ≤ b → ∀ x ∈ points a b (.jacobi r), a + (b - a) * ((β.get + 1) / (n * (n + α.get + β.get + 1))) ≤ x ∧
        x ≤ b - (b - a) * ((α.get + 1) / (n * (n + α.get + β.get + 1))) := by
  obtain ⟨r, c, h1, hc, -, h2⟩ := jacobi_isGauss hext mode hn hα hβ hs hd hodd
  obtain ⟨e1, e2, e3⟩ := jacobi_gap hα hβ hs hc hn h2
  refine ⟨r, h1, e1, e2, fun a b hab x hx => ?_⟩
  obtain ⟨p, hp, rfl⟩ := List.mem_map.1 hx
  obtain ⟨g1, g2⟩ := e3 p hp
  simp only [real_add, real_mul, real_sub, real_lit_half]
  rw [mul_div_assoc] at g1 g2
  have hab' : 0 ≤ b - a := by linarith
  have k1 := mul_le_mul_of_nonneg_left g1 hab'
  have k2 := mul_le_mul_of_nonneg_left g2 hab'
  constructor <;> linarith

/-- the parameter as a real number -/
theorem param_gt [Libm] {x : F64} {al : FiniteAboveNegOne F64} (hal : FiniteAboveNegOne.new x = some al) : -1 < (x.val : ℝ) := by
  have hv := valid_of_new hal
  have hx : al = ⟨x⟩ := by
    unfold FiniteAboveNegOne.new at hal
    split at hal
    · exact (Option.some.inj hal).symm
    · exact absurd hal (by simp)
  rw [hx] at hv
  have : ((-1 : ℚ) : ℝ) < (x.val : ℝ) := by exact_mod_cast hv.2
  push_cast at this
  exact this

/-- C112 in binary64: when the error of the nodes is below `(α+1)/n`, every computed node of Gauss-Laguerre is strictly positive, so the integrand is never evaluated outside its domain -/
theorem C112_laguerre_binary64 [L : Libm] (hL : AccurateTrig L) (hP : AccuratePow L) (hs : AccurateSqrt L) {ext : Externals F64} {n : ℕ} (hn : 0 < n) (hn1 : n ≤ 10 ^ 12)
    {ε : ℝ} (hst : StableSolver ext n ε) (hε : 0 ≤ ε) (hε1 : ε ≤ 0.01) {al : FiniteAboveNegOne F64} {x : F64} (hal : FiniteAboveNegOne.new x = some al)
    (h168 : (x.val : ℝ) ≤ 168) (hsmall : 1.74 * Real.sqrt n * (2 * n + |(x.val : ℝ)|) * (ε + 4 * (1 / 2 ^ 53)) * n < x.val + 1) :
    ∃ r : LaguerreRule F64, GaussLaguerre.new ext n al = some r ∧ ∀ a b : F64, ∀ y ∈ points a b (.laguerre r), y.isFinite = true ∧ 0 < y.val := by
  have hα := param_gt hal
  obtain ⟨G, g1, g2, g3⟩ := laguerre_rule_exists hn hα
  obtain ⟨r, hr, -, hC⟩ := C62_laguerre hL hP hs hn hn1 hst hε hε1 hal h168 g1 g2 g3
  have hG : IsGauss G n (Set.Ioi 0) (lagW x.val) 1 := ⟨g1, g2, by rw [g1]; exact g3⟩
  obtain ⟨-, hgap⟩ := laguerre_gap hα one_pos hn hG
  refine ⟨r, hr, fun a b y hy => ?_⟩
  obtain ⟨p, hp, rfl⟩ := List.mem_map.1 hy
  refine ⟨(hC.finite p hp).1, ?_⟩
  obtain ⟨i, hi, rfl⟩ := List.mem_iff_getElem.1 hp
  have hi' : i < G.length := by rw [← hC.length]; exact hi
  have h1 := (_root_.abs_le.1 (hC.nodes i hi hi')).1
  have h2 := hgap _ (List.getElem_mem hi')
  have hn0 : (0 : ℝ) < n := by exact_mod_cast hn
  rw [← lt_div_iff₀ hn0] at hsmall
  have : (0 : ℝ) < ((r.nodeWeightPairs[i]).1.val : ℝ) := by linarith
  exact_mod_cast this

/-- C112 in binary64: when the error `η` of the nodes is below the distance `2(min(α,β)+1)/(n(n+α+β+1))` of the exact nodes from the ends, every computed node of Gauss-Jacobi is strictly between
-1 and 1; and when what is left, times the length of the range, exceeds the rounding errors of the transformation, every evaluation point is finite and strictly between the bounds -/
theorem C112_jacobi_binary64 [L : Libm] (hL : AccurateTrig L) (hP : AccuratePow L) (hs : AccurateSqrt L) (mode : Overflow) {ext : Externals F64} {n : ℕ} (hn : 0 < n)
    (hn1 : n ≤ 10 ^ 12) {ε : ℝ} (hst : StableSolver ext n ε) (hε : 0 ≤ ε) (hε1 : ε ≤ 0.01) {al be : FiniteAboveNegOne F64} {x y : F64}
    (hal : FiniteAboveNegOne.new x = some al) (hbe : FiniteAboveNegOne.new y = some be)
    (hR : (x.val : ℝ) + y.val ≤ 164 ∧ (2 : ℝ) ^ ((x.val : ℝ) + y.val + 1) * Real.Gamma (x.val + 1) * Real.Gamma (y.val + 1) ≤ 2 ^ 1000)
    {μ : ℝ} (hμ0 : 1 / 1000 ≤ μ) (hμ1 : μ ≤ 1) (hμ : μ ≤ |(x.val : ℝ) + y.val + 1|) (hμ2 : μ ≤ (x.val : ℝ) + y.val + 2)
    (hSN : (x.val : ℝ) + y.val < -1 → AccurateSinNeg L)
    (hd : ¬ (x.val = 0 ∧ y.val = 0) ∧ ¬ (x.val = -1 / 2 ∧ y.val = -1 / 2) ∧ ¬ (x.val = 1 / 2 ∧ y.val = 1 / 2))
    (hodd : n % 2 = 0 ∨ n = 1 ∨ x.val = y.val) :
    ∃ r : JacobiRule F64, GaussJacobi.new mode ext n al be = some r ∧
      ∀ δ : ℝ, 0 < δ → δ + 3.6 * Real.sqrt n * (ε + 21 * (1 / 2 ^ 53) / μ) ≤ 2 * (min (x.val : ℝ) y.val + 1) / (n * (n + x.val + y.val + 1)) →
        (∀ p ∈ r.nodeWeightPairs, p.1.isFinite = true ∧ |(p.1.val : ℝ)| ≤ 1 - δ) ∧
        ∀ (a b : F64) (B : ℝ), a.isFinite = true → b.isFinite = true → |(a.val : ℝ)| ≤ B → |(b.val : ℝ)| ≤ B → B ≤ 2 ^ 400 → a.val < b.val →
          12 * (1 / 2 ^ 53) * B + 2 / 2 ^ 1000 < δ * (b.val - a.val) →
          ∀ z ∈ points a b (.jacobi r), z.isFinite = true ∧ a.val < z.val ∧ z.val < b.val := by
  have hα := param_gt hal
  have hβ := param_gt hbe
  have hne : (x.val : ℝ) + y.val ≠ -1 := fun h => by
    rw [h] at hμ
    norm_num at hμ
    linarith
  obtain ⟨G, g1, g2, g3⟩ := jacobi_rule_exists hn hα hβ hne
  obtain ⟨r, hr, -, -, hC, -⟩ := C64_jacobi hL hP hs mode hn hn1 hst hε hε1 hal hbe hR hμ0 hμ1 hμ hμ2 hSN hd hodd g1 g2 g3
  have hG : IsGauss G n (Set.Ioo (-1) 1) (jacW x.val y.val) 1 := ⟨g1, g2, by rw [g1]; exact g3⟩
  obtain ⟨-, -, hgap⟩ := jacobi_gap hα hβ hne one_pos hn hG
  refine ⟨r, hr, fun δ hδ hsm => ?_⟩
  have hn1 : (1 : ℝ) ≤ n := by exact_mod_cast hn
  have hN : 0 < (n : ℝ) * (n + x.val + y.val + 1) := mul_pos (by linarith) (by linarith)
  have m1 : 2 * (min (x.val : ℝ) y.val + 1) / (n * (n + x.val + y.val + 1)) ≤ 2 * (x.val + 1) / (n * (n + x.val + y.val + 1)) :=
    div_le_div_of_nonneg_right (by linarith [min_le_left (x.val : ℝ) y.val]) hN.le
  have m2 : 2 * (min (x.val : ℝ) y.val + 1) / (n * (n + x.val + y.val + 1)) ≤ 2 * (y.val + 1) / (n * (n + x.val + y.val + 1)) :=
    div_le_div_of_nonneg_right (by linarith [min_le_right (x.val : ℝ) y.val]) hN.le
  have hnode : ∀ p ∈ r.nodeWeightPairs, p.1.isFinite = true ∧ |(p.1.val : ℝ)| ≤ 1 - δ := fun p hp => by
    refine ⟨(hC.finite p hp).1, ?_⟩
    obtain ⟨i, hi, rfl⟩ := List.mem_iff_getElem.1 hp
    have hi' : i < G.length := by rw [← hC.length]; exact hi
    obtain ⟨h1, h2⟩ := _root_.abs_le.1 (hC.nodes i hi hi')
    obtain ⟨h3, h4⟩ := hgap _ (List.getElem_mem hi')
    rw [_root_.abs_le]
    constructor <;> linarith
  refine ⟨hnode, fun a b B ha hb haB hbB hB hab hlen z hz => ?_⟩
  obtain ⟨p, hp, rfl⟩ := List.mem_map.1 hz
  obtain ⟨p1, p2⟩ := hnode p hp
  have hab' : a.rv < b.rv := by unfold rv; exact_mod_cast hab
  obtain ⟨e1, e2, e3⟩ := argT_inside ha hb haB hbB hB p1 p2 hδ.le hab' (by unfold U rv; exact hlen)
  unfold rv at e2 e3
  exact ⟨e1, by exact_mod_cast e2, by exact_mod_cast e3⟩

/-! ### Instances -/

/-- `C112_laguerre`: for `α = 1/2` the reciprocals of 7 nodes add up to `14/3` -/
example : ∃ ext : Externals ℝ, ExactSolver ext ∧ ∃ r : LaguerreRule ℝ, GaussLaguerre.new ext 7 ⟨1 / 2⟩ = some r ∧ (r.nodeWeightPairs.map fun p => 1 / p.1).sum = 14 / 3 ∧
    ∀ p ∈ r.nodeWeightPairs, 3 / 14 ≤ p.1 := by
  obtain ⟨r, h1, h2, h3⟩ := C112_laguerre exactSolver_exists (n := 7) (by norm_num) (α := ⟨1 / 2⟩) (by norm_num [FiniteAboveNegOne.get])
  norm_num [FiniteAboveNegOne.get] at h2 h3
  exact ⟨_, exactSolver_exists, r, h1, by simpa using h2, fun p hp => h3 p.1 p.2 hp⟩

/-- `C112_jacobi`: 8 nodes for `α = 1`, `β = 2` on `[0, 12]` -/
example : ∃ ext : Externals ℝ, ExactSolver ext ∧ ∃ r : JacobiRule ℝ, GaussJacobi.new .checked ext 8 ⟨1⟩ ⟨2⟩ = some r ∧ (r.nodeWeightPairs.map fun p => 1 / (1 - p.1)).sum = 24 ∧
    ∀ x ∈ points 0 12 (.jacobi r), 3 / 8 ≤ x ∧ x ≤ 12 - 1 / 4 := by
  obtain ⟨r, h1, h2, -, h3⟩ := C112_jacobi exactSolver_exists .checked (n := 8) (by norm_num) (α := ⟨1⟩) (β := ⟨2⟩) (by norm_num [FiniteAboveNegOne.get]) (by norm_num [FiniteAboveNegOne.get])
    (by norm_num [FiniteAboveNegOne.get]) (by norm_num [FiniteAboveNegOne.get, Delegated]) (.inl rfl)
  simp only [FiniteAboveNegOne.get] at h2 h3
  refine ⟨_, exactSolver_exists, r, h1, by rw [h2]; norm_num, fun x hx => ?_⟩
  obtain ⟨a1, a2⟩ := h3 0 12 (by norm_num) x hx
  constructor
  · refine le_trans ?_ a1; norm_num
  · refine le_trans a2 ?_; norm_num

/-- `C112_laguerre_binary64`: 10 computed nodes for `α = 2.5` are positive -/
example : ∃ _L : Libm, ∃ ext : Externals F64, ∃ x al r, x.val = 5 / 2 ∧ FiniteAboveNegOne.new x = some al ∧ GaussLaguerre.new ext 10 al = some r ∧
    ∀ p ∈ r.nodeWeightPairs, 0 < p.1.val := by
  obtain ⟨L, hL, -, hP, hs⟩ := accurateLibm_exists
  have hd : (round (5 / 2) false).isFinite = true ∧ (round (5 / 2) false).val = 5 / 2 := by decide +kernel
  have hnew : FiniteAboveNegOne.new (round (5 / 2) false) = some ⟨round (5 / 2) false⟩ := new_valid ⟨hd.1, by rw [hd.2]; norm_num⟩
  have e : (((round (5 / 2) false).val : ℚ) : ℝ) = 5 / 2 := by rw [hd.2]; norm_num
  have hst := stableSolver_exists (n := 10) (by norm_num)
  have hε0 : 0 ≤ 3 * ((10 : ℕ) : ℝ) * U := by unfold U; positivity
  have hε1 : 3 * ((10 : ℕ) : ℝ) * U ≤ 0.01 := by unfold U; norm_num
  have hsq : Real.sqrt ((10 : ℕ) : ℝ) ≤ 3.2 := Real.sqrt_le_iff.2 ⟨by norm_num, by norm_num⟩
  obtain ⟨r, hr, hp⟩ := C112_laguerre_binary64 hL hP hs (n := 10) (by norm_num) (by norm_num) hst hε0 hε1 hnew (by rw [e]; norm_num) (by
    rw [e, abs_of_nonneg (by norm_num : (0 : ℝ) ≤ 5 / 2)]
    have : 1.74 * Real.sqrt ((10 : ℕ) : ℝ) * (2 * ((10 : ℕ) : ℝ) + 5 / 2) * (3 * ((10 : ℕ) : ℝ) * U + 4 * (1 / 2 ^ 53)) * ((10 : ℕ) : ℝ) ≤
        1.74 * 3.2 * (2 * ((10 : ℕ) : ℝ) + 5 / 2) * (3 * ((10 : ℕ) : ℝ) * U + 4 * (1 / 2 ^ 53)) * ((10 : ℕ) : ℝ) := by
      have : 0 ≤ U := by unfold U; positivity
      gcongr
    refine lt_of_le_of_lt this ?_
    unfold U
    norm_num)
  exact ⟨L, _, _, _, r, hd.2, hnew, hr, fun p hpm => (hp (F64.zero false) (F64.zero false) p.1 (List.mem_map.2 ⟨p, hpm, rfl⟩)).2⟩

/-- `C112_jacobi_binary64`: 10 computed nodes for `α = 2.5`, `β = 1` and the evaluation points on `[-1, 3]` -/
example : ∃ _L : Libm, ∃ ext : Externals F64, ∃ x y a b al be r, x.val = 5 / 2 ∧ y.val = 1 ∧ a.val = -1 ∧ b.val = 3 ∧ FiniteAboveNegOne.new x = some al ∧
    FiniteAboveNegOne.new y = some be ∧ GaussJacobi.new .checked ext 10 al be = some r ∧ (∀ p ∈ r.nodeWeightPairs, |(p.1.val : ℝ)| ≤ 0.98) ∧
    ∀ z ∈ points a b (.jacobi r), -1 < z.val ∧ z.val < 3 := by
  obtain ⟨L, hL, -, hP, hs⟩ := accurateLibm_exists
  have hd : (round (5 / 2) false).isFinite = true ∧ (round (5 / 2) false).val = 5 / 2 := by decide +kernel
  have hd1 : (round 1 false).isFinite = true ∧ (round 1 false).val = 1 := by decide +kernel
  have hd2 : (round (-1) false).isFinite = true ∧ (round (-1) false).val = -1 := by decide +kernel
  have hd3 : (round 3 false).isFinite = true ∧ (round 3 false).val = 3 := by decide +kernel
  have hnew : FiniteAboveNegOne.new (round (5 / 2) false) = some ⟨round (5 / 2) false⟩ := new_valid ⟨hd.1, by rw [hd.2]; norm_num⟩
  have hnew1 : FiniteAboveNegOne.new (round 1 false) = some ⟨round 1 false⟩ := new_valid ⟨hd1.1, by rw [hd1.2]; norm_num⟩
  have e : (((round (5 / 2) false).val : ℚ) : ℝ) = 5 / 2 := by rw [hd.2]; norm_num
  have e1 : (((round 1 false).val : ℚ) : ℝ) = 1 := by rw [hd1.2]; norm_num
  have e2 : (((round (-1) false).val : ℚ) : ℝ) = -1 := by rw [hd2.2]; norm_num
  have e3 : (((round 3 false).val : ℚ) : ℝ) = 3 := by rw [hd3.2]; norm_num
  have hst := stableSolver_exists (n := 10) (by norm_num)
  have hε0 : 0 ≤ 3 * ((10 : ℕ) : ℝ) * U := by unfold U; positivity
  have hε1 : 3 * ((10 : ℕ) : ℝ) * U ≤ 0.01 := by unfold U; norm_num
  have nd : ¬ ((round (5 / 2) false).val = 0 ∧ (round 1 false).val = 0) ∧ ¬ ((round (5 / 2) false).val = -1 / 2 ∧ (round 1 false).val = -1 / 2) ∧
      ¬ ((round (5 / 2) false).val = 1 / 2 ∧ (round 1 false).val = 1 / 2) := by rw [hd.2, hd1.2]; norm_num
  obtain ⟨r, hr, h⟩ := C112_jacobi_binary64 hL hP hs .checked (n := 10) (by norm_num) (by norm_num) hst hε0 hε1 hnew hnew1 (C64_range hnew hnew1 (by rw [e]; norm_num)
    (by rw [e1]; norm_num)) (μ := 1) (by norm_num) le_rfl (by rw [e, e1]; norm_num) (by rw [e, e1]; norm_num)
    (fun h => absurd h (by rw [e, e1]; norm_num)) nd (Or.inl (by norm_num))
  have hsq : Real.sqrt ((10 : ℕ) : ℝ) ≤ 3.2 := Real.sqrt_le_iff.2 ⟨by norm_num, by norm_num⟩
  obtain ⟨h1, h2⟩ := h 0.02 (by norm_num) (by
    rw [e, e1, min_eq_right (by norm_num)]
    have : 3.6 * Real.sqrt ((10 : ℕ) : ℝ) * (3 * ((10 : ℕ) : ℝ) * U + 21 * (1 / 2 ^ 53) / 1) ≤ 3.6 * 3.2 * (3 * ((10 : ℕ) : ℝ) * U + 21 * (1 / 2 ^ 53) / 1) := by
      have hU : 0 ≤ U := by unfold U; positivity
      exact mul_le_mul_of_nonneg_right (mul_le_mul_of_nonneg_left hsq (by norm_num)) (by positivity)
    refine le_trans (add_le_add_right this _) ?_
    unfold U
    norm_num)
  refine ⟨L, _, _, _, _, _, _, _, r, hd.2, hd1.2, hd2.2, hd3.2, hnew, hnew1, hr, fun p hp => (h1 p hp).2.trans (by norm_num), fun z hz => ?_⟩
  have := h2 (round (-1) false) (round 3 false) 3 hd2.1 hd3.1 (by rw [e2]; norm_num) (by rw [e3]; norm_num) (by norm_num) (by rw [hd2.2, hd3.2]; norm_num)
    (by rw [e2, e3]; norm_num) z hz
  rw [hd2.2, hd3.2] at this
  exact this.2

end GaussQuad.Props
