import Verif.Proofs.F64GolubRules
import Verif.Proofs.F64GolubSum
import Verif.Proofs.SolverExists
import Verif.Props.Protocol

/-!
# C60, C61: the Gauss-Hermite rule in binary64

`GaussHermite::new` (`/repo/src/hermite/mod.rs` l.71-76), with the matrix, the scale factor and the weights computed in binary64 and a backward stable
eigen-solver, against the exact Gauss-Hermite rule; and `integrate` / `par_integrate` with that rule.
-/

set_option exponentiation.threshold 3000

namespace GaussQuad.Props
open Polynomial Spec FloatOps F64

/-- C60: let `G` be the exact `n`-point Gauss rule for `exp(-x²)`, in ascending order.  With a solver that is backward stable with constant `ε` the
rule returned by `GaussHermite::new` is finite, ascending and has non-negative weights; every node is within `1.23 n (ε + 2^-51)` of the exact node; and
quadrature sums of bounded Lipschitz functions differ by the error of the nodes times the Lipschitz constant plus `2.01 ε + 5·2^-53` times the bound. -/
theorem C60_hermite [L : Libm] (hs : AccurateSqrt L) {ext : Externals F64} {n : ℕ} (hn : 0 < n) (hn1 : n ≤ 10 ^ 12) {ε : ℝ} (hst : StableSolver ext n ε)
    (hε : 0 ≤ ε) (hε1 : ε ≤ 0.01) {G : List (ℝ × ℝ)} (hG : G.length = n) (hGs : G.Pairwise fun p q => p.1 ≤ q.1)
    (hex : ExactUpTo G (2 * n - 1) Set.univ (fun x => Real.exp (-x ^ 2)) 1) :
    ∃ r : Rule F64, GaussHermite.new ext n = some r ∧
      CloseRule r.nodeWeightPairs G (Real.sqrt Real.pi) (1.23 * n * (ε + 4 * (1 / 2 ^ 53))) (2.01 * ε + 5 * (1 / 2 ^ 53)) :=
  hermite_close hs hn hn1 hst hε hε1 hG hGs hex

/-- C60 (total weight): the computed weights add up to the total weight `m` of the exact rule up to the relative error `ω`. -/
theorem C60_total_weight {R : List (F64 × F64)} {G : List (ℝ × ℝ)} {m η ω : ℝ} (h : NearRule R G m η ω) (hη : 0 ≤ η) (hm : (G.map Prod.snd).sum = m) :
    |(R.map fun p => (p.2.val : ℝ)).sum - m| ≤ ω * m :=
  h.total hη (by rw [← hm]; simp [quad, Function.comp_def])

/-- C60 (single weights): the weight of a node at distance at least `δ ≥ 4η` from the others has an error of at most `m(2η/δ + ω)`. -/
theorem C60_single_weight {R : List (F64 × F64)} {G : List (ℝ × ℝ)} {m η ω δ : ℝ} (h : NearRule R G m η ω) (hm : 0 ≤ m) (hη : 0 ≤ η) {i : ℕ}
    (hi : i < R.length) (hi' : i < G.length) (hδ : 0 < δ) (h4 : 4 * η ≤ δ)
    (hgap : ∀ j (hj : j < G.length), j ≠ i → δ ≤ |(G[j]).1 - (G[i]).1|) : |((R[i]).2.val : ℝ) - (G[i]).2| ≤ m * (2 * η / δ + ω) :=
  h.weight hm hη hi hi' hδ h4 hgap

/-- a rule is close to itself, and the hypotheses of the two theorems are met by the two nodes `0` and `1` with weights `1` -/
example [Libm] : |(((lit 1.0 : F64)).val : ℝ) - 1| ≤ 2 * (2 * 0 / 1 + 0) := by
  have h1 : ((lit 1.0 : F64).val : ℝ) = 1 := by have := lit_one_isNat.2; rw [this]; simp
  have h0 : ((F64.zero false).val : ℝ) = 0 := by rw [val_zero]; simp
  have h : NearRule [(F64.zero false, (lit 1.0 : F64)), ((lit 1.0 : F64), (lit 1.0 : F64))] [(0, 1), (1, 1)] 2 0 0 := by
    have hq : (lit 1.0 : F64).val = 1 := by have := lit_one_isNat.2; rw [this]; simp
    refine ⟨rfl, ?_, ?_, ?_, ?_⟩
    · simp [zero_isFinite, lit_one_isNat.1]
    · simp [hq]
    · intro i hi hi'
      have : i = 0 ∨ i = 1 := by simp at hi; omega
      rcases this with rfl | rfl <;> simp [h0, h1]
    · intro g lo hi Λ M _ _ _ _ _
      simp [quad, h0, h1]
  exact C60_single_weight h (by norm_num) le_rfl (i := 1) (by simp) (by simp) one_pos (by norm_num) (by
    intro j hj hne
    have : j = 0 := by simp at hj; omega
    subst this
    simp)

/-- the exact Gauss-Hermite rule exists -/
theorem hermite_rule_exists {n : ℕ} (hn : 0 < n) : ∃ G : List (ℝ × ℝ), G.length = n ∧ (G.Pairwise fun p q => p.1 ≤ q.1) ∧
    ExactUpTo G (2 * n - 1) Set.univ (fun x => Real.exp (-x ^ 2)) 1 := by
  obtain ⟨r, -, hr⟩ := hermite_gauss exactSolver_exists hn
  refine ⟨r.nodeWeightPairs, hr.length, hr.sorted, ?_⟩
  have := hr.exact'
  rwa [hr.length] at this

theorem hermite_value_eq {F : Type} [FloatOps F] (r : Rule F) (a b : F) (f : F → F) :
    (AnyRule.hermite r).value a b f = sumList (r.nodeWeightPairs.map fun p => f p.1 *ᶠ p.2) := by
  have := sumMapM_id (F := F) r.nodeWeightPairs (fun p => (do let y ← (pure (f p.1) : Id F); pure (y *ᶠ p.2) : Id F))
  exact this

/-- C61: the value returned by `integrate` (resp. `par_integrate`, under every schedule `s`) for a function computed with error `κ`, against the sum of
the exact rule; for polynomials of degree at most `2n - 1` that sum is the integral.  The function is needed on an interval that contains
`[-√(2n), √(2n)]` with margin `η = 1.23 n (ε + 2^-51)`. -/
theorem C61_hermite [L : Libm] (hs : AccurateSqrt L) {ext : Externals F64} {n : ℕ} (hn : 0 < n) (hn1 : n ≤ 10 ^ 12) {ε : ℝ} (hst : StableSolver ext n ε)
    (hε : 0 ≤ ε) (hε1 : ε ≤ 0.01) {G : List (ℝ × ℝ)} (hG : G.length = n) (hGs : G.Pairwise fun p q => p.1 ≤ q.1)
    (hex : ExactUpTo G (2 * n - 1) Set.univ (fun x => Real.exp (-x ^ 2)) 1) :
    ∃ r : Rule F64, GaussHermite.new ext n = some r ∧
      ∀ (a b : F64) (f : F64 → F64) (g : ℝ → ℝ) (B M Λ κ : ℝ), let η := 1.23 * n * (ε + 4 * (1 / 2 ^ 53));
      let E := fun d : ℕ => Real.sqrt Real.pi * (Λ * η + (2.01 * ε + 5 * (1 / 2 ^ 53)) * M + 1.05 * κ + 1.1 * (d + 1) * (1 / 2 ^ 53 * (M + κ))) + 1 / 2 ^ 1000;
      Real.sqrt (2 * n) + η ≤ B → Computes f g (Set.Icc (-B) B) M Λ κ → 0 ≤ Λ → M + κ ≤ 2 ^ 400 →
      (((AnyRule.hermite r).value a b f).isFinite = true ∧ |(((AnyRule.hermite r).value a b f).val : ℝ) - quad G g| ≤ E n) ∧
      (∀ s, roundings s n ≤ 10 ^ 12 → ((AnyRule.hermite r).parIntegrate s s a b f).isFinite = true ∧
        |(((AnyRule.hermite r).parIntegrate s s a b f).val : ℝ) - quad G g| ≤ E (roundings s n)) ∧
      (∀ p : ℝ[X], p.natDegree ≤ 2 * n - 1 → (∀ t, g t = p.eval t) → quad G g = ∫ t, g t * Real.exp (-t ^ 2)) := by
  obtain ⟨r, hr, hC⟩ := C60_hermite hs hn hn1 hst hε hε1 hG hGs hex
  refine ⟨r, hr, ?_⟩
  intro a b f g B M Λ κ
  dsimp only
  intro hB hf hΛ hK
  have hB0 : 0 ≤ B := le_trans (by positivity) hB
  have hmem : ((F64.zero false).val : ℝ) ∈ Set.Icc (-B) B := by rw [val_zero]; simpa using hB0
  have hM : 0 ≤ M := (abs_nonneg _).trans (hf.bound _ hmem)
  have hκ : 0 ≤ κ := (abs_nonneg _).trans (hf.accurate _ (zero_isFinite _) hmem).2
  have hnodes := herm_nodes hn hG hex
  have hin : ∀ q ∈ G, -B + 1.23 * n * (ε + 4 * (1 / 2 ^ 53)) ≤ q.1 ∧ q.1 + 1.23 * n * (ε + 4 * (1 / 2 ^ 53)) ≤ B := fun q hq => by
    have := abs_le.1 (hnodes q hq)
    exact ⟨by linarith [this.1], by linarith [this.2]⟩
  have hpi2 : Real.sqrt Real.pi ≤ 2 := Real.sqrt_le_iff.2 ⟨by norm_num, by linarith [Real.pi_le_four]⟩
  have hlen : r.nodeWeightPairs.length = n := hC.length.trans hG
  have key := fun {d : ℕ} (hd : d ≤ 10 ^ 12) {x : F64} hx => close_value (d := d) (x := x) hC.toNearRule (by positivity) (by norm_num; linarith) (Real.sqrt_nonneg _)
    (quad_one hermite_mass hex) (by omega) hin hf hκ hM hΛ ((mul_le_mul hpi2 hK (by positivity) (by norm_num)).trans (by norm_num)) hd hx
  refine ⟨?_, fun s hs' => ?_, fun p hp hg => ?_⟩
  · rw [hermite_value_eq]
    exact key hn1 (Or.inl ⟨rfl, hlen.symm⟩)
  · exact key hs' (Or.inr ⟨s, rfl, by rw [hlen]⟩)
  · rw [show g = fun t => p.eval t from funext hg, hex p hp, one_mul, weightIntegral, MeasureTheory.setIntegral_univ]

theorem id_computes {B : ℝ} (hB : 0 ≤ B) : Computes (fun y => y) (fun t => t) (Set.Icc (-B) B) B 1 0 :=
  ⟨fun t ht => abs_le.2 ht, fun s _ t _ => by rw [one_mul], fun y hy _ => ⟨hy, by simp⟩⟩

/-- with a suitable backend and solver the 10-point rule integrates `x` up to `1e-12` -/
example : ∃ _L : Libm, ∃ ext : Externals F64, ∃ r : Rule F64, GaussHermite.new ext 10 = some r ∧
    r.nodeWeightPairs.length = 10 ∧ |(r.nodeWeightPairs.map fun p => (p.2.val : ℝ)).sum - Real.sqrt Real.pi| ≤ 1e-13 ∧
    |(((AnyRule.hermite r).value (F64.zero false) (F64.zero false) fun y => y).val : ℝ) - ∫ t, t * Real.exp (-t ^ 2)| ≤ 1e-12 := by
  obtain ⟨L, -, -, -, hs⟩ := accurateLibm_exists
  obtain ⟨G, h1, h2, h3⟩ := hermite_rule_exists (n := 10) (by norm_num)
  have hst := stableSolver_exists (n := 10) (by norm_num)
  have hε : 3 * ((10 : ℕ) : ℝ) * U ≤ 3.4e-15 := by unfold U; norm_num
  have hε0 : 0 ≤ 3 * ((10 : ℕ) : ℝ) * U := by unfold U; positivity
  obtain ⟨r, hr, hc⟩ := C60_hermite hs (n := 10) (by norm_num) (by norm_num) hst hε0 (hε.trans (by norm_num)) h1 h2 h3
  obtain ⟨r', hr', hv⟩ := C61_hermite hs (n := 10) (by norm_num) (by norm_num) hst hε0 (hε.trans (by norm_num)) h1 h2 h3
  obtain rfl : r = r' := Option.some.inj (hr.symm.trans hr')
  have hpi2 : Real.sqrt Real.pi ≤ 2 := Real.sqrt_le_iff.2 ⟨by norm_num, by linarith [Real.pi_le_four]⟩
  have hpi0 := Real.sqrt_nonneg Real.pi
  refine ⟨L, _, r, hr, hc.length.trans h1, ?_, ?_⟩
  · refine (C60_total_weight hc.toNearRule (by positivity) ?_).trans ?_
    · have := quad_one hermite_mass h3
      simpa [quad, Function.comp_def] using this
    · calc _ ≤ (2.01 * 3.4e-15 + 5 * (1 / 2 ^ 53)) * 2 := mul_le_mul (by linarith) hpi2 hpi0 (by norm_num)
        _ ≤ _ := by norm_num
  · have hsq : Real.sqrt (2 * ((10 : ℕ) : ℝ)) ≤ 4.5 := Real.sqrt_le_iff.2 ⟨by norm_num, by norm_num⟩
    obtain ⟨⟨-, a2⟩, -, a3⟩ := hv (F64.zero false) (F64.zero false) (fun y => y) (fun t => t) 5 5 1 0 (by push_cast at hε hsq ⊢; linarith) (id_computes (by norm_num))
      (by norm_num) (by norm_num)
    rw [a3 X (by simp) (by simp)] at a2
    refine a2.trans ?_
    have h5 : (1 : ℝ) * (1.23 * ((10 : ℕ) : ℝ) * (3 * ((10 : ℕ) : ℝ) * U + 4 * (1 / 2 ^ 53))) + (2.01 * (3 * ((10 : ℕ) : ℝ) * U) + 5 * (1 / 2 ^ 53)) * 5 + 1.05 * 0 +
        1.1 * (((10 : ℕ) : ℝ) + 1) * (1 / 2 ^ 53 * (5 + 0)) ≤ 1e-13 := by
      push_cast at hε ⊢
      linarith
    refine (add_le_add (mul_le_mul hpi2 h5 (by positivity) (by norm_num)) le_rfl).trans ?_
    norm_num

end GaussQuad.Props
