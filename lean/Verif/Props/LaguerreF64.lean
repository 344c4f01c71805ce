import Verif.Proofs.F64Laguerre
import Verif.Props.HermiteF64
import Verif.Props.Param

/-!
# C62, C63: the Gauss-Laguerre rule in binary64

`GaussLaguerre::new` (`/repo/src/laguerre/mod.rs` l.75-90) for every valid parameter up to 168, with the matrix, the scale factor `gamma(alpha + 1)` and the
weights computed in binary64 and a backward stable eigen-solver, against the exact generalised Gauss-Laguerre rule; and `integrate` / `par_integrate` with
that rule.
-/

set_option exponentiation.threshold 3000

namespace GaussQuad.Props
open Polynomial Spec FloatOps F64

/-- C62: let `G` be the exact `n`-point Gauss rule for `x^α exp(-x)` on `(0, ∞)`, in ascending order, for a parameter `α` accepted by the crate and at most
168.  The computed rule is finite, ascending and has non-negative weights; every node is within `1.74 √n (2n + |α|) (ε + 2^-51)` of the exact node; and
quadrature sums of bounded Lipschitz functions differ by the error of the nodes times the Lipschitz constant plus `2.01 ε + 1.3e-11` times the bound,
relative to the total weight `Γ(α + 1)`. -/
theorem C62_laguerre [L : Libm] (hL : AccurateTrig L) (hP : AccuratePow L) (hs : AccurateSqrt L) {ext : Externals F64} {n : ℕ} (hn : 0 < n) (hn1 : n ≤ 10 ^ 12)
    {ε : ℝ} (hst : StableSolver ext n ε) (hε : 0 ≤ ε) (hε1 : ε ≤ 0.01) {al : FiniteAboveNegOne F64} {x : F64} (hal : FiniteAboveNegOne.new x = some al)
    (h168 : (x.val : ℝ) ≤ 168) {G : List (ℝ × ℝ)} (hG : G.length = n) (hGs : G.Pairwise fun p q => p.1 ≤ q.1)
    (hex : ExactUpTo G (2 * n - 1) (Set.Ioi 0) (fun t => t ^ (x.val : ℝ) * Real.exp (-t)) 1) :
    ∃ r : LaguerreRule F64, GaussLaguerre.new ext n al = some r ∧ r.alpha = al ∧
      CloseRule r.nodeWeightPairs G (Real.Gamma (x.val + 1)) (1.74 * Real.sqrt n * (2 * n + |(x.val : ℝ)|) * (ε + 4 * (1 / 2 ^ 53))) (2.01 * ε + 1.3e-11) := by
  have hv := valid_of_new hal
  obtain rfl : al = ⟨x⟩ := by
    unfold FiniteAboveNegOne.new at hal
    split at hal
    · exact (Option.some.inj hal).symm
    · exact absurd hal (by simp)
  exact laguerre_close hL hP hs hn hn1 hst hε hε1 hv.1 hv.2 h168 hG hGs hex

/-- the exact generalised Gauss-Laguerre rule exists -/
theorem laguerre_rule_exists {n : ℕ} (hn : 0 < n) {α : ℝ} (hα : -1 < α) : ∃ G : List (ℝ × ℝ), G.length = n ∧ (G.Pairwise fun p q => p.1 ≤ q.1) ∧
    ExactUpTo G (2 * n - 1) (Set.Ioi 0) (fun t => t ^ α * Real.exp (-t)) 1 := by
  obtain ⟨r, -, hr⟩ := golubWelsch_gauss exactSolver_exists hn (lagA α) (lagB α) (∫ x in Set.Ioi 0, lagW α x) (integrable_laguerre hα)
    (posDef_laguerre hα) (laguerre_orthogonal hα)
  have hm : ∫ x in Set.Ioi 0, lagW α x ≠ 0 := by
    rw [laguerre_mass hα]
    exact (Real.Gamma_pos_of_pos (by linarith)).ne'
  rw [div_self hm] at hr
  refine ⟨r, hr.length, hr.sorted, ?_⟩
  have := hr.exact'
  rwa [hr.length] at this

theorem laguerre_value_eq {F : Type} [FloatOps F] (r : LaguerreRule F) (a b : F) (f : F → F) :
    (AnyRule.laguerre r).value a b f = sumList (r.nodeWeightPairs.map fun p => f p.1 *ᶠ p.2) := by
  have := sumMapM_id (F := F) r.nodeWeightPairs (fun p => (do let y ← (pure (f p.1) : Id F); pure (y *ᶠ p.2) : Id F))
  exact this

/-- C63: the value returned by `integrate` (resp. `par_integrate`, under every schedule `s`) for a function computed with error `κ`, against the sum of
the exact rule; for polynomials of degree at most `2n - 1` that sum is the integral.  The function is needed on an interval that contains
`[0, 4n + 2|α|]` with margin `η` (a computed node may be slightly negative). -/
theorem C63_laguerre [L : Libm] (hL : AccurateTrig L) (hP : AccuratePow L) (hs : AccurateSqrt L) {ext : Externals F64} {n : ℕ} (hn : 0 < n) (hn1 : n ≤ 10 ^ 12)
    {ε : ℝ} (hst : StableSolver ext n ε) (hε : 0 ≤ ε) (hε1 : ε ≤ 0.01) {al : FiniteAboveNegOne F64} {x : F64} (hal : FiniteAboveNegOne.new x = some al)
    (h168 : (x.val : ℝ) ≤ 168) {G : List (ℝ × ℝ)} (hG : G.length = n) (hGs : G.Pairwise fun p q => p.1 ≤ q.1)
    (hex : ExactUpTo G (2 * n - 1) (Set.Ioi 0) (fun t => t ^ (x.val : ℝ) * Real.exp (-t)) 1) :
    ∃ r : LaguerreRule F64, GaussLaguerre.new ext n al = some r ∧
      ∀ (a b : F64) (f : F64 → F64) (g : ℝ → ℝ) (lo hi M Λ κ : ℝ), let η := 1.74 * Real.sqrt n * (2 * n + |(x.val : ℝ)|) * (ε + 4 * (1 / 2 ^ 53));
      let E := fun d : ℕ => Real.Gamma (x.val + 1) * (Λ * η + (2.01 * ε + 1.3e-11) * M + 1.05 * κ + 1.1 * (d + 1) * (1 / 2 ^ 53 * (M + κ))) + 1 / 2 ^ 1000;
      lo ≤ -η → 4 * n + 2 * |(x.val : ℝ)| + η ≤ hi → Computes f g (Set.Icc lo hi) M Λ κ → 0 ≤ Λ → Real.Gamma (x.val + 1) * (M + κ) ≤ 2 ^ 1012 →
      (((AnyRule.laguerre r).value a b f).isFinite = true ∧ |(((AnyRule.laguerre r).value a b f).val : ℝ) - quad G g| ≤ E n) ∧
      (∀ s, roundings s n ≤ 10 ^ 12 → ((AnyRule.laguerre r).parIntegrate s s a b f).isFinite = true ∧
        |(((AnyRule.laguerre r).parIntegrate s s a b f).val : ℝ) - quad G g| ≤ E (roundings s n)) ∧
      (∀ p : ℝ[X], p.natDegree ≤ 2 * n - 1 → (∀ t, g t = p.eval t) →
        quad G g = ∫ t in Set.Ioi 0, g t * (t ^ (x.val : ℝ) * Real.exp (-t))) := by
  obtain ⟨r, hr, -, hC⟩ := C62_laguerre hL hP hs hn hn1 hst hε hε1 hal h168 hG hGs hex
  have hv := valid_of_new hal
  have hx : al = ⟨x⟩ := by
    unfold FiniteAboveNegOne.new at hal
    split at hal
    · exact (Option.some.inj hal).symm
    · exact absurd hal (by simp)
  rw [hx] at hv
  have hα : -1 < (x.val : ℝ) := by
    have : ((-1 : ℚ) : ℝ) < (x.val : ℝ) := by exact_mod_cast hv.2
    push_cast at this
    exact this
  refine ⟨r, hr, ?_⟩
  intro a b f g lo hi M Λ κ
  dsimp only
  set η := 1.74 * Real.sqrt n * (2 * n + |(x.val : ℝ)|) * (ε + 4 * (1 / 2 ^ 53)) with hη
  have hη0 : 0 ≤ η := by positivity
  intro hlo hhi hf hΛ hK
  have hmem : ((F64.zero false).val : ℝ) ∈ Set.Icc lo hi := by
    rw [val_zero, Rat.cast_zero]
    exact ⟨by linarith, le_trans (by positivity) hhi⟩
  have hM : 0 ≤ M := (abs_nonneg _).trans (hf.bound _ hmem)
  have hκ : 0 ≤ κ := (abs_nonneg _).trans (hf.accurate _ (zero_isFinite _) hmem).2
  have hnodes := lag_nodes hα hn hG hex
  have hin : ∀ q ∈ G, lo + η ≤ q.1 ∧ q.1 + η ≤ hi := fun q hq => by
    have := hnodes q hq
    exact ⟨by linarith [this.1], by linarith [this.2]⟩
  have hlen : r.nodeWeightPairs.length = n := hC.length.trans hG
  have hω : 2.01 * ε + 1.3e-11 ≤ 0.05 := by
    calc 2.01 * ε + 1.3e-11 ≤ 2.01 * 0.01 + 1.3e-11 := by gcongr
      _ ≤ _ := by norm_num
  have key := fun {d : ℕ} (hd : d ≤ 10 ^ 12) {y : F64} hy => close_value (d := d) (x := y) hC.toNearRule hη0 hω (Real.Gamma_pos_of_pos (by linarith)).le
    (quad_one (laguerre_mass hα) hex) (by omega) hin hf hκ hM hΛ hK hd hy
  refine ⟨?_, fun s hs' => ?_, fun p hp hg => ?_⟩
  · rw [laguerre_value_eq]
    exact key hn1 (Or.inl ⟨rfl, hlen.symm⟩)
  · exact key hs' (Or.inr ⟨s, rfl, by rw [hlen]⟩)
  · rw [show g = fun t => p.eval t from funext hg, hex p hp, one_mul, weightIntegral]

/-- with a suitable backend and solver the 10-point rule for the parameter `2.5` has total weight `Γ(3.5)` and integrates `x` -/
example : ∃ _L : Libm, ∃ ext : Externals F64, ∃ x al r, x.val = 5 / 2 ∧ FiniteAboveNegOne.new x = some al ∧ GaussLaguerre.new ext 10 al = some r ∧
    r.nodeWeightPairs.length = 10 ∧ |(r.nodeWeightPairs.map fun p => (p.2.val : ℝ)).sum - Real.Gamma (7 / 2)| ≤ 1e-10 ∧
    |(((AnyRule.laguerre r).value (F64.zero false) (F64.zero false) fun y => y).val : ℝ) - ∫ t in Set.Ioi 0, t * (t ^ (5 / 2 : ℝ) * Real.exp (-t))| ≤ 1e-8 := by
  obtain ⟨L, hL, -, hP, hs⟩ := accurateLibm_exists
  have hd : (round (5 / 2) false).isFinite = true ∧ (round (5 / 2) false).val = 5 / 2 := by decide +kernel
  have hnew : FiniteAboveNegOne.new (round (5 / 2) false) = some ⟨round (5 / 2) false⟩ := new_valid ⟨hd.1, by rw [hd.2]; norm_num⟩
  have e : (((round (5 / 2) false).val : ℚ) : ℝ) = 5 / 2 := by rw [hd.2]; norm_num
  obtain ⟨G, h1, h2, h3⟩ := laguerre_rule_exists (n := 10) (by norm_num) (α := 5 / 2) (by norm_num)
  have hst := stableSolver_exists (n := 10) (by norm_num)
  have hε : 3 * ((10 : ℕ) : ℝ) * U ≤ 3.4e-15 := by unfold U; norm_num
  have hε0 : 0 ≤ 3 * ((10 : ℕ) : ℝ) * U := by unfold U; positivity
  have hε1 : 3 * ((10 : ℕ) : ℝ) * U ≤ 0.01 := hε.trans (by norm_num)
  obtain ⟨r, hr, -, hc⟩ := C62_laguerre hL hP hs (n := 10) (by norm_num) (by norm_num) hst hε0 hε1 hnew (by rw [e]; norm_num) h1 h2 (by rw [e]; exact h3)
  obtain ⟨r', hr', hv⟩ := C63_laguerre hL hP hs (n := 10) (by norm_num) (by norm_num) hst hε0 hε1 hnew (by rw [e]; norm_num) h1 h2 (by rw [e]; exact h3)
  obtain rfl : r = r' := Option.some.inj (hr.symm.trans hr')
  rw [e] at hc
  have hG0 : 0 ≤ Real.Gamma (5 / 2 + 1) := (Real.Gamma_pos_of_pos (by norm_num)).le
  have hG1 : Real.Gamma (5 / 2 + 1) ≤ 6 := by
    have := Gamma_le_factorial (x := 5 / 2 + 1) (δ := 1) (k := 3) (by norm_num) one_pos le_rfl (by norm_num) (by norm_num)
    norm_num [Nat.factorial] at this ⊢
    exact this
  have hsq : Real.sqrt ((10 : ℕ) : ℝ) ≤ 3.2 := Real.sqrt_le_iff.2 ⟨by norm_num, by norm_num⟩
  have hε' : 3 * ((10 : ℕ) : ℝ) * U + 4 * (1 / 2 ^ 53) ≤ 4e-15 := by unfold U; norm_num
  have hη : 1.74 * Real.sqrt ((10 : ℕ) : ℝ) * (2 * ((10 : ℕ) : ℝ) + |(5 / 2 : ℝ)|) * (3 * ((10 : ℕ) : ℝ) * U + 4 * (1 / 2 ^ 53)) ≤ 1e-12 := by
    rw [abs_of_nonneg (by norm_num)]
    calc _ ≤ 1.74 * 3.2 * (2 * ((10 : ℕ) : ℝ) + 5 / 2) * 4e-15 :=
          mul_le_mul (mul_le_mul_of_nonneg_right (mul_le_mul_of_nonneg_left hsq (by norm_num)) (by positivity)) hε' (by positivity) (by positivity)
      _ ≤ _ := by norm_num
  have hη0 : 0 ≤ 1.74 * Real.sqrt ((10 : ℕ) : ℝ) * (2 * ((10 : ℕ) : ℝ) + |(5 / 2 : ℝ)|) * (3 * ((10 : ℕ) : ℝ) * U + 4 * (1 / 2 ^ 53)) := by positivity
  have hω : 2.01 * (3 * ((10 : ℕ) : ℝ) * U) + 1.3e-11 ≤ 1.301e-11 := by unfold U; norm_num
  refine ⟨L, _, _, _, r, hd.2, hnew, hr, hc.length.trans h1, ?_, ?_⟩
  · have := C60_total_weight hc.toNearRule (by positivity) (by
      have := quad_one (laguerre_mass (by norm_num : (-1 : ℝ) < 5 / 2)) h3
      simpa [quad, Function.comp_def] using this)
    rw [show (7 / 2 : ℝ) = 5 / 2 + 1 by norm_num]
    refine this.trans ((mul_le_mul hω hG1 hG0 (by norm_num)).trans (by norm_num))
  · have h := hv (F64.zero false) (F64.zero false) (fun y => y) (fun t => t) (-46) 46 46 1 0
    rw [e] at h
    obtain ⟨⟨-, a2⟩, -, a3⟩ := h (by refine le_neg.1 (hη.trans (by norm_num))) (by
        rw [abs_of_nonneg (by norm_num : (0 : ℝ) ≤ 5 / 2)] at hη ⊢
        refine (add_le_add le_rfl hη).trans (by norm_num)) (id_computes (by norm_num)) (by norm_num)
        ((mul_le_mul_of_nonneg_right hG1 (by norm_num)).trans (by norm_num))
    rw [a3 X (by simp) (by simp)] at a2
    refine a2.trans ?_
    have h5 : (1 : ℝ) * (1.74 * Real.sqrt ((10 : ℕ) : ℝ) * (2 * ((10 : ℕ) : ℝ) + |(5 / 2 : ℝ)|) * (3 * ((10 : ℕ) : ℝ) * U + 4 * (1 / 2 ^ 53))) +
        (2.01 * (3 * ((10 : ℕ) : ℝ) * U) + 1.3e-11) * 46 + 1.05 * 0 + 1.1 * (((10 : ℕ) : ℝ) + 1) * (1 / 2 ^ 53 * (46 + 0)) ≤ 1e-9 := by
      calc _ ≤ 1 * 1e-12 + 1.301e-11 * 46 + 1.05 * 0 + 1.1 * (((10 : ℕ) : ℝ) + 1) * (1 / 2 ^ 53 * (46 + 0)) := by
            refine add_le_add (add_le_add (add_le_add (mul_le_mul_of_nonneg_left hη zero_le_one) (mul_le_mul_of_nonneg_right hω (by norm_num))) le_rfl) le_rfl
        _ ≤ _ := by norm_num
    refine (add_le_add (mul_le_mul hG1 h5 (by positivity) (by norm_num)) le_rfl).trans ?_
    norm_num

end GaussQuad.Props
