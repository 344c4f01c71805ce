import Verif.Proofs.F64JacobiIntegral
import Verif.Props.LaguerreF64

/-!
# C64, C65: the Gauss-Jacobi rule in binary64

`GaussJacobi::new` (`/repo/src/jacobi/mod.rs` l.77-144) outside the delegated parameter pairs, with the matrix, the scale factor and the weights computed in
binary64 and a backward stable eigen-solver, against the exact Gauss-Jacobi rule; and `integrate` / `par_integrate` with that rule.  At odd degrees at least 3
with different parameters the rule is wrong even in exact arithmetic (`C34_odd_refuted`), so there the parameters are asked to agree.
-/

set_option exponentiation.threshold 3000

namespace GaussQuad.Props
open Polynomial Spec FloatOps F64

/-- the total weight `∫ (1-t)^α (1+t)^β dt` over `(-1, 1)` -/
noncomputable def jacobiMass (α β : ℝ) : ℝ := 2 ^ (α + β + 1) * Real.Gamma (α + 1) * Real.Gamma (β + 1) / Real.Gamma (α + β + 2)

theorem jacobiMass_eq {α β : ℝ} (hα : -1 < α) (hβ : -1 < β) : jacobiMass α β = ∫ t in Set.Ioo (-1) 1, (1 - t) ^ α * (1 + t) ^ β := (jacobi_mass hα hβ).symm

theorem eq_of_new [Libm] {x : F64} {al : FiniteAboveNegOne F64} (h : FiniteAboveNegOne.new x = some al) : al = ⟨x⟩ := by
  unfold FiniteAboveNegOne.new at h
  split at h
  · exact (Option.some.inj h).symm
  · exact absurd h (by simp)

/-- C64: all parameters up to 82 are in the range of `C64_jacobi` -/
theorem C64_range [L : Libm] {al be : FiniteAboveNegOne F64} {x y : F64} (hal : FiniteAboveNegOne.new x = some al) (hbe : FiniteAboveNegOne.new y = some be)
    (hx : (x.val : ℝ) ≤ 82) (hy : (y.val : ℝ) ≤ 82) :
    (x.val : ℝ) + y.val ≤ 164 ∧ (2 : ℝ) ^ ((x.val : ℝ) + y.val + 1) * Real.Gamma (x.val + 1) * Real.Gamma (y.val + 1) ≤ 2 ^ 1000 := by
  have hv := valid_of_new hal
  have hw := valid_of_new hbe
  rw [eq_of_new hal] at hv
  rw [eq_of_new hbe] at hw
  exact ⟨by linarith, jac_range (a := x) (b := y) (param_gap hv.1 hv.2) (param_gap hw.1 hw.2) hx hy⟩

/-- C64: let `G` be the exact `n`-point Gauss rule for `(1-t)^α (1+t)^β` on `(-1, 1)`, in ascending order, for parameters `α`, `β` accepted by the crate
with `α + β ≤ 164` and `2^(α+β+1) Γ(α+1) Γ(β+1) ≤ 2^1000`, not one of the delegated pairs, with `|α + β + 1| ≥ μ`, `α + β + 2 ≥ μ` and `μ ≥ 1/1000`; `n` is even, or 1, or `α = β`.  The computed rule is finite and has non-negative weights;
every node is within `3.6 √n (ε + 21·2^-53/μ)` of the exact node; and quadrature sums of bounded Lipschitz functions differ by the error of the nodes times the
Lipschitz constant plus `2.01 ε + 4.2e-11` times the bound, relative to the total weight.  At even degrees the nodes are in ascending order. -/
theorem C64_jacobi [L : Libm] (hL : AccurateTrig L) (hP : AccuratePow L) (hs : AccurateSqrt L) (mode : Overflow) {ext : Externals F64} {n : ℕ} (hn : 0 < n)
    (hn1 : n ≤ 10 ^ 12) {ε : ℝ} (hst : StableSolver ext n ε) (hε : 0 ≤ ε) (hε1 : ε ≤ 0.01) {al be : FiniteAboveNegOne F64} {x y : F64}
    (hal : FiniteAboveNegOne.new x = some al) (hbe : FiniteAboveNegOne.new y = some be)
    (hR : (x.val : ℝ) + y.val ≤ 164 ∧ (2 : ℝ) ^ ((x.val : ℝ) + y.val + 1) * Real.Gamma (x.val + 1) * Real.Gamma (y.val + 1) ≤ 2 ^ 1000)
    {μ : ℝ} (hμ0 : 1 / 1000 ≤ μ) (hμ1 : μ ≤ 1) (hμ : μ ≤ |(x.val : ℝ) + y.val + 1|) (hμ2 : μ ≤ (x.val : ℝ) + y.val + 2)
    (hSN : (x.val : ℝ) + y.val < -1 → AccurateSinNeg L)
    (hd : ¬ (x.val = 0 ∧ y.val = 0) ∧ ¬ (x.val = -1 / 2 ∧ y.val = -1 / 2) ∧ ¬ (x.val = 1 / 2 ∧ y.val = 1 / 2))
    (hodd : n % 2 = 0 ∨ n = 1 ∨ x.val = y.val) {G : List (ℝ × ℝ)} (hG : G.length = n) (hGs : G.Pairwise fun p q => p.1 ≤ q.1)
    (hex : ExactUpTo G (2 * n - 1) (Set.Ioo (-1) 1) (fun t => (1 - t) ^ (x.val : ℝ) * (1 + t) ^ (y.val : ℝ)) 1) :
    ∃ r : JacobiRule F64, GaussJacobi.new mode ext n al be = some r ∧ r.alpha = al ∧ r.beta = be ∧
      NearRule r.nodeWeightPairs G (jacobiMass x.val y.val) (3.6 * Real.sqrt n * (ε + 21 * (1 / 2 ^ 53) / μ)) (2.01 * ε + 4.2e-11) ∧
      (n % 2 = 0 → r.nodeWeightPairs.Pairwise fun p q => p.1.val ≤ q.1.val) := by
  have hv := valid_of_new hal
  have hw := valid_of_new hbe
  obtain rfl := eq_of_new hal
  obtain rfl := eq_of_new hbe
  exact jacobi_close hL hP hs mode hn hn1 hst hε hε1 ⟨hv.1, hw.1, hv.2, hw.2, hR.1, hR.2, hμ0, hμ1, hμ, hμ2⟩ hSN hd hodd hG hGs hex

/-- C64: the nodes of a rule close to a rule with well separated nodes are in ascending order (this covers the odd degrees) -/
theorem C64_ascending {R : List (F64 × F64)} {G : List (ℝ × ℝ)} {m η ω : ℝ} (h : NearRule R G m η ω)
    (hgap : ∀ i j (hi : i < G.length) (hj : j < G.length), i < j → (G[i]).1 + 2 * η ≤ (G[j]).1) : R.Pairwise fun p q => p.1.val ≤ q.1.val :=
  h.ascending hgap

/-- the exact Gauss-Jacobi rule exists -/
theorem jacobi_rule_exists {n : ℕ} (hn : 0 < n) {α β : ℝ} (hα : -1 < α) (hβ : -1 < β) (hs : α + β ≠ -1) : ∃ G : List (ℝ × ℝ), G.length = n ∧
    (G.Pairwise fun p q => p.1 ≤ q.1) ∧ ExactUpTo G (2 * n - 1) (Set.Ioo (-1) 1) (fun t => (1 - t) ^ α * (1 + t) ^ β) 1 := by
  obtain ⟨r, -, hr⟩ := golubWelsch_gauss exactSolver_exists hn (jacA α β) (jacB α β) (∫ x in Set.Ioo (-1) 1, jacW α β x) (integrable_jacobi hα hβ)
    (posDef_jacobi hα hβ) (jacobi_orthogonal hα hβ hs)
  have hm : ∫ x in Set.Ioo (-1) 1, jacW α β x ≠ 0 := by
    rw [jacobi_mass hα hβ]
    have h1 := Real.Gamma_pos_of_pos (by linarith : 0 < α + 1)
    have h2 := Real.Gamma_pos_of_pos (by linarith : 0 < β + 1)
    have h3 := Real.Gamma_pos_of_pos (by linarith : 0 < α + β + 2)
    positivity
  rw [div_self hm] at hr
  refine ⟨r, hr.length, hr.sorted, ?_⟩
  have := hr.exact'
  rwa [hr.length] at this

theorem jacobi_value_eq {F : Type} [FloatOps F] (r : JacobiRule F) (a b : F) (f : F → F) : (AnyRule.jacobi r).value a b f =
    GaussJacobi.scaleFactor a b *ᶠ sumList (r.nodeWeightPairs.map fun p => f (GaussJacobi.argumentTransformation p.1 a b) *ᶠ p.2) := by
  have := sumMapM_id (F := F) r.nodeWeightPairs
    (fun p => (do let y ← (pure (f (GaussJacobi.argumentTransformation p.1 a b)) : Id F); pure (y *ᶠ p.2) : Id F))
  exact congrArg (fun z => GaussJacobi.scaleFactor a b *ᶠ z) this

theorem interval_margin {a b t η : ℝ} (ht : |t| ≤ 1 + η) :
    min a b - |b - a| / 2 * η ≤ (b - a) / 2 * t + (a + b) / 2 ∧ (b - a) / 2 * t + (a + b) / 2 ≤ max a b + |b - a| / 2 * η := by
  have h : |(b - a) / 2 * t| ≤ |b - a| / 2 * (1 + η) := by
    rw [abs_mul, abs_div, abs_of_pos (by norm_num : (0 : ℝ) < 2)]
    exact mul_le_mul_of_nonneg_left ht (by positivity)
  have h1 := abs_le.1 h
  rcases le_total a b with hab | hab
  · clear h
    rw [abs_of_nonneg (by linarith : 0 ≤ b - a)] at h1 ⊢
    rw [min_eq_left hab, max_eq_right hab]
    constructor <;> linarith [h1.1, h1.2]
  · clear h
    rw [abs_of_nonpos (by linarith : b - a ≤ 0)] at h1 ⊢
    rw [min_eq_right hab, max_eq_left hab]
    constructor <;> linarith [h1.1, h1.2]

/-- C65: the value returned by `integrate` (resp. `par_integrate`, under every schedule `s`) on `[a, b]` for a function computed with error `κ` on an interval
slightly larger than `[a, b]`, against `(b-a)/2` times the sum of the exact rule; for polynomials of degree at most `2n - 1` that sum is
`∫ g((b-a)/2 t + (a+b)/2) (1-t)^α (1+t)^β dt` over `(-1, 1)`. -/
theorem C65_jacobi [L : Libm] (hL : AccurateTrig L) (hP : AccuratePow L) (hs : AccurateSqrt L) (mode : Overflow) {ext : Externals F64} {n : ℕ} (hn : 0 < n)
    (hn1 : n ≤ 10 ^ 12) {ε : ℝ} (hst : StableSolver ext n ε) (hε : 0 ≤ ε) (hε1 : ε ≤ 0.01) {al be : FiniteAboveNegOne F64} {x y : F64}
    (hal : FiniteAboveNegOne.new x = some al) (hbe : FiniteAboveNegOne.new y = some be)
    (hR : (x.val : ℝ) + y.val ≤ 164 ∧ (2 : ℝ) ^ ((x.val : ℝ) + y.val + 1) * Real.Gamma (x.val + 1) * Real.Gamma (y.val + 1) ≤ 2 ^ 1000)
    {μ : ℝ} (hμ0 : 1 / 1000 ≤ μ) (hμ1 : μ ≤ 1) (hμ : μ ≤ |(x.val : ℝ) + y.val + 1|) (hμ2 : μ ≤ (x.val : ℝ) + y.val + 2)
    (hSN : (x.val : ℝ) + y.val < -1 → AccurateSinNeg L)
    (hd : ¬ (x.val = 0 ∧ y.val = 0) ∧ ¬ (x.val = -1 / 2 ∧ y.val = -1 / 2) ∧ ¬ (x.val = 1 / 2 ∧ y.val = 1 / 2))
    (hodd : n % 2 = 0 ∨ n = 1 ∨ x.val = y.val) {G : List (ℝ × ℝ)} (hG : G.length = n) (hGs : G.Pairwise fun p q => p.1 ≤ q.1)
    (hex : ExactUpTo G (2 * n - 1) (Set.Ioo (-1) 1) (fun t => (1 - t) ^ (x.val : ℝ) * (1 + t) ^ (y.val : ℝ)) 1) :
    ∃ r : JacobiRule F64, GaussJacobi.new mode ext n al be = some r ∧
      ∀ (a b : F64) (B : ℝ) (f : F64 → F64) (g : ℝ → ℝ) (lo hi M Λ κ : ℝ), let η := 3.6 * Real.sqrt n * (ε + 21 * (1 / 2 ^ 53) / μ); let m := jacobiMass x.val y.val;
      let D := |(b.val : ℝ) - a.val|; let τ := 6 * (1 / 2 ^ 53 * B) + 1 / 2 ^ 1000; let κ' := κ + Λ * τ;
      let E := fun d : ℕ => D * (m * (0.26 * (Λ * D * η) + 0.501 * ((2.01 * ε + 4.2e-11) * M) + 0.53 * κ' + (0.56 * d + 2.2) * (1 / 2 ^ 53 * (M + κ')))) + 1 / 2 ^ 490;
      let Q := ((b.val : ℝ) - a.val) / 2 * quad G fun t => g (((b.val : ℝ) - a.val) / 2 * t + (a.val + b.val) / 2);
      a.isFinite = true → b.isFinite = true → |(a.val : ℝ)| ≤ B → |(b.val : ℝ)| ≤ B → B ≤ 2 ^ 400 → η ≤ 0.001 →
      lo + D / 2 * η + τ ≤ min (a.val : ℝ) b.val → max (a.val : ℝ) b.val + D / 2 * η + τ ≤ hi → Computes f g (Set.Icc lo hi) M Λ κ → 0 ≤ Λ →
      m * (M + κ' + Λ * D) ≤ 2 ^ 500 →
      (((AnyRule.jacobi r).value a b f).isFinite = true ∧ |(((AnyRule.jacobi r).value a b f).val : ℝ) - Q| ≤ E n) ∧
      (∀ s, roundings s n ≤ 10 ^ 12 → ((AnyRule.jacobi r).parIntegrate s s a b f).isFinite = true ∧
        |(((AnyRule.jacobi r).parIntegrate s s a b f).val : ℝ) - Q| ≤ E (roundings s n)) ∧
      (∀ p : ℝ[X], p.natDegree ≤ 2 * n - 1 → (∀ t, g t = p.eval t) →
        Q = ((b.val : ℝ) - a.val) / 2 *
          ∫ t in Set.Ioo (-1) 1, g (((b.val : ℝ) - a.val) / 2 * t + (a.val + b.val) / 2) * ((1 - t) ^ (x.val : ℝ) * (1 + t) ^ (y.val : ℝ))) := by
  obtain ⟨r, hr, -, -, hN, -⟩ := C64_jacobi hL hP hs mode hn hn1 hst hε hε1 hal hbe hR hμ0 hμ1 hμ hμ2 hSN hd hodd hG hGs hex
  have hα : -1 < (x.val : ℝ) := by
    have hv := (valid_of_new hal).2
    rw [eq_of_new hal] at hv
    have : ((-1 : ℚ) : ℝ) < (x.val : ℝ) := by exact_mod_cast hv
    push_cast at this
    exact this
  have hβ : -1 < (y.val : ℝ) := by
    have hv := (valid_of_new hbe).2
    rw [eq_of_new hbe] at hv
    have : ((-1 : ℚ) : ℝ) < (y.val : ℝ) := by exact_mod_cast hv
    push_cast at this
    exact this
  refine ⟨r, hr, ?_⟩
  intro a b B f g lo hi M Λ κ
  dsimp only
  have hμp : 0 < μ := by linarith
  obtain ⟨η, hη⟩ : ∃ η, η = 3.6 * Real.sqrt n * (ε + 21 * (1 / 2 ^ 53) / μ) := ⟨_, rfl⟩
  have hη0 : 0 ≤ η := by rw [hη]; positivity
  rw [← hη] at hN ⊢
  intro ha hb haB hbB hB hη1 hlo hhi hf hΛ hK
  have hB0 : 0 ≤ B := (abs_nonneg _).trans haB
  obtain ⟨τ, hτ⟩ : ∃ τ, τ = 6 * (1 / 2 ^ 53 * B) + 1 / 2 ^ 1000 := ⟨_, rfl⟩
  have hτ0 : 0 ≤ τ := by rw [hτ]; positivity
  have hD0 : 0 ≤ |(b.val : ℝ) - a.val| / 2 * η := by positivity
  have hmem : (a.val : ℝ) ∈ Set.Icc lo hi := by
    rw [← hτ] at hlo hhi
    exact ⟨by linarith [min_le_left (a.val : ℝ) b.val], by linarith [le_max_left (a.val : ℝ) b.val]⟩
  have hM : 0 ≤ M := (abs_nonneg _).trans (hf.bound _ hmem)
  have hκ : 0 ≤ κ := (abs_nonneg _).trans (hf.accurate _ ha hmem).2
  have hIs : IsGauss G n (Set.Ioo (-1) 1) (jacW x.val y.val) 1 := ⟨hG, hGs, by rw [hG]; exact hex⟩
  have hlen : r.nodeWeightPairs.length = n := hN.length.trans hG
  have hω : 2.01 * ε + 4.2e-11 ≤ 0.05 := by
    calc 2.01 * ε + 4.2e-11 ≤ 2.01 * 0.01 + 4.2e-11 := by gcongr
      _ ≤ _ := by norm_num
  have hm0 : 0 ≤ jacobiMass x.val y.val := by
    have h1 := Real.Gamma_pos_of_pos (by linarith : 0 < (x.val : ℝ) + 1)
    have h2 := Real.Gamma_pos_of_pos (by linarith : 0 < (y.val : ℝ) + 1)
    have h3 := Real.Gamma_pos_of_pos (by linarith : 0 < (x.val : ℝ) + y.val + 2)
    unfold jacobiMass
    positivity
  have key := fun {d : ℕ} (hd : d ≤ 10 ^ 12) {z : F64} hz => interval_value (d := d) (x := z) hN hη0 hη1 (by positivity) hω hm0
    (quad_one (jacobi_mass hα hβ) hex) (by omega) (jacobi_nodes hα hβ hIs one_pos)
    (fun p hp => (gauss_weights_pos one_pos hIs.exact' (posDef_jacobi hα hβ) p hp).le) ha hb haB hbB hB hΛ
    (fun t ht => by
      have := interval_margin (a := (a.val : ℝ)) (b := b.val) ht
      change lo + (6 * (1 / 2 ^ 53 * B) + 1 / 2 ^ 1000) ≤ ((b.val : ℝ) - a.val) / 2 * t + (a.val + b.val) / 2 ∧
        ((b.val : ℝ) - a.val) / 2 * t + (a.val + b.val) / 2 + (6 * (1 / 2 ^ 53 * B) + 1 / 2 ^ 1000) ≤ hi
      rw [← hτ] at hlo hhi ⊢
      exact ⟨by linarith [this.1], by linarith [this.2]⟩) hf hκ hM rfl hK hd hz
  refine ⟨?_, fun s hs' => ?_, fun p hp hg => ?_⟩
  · rw [jacobi_value_eq]
    exact key hn1 (Or.inl ⟨rfl, hlen.symm⟩)
  · exact key hs' (Or.inr ⟨s, rfl, by rw [hlen]⟩)
  · have e : ∀ t, g (((b.val : ℝ) - a.val) / 2 * t + (a.val + b.val) / 2) =
        (p.comp (C (((b.val : ℝ) - a.val) / 2) * X + C (((a.val : ℝ) + b.val) / 2))).eval t := fun t => by rw [hg]; simp
    simp only [e]
    rw [hex _ ?_, one_mul, weightIntegral]
    refine natDegree_comp_le.trans ((Nat.mul_le_mul hp natDegree_linear_le).trans (by omega))

/-- with a suitable backend and solver, the 10-point rule for the parameters `2.5` and `1` has the right total weight and integrates `x` over `[-1, 3]`; the
5-point rule for the parameters `2.5` and `2.5` has the right total weight -/
example : ∃ _L : Libm, ∃ ext : Externals F64, ∃ x y a b al be r r', x.val = 5 / 2 ∧ y.val = 1 ∧ a.val = -1 ∧ b.val = 3 ∧ FiniteAboveNegOne.new x = some al ∧
    FiniteAboveNegOne.new y = some be ∧ GaussJacobi.new .checked ext 10 al be = some r ∧ r.nodeWeightPairs.length = 10 ∧
    |(r.nodeWeightPairs.map fun p => (p.2.val : ℝ)).sum - jacobiMass (5 / 2) 1| ≤ 1e-7 ∧
    |(((AnyRule.jacobi r).value a b fun y => y).val : ℝ) - 2 * ∫ t in Set.Ioo (-1) 1, (2 * t + 1) * ((1 - t) ^ (5 / 2 : ℝ) * (1 + t) ^ (1 : ℝ))| ≤ 1e-6 ∧
    GaussJacobi.new .checked ext 5 al al = some r' ∧ |(r'.nodeWeightPairs.map fun p => (p.2.val : ℝ)).sum - jacobiMass (5 / 2) (5 / 2)| ≤ 1e-6 := by
  obtain ⟨L, hL, -, hP, hs⟩ := accurateLibm_exists
  have hd : (round (5 / 2) false).isFinite = true ∧ (round (5 / 2) false).val = 5 / 2 := by decide +kernel
  have hd1 : (round 1 false).isFinite = true ∧ (round 1 false).val = 1 := by decide +kernel
  have hd2 : (round (-1) false).isFinite = true ∧ (round (-1) false).val = -1 := by decide +kernel
  have hd3 : (round 3 false).isFinite = true ∧ (round 3 false).val = 3 := by decide +kernel
  have hnew : FiniteAboveNegOne.new (round (5 / 2) false) = some ⟨round (5 / 2) false⟩ := new_valid ⟨hd.1, by rw [hd.2]; norm_num⟩
  have hnew1 : FiniteAboveNegOne.new (round 1 false) = some ⟨round 1 false⟩ := new_valid ⟨hd1.1, by rw [hd1.2]; norm_num⟩
  have e : (((round (5 / 2) false).val : ℚ) : ℝ) = 5 / 2 := by rw [hd.2]; norm_num
  have e1 : (((round 1 false).val : ℚ) : ℝ) = 1 := by rw [hd1.2]; norm_num
  have e2 : (((round (-1) false).val : ℚ) : ℝ) = -1 := by rw [hd2.2]; norm_num
  have e3 : (((round 3 false).val : ℚ) : ℝ) = 3 := by rw [hd3.2]; norm_num
  obtain ⟨G, g1, g2, g3⟩ := jacobi_rule_exists (n := 10) (by norm_num) (α := 5 / 2) (β := 1) (by norm_num) (by norm_num) (by norm_num)
  obtain ⟨G', g1', g2', g3'⟩ := jacobi_rule_exists (n := 5) (by norm_num) (α := 5 / 2) (β := 5 / 2) (by norm_num) (by norm_num) (by norm_num)
  have hst := stableSolver_exists (n := 10) (by norm_num)
  have hst' := stableSolver_exists (n := 5) (by norm_num)
  have hε0 : 0 ≤ 3 * ((10 : ℕ) : ℝ) * U := by unfold U; positivity
  have hε1 : 3 * ((10 : ℕ) : ℝ) * U ≤ 0.01 := by unfold U; norm_num
  have hε0' : 0 ≤ 3 * ((5 : ℕ) : ℝ) * U := by unfold U; positivity
  have hε1' : 3 * ((5 : ℕ) : ℝ) * U ≤ 0.01 := by unfold U; norm_num
  have hG1 : Real.Gamma (5 / 2 + 1) ≤ 6 := by
    have := Gamma_le_factorial (x := 5 / 2 + 1) (δ := 1) (k := 3) (by norm_num) one_pos le_rfl (by norm_num) (by norm_num)
    norm_num [Nat.factorial] at this ⊢
    exact this
  have hG0 : 0 ≤ Real.Gamma (5 / 2 + 1) := (Real.Gamma_pos_of_pos (by norm_num)).le
  have hG2 : Real.Gamma (1 + 1) = 1 := by norm_num [Real.Gamma_two]
  have hp : (2 : ℝ) ^ (5 / 2 + 1 + 1 : ℝ) ≤ 32 := by
    calc (2 : ℝ) ^ (5 / 2 + 1 + 1 : ℝ) ≤ 2 ^ (5 : ℝ) := Real.rpow_le_rpow_of_exponent_le (by norm_num) (by norm_num)
      _ = 32 := by norm_num
  have hp' : (2 : ℝ) ^ (5 / 2 + 5 / 2 + 1 : ℝ) = 64 := by norm_num
  have hm : jacobiMass (5 / 2) 1 ≤ 384 := by
    unfold jacobiMass
    have h1 := half_le_Gamma (by norm_num : (0 : ℝ) < 5 / 2 + 1 + 2)
    rw [hG2, mul_one, div_le_iff₀ (by linarith)]
    have h2 : (2 : ℝ) ^ (5 / 2 + 1 + 1 : ℝ) * Real.Gamma (5 / 2 + 1) ≤ 32 * 6 := mul_le_mul hp hG1 hG0 (by norm_num)
    linarith
  have hm' : jacobiMass (5 / 2) (5 / 2) ≤ 4608 := by
    unfold jacobiMass
    have h1 := half_le_Gamma (by norm_num : (0 : ℝ) < 5 / 2 + 5 / 2 + 2)
    rw [hp', div_le_iff₀ (by linarith)]
    have h2 : Real.Gamma (5 / 2 + 1) * Real.Gamma (5 / 2 + 1) ≤ 6 * 6 := mul_le_mul hG1 hG1 hG0 (by norm_num)
    linarith
  have hm0 : 0 ≤ jacobiMass (5 / 2) 1 := by
    have h1 := half_le_Gamma (by norm_num : (0 : ℝ) < 5 / 2 + 1 + 2)
    unfold jacobiMass; rw [hG2]; positivity
  have hm0' : 0 ≤ jacobiMass (5 / 2) (5 / 2) := by
    have h1 := half_le_Gamma (by norm_num : (0 : ℝ) < 5 / 2 + 5 / 2 + 2)
    unfold jacobiMass; positivity
  have nd : ¬ ((round (5 / 2) false).val = 0 ∧ (round 1 false).val = 0) ∧ ¬ ((round (5 / 2) false).val = -1 / 2 ∧ (round 1 false).val = -1 / 2) ∧
      ¬ ((round (5 / 2) false).val = 1 / 2 ∧ (round 1 false).val = 1 / 2) := by rw [hd.2, hd1.2]; norm_num
  have nd' : ¬ ((round (5 / 2) false).val = 0 ∧ (round (5 / 2) false).val = 0) ∧
      ¬ ((round (5 / 2) false).val = -1 / 2 ∧ (round (5 / 2) false).val = -1 / 2) ∧
      ¬ ((round (5 / 2) false).val = 1 / 2 ∧ (round (5 / 2) false).val = 1 / 2) := by rw [hd.2]; norm_num
  obtain ⟨r, hr, -, -, hc, -⟩ := C64_jacobi hL hP hs .checked (n := 10) (by norm_num) (by norm_num) hst hε0 hε1 hnew hnew1 (C64_range hnew hnew1 (by rw [e]; norm_num)
    (by rw [e1]; norm_num)) (μ := 1) (by norm_num) le_rfl (by rw [e, e1]; norm_num) (by rw [e, e1]; norm_num)
    (fun h => absurd h (by rw [e, e1]; norm_num)) nd (Or.inl (by norm_num)) g1 g2 (by rw [e, e1]; exact g3)
  obtain ⟨r₂, hr₂, hv⟩ := C65_jacobi hL hP hs .checked (n := 10) (by norm_num) (by norm_num) hst hε0 hε1 hnew hnew1 (C64_range hnew hnew1 (by rw [e]; norm_num)
    (by rw [e1]; norm_num)) (μ := 1) (by norm_num) le_rfl (by rw [e, e1]; norm_num) (by rw [e, e1]; norm_num)
    (fun h => absurd h (by rw [e, e1]; norm_num)) nd (Or.inl (by norm_num)) g1 g2 (by rw [e, e1]; exact g3)
  obtain rfl : r = r₂ := Option.some.inj (hr.symm.trans hr₂)
  obtain ⟨r', hr', -, -, hc', -⟩ := C64_jacobi hL hP hs .checked (n := 5) (by norm_num) (by norm_num) hst' hε0' hε1' hnew hnew (C64_range hnew hnew (by rw [e]; norm_num)
    (by rw [e]; norm_num)) (μ := 1) (by norm_num) le_rfl (by rw [e]; norm_num) (by rw [e]; norm_num)
    (fun h => absurd h (by rw [e]; norm_num)) nd' (Or.inr (Or.inr rfl)) g1' g2' (by rw [e]; exact g3')
  rw [e, e1] at hc
  rw [e] at hc'
  have hω : 2.01 * (3 * ((10 : ℕ) : ℝ) * U) + 4.2e-11 ≤ 4.3e-11 := by unfold U; norm_num
  have hω' : 2.01 * (3 * ((5 : ℕ) : ℝ) * U) + 4.2e-11 ≤ 4.3e-11 := by unfold U; norm_num
  have hsq : Real.sqrt ((10 : ℕ) : ℝ) ≤ 3.2 := Real.sqrt_le_iff.2 ⟨by norm_num, by norm_num⟩
  have hε' : 3 * ((10 : ℕ) : ℝ) * U + 21 * (1 / 2 ^ 53) / 1 ≤ 6e-15 := by unfold U; norm_num
  refine ⟨L, _, _, _, _, _, _, _, r, r', hd.2, hd1.2, hd2.2, hd3.2, hnew, hnew1, hr, hc.length.trans g1, ?_, ?_, hr', ?_⟩
  · have := C60_total_weight hc (by unfold U; positivity) (by
      have := quad_one (jacobi_mass (by norm_num : (-1 : ℝ) < 5 / 2) (by norm_num : (-1 : ℝ) < 1)) g3
      rw [quad] at this
      simp only [mul_one] at this
      exact this)
    exact this.trans ((mul_le_mul hω hm hm0 (by norm_num)).trans (by norm_num))
  · have h := hv (round (-1) false) (round 3 false) 3 (fun y => y) (fun t => t) (-4) 4 4 1 0
    rw [e, e1, e2, e3] at h
    obtain ⟨η, hη⟩ : ∃ η, η = 3.6 * Real.sqrt ((10 : ℕ) : ℝ) * (3 * ((10 : ℕ) : ℝ) * U + 21 * (1 / 2 ^ 53) / 1) := ⟨_, rfl⟩
    rw [← hη] at h
    have hη1 : η ≤ 1e-13 := by
      rw [hη]
      calc _ ≤ 3.6 * 3.2 * 6e-15 := mul_le_mul (mul_le_mul_of_nonneg_left hsq (by norm_num)) hε' (by unfold U; positivity) (by positivity)
        _ ≤ _ := by norm_num
    have hη0 : 0 ≤ η := by rw [hη]; unfold U; positivity
    have hη2 : η ≤ 0.001 := hη1.trans (by norm_num)
    have eD : |(3 : ℝ) - -1| = 4 := by rw [abs_of_pos (by norm_num)]; norm_num
    simp only [eD] at h
    have hτ : 6 * (1 / 2 ^ 53 * 3) + 1 / 2 ^ 1000 ≤ (1e-14 : ℝ) := by norm_num
    have hτ0 : (0 : ℝ) ≤ 6 * (1 / 2 ^ 53 * 3) + 1 / 2 ^ 1000 := by positivity
    obtain ⟨τ, hτd⟩ : ∃ τ : ℝ, τ = 6 * (1 / 2 ^ 53 * 3) + 1 / 2 ^ 1000 := ⟨_, rfl⟩
    rw [← hτd] at h hτ hτ0
    have hτ2 : τ ≤ 0.001 := hτ.trans (by norm_num)
    obtain ⟨⟨-, a2⟩, -, a3⟩ := h hd2.1 hd3.1 (by rw [abs_neg, abs_one]; norm_num) (by rw [abs_of_pos (by norm_num)]) (by norm_num) hη2
      (by rw [min_eq_left (by norm_num)]; linarith) (by rw [max_eq_right (by norm_num)]; linarith) (id_computes (by norm_num)) (by norm_num) (by
        refine le_trans (mul_le_mul hm (by linarith : _ ≤ (10 : ℝ)) (by linarith) (by norm_num)) (by norm_num))
    rw [a3 X (by simp) (by simp)] at a2
    have e5 : ((3 : ℝ) - -1) / 2 = 2 := by norm_num
    have e6 : (-1 + 3 : ℝ) / 2 = 1 := by norm_num
    rw [e5, e6] at a2
    refine a2.trans ?_
    have h5 : 0.26 * (1 * 4 * η) + 0.501 * ((2.01 * (3 * ((10 : ℕ) : ℝ) * U) + 4.2e-11) * 4) + 0.53 * (0 + 1 * τ) +
        (0.56 * ((10 : ℕ) : ℝ) + 2.2) * (1 / 2 ^ 53 * (4 + (0 + 1 * τ))) ≤ 1.2e-10 := by
      calc _ ≤ 0.26 * (1 * 4 * 1e-13) + 0.501 * (4.3e-11 * 4) + 0.53 * (0 + 1 * 1e-14) +
            (0.56 * ((10 : ℕ) : ℝ) + 2.2) * (1 / 2 ^ 53 * (4 + (0 + 1 * 1e-14))) := by
            refine add_le_add (add_le_add (add_le_add ?_ ?_) ?_) ?_
            · exact mul_le_mul_of_nonneg_left (mul_le_mul_of_nonneg_left hη1 (by norm_num)) (by norm_num)
            · exact mul_le_mul_of_nonneg_left (mul_le_mul_of_nonneg_right hω (by norm_num)) (by norm_num)
            · exact mul_le_mul_of_nonneg_left (add_le_add le_rfl (mul_le_mul_of_nonneg_left hτ (by norm_num))) (by norm_num)
            · refine mul_le_mul_of_nonneg_left (mul_le_mul_of_nonneg_left (add_le_add le_rfl (add_le_add le_rfl (mul_le_mul_of_nonneg_left hτ (by norm_num)))) (by positivity)) (by positivity)
        _ ≤ _ := by norm_num
    refine (add_le_add (mul_le_mul_of_nonneg_left (mul_le_mul hm h5 (by unfold U; positivity) (by norm_num)) (by norm_num)) le_rfl).trans ?_
    norm_num
  · have := C60_total_weight hc' (by unfold U; positivity) (by
      have := quad_one (jacobi_mass (by norm_num : (-1 : ℝ) < 5 / 2) (by norm_num : (-1 : ℝ) < 5 / 2)) g3'
      rw [quad] at this
      simp only [mul_one] at this
      exact this)
    exact this.trans ((mul_le_mul hω' hm' hm0' (by norm_num)).trans (by norm_num))

/-- with a suitable backend and solver, the 5-point rule for the parameters `-3/4` and `-3/4`, whose sum is below `-1`, has the right total weight -/
example : ∃ _L : Libm, ∃ ext : Externals F64, ∃ x al r, x.val = -3 / 4 ∧ FiniteAboveNegOne.new x = some al ∧ GaussJacobi.new .checked ext 5 al al = some r ∧
    r.nodeWeightPairs.length = 5 ∧
    |(r.nodeWeightPairs.map fun p => (p.2.val : ℝ)).sum - jacobiMass (-3 / 4) (-3 / 4)| ≤ 4.3e-11 * jacobiMass (-3 / 4) (-3 / 4) := by
  obtain ⟨L, hSN, hL, -, hP, hs⟩ := accurateLibm_exists'
  have hd : (round (-3 / 4) false).isFinite = true ∧ (round (-3 / 4) false).val = -3 / 4 := by decide +kernel
  have hnew : FiniteAboveNegOne.new (round (-3 / 4) false) = some ⟨round (-3 / 4) false⟩ := new_valid ⟨hd.1, by rw [hd.2]; norm_num⟩
  have e : (((round (-3 / 4) false).val : ℚ) : ℝ) = -3 / 4 := by rw [hd.2]; norm_num
  obtain ⟨G, g1, g2, g3⟩ := jacobi_rule_exists (n := 5) (by norm_num) (α := -3 / 4) (β := -3 / 4) (by norm_num) (by norm_num) (by norm_num)
  have nd : ¬ ((round (-3 / 4) false).val = 0 ∧ (round (-3 / 4) false).val = 0) ∧ ¬ ((round (-3 / 4) false).val = -1 / 2 ∧ (round (-3 / 4) false).val = -1 / 2) ∧
      ¬ ((round (-3 / 4) false).val = 1 / 2 ∧ (round (-3 / 4) false).val = 1 / 2) := by rw [hd.2]; norm_num
  obtain ⟨r, hr, -, -, hN, -⟩ := C64_jacobi hL hP hs .checked (n := 5) (by norm_num) (by norm_num) (stableSolver_exists (n := 5) (by norm_num))
    (by unfold U; positivity) (by unfold U; norm_num) hnew hnew (C64_range hnew hnew (by rw [e]; norm_num) (by rw [e]; norm_num)) (μ := 1 / 2) (by norm_num) (by norm_num)
    (by rw [e]; norm_num [abs_of_neg]) (by rw [e]; norm_num) (fun _ => hSN) nd (Or.inr (Or.inr rfl)) g1 g2 (by rw [e]; exact g3)
  rw [e] at hN
  refine ⟨L, _, _, _, r, hd.2, hnew, hr, hN.length.trans g1, ?_⟩
  refine (C60_total_weight hN (by unfold U; positivity) ?_).trans (mul_le_mul_of_nonneg_right (by unfold U; norm_num) ?_)
  · have := quad_one (jacobi_mass (by norm_num : (-1 : ℝ) < -3 / 4) (by norm_num : (-1 : ℝ) < -3 / 4)) g3
    rw [quad] at this
    simp only [mul_one] at this
    exact this
  · have h1 := half_le_Gamma (by norm_num : (0 : ℝ) < -3 / 4 + 1)
    have h2 := half_le_Gamma (by norm_num : (0 : ℝ) < -3 / 4 + -3 / 4 + 2)
    unfold jacobiMass; positivity

end GaussQuad.Props
