import Verif.Proofs.Sturm
import Verif.Proofs.Stieltjes
import Verif.Proofs.GaussUnique
import Verif.Proofs.GolubRules
import Mathlib.Analysis.Real.Pi.Bounds

/-!
# Spacing of the nodes and size of the weights

The node polynomial of a Gauss rule is the orthogonal polynomial, a weight is at most the mass of the weight function between the neighbours of its node, and the differential equation
of the orthogonal polynomials bounds the distance of neighbours.
-/

namespace GaussQuad
open Polynomial Spec MeasureTheory

/-! ### weights and neighbours -/

section
variable {L : List (ℝ × ℝ)} {μ : Measure ℝ}

theorem massIn_add_weight (h : ∀ q ∈ L, 0 ≤ q.2) {q : ℝ × ℝ} (hq : q ∈ L) {T T' : Set ℝ} (hT : T ⊆ T') (hq' : q.1 ∈ T') (hn : q.1 ∉ T) : massIn L T + q.2 ≤ massIn L T' := by
  have h1 : q.2 ≤ massIn L {q.1} := by
    unfold massIn quad
    have := List.single_le_sum (l := L.map fun p => p.2 * ({q.1} : Set ℝ).indicator (fun _ => (1 : ℝ)) p.1)
      (by intro x hx; obtain ⟨p, hp, rfl⟩ := List.mem_map.1 hx; exact mul_nonneg (h p hp) (Set.indicator_nonneg (fun _ _ => zero_le_one) _))
      _ (List.mem_map.2 ⟨q, hq, rfl⟩)
    simpa using this
  have h2 : massIn L T + massIn L {q.1} ≤ massIn L T' := by
    unfold massIn
    rw [← quad_add]
    unfold quad
    refine List.sum_le_sum fun p hp => mul_le_mul_of_nonneg_left ?_ (h p hp)
    change T.indicator (fun _ => (1 : ℝ)) p.1 + ({q.1} : Set ℝ).indicator (fun _ => (1 : ℝ)) p.1 ≤ T'.indicator (fun _ => (1 : ℝ)) p.1
    by_cases hp1 : p.1 = q.1
    · rw [hp1]; simp [hn, hq']
    · by_cases hp2 : p.1 ∈ T
      · simp [hp1, hp2, hT hp2]
      · simp only [Set.indicator_of_notMem hp2, Set.indicator_of_notMem (show p.1 ∉ ({q.1} : Set ℝ) from hp1), zero_add]
        exact Set.indicator_nonneg (fun _ _ => zero_le_one) _
  linarith

/-- a weight is at most the mass between two nodes on either side -/
theorem Reproduces.weight_le [IsFiniteMeasure μ] (h : Reproduces L μ) {q : ℝ × ℝ} (hq : q ∈ L) {y z : ℝ} (hy : y ∈ L.map Prod.fst) (hz : z ∈ L.map Prod.fst) (h1 : y < q.1) (h2 : q.1 < z) :
    q.2 ≤ μ.real (Set.Ioo y z) := by
  have a1 := h.node hy
  have a2 := h.node' hz
  have a3 := massIn_add_weight h.nonneg hq (T := Set.Iic y) (T' := Set.Iio z) (fun x hx => lt_of_le_of_lt hx (h1.trans h2)) h2 (by simpa using h1)
  have a4 : μ.real (Set.Iio z) = μ.real (Set.Iic y) + μ.real (Set.Ioo y z) := by
    have hd : Disjoint (Set.Iic y) (Set.Ioo y z) := Set.disjoint_left.2 fun x hx hx' => absurd hx'.1 (not_lt.2 hx)
    rw [← Set.Iic_union_Ioo_eq_Iio (h1.trans h2), measureReal_union hd measurableSet_Ioo]
  linarith

/-- a weight is at most the mass on one side of a node -/
theorem Reproduces.weight_le_right [IsFiniteMeasure μ] (h : Reproduces L μ) {q : ℝ × ℝ} (hq : q ∈ L) {y : ℝ} (hy : y ∈ L.map Prod.fst) (h1 : y < q.1) : q.2 ≤ μ.real (Set.Ioi y) := by
  have a1 := h.node hy
  have a2 := h.mass
  have a3 := massIn_add_weight h.nonneg hq (T := Set.Iic y) (T' := Set.univ) (Set.subset_univ _) (Set.mem_univ _) (by simpa using h1)
  have a4 : μ.real Set.univ = μ.real (Set.Iic y) + μ.real (Set.Ioi y) := by
    have hd : Disjoint (Set.Iic y) (Set.Ioi y) := Set.disjoint_left.2 fun x hx hx' => absurd (show y < x from hx') (not_lt.2 hx)
    rw [← Set.Iic_union_Ioi (a := y), measureReal_union hd measurableSet_Ioi]
  linarith

theorem Reproduces.weight_le_left [IsFiniteMeasure μ] (h : Reproduces L μ) {q : ℝ × ℝ} (hq : q ∈ L) {z : ℝ} (hz : z ∈ L.map Prod.fst) (h1 : q.1 < z) : q.2 ≤ μ.real (Set.Iio z) := by
  have a2 := h.node' hz
  have a3 := massIn_add_weight h.nonneg hq (T := ∅) (T' := Set.Iio z) (Set.empty_subset _) h1 (by simp)
  have a4 : massIn L ∅ = 0 := by simp [massIn, quad]
  linarith

theorem Reproduces.weight_le_mass [IsFiniteMeasure μ] (h : Reproduces L μ) {q : ℝ × ℝ} (hq : q ∈ L) : q.2 ≤ μ.real Set.univ := by
  have a3 := massIn_add_weight h.nonneg hq (T := ∅) (T' := Set.univ) (Set.empty_subset _) (Set.mem_univ _) (by simp)
  have a4 : massIn L ∅ = 0 := by simp [massIn, quad]
  linarith [h.mass]

end

/-! ### the node polynomial -/

/-- the node polynomial of a Gauss rule is the orthogonal polynomial of the recurrence -/
theorem nodePoly_eq_monicSeq {L : List (ℝ × ℝ)} {S : Set ℝ} {w : ℝ → ℝ} {c : ℝ} {a b : ℕ → ℝ} (hint : ∀ p : ℝ[X], IntegrableOn (fun x => p.eval x * w x) S)
    (horth : ∀ m, 1 ≤ m → weightFunctional S w hint (monicSeq a b m) = 0) (hc : 0 < c) (hpos : PosDef S w) (hex : ExactUpTo L (2 * L.length - 1) S w c) (hL : 0 < L.length) :
    nodePoly L = monicSeq a b L.length := by
  obtain ⟨m1, m2⟩ := monicSeq_degree a b L.length
  set d := nodePoly L - monicSeq a b L.length with hd
  by_contra hne
  have hd0 : d ≠ 0 := sub_ne_zero.2 hne
  have hdeg : d.degree < L.length := by
    have h1 : d.degree < (nodePoly L).degree := by
      apply degree_sub_lt_left
      · rw [degree_eq_natDegree (nodePoly_monic L).ne_zero, degree_eq_natDegree m1.ne_zero, nodePoly_natDegree, m2]
      · exact (nodePoly_monic L).ne_zero
      · rw [(nodePoly_monic L).leadingCoeff, m1.leadingCoeff]
    rwa [degree_eq_natDegree (nodePoly_monic L).ne_zero, nodePoly_natDegree] at h1
  have hdeg' : d.natDegree < L.length := by
    rw [degree_eq_natDegree hd0] at hdeg
    exact_mod_cast hdeg
  have h1 : quad L (fun x => (nodePoly L * d).eval x) = 0 :=
    quad_zero fun p hp => by rw [eval_mul, nodePoly_eval hp, zero_mul]
  have h2 := hex (nodePoly L * d) (natDegree_mul_le.trans (by rw [nodePoly_natDegree]; omega))
  have h3 : weightFunctional S w hint (nodePoly L * d) = 0 := by
    rw [weightFunctional_apply]
    rw [h1] at h2
    rcases mul_eq_zero.1 h2.symm with h | h
    · exact absurd h hc.ne'
    · exact h
  have h4 : weightFunctional S w hint (d * monicSeq a b L.length) = 0 := functional_orthogonal' horth hdeg
  have h5 : weightFunctional S w hint (d ^ 2) = 0 := by
    have e : d ^ 2 = nodePoly L * d - d * monicSeq a b L.length := by rw [hd]; ring
    rw [e, map_sub, h3, h4, sub_zero]
  have := hpos (d ^ 2) (pow_ne_zero 2 hd0) (fun x _ => by rw [eval_pow]; positivity)
  rw [weightFunctional_apply] at h5
  linarith

theorem nodePoly_zero_mem {L : List (ℝ × ℝ)} {x : ℝ} (h : (nodePoly L).eval x = 0) : x ∈ L.map Prod.fst := by
  have : x ∈ (nodePoly L).roots := (mem_roots (nodePoly_monic L).ne_zero).2 h
  rw [nodePoly_roots] at this
  exact Multiset.mem_coe.1 this

/-- the nodes are the zeros of the orthogonal polynomial -/
theorem isGauss_zero_iff {L : List (ℝ × ℝ)} {S : Set ℝ} {w : ℝ → ℝ} {c : ℝ} {n : ℕ} {a b : ℕ → ℝ} (hint : ∀ p : ℝ[X], IntegrableOn (fun x => p.eval x * w x) S)
    (horth : ∀ m, 1 ≤ m → weightFunctional S w hint (monicSeq a b m) = 0) (hc : 0 < c) (hpos : PosDef S w) (hn : 0 < n) (h : IsGauss L n S w c) (x : ℝ) :
    (monicSeq a b n).eval x = 0 ↔ x ∈ L.map Prod.fst := by
  have e := nodePoly_eq_monicSeq hint horth hc hpos h.exact' (by rw [h.length]; exact hn)
  rw [h.length] at e
  rw [← e]
  refine ⟨nodePoly_zero_mem, fun hx => ?_⟩
  obtain ⟨p, hp, rfl⟩ := List.mem_map.1 hx
  exact nodePoly_eval hp

/-- the next node: among the nodes in `(a, b]` there is a least one -/
theorem next_node {L : List (ℝ × ℝ)} {a b : ℝ} (hb : b ∈ L.map Prod.fst) (hab : a < b) :
    ∃ z ∈ L.map Prod.fst, a < z ∧ z ≤ b ∧ ∀ x ∈ Set.Ioo a z, x ∉ L.map Prod.fst := by
  obtain ⟨p, hp, rfl⟩ := List.mem_map.1 hb
  obtain ⟨q, hq, h1, h2⟩ := exists_min_node L (fun x => a < x) ⟨p, hp, hab⟩
  refine ⟨q.1, List.mem_map.2 ⟨q, hq, rfl⟩, h1, h2 p hp hab, fun x hx hmem => ?_⟩
  obtain ⟨p', hp', rfl⟩ := List.mem_map.1 hmem
  exact absurd hx.2 (not_lt.2 (h2 p' hp' hx.1))

/-! ### Hermite -/

/-- Hermite's differential equation -/
theorem hermite_ode (n : ℕ) (x : ℝ) : (derivative (derivative (monicSeq hermA hermB n))).eval x =
    2 * x * (derivative (monicSeq hermA hermB n)).eval x - 2 * n * (monicSeq hermA hermB n).eval x := by
  cases n with
  | zero => simp [monicSeq]
  | succ k =>
    have e : derivative (monicSeq hermA hermB (k + 1)) = C ((k : ℝ) + 1) * monicSeq hermA hermB k := by
      refine Polynomial.funext fun y => ?_
      have := hermite_derivative_eval y (k + 1)
      simp only [prevTerm, hermB_sq, eval_mul, eval_C] at this ⊢
      linarith
    have h1 := hermite_derivative_eval x k
    have h2 := (monicSeq_rec_eval hermA hermB k x).1
    rw [e]
    simp only [derivative_C_mul, eval_mul, eval_C, hermA] at h2 ⊢
    rw [h2]
    push_cast
    linear_combination 2 * ((k : ℝ) + 1) * h1

/-- the Hermite function `p_n exp(-x²/2)` and its derivative -/
noncomputable def hermU (n : ℕ) (x : ℝ) : ℝ := (monicSeq hermA hermB n).eval x * Real.exp (-x ^ 2 / 2)
noncomputable def hermU' (n : ℕ) (x : ℝ) : ℝ := ((derivative (monicSeq hermA hermB n)).eval x - x * (monicSeq hermA hermB n).eval x) * Real.exp (-x ^ 2 / 2)

theorem exp_half_deriv (x : ℝ) : HasDerivAt (fun x : ℝ => Real.exp (-x ^ 2 / 2)) (-x * Real.exp (-x ^ 2 / 2)) x := by
  have h3 : HasDerivAt (fun x : ℝ => -x ^ 2 / 2) (-((2 : ℕ) * x ^ (2 - 1)) / 2) x := (hasDerivAt_pow 2 x).neg.div_const 2
  refine h3.exp.congr_deriv ?_
  norm_num; ring

theorem hermU_deriv (n : ℕ) (x : ℝ) : HasDerivAt (hermU n) (hermU' n x) x := by
  refine ((monicSeq hermA hermB n).hasDerivAt x |>.mul (exp_half_deriv x)).congr_deriv ?_
  rw [hermU']; ring

theorem hermU'_deriv (n : ℕ) (x : ℝ) : HasDerivAt (hermU' n) (-((2 * n + 1 - x ^ 2) * hermU n x)) x := by
  have h1 := (((derivative (monicSeq hermA hermB n)).hasDerivAt x).sub ((hasDerivAt_id x).mul ((monicSeq hermA hermB n).hasDerivAt x))).mul (exp_half_deriv x)
  refine h1.congr_deriv ?_
  simp only [id, hermite_ode, hermU, Pi.sub_apply, Pi.mul_apply]
  ring

theorem hermU_zero_iff (n : ℕ) (x : ℝ) : hermU n x = 0 ↔ (monicSeq hermA hermB n).eval x = 0 := by
  rw [hermU, mul_eq_zero]
  exact or_iff_left (Real.exp_ne_zero _)

section
variable {L : List (ℝ × ℝ)} {n : ℕ}

theorem hermite_zero_iff (hn : 0 < n) (h : IsGauss L n Set.univ hermW 1) (x : ℝ) : hermU n x = 0 ↔ x ∈ L.map Prod.fst := by
  rw [hermU_zero_iff]
  exact isGauss_zero_iff integrable_hermite hermite_orthogonal one_pos posDef_hermite hn h x

/-- between `-R` and `R` every interval of length `π / √(2n + 1 - R²)` contains a node -/
theorem hermite_node_in (hn : 0 < n) (h : IsGauss L n Set.univ hermW 1) {R c : ℝ} (hR : R ^ 2 < 2 * n + 1) (h1 : -R ≤ c) (h2 : c + Real.pi / Real.sqrt (2 * n + 1 - R ^ 2) ≤ R) :
    ∃ x ∈ L.map Prod.fst, c < x ∧ x ≤ c + Real.pi / Real.sqrt (2 * n + 1 - R ^ 2) := by
  have h0 : 0 < Real.sqrt (2 * n + 1 - R ^ 2) := Real.sqrt_pos.2 (by linarith)
  obtain ⟨x, hx, hz⟩ := sturm_zero (u := hermU n) (u' := hermU' n) (q := fun x => 2 * n + 1 - x ^ 2) (a := c) h0 rfl (fun x _ => hermU_deriv n x) (fun x _ => hermU'_deriv n x)
    (fun x hx => by
      rw [Real.sq_sqrt (by linarith)]
      have a1 : -R ≤ x := h1.trans hx.1.le
      have a2 : x ≤ R := hx.2.le.trans h2
      nlinarith)
  exact ⟨x, (hermite_zero_iff hn h x).1 hz, hx.1, hx.2⟩

theorem hermite_node_in_left (hn : 0 < n) (h : IsGauss L n Set.univ hermW 1) {R c : ℝ} (hR : R ^ 2 < 2 * n + 1) (h1 : -R ≤ c) (h2 : c + Real.pi / Real.sqrt (2 * n + 1 - R ^ 2) ≤ R) :
    ∃ x ∈ L.map Prod.fst, c ≤ x ∧ x < c + Real.pi / Real.sqrt (2 * n + 1 - R ^ 2) := by
  have h0 : 0 < Real.sqrt (2 * n + 1 - R ^ 2) := Real.sqrt_pos.2 (by linarith)
  obtain ⟨x, hx, hz⟩ := sturm_zero_left (u := hermU n) (u' := hermU' n) (q := fun x => 2 * n + 1 - x ^ 2) (a := c) h0 rfl (fun x _ => hermU_deriv n x) (fun x _ => hermU'_deriv n x)
    (fun x hx => by
      rw [Real.sq_sqrt (by linarith)]
      have a1 : -R ≤ x := h1.trans hx.1.le
      have a2 : x ≤ R := hx.2.le.trans h2
      nlinarith)
  exact ⟨x, (hermite_zero_iff hn h x).1 hz, hx.1, hx.2⟩

/-- distinct nodes are at least `π / √(2n + 1)` apart -/
theorem hermite_gap (hn : 0 < n) (h : IsGauss L n Set.univ hermW 1) {x y : ℝ} (hx : x ∈ L.map Prod.fst) (hy : y ∈ L.map Prod.fst) (hxy : x < y) :
    Real.pi / Real.sqrt (2 * n + 1) ≤ y - x := by
  obtain ⟨z, hz, h1, h2, h3⟩ := next_node hy hxy
  have hpi := Real.pi_pos
  by_contra hlt
  push Not at hlt
  have hs : 0 < Real.sqrt (2 * n + 1) := Real.sqrt_pos.2 (by positivity)
  have hlt' : z - x < Real.pi / Real.sqrt (2 * n + 1) := by linarith
  have hω : Real.sqrt (2 * n + 1) < Real.pi / (z - x) := by
    rw [lt_div_iff₀ (by linarith)] at hlt' ⊢
    linarith
  obtain ⟨ω, w1, w2⟩ := exists_between hω
  have hω0 : 0 < ω := hs.trans w1
  have := sturm_gap (u := hermU n) (u' := hermU' n) (q := fun x => 2 * n + 1 - x ^ 2) hω0 h1 (fun x _ => hermU_deriv n x) (fun x _ => hermU'_deriv n x)
    (fun t _ => by
      have a1 : Real.sqrt (2 * n + 1) ^ 2 = 2 * n + 1 := Real.sq_sqrt (by positivity)
      have a2 : Real.sqrt (2 * n + 1) ^ 2 < ω ^ 2 := by gcongr
      nlinarith [sq_nonneg t])
    ((hermite_zero_iff hn h x).2 hx) ((hermite_zero_iff hn h z).2 hz) (fun t ht h0 => h3 t ht ((hermite_zero_iff hn h t).1 h0))
  rw [div_le_iff₀ hω0] at this
  rw [lt_div_iff₀ (by linarith)] at w2
  linarith

theorem hermite_reproduces (h : IsGauss L n Set.univ hermW 1) : Reproduces L (dens Set.univ fun x => 1 * hermW x) :=
  reproduces_gauss MeasurableSet.univ hermW_meas (fun x _ => (hermW_pos x).le) integrable_hermite one_pos posDef_hermite h.exact'

theorem hermite_finite : IsFiniteMeasure (dens Set.univ fun x => 1 * hermW x) := by
  have : IntegrableOn hermW Set.univ volume := by simpa using integrable_hermite 1
  exact dens_finite (this.const_mul 1)

theorem hermite_dens {T : Set ℝ} (hT : MeasurableSet T) : (dens Set.univ fun x => 1 * hermW x).real T = ∫ x in T, hermW x := by
  rw [dens_real MeasurableSet.univ hermW_meas (fun x _ => (hermW_pos x).le) one_pos hT, one_mul, Set.univ_inter]

/-- a weight whose node is not too far out is at most the mass of the weight function near the node -/
theorem hermite_weight_near (hn : 0 < n) (h : IsGauss L n Set.univ hermW 1) {R : ℝ} (hR : R ^ 2 < 2 * n + 1) {q : ℝ × ℝ} (hq : q ∈ L)
    (hqR : |q.1| + Real.pi / Real.sqrt (2 * n + 1 - R ^ 2) ≤ R) :
    q.2 ≤ ∫ x in Set.Ioo (q.1 - Real.pi / Real.sqrt (2 * n + 1 - R ^ 2)) (q.1 + Real.pi / Real.sqrt (2 * n + 1 - R ^ 2)), hermW x := by
  have hpi := Real.pi_pos
  have hδ : 0 < Real.pi / Real.sqrt (2 * n + 1 - R ^ 2) := div_pos hpi (Real.sqrt_pos.2 (by linarith))
  have h1 := neg_abs_le q.1
  have h2 := le_abs_self q.1
  obtain ⟨z, hz, z1, z2⟩ := hermite_node_in hn h (c := q.1) hR (by linarith) (by linarith)
  obtain ⟨y, hy, y1, y2⟩ := hermite_node_in_left hn h (c := q.1 - Real.pi / Real.sqrt (2 * n + 1 - R ^ 2)) hR (by linarith) (by linarith)
  have := hermite_finite
  rw [← hermite_dens measurableSet_Ioo]
  refine ((hermite_reproduces h).weight_le hq hy hz (by linarith) z1).trans (measureReal_mono ?_)
  exact Set.Ioo_subset_Ioo y1 z2

/-- the tail of the weight function -/
theorem hermite_tail {s : ℝ} (hs : 0 ≤ s) : ∫ x in Set.Ioi s, hermW x ≤ Real.exp (-s ^ 2) * Real.sqrt Real.pi := by
  have hi : Integrable hermW := by
    have := integrable_hermite 1
    rw [integrableOn_univ] at this
    simpa using this
  have hi' : Integrable fun x => Real.exp (-s ^ 2) * hermW (x - s) := (hi.comp_sub_right s).const_mul _
  have h0 : ∫ x, Real.exp (-s ^ 2) * hermW (x - s) = Real.exp (-s ^ 2) * Real.sqrt Real.pi := by
    rw [integral_const_mul, integral_sub_right_eq_self hermW s, ← hermite_mass, setIntegral_univ]
  rw [← h0]
  refine (setIntegral_mono_on hi.integrableOn hi'.integrableOn measurableSet_Ioi fun x hx => ?_).trans
    (setIntegral_le_integral hi' (Filter.Eventually.of_forall fun x => mul_nonneg (Real.exp_pos _).le (hermW_pos _).le))
  rw [hermW, hermW, ← Real.exp_add]
  refine Real.exp_le_exp.2 ?_
  have : s < x := hx
  nlinarith [mul_nonneg hs (sub_nonneg.2 this.le)]

theorem hermite_tail_left {s : ℝ} (hs : 0 ≤ s) : ∫ x in Set.Iio (-s), hermW x ≤ Real.exp (-s ^ 2) * Real.sqrt Real.pi := by
  have h := integral_comp_neg_Iic (-s) hermW
  rw [neg_neg] at h
  rw [← integral_Iic_eq_integral_Iio]
  refine le_trans (le_of_eq ?_) (hermite_tail hs)
  rw [← h]
  congr 1
  ext x
  simp [hermW]

theorem hermite_tail_small (hn12 : (12 : ℝ) ≤ n) :
    Real.exp (-(Real.sqrt n - 2 * (Real.pi / Real.sqrt (n + 1))) ^ 2) * Real.sqrt Real.pi ≤ 2 * Real.pi / Real.sqrt (n + 1) := by
  have hpi := Real.pi_pos
  have p1 := Real.pi_gt_d2
  have p2 := Real.pi_lt_d2
  have hm : 0 < Real.sqrt (n + 1) := Real.sqrt_pos.2 (by positivity)
  have hm2 : Real.sqrt (n + 1) ^ 2 = n + 1 := Real.sq_sqrt (by positivity)
  have hsp : 0 < Real.sqrt Real.pi := Real.sqrt_pos.2 hpi
  have hsp2 : Real.sqrt Real.pi ^ 2 = Real.pi := Real.sq_sqrt hpi.le
  have hsp3 : 1.7 ≤ Real.sqrt Real.pi := Real.le_sqrt_of_sq_le (by norm_num; linarith)
  have hR : Real.sqrt n ^ 2 = n := Real.sq_sqrt (by positivity)
  have hRm : Real.sqrt n ≤ Real.sqrt (n + 1) := Real.sqrt_le_sqrt (by linarith)
  have hδ : 0 < Real.pi / Real.sqrt (n + 1) := div_pos hpi hm
  have hδm : Real.pi / Real.sqrt (n + 1) * Real.sqrt (n + 1) = Real.pi := by field_simp
  generalize Real.pi / Real.sqrt (n + 1) = δ at hδ hδm ⊢
  have hδ2m : δ ^ 2 * (n + 1) = Real.pi ^ 2 := by rw [← hm2, ← mul_pow, hδm]
  have hs2 : (n : ℝ) - 12.6 + 4 * δ ^ 2 ≤ (Real.sqrt n - 2 * δ) ^ 2 := by
    have : Real.sqrt n * δ ≤ Real.pi := by rw [← hδm, mul_comm δ]; exact mul_le_mul_of_nonneg_right hRm hδ.le
    nlinarith
  have hexp : Real.exp (-(Real.sqrt n - 2 * δ) ^ 2) ≤ 1 / (1 + (Real.sqrt n - 2 * δ) ^ 2) := by
    rw [Real.exp_neg, ← one_div]
    refine one_div_le_one_div_of_le (by positivity) ?_
    linarith [Real.add_one_le_exp ((Real.sqrt n - 2 * δ) ^ 2)]
  have hlow : Real.sqrt (n + 1) ≤ 3.4 * (1 + (Real.sqrt n - 2 * δ) ^ 2) := by
    have a1 : Real.sqrt (n + 1) ≤ (n + 1) / 3.6 := by
      rw [le_div_iff₀ (by norm_num)]
      have : 3.6 ≤ Real.sqrt (n + 1) := Real.le_sqrt_of_sq_le (by norm_num; linarith)
      nlinarith
    have a2 : 9.8 / 13 - 9.8 / 169 * ((n : ℝ) + 1 - 13) ≤ δ ^ 2 := by
      have : 9.8 ≤ δ ^ 2 * (n + 1) := by rw [hδ2m]; nlinarith
      have h2 : (9.8 / 13 - 9.8 / 169 * ((n : ℝ) + 1 - 13)) * (n + 1) ≤ δ ^ 2 * (n + 1) := by
        refine le_trans ?_ this
        linarith [sq_nonneg ((n : ℝ) + 1 - 13), show (9.8 / 13 - 9.8 / 169 * ((n : ℝ) + 1 - 13)) * (n + 1) = 9.8 - 9.8 / 169 * ((n : ℝ) + 1 - 13) ^ 2 by ring]
      exact le_of_mul_le_mul_right h2 (by linarith)
    generalize (Real.sqrt n - 2 * δ) ^ 2 = s at hs2 ⊢
    generalize δ ^ 2 = d at hs2 a2
    norm_num at a1 a2 hs2 ⊢
    linarith
  calc _ ≤ 1 / (1 + (Real.sqrt n - 2 * δ) ^ 2) * Real.sqrt Real.pi := mul_le_mul_of_nonneg_right hexp hsp.le
    _ ≤ _ := by
      rw [one_div_mul_eq_div, div_le_div_iff₀ (by positivity) hm]
      have : 1.7 * Real.sqrt Real.pi ≤ Real.pi := by nlinarith
      nlinarith [sq_nonneg (Real.sqrt n - 2 * δ)]

/-- every weight is at most `2π / √(n + 1)` -/
theorem hermite_weight_le (hn : 0 < n) (h : IsGauss L n Set.univ hermW 1) {q : ℝ × ℝ} (hq : q ∈ L) : q.2 ≤ 2 * Real.pi / Real.sqrt (n + 1) := by
  have hfin := hermite_finite
  have hpi := Real.pi_pos
  have p1 := Real.pi_gt_d2
  have p2 := Real.pi_lt_d2
  have hm : 0 < Real.sqrt (n + 1) := Real.sqrt_pos.2 (by positivity)
  have hm2 : Real.sqrt (n + 1) ^ 2 = n + 1 := Real.sq_sqrt (by positivity)
  have hsp : 0 < Real.sqrt Real.pi := Real.sqrt_pos.2 hpi
  have hsp2 : Real.sqrt Real.pi ^ 2 = Real.pi := Real.sq_sqrt hpi.le
  have hsp3 : 1.7 ≤ Real.sqrt Real.pi := Real.le_sqrt_of_sq_le (by norm_num; linarith)
  by_cases hsmall : n < 12
  · refine ((hermite_reproduces h).weight_le_mass hq).trans ?_
    rw [hermite_dens MeasurableSet.univ, hermite_mass, le_div_iff₀ hm]
    have : (n : ℝ) + 1 ≤ 12 := by exact_mod_cast (by omega : n + 1 ≤ 12)
    have h2 : (Real.sqrt Real.pi * Real.sqrt (n + 1)) ^ 2 ≤ (2 * Real.pi) ^ 2 := by
      rw [mul_pow, hsp2, hm2]; nlinarith
    exact abs_le_of_sq_le_sq' h2 (by positivity) |>.2
  have hn12 : (12 : ℝ) ≤ n := by exact_mod_cast not_lt.1 hsmall
  have hR : Real.sqrt n ^ 2 = n := Real.sq_sqrt (by positivity)
  have hRlt : Real.sqrt n ^ 2 < 2 * n + 1 := by rw [hR]; linarith
  have hRm : Real.sqrt n ≤ Real.sqrt (n + 1) := Real.sqrt_le_sqrt (by linarith)
  have hR0 : 0 ≤ Real.sqrt n := Real.sqrt_nonneg _
  have he : 2 * (n : ℝ) + 1 - Real.sqrt n ^ 2 = n + 1 := by rw [hR]; ring
  have hδ : 0 < Real.pi / Real.sqrt (n + 1) := div_pos hpi hm
  have hδ2 : Real.pi / Real.sqrt (n + 1) ≤ 0.88 := by
    rw [div_le_iff₀ hm]
    have : 3.6 ≤ Real.sqrt (n + 1) := Real.le_sqrt_of_sq_le (by norm_num; linarith)
    linarith
  have hR3 : 3.46 ≤ Real.sqrt n := Real.le_sqrt_of_sq_le (by norm_num; linarith)
  by_cases hin : |q.1| + Real.pi / Real.sqrt (n + 1) ≤ Real.sqrt n
  · have h1 := hermite_weight_near hn h hRlt hq (by rw [he]; exact hin)
    rw [he] at h1
    refine h1.trans ?_
    have h2 := norm_setIntegral_le_of_norm_le_const (μ := volume) (s := Set.Ioo (q.1 - Real.pi / Real.sqrt (n + 1)) (q.1 + Real.pi / Real.sqrt (n + 1))) (f := hermW) (C := 1)
      (by rw [Real.volume_Ioo]; exact ENNReal.ofReal_lt_top) (fun x _ => by
        rw [Real.norm_eq_abs, abs_of_pos (hermW_pos x), hermW]
        exact Real.exp_le_one_iff.2 (by nlinarith))
    rw [Real.volume_real_Ioo_of_le (by linarith), Real.norm_eq_abs] at h2
    refine (le_abs_self _).trans (h2.trans (le_of_eq ?_))
    ring
  push Not at hin
  set δ := Real.pi / Real.sqrt (n + 1) with hδdef
  have hs0 : 0 ≤ Real.sqrt n - 2 * δ := by linarith
  have key : Real.exp (-(Real.sqrt n - 2 * δ) ^ 2) * Real.sqrt Real.pi ≤ 2 * Real.pi / Real.sqrt (n + 1) := hermite_tail_small hn12
  rcases le_or_gt 0 q.1 with hq0 | hq0
  · rw [abs_of_nonneg hq0] at hin
    obtain ⟨y, hy, y1, y2⟩ := hermite_node_in hn h (R := Real.sqrt n) (c := Real.sqrt n - 2 * δ) hRlt (by linarith) (by rw [he]; linarith)
    rw [he] at y2
    refine ((hermite_reproduces h).weight_le_right hq hy (by linarith)).trans ?_
    refine (measureReal_mono (Set.Ioi_subset_Ioi y1.le)).trans ?_
    rw [hermite_dens measurableSet_Ioi]
    exact (hermite_tail hs0).trans key
  · rw [abs_of_neg hq0] at hin
    obtain ⟨y, hy, y1, y2⟩ := hermite_node_in hn h (R := Real.sqrt n) (c := -(Real.sqrt n - 2 * δ) - δ) hRlt (by linarith) (by rw [he]; linarith)
    rw [he] at y2
    refine ((hermite_reproduces h).weight_le_left hq hy (by linarith)).trans ?_
    refine (measureReal_mono (Set.Iio_subset_Iio (show y ≤ -(Real.sqrt n - 2 * δ) by linarith))).trans ?_
    rw [hermite_dens measurableSet_Iio]
    exact (hermite_tail_left hs0).trans key

end

end GaussQuad
