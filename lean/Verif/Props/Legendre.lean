import Verif.Proofs.LegendreAngles
import Verif.Proofs.GaussSums
import Verif.Proofs.GaussTheory
import Verif.Props.Chebyshev

/-!
# Gauss-Legendre in exact arithmetic, every degree: C37 and its part of C12, C19, C20, C23, C42
-/

namespace GaussQuad.Props
open Polynomial Spec FloatOps Bogaert

/-- the stored pairs in terms of the angles -/
theorem legendre_pairs (mode : Overflow) {n : ℕ} (hn : 0 < n) (hlt : n + 1 < 2 ^ 64) :
    ∃ θ w, LegendreAngles n θ w ∧
      (GaussLegendre.new mode n : Option (Rule ℝ)) = some ⟨(rangeRev (n + 1)).map fun k => (Real.cos (θ k), w k)⟩ := by
  obtain ⟨θ, w, h⟩ := legendre_angles hn
  obtain ⟨r, h1, h2, h3⟩ := legendre_new_some (F := ℝ) (mode := mode) hlt
  refine ⟨θ, w, h, ?_⟩
  rw [h1]
  congr 1
  have : r.nodeWeightPairs = (rangeRev (n + 1)).map fun k => (Real.cos (θ k), w k) := by
    apply List.ext_getElem
    · simp [h2, length_rangeRev]
    · intro i g1 g2
      have hi : i < n := by omega
      have := h3 i hi
      rw [nodeWeightPair, h.new (n - i) (by omega) (by omega)] at this
      rw [List.getElem?_eq_getElem g1] at this
      simp only [Option.bind_eq_bind, Option.bind_some, Option.pure_def, Option.some.injEq, real_cos] at this
      rw [← this, List.getElem_map, getElem_rangeRev, Nat.add_sub_cancel]
  cases r
  simp only at this
  rw [this]

/-- C37: for every degree `n ≥ 1` the nodes are strictly between -1 and 1 and strictly increasing, the weights are positive, and
pair `n-1-i` is the mirror image of pair `i`.  The one exception is the middle pair of an odd degree above 100: there the code
evaluates the asymptotic formula, and the node is only within `0.052/(n+1/2)` of 0 (`C37_middle_refuted` shows that it is not 0). -/
theorem C37_legendre (mode : Overflow) {n : ℕ} (hn : 0 < n) (hlt : n + 1 < 2 ^ 64) :
    ∃ r : Rule ℝ, GaussLegendre.new mode n = some r ∧ r.asNodeWeightPairs.length = n ∧
      (∀ p ∈ r.asNodeWeightPairs, -1 < p.1 ∧ p.1 < 1 ∧ 0 < p.2) ∧
      (r.asNodeWeightPairs.map (·.1)).Pairwise (· < ·) ∧
      (∀ i < n, 2 * i + 1 ≠ n ∨ n ≤ 100 → r.asNodeWeightPairs[n - 1 - i]? = r.asNodeWeightPairs[i]?.map fun p => (-p.1, p.2)) ∧
      ∀ i < n, 2 * i + 1 = n → ∃ p, r.asNodeWeightPairs[i]? = some p ∧ |p.1| ≤ 0.052 / (n + 1 / 2) := by
  obtain ⟨θ, w, h, hr⟩ := legendre_pairs mode hn hlt
  refine ⟨_, hr, by simp [Rule.asNodeWeightPairs, length_rangeRev], ?_, ?_, ?_, ?_⟩
  · intro p hp
    rw [Rule.asNodeWeightPairs, List.mem_map] at hp
    obtain ⟨k, hk, rfl⟩ := hp
    rw [mem_rangeRev] at hk
    obtain ⟨h1, h2⟩ := h.range hk.1 (by omega)
    refine ⟨?_, ?_, h.wpos k hk.1 (by omega)⟩
    · have := Real.strictAntiOn_cos (Set.mem_Icc.2 ⟨h1.le, h2.le⟩) (Set.mem_Icc.2 ⟨Real.pi_pos.le, le_rfl⟩) h2
      rwa [Real.cos_pi] at this
    · have := Real.strictAntiOn_cos (Set.mem_Icc.2 ⟨le_rfl, Real.pi_pos.le⟩) (Set.mem_Icc.2 ⟨h1.le, h2.le⟩) h1
      rwa [Real.cos_zero] at this
  · rw [Rule.asNodeWeightPairs, List.map_map, List.pairwise_map, rangeRev, List.pairwise_reverse, Nat.add_sub_cancel]
    refine List.Pairwise.imp_of_mem ?_ (List.pairwise_lt_range' (s := 1) (n := n))
    intro i j hi hj hij
    rw [List.mem_range'_1] at hi hj
    have h1 := h.range hi.1 (by omega)
    have h2 := h.range hj.1 (by omega)
    exact Real.strictAntiOn_cos ⟨h1.1.le, h1.2.le⟩ ⟨h2.1.le, h2.2.le⟩ (h.strictMono hi.1 hij (by omega))
  · intro i hi hmid
    have hl : (rangeRev (n + 1)).length = n := by simp [length_rangeRev]
    rw [Rule.asNodeWeightPairs, List.getElem?_map, List.getElem?_map, List.getElem?_eq_getElem (by omega : n - 1 - i < (rangeRev (n + 1)).length),
      List.getElem?_eq_getElem (by omega : i < (rangeRev (n + 1)).length), getElem_rangeRev, getElem_rangeRev]
    simp only [Option.map_some, Option.some.injEq, Nat.add_sub_cancel]
    have key : θ (n - (n - 1 - i)) = Real.pi - θ (n - i) ∧ w (n - (n - 1 - i)) = w (n - i) := by
      rcases Nat.lt_trichotomy (2 * (n - i)) (n + 1) with hc | hc | hc
      · have := h.mirror (n - i) (by omega) (by omega)
        rwa [show n + 1 - (n - i) = n - (n - 1 - i) by omega] at this
      · rcases hmid with hmid | hmid
        · omega
        · rw [show n - (n - 1 - i) = n - i by omega, (h.mid (n - i) hc.symm).1 hmid]
          exact ⟨by ring, rfl⟩
      · have := h.mirror (n + 1 - (n - i)) (by omega) (by omega)
        rw [show n + 1 - (n + 1 - (n - i)) = n - i by omega, show n + 1 - (n - i) = n - (n - 1 - i) by omega] at this
        exact ⟨by linarith [this.1], this.2.symm⟩
    rw [key.1, key.2, Real.cos_pi_sub]
  · intro i hi hmid
    have hl : (rangeRev (n + 1)).length = n := by simp [length_rangeRev]
    refine ⟨(Real.cos (θ (n - i)), w (n - i)), ?_, ?_⟩
    · rw [Rule.asNodeWeightPairs, List.getElem?_map, List.getElem?_eq_getElem (by omega : i < (rangeRev (n + 1)).length), getElem_rangeRev]
      simp
    · have h1 := (h.mid (n - i) (by omega)).2
      refine le_trans ?_ h1
      have : Real.cos (θ (n - i)) = -Real.sin (θ (n - i) - Real.pi / 2) := by
        rw [Real.sin_sub_pi_div_two, neg_neg]
      rw [this, abs_neg]
      exact Real.abs_sin_le_abs

/-- a degree of each kind -/
example : ∃ r : Rule ℝ, GaussLegendre.new .checked 99 = some r ∧ r.asNodeWeightPairs[99 - 1 - 49]? = r.asNodeWeightPairs[49]?.map (fun p => ((-p.1, p.2) : ℝ × ℝ)) :=
  let ⟨r, h1, _, _, _, h2, _⟩ := C37_legendre .checked (n := 99) (by norm_num) (by norm_num)
  ⟨r, h1, h2 49 (by norm_num) (by norm_num)⟩

example : ∃ r : Rule ℝ, GaussLegendre.new .checked 1000000 = some r ∧ (r.asNodeWeightPairs.map (·.1)).Pairwise (· < ·) :=
  let ⟨r, h1, _, _, h2, _⟩ := C37_legendre .checked (n := 1000000) (by norm_num) (by norm_num)
  ⟨r, h1, h2⟩

/-- C12 for Gauss-Legendre in exact arithmetic. -/
theorem C12_legendre (mode : Overflow) {n : ℕ} (hn : 0 < n) (hlt : n + 1 < 2 ^ 64) :
    ∃ r : Rule ℝ, GaussLegendre.new mode n = some r ∧ (r.asNodeWeightPairs.map (·.1)).Pairwise (· < ·) :=
  let ⟨r, h1, _, _, h2, _⟩ := C37_legendre mode hn hlt
  ⟨r, h1, h2⟩

/-- C19 for Gauss-Legendre: the result lies between `lo` and `hi` times the total weight. -/
theorem C19_legendre (mode : Overflow) {n : ℕ} (hn : 0 < n) (hlt : n + 1 < 2 ^ 64) {a b lo hi : ℝ} (hab : a ≤ b) :
    ∃ r : Rule ℝ, GaussLegendre.new mode n = some r ∧ ∀ f : ℝ → ℝ,
      (∀ x ∈ points a b (.legendre r), lo ≤ f x ∧ f x ≤ hi) →
      lo * ((b - a) / 2 * (r.asNodeWeightPairs.map (·.2)).sum) ≤ (AnyRule.legendre r).value a b f ∧
        (AnyRule.legendre r).value a b f ≤ hi * ((b - a) / 2 * (r.asNodeWeightPairs.map (·.2)).sum) := by
  obtain ⟨r, h1, -, h2, -⟩ := C37_legendre mode hn hlt
  exact ⟨r, h1, fun f hf => value_range rfl (fun p hp => (h2 p hp).2.2.le) hab hf⟩

/-- a non-negative integrand gives a non-negative result -/
example : ∃ r : Rule ℝ, GaussLegendre.new .checked 137 = some r ∧ 0 ≤ (AnyRule.legendre r).value 0 3 (fun x => max x 1) := by
  obtain ⟨r, h1, -, h2, -⟩ := C37_legendre .checked (n := 137) (by norm_num) (by norm_num)
  have h3 := fun hi => value_range (R := .legendre r) rfl (fun p hp => (h2 p hp).2.2.le) (a := 0) (b := 3) (lo := 0) (hi := hi) (by norm_num)
    (f := fun x => max x 1)
  obtain ⟨M, hM⟩ : ∃ M : ℝ, ∀ x ∈ points 0 3 (.legendre r), max x 1 ≤ M := by
    obtain ⟨M, hM⟩ := ((points 0 3 (AnyRule.legendre r)).toFinset.image fun x => max x 1).bddAbove
    exact ⟨M, fun x hx => hM (by simp only [Finset.coe_image, Set.mem_image, Finset.mem_coe, List.mem_toFinset]; exact ⟨x, hx, rfl⟩)⟩
  have := (h3 M fun x hx => ⟨by positivity, hM x hx⟩).1
  rw [zero_mul] at this
  exact ⟨r, h1, this⟩

/-- the stored pairs are symmetric, except for odd degrees above 100 -/
theorem legendre_symmetric (mode : Overflow) {n : ℕ} (hn : 0 < n) (hlt : n + 1 < 2 ^ 64) (h100 : n ≤ 100 ∨ n % 2 = 0) :
    ∃ r : Rule ℝ, GaussLegendre.new mode n = some r ∧ (r.nodeWeightPairs.map fun p => (-p.1, p.2)).Perm r.nodeWeightPairs := by
  obtain ⟨r, h1, h2, -, -, h3, -⟩ := C37_legendre mode hn hlt
  refine ⟨r, h1, ?_⟩
  have : r.nodeWeightPairs.map (fun p => (-p.1, p.2)) = r.nodeWeightPairs.reverse := by
    apply List.ext_getElem?
    intro i
    by_cases hi : i < n
    · have := h3 i hi (by omega)
      rw [List.getElem?_map, List.getElem?_reverse (by rw [Rule.asNodeWeightPairs] at h2; omega)]
      rw [Rule.asNodeWeightPairs] at this h2
      rw [h2, this]
    · rw [List.getElem?_eq_none, List.getElem?_eq_none] <;> simp [Rule.asNodeWeightPairs] at h2 ⊢ <;> omega
  rw [this]
  exact List.reverse_perm _

/-- C20 for Gauss-Legendre, all degrees up to 100 and all even degrees: swapping the bounds negates the result. -/
theorem C20_legendre (mode : Overflow) {n : ℕ} (hn : 0 < n) (hlt : n + 1 < 2 ^ 64) (h100 : n ≤ 100 ∨ n % 2 = 0) (a b : ℝ) (f : ℝ → ℝ) :
    ∃ r : Rule ℝ, GaussLegendre.new mode n = some r ∧ (AnyRule.legendre r).value b a f = -(AnyRule.legendre r).value a b f := by
  obtain ⟨r, h1, h2⟩ := legendre_symmetric mode hn hlt h100
  refine ⟨r, h1, ?_⟩
  rw [value_gauss_quad rfl, value_gauss_quad rfl]
  exact quad_swap h2 a b f

/-- C23 for Gauss-Legendre: the integrand is only called strictly inside `(a, b)`. -/
theorem C23_legendre (mode : Overflow) {n : ℕ} (hn : 0 < n) (hlt : n + 1 < 2 ^ 64) {a b : ℝ} (hab : a < b) :
    ∃ r : Rule ℝ, GaussLegendre.new mode n = some r ∧ ∀ x ∈ points a b (.legendre r), a < x ∧ x < b := by
  obtain ⟨r, h1, -, h2, -⟩ := C37_legendre mode hn hlt
  exact ⟨r, h1, points_inside rfl (fun p hp => ⟨(h2 p hp).1, (h2 p hp).2.1⟩) hab⟩

theorem posDef_one : PosDef (Set.Ioo (-1) 1) fun _ => 1 := by
  refine posDef_of_pos isOpen_Ioo ⟨0, by norm_num⟩ (fun _ _ => one_pos) fun p => ?_
  simp only [mul_one]
  exact (p.continuous.continuousOn.integrableOn_Icc (a := (-1 : ℝ)) (b := 1)).mono_set Set.Ioo_subset_Icc_self

/-- C42 for Gauss-Legendre: some polynomial of degree `2n` is integrated to 0 although its integral is positive. -/
theorem C42_legendre (mode : Overflow) {n : ℕ} (hlt : n + 1 < 2 ^ 64) :
    ∃ r : Rule ℝ, GaussLegendre.new mode n = some r ∧ ∃ p : ℝ[X], p.natDegree = 2 * n ∧
      (AnyRule.legendre r).value (-1) 1 (fun x => p.eval x) = 0 ∧ 0 < ∫ x in (-1 : ℝ)..1, p.eval x := by
  obtain ⟨r, h1, h2, -⟩ := legendre_new_some (F := ℝ) (mode := mode) hlt
  obtain ⟨p, e1, -, e2, e3⟩ := gauss_sharp r.nodeWeightPairs posDef_one
  refine ⟨r, h1, p, by rw [e1, h2], ?_, ?_⟩
  · rw [value_gauss_quad rfl]; norm_num; exact e2
  · rw [weightIntegral, setIntegral_Ioo_eq_interval (by norm_num)] at e3
    simpa using e3

/-- degree 60: ascending nodes, bounds on the values of the integrand, exchanged ends, degree of exactness -/
example : ∃ r : Rule ℝ, GaussLegendre.new .checked 60 = some r ∧ (r.asNodeWeightPairs.map (·.1)).Pairwise (· < ·) ∧
    (AnyRule.legendre r).value 1 0 Real.exp = -(AnyRule.legendre r).value 0 1 Real.exp ∧
    (AnyRule.legendre r).value 0 1 Real.cos ≤ 1 * ((1 - 0) / 2 * (r.asNodeWeightPairs.map (·.2)).sum) ∧
    ∃ p : ℝ[X], p.natDegree = 120 ∧ (AnyRule.legendre r).value (-1) 1 (fun x => p.eval x) = 0 ∧ 0 < ∫ x in (-1 : ℝ)..1, p.eval x := by
  obtain ⟨r, h1, h2⟩ := C12_legendre .checked (n := 60) (by norm_num) (by norm_num)
  obtain ⟨r3, h3, h4⟩ := C20_legendre .checked (n := 60) (by norm_num) (by norm_num) (.inl (by norm_num)) 0 1 Real.exp
  obtain ⟨r5, h5, h6⟩ := C19_legendre .checked (n := 60) (by norm_num) (by norm_num) (a := 0) (b := 1) (lo := -1) (hi := 1) zero_le_one
  obtain ⟨r7, h7, h8⟩ := C42_legendre .checked (n := 60) (by norm_num)
  obtain rfl := Option.some.inj (h1.symm.trans h3)
  obtain rfl := Option.some.inj (h1.symm.trans h5)
  obtain rfl := Option.some.inj (h1.symm.trans h7)
  exact ⟨r, h1, h2, h4, (h6 Real.cos fun x _ => ⟨Real.neg_one_le_cos x, Real.cos_le_one x⟩).2, h8⟩

end GaussQuad.Props
