import Verif.Proofs.GaussUnique
import Verif.Proofs.GaussUnbounded
import Mathlib.Order.Monotone.Extension
import Mathlib.MeasureTheory.Integral.Layercake

/-!
The Chebyshev-Markov-Stieltjes inequalities: up to each node, the sum of the weights and the integral of the weight function
differ by less than a weight.  They give an error bound for monotone integrands, continuous or not.
-/

namespace GaussQuad
open Polynomial Spec MeasureTheory

/-! ### a polynomial above a step function -/

/-- sums and products of `1/(b - x)`, `b ≥ B`, with nonnegative coefficients -/
inductive Cone (B : ℝ) : (ℝ → ℝ) → Prop
  | const {c : ℝ} : 0 ≤ c → Cone B fun _ => c
  | inv {b : ℝ} : B ≤ b → Cone B fun x => 1 / (b - x)
  | mul {f g : ℝ → ℝ} : Cone B f → Cone B g → Cone B fun x => f x * g x
  | add {f g : ℝ → ℝ} : Cone B f → Cone B g → Cone B fun x => f x + g x

theorem Cone.nonneg {B : ℝ} {f : ℝ → ℝ} (h : Cone B f) {x : ℝ} (hx : x < B) : 0 ≤ f x := by
  induction h with
  | const h => exact h
  | inv h => exact div_nonneg zero_le_one (by linarith)
  | mul _ _ h1 h2 => exact mul_nonneg h1 h2
  | add _ _ h1 h2 => exact add_nonneg h1 h2

/-- the difference quotient stays in the cone -/
theorem Cone.quotient {B : ℝ} {f : ℝ → ℝ} (h : Cone B f) {t : ℝ} (ht : t < B) :
    ∃ g, Cone B g ∧ ∀ x < B, f x = f t + (x - t) * g x := by
  induction h with
  | const h => exact ⟨_, .const le_rfl, fun x _ => by ring⟩
  | @inv b h =>
    refine ⟨_, .mul (.const (c := 1 / (b - t)) (div_nonneg zero_le_one (by linarith))) (.inv h), fun x hx => ?_⟩
    have h1 : b - x ≠ 0 := by linarith
    have h2 : b - t ≠ 0 := by linarith
    field_simp
    ring
  | @mul f g hf hg ihf ihg =>
    obtain ⟨f', hf', ef⟩ := ihf
    obtain ⟨g', hg', eg⟩ := ihg
    refine ⟨_, .add (.mul (.const (hf.nonneg ht)) hg') (.mul hf' hg), fun x hx => ?_⟩
    simp only
    have := ef x hx
    have := eg x hx
    calc f x * g x = (f t + (x - t) * f' x) * g x := by rw [← ef x hx]
      _ = f t * (g t + (x - t) * g' x) + (x - t) * f' x * g x := by rw [← eg x hx]; ring
      _ = _ := by ring
  | @add f g hf hg ihf ihg =>
    obtain ⟨f', hf', ef⟩ := ihf
    obtain ⟨g', hg', eg⟩ := ihg
    refine ⟨_, .add hf' hg', fun x hx => ?_⟩
    simp only
    rw [ef x hx, eg x hx]; ring

/-- Newton interpolation at `ts` of a function in the cone -/
theorem Cone.newton {B : ℝ} (ts : List ℝ) (hts : ∀ t ∈ ts, t < B) : ∀ {f : ℝ → ℝ}, Cone B f →
    ∃ (G : ℝ[X]) (r : ℝ → ℝ), Cone B r ∧ (ts ≠ [] → G.natDegree ≤ ts.length - 1) ∧ (ts = [] → G = 0) ∧
      (∀ x < B, f x = G.eval x + (ts.map fun t => x - t).prod * r x) ∧
      ∀ x, (∀ t ∈ ts, t ≤ x) → 0 ≤ G.eval x := by
  induction ts with
  | nil => intro f hf; exact ⟨0, f, hf, fun h => (h rfl).elim, fun _ => rfl, fun x _ => by simp, fun x _ => by simp⟩
  | cons t ts ih =>
    intro f hf
    obtain ⟨g, hg, e⟩ := hf.quotient (hts t (by simp))
    obtain ⟨G, r, hr, h1, h2, h3, h4⟩ := ih (fun s hs => hts s (by simp [hs])) hg
    refine ⟨C (f t) + (X - C t) * G, r, hr, fun _ => ?_, fun h => by simp at h, fun x hx => ?_, fun x hx => ?_⟩
    · rcases ts with _ | ⟨s, ts⟩
      · rw [h2 rfl, mul_zero, add_zero, natDegree_C]; simp
      · refine (natDegree_add_le _ _).trans (max_le (by simp) (natDegree_mul_le.trans ?_))
        have := h1 (by simp)
        rw [natDegree_X_sub_C]
        simp only [List.length_cons] at this ⊢
        omega
    · rw [e x hx, h3 x hx]
      simp only [eval_add, eval_C, eval_mul, eval_sub, eval_X, List.map_cons, List.prod_cons]
      ring
    · simp only [eval_add, eval_C, eval_mul, eval_sub, eval_X]
      have h5 := h4 x fun s hs => hx s (by simp [hs])
      have h6 := hx t (by simp)
      have h7 := hf.nonneg (hts t (by simp))
      have : 0 ≤ (x - t) * G.eval x := mul_nonneg (by linarith) h5
      linarith

/-- For a finite set of nodes and one of them, `y`: a polynomial of degree `2n-2` that is 1 at the nodes up to `y`, 0 at the others, nonnegative
everywhere and at least 1 to the left of `y`. -/
theorem step_majorant (L : List (ℝ × ℝ)) {y : ℝ} (hy : y ∈ L.map Prod.fst) :
    ∃ H : ℝ[X], H.natDegree ≤ 2 * L.length - 2 ∧ (∀ x, 0 ≤ H.eval x) ∧ (∀ x ≤ y, 1 ≤ H.eval x) ∧
      ∀ p ∈ L, H.eval p.1 = if p.1 ≤ y then 1 else 0 := by
  set U := L.filter fun p => decide (y < p.1) with hU
  set D := L.filter fun p => decide (p.1 < y) with hD
  have hlen : U.length + D.length + 1 ≤ L.length := by
    have e : ∀ V : List (ℝ × ℝ), (V.filter fun p => decide (y < p.1)).length + (V.filter fun p => decide (p.1 < y)).length +
        (V.filter fun p => decide (p.1 = y)).length = V.length := by
      intro V
      induction V with
      | nil => rfl
      | cons q V ih =>
        rcases lt_trichotomy q.1 y with h | h | h
        · simp only [List.filter_cons, decide_eq_true_eq, h, h.ne, not_lt.2 h.le, if_true, if_false, List.length_cons]; omega
        · simp only [List.filter_cons, decide_eq_true_eq, h, lt_irrefl, if_true, if_false, List.length_cons]; omega
        · simp only [List.filter_cons, decide_eq_true_eq, h, h.ne', not_lt.2 h.le, if_true, if_false, List.length_cons]; omega
    have h1 : U.length + D.length + (L.filter fun p => decide (p.1 = y)).length = L.length := e L
    obtain ⟨p, hp, hpy⟩ := List.mem_map.1 hy
    have h2 : 0 < (L.filter fun q => decide (q.1 = y)).length :=
      List.length_pos_of_mem (List.mem_filter.2 ⟨hp, by simpa using hpy⟩)
    omega
  -- the nodes above `y` are above some `B > y`
  obtain ⟨B, hyB, hB⟩ : ∃ B, y < B ∧ ∀ p ∈ U, B ≤ p.1 := by
    have : ∀ V : List (ℝ × ℝ), (∀ p ∈ V, y < p.1) → ∃ B, y < B ∧ ∀ p ∈ V, B ≤ p.1 := by
      intro V
      induction V with
      | nil => exact fun _ => ⟨y + 1, by linarith, by simp⟩
      | cons q V ih =>
        intro h
        obtain ⟨B, h1, h2⟩ := ih fun p hp => h p (by simp [hp])
        refine ⟨min B q.1, lt_min h1 (h q (by simp)), fun p hp => ?_⟩
        rcases List.mem_cons.1 hp with rfl | hp
        · exact min_le_right _ _
        · exact (min_le_left _ _).trans (h2 p hp)
    exact this U fun p hp => by simpa using (List.mem_filter.1 hp).2
  have hcone : ∀ V : List (ℝ × ℝ), (∀ p ∈ V, B ≤ p.1) → ∃ g, Cone B g ∧ ∀ x < B, (nodePoly V).eval x ^ 2 * g x = 1 := by
    intro V
    induction V with
    | nil => exact fun _ => ⟨_, .const zero_le_one, fun x _ => by simp [nodePoly]⟩
    | cons q V ih =>
      intro h
      obtain ⟨g, h1, h2⟩ := ih fun p hp => h p (by simp [hp])
      have hq := h q (by simp)
      refine ⟨_, .mul (.mul (.inv hq) (.inv hq)) h1, fun x hx => ?_⟩
      have e : nodePoly (q :: V) = (X - C q.1) * nodePoly V := by simp [nodePoly]
      have hne : q.1 - x ≠ 0 := by linarith
      rw [e, eval_mul]
      simp only [eval_sub, eval_X, eval_C]
      calc ((x - q.1) * (nodePoly V).eval x) ^ 2 * (1 / (q.1 - x) * (1 / (q.1 - x)) * g x)
          = ((nodePoly V).eval x ^ 2 * g x) * (((q.1 - x) ^ 2) * (1 / (q.1 - x) * (1 / (q.1 - x)))) := by ring
        _ = 1 := by rw [h2 x hx]; field_simp
  obtain ⟨g, hg, eg⟩ := hcone U hB
  set ts : List ℝ := y :: (D.map Prod.fst ++ D.map Prod.fst) with hts
  have htsle : ∀ t ∈ ts, t ≤ y := by
    intro t ht
    rw [hts] at ht
    simp only [List.mem_cons, List.mem_append, or_self] at ht
    rcases ht with rfl | h
    · exact le_rfl
    · obtain ⟨p, hp, rfl⟩ := List.mem_map.1 h
      have := (List.mem_filter.1 hp).2
      simp only [decide_eq_true_eq] at this
      exact this.le
  obtain ⟨G, r, hr, h1, -, h3, h4⟩ := hg.newton ts (fun t ht => (htsle t ht).trans_lt hyB)
  have hprod : ∀ x, (ts.map fun t => x - t).prod = (x - y) * (nodePoly D).eval x ^ 2 := by
    intro x
    have e : ∀ V : List (ℝ × ℝ), ((V.map Prod.fst).map fun t => x - t).prod = (nodePoly V).eval x := by
      intro V
      induction V with
      | nil => simp [nodePoly]
      | cons q V ih =>
        have e : nodePoly (q :: V) = (X - C q.1) * nodePoly V := by simp [nodePoly]
        rw [e, eval_mul, List.map_cons, List.map_cons, List.prod_cons, ih]; simp
    rw [hts, List.map_cons, List.prod_cons, List.map_append, List.prod_append, e, sq]
  have hH : ∀ x < B, (nodePoly U ^ 2 * G).eval x = 1 - (nodePoly U).eval x ^ 2 * ((x - y) * (nodePoly D).eval x ^ 2 * r x) := by
    intro x hx
    have := h3 x hx
    rw [hprod] at this
    rw [eval_mul, eval_pow, ← eg x hx, this]; ring
  refine ⟨nodePoly U ^ 2 * G, ?_, fun x => ?_, fun x hx => ?_, fun p hp => ?_⟩
  · have h5 := h1 (by simp [hts])
    have h6 : ts.length = 2 * D.length + 1 := by simp [hts]; ring
    refine natDegree_mul_le.trans ?_
    rw [natDegree_pow, nodePoly_natDegree]
    omega
  · rcases le_or_gt y x with h | h
    · rw [eval_mul, eval_pow]
      exact mul_nonneg (sq_nonneg _) (h4 x fun t ht => (htsle t ht).trans h)
    · rw [hH x (h.trans hyB)]
      have := hr.nonneg (h.trans hyB)
      have h7 : 0 ≤ (nodePoly U).eval x ^ 2 * ((y - x) * (nodePoly D).eval x ^ 2 * r x) :=
        mul_nonneg (sq_nonneg _) (mul_nonneg (mul_nonneg (by linarith) (sq_nonneg _)) this)
      nlinarith
  · rw [hH x (hx.trans_lt hyB)]
    have := hr.nonneg (hx.trans_lt hyB)
    have h7 : 0 ≤ (nodePoly U).eval x ^ 2 * ((y - x) * (nodePoly D).eval x ^ 2 * r x) :=
      mul_nonneg (sq_nonneg _) (mul_nonneg (mul_nonneg (by linarith) (sq_nonneg _)) this)
    nlinarith
  · rcases lt_trichotomy p.1 y with h | h | h
    · rw [if_pos h.le, hH _ (h.trans hyB), nodePoly_eval (L := D) (List.mem_filter.2 ⟨hp, by simpa using h⟩)]; ring
    · rw [if_pos h.le, h, hH _ hyB]; ring
    · rw [if_neg (not_le.2 h), eval_mul, eval_pow, nodePoly_eval (L := U) (List.mem_filter.2 ⟨hp, by simpa using h⟩)]; ring

/-! ### rays -/

/-- a rule that reproduces the integrals of all polynomials of degree `2n-2` against a measure -/
structure Reproduces (L : List (ℝ × ℝ)) (μ : Measure ℝ) : Prop where
  nodup : (L.map Prod.fst).Nodup
  nonneg : ∀ q ∈ L, 0 ≤ q.2
  exact' : ∀ p : ℝ[X], p.natDegree ≤ 2 * L.length - 2 → Integrable (fun x => p.eval x) μ ∧ quad L (fun x => p.eval x) = ∫ x, p.eval x ∂μ

/-- the sum of the weights of the nodes in `T` -/
noncomputable def massIn (L : List (ℝ × ℝ)) (T : Set ℝ) : ℝ := quad L (T.indicator fun _ => 1)

variable {L : List (ℝ × ℝ)} {μ : Measure ℝ}

theorem Reproduces.mass [IsFiniteMeasure μ] (h : Reproduces L μ) : massIn L Set.univ = μ.real Set.univ := by
  have := (h.exact' 1 (by simp)).2
  simpa [massIn] using this

theorem massIn_mono (h : ∀ q ∈ L, 0 ≤ q.2) {T T' : Set ℝ} (hT : T ⊆ T') : massIn L T ≤ massIn L T' := by
  unfold massIn quad
  refine List.sum_le_sum fun q hq => mul_le_mul_of_nonneg_left ?_ (h q hq)
  exact Set.indicator_le_indicator_of_subset hT (fun _ => zero_le_one) _

theorem massIn_compl (L : List (ℝ × ℝ)) (T : Set ℝ) : massIn L T + massIn L Tᶜ = massIn L Set.univ := by
  unfold massIn
  rw [← quad_add]
  congr 1
  ext x
  by_cases hx : x ∈ T <;> simp [hx]

/-- one half of the Chebyshev-Markov-Stieltjes inequalities -/
theorem Reproduces.node [IsFiniteMeasure μ] (h : Reproduces L μ) {y : ℝ} (hy : y ∈ L.map Prod.fst) : μ.real (Set.Iic y) ≤ massIn L (Set.Iic y) := by
  obtain ⟨H, h1, h2, h3, h4⟩ := step_majorant L hy
  obtain ⟨hi, he⟩ := h.exact' H h1
  have e : massIn L (Set.Iic y) = quad L (fun x => H.eval x) := by
    unfold massIn quad
    congr 1
    refine List.map_congr_left fun p hp => ?_
    change _ = p.2 * H.eval p.1
    rw [h4 p hp]
    by_cases hp' : p.1 ≤ y <;> simp [hp']
  rw [e, he, ← integral_indicator_one measurableSet_Iic]
  refine integral_mono ((integrable_const (1 : ℝ)).indicator measurableSet_Iic) hi fun x => ?_
  by_cases hx : x ≤ y
  · simpa [hx] using h3 x hx
  · simpa [hx] using h2 x

theorem exists_min_node (L : List (ℝ × ℝ)) (P : ℝ → Prop) (h : ∃ q ∈ L, P q.1) : ∃ q ∈ L, P q.1 ∧ ∀ p ∈ L, P p.1 → q.1 ≤ p.1 := by
  classical
  induction L with
  | nil => obtain ⟨q, hq, _⟩ := h; simp at hq
  | cons a L ih =>
    by_cases hL : ∃ q ∈ L, P q.1
    · obtain ⟨q, hq, h1, h2⟩ := ih hL
      by_cases ha : P a.1 ∧ a.1 ≤ q.1
      · refine ⟨a, by simp, ha.1, fun p hp hP => ?_⟩
        rcases List.mem_cons.1 hp with rfl | hp
        · exact le_rfl
        · exact ha.2.trans (h2 p hp hP)
      · refine ⟨q, by simp [hq], h1, fun p hp hP => ?_⟩
        rcases List.mem_cons.1 hp with rfl | hp
        · by_contra hlt
          exact ha ⟨hP, (not_le.1 hlt).le⟩
        · exact h2 p hp hP
    · obtain ⟨q, hq, hP⟩ := h
      rcases List.mem_cons.1 hq with rfl | hq'
      · refine ⟨q, by simp, hP, fun p hp hP' => ?_⟩
        rcases List.mem_cons.1 hp with rfl | hp
        · exact le_rfl
        · exact (hL ⟨p, hp, hP'⟩).elim
      · exact (hL ⟨q, hq', hP⟩).elim

theorem massIn_insert (hnd : (L.map Prod.fst).Nodup) {T T' : Set ℝ} {q : ℝ × ℝ} (hq : q ∈ L) (hT : ∀ p ∈ L, p.1 ∈ T' → p.1 ∈ T ∨ p.1 = q.1) (hw : ∀ p ∈ L, 0 ≤ p.2) :
    massIn L T' ≤ massIn L T + q.2 := by
  have h1 : massIn L T' ≤ massIn L T + massIn L {q.1} := by
    unfold massIn
    rw [← quad_add]
    unfold quad
    refine List.sum_le_sum fun p hp => mul_le_mul_of_nonneg_left ?_ (hw p hp)
    change _ ≤ T.indicator (fun _ => (1 : ℝ)) p.1 + ({q.1} : Set ℝ).indicator (fun _ => (1 : ℝ)) p.1
    by_cases h : p.1 ∈ T'
    · rcases hT p hp h with h' | h'
      · rw [Set.indicator_of_mem h, Set.indicator_of_mem h']
        have : 0 ≤ ({q.1} : Set ℝ).indicator (fun _ => (1 : ℝ)) p.1 := Set.indicator_nonneg (fun _ _ => zero_le_one) _
        linarith
      · rw [Set.indicator_of_mem h, Set.indicator_of_mem (show p.1 ∈ ({q.1} : Set ℝ) from h')]
        have : 0 ≤ T.indicator (fun _ => (1 : ℝ)) p.1 := Set.indicator_nonneg (fun _ _ => zero_le_one) _
        linarith
    · rw [Set.indicator_of_notMem h]
      exact add_nonneg (Set.indicator_nonneg (fun _ _ => zero_le_one) _) (Set.indicator_nonneg (fun _ _ => zero_le_one) _)
  have h2 : massIn L {q.1} = q.2 := by
    clear h1 hT hw
    induction L with
    | nil => simp at hq
    | cons a L ih =>
      rw [List.map_cons, List.nodup_cons] at hnd
      have e : massIn (a :: L) {q.1} = a.2 * ({q.1} : Set ℝ).indicator (fun _ => 1) a.1 + massIn L {q.1} := rfl
      rw [e]
      rcases List.mem_cons.1 hq with rfl | hq'
      · have : massIn L {q.1} = 0 := quad_zero fun p hp => by
          rw [Set.indicator_of_notMem]
          intro h
          exact hnd.1 (List.mem_map.2 ⟨p, hp, h⟩)
        rw [this]; simp
      · have hne : a.1 ≠ q.1 := fun h => hnd.1 (h ▸ List.mem_map.2 ⟨q, hq', rfl⟩)
        rw [Set.indicator_of_notMem (show a.1 ∉ ({q.1} : Set ℝ) from hne), ih hnd.2 hq', mul_zero, zero_add]
  linarith

/-- the mass of a lower ray exceeds the sum of the weights in it by at most one weight -/
theorem Reproduces.lower [IsFiniteMeasure μ] (h : Reproduces L μ) {W : ℝ} (hW0 : 0 ≤ W) (hW : ∀ q ∈ L, q.2 ≤ W) {T : Set ℝ} (hT : IsLowerSet T) :
    μ.real T ≤ massIn L T + W := by
  by_cases hall : ∃ q ∈ L, q.1 ∉ T
  · obtain ⟨q, hq, h1, h2⟩ := exists_min_node L (fun x => x ∉ T) hall
    have hsub : T ⊆ Set.Iic q.1 := fun x hx => by
      by_contra hlt
      exact h1 (hT (le_of_lt (not_le.1 hlt)) hx)
    have h3 := (measureReal_mono (μ := μ) hsub).trans (h.node (List.mem_map.2 ⟨q, hq, rfl⟩))
    have h4 : massIn L (Set.Iic q.1) ≤ massIn L T + q.2 := massIn_insert h.nodup hq (fun p hp hle => by
      by_contra hn
      push Not at hn
      exact hn.2 (le_antisymm hle (h2 p hp hn.1))) h.nonneg
    linarith [hW q hq]
  · push Not at hall
    have h3 : massIn L T = massIn L Set.univ := by
      unfold massIn quad
      congr 1
      refine List.map_congr_left fun p hp => ?_
      rw [Set.indicator_of_mem (hall p hp), Set.indicator_of_mem (Set.mem_univ _)]
    rw [h3, h.mass]
    linarith [measureReal_mono (μ := μ) (Set.subset_univ T)]

theorem quad_neg_map (L : List (ℝ × ℝ)) (f : ℝ → ℝ) : quad (L.map fun p => (-p.1, p.2)) f = quad L fun x => f (-x) := by
  unfold quad; rw [List.map_map]; rfl

theorem Reproduces.neg (h : Reproduces L μ) : Reproduces (L.map fun p => (-p.1, p.2)) (μ.map Neg.neg) where
  nodup := by
    have : (L.map fun p => (-p.1, p.2)).map Prod.fst = (L.map Prod.fst).map Neg.neg := by rw [List.map_map, List.map_map]; rfl
    rw [this]
    exact h.nodup.map neg_injective
  nonneg := by
    intro q hq
    obtain ⟨p, hp, rfl⟩ := List.mem_map.1 hq
    exact h.nonneg p hp
  exact' := by
    intro p hp
    rw [List.length_map] at hp
    obtain ⟨h1, h2⟩ := h.exact' (p.comp (-X)) (by rw [natDegree_comp]; simpa using hp)
    simp only [eval_comp, eval_neg, eval_X] at h1 h2
    refine ⟨(integrable_map_measure (by fun_prop) (by fun_prop)).2 h1, ?_⟩
    rw [quad_neg_map, h2, integral_map (by fun_prop) (by fun_prop)]

/-- **Chebyshev-Markov-Stieltjes**: on every ray, the sum of the weights and the measure differ by at most the largest weight -/
theorem Reproduces.ray [IsFiniteMeasure μ] (h : Reproduces L μ) {W : ℝ} (hW0 : 0 ≤ W) (hW : ∀ q ∈ L, q.2 ≤ W) {T : Set ℝ} (hT : IsUpperSet T) (hm : MeasurableSet T) :
    |μ.real T - massIn L T| ≤ W := by
  have h1 := h.lower hW0 hW hT.compl
  have h2 := h.neg.lower (T := Neg.neg ⁻¹' T) hW0 (fun q hq => by obtain ⟨p, hp, rfl⟩ := List.mem_map.1 hq; exact hW p hp)
    (fun x y hxy hx => hT (neg_le_neg hxy) hx)
  have e1 : (μ.map Neg.neg).real (Neg.neg ⁻¹' T) = μ.real T := by
    rw [map_measureReal_apply measurable_neg (measurable_neg hm)]
    congr 1
    ext x; simp
  have e2 : massIn (L.map fun p => (-p.1, p.2)) (Neg.neg ⁻¹' T) = massIn L T := by
    unfold massIn
    rw [quad_neg_map]
    congr 1
    ext x
    by_cases hx : x ∈ T <;> simp [hx]
  rw [e1, e2] at h2
  have h3 := massIn_compl L T
  have h4 := h.mass
  have h5 := measureReal_compl (μ := μ) hm
  rw [abs_le]
  constructor <;> linarith

theorem atoms_real (h : ∀ q ∈ L, 0 ≤ q.2) {T : Set ℝ} (hm : MeasurableSet T) : (atoms L).real T = massIn L T := by
  rw [massIn, ← atoms_quad _ h, integral_indicator hm]; simp

/-- two measures of the same mass that agree up to `W` on all upper rays give integrals of monotone functions that agree up to `W` times the range -/
theorem monotone_integral_sub {μ ν : Measure ℝ} [IsFiniteMeasure μ] [IsFiniteMeasure ν] (hmass : μ.real Set.univ = ν.real Set.univ) {W : ℝ}
    (hray : ∀ T : Set ℝ, IsUpperSet T → MeasurableSet T → |μ.real T - ν.real T| ≤ W) {f : ℝ → ℝ} (hf : Monotone f) {m M : ℝ} (hm : ∀ x, m ≤ f x) (hM : ∀ x, f x ≤ M) :
    |∫ x, f x ∂μ - ∫ x, f x ∂ν| ≤ (M - m) * W := by
  have hmM : m ≤ M := (hm 0).trans (hM 0)
  have hi : ∀ ρ : Measure ℝ, IsFiniteMeasure ρ → Integrable f ρ := fun ρ _ =>
    Integrable.of_bound (C := max |m| |M|) hf.measurable.aestronglyMeasurable (Filter.Eventually.of_forall fun x => by
      rw [Real.norm_eq_abs]; exact abs_le_max_abs_abs (hm x) (hM x))
  have key : ∀ ρ : Measure ℝ, IsFiniteMeasure ρ → ∫ x, f x ∂ρ = m * ρ.real Set.univ + ∫ t in (0 : ℝ)..(M - m), ρ.real {a | t < f a - m} := by
    intro ρ _
    have h1 : Integrable (fun x => f x - m) ρ := (hi ρ inferInstance).sub (integrable_const m)
    have h2 := h1.integral_eq_integral_meas_lt (Filter.Eventually.of_forall fun x => sub_nonneg.2 (hm x))
    rw [integral_sub (hi ρ inferInstance) (integrable_const m), integral_const, smul_eq_mul] at h2
    have h3 : ∫ t in Set.Ioi (0 : ℝ), ρ.real {a | t < f a - m} = ∫ t in (0 : ℝ)..(M - m), ρ.real {a | t < f a - m} := by
      rw [intervalIntegral.integral_of_le (by linarith)]
      refine setIntegral_eq_of_subset_of_forall_diff_eq_zero measurableSet_Ioi Set.Ioc_subset_Ioi_self fun t ht => ?_
      have ht' : M - m < t := by
        by_contra hn
        exact ht.2 ⟨ht.1, not_lt.1 hn⟩
      rw [show {a | t < f a - m} = ∅ from Set.eq_empty_of_forall_notMem fun a (ha : t < f a - m) => by linarith [hM a]]
      simp
    rw [h3] at h2
    linarith
  have hanti : ∀ ρ : Measure ℝ, IsFiniteMeasure ρ → IntervalIntegrable (fun t => ρ.real {a | t < f a - m}) volume 0 (M - m) := fun ρ _ =>
    Antitone.intervalIntegrable fun s t hst => measureReal_mono (fun a (ha : t < f a - m) => lt_of_le_of_lt hst ha)
  rw [key μ inferInstance, key ν inferInstance, hmass, add_sub_add_left_eq_sub, ← intervalIntegral.integral_sub (hanti μ inferInstance) (hanti ν inferInstance)]
  have := intervalIntegral.norm_integral_le_of_norm_le_const (a := 0) (b := M - m) (C := W) (f := fun t => μ.real {a | t < f a - m} - ν.real {a | t < f a - m}) fun t _ => by
    rw [Real.norm_eq_abs]
    refine hray _ (fun x y hxy (hx : t < f x - m) => lt_of_lt_of_le hx (sub_le_sub_right (hf hxy) m)) ?_
    exact measurableSet_lt measurable_const (hf.measurable.sub measurable_const)
  rw [Real.norm_eq_abs, sub_zero, abs_of_nonneg (show 0 ≤ M - m by linarith)] at this
  linarith

/-- error of a Gauss rule for a bounded monotone integrand -/
theorem Reproduces.monotone [IsFiniteMeasure μ] (h : Reproduces L μ) {W : ℝ} (hW0 : 0 ≤ W) (hW : ∀ q ∈ L, q.2 ≤ W) {f : ℝ → ℝ} (hf : Monotone f) {m M : ℝ}
    (hm : ∀ x, m ≤ f x) (hM : ∀ x, f x ≤ M) : |∫ x, f x ∂μ - quad L f| ≤ (M - m) * W := by
  rw [← atoms_quad f h.nonneg]
  refine monotone_integral_sub ?_ (fun T hT hmT => ?_) hf hm hM
  · rw [atoms_real h.nonneg MeasurableSet.univ, h.mass]
  · rw [atoms_real h.nonneg hmT]; exact h.ray hW0 hW hT hmT

/-! ### Gauss rules for a weight function -/

section
variable {S : Set ℝ} {w : ℝ → ℝ} {c : ℝ}

theorem reproduces_gauss (hS : MeasurableSet S) (hwm : Measurable w) (hw : ∀ x ∈ S, 0 ≤ w x) (hint : ∀ p : ℝ[X], IntegrableOn (fun x => p.eval x * w x) S)
    (hc : 0 < c) (hpos : PosDef S w) (hex : ExactUpTo L (2 * L.length - 1) S w c) : Reproduces L (dens S fun x => c * w x) where
  nodup := gauss_nodes_nodup hc hex hpos
  nonneg := fun q hq => (gauss_weights_pos hc hex hpos q hq).le
  exact' := fun p hp => by
    have hcw : ∀ x ∈ S, 0 ≤ c * w x := fun x hx => mul_nonneg hc.le (hw x hx)
    refine ⟨?_, ?_⟩
    · rw [dens_integrable hS (hwm.const_mul c) hcw]
      refine ((hint p).const_mul c).congr (Filter.Eventually.of_forall fun x => ?_)
      simp only; ring
    · rw [hex p (by omega), dens_integral hS (hwm.const_mul c) hcw, weightIntegral, ← integral_const_mul]
      congr 1; ext x; ring

/-- monotone integrands: integrability and error -/
theorem gauss_monotone (hS : MeasurableSet S) (hwm : Measurable w) (hw : ∀ x ∈ S, 0 ≤ w x) (hint : ∀ p : ℝ[X], IntegrableOn (fun x => p.eval x * w x) S)
    (hc : 0 < c) (hpos : PosDef S w) (hex : ExactUpTo L (2 * L.length - 1) S w c) (hnode : ∀ q ∈ L, q.1 ∈ S) {W : ℝ} (hW0 : 0 ≤ W) (hW : ∀ q ∈ L, q.2 ≤ W)
    {f : ℝ → ℝ} (hf : MonotoneOn f S) {m M : ℝ} (hm : ∀ x ∈ S, m ≤ f x) (hM : ∀ x ∈ S, f x ≤ M) (hmM : m ≤ M) :
    IntegrableOn (fun x => f x * w x) S ∧ |quad L f - c * ∫ x in S, f x * w x| ≤ (M - m) * W := by
  have hcw : ∀ x ∈ S, 0 ≤ c * w x := fun x hx => mul_nonneg hc.le (hw x hx)
  have hwi : IntegrableOn w S := by simpa using hint 1
  have hfin : IsFiniteMeasure (dens S fun x => c * w x) := dens_finite (hwi.const_mul c)
  obtain ⟨g₀, hg₀, e₀⟩ := hf.exists_monotone_extension ⟨m, by rintro _ ⟨x, hx, rfl⟩; exact hm x hx⟩ ⟨M, by rintro _ ⟨x, hx, rfl⟩; exact hM x hx⟩
  set g : ℝ → ℝ := fun x => max m (min M (g₀ x)) with hg
  have hgm : Monotone g := fun x y hxy => max_le_max le_rfl (min_le_min le_rfl (hg₀ hxy))
  have e : ∀ x ∈ S, f x = g x := fun x hx => by
    rw [hg]
    simp only
    rw [← e₀ hx, min_eq_right (hM x hx), max_eq_right (hm x hx)]
  have hg1 : ∀ x, m ≤ g x := fun x => le_max_left _ _
  have hg2 : ∀ x, g x ≤ M := fun x => max_le hmM (min_le_left _ _)
  have h := (reproduces_gauss hS hwm hw hint hc hpos hex).monotone hW0 hW hgm hg1 hg2
  have hgi : Integrable g (dens S fun x => c * w x) := Integrable.of_bound (C := max |m| |M|) hgm.measurable.aestronglyMeasurable
    (Filter.Eventually.of_forall fun x => by rw [Real.norm_eq_abs]; exact abs_le_max_abs_abs (hg1 x) (hg2 x))
  rw [dens_integrable hS (hwm.const_mul c) hcw] at hgi
  constructor
  · have := hgi.const_mul c⁻¹
    refine (integrableOn_congr_fun (fun x hx => ?_) hS).1 this
    change c⁻¹ * (g x * (c * w x)) = f x * w x
    rw [e x hx]
    field_simp
  · rw [dens_integral hS (hwm.const_mul c) hcw] at h
    have e1 : quad L f = quad L g := by
      unfold quad
      congr 1
      exact List.map_congr_left fun q hq => by rw [e _ (hnode q hq)]
    have e2 : c * ∫ x in S, f x * w x = ∫ x in S, g x * (c * w x) := by
      rw [← integral_const_mul]
      refine setIntegral_congr_fun hS fun x hx => ?_
      change c * (f x * w x) = g x * (c * w x)
      rw [e x hx]; ring
    rw [e1, e2, abs_sub_comm]
    exact h

/-- the same for an integrand that is monotone in either direction -/
theorem gauss_monotone' (hS : MeasurableSet S) (hwm : Measurable w) (hw : ∀ x ∈ S, 0 ≤ w x) (hint : ∀ p : ℝ[X], IntegrableOn (fun x => p.eval x * w x) S)
    (hc : 0 < c) (hpos : PosDef S w) (hex : ExactUpTo L (2 * L.length - 1) S w c) (hnode : ∀ q ∈ L, q.1 ∈ S) {W : ℝ} (hW0 : 0 ≤ W) (hW : ∀ q ∈ L, q.2 ≤ W)
    {f : ℝ → ℝ} (hf : MonotoneOn f S ∨ AntitoneOn f S) {m M : ℝ} (hm : ∀ x ∈ S, m ≤ f x) (hM : ∀ x ∈ S, f x ≤ M) (hmM : m ≤ M) :
    IntegrableOn (fun x => f x * w x) S ∧ |quad L f - c * ∫ x in S, f x * w x| ≤ (M - m) * W := by
  rcases hf with hf | hf
  · exact gauss_monotone hS hwm hw hint hc hpos hex hnode hW0 hW hf hm hM hmM
  · have h := gauss_monotone hS hwm hw hint hc hpos hex hnode hW0 hW (f := fun x => -f x) hf.neg (m := -M) (M := -m)
      (fun x hx => neg_le_neg (hM x hx)) (fun x hx => neg_le_neg (hm x hx)) (neg_le_neg hmM)
    refine ⟨?_, ?_⟩
    · refine h.1.neg.congr (Filter.Eventually.of_forall fun x => ?_)
      simp
    · have e1 : quad L (fun x => -f x) = -quad L f := by
        have := quad_smul L f (-1)
        simpa using this
      have e2 : ∫ x in S, -f x * w x = -∫ x in S, f x * w x := by
        rw [← integral_neg]
        congr 1; ext x; ring
      have h2 := h.2
      rw [e1, e2, show -quad L f - c * -∫ x in S, f x * w x = -(quad L f - c * ∫ x in S, f x * w x) by ring, abs_neg] at h2
      linarith

theorem dens_real (hS : MeasurableSet S) (hwm : Measurable w) (hw : ∀ x ∈ S, 0 ≤ w x) (hc : 0 < c) {T : Set ℝ} (hT : MeasurableSet T) :
    (dens S fun x => c * w x).real T = c * ∫ x in S ∩ T, w x := by
  have hcw : ∀ x ∈ S, 0 ≤ c * w x := fun x hx => mul_nonneg hc.le (hw x hx)
  rw [← integral_indicator_one hT, dens_integral hS (hwm.const_mul c) hcw, ← setIntegral_indicator hT, ← integral_const_mul]
  congr 1
  ext x
  by_cases hx : x ∈ T <;> simp [hx]

theorem massIn_append (A B : List (ℝ × ℝ)) (T : Set ℝ) : massIn (A ++ B) T = massIn A T + massIn B T := by
  simp [massIn, quad]

theorem massIn_all {A : List (ℝ × ℝ)} {T : Set ℝ} (h : ∀ p ∈ A, p.1 ∈ T) : massIn A T = (A.map Prod.snd).sum := by
  unfold massIn quad
  congr 1
  refine List.map_congr_left fun p hp => ?_
  rw [Set.indicator_of_mem (h p hp), mul_one]

theorem massIn_none {A : List (ℝ × ℝ)} {T : Set ℝ} (h : ∀ p ∈ A, p.1 ∉ T) : massIn A T = 0 :=
  quad_zero fun p hp => by rw [Set.indicator_of_notMem (h p hp)]

theorem massIn_take (hs : (L.map Prod.fst).Pairwise (· < ·)) {k : ℕ} (hk : k < L.length) :
    massIn L (Set.Iio (L[k]).1) = ((L.take k).map Prod.snd).sum ∧ massIn L (Set.Iic (L[k]).1) = ((L.take (k + 1)).map Prod.snd).sum := by
  have hlt : ∀ i j, (hi : i < L.length) → (hj : j < L.length) → i < j → (L[i]).1 < (L[j]).1 := fun i j hi hj hij => by
    have := List.pairwise_iff_getElem.1 hs i j (by simpa using hi) (by simpa using hj) hij
    simpa using this
  have htake : ∀ j, ∀ p ∈ L.take j, ∃ i, ∃ hi : i < L.length, i < j ∧ p = L[i] := fun j p hp => by
    obtain ⟨i, hi, rfl⟩ := List.mem_iff_getElem.1 hp
    rw [List.length_take, lt_min_iff] at hi
    exact ⟨i, hi.2, hi.1, by simp⟩
  have hdrop : ∀ j, ∀ p ∈ L.drop j, ∃ i, ∃ hi : i < L.length, j ≤ i ∧ p = L[i] := fun j p hp => by
    obtain ⟨i, hi, rfl⟩ := List.mem_iff_getElem.1 hp
    rw [List.length_drop] at hi
    exact ⟨j + i, by omega, by omega, by simp⟩
  have hsplit : ∀ j T, massIn L T = massIn (L.take j) T + massIn (L.drop j) T := fun j T => by
    rw [← massIn_append, List.take_append_drop]
  constructor
  · rw [hsplit k, massIn_all, massIn_none, add_zero]
    · intro p hp
      obtain ⟨i, hi, h1, rfl⟩ := hdrop _ p hp
      rcases h1.lt_or_eq with h | rfl
      · exact not_lt.2 (hlt _ _ hk hi h).le
      · exact lt_irrefl (L[k]).1
    · intro p hp
      obtain ⟨i, hi, h1, rfl⟩ := htake _ p hp
      exact hlt _ _ hi hk h1
  · rw [hsplit (k + 1), massIn_all, massIn_none, add_zero]
    · intro p hp
      obtain ⟨i, hi, h1, rfl⟩ := hdrop _ p hp
      exact not_le.2 (hlt _ _ hk hi (by omega))
    · intro p hp
      obtain ⟨i, hi, h1, rfl⟩ := htake _ p hp
      rcases (Nat.lt_succ_iff.1 h1).lt_or_eq with h | rfl
      · exact (hlt _ _ hi hk h).le
      · exact Set.mem_Iic.2 le_rfl

/-- the other half of the inequalities -/
theorem Reproduces.node' [IsFiniteMeasure μ] (h : Reproduces L μ) {y : ℝ} (hy : y ∈ L.map Prod.fst) : massIn L (Set.Iio y) ≤ μ.real (Set.Iio y) := by
  have h1 := h.neg.node (y := -y) (by
    obtain ⟨p, hp, rfl⟩ := List.mem_map.1 hy
    exact List.mem_map.2 ⟨(-p.1, p.2), List.mem_map.2 ⟨p, hp, rfl⟩, rfl⟩)
  have e1 : (μ.map Neg.neg).real (Set.Iic (-y)) = μ.real (Set.Iio y)ᶜ := by
    rw [map_measureReal_apply measurable_neg measurableSet_Iic]
    congr 1
    ext x; simp
  have e2 : massIn (L.map fun p => (-p.1, p.2)) (Set.Iic (-y)) = massIn L (Set.Iio y)ᶜ := by
    unfold massIn
    rw [quad_neg_map]
    congr 1
    ext x
    by_cases hx : x < y
    · simp [hx]
    · simp [not_lt.1 hx]
  rw [e1, e2] at h1
  have h2 := massIn_compl L (Set.Iio y)
  have h3 := measureReal_add_measureReal_compl (μ := μ) (s := Set.Iio y) measurableSet_Iio
  have h4 := h.mass
  linarith

/-- the Chebyshev-Markov-Stieltjes inequalities at the `k`-th node of a sorted rule -/
theorem gauss_stieltjes (hS : MeasurableSet S) (hwm : Measurable w) (hw : ∀ x ∈ S, 0 ≤ w x) (hint : ∀ p : ℝ[X], IntegrableOn (fun x => p.eval x * w x) S)
    (hc : 0 < c) (hpos : PosDef S w) (hex : ExactUpTo L (2 * L.length - 1) S w c) (hs : (L.map Prod.fst).Pairwise (· < ·)) {k : ℕ} (hk : k < L.length) :
    ((L.take k).map Prod.snd).sum ≤ c * ∫ x in S ∩ Set.Iio (L[k]).1, w x ∧
    c * ∫ x in S ∩ Set.Iic (L[k]).1, w x ≤ ((L.take (k + 1)).map Prod.snd).sum := by
  have hwi : IntegrableOn w S := by simpa using hint 1
  have hfin : IsFiniteMeasure (dens S fun x => c * w x) := dens_finite (hwi.const_mul c)
  have hr := reproduces_gauss hS hwm hw hint hc hpos hex
  have hmem : (L[k]).1 ∈ L.map Prod.fst := List.mem_map.2 ⟨L[k], List.getElem_mem _, rfl⟩
  obtain ⟨e1, e2⟩ := massIn_take hs hk
  rw [← e1, ← e2, ← dens_real hS hwm hw hc measurableSet_Iio, ← dens_real hS hwm hw hc measurableSet_Iic]
  exact ⟨hr.node' hmem, hr.node hmem⟩

end

end GaussQuad
