import Verif.Proofs.Variation

/-!
Integrands of bounded variation and a rule whose nodes and weights are close to those of the Gauss rule for the weight 1 on (-1, 1).
-/

namespace GaussQuad
open Polynomial Spec MeasureTheory intervalIntegral

theorem quad_le_of_forall₂ {L' L : List (ℝ × ℝ)} {f g : ℝ → ℝ} (h : List.Forall₂ (fun p q => f p.1 ≤ g q.1 ∧ p.2 = q.2 ∧ 0 ≤ q.2) L' L) : quad L' f ≤ quad L g := by
  unfold quad
  induction h with
  | nil => simp
  | cons hd _ ih =>
    simp only [List.map_cons, List.sum_cons]
    rw [hd.2.1]
    exact add_le_add (mul_le_mul_of_nonneg_left hd.1 hd.2.2) ih

/-- integral of a shifted monotone function -/
theorem shift_integral {g : ℝ → ℝ} (hg : Monotone g) {m M : ℝ} (hm : ∀ x, m ≤ g x) (hM : ∀ x, g x ≤ M) {δ : ℝ} (hδ : 0 ≤ δ) :
    ∫ x in (-1 : ℝ)..1, g (x + δ) ≤ (∫ x in (-1 : ℝ)..1, g x) + δ * (M - m) ∧ (∫ x in (-1 : ℝ)..1, g x) - δ * (M - m) ≤ ∫ x in (-1 : ℝ)..1, g (x - δ) := by
  have hi : ∀ a b, IntervalIntegrable g volume a b := fun a b => (hg.monotoneOn _).intervalIntegrable
  have up : ∀ a b : ℝ, a ≤ b → ∫ x in a..b, g x ≤ (b - a) * M := fun a b hab => by
    have := integral_mono_on hab (hi a b) (intervalIntegrable_const (c := M)) (fun x _ => hM x)
    simpa using this
  have lo : ∀ a b : ℝ, a ≤ b → (b - a) * m ≤ ∫ x in a..b, g x := fun a b hab => by
    have := integral_mono_on hab (intervalIntegrable_const (c := m)) (hi a b) (fun x _ => hm x)
    simpa using this
  constructor
  · rw [integral_comp_add_right (fun x => g x)]
    have e1 := integral_add_adjacent_intervals (hi (-1) (-1 + δ)) (hi (-1 + δ) (1 + δ))
    have e2 := integral_add_adjacent_intervals (hi (-1) 1) (hi 1 (1 + δ))
    have := up 1 (1 + δ) (by linarith)
    have := lo (-1) (-1 + δ) (by linarith)
    linarith
  · rw [integral_comp_sub_right (fun x => g x)]
    have e1 := integral_add_adjacent_intervals (hi (-1 - δ) (-1)) (hi (-1) 1)
    have e2 := integral_add_adjacent_intervals (hi (-1 - δ) (1 - δ)) (hi (1 - δ) 1)
    have := up (1 - δ) 1 (by linarith)
    have := lo (-1 - δ) (-1) (by linarith)
    linarith

variable {L L' : List (ℝ × ℝ)}

/-- moving the nodes by at most `δ`, monotone integrands -/
theorem perturbed_monotone (hint : ∀ p : ℝ[X], IntegrableOn (fun x => p.eval x * (1 : ℝ)) (Set.Ioo (-1) 1)) (hpos : PosDef (Set.Ioo (-1) 1) (fun _ => 1))
    (hex : ExactUpTo L (2 * L.length - 1) (Set.Ioo (-1) 1) (fun _ => 1) 1) (hnode : ∀ q ∈ L, q.1 ∈ Set.Ioo (-1 : ℝ) 1) {W : ℝ} (hW0 : 0 ≤ W) (hW : ∀ q ∈ L, q.2 ≤ W)
    {δ : ℝ} (hδ : 0 ≤ δ) (hclose : List.Forall₂ (fun p q => |p.1 - q.1| ≤ δ ∧ p.2 = q.2 ∧ 0 ≤ q.2) L' L) (hnode' : ∀ p ∈ L', p.1 ∈ Set.Icc (-1 : ℝ) 1)
    {f : ℝ → ℝ} (hf : MonotoneOn f (Set.Icc (-1) 1)) {m M : ℝ} (hm : ∀ x ∈ Set.Icc (-1 : ℝ) 1, m ≤ f x ∧ f x ≤ M) :
    IntervalIntegrable f volume (-1) 1 ∧ |quad L' f - ∫ x in (-1 : ℝ)..1, f x| ≤ (M - m) * (W + δ) := by
  set π : ℝ → ℝ := fun x => max (-1) (min 1 x) with hπ
  have hmem : ∀ x, π x ∈ Set.Icc (-1 : ℝ) 1 := fun x => ⟨le_max_left _ _, max_le (by norm_num) (min_le_left _ _)⟩
  have hid : ∀ x ∈ Set.Icc (-1 : ℝ) 1, π x = x := fun x hx => by simp only [hπ]; rw [min_eq_right hx.2, max_eq_right hx.1]
  set g : ℝ → ℝ := fun x => f (π x) with hg
  have hgm : Monotone g := fun x y hxy => hf (hmem x) (hmem y) (max_le_max le_rfl (min_le_min le_rfl hxy))
  have hg1 : ∀ x, m ≤ g x := fun x => (hm _ (hmem x)).1
  have hg2 : ∀ x, g x ≤ M := fun x => (hm _ (hmem x)).2
  have efg : ∀ x ∈ Set.Icc (-1 : ℝ) 1, g x = f x := fun x hx => by simp only [hg]; rw [hid x hx]
  have hii : IntervalIntegrable f volume (-1) 1 := MonotoneOn.intervalIntegrable (by rwa [Set.uIcc_of_le (by norm_num)])
  refine ⟨hii, ?_⟩
  have eint : ∫ x in (-1 : ℝ)..1, f x = ∫ x in (-1 : ℝ)..1, g x := integral_congr fun x hx => by
    rw [Set.uIcc_of_le (by norm_num)] at hx
    exact (efg x hx).symm
  have hmM : m ≤ M := (hg1 0).trans (hg2 0)
  have main : ∀ G : ℝ → ℝ, Monotone G → (∀ x, m ≤ G x) → (∀ x, G x ≤ M) → |quad L G - ∫ x in (-1 : ℝ)..1, G x| ≤ (M - m) * W := fun G hG h1 h2 => by
    have h := (gauss_monotone measurableSet_Ioo measurable_const (fun _ _ => zero_le_one) hint one_pos hpos hex hnode hW0 hW (hG.monotoneOn _) (fun x _ => h1 x) (fun x _ => h2 x) hmM).2
    rw [one_mul] at h
    simp only [mul_one] at h
    rwa [← integral_Ioc_eq_integral_Ioo, ← integral_of_le (by norm_num)] at h
  obtain ⟨s1, s2⟩ := shift_integral hgm hg1 hg2 hδ
  have u1 := main (fun x => g (x + δ)) (fun x y h => hgm (by linarith)) (fun x => hg1 _) (fun x => hg2 _)
  have u2 := main (fun x => g (x - δ)) (fun x y h => hgm (by linarith)) (fun x => hg1 _) (fun x => hg2 _)
  have eq' : quad L' f = quad L' g := quad_congr fun p hp => (efg _ (hnode' p hp)).symm
  have t1 : quad L' g ≤ quad L fun x => g (x + δ) := quad_le_of_forall₂ (hclose.imp fun p q h => ⟨hgm (by linarith [(abs_le.1 h.1).2]), h.2⟩)
  have t2 : (quad L fun x => g (x - δ)) ≤ quad L' g := by
    refine quad_le_of_forall₂ (List.Forall₂.imp (fun q p h => ?_) hclose.flip)
    exact ⟨hgm (by linarith [(abs_le.1 h.1).1]), h.2.1.symm, h.2.1 ▸ h.2.2⟩
  rw [eq', eint, abs_le]
  constructor
  · linarith [(abs_le.1 u2).1]
  · linarith [(abs_le.1 u1).2]

/-- moving the nodes by at most `δ`, integrands of bounded variation -/
theorem perturbed_bv (hint : ∀ p : ℝ[X], IntegrableOn (fun x => p.eval x * (1 : ℝ)) (Set.Ioo (-1) 1)) (hpos : PosDef (Set.Ioo (-1) 1) (fun _ => 1))
    (hex : ExactUpTo L (2 * L.length - 1) (Set.Ioo (-1) 1) (fun _ => 1) 1) (hnode : ∀ q ∈ L, q.1 ∈ Set.Ioo (-1 : ℝ) 1) {W : ℝ} (hW0 : 0 ≤ W) (hW : ∀ q ∈ L, q.2 ≤ W)
    {δ : ℝ} (hδ : 0 ≤ δ) (hclose : List.Forall₂ (fun p q => |p.1 - q.1| ≤ δ ∧ p.2 = q.2 ∧ 0 ≤ q.2) L' L) (hnode' : ∀ p ∈ L', p.1 ∈ Set.Icc (-1 : ℝ) 1)
    {f : ℝ → ℝ} (hf : BoundedVariationOn f (Set.Icc (-1) 1)) :
    |quad L' f - ∫ x in (-1 : ℝ)..1, f x| ≤ (eVariationOn f (Set.Icc (-1) 1)).toReal * (W + δ) := by
  obtain ⟨p, q, m₁, M₁, m₂, M₂, hp, hq, e, b1, b2, hm1, hm2, hV⟩ := bv_split hf ⟨0, by norm_num⟩
  have h1 := perturbed_monotone hint hpos hex hnode hW0 hW hδ hclose hnode' hp b1
  have h2 := perturbed_monotone hint hpos hex hnode hW0 hW hδ hclose hnode' hq b2
  have ef : f = fun x => p x - q x := funext e
  have ei : ∫ x in (-1 : ℝ)..1, f x = (∫ x in (-1 : ℝ)..1, p x) - ∫ x in (-1 : ℝ)..1, q x := by rw [ef, integral_sub h1.1 h2.1]
  have eq' : quad L' f = quad L' p - quad L' q := by rw [quad_sub, ← ef]
  have hb := abs_sub (quad L' p - ∫ x in (-1 : ℝ)..1, p x) (quad L' q - ∫ x in (-1 : ℝ)..1, q x)
  rw [ei, eq']
  calc _ = |(quad L' p - ∫ x in (-1 : ℝ)..1, p x) - (quad L' q - ∫ x in (-1 : ℝ)..1, q x)| := by congr 1; ring
    _ ≤ (M₁ - m₁) * (W + δ) + (M₂ - m₂) * (W + δ) := hb.trans (add_le_add h1.2 h2.2)
    _ = ((M₁ - m₁) + (M₂ - m₂)) * (W + δ) := by ring
    _ ≤ _ := mul_le_mul_of_nonneg_right hV (by linarith)

/-- moving the nodes and changing the weights -/
theorem perturbed_bv' {A : List (ℝ × ℝ)} (hint : ∀ p : ℝ[X], IntegrableOn (fun x => p.eval x * (1 : ℝ)) (Set.Ioo (-1) 1)) (hpos : PosDef (Set.Ioo (-1) 1) (fun _ => 1))
    (hex : ExactUpTo L (2 * L.length - 1) (Set.Ioo (-1) 1) (fun _ => 1) 1) (hnode : ∀ q ∈ L, q.1 ∈ Set.Ioo (-1 : ℝ) 1) {W : ℝ} (hW0 : 0 ≤ W) (hW : ∀ q ∈ L, q.2 ≤ W)
    {δ : ℝ} {ε : ℝ × ℝ → ℝ} (hδ : 0 ≤ δ) (hclose : List.Forall₂ (fun p q => |p.1 - q.1| ≤ δ ∧ |p.2 - q.2| ≤ ε q) A L) (hnodeA : ∀ p ∈ A, p.1 ∈ Set.Icc (-1 : ℝ) 1)
    {f : ℝ → ℝ} (hf : BoundedVariationOn f (Set.Icc (-1) 1)) {K : ℝ} (hK : ∀ x ∈ Set.Icc (-1 : ℝ) 1, |f x| ≤ K) :
    |quad A f - ∫ x in (-1 : ℝ)..1, f x| ≤ (eVariationOn f (Set.Icc (-1) 1)).toReal * (W + δ) + (L.map ε).sum * K := by
  have hw := gauss_weights_pos one_pos hex hpos
  have key : ∀ (A L : List (ℝ × ℝ)), (∀ q ∈ L, 0 < q.2) → (∀ p ∈ A, p.1 ∈ Set.Icc (-1 : ℝ) 1) → List.Forall₂ (fun p q => |p.1 - q.1| ≤ δ ∧ |p.2 - q.2| ≤ ε q) A L →
      ∃ L' : List (ℝ × ℝ), List.Forall₂ (fun p q => |p.1 - q.1| ≤ δ ∧ p.2 = q.2 ∧ 0 ≤ q.2) L' L ∧ (∀ p ∈ L', p.1 ∈ Set.Icc (-1 : ℝ) 1) ∧
        |quad A f - quad L' f| ≤ (L.map ε).sum * K := by
    intro A L hw hA h
    induction h with
    | nil => exact ⟨[], .nil, by simp, by simp⟩
    | @cons p q A L hd _ ih =>
      obtain ⟨L', h1, h2, h3⟩ := ih (fun q hq => hw q (List.mem_cons_of_mem _ hq)) (fun p hp => hA p (List.mem_cons_of_mem _ hp))
      have hp1 := hA p List.mem_cons_self
      refine ⟨(p.1, q.2) :: L', .cons ⟨hd.1, rfl, (hw q List.mem_cons_self).le⟩ h1, fun r hr => ?_, ?_⟩
      · rcases List.mem_cons.1 hr with rfl | hr
        · exact hp1
        · exact h2 r hr
      · simp only [quad, List.map_cons, List.sum_cons] at h3 ⊢
        calc _ = |(p.2 - q.2) * f p.1 + ((A.map fun p => p.2 * f p.1).sum - (L'.map fun p => p.2 * f p.1).sum)| := by congr 1; ring
          _ ≤ |(p.2 - q.2) * f p.1| + _ := abs_add_le _ _
          _ ≤ ε q * K + (L.map ε).sum * K := by
            refine add_le_add ?_ h3
            rw [abs_mul]
            exact mul_le_mul hd.2 (hK _ hp1) (abs_nonneg _) ((abs_nonneg _).trans hd.2)
          _ = _ := by ring
  obtain ⟨L', h1, h2, h3⟩ := key A L hw hnodeA hclose
  have h4 := perturbed_bv hint hpos hex hnode hW0 hW hδ h1 h2 hf
  refine (abs_sub_le _ (quad L' f) _).trans ?_
  linarith

end GaussQuad
