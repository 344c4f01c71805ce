import Verif.Props.IntervalScale

/-!
# C120 for `par_integrate`
-/

set_option exponentiation.threshold 3000

namespace GaussQuad.Props
open Spec F64 FloatOps

section
variable [L : Libm]

theorem parSumMap_congr {α : Type} (s : Schedule) : ∀ {xs : List α} {u v : α → F64}, (∀ x ∈ xs, u x = v x) →
    parSumMap s xs u = parSumMap s xs v := by
  induction s with
  | leaf => intro xs u v h; simp only [parSumMap]; rw [List.map_congr_left h]
  | split mid l r ihl ihr =>
    intro xs u v h
    simp only [parSumMap]
    rw [ihl fun x hx => h x (List.mem_of_mem_take hx), ihr fun x hx => h x (List.mem_of_mem_drop hx)]

variable {k p q : ℕ} {a b a' b' : F64}

/-- C120 for `par_integrate`, with the same schedule over both intervals. -/
theorem C120_change_par {h v : ℕ} (hp : p + q + 85 ≤ 1022) (hv : p + h + v + 169 ≤ 1022) (R : AnyRule F64) (hR : hasBounds R = true)
    (hn : ∀ x ∈ storedNodes R, x.isFinite = true ∧ OnGrid q x.val) (hw : ∀ w ∈ storedWeights R, w.isFinite = true ∧ OnGrid h w.val)
    (ha : IsScaled k a a') (hb : IsScaled k b b') (ga : OnGrid p a.val) (gb : OnGrid p b.val)
    (hfin : ∀ x ∈ points a' b' R, x.isFinite = true) (f g : F64 → F64) (s s' : Schedule)
    (hfg : ∀ x ∈ points a b R, ∀ x', IsScaled k x x' → g x' = f x)
    (hf : ∀ x ∈ points a b R, (f x).isFinite = true ∧ OnGrid v (f x).val) (hres : (R.parIntegrate s s' a' b' g).isFinite = true) :
    IsScaled k (R.parIntegrate s s' a b f) (R.parIntegrate s s' a' b' g) := by
  have hpts := C120_points hp R hR hn ha hb ga gb hfin
  have hF := factor_follows (k := k) (p := p) (by omega) R hR (a := a) (b := b) (a' := a') (b' := b')
    (fun _ => ⟨ha.1, ha.2.2, ga⟩) (fun _ => ⟨hb.1, hb.2.2, gb⟩)
  have hval : ∀ x ∈ points a b R, Follows 0 v (f x) (f x) := fun x hx _ => ⟨(hf x hx).1, by simp, (hf x hx).2⟩
  have done : ∀ {C : F64}, Follows 0 (v + h + 1) C C → R.parIntegrate s s' a b f = F64.mul (finalFactor a b R) C →
      R.parIntegrate s s' a' b' g = F64.mul (finalFactor a' b' R) C → IsScaled k (R.parIntegrate s s' a b f) (R.parIntegrate s s' a' b' g) := by
    intro C hC e e'
    rw [e'] at hres
    rw [e, e']
    have := product_follows (by omega) hF hC hres
    exact ⟨this.1, hres, this.2.1⟩
  have gauss : ∀ (ps : List (F64 × F64)) (pt pt' : F64 × F64 → F64), (∀ w ∈ ps.map (·.2), w.isFinite = true ∧ OnGrid h w.val) →
      List.Forall₂ (IsScaled k) (ps.map pt) (ps.map pt') → (∀ x ∈ ps.map pt, ∀ x', IsScaled k x x' → g x' = f x) →
      (∀ x ∈ ps.map pt, Follows 0 v (f x) (f x)) →
      Follows 0 (v + h + 1) (parSumMap s ps fun r => f (pt r) *ᶠ r.2) (parSumMap s ps fun r => f (pt r) *ᶠ r.2) ∧
        (parSumMap s ps fun r => g (pt' r) *ᶠ r.2) = parSumMap s ps fun r => f (pt r) *ᶠ r.2 := by
    intro ps pt pt' w1 w2 w3 w4
    rw [List.forall₂_map_left_iff, List.forall₂_map_right_iff, List.forall₂_same] at w2
    refine ⟨(Follows.parSum (g := v + h) (by omega) s fun r hr => ?_).mono (by omega), parSumMap_congr s fun r hr => ?_⟩
    · have hw2 := w1 _ (List.mem_map_of_mem hr)
      exact (w4 _ (List.mem_map_of_mem hr)).mul (by omega) hw2.1 hw2.2
    · rw [w3 _ (List.mem_map_of_mem hr) _ (w2 r hr)]
  cases R with
  | midpoint r =>
    have hpts' := hpts
    unfold points at hpts'
    rw [List.forall₂_map_left_iff, List.forall₂_map_right_iff, List.forall₂_same] at hpts'
    set pt : ℕ → F64 := fun i => a +ᶠ (b -ᶠ a) /ᶠ ofNat r.degree *ᶠ (lit 0.5 +ᶠ ofNat i)
    set pt' : ℕ → F64 := fun i => a' +ᶠ (b' -ᶠ a') /ᶠ ofNat r.degree *ᶠ (lit 0.5 +ᶠ ofNat i)
    have hc : (parSumMap s (List.range r.degree) fun i => g (pt' i)) = parSumMap s (List.range r.degree) fun i => f (pt i) :=
      parSumMap_congr s fun i hi => hfg _ (List.mem_map.2 ⟨i, hi, rfl⟩) _ (hpts' i hi)
    refine done (C := parSumMap s (List.range r.degree) fun i => f (pt i))
      ((Follows.parSum (g := v) (by omega) s fun i hi => hval _ (List.mem_map.2 ⟨i, hi, rfl⟩)).mono (by omega)) (mulComm _ _) ?_
    rw [← hc]; exact mulComm _ _
  | trapezoid r =>
    have hpts' := hpts
    unfold points at hpts'
    set pt : ℕ → F64 := fun i => a +ᶠ ofNat i *ᶠ ((b -ᶠ a) /ᶠ ofNat r.degree)
    set pt' : ℕ → F64 := fun i => a' +ᶠ ofNat i *ᶠ ((b' -ᶠ a') /ᶠ ofNat r.degree)
    have hpts2 : List.Forall₂ (IsScaled k) ((List.range (r.degree - 1)).map fun i => pt (i + 1)) ((List.range (r.degree - 1)).map fun i => pt' (i + 1)) := by
      cases hpts' with
      | cons _ h2 => cases h2 with
        | cons _ h3 => exact h3
    rw [List.forall₂_map_left_iff, List.forall₂_map_right_iff, List.forall₂_same] at hpts2
    have hrange : ∀ i ∈ List.range' 1 (r.degree - 1), pt i ∈ points a b (.trapezoid r) ∧ IsScaled k (pt i) (pt' i) := by
      intro i hi
      rw [List.mem_range'_1] at hi
      obtain ⟨j, rfl⟩ : ∃ j, i = j + 1 := ⟨i - 1, by omega⟩
      have hj : j ∈ List.range (r.degree - 1) := List.mem_range.2 (by omega)
      exact ⟨List.mem_append_right _ (List.mem_map.2 ⟨j, hj, rfl⟩), hpts2 j hj⟩
    have ma : a ∈ points a b (.trapezoid r) := by simp [points]
    have mb : b ∈ points a b (.trapezoid r) := by simp [points]
    have hc : (parSumMap s (List.range' 1 (r.degree - 1)) fun i => g (pt' i)) = parSumMap s (List.range' 1 (r.degree - 1)) fun i => f (pt i) :=
      parSumMap_congr s fun i hi => hfg _ (hrange i hi).1 _ (hrange i hi).2
    refine done (C := F64.add ((f a +ᶠ f b) /ᶠ lit 2.0) (parSumMap s (List.range' 1 (r.degree - 1)) fun i => f (pt i))) ?_ (mulComm _ _) ?_
    · refine Follows.mono (g := v + 1) (by omega) (Follows.add (by omega) (Follows.half (by omega) (Follows.add (by omega) (hval _ ma) (hval _ mb)))
        ((Follows.parSum (g := v) (by omega) s fun i hi => hval _ (hrange i hi).1).mono (by omega)))
    · rw [← hc, ← hfg a ma a' ha, ← hfg b mb b' hb]; exact mulComm _ _
  | simpson r =>
    obtain ⟨d, hd⟩ : ∃ d, r.degree = d + 1 := ⟨r.degree - 1, by have := r.pos; omega⟩
    set pe : ℕ → F64 := fun i => a +ᶠ ofNat i *ᶠ ((b -ᶠ a) /ᶠ ofNat r.degree) with hpe
    set pe' : ℕ → F64 := fun i => a' +ᶠ ofNat i *ᶠ ((b' -ᶠ a') /ᶠ ofNat r.degree) with hpe'
    set pm : ℕ → F64 := fun i => a +ᶠ (lit 2.0 *ᶠ ofNat i -ᶠ lit 1.0) *ᶠ ((b -ᶠ a) /ᶠ ofNat r.degree) /ᶠ lit 2.0 with hpm
    set pm' : ℕ → F64 := fun i => a' +ᶠ (lit 2.0 *ᶠ ofNat i -ᶠ lit 1.0) *ᶠ ((b' -ᶠ a') /ᶠ ofNat r.degree) /ᶠ lit 2.0 with hpm'
    have scaled : ∀ {g₀ : ℕ} {x x' : F64}, Follows k g₀ x x' → x'.isFinite = true → IsScaled k x x' :=
      fun hx hx' => ⟨(hx hx').1, hx', (hx hx').2.1⟩
    have fa : Follows k p a a' := fun _ => ⟨ha.1, ha.2.2, ga⟩
    have fb : Follows k p b b' := fun _ => ⟨hb.1, hb.2.2, gb⟩
    have hlt := r.lt
    have edge : ∀ {x y : F64}, ∀ i ∈ List.range' 1 (r.degree - 1),
        x +ᶠ ofNat i *ᶠ ((y -ᶠ x) /ᶠ ofNat r.degree) ∈ points x y (.simpson r) := by
      intro x y i hi
      rw [List.mem_range'_1] at hi
      obtain ⟨j, rfl⟩ : ∃ j, i = j + 1 := ⟨i - 1, by omega⟩
      exact List.mem_append_left _ (List.mem_append_left _ (List.mem_map.2 ⟨j, List.mem_range.2 (by omega), rfl⟩))
    have mid : ∀ {x y : F64} (i : ℕ), 1 ≤ i → i ≤ r.degree →
        x +ᶠ (lit 2.0 *ᶠ ofNat i -ᶠ lit 1.0) *ᶠ ((y -ᶠ x) /ᶠ ofNat r.degree) /ᶠ lit 2.0 ∈ points x y (.simpson r) := by
      intro x y i h1 h2
      obtain ⟨j, rfl⟩ : ∃ j, i = j + 1 := ⟨i - 1, by omega⟩
      exact List.mem_append_left _ (List.mem_append_right _ (List.mem_map.2 ⟨j, List.mem_range.2 (by omega), rfl⟩))
    have hr : ∀ i ∈ List.range' 1 (r.degree - 1), 1 ≤ i ∧ i ≤ r.degree := by
      intro i hi; rw [List.mem_range'_1] at hi; omega
    have ve : ∀ i ∈ List.range' 1 (r.degree - 1), g (pe' i) = f (pe i) := fun i hi =>
      hfg _ (edge i hi) _ (scaled (edgePoint_follows (by omega) fa fb r (by have := hr i hi; omega)) (hfin _ (edge i hi)))
    have vm : ∀ i, 1 ≤ i → i ≤ r.degree → g (pm' i) = f (pm i) := fun i h1 h2 =>
      hfg _ (mid i h1 h2) _ (scaled (simpsonPoint_follows (by omega) fa fb r (by omega)) (hfin _ (mid i h1 h2)))
    have ma : a ∈ points a b (.simpson r) := by simp [points]
    have mb : b ∈ points a b (.simpson r) := by simp [points]
    have c1 : (parSumMap s (List.range' 1 (r.degree - 1)) fun i => g (pe' i)) = parSumMap s (List.range' 1 (r.degree - 1)) fun i => f (pe i) :=
      parSumMap_congr s ve
    have c2 : (parSumMap s' (List.range' 1 (r.degree - 1)) fun i => g (pm' i)) = parSumMap s' (List.range' 1 (r.degree - 1)) fun i => f (pm i) :=
      parSumMap_congr s' fun i hi => vm i (hr i hi).1 (hr i hi).2
    have hpos := r.pos
    refine done (C := lit 2.0 *ᶠ parSumMap s (List.range' 1 (r.degree - 1)) (fun i => f (pe i)) +ᶠ
      lit 4.0 *ᶠ parSumMap s' (List.range' 1 (r.degree - 1)) (fun i => f (pm i)) +ᶠ lit 4.0 *ᶠ f (pm r.degree) +ᶠ f a +ᶠ f b) ?_ rfl ?_
    · refine Follows.mono (g := v) (by omega) ?_
      have hv0 : v ≤ 1022 := by omega
      exact Follows.add hv0 (Follows.add hv0 (Follows.add hv0 (Follows.add hv0
        (Follows.twice hv0 (Follows.parSum hv0 s fun i hi => hval _ (edge i hi)))
        (Follows.four hv0 (Follows.parSum hv0 s' fun i hi => hval _ (mid i (hr i hi).1 (hr i hi).2))))
        (Follows.four hv0 (hval _ (mid _ hpos le_rfl)))) (hval _ ma)) (hval _ mb)
    · rw [← c1, ← c2, ← vm _ hpos le_rfl, ← hfg a ma a' ha, ← hfg b mb b' hb]; rfl
  | legendre r =>
    obtain ⟨w1, w2⟩ := gauss _ _ _ hw hpts hfg hval
    refine done w1 rfl ?_
    rw [← w2]; rfl
  | chebyshevFirst r =>
    obtain ⟨w1, w2⟩ := gauss _ _ _ hw hpts hfg hval
    refine done w1 (mulComm _ _) ?_
    rw [← w2]; exact mulComm _ _
  | chebyshevSecond r =>
    obtain ⟨w1, w2⟩ := gauss _ _ _ hw hpts hfg hval
    refine done w1 (mulComm _ _) ?_
    rw [← w2]; exact mulComm _ _
  | jacobi r =>
    obtain ⟨w1, w2⟩ := gauss _ _ _ hw hpts hfg hval
    refine done w1 rfl ?_
    rw [← w2]; rfl
  | hermite r => cases hR
  | laguerre r => cases hR

end

section
attribute [local instance] Conformance.noLibm

/-- Simpson's rule with three panels, in parallel: a step function with its jump at 1/2 on `[0, 1]`, and with its jump at 2 on `[0, 4]` -/
example : IsScaled 2
    ((AnyRule.simpson ⟨3, by norm_num, by norm_num⟩).parIntegrate (.split 1 .leaf .leaf) .leaf
      (zero false) (F64.round 1 false) fun x => if x.val < 1 / 2 then F64.round 3 false else F64.round (-7) false)
    ((AnyRule.simpson ⟨3, by norm_num, by norm_num⟩).parIntegrate (.split 1 .leaf .leaf) .leaf
      (zero false) (F64.round 4 false) fun x => if x.val < 2 then F64.round 3 false else F64.round (-7) false) := by
  refine C120_change_par (p := 0) (q := 0) (h := 0) (v := 0) (by norm_num) (by norm_num) _ rfl (by simp [storedNodes]) (by simp [storedWeights])
    ⟨by decide +kernel, by decide +kernel, by decide +kernel⟩ ⟨by decide +kernel, by decide +kernel, by decide +kernel⟩
    ⟨0, by decide +kernel⟩ ⟨1, by decide +kernel⟩ (by decide +kernel) _ _ _ _ (fun x _ x' hx' => ?_) (fun x _ => ?_) (by decide +kernel)
  · obtain ⟨-, -, h3⟩ := hx'
    have e : x'.val < 2 ↔ x.val < 1 / 2 := by rw [h3]; constructor <;> intro h <;> linarith
    simp only [e]
  · split_ifs
    · exact ⟨by decide +kernel, 3, by decide +kernel⟩
    · exact ⟨by decide +kernel, -7, by decide +kernel⟩

end

end GaussQuad.Props
