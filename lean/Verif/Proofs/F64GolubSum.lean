import Verif.Proofs.F64Golub
import Verif.Proofs.F64Sum
import Verif.Spec.Approx

/-! Consequences of `NearRule`: total weight, single weights, and the values returned by `integrate` and `par_integrate`. -/

set_option exponentiation.threshold 3000

namespace GaussQuad.F64
open FloatOps Spec Props

variable {R : List (F64 × F64)} {G : List (ℝ × ℝ)} {m η ω : ℝ}

theorem sum_single {α : Type} (f : α → ℝ) : ∀ (l : List α) (i : ℕ) (hi : i < l.length), (∀ j (hj : j < l.length), j ≠ i → f (l[j]) = 0) →
    (l.map f).sum = f (l[i])
  | [], i, hi, _ => absurd hi (by simp)
  | a :: l, 0, _, h => by
    have : (l.map f).sum = 0 := by
      apply List.sum_eq_zero
      intro z hz
      obtain ⟨p, hp, rfl⟩ := List.mem_map.1 hz
      obtain ⟨j, hj, rfl⟩ := List.getElem_of_mem hp
      exact h (j + 1) (by simpa using hj) (by omega)
    simp [this]
  | a :: l, i + 1, hi, h => by
    have h0 : f a = 0 := h 0 (by simp) (by omega)
    have := sum_single f l i (by simpa using hi) fun j hj hne => h (j + 1) (by simpa using hj) (by omega)
    simp [h0, this]

/-- the total weight -/
theorem _root_.GaussQuad.Spec.NearRule.total (h : NearRule R G m η ω) (hη : 0 ≤ η) (hm : quad G (fun _ => 1) = m) :
    |(R.map fun p => (p.2.val : ℝ)).sum - m| ≤ ω * m := by
  have hb : ∃ B : ℝ, ∀ q ∈ G, -B + η ≤ q.1 ∧ q.1 + η ≤ B := by
    clear h hm
    induction G with
    | nil => exact ⟨0, by simp⟩
    | cons q G ih =>
      obtain ⟨B, hB⟩ := ih
      refine ⟨max B (|q.1| + η), fun p hp => ?_⟩
      rcases List.mem_cons.1 hp with rfl | hp
      · have := le_max_right B (|p.1| + η)
        exact ⟨by linarith [neg_abs_le p.1], by linarith [le_abs_self p.1]⟩
      · have := le_max_left B (|q.1| + η)
        exact ⟨by linarith [(hB p hp).1], by linarith [(hB p hp).2]⟩
  obtain ⟨B, hB⟩ := hb
  have := h.sums (fun _ => 1) (-B) B 0 1 le_rfl zero_le_one hB (by simp) (by simp)
  rw [hm] at this
  simp only [mul_one, zero_mul, zero_add] at this
  linarith

/-- a single weight, for a node at distance at least `δ` from the others -/
theorem _root_.GaussQuad.Spec.NearRule.weight (h : NearRule R G m η ω) (hm : 0 ≤ m) (hη : 0 ≤ η) {i : ℕ} (hi : i < R.length) (hi' : i < G.length) {δ : ℝ}
    (hδ : 0 < δ) (h4 : 4 * η ≤ δ) (hgap : ∀ j (hj : j < G.length), j ≠ i → δ ≤ |(G[j]).1 - (G[i]).1|) :
    |((R[i]).2.val : ℝ) - (G[i]).2| ≤ m * (2 * η / δ + ω) := by
  obtain ⟨B, hB⟩ : ∃ B : ℝ, ∀ q ∈ G, -B + η ≤ q.1 ∧ q.1 + η ≤ B := by
    clear h hgap hi' hi
    induction G with
    | nil => exact ⟨0, by simp⟩
    | cons q G ih =>
      obtain ⟨B, hB⟩ := ih
      refine ⟨max B (|q.1| + η), fun p hp => ?_⟩
      rcases List.mem_cons.1 hp with rfl | hp
      · have := le_max_right B (|p.1| + η)
        exact ⟨by linarith [neg_abs_le p.1], by linarith [le_abs_self p.1]⟩
      · have := le_max_left B (|q.1| + η)
        exact ⟨by linarith [(hB p hp).1], by linarith [(hB p hp).2]⟩
  set x := (G[i]).1 with hx
  have hd : 0 < δ - 2 * η := by linarith
  let g : ℝ → ℝ := fun t => max 0 (min 1 ((δ - η - |t - x|) / (δ - 2 * η)))
  have g0 : ∀ t, 0 ≤ g t := fun t => le_max_left _ _
  have g1 : ∀ t, g t ≤ 1 := fun t => max_le zero_le_one (min_le_left _ _)
  have gone : ∀ t, |t - x| ≤ η → g t = 1 := by
    intro t ht
    have : 1 ≤ (δ - η - |t - x|) / (δ - 2 * η) := by rw [le_div_iff₀ hd]; linarith
    simp only [g]
    rw [min_eq_left this, max_eq_right zero_le_one]
  have gzero : ∀ t, δ - η ≤ |t - x| → g t = 0 := by
    intro t ht
    have : (δ - η - |t - x|) / (δ - 2 * η) ≤ 0 := div_nonpos_of_nonpos_of_nonneg (by linarith) hd.le
    simp only [g]
    exact max_eq_left ((min_le_right _ _).trans this)
  have glip : ∀ s t, |g s - g t| ≤ 2 / δ * |s - t| := by
    intro s t
    have h1 : |g s - g t| ≤ |(δ - η - |s - x|) / (δ - 2 * η) - (δ - η - |t - x|) / (δ - 2 * η)| := by
      refine (abs_max_sub_max_le_max _ _ _ _).trans ?_
      rw [sub_zero, abs_zero, max_eq_right (abs_nonneg _)]
      refine (abs_min_sub_min_le_max _ _ _ _).trans ?_
      rw [_root_.sub_self, abs_zero, max_eq_right (abs_nonneg _)]
    refine h1.trans ?_
    rw [← sub_div, abs_div, abs_of_pos hd, div_le_iff₀ hd]
    have h2 : |δ - η - |s - x| - (δ - η - |t - x|)| ≤ |s - t| := by
      rw [show δ - η - |s - x| - (δ - η - |t - x|) = |t - x| - |s - x| by ring]
      refine (abs_abs_sub_abs_le _ _).trans (le_of_eq ?_)
      rw [abs_sub_comm s t]; congr 1; ring
    have h3 : 1 ≤ 2 / δ * (δ - 2 * η) := by
      rw [div_mul_eq_mul_div, le_div_iff₀ hδ]; linarith
    calc _ ≤ |s - t| := h2
      _ = 1 * |s - t| := (one_mul _).symm
      _ ≤ 2 / δ * (δ - 2 * η) * |s - t| := mul_le_mul_of_nonneg_right h3 (abs_nonneg _)
      _ = _ := by ring
  have hs := h.sums g (-B) B (2 / δ) 1 (by positivity) zero_le_one hB (fun t _ => by rw [abs_of_nonneg (g0 t)]; exact g1 t) fun s _ t _ => glip s t
  have eG : quad G g = (G[i]).2 := by
    unfold quad
    rw [sum_single _ G i hi' fun j hj hne => by
      rw [gzero _ (le_trans (by linarith) (hgap j hj hne)), mul_zero], gone _ (by rw [← hx, _root_.sub_self, abs_zero]; exact hη), mul_one]
  have eR : (R.map fun p => (p.2.val : ℝ) * g p.1.val).sum = (R[i]).2.val := by
    rw [sum_single _ R i hi fun j hj hne => ?_, gone _ (h.nodes i hi hi'), mul_one]
    have hj' : j < G.length := by rw [← h.length]; exact hj
    have h1 := h.nodes j hj hj'
    have h2 := hgap j hj' hne
    have h3 : |(G[j]).1 - x| ≤ |(G[j]).1 - ((R[j]).1.val : ℝ)| + |((R[j]).1.val : ℝ) - x| := abs_sub_le _ _ _
    rw [abs_sub_comm (G[j]).1 ((R[j]).1.val : ℝ)] at h3
    have h5 : δ - η ≤ |((R[j]).1.val : ℝ) - x| := by linarith
    rw [gzero _ h5, mul_zero]
  rw [eG, eR] at hs
  refine hs.trans (le_of_eq ?_)
  ring

/-! ### Sums of function values -/

section
variable [L : Libm]

/-- the weighted sum of computed function values, sequential or parallel, against the same sum in real arithmetic -/
theorem rule_sum {f : F64 → F64} {g : ℝ → ℝ} {I : Set ℝ} {M Λ κ W : ℝ} (hfin : ∀ p ∈ R, p.1.isFinite = true ∧ p.2.isFinite = true)
    (hpos : ∀ p ∈ R, 0 ≤ p.2.val) (hI : ∀ p ∈ R, (p.1.val : ℝ) ∈ I) (hf : Computes f g I M Λ κ) (hκ : 0 ≤ κ) (hM : 0 ≤ M) (hKW' : (M + κ) * W ≤ 2 ^ 1013)
    (hW : (R.map fun p => (p.2.val : ℝ)).sum ≤ W) (hn : R.length ≤ 10 ^ 12) {d : ℕ} (hd : d ≤ 10 ^ 12) {x : F64}
    (hx : x = sumList (R.map fun p => F64.mul (f p.1) p.2) ∧ d = R.length ∨
      ∃ s, x = parSumMap s R (fun p => F64.mul (f p.1) p.2) ∧ d = roundings s R.length) :
    Near x (R.map fun p => (p.2.val : ℝ) * g p.1.val).sum (W * (κ + 1.01 * (d + 1) * (U * (M + κ))) + 1 / 2 ^ 1000) := by
  have hU := U_pos
  have hU7 := U_le
  set K := M + κ with hKd
  have hK0 : 0 ≤ K := by positivity
  have hW0 : 0 ≤ W := le_trans (List.sum_nonneg (by
    intro z hz; obtain ⟨p, hp, rfl⟩ := List.mem_map.1 hz; exact_mod_cast hpos p hp)) hW
  have hwle : ∀ p ∈ R, (p.2.val : ℝ) ≤ W := fun p hp =>
    (List.single_le_sum (by intro z hz; obtain ⟨p, hp, rfl⟩ := List.mem_map.1 hz; exact_mod_cast hpos p hp) _ (List.mem_map_of_mem hp)).trans hW
  obtain ⟨t, ht⟩ : ∃ t : ℝ, t = 1 / 2 ^ 1075 := ⟨_, rfl⟩
  have ht0 : 0 ≤ t := by rw [ht]; positivity
  -- one term
  have hitem : ∀ p ∈ R, Near (F64.mul (f p.1) p.2) ((p.2.val : ℝ) * g p.1.val) ((κ + U * K) * |(p.2.val : ℝ)| + t) := by
    intro p hp
    obtain ⟨f1, f2⟩ := hf.accurate p.1 (hfin p hp).1 (hI p hp)
    have hw0 : (0 : ℝ) ≤ p.2.val := by exact_mod_cast hpos p hp
    have := (show Near (f p.1) (g p.1.val) κ from ⟨f1, f2⟩).mul (near_self (hfin p hp).2) (A := K) (B := |(p.2.val : ℝ)|)
      (by linarith [hf.bound _ (hI p hp)]) (by simp [rv]) (by
        rw [abs_of_nonneg hw0]
        calc K * (p.2.val : ℝ) ≤ K * W := mul_le_mul_of_nonneg_left (hwle p hp) hK0
          _ ≤ _ := hKW'.trans (by norm_num))
    rw [mul_comm (g _), ← ht] at this
    refine this.mono (le_of_eq ?_)
    ring
  have hF2 : List.Forall₂ (fun p q : F64 × F64 => Near (F64.mul (f p.1) p.2) ((q.2.val : ℝ) * g q.1.val) ((κ + U * K) * |(q.2.val : ℝ)| + t)) R R := by
    rw [List.forall₂_same]; exact hitem
  have he : ∀ q : F64 × F64, 0 ≤ (κ + U * K) * |(q.2.val : ℝ)| + t := fun q => by positivity
  have eabs : (R.map fun p => |(p.2.val : ℝ)|) = R.map fun p => (p.2.val : ℝ) := List.map_congr_left fun p hp => abs_of_nonneg (by exact_mod_cast hpos p hp)
  have hlen : (R.length : ℝ) ≤ 10 ^ 12 := by exact_mod_cast hn
  have hlt : (R.length : ℝ) * t ≤ 1 / 2 ^ 1030 := by
    calc (R.length : ℝ) * t ≤ 10 ^ 12 * t := mul_le_mul_of_nonneg_right hlen ht0
      _ ≤ _ := by rw [ht]; norm_num
  have hE : (R.map fun q => (κ + U * K) * |(q.2.val : ℝ)| + t).sum ≤ (κ + U * K) * W + 1 / 2 ^ 1030 := by
    rw [List.sum_map_add, List.sum_map_mul_left, eabs, List.map_const', List.sum_replicate, nsmul_eq_mul]
    have := mul_le_mul_of_nonneg_left hW (by positivity : 0 ≤ κ + U * K)
    linarith
  have hA : (R.map fun q => |(q.2.val : ℝ) * g q.1.val|).sum ≤ M * W := by
    refine le_trans ?_ (mul_le_mul_of_nonneg_left hW hM)
    rw [← List.sum_map_mul_left]
    refine List.sum_le_sum fun q hq => ?_
    have hw0 : (0 : ℝ) ≤ q.2.val := by exact_mod_cast hpos q hq
    rw [abs_mul, abs_of_nonneg hw0, mul_comm]
    exact mul_le_mul_of_nonneg_right (hf.bound _ (hI q hq)) hw0
  have hKW : 0 ≤ K * W := by positivity
  have hUKW : U * (K * W) ≤ 0.0000001 * (K * W) := mul_le_mul_of_nonneg_right hU7 hKW
  have hmass : (R.map fun q => |(q.2.val : ℝ) * g q.1.val| + ((κ + U * K) * |(q.2.val : ℝ)| + t)).sum ≤ 1.001 * (K * W) + 1 / 2 ^ 1030 := by
    rw [List.sum_map_add]
    have : M * W + κ * W = K * W := by rw [hKd]; ring
    linarith
  have hmass' : (R.map fun q => |(q.2.val : ℝ) * g q.1.val| + ((κ + U * K) * |(q.2.val : ℝ)| + t)).sum ≤ 2 ^ 1015 := by
    have : (1.001 : ℝ) * 2 ^ 1013 + 1 / 2 ^ 1030 ≤ 2 ^ 1015 := by norm_num
    linarith
  have hsum : Sum d x (R.map fun q => (q.2.val : ℝ) * g q.1.val).sum (R.map fun q => (κ + U * K) * |(q.2.val : ℝ)| + t).sum
      (R.map fun q => |(q.2.val : ℝ) * g q.1.val| + ((κ + U * K) * |(q.2.val : ℝ)| + t)).sum := by
    rcases hx with ⟨rfl, rfl⟩ | ⟨s, rfl, rfl⟩
    · exact sumList_near he (by rw [List.forall₂_map_left_iff]; exact hF2) hn hmass'
    · exact parSumMap_near he s hF2 hd hmass'
  refine hsum.1.mono ?_
  have hd' : (d : ℝ) ≤ 10 ^ 12 := by exact_mod_cast hd
  have h3 := mul_le_mul_of_nonneg_left (mul_le_mul_of_nonneg_left hmass (by positivity : 0 ≤ 1.001 * U)) (by positivity : (0 : ℝ) ≤ d)
  have h4 : (d : ℝ) * (1.001 * U * (1 / 2 ^ 1030)) ≤ 1 / 2 ^ 1030 := by
    calc (d : ℝ) * (1.001 * U * (1 / 2 ^ 1030)) ≤ 10 ^ 12 * (1.001 * U * (1 / 2 ^ 1030)) := mul_le_mul_of_nonneg_right hd' (by positivity)
      _ = (10 ^ 12 * (1.001 * U)) * (1 / 2 ^ 1030) := by ring
      _ ≤ 1 * (1 / 2 ^ 1030) := mul_le_mul_of_nonneg_right (by unfold U; norm_num) (by positivity)
      _ = _ := one_mul _
  have h5 : 2 * ((1 : ℝ) / 2 ^ 1030) ≤ 1 / 2 ^ 1000 := by norm_num
  have h6 : 0 ≤ (d : ℝ) * (U * (K * W)) := by positivity
  have h7 : 0 ≤ U * (K * W) := by positivity
  calc _ ≤ (κ + U * K) * W + 1 / 2 ^ 1030 + d * (1.001 * U * (1.001 * (K * W) + 1 / 2 ^ 1030)) := by linarith
    _ = κ * W + U * (K * W) + 1.002001 * (d * (U * (K * W))) + d * (1.001 * U * (1 / 2 ^ 1030)) + 1 / 2 ^ 1030 := by ring
    _ ≤ κ * W + 1.01 * (U * (K * W)) + 1.01 * (d * (U * (K * W))) + 1 / 2 ^ 1000 := by linarith
    _ = _ := by ring

/-- the values of the quadrature sums with a computed rule, against the exact rule -/
theorem close_value (h : NearRule R G m η ω) (hη : 0 ≤ η) (hω : ω ≤ 0.05) (hm0 : 0 ≤ m) (hm : quad G (fun _ => 1) = m) (hn : G.length ≤ 10 ^ 12)
    {f : F64 → F64} {g : ℝ → ℝ} {lo hi M Λ κ : ℝ} (hin : ∀ q ∈ G, lo + η ≤ q.1 ∧ q.1 + η ≤ hi) (hf : Computes f g (Set.Icc lo hi) M Λ κ) (hκ : 0 ≤ κ)
    (hM : 0 ≤ M) (hΛ : 0 ≤ Λ) (hK : m * (M + κ) ≤ 2 ^ 1012) {d : ℕ} (hd : d ≤ 10 ^ 12) {x : F64}
    (hx : x = sumList (R.map fun p => F64.mul (f p.1) p.2) ∧ d = R.length ∨
      ∃ s, x = parSumMap s R (fun p => F64.mul (f p.1) p.2) ∧ d = roundings s R.length) :
    Near x (quad G g) (m * (Λ * η + ω * M + 1.05 * κ + 1.1 * (d + 1) * (U * (M + κ))) + 1 / 2 ^ 1000) := by
  have hU := U_pos
  have ht := h.total hη hm
  have hω' : ω * m ≤ 0.05 * m := mul_le_mul_of_nonneg_right hω hm0
  have hW : (R.map fun p => (p.2.val : ℝ)).sum ≤ 1.05 * m := by linarith [(_root_.abs_le.1 ht).2]
  have hI : ∀ p ∈ R, (p.1.val : ℝ) ∈ Set.Icc lo hi := by
    intro p hp
    obtain ⟨i, hi', rfl⟩ := List.getElem_of_mem hp
    have hG' : i < G.length := by rw [← h.length]; exact hi'
    have h1 := _root_.abs_le.1 (h.nodes i hi' hG')
    have h2 := hin _ (List.getElem_mem hG')
    exact ⟨by linarith [h2.1], by linarith [h2.2]⟩
  have h1 := rule_sum h.finite h.nonneg hI hf hκ hM (by
    calc (M + κ) * (1.05 * m) = 1.05 * (m * (M + κ)) := by ring
      _ ≤ 1.05 * 2 ^ 1012 := by linarith
      _ ≤ _ := by norm_num) hW (by rw [h.length]; exact hn) hd hx
  have h2 := h.sums g lo hi Λ M hΛ hM hin hf.bound hf.lipschitz
  refine ⟨h1.1, (abs_sub_le _ _ _).trans (le_trans (add_le_add h1.2 h2) ?_)⟩
  have h3 : 0 ≤ m * ((d + 1) * (U * (M + κ))) := by positivity
  linarith

end
end GaussQuad.F64
