import Verif.Proofs.F64JacobiRule

/-!
Overwriting the middle node of a computed Gauss-Jacobi rule by 0 when the exact node is not 0 (`/repo/src/jacobi/mod.rs:132-137`, odd degree, `α ≠ β`).
-/

namespace GaussQuad.F64
open Spec FloatOps

theorem abs_sum_sub_sum_le : ∀ (u v k : List ℝ), u.length = k.length → v.length = k.length →
    (∀ j (h1 : j < u.length) (h2 : j < v.length) (h3 : j < k.length), |u[j] - v[j]| ≤ k[j]) → |u.sum - v.sum| ≤ k.sum
  | [], [], [], _, _, _ => by simp
  | a :: u, b :: v, c :: k, hu, hv, h => by
    have h0 := h 0 (by simp) (by simp) (by simp)
    have ih := abs_sum_sub_sum_le u v k (by simpa using hu) (by simpa using hv) fun j h1 h2 h3 =>
      h (j + 1) (by simpa using h1) (by simpa using h2) (by simpa using h3)
    simp only [List.getElem_cons_zero] at h0
    rw [List.sum_cons, List.sum_cons, List.sum_cons, show a + u.sum - (b + v.sum) = (a - b) + (u.sum - v.sum) by ring]
    exact (abs_add_le _ _).trans (add_le_add h0 ih)
  | [], _ :: _, [], _, hv, _ => by simp at hv
  | [], _, _ :: _, hu, _, _ => by simp at hu
  | _ :: _, _, [], hu, _, _ => by simp at hu
  | _ :: _, [], _ :: _, _, hv, _ => by simp at hv

/-- overwriting with `0` a node that lies between two others and at distance at least `γ` from all of them -/
theorem _root_.GaussQuad.Spec.NearRule.overwrite {R : List (F64 × F64)} {G : List (ℝ × ℝ)} {m η ω : ℝ} (h : NearRule R G m η ω) (hη : 0 ≤ η) (hω : ω ≤ 0.05)
    (hm0 : 0 ≤ m) (hm : quad G (fun _ => 1) = m) {i : ℕ} (hi : i < R.length) (hi' : i < G.length) {γ : ℝ} (hγ : 0 < γ)
    (hgap : ∀ j (hj : j < G.length), j ≠ i → γ ≤ |(G[j]).1 - (G[i]).1|)
    (hl : ∃ j, ∃ hj : j < G.length, j ≠ i ∧ (G[j]).1 ≤ (G[i]).1) (hr : ∃ j, ∃ hj : j < G.length, j ≠ i ∧ (G[i]).1 ≤ (G[j]).1)
    {z : F64} (hzf : z.isFinite = true) (hz0 : z.rv = 0) :
    NearRule (R.set i (z, (R[i]).2)) (G.set i (0, (G[i]).2)) m (2.05 * (η * (1 + |(G[i]).1| / γ))) (3 * ω) := by
  have ht := h.total hη hm
  have hωm : ω * m ≤ 0.05 * m := mul_le_mul_of_nonneg_right hω hm0
  have hlen := h.length
  have e0 : ((z.val : ℚ) : ℝ) = 0 := hz0
  set x := (G[i]).1 with hx
  have hx0 := abs_nonneg x
  have hq : 0 ≤ |x| / γ := by positivity
  have hη' : η ≤ η * (1 + |x| / γ) := le_mul_of_one_le_right hη (by linarith)
  have hη2 : η ≤ 2.05 * (η * (1 + |x| / γ)) := by linarith
  refine ⟨by rw [List.length_set, List.length_set]; exact hlen, ?_, ?_, ?_, ?_⟩
  · intro p hp
    rcases List.mem_or_eq_of_mem_set hp with hp | rfl
    · exact h.finite p hp
    · exact ⟨hzf, (h.finite _ (List.getElem_mem hi)).2⟩
  · intro p hp
    rcases List.mem_or_eq_of_mem_set hp with hp | rfl
    · exact h.nonneg p hp
    · exact h.nonneg (R[i]) (List.getElem_mem hi)
  · intro j hj hj'
    rw [List.getElem_set, List.getElem_set]
    split
    · show |((z.val : ℚ) : ℝ) - 0| ≤ _
      rw [e0, sub_zero, abs_zero]; linarith
    · exact (h.nodes j (by simpa using hj) (by simpa using hj')).trans hη2
  · intro g lo hi2 Λ M hΛ hM hin hb hlip
    -- the nodes of the exact rule lie in the interval
    have hold : ∀ j (hj : j < G.length), j ≠ i → lo + η ≤ (G[j]).1 ∧ (G[j]).1 + η ≤ hi2 := by
      intro j hj hne
      have hmem : G[j] ∈ G.set i (0, (G[i]).2) := by
        have := List.getElem_mem (l := G.set i (0, (G[i]).2)) (n := j) (by rw [List.length_set]; exact hj)
        rwa [List.getElem_set, if_neg (Ne.symm hne)] at this
      have := hin _ hmem
      exact ⟨by linarith [this.1], by linarith [this.2]⟩
    have hxin : lo + η ≤ x ∧ x + η ≤ hi2 := by
      obtain ⟨j, hj, hne, h1⟩ := hl
      obtain ⟨k, hk, hne', h2⟩ := hr
      exact ⟨by linarith [(hold j hj hne).1], by linarith [(hold k hk hne').2]⟩
    have hall : ∀ q ∈ G, lo + η ≤ q.1 ∧ q.1 + η ≤ hi2 := by
      intro q hq
      obtain ⟨j, hj, rfl⟩ := List.getElem_of_mem hq
      by_cases hne : j = i
      · subst hne; exact hxin
      · exact hold j hj hne
    have h0in : (0 : ℝ) ∈ Set.Icc lo hi2 := by
      have hmem : ((0 : ℝ), (G[i]).2) ∈ G.set i (0, (G[i]).2) := by
        have := List.getElem_mem (l := G.set i (0, (G[i]).2)) (n := i) (by rw [List.length_set]; exact hi')
        rwa [List.getElem_set_self] at this
      have := hin _ hmem
      simp only at this
      exact ⟨by linarith [this.1], by linarith [this.2]⟩
    have hxin' : x ∈ Set.Icc lo hi2 := ⟨by linarith [hxin.1], by linarith [hxin.2]⟩
    -- the tent function
    let T : ℝ → ℝ := fun t => max 0 (1 - |t - x| / γ)
    have T0 : ∀ t, 0 ≤ T t := fun t => le_max_left _ _
    have T1 : ∀ t, T t ≤ 1 := fun t => max_le zero_le_one (by have : 0 ≤ |t - x| / γ := by positivity
                                                              linarith)
    have Tx : T x = 1 := by simp [T]
    have Tlip : ∀ s t, |T s - T t| ≤ |s - t| / γ := by
      intro s t
      refine (abs_max_sub_max_le_max _ _ _ _).trans ?_
      rw [_root_.sub_self, abs_zero, max_eq_right (abs_nonneg _), show 1 - |s - x| / γ - (1 - |t - x| / γ) = (|t - x| - |s - x|) / γ by ring, abs_div, abs_of_pos hγ]
      refine div_le_div_of_nonneg_right ?_ hγ.le
      refine (abs_abs_sub_abs_le _ _).trans (le_of_eq ?_)
      rw [abs_sub_comm s t]; congr 1; ring
    have Tfar : ∀ t, γ - η ≤ |t - x| → T t ≤ η / γ := by
      intro t ht
      refine max_le (by positivity) ?_
      have : (γ - η) / γ ≤ |t - x| / γ := div_le_div_of_nonneg_right ht hγ.le
      rw [sub_div, div_self hγ.ne'] at this
      linarith
    have Tzero : ∀ t, γ ≤ |t - x| → T t = 0 := by
      intro t ht
      refine max_eq_left ?_
      have : γ / γ ≤ |t - x| / γ := div_le_div_of_nonneg_right ht hγ.le
      rw [div_self hγ.ne'] at this
      linarith
    have hd : |g 0 - g x| ≤ Λ * |x| := by
      have := hlip 0 h0in x hxin'
      rwa [zero_sub, abs_neg] at this
    let g' : ℝ → ℝ := fun t => g t + (g 0 - g x) * T t
    set Λ' := Λ * (1 + |x| / γ) with hΛ'
    have hΛ'0 : 0 ≤ Λ' := by positivity
    have g'b : ∀ t ∈ Set.Icc lo hi2, |g' t| ≤ 3 * M := by
      intro t ht
      have h1 := hb t ht
      have h2 : |(g 0 - g x) * T t| ≤ 2 * M := by
        rw [abs_mul, abs_of_nonneg (T0 t)]
        have : |g 0 - g x| ≤ 2 * M := (abs_sub _ _).trans (by linarith [hb 0 h0in, hb x hxin'])
        calc |g 0 - g x| * T t ≤ |g 0 - g x| * 1 := mul_le_mul_of_nonneg_left (T1 t) (abs_nonneg _)
          _ ≤ _ := by linarith
      exact (abs_add_le _ _).trans (by linarith)
    have g'l : ∀ s ∈ Set.Icc lo hi2, ∀ t ∈ Set.Icc lo hi2, |g' s - g' t| ≤ Λ' * |s - t| := by
      intro s hs t ht
      have e : g' s - g' t = (g s - g t) + (g 0 - g x) * (T s - T t) := by simp only [g']; ring
      rw [e]
      have h2 : |(g 0 - g x) * (T s - T t)| ≤ Λ * |x| * (|s - t| / γ) := by
        rw [abs_mul]
        exact mul_le_mul hd (Tlip s t) (abs_nonneg _) (by positivity)
      refine (abs_add_le _ _).trans ((add_le_add (hlip s hs t ht) h2).trans (le_of_eq ?_))
      rw [hΛ']; ring
    have h1 := h.sums g' lo hi2 Λ' (3 * M) hΛ'0 (by positivity) hall g'b g'l
    have eG : quad G g' = quad (G.set i (0, (G[i]).2)) g := by
      unfold quad
      congr 1
      apply List.ext_getElem (by simp)
      intro j hj hj'
      rw [List.getElem_map, List.getElem_map, List.getElem_set]
      rw [List.length_map] at hj
      split
      · next e =>
        subst e
        show _ * g' x = _ * g 0
        simp only [g']
        rw [Tx]; ring
      · next e =>
        simp only [g']
        rw [Tzero _ (hgap j hj (Ne.symm e))]; ring
    rw [eG] at h1
    have hnode : ∀ j (hj : j < R.length), ((R[j]).1.val : ℝ) ∈ Set.Icc lo hi2 := by
      intro j hj
      have hj' : j < G.length := by omega
      have h2 := _root_.abs_le.1 (h.nodes j hj hj')
      have h3 := hall _ (List.getElem_mem hj')
      exact ⟨by linarith [h2.1, h3.1], by linarith [h2.2, h3.2]⟩
    have hxg : g' x = g 0 := by simp only [g']; rw [Tx]; ring
    have hdiff := abs_sum_sub_sum_le ((R.set i (z, (R[i]).2)).map fun p => (p.2.val : ℝ) * g p.1.val) (R.map fun p => (p.2.val : ℝ) * g' p.1.val)
      (R.map fun p => (p.2.val : ℝ) * (Λ' * η)) (by simp) (by simp) (by
        intro j ha hb' hc
        simp only [List.length_map] at hb'
        simp only [List.getElem_map, List.getElem_set]
        have hj' : j < G.length := by omega
        have hw0 : (0 : ℝ) ≤ (R[j]).2.val := by exact_mod_cast h.nonneg _ (List.getElem_mem hb')
        have hn := h.nodes j hb' hj'
        split
        · next e =>
          subst e
          show |(((R[i]).2.val : ℚ) : ℝ) * g ((z.val : ℚ) : ℝ) - _| ≤ _
          rw [e0, ← mul_sub, abs_mul, abs_of_nonneg hw0, ← hxg]
          refine mul_le_mul_of_nonneg_left ((g'l _ hxin' _ (hnode _ hb')).trans (mul_le_mul_of_nonneg_left ?_ hΛ'0)) hw0
          rw [abs_sub_comm]; exact hn
        · next e =>
          rw [← mul_sub, abs_mul, abs_of_nonneg hw0]
          refine mul_le_mul_of_nonneg_left ?_ hw0
          have e1 : g ((R[j]).1.val : ℝ) - g' ((R[j]).1.val : ℝ) = -((g 0 - g x) * T (R[j]).1.val) := by simp only [g']; ring
          rw [e1, abs_neg, abs_mul, abs_of_nonneg (T0 _)]
          have hfar : T (R[j]).1.val ≤ η / γ := by
            refine Tfar _ ?_
            have h2 := hgap j hj' (Ne.symm e)
            have h3 := abs_sub_abs_le_abs_sub ((G[j]).1 - x) (((R[j]).1.val : ℝ) - x)
            have h4 : |(G[j]).1 - x - (((R[j]).1.val : ℝ) - x)| ≤ η := by
              rw [abs_sub_comm] at hn
              convert hn using 2
              ring
            linarith
          calc |g 0 - g x| * T (R[j]).1.val ≤ Λ * |x| * (η / γ) := mul_le_mul hd hfar (T0 _) (by positivity)
            _ = Λ * (|x| / γ) * η := by ring
            _ ≤ Λ' * η := by
              refine mul_le_mul_of_nonneg_right ?_ hη
              rw [hΛ']
              exact mul_le_mul_of_nonneg_left (by linarith) hΛ)
    rw [List.sum_map_mul_right] at hdiff
    have hS : (R.map fun p => (p.2.val : ℝ)).sum ≤ 1.05 * m := by linarith [(_root_.abs_le.1 ht).2]
    have hdiff2 := hdiff.trans (mul_le_mul_of_nonneg_right hS (by positivity : 0 ≤ Λ' * η))
    have := (abs_sub_le _ _ _).trans (add_le_add hdiff2 h1)
    refine this.trans (le_of_eq ?_)
    rw [hΛ']
    ring

section
variable [L : Libm]

/-- the Jacobi rule at odd degrees with different parameters: close to the exact rule with its middle node replaced by 0 -/
theorem jacobi_odd_close (hL : AccurateTrig L) (hP : AccuratePow L) (hs : AccurateSqrt L) (mode : Overflow) {ext : Externals F64} {n : ℕ} (hn : 1 < n) (hn1 : n ≤ 10 ^ 12)
    (hodd : n % 2 = 1) {ε : ℝ} (hst : StableSolver ext n ε) (hε : 0 ≤ ε) (hε1 : ε ≤ 0.01) {al be : FiniteAboveNegOne F64} {μ : ℝ} (h : JacOk al.val be.val μ)
    (hSN : al.val.rv + be.val.rv < -1 → AccurateSinNeg L)
    (hd : ¬ (al.val.val = 0 ∧ be.val.val = 0) ∧ ¬ (al.val.val = -1 / 2 ∧ be.val.val = -1 / 2) ∧ ¬ (al.val.val = 1 / 2 ∧ be.val.val = 1 / 2))
    {G : List (ℝ × ℝ)} (hG : G.length = n) (hGs : G.Pairwise fun p q => p.1 ≤ q.1) (hex : ExactUpTo G (2 * n - 1) (Set.Ioo (-1) 1) (jacW al.val.rv be.val.rv) 1)
    {x w γ : ℝ} (hx : G[n / 2]? = some (x, w)) (hγ : 0 < γ) (hgap : ∀ j (hj : j < G.length), j ≠ n / 2 → γ ≤ |(G[j]).1 - x|) :
    ∃ r, GaussJacobi.new mode ext n al be = some r ∧ r.alpha = al ∧ r.beta = be ∧ r.nodeWeightPairs[n / 2]?.map (fun p => p.1) = some (lit 0.0) ∧
      NearRule r.nodeWeightPairs (G.set (n / 2) (0, w))
        (2 ^ (al.val.rv + be.val.rv + 1) * Real.Gamma (al.val.rv + 1) * Real.Gamma (be.val.rv + 1) / Real.Gamma (al.val.rv + be.val.rv + 2))
        (3.6 * Real.sqrt n * (ε + 21 * U / μ) * (1 + |x| / γ)) (3 * (2.01 * ε + 4.2e-11)) := by
  have hU := U_pos
  have hμ0 := h.μ0
  have hμp : 0 < μ := by linarith
  have hga := h.ga
  have hgb := h.gb
  have h55 : (0 : ℝ) < 1 / 2 ^ 55 := by positivity
  have hα : -1 < al.val.rv := by linarith
  have hβ : -1 < be.val.rv := by linarith
  have mm := jac_mass_mag h
  have hmass := jacobi_mass hα hβ
  have l0 : (lit 0.0 : F64).isFinite = true ∧ (lit 0.0 : F64).val = 0 := by
    change (round 0.0 false).isFinite = true ∧ (round 0.0 false).val = 0
    decide +kernel
  have l1 : (lit (-0.5) : F64).isFinite = true ∧ (lit (-0.5) : F64).val = -1 / 2 := by
    change (round (-0.5) false).isFinite = true ∧ (round (-0.5) false).val = -1 / 2
    decide +kernel
  have l2 : (lit 0.5 : F64).isFinite = true ∧ (lit 0.5 : F64).val = 1 / 2 := by
    change (round 0.5 false).isFinite = true ∧ (round 0.5 false).val = 1 / 2
    decide +kernel
  have new_eq := fun {R} h' => jacobi_new_eq (mode := mode) (ext := ext) (n := n) (al := al) (be := be) (R := R) (feq_false h.fa h.fb l0.1 l0.2 hd.1)
    (feq_false h.fa h.fb l1.1 l1.2 hd.2.1) (feq_false h.fa h.fb l2.1 l2.2 hd.2.2) h'
  have hη0 : 0 ≤ Real.sqrt n * (ε + 21 * U / μ) := by positivity
  obtain ⟨R, hR, hC⟩ := jacobi_golub_close hL hP hs (by omega) hn1 hst hε hε1 h hSN hG hGs hex
  have hlen : R.length = n := hC.length.trans hG
  have hω : 2.01 * ε + 4.2e-11 ≤ 0.05 := by
    calc 2.01 * ε + 4.2e-11 ≤ 2.01 * 0.01 + 4.2e-11 := by gcongr
      _ ≤ _ := by norm_num
  obtain ⟨hi', hGi⟩ := List.getElem?_eq_some_iff.1 hx
  have hsort := List.pairwise_iff_getElem.1 hGs
  have hN := hC.toNearRule.overwrite (by linarith) hω mm.pos.le (quad_one hmass hex) (i := n / 2) (by omega) hi' hγ
    (fun j hj hne => by rw [hGi]; exact hgap j hj hne) ⟨0, by omega, by omega, hsort _ _ _ _ (by omega)⟩
    ⟨n - 1, by omega, by omega, hsort _ _ _ _ (by omega)⟩ l0.1 (show ((lit 0.0 : F64).val : ℝ) = 0 by rw [l0.2, Rat.cast_zero])
  rw [hGi] at hN
  refine ⟨_, new_eq (Or.inr ⟨by omega, R, hR, fixMiddle_odd hodd (by omega)⟩), rfl, rfl, ?_, hN.mono mm.pos.le ?_ le_rfl⟩
  · show (R.set (n / 2) _)[n / 2]?.map _ = _
    rw [List.getElem?_set_self (by omega)]; rfl
  · have h1 : 0 ≤ 1 + |x| / γ := by positivity
    have : 2.05 * (1.74 * Real.sqrt n * (ε + 21 * U / μ)) ≤ 3.6 * Real.sqrt n * (ε + 21 * U / μ) := by linarith
    have := mul_le_mul_of_nonneg_right this h1
    refine le_trans (le_of_eq ?_) this
    show 2.05 * (1.74 * Real.sqrt n * (ε + 21 * U / μ) * (1 + |x| / γ)) = _
    ring

end
end GaussQuad.F64
