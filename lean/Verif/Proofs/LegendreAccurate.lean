import Verif.Proofs.LegendreCheckSound

/-!
# The angles computed for degree at most 100 against the true roots
-/

namespace GaussQuad
open LegendrePoly Bogaert LegendreData LegendreCheck

theorem legOmega_neg (n : ℕ) (x : ℝ) : legOmega n (-x) = legOmega n x := by
  unfold legOmega
  congr 1
  apply Finset.sum_congr rfl
  intro k _
  rw [(P_neg k x).1, mul_pow, ← pow_mul, mul_comm k 2, pow_mul, neg_one_sq, one_pow, one_mul]

theorem P_neg_root {n : ℕ} {x : ℝ} (h : P n x = 0) : P n (-x) = 0 := by rw [(P_neg n x).1, h, mul_zero]

theorem new_even_low {m k : ℕ} (h100 : 2 * m ≤ 100) (hk : 1 ≤ k) (h : k ≤ m) {t w : ℝ} (g1 : table2 EVEN_THETA_ZEROS (m - 1) (m - k) = some t)
    (g2 : table2 EVEN_WEIGHTS (m - 1) (m - k) = some w) : ThetaWeightPair.new (2 * m) k = some ⟨t, w⟩ := by
  rw [new_tabulated h100 hk]
  unfold tabulatedPair
  have e0 : (2 * m % 2 == 1) = false := by simp
  have e1 : csub m 1 = some (m - 1) := by simp [csub]; omega
  simp only [e0, Bool.false_eq_true, if_false, show 2 * m / 2 = m by omega]
  have hc : compare (k - 1) m = .lt := Nat.compare_eq_lt.2 (by omega)
  have e2 : csub m (k - 1) = some (m - (k - 1)) := by simp [csub]; omega
  have e3 : csub (m - (k - 1)) 1 = some (m - k) := by
    simp only [csub]; rw [if_pos (by omega)]; congr 1; omega
  simp [hc, e1, e2, e3, g1, g2]

theorem new_odd_low {m k : ℕ} (h100 : 2 * m + 1 ≤ 100) (hk : 1 ≤ k) (h : k ≤ m) {t w : ℝ} (g1 : table2 ODD_THETA_ZEROS (m - 1) (m - k) = some t)
    (g2 : table2 ODD_WEIGHTS (m - 1) (m - k) = some w) : ThetaWeightPair.new (2 * m + 1) k = some ⟨t, w⟩ := by
  rw [new_tabulated h100 hk]
  unfold tabulatedPair
  have e0 : ((2 * m + 1) % 2 == 1) = true := by simp
  have e00 : csub (2 * m + 1) 1 = some (2 * m) := by simp [csub]
  simp only [e0, if_true, e00, Option.bind_eq_bind, Option.bind_some, show 2 * m / 2 = m by omega]
  have hcmp : compare (k - 1) m = .lt := Nat.compare_eq_lt.2 (by omega)
  have e1 : csub m 1 = some (m - 1) := by simp [csub]; omega
  have e2 : csub m (k - 1) = some (m - (k - 1)) := by simp [csub]; omega
  have e3 : csub (m - (k - 1)) 1 = some (m - k) := by
    simp only [csub]; rw [if_pos (by omega)]; congr 1; omega
  simp [hcmp, e1, e2, e3, g1, g2]

theorem new_odd_mid {m : ℕ} (h100 : 2 * m + 1 ≤ 100) {c : ℤ} (hc : CL[2 * m + 1]? = some c) :
    ThetaWeightPair.new (2 * m + 1) (m + 1) = some ⟨Real.pi / 2, 2 / (tableLit c * tableLit c)⟩ := by
  rw [new_tabulated h100 (by omega)]
  unfold tabulatedPair
  have e0 : ((2 * m + 1) % 2 == 1) = true := by simp
  have e00 : csub (2 * m + 1) 1 = some (2 * m) := by simp [csub]
  simp only [e0, if_true, e00, Option.bind_eq_bind, Option.bind_some, show 2 * m / 2 = m by omega]
  simp [hc]
  norm_num

/-- positive roots and closeness at the lower half of the angles give all -/
theorem accurate {n : ℕ} (hn : 1 ≤ n) (h100 : n ≤ 100) {θ w : ℕ → ℝ} (h : LegendreAngles n θ w) :
    ∃ ξ : ℕ → ℝ, (∀ k, 1 ≤ k → k ≤ n → P n (ξ k) = 0 ∧ |Real.cos (θ k) - ξ k| ≤ 2 / 10 ^ 16 ∧ |w k - legOmega n (ξ k)| ≤ 5 / 10 ^ 17) ∧
      ∀ k l, 1 ≤ k → k < l → l ≤ n → ξ l < ξ k := by
  -- the roots belonging to the lower half
  obtain ⟨x, h1, h2⟩ : ∃ x : ℕ → ℝ, (∀ k, 1 ≤ k → 2 * k ≤ n → 0 < x k ∧ P n (x k) = 0 ∧ |Real.cos (θ k) - x k| ≤ 2 / 10 ^ 16 ∧
      |w k - legOmega n (x k)| ≤ 5 / 10 ^ 17) ∧ ∀ k l, 1 ≤ k → k < l → 2 * l ≤ n → x l < x k := by
    rcases Nat.even_or_odd' n with ⟨m, rfl | rfl⟩
    · have hr := even_ok (m - 1) (by omega)
      rw [show 2 * (m - 1) + 2 = 2 * m by omega] at hr
      obtain ⟨y, t, v, a1, a2⟩ := row_sound hn h100 hr
      refine ⟨fun k => y (m - k), fun k hk hkm => ?_, fun k l hk hkl hl => a2 _ _ (by omega) (by omega)⟩
      obtain ⟨b1, b2, b3, b4, b5, b6⟩ := a1 (m - k) (by omega)
      have := h.new k hk (by omega)
      rw [new_even_low h100 hk (by omega) b1 b2] at this
      simp only [Option.some.injEq, ThetaWeightPair.mk.injEq] at this
      rw [← this.1, ← this.2]
      exact ⟨b3, b4, b5, b6⟩
    · rcases Nat.eq_zero_or_pos m with hm | hm
      · exact ⟨fun _ => 0, fun k _ _ => by omega, fun k l _ _ _ => by omega⟩
      have hr := odd_ok (m - 1) (by omega)
      rw [show 2 * (m - 1) + 3 = 2 * m + 1 by omega] at hr
      obtain ⟨y, t, v, a1, a2⟩ := row_sound hn h100 hr
      refine ⟨fun k => y (m - k), fun k hk hkm => ?_, fun k l hk hkl hl => a2 _ _ (by omega) (by omega)⟩
      obtain ⟨b1, b2, b3, b4, b5, b6⟩ := a1 (m - k) (by omega)
      have := h.new k hk (by omega)
      rw [new_odd_low h100 hk (by omega) b1 b2] at this
      simp only [Option.some.injEq, ThetaWeightPair.mk.injEq] at this
      rw [← this.1, ← this.2]
      exact ⟨b3, b4, b5, b6⟩
  refine ⟨fun k => if 2 * k ≤ n then x k else if 2 * k = n + 1 then 0 else -x (n + 1 - k), ?_, ?_⟩
  · intro k hk hkn
    by_cases c1 : 2 * k ≤ n
    · simp only [c1, if_true]; exact (h1 k hk c1).2
    · by_cases c2 : 2 * k = n + 1
      · simp only [c1, c2, if_true, if_false]
        obtain ⟨m, rfl⟩ : ∃ m, k = m + 1 := ⟨k - 1, by omega⟩
        have hn' : n = 2 * m + 1 := by omega
        subst hn'
        obtain ⟨c, hc⟩ : ∃ c, CL[2 * m + 1]? = some c := by
          have : 2 * m + 1 < CL.length := by rw [cl_shape]; omega
          exact ⟨_, List.getElem?_eq_getElem this⟩
        obtain ⟨d1, d2⟩ := mid_sound (m := m) (by omega)
        have := h.new (m + 1) hk hkn
        rw [new_odd_mid h100 hc] at this
        simp only [Option.some.injEq, ThetaWeightPair.mk.injEq] at this
        rw [← this.1, ← this.2]
        rw [if_neg (by omega)]
        refine ⟨d1, ?_, d2 c hc⟩
        rw [Real.cos_pi_div_two, sub_zero, abs_zero]; positivity
      · simp only [c1, c2, if_false]
        obtain ⟨-, e1, e2, e3⟩ := h1 (n + 1 - k) (by omega) (by omega)
        obtain ⟨f1, f2⟩ := h.mirror (n + 1 - k) (by omega) (by omega)
        rw [show n + 1 - (n + 1 - k) = k by omega] at f1 f2
        rw [f1, f2, Real.cos_pi_sub, legOmega_neg]
        refine ⟨P_neg_root e1, ?_, e3⟩
        rw [← neg_add', abs_neg, ← sub_eq_add_neg]; exact e2
  · intro k l hk hkl hl
    rcases Nat.lt_trichotomy (2 * l) (n + 1) with c | c | c
    · simp only [show 2 * k ≤ n by omega, show 2 * l ≤ n by omega, if_true]; exact h2 k l hk hkl (by omega)
    · simp only [show 2 * k ≤ n by omega, show ¬ 2 * l ≤ n by omega, c, show ¬ n + 1 ≤ n by omega, if_true, if_false]
      exact (h1 k hk (by omega)).1
    · have hl0 := (h1 (n + 1 - l) (by omega) (by omega)).1
      simp only [show ¬ 2 * l ≤ n by omega, show ¬ 2 * l = n + 1 by omega, if_false]
      rcases Nat.lt_trichotomy (2 * k) (n + 1) with d | d | d
      · simp only [show 2 * k ≤ n by omega, if_true]
        have := (h1 k hk (by omega)).1
        linarith
      · simp only [show ¬ 2 * k ≤ n by omega, d, show ¬ n + 1 ≤ n by omega, if_true, if_false]
        linarith
      · simp only [show ¬ 2 * k ≤ n by omega, show ¬ 2 * k = n + 1 by omega, if_false]
        have := h2 (n + 1 - l) (n + 1 - k) (by omega) (by omega) (by omega)
        linarith

end GaussQuad
