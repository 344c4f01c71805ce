import Verif.Proofs.LegendreAsymptotic

/-!
# The angles of the Gauss-Legendre rule: interior, increasing, symmetric; positive weights
-/

namespace GaussQuad
open Bogaert LegendreData FloatOps

/-- What the node computation delivers for degree `n` in exact arithmetic. -/
structure LegendreAngles (n : ℕ) (θ w : ℕ → ℝ) : Prop where
  new : ∀ k, 1 ≤ k → k ≤ n → ThetaWeightPair.new n k = some ⟨θ k, w k⟩
  mirror : ∀ k, 1 ≤ k → 2 * k ≤ n → θ (n + 1 - k) = Real.pi - θ k ∧ w (n + 1 - k) = w k
  low : ∀ k, 1 ≤ k → 2 * k ≤ n → 0 < θ k ∧ θ k < Real.pi / 2
  mono : ∀ k l, 1 ≤ k → k < l → 2 * l ≤ n → θ k < θ l
  mid : ∀ k, n + 1 = 2 * k → (n ≤ 100 → θ k = Real.pi / 2) ∧ |θ k - Real.pi / 2| ≤ 0.052 / (n + 1 / 2)
  below : ∀ k l, n + 1 = 2 * k → 1 ≤ l → l < k → θ l < θ k ∧ θ k < Real.pi - θ l
  wpos : ∀ k, 1 ≤ k → k ≤ n → 0 < w k

namespace LegendreAngles
variable {n : ℕ} {θ w : ℕ → ℝ}

theorem range (h : LegendreAngles n θ w) {k : ℕ} (h1 : 1 ≤ k) (hn : k ≤ n) : 0 < θ k ∧ θ k < Real.pi := by
  have hp1 := Real.pi_gt_d6
  rcases Nat.lt_trichotomy (2 * k) (n + 1) with hc | hc | hc
  · have := h.low k h1 (by omega)
    exact ⟨this.1, by linarith⟩
  · have := abs_le.1 (h.mid k hc.symm).2
    have hb : 0.052 / ((n : ℝ) + 1 / 2) ≤ 0.052 / (1 / 2) := by gcongr; simp
    constructor
    · norm_num at hb ⊢; linarith
    · norm_num at hb ⊢; linarith
  · have h2 := h.low (n + 1 - k) (by omega) (by omega)
    have h3 := (h.mirror (n + 1 - k) (by omega) (by omega)).1
    rw [show n + 1 - (n + 1 - k) = k by omega] at h3
    rw [h3]; constructor <;> linarith

theorem strictMono (h : LegendreAngles n θ w) {i j : ℕ} (hi : 1 ≤ i) (hij : i < j) (hj : j ≤ n) : θ i < θ j := by
  -- compare both with the middle
  have hmir : ∀ k, 1 ≤ k → k ≤ n → n + 1 < 2 * k → θ k = Real.pi - θ (n + 1 - k) := by
    intro k h1 h2 h3
    have := (h.mirror (n + 1 - k) (by omega) (by omega)).1
    rwa [show n + 1 - (n + 1 - k) = k by omega] at this
  rcases Nat.lt_trichotomy (2 * j) (n + 1) with hc | hc | hc
  · exact h.mono i j hi hij (by omega)
  · exact (h.below j i hc.symm hi hij).1
  · rw [hmir j (by omega) hj hc]
    rcases Nat.lt_trichotomy (2 * i) (n + 1) with hd | hd | hd
    · have h1 := (h.low i hi (by omega)).2
      have h2 := (h.low (n + 1 - j) (by omega) (by omega)).2
      linarith
    · have := (h.below i (n + 1 - j) hd.symm (by omega) (by omega)).2
      exact this
    · rw [hmir i hi (by omega) hd]
      have := h.mono (n + 1 - j) (n + 1 - i) (by omega) (by omega) (by omega)
      linarith

end LegendreAngles

/-! ## degree above 100 -/

theorem angles_asymptotic {n : ℕ} (hn : 100 < n) : ∃ θ w, LegendreAngles n θ w := by
  have hn' : (101 : ℝ) ≤ n := by exact_mod_cast hn
  have hp1 := Real.pi_gt_d6
  have hp2 := Real.pi_lt_d6
  have hN : (0 : ℝ) < n + 1 / 2 := by positivity
  choose! ν hν using fun k (hk : 1 ≤ k) => besselJ0Zero_some (F := ℝ) hk
  choose! b hb using fun k (hk : 1 ≤ k) => besselJ1Squared_some (F := ℝ) hk
  have hcp : ∀ k, 1 ≤ k → computePair n k = some (computePairCore n (ν k) (b k)) := by
    intro k hk
    simp [computePair, hν k hk, hb k hk]
  -- facts about the computed pairs in the lower half (including the middle)
  have hclose : ∀ k, 1 ≤ k → |ν k - Real.pi * (k - 1 / 4)| ≤ 0.05 := fun k hk => Asymptotic.nu_close hk (hν k hk)
  have hmulk : ∀ k : ℕ, 1 ≤ k → (1 : ℝ) ≤ k := fun k hk => by exact_mod_cast hk
  have hνpos : ∀ k, 1 ≤ k → 2 < ν k := by
    intro k hk
    have := (abs_le.1 (hclose k hk)).1
    nlinarith [hmulk k hk]
  have hfacts : ∀ k, 1 ≤ k → 2 * k ≤ n + 1 →
      |(computePairCore n (ν k) (b k)).theta * (n + 1 / 2) - Real.pi * (k - 1 / 4)| ≤ 0.052 ∧
      0 < (computePairCore n (ν k) (b k)).weight := by
    intro k hk h2k
    have h2k' : 2 * (k : ℝ) ≤ n + 1 := by exact_mod_cast h2k
    have hc := hclose k hk
    have ht : ν k / (n + 1 / 2) ≤ 1.6 := by
      rw [div_le_iff₀ hN]
      have := (abs_le.1 hc).2
      nlinarith
    have hcore := Asymptotic.core_bounds hn (lt_trans two_pos (hνpos k hk)) (Asymptotic.b_pos hk (hb k hk)) ht
    refine ⟨?_, hcore.2.1⟩
    have h1 := hcore.1
    rw [le_div_iff₀ hN, ← abs_of_pos hN, ← abs_mul, abs_of_pos hN, sub_mul, div_mul_cancel₀ _ hN.ne'] at h1
    calc _ = |((computePairCore n (ν k) (b k)).theta * (n + 1 / 2) - ν k) + (ν k - Real.pi * (k - 1 / 4))| := by ring_nf
      _ ≤ _ := abs_add_le _ _
      _ ≤ 0.002 + 0.05 := add_le_add h1 hc
      _ = 0.052 := by norm_num
  set T : ℕ → ThetaWeightPair ℝ := fun k => computePairCore n (ν k) (b k) with hT
  have hle : ∀ x y : ℝ, x * ((n : ℝ) + 1 / 2) < y * (n + 1 / 2) → x < y := fun x y h => lt_of_mul_lt_mul_right h hN.le
  refine ⟨fun k => if 2 * k ≤ n + 1 then (T k).theta else Real.pi - (T (n + 1 - k)).theta,
    fun k => if 2 * k ≤ n + 1 then (T k).weight else (T (n + 1 - k)).weight, ?_, ?_, ?_, ?_, ?_, ?_, ?_⟩
  · intro k hk hkn
    unfold ThetaWeightPair.new
    have e1 : csub (2 * k) 1 = some (2 * k - 1) := by simp [csub]; omega
    have e2 : csub n k = some (n - k) := by simp [csub]; omega
    rw [if_neg (by omega), e1, Option.bind_eq_bind, Option.bind_some]
    by_cases h : 2 * k ≤ n + 1
    · rw [if_neg (by omega), hcp k hk]
      simp only [h, if_true, hT]
    · rw [if_pos (by omega), e2, Option.bind_eq_bind, Option.bind_some, hcp (n - k + 1) (by omega)]
      simp only [h, if_false, hT, Option.bind_some, real_pi, real_sub, Option.pure_def, Option.bind_eq_bind, show n - k + 1 = n + 1 - k by omega]
  · intro k hk h2
    have h3 : ¬ 2 * (n + 1 - k) ≤ n + 1 := by omega
    simp only [h3, if_false, show 2 * k ≤ n + 1 by omega, if_true, show n + 1 - (n + 1 - k) = k by omega, and_self]
  · intro k hk h2
    simp only [show 2 * k ≤ n + 1 by omega, if_true]
    have h2' : 2 * (k : ℝ) ≤ n := by exact_mod_cast h2
    have h := abs_le.1 (hfacts k hk (by omega)).1
    have hk1 := hmulk k hk
    refine ⟨hle _ _ ?_, hle _ _ ?_⟩
    · nlinarith [h.1]
    · nlinarith [h.2]
  · intro k l hk hkl h2
    simp only [show 2 * k ≤ n + 1 by omega, show 2 * l ≤ n + 1 by omega, if_true]
    have h1 := abs_le.1 (hfacts k hk (by omega)).1
    have h2 := abs_le.1 (hfacts l (by omega) (by omega)).1
    have hkl' : (k : ℝ) + 1 ≤ l := by exact_mod_cast hkl
    apply hle
    nlinarith [h1.2, h2.1]
  · intro k hk
    simp only [show 2 * k ≤ n + 1 by omega, if_true]
    refine ⟨fun h => by omega, ?_⟩
    have h1 := (hfacts k (by omega) (by omega)).1
    have hk' : (n : ℝ) + 1 = 2 * k := by exact_mod_cast hk
    rw [le_div_iff₀ hN]
    have e : |(T k).theta - Real.pi / 2| * ((n : ℝ) + 1 / 2) = |((T k).theta - Real.pi / 2) * (n + 1 / 2)| := by
      rw [abs_mul, abs_of_pos hN]
    rw [e, sub_mul]
    have : Real.pi / 2 * ((n : ℝ) + 1 / 2) = Real.pi * (k - 1 / 4) := by
      rw [show (n : ℝ) = 2 * k - 1 by linarith]; ring
    rw [this]
    exact h1
  · intro k l hk hl hlk
    simp only [show 2 * k ≤ n + 1 by omega, show 2 * l ≤ n + 1 by omega, if_true]
    have h1 := abs_le.1 (hfacts k (by omega) (by omega)).1
    have h2 := abs_le.1 (hfacts l hl (by omega)).1
    have hlk' : (l : ℝ) + 1 ≤ k := by exact_mod_cast hlk
    have hk' : (n : ℝ) + 1 = 2 * k := by exact_mod_cast hk
    constructor
    · apply hle
      nlinarith [h1.1, h2.2]
    · apply hle
      rw [sub_mul]
      have : Real.pi * ((n : ℝ) + 1 / 2) = 2 * (Real.pi * (k - 1 / 4)) := by
        rw [show (n : ℝ) = 2 * k - 1 by linarith]; ring
      rw [this]
      nlinarith [h1.2, h2.2]
  · intro k hk hkn
    by_cases h : 2 * k ≤ n + 1
    · simp only [h, if_true]
      exact (hfacts k hk h).2
    · simp only [h, if_false]
      exact (hfacts (n + 1 - k) (by omega) (by omega)).2

/-! ## degree at most 100 -/

/-- facts about one row of a table: angles in `(0, π/2)`, strictly decreasing, and positive weights -/
def rowOk (T W : List (List Int)) (i : ℕ) : Bool :=
  match T[i]?, W[i]? with
  | some ths, some ws =>
      ths.all (fun t => decide (0 < t ∧ t < 157079632679489661923)) && decide (ths.Pairwise (· > ·)) && ws.all (fun w => decide (0 < w))
  | _, _ => false

theorem even_rows : ∀ i < 50, rowOk EVEN_THETA_ZEROS EVEN_WEIGHTS i = true := by decide +kernel
theorem odd_rows : ∀ i < 49, rowOk ODD_THETA_ZEROS ODD_WEIGHTS i = true := by decide +kernel
theorem cl_pos : ∀ i < 101, i % 2 = 1 → (CL[i]?.all fun v => decide (v ≠ 0)) = true := by decide +kernel

theorem row_facts {T W : List (List Int)} {i : ℕ} (h : rowOk T W i = true) {N : ℕ}
    (hT : ∀ i < N, (T[i]?.map List.length) = some (i + 1)) (hW : ∀ i < N, (W[i]?.map List.length) = some (i + 1)) (hi : i < N) :
    ∃ t w : ℕ → ℝ, (∀ j ≤ i, table2 T i j = some (t j) ∧ table2 W i j = some (w j) ∧ 0 < t j ∧ t j < Real.pi / 2 ∧ 0 < w j) ∧
      ∀ j l, j < l → l ≤ i → t l < t j := by
  have h1 := hT i hi
  have h2 := hW i hi
  rcases hr : T[i]? with _ | row
  · rw [hr] at h1; simp at h1
  rcases hr2 : W[i]? with _ | row2
  · rw [hr2] at h2; simp at h2
  rw [hr] at h1
  rw [hr2] at h2
  simp only [Option.map_some, Option.some.injEq] at h1 h2
  simp only [rowOk, hr, hr2, Bool.and_eq_true, List.all_eq_true, decide_eq_true_eq] at h
  obtain ⟨⟨ha, hb⟩, hc⟩ := h
  refine ⟨fun j => tableLit (row.getD j 0), fun j => tableLit (row2.getD j 0), ?_, ?_⟩
  · intro j hj
    have hj1 : j < row.length := by omega
    have hj2 : j < row2.length := by omega
    have e1 : row[j]? = some row[j] := List.getElem?_eq_getElem hj1
    have e2 : row2[j]? = some row2[j] := List.getElem?_eq_getElem hj2
    have f1 : row.getD j 0 = row[j] := by simp [hj1]
    have f2 : row2.getD j 0 = row2[j] := by simp [hj2]
    refine ⟨by simp [table2, hr, e1], by simp [table2, hr2, e2], ?_⟩
    have hp := Real.pi_gt_d20
    obtain ⟨g1, g2⟩ := ha row[j] (List.getElem_mem hj1)
    have g3 := hc row2[j] (List.getElem_mem hj2)
    have g1' : (0 : ℝ) < row[j] := by exact_mod_cast g1
    have g2' : (row[j] : ℝ) < 157079632679489661923 := by exact_mod_cast g2
    have g3' : (0 : ℝ) < row2[j] := by exact_mod_cast g3
    simp only [f1, f2, tableLit, real_lit]
    push_cast
    refine ⟨by positivity, ?_, by positivity⟩
    rw [div_lt_iff₀ (by norm_num)]
    norm_num at hp ⊢
    linarith
  · intro j l hjl hl
    have hj1 : j < row.length := by omega
    have hl1 : l < row.length := by omega
    have f1 : row.getD j 0 = row[j] := by simp [hj1]
    have f2 : row.getD l 0 = row[l] := by simp [hl1]
    have := List.pairwise_iff_getElem.1 hb j l hj1 hl1 hjl
    have h' : (row[l] : ℝ) < row[j] := by exact_mod_cast this
    simp only [f1, f2, tableLit, real_lit]
    push_cast
    gcongr

theorem new_tabulated {n k : ℕ} (hn : n ≤ 100) (hk : 1 ≤ k) :
    (ThetaWeightPair.new n k : Option (ThetaWeightPair ℝ)) = tabulatedPair n (k - 1) := by
  unfold ThetaWeightPair.new
  have e1 : csub k 1 = some (k - 1) := by simp [csub]; omega
  rw [if_pos hn, e1]; rfl

theorem angles_even {m : ℕ} (hm : 1 ≤ m) (h100 : 2 * m ≤ 100) : ∃ θ w, LegendreAngles (2 * m) θ w := by
  obtain ⟨t, w, h1, h2⟩ := row_facts (even_rows (m - 1) (by omega)) (N := 50) even_theta_shape even_weight_shape (by omega)
  have hp := Real.pi_pos
  refine ⟨fun k => if k ≤ m then t (m - k) else Real.pi - t (k - 1 - m), fun k => if k ≤ m then w (m - k) else w (k - 1 - m),
    ?_, ?_, ?_, ?_, ?_, ?_, ?_⟩
  · intro k hk hkn
    rw [new_tabulated h100 hk]
    unfold tabulatedPair
    have e0 : (2 * m % 2 == 1) = false := by simp
    have e1 : csub m 1 = some (m - 1) := by simp [csub]; omega
    simp only [e0, Bool.false_eq_true, if_false, show 2 * m / 2 = m by omega]
    by_cases h : k ≤ m
    · have hc : compare (k - 1) m = .lt := Nat.compare_eq_lt.2 (by omega)
      have e2 : csub m (k - 1) = some (m - (k - 1)) := by simp [csub]; omega
      have e3 : csub (m - (k - 1)) 1 = some (m - k) := by
        simp only [csub]; rw [if_pos (by omega)]; congr 1; omega
      obtain ⟨g1, g2, -⟩ := h1 (m - k) (by omega)
      simp [hc, e1, e2, e3, h, g1, g2]
    · have e2 : csub (k - 1) m = some (k - 1 - m) := by simp [csub]; omega
      obtain ⟨g1, g2, -⟩ := h1 (k - 1 - m) (by omega)
      rcases (by omega : k - 1 = m ∨ m < k - 1) with hc' | hc'
      · have hc : compare (k - 1) m = .eq := Nat.compare_eq_eq.2 hc'
        simp [hc, e1, e2, h, g1, g2]
      · have hc : compare (k - 1) m = .gt := Nat.compare_eq_gt.2 hc'
        simp [hc, e1, e2, h, g1, g2]
  · intro k hk h
    simp only [show k ≤ m by omega, show ¬ (2 * m + 1 - k ≤ m) by omega, if_true, if_false,
      show 2 * m + 1 - k - 1 - m = m - k by omega, and_self]
  · intro k hk h
    simp only [show k ≤ m by omega, if_true]
    obtain ⟨-, -, g1, g2, -⟩ := h1 (m - k) (by omega)
    exact ⟨g1, g2⟩
  · intro k l hk hkl h
    simp only [show k ≤ m by omega, show l ≤ m by omega, if_true]
    exact h2 _ _ (by omega) (by omega)
  · intro k hk; omega
  · intro k l hk; omega
  · intro k hk hkn
    by_cases h : k ≤ m
    · simp only [h, if_true]
      exact (h1 (m - k) (by omega)).2.2.2.2
    · simp only [h, if_false]
      exact (h1 (k - 1 - m) (by omega)).2.2.2.2

theorem angles_odd {m : ℕ} (h100 : 2 * m + 1 ≤ 100) : ∃ θ w, LegendreAngles (2 * m + 1) θ w := by
  have hp := Real.pi_pos
  have hrow : ∃ t w : ℕ → ℝ, (∀ j < m, table2 ODD_THETA_ZEROS (m - 1) j = some (t j) ∧ table2 ODD_WEIGHTS (m - 1) j = some (w j) ∧
      0 < t j ∧ t j < Real.pi / 2 ∧ 0 < w j) ∧ ∀ j l, j < l → l < m → t l < t j := by
    rcases Nat.eq_zero_or_pos m with h | h
    · subst h; exact ⟨fun _ => 0, fun _ => 0, fun j hj => by omega, fun j l _ hl => by omega⟩
    · obtain ⟨t, w, h1, h2⟩ := row_facts (odd_rows (m - 1) (by omega)) (N := 49) odd_theta_shape odd_weight_shape (by omega)
      exact ⟨t, w, fun j hj => h1 j (by omega), fun j l h3 h4 => h2 j l h3 (by omega)⟩
  obtain ⟨t, w, h1, h2⟩ := hrow
  have hcl := cl_pos (2 * m + 1) (by omega) (by omega)
  obtain ⟨c, hc⟩ : ∃ c, CL[2 * m + 1]? = some c := by
    have : 2 * m + 1 < CL.length := by rw [cl_shape]; omega
    exact ⟨_, List.getElem?_eq_getElem this⟩
  rw [hc] at hcl
  have hc0 : c ≠ 0 := by simpa using hcl
  have hc1 : (0 : ℝ) < (c : ℝ) ^ 2 := by
    have : (c : ℝ) ≠ 0 := by exact_mod_cast hc0
    positivity
  refine ⟨fun k => if k ≤ m then t (m - k) else if k = m + 1 then Real.pi / 2 else Real.pi - t (k - 2 - m),
    fun k => if k ≤ m then w (m - k) else if k = m + 1 then 2 / (tableLit c * tableLit c) else w (k - 2 - m), ?_, ?_, ?_, ?_, ?_, ?_, ?_⟩
  · intro k hk hkn
    rw [new_tabulated h100 hk]
    unfold tabulatedPair
    have e0 : ((2 * m + 1) % 2 == 1) = true := by simp
    have e00 : csub (2 * m + 1) 1 = some (2 * m) := by simp [csub]
    simp only [e0, if_true, e00, Option.bind_eq_bind, Option.bind_some, show 2 * m / 2 = m by omega]
    by_cases h : k ≤ m
    · have hcmp : compare (k - 1) m = .lt := Nat.compare_eq_lt.2 (by omega)
      have e1 : csub m 1 = some (m - 1) := by simp [csub]; omega
      have e2 : csub m (k - 1) = some (m - (k - 1)) := by simp [csub]; omega
      have e3 : csub (m - (k - 1)) 1 = some (m - k) := by
        simp only [csub]; rw [if_pos (by omega)]; congr 1; omega
      obtain ⟨g1, g2, -⟩ := h1 (m - k) (by omega)
      simp [hcmp, e1, e2, e3, h, g1, g2]
    · by_cases h' : k = m + 1
      · have hcmp : compare (k - 1) m = .eq := Nat.compare_eq_eq.2 (by omega)
        have htwo : ((2.0 : ℚ) : ℝ) = 2 := by norm_num
        simp [hcmp, h', hc]
        norm_num
      · have hcmp : compare (k - 1) m = .gt := Nat.compare_eq_gt.2 (by omega)
        have e1 : csub m 1 = some (m - 1) := by simp [csub]; omega
        have e2 : csub (k - 1) m = some (k - 1 - m) := by simp [csub]; omega
        have e3 : csub (k - 1 - m) 1 = some (k - 2 - m) := by
          simp only [csub]; rw [if_pos (by omega)]; congr 1; omega
        obtain ⟨g1, g2, -⟩ := h1 (k - 2 - m) (by omega)
        simp [hcmp, e1, e2, e3, h, h', g1, g2]
  · intro k hk h
    simp only [show k ≤ m by omega, show ¬ (2 * m + 1 + 1 - k ≤ m) by omega, show ¬ (2 * m + 1 + 1 - k = m + 1) by omega, if_true, if_false,
      show 2 * m + 1 + 1 - k - 2 - m = m - k by omega, and_self]
  · intro k hk h
    simp only [show k ≤ m by omega, if_true]
    obtain ⟨-, -, g1, g2, -⟩ := h1 (m - k) (by omega)
    exact ⟨g1, g2⟩
  · intro k l hk hkl h
    simp only [show k ≤ m by omega, show l ≤ m by omega, if_true]
    exact h2 _ _ (by omega) (by omega)
  · intro k hk
    have : k = m + 1 := by omega
    subst this
    simp only [show ¬ (m + 1 ≤ m) by omega, if_false, if_true, sub_self, abs_zero]
    exact ⟨fun _ => trivial, by positivity⟩
  · intro k l hk hl hlk
    have : k = m + 1 := by omega
    subst this
    simp only [show ¬ (m + 1 ≤ m) by omega, show l ≤ m by omega, if_false, if_true]
    obtain ⟨-, -, g1, g2, -⟩ := h1 (m - l) (by omega)
    exact ⟨g2, by linarith⟩
  · intro k hk hkn
    by_cases h : k ≤ m
    · simp only [h, if_true]
      exact (h1 (m - k) (by omega)).2.2.2.2
    · by_cases h' : k = m + 1
      · simp only [h', show ¬ (m + 1 ≤ m) by omega, if_false, if_true, tableLit, real_lit]
        push_cast
        rw [← sq, div_pow]
        positivity
      · simp only [h, h', if_false]
        exact (h1 (k - 2 - m) (by omega)).2.2.2.2

/-- every degree -/
theorem legendre_angles {n : ℕ} (hn : 1 ≤ n) : ∃ θ w, LegendreAngles n θ w := by
  by_cases h : 100 < n
  · exact angles_asymptotic h
  · rcases Nat.even_or_odd' n with ⟨m, rfl | rfl⟩
    · exact angles_even (by omega) (by omega)
    · exact angles_odd (by omega)

end GaussQuad
