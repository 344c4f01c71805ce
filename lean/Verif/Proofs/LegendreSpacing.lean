import Verif.Proofs.LegendreAngles

/-!
# Gauss-Legendre: where the angles are, and how far apart
-/

namespace GaussQuad
open FloatOps Bogaert LegendreData

/-- the angles of row `i` of a table for the degrees `n = 2 (i + 1) + o` are close to `π (k - 1/4) / (n + 1/2)` -/
def rowNear (T : List (List Int)) (o i : ℕ) : Bool :=
  match T[i]? with
  | some ths => (List.range ths.length).all fun j =>
      decide (|ths.getD j 0 * (4 * (2 * (i + 1) + o) + 2) - 314159265358979323846 * (4 * ((i : ℤ) + 1 - j) - 1)| ≤ 23900000000000000000)
  | none => false

theorem even_near : ∀ i < 50, rowNear EVEN_THETA_ZEROS 0 i = true := by decide +kernel
theorem odd_near : ∀ i < 49, rowNear ODD_THETA_ZEROS 1 i = true := by decide +kernel

theorem row_near {T : List (List Int)} {o i j : ℕ} (h : rowNear T o i = true) (hi : i < 50) (hj : j ≤ i) {x : ℝ} (hx : table2 T i j = some x) :
    |x * ((2 * (i + 1) + o : ℕ) + 1 / 2) - Real.pi * ((i + 1 - j : ℕ) - 1 / 4)| ≤ 0.06 := by
  simp only [table2, Option.bind_eq_bind, Option.bind_eq_some_iff, Option.pure_def, Option.some.injEq] at hx
  obtain ⟨row, hr, v, hv, rfl⟩ := hx
  simp only [rowNear, hr, List.all_eq_true, List.mem_range, decide_eq_true_eq] at h
  have hjl : j < row.length := (List.getElem?_eq_some_iff.1 hv).1
  have h1 := h j hjl
  have e : row.getD j 0 = v := by rw [List.getD_eq_getElem?_getD, hv]; rfl
  rw [e] at h1
  have h2 : |(v : ℝ) * (4 * (2 * (i + 1) + o) + 2) - 314159265358979323846 * (4 * ((i : ℝ) + 1 - j) - 1)| ≤ 23900000000000000000 := by exact_mod_cast h1
  have p1 := Real.pi_gt_d20
  have p2 := Real.pi_lt_d20
  have hk : ((i + 1 - j : ℕ) : ℝ) = (i : ℝ) + 1 - j := by
    rw [Nat.cast_sub (by omega)]; push_cast; ring
  have hk1 : (1 : ℝ) ≤ (i : ℝ) + 1 - j := by
    have : (j : ℝ) ≤ i := by exact_mod_cast hj
    linarith
  have hk2 : (i : ℝ) + 1 - j ≤ 50 := by
    have : (i : ℝ) + 1 ≤ 50 := by exact_mod_cast hi
    have : (0 : ℝ) ≤ j := by positivity
    linarith
  rw [hk, tableLit, real_lit]
  push_cast
  generalize (i : ℝ) + 1 - j = κ at *
  have h3 := _root_.abs_le.1 h2
  have e2 : (v : ℝ) / 100000000000000000000 * (2 * ((i : ℝ) + 1) + o + 1 / 2) - Real.pi * (κ - 1 / 4) =
      ((v : ℝ) * (4 * (2 * (i + 1) + o) + 2) - 314159265358979323846 * (4 * κ - 1)) / 400000000000000000000 +
      (3.14159265358979323846 - Real.pi) * (κ - 1 / 4) := by ring
  rw [e2]
  generalize (v : ℝ) * (4 * (2 * (i + 1) + o) + 2) - 314159265358979323846 * (4 * κ - 1) = D at *
  have h4 : |(3.14159265358979323846 - Real.pi) * (κ - 1 / 4)| ≤ 0.0001 := by
    rw [abs_mul]
    calc |3.14159265358979323846 - Real.pi| * |κ - 1 / 4| ≤ 0.000001 * 50 := by
          refine mul_le_mul ?_ ?_ (abs_nonneg _) (by norm_num)
          · rw [_root_.abs_le]; constructor <;> linarith
          · rw [_root_.abs_le]; constructor <;> linarith
      _ ≤ _ := by norm_num
  have h5 : |D / 400000000000000000000| ≤ 0.05975 := by
    rw [abs_div, abs_of_pos (by norm_num : (0 : ℝ) < 400000000000000000000), div_le_iff₀ (by norm_num)]
    rw [_root_.abs_le]; constructor <;> linarith
  exact (abs_add_le _ _).trans (by linarith)

namespace LegendreAngles
variable {n : ℕ} {θ w : ℕ → ℝ}

/-- the lower half -/
theorem low_near (h : LegendreAngles n θ w) {k : ℕ} (hk : 1 ≤ k) (h2k : 2 * k ≤ n + 1) : |θ k * (n + 1 / 2) - Real.pi * (k - 1 / 4)| ≤ 0.06 := by
  have hp1 := Real.pi_gt_d6
  have hp2 := Real.pi_lt_d6
  have hnew := h.new k hk (by omega)
  by_cases hn : 100 < n
  · have hn' : (101 : ℝ) ≤ n := by exact_mod_cast hn
    have hN : (0 : ℝ) < n + 1 / 2 := by positivity
    unfold ThetaWeightPair.new at hnew
    have e1 : csub (2 * k) 1 = some (2 * k - 1) := by simp [csub]; omega
    rw [if_neg (by omega), e1, Option.bind_eq_bind, Option.bind_some, if_neg (by omega)] at hnew
    simp only [computePair, Option.bind_eq_bind, Option.bind_eq_some_iff, Option.pure_def, Option.some.injEq] at hnew
    obtain ⟨ν, hν, b, hb, hnew⟩ := hnew
    have hc := Asymptotic.nu_close hk hν
    have h2k' : 2 * (k : ℝ) ≤ n + 1 := by exact_mod_cast h2k
    have hk1 : (1 : ℝ) ≤ k := by exact_mod_cast hk
    have hν2 : 2 < ν := by have := (abs_le.1 hc).1; nlinarith
    have ht : ν / (n + 1 / 2) ≤ 1.6 := by
      rw [div_le_iff₀ hN]
      have := (abs_le.1 hc).2
      nlinarith
    have hcore := (Asymptotic.core_bounds hn (lt_trans two_pos hν2) (Asymptotic.b_pos hk hb) ht).1
    rw [hnew] at hcore
    rw [le_div_iff₀ hN, ← abs_of_pos hN, ← abs_mul, abs_of_pos hN, sub_mul, div_mul_cancel₀ _ hN.ne'] at hcore
    calc _ = |(θ k * (n + 1 / 2) - ν) + (ν - Real.pi * (k - 1 / 4))| := by ring_nf
      _ ≤ _ := abs_add_le _ _
      _ ≤ 0.002 + 0.05 := add_le_add hcore hc
      _ ≤ 0.06 := by norm_num
  · push Not at hn
    by_cases hmid : n + 1 = 2 * k
    · rw [(h.mid k hmid).1 hn]
      have : (n : ℝ) + 1 = 2 * k := by exact_mod_cast hmid
      rw [show Real.pi / 2 * ((n : ℝ) + 1 / 2) - Real.pi * (k - 1 / 4) = 0 by rw [show (n : ℝ) = 2 * k - 1 by linarith]; ring]
      norm_num
    · rw [new_tabulated hn hk] at hnew
      unfold tabulatedPair at hnew
      rcases Nat.even_or_odd' n with ⟨m, rfl | rfl⟩
      · have e0 : (2 * m % 2 == 1) = false := by simp
        have e1 : csub m 1 = some (m - 1) := by simp [csub]; omega
        have hc : compare (k - 1) m = .lt := Nat.compare_eq_lt.2 (by omega)
        have e2 : csub m (k - 1) = some (m - (k - 1)) := by simp [csub]; omega
        have e3 : csub (m - (k - 1)) 1 = some (m - k) := by
          simp only [csub]; rw [if_pos (by omega)]; congr 1; omega
        simp only [e0, Bool.false_eq_true, if_false, show 2 * m / 2 = m by omega, hc, e1, e2, e3, Option.bind_eq_bind, Option.bind_some,
          Option.bind_eq_some_iff, Option.pure_def, Option.some.injEq] at hnew
        obtain ⟨t, ht, w', -, hnew⟩ := hnew
        have := row_near (even_near (m - 1) (by omega)) (by omega) (by omega : m - k ≤ m - 1) ht
        rw [show 2 * (m - 1 + 1) + 0 = 2 * m by omega, show m - 1 + 1 - (m - k) = k by omega] at this
        have e5 : t = θ k := by injection hnew
        rwa [e5] at this
      · have e0 : ((2 * m + 1) % 2 == 1) = true := by simp
        have e00 : csub (2 * m + 1) 1 = some (2 * m) := by simp [csub]
        have e1 : csub m 1 = some (m - 1) := by simp [csub]; omega
        have hc : compare (k - 1) m = .lt := Nat.compare_eq_lt.2 (by omega)
        have e2 : csub m (k - 1) = some (m - (k - 1)) := by simp [csub]; omega
        have e3 : csub (m - (k - 1)) 1 = some (m - k) := by
          simp only [csub]; rw [if_pos (by omega)]; congr 1; omega
        simp only [e0, if_true, e00, show 2 * m / 2 = m by omega, hc, e1, e2, e3, Option.bind_eq_bind, Option.bind_some,
          Option.bind_eq_some_iff, Option.pure_def, Option.some.injEq] at hnew
        obtain ⟨t, ht, w', -, hnew⟩ := hnew
        have := row_near (odd_near (m - 1) (by omega)) (by omega) (by omega : m - k ≤ m - 1) ht
        rw [show 2 * (m - 1 + 1) + 1 = 2 * m + 1 by omega, show m - 1 + 1 - (m - k) = k by omega] at this
        have e5 : t = θ k := by injection hnew
        rwa [e5] at this

/-- every angle is within `0.06 / (n + 1/2)` of `π (k - 1/4) / (n + 1/2)` -/
theorem near (h : LegendreAngles n θ w) {k : ℕ} (hk : 1 ≤ k) (hkn : k ≤ n) : |θ k * (n + 1 / 2) - Real.pi * (k - 1 / 4)| ≤ 0.06 := by
  by_cases h2k : 2 * k ≤ n + 1
  · exact h.low_near hk h2k
  · have h1 := h.low_near (k := n + 1 - k) (by omega) (by omega)
    have h2 := (h.mirror (n + 1 - k) (by omega) (by omega)).1
    rw [show n + 1 - (n + 1 - k) = k by omega] at h2
    have hc : ((n + 1 - k : ℕ) : ℝ) = n + 1 - k := by rw [Nat.cast_sub (by omega)]; push_cast; ring
    rw [h2, ← abs_neg]
    rw [hc] at h1
    refine le_trans (le_of_eq ?_) h1
    congr 1; ring

/-- consecutive nodes are at least `4.5 / (n + 1/2)^2` apart -/
theorem gap (h : LegendreAngles n θ w) {k : ℕ} (hk : 1 ≤ k) (hkn : k + 1 ≤ n) : 4.5 / ((n : ℝ) + 1 / 2) ^ 2 ≤ Real.cos (θ k) - Real.cos (θ (k + 1)) := by
  have hp1 := Real.pi_gt_d6
  have hp2 := Real.pi_lt_d6
  have h1 := _root_.abs_le.1 (h.near hk (by omega))
  have h2 := _root_.abs_le.1 (h.near (by omega : 1 ≤ k + 1) hkn)
  have hk1 : (1 : ℝ) ≤ k := by exact_mod_cast hk
  have hkn1 : (k : ℝ) + 1 ≤ n := by exact_mod_cast hkn
  push_cast at h2
  have hN : (0 : ℝ) < n + 1 / 2 := by positivity
  have hNn : (n : ℝ) = (n + 1 / 2) - 1 / 2 := by ring
  generalize (n : ℝ) + 1 / 2 = N at *
  rw [hNn] at hkn1
  have e : Real.cos (θ k) - Real.cos (θ (k + 1)) = 2 * (Real.sin ((θ k + θ (k + 1)) / 2) * Real.sin ((θ (k + 1) - θ k) / 2)) := by
    rw [Real.cos_sub_cos, show (θ k - θ (k + 1)) / 2 = -((θ (k + 1) - θ k) / 2) by ring, Real.sin_neg]; ring
  rw [e]
  set a := θ k
  set b := θ (k + 1)
  -- the half difference
  have d1 : 1.5 / N ≤ (b - a) / 2 := by
    rw [div_le_iff₀ hN]; nlinarith
  have d2 : (b - a) / 2 ≤ Real.pi / 2 := by
    have : (b - a) / 2 * N ≤ Real.pi / 2 * N := by nlinarith
    exact le_of_mul_le_mul_right this hN
  have s1 : 0.95 / N ≤ Real.sin ((b - a) / 2) := by
    have := Real.mul_le_sin (x := (b - a) / 2) (le_trans (by positivity) d1) d2
    refine le_trans ?_ this
    calc 0.95 / N ≤ 2 / Real.pi * (1.5 / N) := by
          have h3 : (0.95 : ℝ) ≤ 2 / Real.pi * 1.5 := by
            rw [div_mul_eq_mul_div, le_div_iff₀ (by linarith)]; linarith
          rw [← mul_div_assoc]; gcongr
      _ ≤ _ := by gcongr
  -- the mean
  have m1 : 3.8 / N ≤ (a + b) / 2 := by
    rw [div_le_iff₀ hN]; nlinarith
  have m2 : (a + b) / 2 ≤ Real.pi - 3.8 / N := by
    have : (a + b) / 2 * N ≤ (Real.pi - 3.8 / N) * N := by
      rw [sub_mul, div_mul_cancel₀ _ hN.ne']; nlinarith
    exact le_of_mul_le_mul_right this hN
  have key : ∀ x : ℝ, 3.8 / N ≤ x → x ≤ Real.pi / 2 → 2.4 / N ≤ Real.sin x := by
    intro x hx1 hx2
    have := Real.mul_le_sin (x := x) (le_trans (by positivity) hx1) hx2
    refine le_trans ?_ this
    calc 2.4 / N ≤ 2 / Real.pi * (3.8 / N) := by
          have h3 : (2.4 : ℝ) ≤ 2 / Real.pi * 3.8 := by
            rw [div_mul_eq_mul_div, le_div_iff₀ (by linarith)]; linarith
          rw [← mul_div_assoc]; gcongr
      _ ≤ _ := by gcongr
  have s2 : 2.4 / N ≤ Real.sin ((a + b) / 2) := by
    by_cases hc : (a + b) / 2 ≤ Real.pi / 2
    · exact key _ m1 hc
    · rw [← Real.sin_pi_sub]
      exact key _ (by linarith) (by linarith)
  calc 4.5 / N ^ 2 ≤ 2 * (2.4 / N * (0.95 / N)) := by
        have : 2 * (2.4 / N * (0.95 / N)) = 4.56 / N ^ 2 := by field_simp; norm_num
        rw [this]; gcongr; norm_num
    _ ≤ _ := by
        have : 0 ≤ Real.sin ((a + b) / 2) := le_trans (by positivity) s2
        gcongr

/-- all nodes are at least `1.05 / (n + 1/2)^2` away from `±1` -/
theorem edge (h : LegendreAngles n θ w) {k : ℕ} (hk : 1 ≤ k) (hkn : k ≤ n) :
    Real.cos (θ k) ≤ 1 - 1.05 / ((n : ℝ) + 1 / 2) ^ 2 ∧ -1 + 1.05 / ((n : ℝ) + 1 / 2) ^ 2 ≤ Real.cos (θ k) := by
  have hp1 := Real.pi_gt_d6
  have hp2 := Real.pi_lt_d6
  have h1 := _root_.abs_le.1 (h.near hk hkn)
  have hk1 : (1 : ℝ) ≤ k := by exact_mod_cast hk
  have hkn1 : (k : ℝ) ≤ n := by exact_mod_cast hkn
  have hN : (0 : ℝ) < n + 1 / 2 := by positivity
  have hNn : (n : ℝ) = (n + 1 / 2) - 1 / 2 := by ring
  generalize (n : ℝ) + 1 / 2 = N at *
  rw [hNn] at hkn1
  have a1 : 2.29 / N ≤ θ k := by
    rw [div_le_iff₀ hN]; nlinarith
  have a2 : θ k ≤ Real.pi - 2.29 / N := by
    have : θ k * N ≤ (Real.pi - 2.29 / N) * N := by
      rw [sub_mul, div_mul_cancel₀ _ hN.ne']; nlinarith
    exact le_of_mul_le_mul_right this hN
  have key : ∀ x : ℝ, 2.29 / N ≤ x → x ≤ Real.pi → Real.cos x ≤ 1 - 1.05 / N ^ 2 := by
    intro x hx1 hx2
    have e : Real.cos x = 1 - 2 * Real.sin (x / 2) ^ 2 := by
      have := Real.cos_sq' (x / 2)
      have h2 := Real.cos_two_mul (x / 2)
      rw [show 2 * (x / 2) = x by ring] at h2
      linarith
    have hx0 : 0 < 2.29 / N := by positivity
    have hs := Real.mul_le_sin (x := x / 2) (by linarith) (by linarith)
    have hs2 : 0.7288 / N ≤ Real.sin (x / 2) := by
      refine le_trans ?_ hs
      calc 0.7288 / N ≤ 2 / Real.pi * (2.29 / N / 2) := by
            have h3 : (0.7288 : ℝ) ≤ 2 / Real.pi * (2.29 / 2) := by
              rw [div_mul_eq_mul_div, le_div_iff₀ (by linarith)]; linarith
            calc 0.7288 / N ≤ 2 / Real.pi * (2.29 / 2) / N := by gcongr
              _ = _ := by ring
        _ ≤ _ := by gcongr
    rw [e]
    have h4 : (0.7288 / N) ^ 2 ≤ Real.sin (x / 2) ^ 2 := by gcongr
    have h5 : 1.05 / N ^ 2 ≤ 2 * (0.7288 / N) ^ 2 := by
      rw [div_pow, ← mul_div_assoc]; gcongr; norm_num
    linarith
  refine ⟨key _ a1 (by have : 0 < 2.29 / N := by positivity
                       linarith), ?_⟩
  have := key (Real.pi - θ k) (by linarith) (by have : 0 < 2.29 / N := by positivity
                                                linarith)
  rw [Real.cos_pi_sub] at this
  linarith

end LegendreAngles

end GaussQuad
