import Verif.Proofs.Bessel
import Verif.Proofs.LegendreCheckSound
import Verif.Model.LegendreData

/-!
# The tabulated zeros of `J₀` and values of `J₁²`

The power series are summed exactly in the kernel.
-/

namespace GaussQuad.BesselTable
open LegendreCheck Bessel LegendreData

/-- new denominator of the Horner scheme for the series `F j` at `t / (4·10^40)` -/
def bd (j i D : Nat) : Nat :=
  Nat.mul D (Nat.mul (Nat.mul (Nat.succ i) (Nat.add (Nat.succ i) j)) 40000000000000000000000000000000000000000)

def dist (A B : Nat) : Nat := Nat.add (Nat.sub A B) (Nat.sub B A)

/-- `V / 10^20 · F₀² ≤ c / (e / 10^20)` for the truncated series -/
def ok0 (c e V : Nat) : Bool :=
  horner (bd 0) (Nat.mul V V) 120 0 0 1 fun A B D =>
    Nat.ble (Nat.mul (Nat.mul V (Nat.mul (dist A B) (dist A B))) e) (Nat.mul c (Nat.mul D D))

def ok1 (c e V b : Nat) : Bool :=
  horner (bd 1) (Nat.mul V V) 120 0 0 1 fun A B D =>
    Nat.ble (Nat.mul (dist (Nat.mul (Nat.mul b 400000000000000000000) (Nat.mul D D)) (Nat.mul (Nat.mul V V) (Nat.mul (dist A B) (dist A B)))) e)
      (Nat.mul c (Nat.mul (Nat.mul V V) (Nat.mul (dist A B) (dist A B))))

theorem table_ok : ∀ i < 20, (ok0 1089 1000000000000 (JZ.getD i 0).toNat).and (ok1 26 100000000000000000 (JZ.getD i 0).toNat (J1.getD i 0).toNat) = true := by
  decide +kernel

/-- the zeros relative to their size -/
def okr (c e V : Nat) : Bool :=
  horner (bd 0) (Nat.mul V V) 120 0 0 1 fun A B D =>
    Nat.ble (Nat.mul (Nat.mul (dist A B) (dist A B)) e) (Nat.mul (Nat.mul c V) (Nat.mul D D))

theorem tabler_ok : ∀ i < 20, okr 64 1000000000000000000000000000000000000000000000000000000 (JZ.getD i 0).toNat = true := by decide +kernel

theorem range_ok : ∀ i < 20, 200000000000000000000 ≤ JZ.getD i 0 ∧ JZ.getD i 0 ≤ 6520000000000000000000 ∧
    900000000000000000 ≤ J1.getD i 0 ∧ J1.getD i 0 ≤ 100000000000000000000 ∧
    6366 * 1000000000000000000000000000000000000 ≤ JZ.getD i 0 * J1.getD i 0 ∧
    JZ.getD i 0 * J1.getD i 0 ≤ 6482 * 1000000000000000000000000000000000000 := by
  decide +kernel

/-- the approximation of the 21st zero from which the asymptotic formulas are started -/
def anchor : Nat := 6518996480020686044064
theorem anchor_ok : (ok0 1 1000000000000000000 anchor).and (ok1 1 1000000000000000000 anchor 976589713979105054) = true := by
  decide +kernel

theorem dist_sq (A B : ℕ) : ((dist A B : ℕ) : ℝ) ^ 2 = ((A : ℝ) - B) ^ 2 := by
  have e : dist A B = (A - B) + (B - A) := rfl
  rw [e]
  rcases le_total A B with h | h
  · rw [Nat.sub_eq_zero_of_le h]; push_cast [Nat.cast_sub h]; ring
  · rw [Nat.sub_eq_zero_of_le h]; push_cast [Nat.cast_sub h]; ring

theorem dist_abs (A B : ℕ) : ((dist A B : ℕ) : ℝ) = |(A : ℝ) - B| := by
  rw [← sq_eq_sq₀ (by positivity) (abs_nonneg _), dist_sq, sq_abs]

theorem bd_eq (j i D : ℕ) : bd j i D = D * ((i + 1) * (i + 1 + j) * 40000000000000000000000000000000000000000) := rfl

theorem loop_sound {j t : ℕ} (hj : j.factorial = 1) {x : ℝ} (hx : x = t / 40000000000000000000000000000000000000000) {k : ℕ → ℕ → ℕ → Bool} :
    ∀ (i A B D : ℕ), 0 < D → horner (bd j) t i A B D k = true → ∃ A' B' D' : ℕ, 0 < D' ∧ k A' B' D' = true ∧
      ((A' : ℝ) - B') / D' = ∑ m ∈ Finset.range i, term j m x + term j i x * (((A : ℝ) - B) / D) := by
  intro i
  induction i with
  | zero => intro A B D hD h; exact ⟨A, B, D, hD, h, by simp [term, hj]⟩
  | succ i ih =>
    intro A B D hD h
    rw [horner_succ, bd_eq] at h
    obtain ⟨A', B', D', h1, h2, h3⟩ := ih _ _ _ (by positivity) h
    refine ⟨A', B', D', h1, h2, ?_⟩
    rw [h3, Finset.sum_range_succ]
    have hD' : (D : ℝ) ≠ 0 := by positivity
    have ht : (t : ℝ) = x * 40000000000000000000000000000000000000000 := by rw [hx]; field_simp
    have e : term j (i + 1) x = term j i x * (-(x / ((i + 1) * (i + 1 + j)))) := by
      simp only [term]
      rw [Nat.factorial_succ, show i + 1 + j = (i + j) + 1 by ring, Nat.factorial_succ, pow_succ, pow_succ]
      have h1 : (i.factorial : ℝ) ≠ 0 := by positivity
      have h2 : ((i + j).factorial : ℝ) ≠ 0 := by positivity
      push_cast
      field_simp
      ring
    push_cast
    rw [e, ht]
    have hQ : (40000000000000000000000000000000000000000 : ℝ) ≠ 0 := by norm_num
    generalize (40000000000000000000000000000000000000000 : ℝ) = Q at hQ
    field_simp
    ring

theorem tail {j : ℕ} (hj : j ≤ 1) {x : ℝ} (h0 : 0 ≤ x) (h1 : x ≤ 1064) : |F j x - ∑ m ∈ Finset.range 120, term j m x| ≤ 1 / 10 ^ 33 := by
  refine (F_tail h0 (by norm_num; linarith)).trans ?_
  have h2 : x ^ 120 ≤ 1064 ^ 120 := by gcongr
  have h3 : ((120).factorial : ℝ) ≤ (120 + j).factorial := by
    exact_mod_cast Nat.factorial_le (by omega)
  calc 2 * (x ^ 120 / (((120 : ℕ).factorial : ℝ) * ((120 + j).factorial : ℝ))) ≤ 2 * (1064 ^ 120 / (((120 : ℕ).factorial : ℝ) * ((120 : ℕ).factorial : ℝ))) := by
        gcongr
    _ ≤ 1 / 10 ^ 33 := by
      norm_num [Nat.factorial]

/-- what `ok0` means -/
theorem ok0_sound {c e V : ℕ} (hV : V ≤ 6520000000000000000000) (h : ok0 c e V = true) :
    ∃ S : ℝ, |J0 (V / 100000000000000000000) - S| ≤ 1 / 10 ^ 33 ∧ (V : ℝ) * S ^ 2 * e ≤ c := by
  obtain ⟨A, B, D, hD, h1, h2⟩ := loop_sound (j := 0) (by rfl) (x := ((V : ℝ) / 100000000000000000000) ^ 2 / 4) (by
    push_cast; norm_num; ring) 120 0 0 1 one_pos h
  have hVr : (V : ℝ) ≤ 6520000000000000000000 := by exact_mod_cast hV
  have hv : (V : ℝ) / 100000000000000000000 ≤ 65.2 := by rw [div_le_iff₀ (by norm_num)]; norm_num; linarith
  have hv0 : 0 ≤ (V : ℝ) / 100000000000000000000 := by positivity
  refine ⟨((A : ℝ) - B) / D, ?_, ?_⟩
  · rw [h2]
    simp only [Nat.cast_zero, sub_zero, zero_div, mul_zero, add_zero]
    exact tail (by omega) (by positivity) (by nlinarith)
  · have hDr : (0 : ℝ) < D := by exact_mod_cast hD
    have h3 : V * (dist A B * dist A B) * e ≤ c * (D * D) := Nat.ble_eq.mp h1
    have h4 : (V : ℝ) * (dist A B * dist A B) * e ≤ c * (D * D) := by exact_mod_cast h3
    rw [← pow_two, dist_sq] at h4
    rw [div_pow, mul_div_assoc', div_mul_eq_mul_div, div_le_iff₀ (by positivity), pow_two (D : ℝ)]
    exact h4

theorem okr_sound {c e V : ℕ} (hV : V ≤ 6520000000000000000000) (h : okr c e V = true) :
    ∃ S : ℝ, |J0 (V / 100000000000000000000) - S| ≤ 1 / 10 ^ 33 ∧ S ^ 2 * e ≤ c * V := by
  obtain ⟨A, B, D, hD, h1, h2⟩ := loop_sound (j := 0) (by rfl) (x := ((V : ℝ) / 100000000000000000000) ^ 2 / 4) (by
    push_cast; norm_num; ring) 120 0 0 1 one_pos h
  have hVr : (V : ℝ) ≤ 6520000000000000000000 := by exact_mod_cast hV
  have hv : (V : ℝ) / 100000000000000000000 ≤ 65.2 := by rw [div_le_iff₀ (by norm_num)]; norm_num; linarith
  have hv0 : 0 ≤ (V : ℝ) / 100000000000000000000 := by positivity
  refine ⟨((A : ℝ) - B) / D, ?_, ?_⟩
  · rw [h2]
    simp only [Nat.cast_zero, sub_zero, zero_div, mul_zero, add_zero]
    exact tail (by omega) (by positivity) (by nlinarith)
  · have hDr : (0 : ℝ) < D := by exact_mod_cast hD
    have h3 : dist A B * dist A B * e ≤ c * V * (D * D) := Nat.ble_eq.mp h1
    have h4 : (dist A B : ℝ) * dist A B * e ≤ c * V * (D * D) := by exact_mod_cast h3
    rw [← pow_two, dist_sq] at h4
    rw [div_pow, div_mul_eq_mul_div, div_le_iff₀ (by positivity), pow_two (D : ℝ)]
    exact h4

/-- what `ok1` means -/
theorem ok1_sound {c e V b : ℕ} (hV : V ≤ 6520000000000000000000) (h : ok1 c e V b = true) :
    ∃ S : ℝ, |F 1 (((V : ℝ) / 100000000000000000000) ^ 2 / 4) - S| ≤ 1 / 10 ^ 33 ∧
      |(b : ℝ) * 400000000000000000000 - V ^ 2 * S ^ 2| * e ≤ c * (V ^ 2 * S ^ 2) := by
  obtain ⟨A, B, D, hD, h1, h2⟩ := loop_sound (j := 1) (by rfl) (x := ((V : ℝ) / 100000000000000000000) ^ 2 / 4) (by
    push_cast; norm_num; ring) 120 0 0 1 one_pos h
  have hVr : (V : ℝ) ≤ 6520000000000000000000 := by exact_mod_cast hV
  have hv : (V : ℝ) / 100000000000000000000 ≤ 65.2 := by rw [div_le_iff₀ (by norm_num)]; norm_num; linarith
  have hv0 : 0 ≤ (V : ℝ) / 100000000000000000000 := by positivity
  refine ⟨((A : ℝ) - B) / D, ?_, ?_⟩
  · rw [h2]
    simp only [Nat.cast_zero, sub_zero, zero_div, mul_zero, add_zero]
    exact tail (by omega) (by positivity) (by nlinarith)
  · have hDr : (0 : ℝ) < D := by exact_mod_cast hD
    have h3 : dist (b * 400000000000000000000 * (D * D)) (V * V * (dist A B * dist A B)) * e ≤ c * (V * V * (dist A B * dist A B)) := Nat.ble_eq.mp h1
    have h4 : ((dist (b * 400000000000000000000 * (D * D)) (V * V * (dist A B * dist A B)) : ℕ) : ℝ) * e ≤ c * (V * V * (dist A B * dist A B)) := by
      exact_mod_cast h3
    rw [dist_abs] at h4
    push_cast at h4
    rw [← pow_two (dist A B : ℝ), dist_sq, ← pow_two (V : ℝ), ← pow_two (D : ℝ)] at h4
    have e1 : (b : ℝ) * 400000000000000000000 * D ^ 2 - V ^ 2 * (A - B) ^ 2 =
        (b * 400000000000000000000 - V ^ 2 * ((A - B) / D) ^ 2) * D ^ 2 := by field_simp
    have e2 : (V : ℝ) ^ 2 * (A - B) ^ 2 = V ^ 2 * ((A - B) / D) ^ 2 * D ^ 2 := by field_simp
    rw [e1, e2, abs_mul, abs_of_pos (show (0 : ℝ) < (D : ℝ) ^ 2 by positivity)] at h4
    have hp : (0 : ℝ) < (D : ℝ) ^ 2 := by positivity
    refine le_of_mul_le_mul_right ?_ hp
    linarith

theorem φ_small {c e V : ℕ} (hV : V ≤ 6520000000000000000000) (h : ok0 c e V = true) {ε : ℝ} (hε : 0 ≤ ε)
    (hce : (c : ℝ) ≤ ε ^ 2 * (e * 100000000000000000000)) (he : 0 < e) :
    |φ ((V : ℝ) / 100000000000000000000)| ≤ ε + 1 / 10 ^ 31 := by
  obtain ⟨S, h1, h2⟩ := ok0_sound hV h
  have hVr : (V : ℝ) ≤ 6520000000000000000000 := by exact_mod_cast hV
  set v : ℝ := (V : ℝ) / 100000000000000000000 with hv
  have hv0 : 0 ≤ v := by positivity
  have hv1 : v ≤ 65.2 := by rw [hv, div_le_iff₀ (by norm_num)]; norm_num; linarith
  have eV : (V : ℝ) = v * 100000000000000000000 := by rw [hv]; field_simp
  rw [eV] at h2
  have he' : (0 : ℝ) < e := by exact_mod_cast he
  have hsq : √v ^ 2 = v := Real.sq_sqrt hv0
  have h3 : |√v * S| ≤ ε := by
    apply abs_le_of_sq_le_sq _ hε
    rw [mul_pow, hsq]
    have : v * S ^ 2 * (e * 100000000000000000000) ≤ ε ^ 2 * (e * 100000000000000000000) := by linarith
    exact le_of_mul_le_mul_right this (by positivity)
  have h4 : √v ≤ 9 := by rw [Real.sqrt_le_left (by norm_num)]; linarith
  have e1 : φ v = √v * S + √v * (J0 v - S) := by rw [φ]; ring
  rw [e1]
  refine (abs_add_le _ _).trans (add_le_add h3 ?_)
  rw [abs_mul, abs_of_nonneg (Real.sqrt_nonneg v)]
  calc √v * |J0 v - S| ≤ 9 * (1 / 10 ^ 33) := by gcongr
    _ ≤ _ := by norm_num

theorem J1_close {c e V b : ℕ} (hV : V ≤ 6520000000000000000000) (h : ok1 c e V b = true) {ε : ℝ} (hce : (c : ℝ) = ε * e) (he : 0 < e)
    (hε : ε ≤ 1 / 2) (hb : 900000000000000000 ≤ b) (hb1 : b ≤ 100000000000000000000) :
    |(b : ℝ) / 100000000000000000000 - Bessel.J1 ((V : ℝ) / 100000000000000000000) ^ 2| ≤
      (ε + 1 / 10 ^ 28) * Bessel.J1 ((V : ℝ) / 100000000000000000000) ^ 2 := by
  obtain ⟨S, h1, h2⟩ := ok1_sound hV h
  have hVr : (V : ℝ) ≤ 6520000000000000000000 := by exact_mod_cast hV
  have hbr : (900000000000000000 : ℝ) ≤ b := by exact_mod_cast hb
  have hbr1 : (b : ℝ) ≤ 100000000000000000000 := by exact_mod_cast hb1
  set v : ℝ := (V : ℝ) / 100000000000000000000 with hv
  have hv0 : 0 ≤ v := by positivity
  have hv1 : v ≤ 65.2 := by rw [hv, div_le_iff₀ (by norm_num)]; norm_num; linarith
  have eV : (V : ℝ) = v * 100000000000000000000 := by rw [hv]; field_simp
  have he' : (0 : ℝ) < e := by exact_mod_cast he
  have hε0 : 0 ≤ ε := by
    have : (0 : ℝ) ≤ c := by positivity
    rw [hce] at this
    exact nonneg_of_mul_nonneg_left this he'
  set bb : ℝ := (b : ℝ) / 100000000000000000000 with hbb
  have eb : (b : ℝ) = bb * 100000000000000000000 := by rw [hbb]; field_simp
  set j := v / 2 * S with hj
  have e1 : (b : ℝ) * 400000000000000000000 - V ^ 2 * S ^ 2 = (bb - j ^ 2) * 40000000000000000000000000000000000000000 := by
    rw [eb, eV, hj]; ring
  have e2 : (V : ℝ) ^ 2 * S ^ 2 = j ^ 2 * 40000000000000000000000000000000000000000 := by rw [eV, hj]; ring
  rw [e1, e2, hce, abs_mul, abs_of_pos (show (0 : ℝ) < 40000000000000000000000000000000000000000 by norm_num)] at h2
  have h3 : |bb - j ^ 2| ≤ ε * j ^ 2 := by
    have hp : (0 : ℝ) < e * 40000000000000000000000000000000000000000 := by positivity
    refine le_of_mul_le_mul_right ?_ hp
    linarith
  have hj2 : 0.006 ≤ j ^ 2 ∧ j ^ 2 ≤ 2 := by
    have hb0 : 0.009 ≤ bb := by rw [hbb, le_div_iff₀ (by norm_num)]; norm_num; linarith
    have hb2 : bb ≤ 1 := by rw [hbb, div_le_iff₀ (by norm_num)]; linarith
    have := abs_le.1 h3
    have hq := sq_nonneg j
    constructor <;> nlinarith
  have hd : |Bessel.J1 v - j| ≤ 33 / 10 ^ 33 := by
    have : Bessel.J1 v - j = v / 2 * (F 1 (v ^ 2 / 4) - S) := by rw [hj, Bessel.J1]; ring
    rw [this, abs_mul, abs_of_nonneg (by positivity)]
    calc v / 2 * |F 1 (v ^ 2 / 4) - S| ≤ 33 * (1 / 10 ^ 33) := by gcongr; linarith
      _ = _ := by norm_num
  have hja : |j| ≤ 2 := by
    apply abs_le_of_sq_le_sq _ (by norm_num); linarith
  have hJa := abs_J1_le hv0
  have hdd : |j ^ 2 - Bessel.J1 v ^ 2| ≤ 99 / 10 ^ 33 := by
    have : j ^ 2 - Bessel.J1 v ^ 2 = -((Bessel.J1 v - j) * (j + Bessel.J1 v)) := by ring
    rw [this, abs_neg, abs_mul]
    calc |Bessel.J1 v - j| * |j + Bessel.J1 v| ≤ 33 / 10 ^ 33 * 3 := by
          gcongr; exact (abs_add_le _ _).trans (by linarith)
      _ = _ := by norm_num
  set J := Bessel.J1 v ^ 2
  rw [abs_le] at h3 hdd ⊢
  have h5 : 0.005 ≤ J := by norm_num at hdd hj2 ⊢; linarith
  have h6 : ε * j ^ 2 ≤ ε * J + 1 / 2 * (99 / 10 ^ 33) := by
    have : ε * (j ^ 2 - J) ≤ 1 / 2 * (99 / 10 ^ 33) := by
      have h8 : ε * (j ^ 2 - J) ≤ ε * (99 / 10 ^ 33) := mul_le_mul_of_nonneg_left hdd.2 hε0
      refine h8.trans (mul_le_mul_of_nonneg_right hε (by norm_num))
    linarith
  norm_num at h3 hdd h6 ⊢
  constructor <;> linarith

theorem φ_small_rel {c e V : ℕ} (hV : V ≤ 6520000000000000000000) (hV2 : 200000000000000000000 ≤ V) (h : okr c e V = true) {ε : ℝ} (hε : 0 ≤ ε)
    (hce : (c : ℝ) * 100000000000000000000 ≤ ε ^ 2 * e) (he : 0 < e) :
    |φ ((V : ℝ) / 100000000000000000000)| ≤ (ε + 1 / 10 ^ 31) * ((V : ℝ) / 100000000000000000000) := by
  obtain ⟨S, h1, h2⟩ := okr_sound hV h
  have hVr : (V : ℝ) ≤ 6520000000000000000000 := by exact_mod_cast hV
  have hVr2 : (200000000000000000000 : ℝ) ≤ V := by exact_mod_cast hV2
  set v : ℝ := (V : ℝ) / 100000000000000000000 with hv
  have hv0 : 0 ≤ v := by positivity
  have hv1 : v ≤ 65.2 := by rw [hv, div_le_iff₀ (by norm_num)]; norm_num; linarith
  have hv2 : 2 ≤ v := by rw [hv, le_div_iff₀ (by norm_num)]; norm_num; linarith
  have eV : (V : ℝ) = v * 100000000000000000000 := by rw [hv]; field_simp
  rw [eV] at h2
  have he' : (0 : ℝ) < e := by exact_mod_cast he
  have hsq : √v ^ 2 = v := Real.sq_sqrt hv0
  have h3 : |√v * S| ≤ ε * v := by
    apply abs_le_of_sq_le_sq _ (by positivity)
    rw [mul_pow, hsq]
    have : S ^ 2 * e ≤ ε ^ 2 * v * e := by
      refine h2.trans ?_
      calc (c : ℝ) * (v * 100000000000000000000) = c * 100000000000000000000 * v := by ring
        _ ≤ ε ^ 2 * e * v := by gcongr
        _ = _ := by ring
    have := le_of_mul_le_mul_right this he'
    calc v * S ^ 2 ≤ v * (ε ^ 2 * v) := by gcongr
      _ = _ := by ring
  have h4 : √v ≤ 9 := by rw [Real.sqrt_le_left (by norm_num)]; linarith
  have e1 : φ v = √v * S + √v * (J0 v - S) := by rw [φ]; ring
  rw [e1, add_mul]
  refine (abs_add_le _ _).trans (add_le_add h3 ?_)
  rw [abs_mul, abs_of_nonneg (Real.sqrt_nonneg v)]
  calc √v * |J0 v - S| ≤ 9 * (1 / 10 ^ 33) := by gcongr
    _ ≤ 1 / 10 ^ 31 * 2 := by norm_num
    _ ≤ _ := by gcongr

/-- the tabulated zeros and values -/
theorem table {i : ℕ} (hi : i < 20) : |φ ((JZ.getD i 0 : ℤ) / 100000000000000000000)| ≤ 331 / 10 ^ 17 ∧
    |φ ((JZ.getD i 0 : ℤ) / 100000000000000000000)| ≤ 81 / 10 ^ 18 * ((JZ.getD i 0 : ℤ) / 100000000000000000000) ∧
    |((J1.getD i 0 : ℤ) : ℝ) / 100000000000000000000 - Bessel.J1 ((JZ.getD i 0 : ℤ) / 100000000000000000000) ^ 2| ≤
      261 / 10 ^ 18 * Bessel.J1 ((JZ.getD i 0 : ℤ) / 100000000000000000000) ^ 2 ∧
    (0.6366 : ℝ) ≤ ((JZ.getD i 0 : ℤ) / 100000000000000000000) * ((J1.getD i 0 : ℤ) / 100000000000000000000) ∧
    ((JZ.getD i 0 : ℤ) / 100000000000000000000) * ((J1.getD i 0 : ℤ) / 100000000000000000000) ≤ (0.6482 : ℝ) ∧
    (2 : ℝ) ≤ (JZ.getD i 0 : ℤ) / 100000000000000000000 := by
  have h := table_ok i hi
  rw [Bool.and_eq_true] at h
  obtain ⟨r1, r2, r3, r4, r5, r6⟩ := range_ok i hi
  have eV : ((JZ.getD i 0).toNat : ℤ) = JZ.getD i 0 := Int.toNat_of_nonneg (by omega)
  have eb : ((J1.getD i 0).toNat : ℤ) = J1.getD i 0 := Int.toNat_of_nonneg (by omega)
  have eV' : (((JZ.getD i 0).toNat : ℕ) : ℝ) = ((JZ.getD i 0 : ℤ) : ℝ) := by exact_mod_cast congrArg (Int.cast : ℤ → ℝ) eV
  have eb' : (((J1.getD i 0).toNat : ℕ) : ℝ) = ((J1.getD i 0 : ℤ) : ℝ) := by exact_mod_cast congrArg (Int.cast : ℤ → ℝ) eb
  have h0 := φ_small (by omega) h.1 (ε := 33 / 10 ^ 16) (by norm_num) (by norm_num) (by norm_num)
  have h1 := J1_close (by omega) h.2 (ε := 26 / 10 ^ 17) (by norm_num) (by norm_num) (by norm_num) (by omega) (by omega)
  have h2 := φ_small_rel (by omega) (by omega) (tabler_ok i hi) (ε := 8 / 10 ^ 17) (by norm_num) (by norm_num) (by norm_num)
  rw [eV'] at h0 h1 h2
  rw [eb'] at h1
  have r1' : (200000000000000000000 : ℝ) ≤ (JZ.getD i 0 : ℤ) := by exact_mod_cast r1
  have r5' : (6366 * 1000000000000000000000000000000000000 : ℝ) ≤ (JZ.getD i 0 : ℤ) * (J1.getD i 0 : ℤ) := by exact_mod_cast r5
  have r6' : (JZ.getD i 0 : ℤ) * (J1.getD i 0 : ℤ) ≤ (6482 * 1000000000000000000000000000000000000 : ℝ) := by exact_mod_cast r6
  refine ⟨h0.trans (by norm_num), h2.trans (mul_le_mul_of_nonneg_right (by norm_num) ?_), h1.trans (mul_le_mul_of_nonneg_right (by norm_num) (sq_nonneg _)), ?_, ?_, ?_⟩
  · apply div_nonneg _ (by norm_num); linarith
  · rw [div_mul_div_comm, le_div_iff₀ (by norm_num)]; refine le_trans (by norm_num) r5'
  · rw [div_mul_div_comm, div_le_iff₀ (by norm_num)]; refine r6'.trans (by norm_num)
  · rw [le_div_iff₀ (by norm_num)]; refine le_trans (by norm_num) r1'

theorem anchor_zero : |φ 65.18996480020686044064| ≤ 1 / 10 ^ 18 ∧
    |0.00976589713979105054 - Bessel.J1 65.18996480020686044064 ^ 2| ≤ 2 / 10 ^ 18 * Bessel.J1 65.18996480020686044064 ^ 2 := by
  have h := anchor_ok
  rw [Bool.and_eq_true] at h
  have h0 := φ_small (by norm_num [anchor]) h.1 (ε := 1 / 10 ^ 19) (by norm_num) (by norm_num) (by norm_num)
  have h1 := J1_close (by norm_num [anchor]) h.2 (ε := 1 / 10 ^ 18) (by norm_num) (by norm_num) (by norm_num) (by norm_num) (by norm_num)
  rw [show ((anchor : ℕ) : ℝ) / 100000000000000000000 = 65.18996480020686044064 by norm_num [anchor]] at h0 h1
  rw [show ((976589713979105054 : ℕ) : ℝ) / 100000000000000000000 = 0.00976589713979105054 by norm_num] at h1
  refine ⟨h0.trans (by norm_num), h1.trans (mul_le_mul_of_nonneg_right (by norm_num) (sq_nonneg _))⟩

end GaussQuad.BesselTable
