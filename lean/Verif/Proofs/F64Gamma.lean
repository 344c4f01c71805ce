import Verif.Spec.Backend
import Verif.Proofs.F64Chebyshev
import Verif.Proofs.GammaAccuracy
import Verif.Proofs.GammaPerturb
import Mathlib.Analysis.Complex.ExponentialBounds

/-!
# binary64: the gamma function against its exact-arithmetic counterpart
-/

set_option exponentiation.threshold 3000

namespace GaussQuad.F64
open FloatOps Spec GammaAcc

/-- the Lanczos sum with all terms positive -/
noncomputable def lanczosAbs (y : ℝ) : ℝ :=
  (4971481782775071 / 200000000000000000000) + (10514237858172197 / 10000000000000000) / y + (276549677777613 / 80000000000000) / (y + 1) + (1128069273667237 / 250000000000000) / (y + 2) + (932141329136177 / 312500000000000) / (y + 3) + (1056397115771267 / 1000000000000000) / (y + 4) + (19542877319164587 / 100000000000000000) / (y + 5) + (427426358511103 / 25000000000000000) / (y + 6) + (5719261174043057 / 10000000000000000000) / (y + 7) + (4633994733599057 / 1000000000000000000000) / (y + 8) + (6799872712215193 / 2500000000000000000000000) / (y + 9)

/-- cancellation in the Lanczos sum -/
theorem lanczosAbs_le {y : ℝ} (hy : 1 / 2 ≤ y) : lanczosAbs y ≤ 5000 * lanczosSum y := by
  obtain ⟨z, rfl⟩ : ∃ z, y = z + 1 / 2 := ⟨y - 1 / 2, by ring⟩
  have hz : 0 ≤ z := by linarith
  have h0 : z + 1 / 2 ≠ 0 := by linarith
  have h1 : z + 1 / 2 + 1 ≠ 0 := by linarith
  have h2 : z + 1 / 2 + 2 ≠ 0 := by linarith
  have h3 : z + 1 / 2 + 3 ≠ 0 := by linarith
  have h4 : z + 1 / 2 + 4 ≠ 0 := by linarith
  have h5 : z + 1 / 2 + 5 ≠ 0 := by linarith
  have h6 : z + 1 / 2 + 6 ≠ 0 := by linarith
  have h7 : z + 1 / 2 + 7 ≠ 0 := by linarith
  have h8 : z + 1 / 2 + 8 ≠ 0 := by linarith
  have h9 : z + 1 / 2 + 9 ≠ 0 := by linarith
  have key : 5000 * lanczosSum (z + 1 / 2) - lanczosAbs (z + 1 / 2) = ((155705804598643148901072880162374489 / 51200000000000000000000000) + (354402913297744340412896203079414247 / 128000000000000000000000000) * z ^ 1 + (180214431980098007028165530877051299 / 160000000000000000000000000) * z ^ 2 + (10689023397675268696918193719413577 / 40000000000000000000000000) * z ^ 3 + (1609794059443950950975053589560119 / 40000000000000000000000000) * z ^ 4 + (77760801529782266654582931318369 / 20000000000000000000000000) * z ^ 5 + (569386647954504868986981451629 / 2500000000000000000000000) * z ^ 6 + (16738720717525178317248502593 / 2500000000000000000000000) * z ^ 7 + (193569608313025739555670617 / 5000000000000000000000000) * z ^ 8 + (797428210917241893052307 / 2500000000000000000000000) * z ^ 9 + (24852437432092579929 / 200000000000000000000) * z ^ 10) /
      ((z + 1 / 2) * (z + 1 / 2 + 1) * (z + 1 / 2 + 2) * (z + 1 / 2 + 3) * (z + 1 / 2 + 4) * (z + 1 / 2 + 5) * (z + 1 / 2 + 6) * (z + 1 / 2 + 7) * (z + 1 / 2 + 8) * (z + 1 / 2 + 9)) := by
    unfold lanczosSum lanczosAbs
    field_simp
    ring
  have : 0 ≤ 5000 * lanczosSum (z + 1 / 2) - lanczosAbs (z + 1 / 2) := by rw [key]; positivity
  linarith

theorem lanczosAbs_bounds {y : ℝ} (hy : 1 / 2 ≤ y) : 2 / 10 ^ 5 ≤ lanczosAbs y ∧ lanczosAbs y ≤ 30 := by
  have hy0 : 0 < y := by linarith
  constructor
  · unfold lanczosAbs
    have : ∀ a : ℝ, 0 ≤ a → ∀ k : ℝ, 0 ≤ k → 0 ≤ a / (y + k) := fun a ha k hk => by positivity
    have h0 : (0 : ℝ) ≤ (10514237858172197 / 10000000000000000) / y := by positivity
    have hs : ∀ a b : ℝ, 2 / 10 ^ 5 ≤ a → 0 ≤ b → 2 / 10 ^ 5 ≤ a + b := fun a b h1 h2 => by linarith
    iterate 9 (refine hs _ _ ?_ (this _ (by norm_num) _ (by norm_num)))
    exact hs _ _ (by norm_num) h0
  · unfold lanczosAbs
    have : ∀ a : ℝ, 0 ≤ a → ∀ k : ℝ, 0 ≤ k → a / (y + k) ≤ 2 * a := fun a ha k hk => by
      rw [div_le_iff₀ (by linarith)]; nlinarith
    have h0 : (10514237858172197 / 10000000000000000) / y ≤ 2 * (10514237858172197 / 10000000000000000) := by
      have := this (10514237858172197 / 10000000000000000) (by norm_num) 0 le_rfl
      rwa [add_zero] at this
    have hs : ∀ a b A B : ℝ, a ≤ A → b ≤ B → a + b ≤ A + B := fun a b A B h1 h2 => add_le_add h1 h2
    refine le_trans (hs _ _ _ _ (hs _ _ _ _ (hs _ _ _ _ (hs _ _ _ _ (hs _ _ _ _ (hs _ _ _ _ (hs _ _ _ _ (hs _ _ _ _ (hs _ _ _ _ (hs _ _ _ _ le_rfl h0)
      (this _ (by norm_num) _ (by norm_num))) (this _ (by norm_num) _ (by norm_num))) (this _ (by norm_num) _ (by norm_num))) (this _ (by norm_num) _ (by norm_num)))
      (this _ (by norm_num) _ (by norm_num))) (this _ (by norm_num) _ (by norm_num))) (this _ (by norm_num) _ (by norm_num))) (this _ (by norm_num) _ (by norm_num)))
      (this _ (by norm_num) _ (by norm_num))) (by norm_num)

section
variable [L : Libm]

/-- a left fold of additions, with error bounds relative to the sum of the sizes -/
theorem foldl_near {α : Type} {t : α → F64} {r : α → ℝ} {A c : ℝ} (hA : 0 ≤ A) (hc : 0 ≤ c) (hb : 1.001 * A ≤ 2 ^ 1023) : ∀ (l : List α) (s : F64) (σ ε : ℝ),
    (∀ q ∈ l, Rel (t q) (r q) c) → Near s σ ε → |σ| + (l.map fun q => |r q|).sum ≤ A →
    ε + c * U * (l.map fun q => |r q|).sum + l.length * (1.001 * U * A) ≤ 0.001 * A →
    Near (l.foldl (fun s q => F64.add s (t q)) s) (σ + (l.map r).sum) (ε + c * U * (l.map fun q => |r q|).sum + l.length * (1.001 * U * A)) := by
  have hU := U_pos
  intro l
  induction l with
  | nil => intro s σ ε _ hs _ _; simpa using hs
  | cons q l ih =>
    intro s σ ε hq hs hsum herr
    simp only [List.map_cons, List.sum_cons, List.length_cons, Nat.cast_succ, List.foldl_cons] at *
    have hsn : 0 ≤ (l.map fun q => |r q|).sum := List.sum_nonneg (by simp)
    have hUA : 0 ≤ U * A := by positivity
    have hlU : 0 ≤ (l.length : ℝ) * (1.001 * U * A) := by positivity
    have hcs : 0 ≤ c * U * (l.map fun q => |r q|).sum := by positivity
    have hcq : 0 ≤ c * U * |r q| := by positivity
    have h3 := abs_add_le σ (r q)
    have h1 := hs.add (hq q (by simp)).near (A := 1.001 * A) (by linarith) hb
    have := ih (F64.add s (t q)) (σ + r q) (ε + c * U * |r q| + U * (1.001 * A)) (fun q' h' => hq q' (by simp [h'])) h1 (by linarith) (by linarith)
    rw [add_assoc σ] at this
    exact this.mono (by linarith)

theorem gammaDK_mem : ∀ t ∈ gammaDK.zipIdx.drop 1, (1 : ℚ) / 10 ^ 9 ≤ |t.1| ∧ |t.1| ≤ 5 ∧ 1 ≤ t.2 ∧ t.2 ≤ 10 := by
  decide +kernel

/-- the series in binary64, for denominators `y + i - 1` -/
theorem series_near {den : ℕ → F64} {y c : ℝ} (hy : 1 / 2 ≤ y) (hy2 : y ≤ 2 ^ 800) (hc0 : 0 ≤ c) (hc : c ≤ 5)
    (h : ∀ i : ℕ, 1 ≤ i → i ≤ 10 → Rel (den i) (y + i - 1) c) : Rel (gammaSeries den) (lanczosSum y) (5000 * (c + 12.1)) := by
  have hU := U_pos
  have hU1 : U ≤ 1 / 10 ^ 15 := U_le_eta
  obtain ⟨a1, a2⟩ := lanczosAbs_bounds hy
  have hA : 0 ≤ lanczosAbs y := le_trans (by norm_num) a1
  have hterm : ∀ q ∈ gammaDK.zipIdx.drop 1, Rel (lit q.1 /ᶠ den q.2 : F64) ((q.1 : ℝ) / (y + q.2 - 1)) (c + 2.002) := by
    intro q hq
    obtain ⟨b1, b2, b3, b4⟩ := gammaDK_mem q hq
    have b1' : (1 : ℝ) / 10 ^ 9 ≤ |(q.1 : ℝ)| := by
      have : ((1 / 10 ^ 9 : ℚ) : ℝ) ≤ ((|q.1| : ℚ) : ℝ) := by exact_mod_cast b1
      push_cast at this; exact this
    have b2' : |(q.1 : ℝ)| ≤ 5 := by exact_mod_cast b2
    have b3' : (1 : ℝ) ≤ q.2 := by exact_mod_cast b3
    have b4' : (q.2 : ℝ) ≤ 10 := by exact_mod_cast b4
    have hd : 1 / 2 ≤ y + q.2 - 1 := by linarith
    have l1 := Rel.ofRat (q := q.1) (s := false) (b2'.trans (by norm_num)) (le_trans (by norm_num) b1')
    refine Rel.div l1 (h q.2 b3 b4) (by linarith) ?_ ?_ (by norm_num) hc0 (by norm_num) (by linarith) (by linarith)
    · rw [abs_div, abs_of_pos (by linarith : 0 < y + q.2 - 1), le_div_iff₀ (by linarith)]
      calc 1 / 2 ^ 900 * (y + q.2 - 1) ≤ 1 / 2 ^ 900 * (2 ^ 800 + 9) := by gcongr; linarith
        _ ≤ 1 / 10 ^ 9 := by norm_num
        _ ≤ _ := b1'
    · rw [abs_div, abs_of_pos (by linarith : 0 < y + q.2 - 1), div_le_iff₀ (by linarith)]
      calc |(q.1 : ℝ)| ≤ 5 := b2'
        _ ≤ 2 ^ 1015 * (1 / 2) := by norm_num
        _ ≤ _ := by gcongr
  have e0 : ((gammaDK.headD 0 : ℚ) : ℝ) = 4971481782775071 / 200000000000000000000 := by norm_num [gammaDK]
  have hd0 : Near (lit (gammaDK.headD 0) : F64) (4971481782775071 / 200000000000000000000) (1 * U * (4971481782775071 / 200000000000000000000)) := by
    have := Rel.ofRat (q := gammaDK.headD 0) (s := false) (by rw [e0]; norm_num) (by rw [e0]; norm_num)
    rw [e0] at this
    have h2 := this.near
    rwa [abs_of_pos (by norm_num : (0 : ℝ) < 4971481782775071 / 200000000000000000000)] at h2
  have hsum : (4971481782775071 / 200000000000000000000 : ℝ) + ((gammaDK.zipIdx.drop 1).map fun q => (q.1 : ℝ) / (y + q.2 - 1)).sum = lanczosSum y := by
    simp only [gammaDK, List.zipIdx, List.drop, List.map, List.sum_cons, List.sum_nil, lanczosSum]
    norm_num
    simp only [add_sub_assoc]
    norm_num
    ring
  have hsum2 : (4971481782775071 / 200000000000000000000 : ℝ) + ((gammaDK.zipIdx.drop 1).map fun q => |(q.1 : ℝ) / (y + q.2 - 1)|).sum = lanczosAbs y := by
    have hp : ∀ k : ℕ, 1 ≤ k → |y + k - 1| = y + k - 1 := fun k hk => by
      have : (1 : ℝ) ≤ k := by exact_mod_cast hk
      exact abs_of_pos (by linarith)
    simp only [gammaDK, List.zipIdx, List.drop, List.map, List.sum_cons, List.sum_nil, lanczosAbs, abs_div]
    rw [hp _ (by norm_num), hp _ (by norm_num), hp _ (by norm_num), hp _ (by norm_num), hp _ (by norm_num), hp _ (by norm_num), hp _ (by norm_num),
      hp _ (by norm_num), hp _ (by norm_num), hp _ (by norm_num)]
    norm_num [abs_of_pos, abs_of_neg]
    simp only [add_sub_assoc]
    norm_num
    ring
  have hlen : ((gammaDK.zipIdx.drop 1).length : ℝ) = 10 := by
    have : (gammaDK.zipIdx.drop 1).length = 10 := by decide
    rw [this]; norm_num
  have hrest : ((gammaDK.zipIdx.drop 1).map fun q => |(q.1 : ℝ) / (y + q.2 - 1)|).sum ≤ lanczosAbs y := by rw [← hsum2]; linarith
  have hrest0 : 0 ≤ ((gammaDK.zipIdx.drop 1).map fun q => |(q.1 : ℝ) / (y + q.2 - 1)|).sum := List.sum_nonneg fun z hz => by
    obtain ⟨q, -, rfl⟩ := List.mem_map.1 hz; exact abs_nonneg _
  have hUA : 0 ≤ U * lanczosAbs y := by positivity
  have hUA2 : U * lanczosAbs y ≤ 1 / 10 ^ 15 * lanczosAbs y := mul_le_mul_of_nonneg_right hU1 hA
  have hcU : (c + 2.002) * U * ((gammaDK.zipIdx.drop 1).map fun q => |(q.1 : ℝ) / (y + q.2 - 1)|).sum ≤ (c + 2.002) * (U * lanczosAbs y) := by
    rw [mul_assoc]; gcongr
  have hcU2 : (c + 2.002) * (U * lanczosAbs y) ≤ (5 + 2.002) * (U * lanczosAbs y) := by gcongr
  have hU0 : 1 * U * (4971481782775071 / 200000000000000000000) ≤ 0.001 * (U * lanczosAbs y) + 1 * U * (4971481782775071 / 200000000000000000000) := by linarith
  have hd0A : (4971481782775071 / 200000000000000000000 : ℝ) ≤ lanczosAbs y := by rw [← hsum2]; linarith
  have hd0U : U * (4971481782775071 / 200000000000000000000) ≤ U * lanczosAbs y := mul_le_mul_of_nonneg_left hd0A hU.le
  have hf := foldl_near (L := L) (t := fun q => (lit q.1 /ᶠ den q.2 : F64)) (r := fun q => (q.1 : ℝ) / (y + q.2 - 1)) (A := lanczosAbs y) (c := c + 2.002) hA (by linarith)
    (by linarith [show (30 : ℝ) * 1.001 ≤ 2 ^ 1023 by norm_num]) (gammaDK.zipIdx.drop 1) _ _ _ hterm hd0
    (by rw [abs_of_pos (by norm_num : (0 : ℝ) < 4971481782775071 / 200000000000000000000), hsum2]) (by rw [hlen]; linarith)
  rw [hsum, hlen] at hf
  have hS := lanczosSum_pos (y := y) (by linarith)
  have hrE : ((gammaDK.zipIdx.drop 1).map fun q => |(q.1 : ℝ) / (y + q.2 - 1)|).sum = lanczosAbs y - 4971481782775071 / 200000000000000000000 := by
    rw [← hsum2]; ring
  rw [hrE] at hf
  have hcd : 0 ≤ c * (U * (4971481782775071 / 200000000000000000000)) := by positivity
  refine Near.rel (ε := (c + 2.002) * (U * lanczosAbs y) + 10 * (1.001 * U * lanczosAbs y)) (hf.mono (by linarith)) ?_
  rw [abs_of_pos hS]
  have h5 := lanczosAbs_le hy
  have h6 : U * lanczosAbs y ≤ U * (5000 * lanczosSum y) := mul_le_mul_of_nonneg_left h5 hU.le
  have h7 : (c + 12.1) * (U * lanczosAbs y) ≤ (c + 12.1) * (U * (5000 * lanczosSum y)) := mul_le_mul_of_nonneg_left h6 (by linarith)
  linarith

theorem e_rel : Rel (FloatOps.e : F64) (Real.exp 1) 0.5 := by
  have e : (F64.ofBits 0x4005BF0A8B145769).val = 6121026514868073 / 2251799813685248 := by decide +kernel
  change Rel (F64.ofBits 0x4005BF0A8B145769) _ _
  refine ⟨by decide +kernel, ?_⟩
  have h := _root_.abs_le.1 Real.exp_one_near_20
  rw [rv, e, abs_of_pos (Real.exp_pos 1), _root_.abs_le]
  unfold U
  push_cast
  constructor
  · nlinarith [h.1, h.2]
  · nlinarith [h.1, h.2]

theorem rpow_le_big {B Y : ℝ} (hB1 : 1 ≤ B) (hB2 : B ≤ 66) (hY0 : 0 ≤ Y) (hY : Y ≤ 169) : 1 ≤ B ^ Y ∧ B ^ Y ≤ 2 ^ 1022 / 1.01 := by
  refine ⟨Real.one_le_rpow hB1 hY0, ?_⟩
  calc B ^ Y ≤ 66 ^ Y := Real.rpow_le_rpow (by linarith) hB2 hY0
    _ ≤ 66 ^ (169 : ℝ) := Real.rpow_le_rpow_of_exponent_le (by norm_num) hY
    _ = 66 ^ (169 : ℕ) := by rw [← Real.rpow_natCast]; norm_num
    _ ≤ _ := by norm_num

/-- `pow` of perturbed arguments -/
theorem pow_rel (hP : AccuratePow L) {b y : F64} {B Y c k d : ℝ} (hb : Rel b B c) (hy : Near y Y (k * U)) (hB1 : 1.1 ≤ B) (hB2 : B ≤ 66)
    (hc0 : 0 ≤ c) (hc : c ≤ 10) (hY0 : 0 ≤ Y) (hY : Y ≤ 169) (hk0 : 0 ≤ k) (hk : k ≤ 200) (hd : 1.01 * (Y * c + 4.2 * k) + 2.1 ≤ d) :
    Rel (FloatOps.pow b y) (B ^ Y) d := by
  have hU := U_pos
  have hU1 : U ≤ 1 / 10 ^ 15 := U_le_eta
  obtain ⟨a, ha, ea⟩ := hb.exists (by linarith)
  have hcU : c * U ≤ 10 * (1 / 10 ^ 15) := by gcongr
  have hkU : k * U ≤ 200 * (1 / 10 ^ 15) := by gcongr
  have ha' := _root_.abs_le.1 ha
  have hy' := _root_.abs_le.1 hy.2
  have hpos : 0 < 1 + a := by linarith
  have hB0 : 0 < B := by linarith
  -- logarithm of 1 + a
  have hl : |Real.log (1 + a)| ≤ 1.001 * (c * U) := by
    have h1 := Real.log_le_sub_one_of_pos hpos
    have h2 := Real.one_sub_inv_le_log_of_pos hpos
    have h3 : -(1.001 * (c * U)) ≤ 1 - (1 + a)⁻¹ := by
      rw [show 1 - (1 + a)⁻¹ = a / (1 + a) by field_simp; ring, le_div_iff₀ hpos]
      have : 0 ≤ c * U := by positivity
      nlinarith
    rw [_root_.abs_le]
    constructor
    · linarith
    · have : 0 ≤ c * U := by positivity
      linarith
  have hlB0 : 0 ≤ Real.log B := Real.log_nonneg (by linarith)
  have hlB : Real.log B ≤ 4.2 := by
    rw [Real.log_le_iff_le_exp hB0]
    have h1 := Real.exp_one_gt_d9
    have : (66 : ℝ) ≤ Real.exp 4.2 := by
      rw [show (4.2 : ℝ) = 1 + 1 + 1 + 1 + 0.2 by norm_num, Real.exp_add, Real.exp_add, Real.exp_add, Real.exp_add]
      have h2 : (1.22 : ℝ) ≤ Real.exp 0.2 := by have := Real.quadratic_le_exp_of_nonneg (x := (0.2 : ℝ)) (by norm_num); linarith
      have h3 : (2.718 : ℝ) ≤ Real.exp 1 := by linarith
      calc (66 : ℝ) ≤ 2.718 * 2.718 * 2.718 * 2.718 * 1.22 := by norm_num
        _ ≤ _ := by gcongr
    linarith
  -- the power with perturbed arguments
  obtain ⟨T, hT⟩ : ∃ T, T = y.rv * Real.log (1 + a) + (y.rv - Y) * Real.log B := ⟨_, rfl⟩
  have hpow : b.rv ^ y.rv = B ^ Y * Real.exp T := by
    rw [ea, Real.rpow_def_of_pos (by positivity), Real.rpow_def_of_pos hB0, Real.log_mul (by positivity) (by positivity), ← Real.exp_add, hT]
    congr 1; ring
  have hTb : |T| ≤ (1.002 * (Y * c) + 4.2 * k + 0.011) * U := by
    rw [hT]
    refine (abs_add_le _ _).trans ?_
    rw [abs_mul, abs_mul, abs_of_nonneg hlB0]
    have h1 : |y.rv| ≤ Y + 0.001 := by rw [_root_.abs_le]; constructor <;> linarith
    have h2 : |y.rv| * |Real.log (1 + a)| ≤ (Y + 0.001) * (1.001 * (c * U)) := mul_le_mul h1 hl (abs_nonneg _) (by linarith)
    have h3 : |y.rv - Y| * Real.log B ≤ k * U * 4.2 := mul_le_mul hy.2 hlB hlB0 (by positivity)
    have h4 : 0 ≤ Y * c * U := by positivity
    have h5 : c * U ≤ 10 * U := by gcongr
    linarith
  have hτ : 1.002 * (Y * c) + 4.2 * k + 0.011 ≤ 3000 := by
    have : Y * c ≤ 169 * 10 := by gcongr
    linarith
  have hτ0 : 0 ≤ 1.002 * (Y * c) + 4.2 * k + 0.011 := by positivity
  obtain ⟨τ, hτd⟩ : ∃ τ, τ = 1.002 * (Y * c) + 4.2 * k + 0.011 := ⟨_, rfl⟩
  rw [← hτd] at hTb hτ hτ0
  have hT1 : |T| ≤ 1 / 10 ^ 11 := hTb.trans (by calc τ * U ≤ 3000 * (1 / 10 ^ 15) := by gcongr
                                               _ ≤ _ := by norm_num)
  have hexp : |Real.exp T - 1| ≤ 1.00001 * (τ * U) := by
    have h1 := Real.abs_exp_sub_one_sub_id_le (x := T) (hT1.trans (by norm_num))
    have h2 : Real.exp T - 1 = (Real.exp T - 1 - T) + T := by ring
    rw [h2]
    refine (abs_add_le _ _).trans ?_
    have h3 : T ^ 2 ≤ 1 / 10 ^ 11 * |T| := by
      rw [← sq_abs, sq]; exact mul_le_mul_of_nonneg_right hT1 (abs_nonneg _)
    linarith [abs_nonneg T]
  obtain ⟨p1, p2⟩ := rpow_le_big (by linarith : 1 ≤ B) hB2 hY0 hY
  have hexp' := _root_.abs_le.1 hexp
  have hτU : τ * U ≤ 1 / 10 ^ 11 := by calc τ * U ≤ 3000 * (1 / 10 ^ 15) := by gcongr
                                         _ ≤ _ := by norm_num
  have hbB : |b.rv - B| ≤ 10 * (1 / 10 ^ 15) * 66 := by
    have h2 := hb.2
    rw [abs_of_pos hB0] at h2
    exact h2.trans (by gcongr)
  have hbB' := _root_.abs_le.1 hbB
  have hpw := hP b y hb.1 hy.1 (by change 1 ≤ b.rv; linarith) (by change b.rv ≤ 128; linarith) (by change -2 ≤ y.rv; linarith) (by change y.rv ≤ 400; linarith) (by
    change b.rv ^ y.rv ≤ _
    rw [hpow]
    calc B ^ Y * Real.exp T ≤ 2 ^ 1022 / 1.01 * 1.01 := by gcongr; linarith
      _ ≤ 2 ^ 1022 := by norm_num)
  refine ⟨hpw.1, ?_⟩
  have h1 : |(FloatOps.pow b y).rv - b.rv ^ y.rv| ≤ 1 / 2 ^ 52 * b.rv ^ y.rv := hpw.2
  rw [hpow] at h1
  have h52 : (1 : ℝ) / 2 ^ 52 = 2 * U := by unfold U; norm_num
  rw [h52] at h1
  have hP0 : 0 < B ^ Y := by linarith
  have h2 : |B ^ Y * Real.exp T - B ^ Y| ≤ 1.00001 * (τ * U) * B ^ Y := by
    rw [show B ^ Y * Real.exp T - B ^ Y = B ^ Y * (Real.exp T - 1) by ring, abs_mul, abs_of_pos hP0, mul_comm]
    gcongr
  have h3 := abs_sub_le (FloatOps.pow b y).rv (B ^ Y * Real.exp T) (B ^ Y)
  have h4 : 2 * U * (B ^ Y * Real.exp T) ≤ 2 * U * (B ^ Y * 1.001) := by gcongr; linarith
  rw [abs_of_pos hP0]
  have h5 : (1.00001 * τ + 2.002) * (U * B ^ Y) ≤ d * (U * B ^ Y) := by
    refine mul_le_mul_of_nonneg_right ?_ (by positivity)
    have : 0 ≤ Y * c := by positivity
    rw [hτd]; linarith
  linarith

theorem const_rel : Rel (lit twoSqrtEOverPi : F64) (twoSqrtEOverPi : ℝ) 1 :=
  Rel.ofRat (by norm_num [twoSqrtEOverPi]) (by norm_num [twoSqrtEOverPi])

theorem gammaR_near : Near (lit gammaR : F64) (gammaR : ℝ) (1 * U * (gammaR : ℝ)) := by
  have := (Rel.ofRat (q := gammaR) (s := false) (by norm_num [gammaR]) (by norm_num [gammaR])).near
  rwa [abs_of_pos gammaConst_pos.2] at this

/-- the base of the power, from its exponent -/
theorem base_rel {y : F64} {Y : ℝ} (hy : Near y Y (U * Y)) (hY0 : 0 ≤ Y) (hY : Y ≤ 168.5) :
    Rel ((y +ᶠ lit gammaR) /ᶠ FloatOps.e : F64) ((Y + (gammaR : ℝ)) / Real.exp 1) 3.51 ∧ 1.1 ≤ (Y + (gammaR : ℝ)) / Real.exp 1 ∧
      (Y + (gammaR : ℝ)) / Real.exp 1 ≤ 66 := by
  have hU := U_pos
  have hU1 : U ≤ 1 / 10 ^ 15 := U_le_eta
  have hR : (gammaR : ℝ) = 10.900511 := by norm_num [gammaR]
  have he1 := Real.exp_one_gt_d9
  have he2 := Real.exp_one_lt_d9
  have hs := gammaR_near (L := L)
  rw [hR] at hs ⊢
  have hUY : 0 ≤ U * (Y + 10.900511) := by positivity
  have hUY2 : U * (Y + 10.900511) ≤ 1 / 10 ^ 15 * (Y + 10.900511) := mul_le_mul_of_nonneg_right hU1 (by linarith)
  have h1 := hy.add hs (A := 1.001 * (Y + 10.900511)) (by
    rw [abs_of_pos (by linarith)]; linarith) (by linarith [show (200 : ℝ) ≤ 2 ^ 1023 by norm_num])
  have h2 : Rel (y +ᶠ lit gammaR : F64) (Y + 10.900511) 2.002 := h1.rel (by rw [abs_of_pos (by linarith)]; linarith)
  have l1 : 1.1 ≤ (Y + 10.900511) / Real.exp 1 := by rw [le_div_iff₀ (by positivity)]; linarith
  have l2 : (Y + 10.900511) / Real.exp 1 ≤ 66 := by rw [div_le_iff₀ (by positivity)]; linarith
  have m := moderate (a := (Y + 10.900511) / Real.exp 1) (le_trans (by norm_num) l1) (l2.trans (by norm_num))
  exact ⟨Rel.div h2 e_rel (by positivity) m.1 m.2 (by norm_num) (by norm_num) (by norm_num) (by norm_num) (by norm_num), l1, l2⟩

theorem sum_size {y : ℝ} (hy : 1 / 2 ≤ y) : 4 / 10 ^ 9 ≤ lanczosSum y ∧ lanczosSum y ≤ 30 := by
  obtain ⟨a1, a2⟩ := lanczosAbs_bounds hy
  have h := lanczosAbs_le hy
  refine ⟨by linarith, le_trans ?_ a2⟩
  unfold lanczosSum lanczosAbs
  have hy0 : 0 < y := by linarith
  have : ∀ a k : ℝ, 0 ≤ a → 0 ≤ k → -a / (y + k) ≤ a / (y + k) := fun a k ha hk => by gcongr; linarith
  gcongr <;> norm_num

theorem lt_half {x : F64} (hx : x.isFinite = true) : FloatOps.lt x (lit 0.5 : F64) = true ↔ x.rv < 1 / 2 := by
  have h := lit_half_rel (L := L)
  have e : (lit 0.5 : F64).rv = 1 / 2 := by
    have h2 := h.2; rw [zero_mul, zero_mul] at h2
    have := abs_nonpos_iff.1 h2; linarith
  rw [← e]
  refine (ltb_finite hx h.1).trans ?_
  unfold rv
  exact_mod_cast Iff.rfl

omit L in
theorem gamma_le_big {x : ℝ} (h1 : 1 / 2 ≤ x) (h2 : x ≤ 169) : |(gamma x : ℝ)| ≤ 2 ^ 1010 := by
  have hp := gamma_right_pos h1
  have hG : 0 < Real.Gamma x := Real.Gamma_pos_of_pos (by linarith)
  have hr := (_root_.abs_le.1 (ratio_right h1)).2
  have h3 : gamma x / Real.Gamma x ≤ 2 := by
    rw [Real.log_le_iff_le_exp (by positivity)] at hr
    have h := Real.log_two_gt_d9
    refine hr.trans (le_trans (Real.exp_le_exp.2 (by linarith : (1.72e-12 : ℝ) ≤ Real.log 2)) (Real.exp_log (by norm_num)).le)
  rw [div_le_iff₀ hG] at h3
  have h4 := Gamma_le_factorial (x := x) (δ := 1 / 2) (k := 168) h1 (by norm_num) (by norm_num) (by norm_num) (by push_cast; linarith)
  have h5 : Nat.factorial 168 ≤ 2 ^ 1008 := by decide +kernel
  have h6 : (Nat.factorial 168 : ℝ) ≤ 2 ^ 1008 := by exact_mod_cast h5
  rw [abs_of_pos hp]
  calc (gamma x : ℝ) ≤ 2 * Real.Gamma x := h3
    _ ≤ 2 * (Nat.factorial 168 / (1 / 2)) := by gcongr
    _ ≤ 2 * (2 ^ 1008 / (1 / 2)) := by gcongr
    _ = 2 ^ 1010 := by norm_num

/-- the branch `x >= 1/2` -/
theorem gamma_right_rel (hP : AccuratePow L) {x : F64} (hx : x.isFinite = true) (h1 : 1 / 2 ≤ x.rv) (h2 : x.rv ≤ 169) :
    Rel (gamma x) (gamma x.rv) 82000 := by
  have hU := U_pos
  have hU1 : U ≤ 1 / 10 ^ 15 := U_le_eta
  have hx0 : Near x x.rv 0 := ⟨hx, by simp⟩
  have hden : ∀ i : ℕ, 1 ≤ i → i ≤ 10 → Rel (x +ᶠ ofNat i -ᶠ lit 1.0 : F64) (x.rv + i - 1) 4.01 := by
    intro i hi1 hi2
    have c1 : (1 : ℝ) ≤ i := by exact_mod_cast hi1
    have c2 : (i : ℝ) ≤ 10 := by exact_mod_cast hi2
    have n1 := (ofNat_isNat (L := L) (m := i) (by omega)).rel.near
    rw [zero_mul, zero_mul] at n1
    have n2 := (lit_one_rel (L := L)).near
    rw [zero_mul, zero_mul] at n2
    have s1 := hx0.add n1 (A := x.rv + i) (by rw [abs_of_pos (by linarith)]; linarith) (by linarith [show (200 : ℝ) ≤ 2 ^ 1023 by norm_num])
    have hUx : U * (x.rv + i) ≤ U * (3 * (x.rv + i - 1)) := mul_le_mul_of_nonneg_left (by linarith) hU.le
    have hUr : U * (x.rv + i - 1) ≤ 1 / 10 ^ 15 * (x.rv + i - 1) := mul_le_mul_of_nonneg_right hU1 (by linarith)
    have hUr0 : 0 ≤ U * (x.rv + i - 1) := mul_nonneg hU.le (by linarith)
    have s2 := s1.sub n2 (A := 1.001 * (x.rv + i - 1)) (by rw [abs_of_pos (by linarith)]; linarith) (by linarith [show (200 : ℝ) ≤ 2 ^ 1023 by norm_num])
    exact s2.rel (by rw [abs_of_pos (by linarith)]; linarith)
  have hs := series_near (L := L) (y := x.rv) h1 (by linarith) (by norm_num) (by norm_num) hden
  have hh := (lit_half_rel (L := L)).near
  rw [zero_mul, zero_mul] at hh
  have hY : Near (x -ᶠ lit 0.5 : F64) (x.rv - 1 / 2) (U * (x.rv - 1 / 2)) := by
    have := hx0.sub hh (A := x.rv - 1 / 2) (by rw [abs_of_nonneg (by linarith)]; linarith) (by linarith [show (200 : ℝ) ≤ 2 ^ 1023 by norm_num])
    exact this.mono (by linarith)
  obtain ⟨b1, b2, b3⟩ := base_rel hY (by linarith) (by linarith)
  have hp := pow_rel (k := 168.5) (d := 1315) hP b1 (hY.mono (by
    have : U * (x.rv - 1 / 2) ≤ U * 168.5 := mul_le_mul_of_nonneg_left (by linarith) hU.le
    linarith)) b2 b3 (by norm_num) (by norm_num) (by linarith) (by linarith) (by norm_num) (by norm_num) (by linarith)
  obtain ⟨z1, z2⟩ := sum_size h1
  have hc : (twoSqrtEOverPi : ℝ) = 1.8603827342052657 := by norm_num [twoSqrtEOverPi]
  have p0 := rpow_le_big (by linarith : (1 : ℝ) ≤ (x.rv - 1 / 2 + (gammaR : ℝ)) / Real.exp 1) b3 (by linarith : 0 ≤ x.rv - 1 / 2) (by linarith)
  have m1 := moderate (a := lanczosSum x.rv * (twoSqrtEOverPi : ℝ)) (by rw [hc]; linarith [show (1 : ℝ) / 2 ^ 200 ≤ 4 / 10 ^ 9 by norm_num])
    (by rw [hc]; linarith [show (100 : ℝ) ≤ 2 ^ 200 by norm_num])
  have r1 := hs.mul const_rel m1.1 m1.2 (by norm_num) (by norm_num) (by norm_num) (by norm_num) (d := 80600) (by norm_num)
  rw [gamma_right h1]
  have e1 : (gamma x : F64) = gammaSeries (fun i => x +ᶠ ofNat i -ᶠ lit 1.0) *ᶠ lit twoSqrtEOverPi *ᶠ
      FloatOps.pow ((x -ᶠ lit 0.5 +ᶠ lit gammaR) /ᶠ FloatOps.e) (x -ᶠ lit 0.5) := by
    unfold gamma
    rw [if_neg (by rw [lt_half hx]; linarith)]
  rw [e1]
  have hpos : 0 < lanczosSum x.rv * (twoSqrtEOverPi : ℝ) := by rw [hc]; linarith
  refine r1.mul hp ?_ ?_ (by norm_num) (by norm_num) (by norm_num) (by norm_num) (by norm_num)
  · rw [abs_of_pos (mul_pos hpos (by linarith)), hc]
    calc (1 : ℝ) / 2 ^ 900 ≤ 4 / 10 ^ 9 * 1 * 1 := by norm_num
      _ ≤ _ := by gcongr; norm_num; exact p0.1
  · rw [← gamma_right h1]
    exact (gamma_le_big h1 h2).trans (by norm_num)

/-- `sin` of a float close to `π x` with `-1 < x < 0` -/
theorem sin_neg_rel (hL : AccurateSinNeg L) {x : F64} {u : ℝ} (hx : Rel x (Real.pi * u) 1.361) (h1 : -1 + 1 / 1100 ≤ u) (h2 : u ≤ -1 / 1100) :
    Rel (FloatOps.sin x) (Real.sin (Real.pi * u)) 3500 ∧ 2 / 1100 ≤ |Real.sin (Real.pi * u)| := by
  have hU := U_pos
  have hU1 : U ≤ 1 / 10 ^ 15 := U_le_eta
  have hp3 := Real.pi_gt_d2
  have hp4 := Real.pi_lt_d2
  have habs : |Real.pi * u| = Real.pi * -u := by rw [abs_of_nonpos (by nlinarith)]; ring
  have hle : Real.pi * -u ≤ 3.15 := by nlinarith
  have hpos : 0 < Real.pi * -u := by nlinarith
  have hd := hx.2
  rw [habs] at hd
  have hd1 : 1.361 * U * (Real.pi * -u) ≤ 0.1 * (Real.pi * -u) := mul_le_mul_of_nonneg_right (by linarith) hpos.le
  have hd2 : 1.361 * U * (Real.pi * -u) ≤ 1.361 * U * 3.15 := mul_le_mul_of_nonneg_left hle (by positivity)
  have hd' := abs_le.1 hd
  obtain ⟨f1, f2⟩ := hL x hx.1 (by change -4 ≤ x.rv; linarith) (by change x.rv ≤ 0; linarith)
  have hlow : 2 / 1100 ≤ |Real.sin (Real.pi * u)| := by
    have e : |Real.sin (Real.pi * u)| = |Real.sin (Real.pi * -u)| := by rw [mul_neg, Real.sin_neg, abs_neg]
    rw [e]
    refine le_trans ?_ (le_abs_self _)
    have key : ∀ v : ℝ, 1 / 1100 ≤ v → v ≤ 1 / 2 → 2 / 1100 ≤ Real.sin (Real.pi * v) := by
      intro v h3 h4
      have := Real.mul_le_sin (x := Real.pi * v) (by positivity) (by nlinarith)
      refine le_trans ?_ this
      have : 2 / Real.pi * (Real.pi * v) = 2 * v := by field_simp
      rw [this]; linarith
    rcases le_total (-u) (1 / 2) with h | h
    · exact key _ (by linarith) h
    · have := key (1 + u) (by linarith) (by linarith)
      rwa [show Real.pi * (1 + u) = Real.pi - Real.pi * -u by ring, Real.sin_pi_sub] at this
  refine ⟨⟨f1, ?_⟩, hlow⟩
  change |(L.sin x).rv - Real.sin x.rv| ≤ _ at f2
  change |(L.sin x).rv - Real.sin (Real.pi * u)| ≤ _
  have h3 := abs_sub_le (L.sin x).rv (Real.sin x.rv) (Real.sin (Real.pi * u))
  have h4 := (Real.abs_sin_sub_sin_le x.rv (Real.pi * u)).trans hd
  have e : (1 : ℝ) / 2 ^ 52 = 2 * U := by unfold U; norm_num
  rw [e] at f2
  have h5 : 3500 * U * (2 / 1100) ≤ 3500 * U * |Real.sin (Real.pi * u)| := mul_le_mul_of_nonneg_left hlow (by positivity)
  linarith

/-- the branch `x < 1/2` at negative arguments -/
theorem gamma_neg_rel (hL : AccurateSinNeg L) (hP : AccuratePow L) {x : F64} (hx : x.isFinite = true) (h1 : -1 + 1 / 1100 ≤ x.rv) (h2 : x.rv ≤ -1 / 1100) :
    Rel (gamma x) (gamma x.rv) 82000 := by
  have hU := U_pos
  have hU1 : U ≤ 1 / 10 ^ 15 := U_le_eta
  have hx0 : Near x x.rv 0 := ⟨hx, by simp⟩
  have hxr : Rel x x.rv 0 := ⟨hx, by simp⟩
  have hden : ∀ i : ℕ, 1 ≤ i → i ≤ 10 → Rel (ofNat i -ᶠ x : F64) (1 - x.rv + i - 1) 1 := by
    intro i hi1 hi2
    have c1 : (1 : ℝ) ≤ i := by exact_mod_cast hi1
    have c2 : (i : ℝ) ≤ 10 := by exact_mod_cast hi2
    have n1 := (ofNat_isNat (L := L) (m := i) (by omega)).rel.near
    rw [zero_mul, zero_mul] at n1
    have s1 := n1.sub hx0 (A := i - x.rv) (by rw [abs_of_pos (by linarith)]; linarith) (by linarith [show (200 : ℝ) ≤ 2 ^ 1023 by norm_num])
    rw [show 1 - x.rv + i - 1 = i - x.rv by ring]
    exact s1.rel (by rw [abs_of_pos (by linarith)]; linarith)
  have hs := series_near (L := L) (y := 1 - x.rv) (by linarith) (by linarith) (by norm_num) (by norm_num) hden
  have hh := (lit_half_rel (L := L)).near
  rw [zero_mul, zero_mul] at hh
  have hY : Near (lit 0.5 -ᶠ x : F64) (1 / 2 - x.rv) (U * (1 / 2 - x.rv)) := by
    have := hh.sub hx0 (A := 1 / 2 - x.rv) (by rw [abs_of_nonneg (by linarith)]; linarith) (by linarith [show (200 : ℝ) ≤ 2 ^ 1023 by norm_num])
    exact this.mono (by linarith)
  obtain ⟨b1, b2, b3⟩ := base_rel hY (by linarith) (by linarith)
  have hp := pow_rel (k := 1.5) (d := 14) hP b1 (hY.mono (by
    have : U * (1 / 2 - x.rv) ≤ U * 1.5 := mul_le_mul_of_nonneg_left (by linarith) hU.le
    linarith)) b2 b3 (by norm_num) (by norm_num) (by linarith) (by linarith) (by norm_num) (by norm_num) (by linarith)
  obtain ⟨z1, z2⟩ := sum_size (y := 1 - x.rv) (by linarith)
  have hc : (twoSqrtEOverPi : ℝ) = 1.8603827342052657 := by norm_num [twoSqrtEOverPi]
  have hp3 := Real.pi_gt_d2
  have hp4 := Real.pi_lt_d2
  -- sine
  have habs : |Real.pi * x.rv| = Real.pi * -x.rv := by rw [abs_of_nonpos (by nlinarith)]; ring
  have mA := moderate (a := |Real.pi * x.rv|) (by rw [habs]; exact le_trans (by norm_num : _ ≤ (3 : ℝ) * (1 / 1100)) (by nlinarith))
    (by rw [habs]; exact le_trans (by nlinarith : _ ≤ (4 : ℝ)) (by norm_num))
  rw [abs_abs] at mA
  have a1 := pi_rel.mul hxr mA.1 mA.2 (by norm_num) le_rfl (by norm_num) (by norm_num) (d := 1.361) (by norm_num)
  obtain ⟨a2, hsin1⟩ := sin_neg_rel hL a1 h1 h2
  have hsin2 := Real.abs_sin_le_one (Real.pi * x.rv)
  -- the product
  have p0 : 1 ≤ ((1 / 2 - x.rv + (gammaR : ℝ)) / Real.exp 1) ^ (1 / 2 - x.rv) := Real.one_le_rpow (by linarith) (by linarith)
  have p1 : ((1 / 2 - x.rv + (gammaR : ℝ)) / Real.exp 1) ^ (1 / 2 - x.rv) ≤ 4356 := by
    calc ((1 / 2 - x.rv + (gammaR : ℝ)) / Real.exp 1) ^ (1 / 2 - x.rv) ≤ ((1 / 2 - x.rv + (gammaR : ℝ)) / Real.exp 1) ^ (2 : ℝ) :=
          Real.rpow_le_rpow_of_exponent_le (by linarith) (by linarith)
      _ = ((1 / 2 - x.rv + (gammaR : ℝ)) / Real.exp 1) ^ 2 := by rw [show (2 : ℝ) = ((2 : ℕ) : ℝ) by norm_num, Real.rpow_natCast]
      _ ≤ 66 ^ 2 := pow_le_pow_left₀ (by linarith) b3 2
      _ = _ := by norm_num
  generalize hS : Real.sin (Real.pi * x.rv) = S at *
  generalize hs1 : lanczosSum (1 - x.rv) = σ at *
  have hσ0 : 0 < σ := lt_of_lt_of_le (by norm_num) z1
  have k1 : 2 / 1100 * (4 / 10 ^ 9) ≤ |S * σ| := by rw [abs_mul, abs_of_pos hσ0]; gcongr
  have k2 : |S * σ| ≤ 1 * 30 := by rw [abs_mul, abs_of_pos hσ0]; exact mul_le_mul hsin2 z2 (by linarith) (by norm_num)
  have m1 := moderate (a := |S * σ|) (le_trans (by norm_num) k1) (k2.trans (by norm_num))
  rw [abs_abs] at m1
  have r1 := a2.mul hs m1.1 m1.2 (by norm_num) (by norm_num) (by norm_num) (by norm_num) (d := 69010) (by norm_num)
  have hc0 : (0 : ℝ) < (twoSqrtEOverPi : ℝ) := by rw [hc]; norm_num
  have k3 : 2 / 1100 * (4 / 10 ^ 9) * 1 ≤ |S * σ * (twoSqrtEOverPi : ℝ)| := by
    rw [abs_mul, abs_of_pos hc0, hc]; exact mul_le_mul k1 (by norm_num) (by norm_num) (abs_nonneg _)
  have k4 : |S * σ * (twoSqrtEOverPi : ℝ)| ≤ 1 * 30 * 2 := by
    rw [abs_mul, abs_of_pos hc0, hc]; exact mul_le_mul k2 (by norm_num) (by norm_num) (by norm_num)
  have m2 := moderate (a := |S * σ * (twoSqrtEOverPi : ℝ)|) (le_trans (by norm_num) k3) (k4.trans (by norm_num))
  rw [abs_abs] at m2
  have r2 := r1.mul const_rel m2.1 m2.2 (by norm_num) (by norm_num) (by norm_num) (by norm_num) (d := 69013) (by norm_num)
  generalize hpw : ((1 / 2 - x.rv + (gammaR : ℝ)) / Real.exp 1) ^ (1 / 2 - x.rv) = P at *
  have hP0 : 0 < P := by linarith
  have k5 : 2 / 1100 * (4 / 10 ^ 9) * 1 * 1 ≤ |S * σ * (twoSqrtEOverPi : ℝ) * P| := by
    rw [abs_mul _ P, abs_of_pos hP0]; exact mul_le_mul k3 p0 (by norm_num) (abs_nonneg _)
  have k6 : |S * σ * (twoSqrtEOverPi : ℝ) * P| ≤ 1 * 30 * 2 * 4356 := by
    rw [abs_mul _ P, abs_of_pos hP0]; exact mul_le_mul k4 p1 (by linarith) (by norm_num)
  have m3 := moderate (a := |S * σ * (twoSqrtEOverPi : ℝ) * P|) (le_trans (by norm_num) k5) (k6.trans (by norm_num))
  rw [abs_abs] at m3
  have r3 := r2.mul hp m3.1 m3.2 (by norm_num) (by norm_num) (by norm_num) (by norm_num) (d := 69030) (by norm_num)
  have hpos : 0 < |S * σ * (twoSqrtEOverPi : ℝ) * P| := lt_of_lt_of_le (by positivity) k5
  have m4 := moderate (a := |Real.pi / (S * σ * (twoSqrtEOverPi : ℝ) * P)|) (by
    rw [abs_div, le_div_iff₀ hpos, abs_of_pos Real.pi_pos]
    calc 1 / 2 ^ 200 * |S * σ * (twoSqrtEOverPi : ℝ) * P| ≤ 1 / 2 ^ 200 * (1 * 30 * 2 * 4356) := by gcongr
      _ ≤ 3 := by norm_num
      _ ≤ _ := by linarith) (by
    rw [abs_div, div_le_iff₀ hpos, abs_of_pos Real.pi_pos]
    calc Real.pi ≤ 4 := by linarith
      _ ≤ 2 ^ 200 * (2 / 1100 * (4 / 10 ^ 9) * 1 * 1) := by norm_num
      _ ≤ _ := by gcongr)
  rw [abs_abs] at m4
  have r4 := pi_rel.div r3 (abs_pos.1 hpos) m4.1 m4.2 (by norm_num) (by norm_num) (by norm_num) (by norm_num) (d := 82000) (by norm_num)
  have e1 : (gamma x : F64) = pi /ᶠ (FloatOps.sin (pi *ᶠ x) *ᶠ gammaSeries (fun i => ofNat i -ᶠ x) *ᶠ lit twoSqrtEOverPi *ᶠ
      FloatOps.pow ((lit 0.5 -ᶠ x +ᶠ lit gammaR) /ᶠ FloatOps.e) (lit 0.5 -ᶠ x)) := by
    unfold gamma
    rw [if_pos ((lt_half hx).2 (by linarith))]
  have e2 : gamma x.rv = Real.pi / (S * σ * (twoSqrtEOverPi : ℝ) * P) := by
    rw [gamma_left (by linarith), gamma_right (by linarith), ← hS, ← hs1, ← hpw]
    rw [show 1 - x.rv - 1 / 2 = 1 / 2 - x.rv by ring]
    ring_nf
  rw [e1, e2]
  exact r4

/-- the branch `0 < x < 1/2` -/
theorem gamma_left_rel (hL : AccurateTrig L) (hP : AccuratePow L) {x : F64} (hx : x.isFinite = true) (h1 : 1 / 2 ^ 100 ≤ x.rv) (h2 : x.rv < 1 / 2) :
    Rel (gamma x) (gamma x.rv) 82000 := by
  have hU := U_pos
  have hU1 : U ≤ 1 / 10 ^ 15 := U_le_eta
  have hxp : 0 < x.rv := lt_of_lt_of_le (by positivity) h1
  have hx0 : Near x x.rv 0 := ⟨hx, by simp⟩
  have hxr : Rel x x.rv 0 := ⟨hx, by simp⟩
  have hden : ∀ i : ℕ, 1 ≤ i → i ≤ 10 → Rel (ofNat i -ᶠ x : F64) (1 - x.rv + i - 1) 1 := by
    intro i hi1 hi2
    have c1 : (1 : ℝ) ≤ i := by exact_mod_cast hi1
    have c2 : (i : ℝ) ≤ 10 := by exact_mod_cast hi2
    have n1 := (ofNat_isNat (L := L) (m := i) (by omega)).rel.near
    rw [zero_mul, zero_mul] at n1
    have s1 := n1.sub hx0 (A := i - x.rv) (by rw [abs_of_pos (by linarith)]; linarith) (by linarith [show (200 : ℝ) ≤ 2 ^ 1023 by norm_num])
    rw [show 1 - x.rv + i - 1 = i - x.rv by ring]
    exact s1.rel (by rw [abs_of_pos (by linarith)]; linarith)
  have hs := series_near (L := L) (y := 1 - x.rv) (by linarith) (by linarith) (by norm_num) (by norm_num) hden
  have hh := (lit_half_rel (L := L)).near
  rw [zero_mul, zero_mul] at hh
  have hY : Near (lit 0.5 -ᶠ x : F64) (1 / 2 - x.rv) (U * (1 / 2 - x.rv)) := by
    have := hh.sub hx0 (A := 1 / 2 - x.rv) (by rw [abs_of_nonneg (by linarith)]; linarith) (by linarith [show (200 : ℝ) ≤ 2 ^ 1023 by norm_num])
    exact this.mono (by linarith)
  obtain ⟨b1, b2, b3⟩ := base_rel hY (by linarith) (by linarith)
  have hp := pow_rel (k := 0.5) (d := 7) hP b1 (hY.mono (by
    have : U * (1 / 2 - x.rv) ≤ U * 0.5 := mul_le_mul_of_nonneg_left (by linarith) hU.le
    linarith)) b2 b3 (by norm_num) (by norm_num) (by linarith) (by linarith) (by norm_num) (by norm_num) (by linarith)
  obtain ⟨z1, z2⟩ := sum_size (y := 1 - x.rv) (by linarith)
  have hc : (twoSqrtEOverPi : ℝ) = 1.8603827342052657 := by norm_num [twoSqrtEOverPi]
  have hp3 := Real.pi_gt_d2
  have hp4 := Real.pi_lt_d2
  -- sine
  have q1 : 1 / 2 ^ 100 ≤ Real.pi * x.rv := by nlinarith
  have q2 : Real.pi * x.rv ≤ 1.6 := by nlinarith
  have mA := moderate (a := Real.pi * x.rv) (le_trans (by norm_num) q1) (q2.trans (by norm_num))
  have a1 := pi_rel.mul hxr mA.1 mA.2 (by norm_num) le_rfl (by norm_num) (by norm_num) (d := 1.361) (by norm_num)
  have a2 := sin_rel hL a1 (by norm_num) (by norm_num) (le_trans (by norm_num) q1) q2
  have hsin1 : Real.pi * x.rv / 2 ≤ Real.sin (Real.pi * x.rv) := by
    have := Real.mul_le_sin (x := Real.pi * x.rv) (by positivity) (by nlinarith)
    refine le_trans ?_ this
    rw [div_mul_eq_mul_div, le_div_iff₀ (by positivity)]
    nlinarith
  have hsin2 := Real.sin_le_one (Real.pi * x.rv)
  have hsin0 : 1 / 2 ^ 101 ≤ Real.sin (Real.pi * x.rv) := le_trans (by
    rw [show (1 : ℝ) / 2 ^ 101 = 1 / 2 ^ 100 / 2 by norm_num]; gcongr) hsin1
  -- the product
  have p0 : 1 ≤ ((1 / 2 - x.rv + (gammaR : ℝ)) / Real.exp 1) ^ (1 / 2 - x.rv) := Real.one_le_rpow (by linarith) (by linarith)
  have p1 : ((1 / 2 - x.rv + (gammaR : ℝ)) / Real.exp 1) ^ (1 / 2 - x.rv) ≤ 66 := by
    calc ((1 / 2 - x.rv + (gammaR : ℝ)) / Real.exp 1) ^ (1 / 2 - x.rv) ≤ ((1 / 2 - x.rv + (gammaR : ℝ)) / Real.exp 1) ^ (1 : ℝ) :=
          Real.rpow_le_rpow_of_exponent_le (by linarith) (by linarith)
      _ ≤ 66 := by rw [Real.rpow_one]; exact b3
  generalize hS : Real.sin (Real.pi * x.rv) = S at *
  generalize hs1 : lanczosSum (1 - x.rv) = σ at *
  have k1 : 1 / 2 ^ 101 * (4 / 10 ^ 9) ≤ S * σ := by gcongr
  have k2 : S * σ ≤ 1 * 30 := mul_le_mul hsin2 z2 (by linarith) (by norm_num)
  have m1 := moderate (a := S * σ) (le_trans (by norm_num) k1) (k2.trans (by norm_num))
  have r1 := a2.mul hs m1.1 m1.2 (by norm_num) (by norm_num) (by norm_num) (by norm_num) (d := 65510) (by norm_num)
  have k3 : 1 / 2 ^ 101 * (4 / 10 ^ 9) * 1 ≤ S * σ * (twoSqrtEOverPi : ℝ) := by
    rw [hc]; exact mul_le_mul k1 (by norm_num) (by norm_num) (le_trans (by positivity) k1)
  have k4 : S * σ * (twoSqrtEOverPi : ℝ) ≤ 1 * 30 * 2 := by
    rw [hc]; exact mul_le_mul k2 (by norm_num) (by norm_num) (by norm_num)
  have m2 := moderate (a := S * σ * (twoSqrtEOverPi : ℝ)) (le_trans (by norm_num) k3) (k4.trans (by norm_num))
  have r2 := r1.mul const_rel m2.1 m2.2 (by norm_num) (by norm_num) (by norm_num) (by norm_num) (d := 65513) (by norm_num)
  generalize hpw : ((1 / 2 - x.rv + (gammaR : ℝ)) / Real.exp 1) ^ (1 / 2 - x.rv) = P at *
  have k5 : 1 / 2 ^ 101 * (4 / 10 ^ 9) * 1 * 1 ≤ S * σ * (twoSqrtEOverPi : ℝ) * P := mul_le_mul k3 p0 (by norm_num) (le_trans (by positivity) k3)
  have k6 : S * σ * (twoSqrtEOverPi : ℝ) * P ≤ 1 * 30 * 2 * 66 := mul_le_mul k4 p1 (by linarith) (by norm_num)
  have m3 := moderate (a := S * σ * (twoSqrtEOverPi : ℝ) * P) (le_trans (by norm_num) k5) (k6.trans (by norm_num))
  have r3 := r2.mul hp m3.1 m3.2 (by norm_num) (by norm_num) (by norm_num) (by norm_num) (d := 65522) (by norm_num)
  have hpos : 0 < S * σ * (twoSqrtEOverPi : ℝ) * P := lt_of_lt_of_le (by positivity) k5
  have m4 := moderate (a := Real.pi / (S * σ * (twoSqrtEOverPi : ℝ) * P)) (by
    rw [le_div_iff₀ hpos]
    calc 1 / 2 ^ 200 * (S * σ * (twoSqrtEOverPi : ℝ) * P) ≤ 1 / 2 ^ 200 * (1 * 30 * 2 * 66) := by gcongr
      _ ≤ 3 := by norm_num
      _ ≤ _ := by linarith) (by
    rw [div_le_iff₀ hpos]
    calc Real.pi ≤ 4 := by linarith
      _ ≤ 2 ^ 200 * (1 / 2 ^ 101 * (4 / 10 ^ 9) * 1 * 1) := by norm_num
      _ ≤ _ := by gcongr)
  have r4 := pi_rel.div r3 hpos.ne' m4.1 m4.2 (by norm_num) (by norm_num) (by norm_num) (by norm_num) (d := 82000) (by norm_num)
  have e1 : (gamma x : F64) = pi /ᶠ (FloatOps.sin (pi *ᶠ x) *ᶠ gammaSeries (fun i => ofNat i -ᶠ x) *ᶠ lit twoSqrtEOverPi *ᶠ
      FloatOps.pow ((lit 0.5 -ᶠ x +ᶠ lit gammaR) /ᶠ FloatOps.e) (lit 0.5 -ᶠ x)) := by
    unfold gamma
    rw [if_pos ((lt_half hx).2 h2)]
  have e2 : gamma x.rv = Real.pi / (S * σ * (twoSqrtEOverPi : ℝ) * P) := by
    rw [gamma_left h2, gamma_right (by linarith), ← hS, ← hs1, ← hpw]
    rw [show 1 - x.rv - 1 / 2 = 1 / 2 - x.rv by ring]
    ring_nf
  rw [e1, e2]
  exact r4

end

end GaussQuad.F64
