import Verif.Proofs.F64Sum
import Verif.Proofs.F64Core
import Verif.Spec.Gauss

/-! Error of the shared tail of the Gauss rules' `integrate` in binary64: transformation of the argument, weighted sum, scaling. -/

set_option exponentiation.threshold 3000

namespace GaussQuad.F64
open FloatOps Props Spec

theorem near_self {x : F64} (h : x.isFinite = true) : Near x x.rv 0 := ⟨h, by simp⟩

theorem U_le : U ≤ 0.0000001 := by unfold U; norm_num

section
variable [Libm]

set_option maxHeartbeats 1000000 in
/-- `argument_transformation` -/
theorem argT_near {a b x : F64} {B X δ : ℝ} (ha : a.isFinite = true) (hb : b.isFinite = true) (haB : |a.rv| ≤ B) (hbB : |b.rv| ≤ B) (hB : B ≤ 2 ^ 400)
    (hx : Near x X δ) (hX : |X| ≤ 1) (hδ : δ ≤ 0.001) :
    Near (lit 0.5 *ᶠ ((b -ᶠ a) *ᶠ x +ᶠ (b +ᶠ a)) : F64) ((b.rv - a.rv) / 2 * X + (a.rv + b.rv) / 2) (B * (1.01 * δ + 6 * U) + 1 / 2 ^ 1000) := by
  have hU := U_pos
  have hU7 := U_le
  have hB0 : 0 ≤ B := (abs_nonneg _).trans haB
  have hδ0 : 0 ≤ δ := (abs_nonneg _).trans hx.2
  have a1 := _root_.abs_le.1 haB
  have b1 := _root_.abs_le.1 hbB
  have x1 := _root_.abs_le.1 hX
  have hBU : 0 ≤ B * U := by positivity
  have hBU7 : B * U ≤ B * 0.0000001 := mul_le_mul_of_nonneg_left hU7 hB0
  have hBδ : B * δ ≤ B * 0.001 := mul_le_mul_of_nonneg_left hδ hB0
  have hBδ0 : 0 ≤ B * δ := by positivity
  have hUδ : B * U * δ ≤ B * U * 0.001 := mul_le_mul_of_nonneg_left hδ hBU
  have hbig : (2 : ℝ) ^ 400 * 10 ≤ 2 ^ 1023 := by norm_num
  have hbig1 : (1 : ℝ) ≤ 2 ^ 1023 := by norm_num
  have s1 : Near (F64.sub b a) (b.rv - a.rv) (0 + 0 + U * (2 * B)) := (near_self hb).sub (near_self ha) (by
    have : |b.rv - a.rv| ≤ 2 * B := by rw [_root_.abs_le]; constructor <;> linarith
    linarith) (by linarith)
  have s2 : Near (F64.add b a) (b.rv + a.rv) (0 + 0 + U * (2 * B)) := (near_self hb).add (near_self ha) (by
    have : |b.rv + a.rv| ≤ 2 * B := by rw [_root_.abs_le]; constructor <;> linarith
    linarith) (by linarith)
  have s3 := s1.mul hx (A := 2.001 * B) (B := 1.001) (by
    have : |b.rv - a.rv| ≤ 2 * B := by rw [_root_.abs_le]; constructor <;> linarith
    linarith) (by linarith) (by linarith)
  have ht : (1 : ℝ) / 2 ^ 1075 ≤ 1 := by norm_num
  have ht0 : (0 : ℝ) ≤ 1 / 2 ^ 1075 := by positivity
  have hz : |(b.rv - a.rv) * X + (b.rv + a.rv)| ≤ 2 * B := by
    have e : (b.rv - a.rv) * X + (b.rv + a.rv) = b.rv * (1 + X) + a.rv * (1 - X) := by ring
    rw [e, _root_.abs_le]
    constructor
    · have := mul_le_mul_of_nonneg_right b1.1 (by linarith : 0 ≤ 1 + X)
      have := mul_le_mul_of_nonneg_right a1.1 (by linarith : 0 ≤ 1 - X)
      linarith
    · have := mul_le_mul_of_nonneg_right b1.2 (by linarith : 0 ≤ 1 + X)
      have := mul_le_mul_of_nonneg_right a1.2 (by linarith : 0 ≤ 1 - X)
      linarith
  have s4 := s3.add s2 (A := 2.01 * B + 1 / 2 ^ 1075) (by linarith) (by linarith)
  have s5 := (lit_half_rel (L := ‹Libm›)).near.mul s4 (A := 1 / 2) (B := 2.02 * B + 2 * (1 / 2 ^ 1075)) (by
      rw [abs_of_pos (by norm_num)]; norm_num) (by
      have : U * (1 / 2 ^ 1075) ≤ 1 * (1 / 2 ^ 1075) := mul_le_mul_of_nonneg_right (by linarith) ht0
      linarith) (by linarith)
  have e : 1 / 2 * ((b.rv - a.rv) * X + (b.rv + a.rv)) = (b.rv - a.rv) / 2 * X + (a.rv + b.rv) / 2 := by ring
  rw [e] at s5
  refine s5.mono ?_
  have hUt : U * (1 / 2 ^ 1075) ≤ 1 * (1 / 2 ^ 1075) := mul_le_mul_of_nonneg_right (by linarith) ht0
  have h4 : 4 * ((1 : ℝ) / 2 ^ 1075) ≤ 1 / 2 ^ 1000 := by norm_num
  linarith

/-- `scale_factor` -/
theorem scale_near {a b : F64} {D : ℝ} (ha : a.isFinite = true) (hb : b.isFinite = true) (hD : |b.rv - a.rv| ≤ D) (hDb : D ≤ 2 ^ 500) :
    Near (lit 0.5 *ᶠ (b -ᶠ a) : F64) ((b.rv - a.rv) / 2) (1.01 * (U * D) + 1 / 2 ^ 1075) := by
  have hU := U_pos
  have hU7 := U_le
  have hD0 : 0 ≤ D := (abs_nonneg _).trans hD
  have hbig : (2 : ℝ) ^ 500 * 10 ≤ 2 ^ 1023 := by norm_num
  have hUD : 0 ≤ U * D := by positivity
  have hUD7 : U * D ≤ 0.0000001 * D := mul_le_mul_of_nonneg_right hU7 hD0
  have s1 : Near (F64.sub b a) (b.rv - a.rv) (0 + 0 + U * D) := (near_self hb).sub (near_self ha) (by linarith) (by linarith)
  have s2 := (lit_half_rel (L := ‹Libm›)).near.mul s1 (A := 1 / 2) (B := 1.001 * D) (by rw [abs_of_pos (by norm_num)]; norm_num) (by linarith) (by linarith)
  rw [show 1 / 2 * (b.rv - a.rv) = (b.rv - a.rv) / 2 by ring] at s2
  refine s2.mono ?_
  linarith

end

/-- error of one product `f(x) * w` -/
noncomputable def termErr (K κ : ℝ) (σ : ℝ × ℝ → ℝ) (q : ℝ × ℝ) : ℝ := K * σ q + (κ + U * K) * (|q.2| + σ q) + 1 / 2 ^ 1075

theorem termErr_nonneg {K κ : ℝ} {σ : ℝ × ℝ → ℝ} (hK : 0 ≤ K) (hκ : 0 ≤ κ) (hσ : ∀ q, 0 ≤ σ q) (q : ℝ × ℝ) : 0 ≤ termErr K κ σ q := by
  have := hσ q; have := U_pos; unfold termErr; positivity

theorem sum_termErr (K κ : ℝ) (σ : ℝ × ℝ → ℝ) (G : List (ℝ × ℝ)) : (G.map (termErr K κ σ)).sum =
    K * (G.map σ).sum + (κ + U * K) * ((G.map fun q => |q.2|).sum + (G.map σ).sum) + G.length * (1 / 2 ^ 1075) := by
  induction G with
  | nil => simp
  | cons q G ih => simp only [List.map_cons, List.sum_cons, List.length_cons, ih, termErr]; push_cast; ring

theorem term_near {y w : F64} {Y K κ M : ℝ} {σ : ℝ × ℝ → ℝ} {q : ℝ × ℝ} (hy : Near y Y κ) (hw : Near w q.2 (σ q)) (hM : |Y| ≤ M) (hK : M + κ ≤ K)
    (hb : K * (|q.2| + σ q) ≤ 2 ^ 1023) : Near (F64.mul y w) (Y * q.2) (termErr K κ σ q) := by
  refine (hy.mul hw (A := K) (B := |q.2| + σ q) (by linarith) le_rfl hb).mono (le_of_eq ?_)
  unfold termErr; ring

/-- sizes of a perturbed rule: `W` the total weight, `S` the total error of the weights -/
structure RuleSizes (G : List (ℝ × ℝ)) (σ : ℝ × ℝ → ℝ) (W S : ℝ) : Prop where
  sum : (G.map fun q => |q.2|).sum ≤ W
  err : (G.map σ).sum ≤ S
  nonneg : ∀ q, 0 ≤ σ q
  small : S ≤ 0.001 * W
  le : W ≤ 2 ^ 10

theorem abs_sum_le (G : List (ℝ × ℝ)) (Y : ℝ → ℝ) {M : ℝ} (hM : ∀ q ∈ G, |Y q.1| ≤ M) :
    (G.map fun q => |Y q.1 * q.2|).sum ≤ M * (G.map fun q => |q.2|).sum := by
  rw [← List.sum_map_mul_left]
  refine List.sum_le_sum fun q hq => ?_
  rw [abs_mul]
  exact mul_le_mul_of_nonneg_right (hM q hq) (abs_nonneg _)

variable {G : List (ℝ × ℝ)} {σ : ℝ × ℝ → ℝ} {W S M κ K : ℝ} {Y : ℝ → ℝ}

theorem mass_le (hs : RuleSizes G σ W S) (hκ : 0 ≤ κ) (hM0 : 0 ≤ M) (hM : ∀ q ∈ G, |Y q.1| ≤ M) (hK : M + κ ≤ K) (hn : G.length ≤ 10 ^ 12) :
    (G.map (termErr K κ σ)).sum ≤ K * S + (κ + U * K) * (W + S) + 1 / 2 ^ 1010 ∧
    (G.map fun q => |Y q.1 * q.2| + termErr K κ σ q).sum ≤ 1.003 * (K * W) + 1 / 2 ^ 1010 := by
  have hU := U_pos
  have hU7 := U_le
  have hK0 : 0 ≤ K := by linarith
  have hW0 : 0 ≤ W := le_trans (List.sum_nonneg (by intro z hz; obtain ⟨w, -, rfl⟩ := List.mem_map.1 hz; exact abs_nonneg _)) hs.sum
  have h1 : (G.map (termErr K κ σ)).sum ≤ K * S + (κ + U * K) * (W + S) + 1 / 2 ^ 1010 := by
    rw [sum_termErr]
    have t1 := mul_le_mul_of_nonneg_left hs.err hK0
    have t2 := mul_le_mul_of_nonneg_left (add_le_add hs.sum hs.err) (by positivity : 0 ≤ κ + U * K)
    have t3 : (G.length : ℝ) * (1 / 2 ^ 1075) ≤ 1 / 2 ^ 1010 := by
      have : (G.length : ℝ) ≤ 10 ^ 12 := by exact_mod_cast hn
      calc (G.length : ℝ) * (1 / 2 ^ 1075) ≤ 10 ^ 12 * (1 / 2 ^ 1075) := mul_le_mul_of_nonneg_right this (by positivity)
        _ ≤ _ := by norm_num
    linarith
  refine ⟨h1, ?_⟩
  have e : (G.map fun q => |Y q.1 * q.2| + termErr K κ σ q).sum = (G.map fun q => |Y q.1 * q.2|).sum + (G.map (termErr K κ σ)).sum := by
    rw [← List.sum_map_add]
  rw [e]
  have h2 := (abs_sum_le G Y hM).trans (mul_le_mul_of_nonneg_left hs.sum hM0)
  have h3 := mul_le_mul_of_nonneg_left hs.small hK0
  have h4 : (κ + U * K) * (W + S) ≤ (κ + U * K) * (1.001 * W) := mul_le_mul_of_nonneg_left (by linarith [hs.small]) (by positivity)
  have h5 : U * K * W ≤ 0.0000001 * K * W := by gcongr
  have h6 : (M + κ) * W ≤ K * W := mul_le_mul_of_nonneg_right hK hW0
  have h7 : 0 ≤ M * W := by positivity
  have h8 : 0 ≤ K * W := by positivity
  linarith

/-- error of the weighted sum `x` computed with `d` roundings on any path -/
theorem weighted_near {d : ℕ} {x : F64} (hs : RuleSizes G σ W S) (hκ : 0 ≤ κ) (hM0 : 0 ≤ M) (hM : ∀ q ∈ G, |Y q.1| ≤ M) (hK : M + κ ≤ K)
    (hKb : K ≤ 2 ^ 400) (hn : G.length ≤ 10 ^ 12) (hd : d ≤ 10 ^ 12)
    (hx : Sum d x (G.map fun q => Y q.1 * q.2).sum (G.map (termErr K κ σ)).sum (G.map fun q => |Y q.1 * q.2| + termErr K κ σ q).sum) :
    Near x (G.map fun q => Y q.1 * q.2).sum (1.002 * (κ * W) + 1.001 * (K * S) + (1.005 * d + 1.01) * (U * (K * W)) + 1 / 2 ^ 1000) := by
  have hU := U_pos
  have hK0 : 0 ≤ K := by linarith
  have hW0 : 0 ≤ W := le_trans (List.sum_nonneg (by intro z hz; obtain ⟨w, -, rfl⟩ := List.mem_map.1 hz; exact abs_nonneg _)) hs.sum
  obtain ⟨h1, h2⟩ := mass_le hs hκ hM0 hM hK hn
  refine hx.1.mono ?_
  have hd' : (d : ℝ) ≤ 10 ^ 12 := by exact_mod_cast hd
  have h3 : (d : ℝ) * (1.001 * U * (G.map fun q => |Y q.1 * q.2| + termErr K κ σ q).sum) ≤ d * (1.001 * U * (1.003 * (K * W) + 1 / 2 ^ 1010)) :=
    mul_le_mul_of_nonneg_left (mul_le_mul_of_nonneg_left h2 (by positivity)) (by positivity)
  have h4 : (d : ℝ) * (1.001 * U * (1 / 2 ^ 1010)) ≤ 1 / 2 ^ 1010 := by
    calc (d : ℝ) * (1.001 * U * (1 / 2 ^ 1010)) ≤ 10 ^ 12 * (1.001 * U * (1 / 2 ^ 1010)) := mul_le_mul_of_nonneg_right hd' (by positivity)
      _ = (10 ^ 12 * (1.001 * U)) * (1 / 2 ^ 1010) := by ring
      _ ≤ 1 * (1 / 2 ^ 1010) := mul_le_mul_of_nonneg_right (by unfold U; norm_num) (by positivity)
      _ = _ := one_mul _
  have h5 : (κ + U * K) * (W + S) ≤ (κ + U * K) * (1.001 * W) := mul_le_mul_of_nonneg_left (by linarith [hs.small]) (by positivity)
  have h6 : 0 ≤ κ * W := by positivity
  have h7 : 0 ≤ (d : ℝ) * (U * (K * W)) := by positivity
  have h8 : 0 ≤ U * (K * W) := by positivity
  have h9 : 2 * ((1 : ℝ) / 2 ^ 1010) ≤ 1 / 2 ^ 1000 := by norm_num
  have hS : 0 ≤ S := le_trans (List.sum_nonneg (by intro z hz; obtain ⟨w, -, rfl⟩ := List.mem_map.1 hz; exact hs.nonneg _)) hs.err
  have h10 : 0 ≤ K * S := by positivity
  have e : (d : ℝ) * (1.001 * U * (1.003 * (K * W) + 1 / 2 ^ 1010)) = 1.004003 * (d * (U * (K * W))) + d * (1.001 * U * (1 / 2 ^ 1010)) := by ring
  rw [e] at h3
  linarith

set_option maxHeartbeats 1000000 in
/-- error of the scaled sum -/
theorem scaled_near [Libm] {d : ℕ} {a b x : F64} {D Q : ℝ} (ha : a.isFinite = true) (hb : b.isFinite = true) (hD : |b.rv - a.rv| = D) (hDb : D ≤ 2 ^ 401)
    (hκ : 0 ≤ κ) (hM0 : 0 ≤ M) (hK : M + κ ≤ K) (hKb : K ≤ 2 ^ 400) (hd : d ≤ 10 ^ 12) (hW0 : 0 ≤ W) (hWb : W ≤ 2 ^ 10) (hS0 : 0 ≤ S) (hS : S ≤ 0.001 * W)
    (hQ : |Q| ≤ M * W)
    (hx : Near x Q (1.002 * (κ * W) + 1.001 * (K * S) + (1.005 * d + 1.01) * (U * (K * W)) + 1 / 2 ^ 1000)) :
    Near (F64.mul (lit 0.5 *ᶠ (b -ᶠ a) : F64) x) ((b.rv - a.rv) / 2 * Q)
      (D * (0.503 * (κ * W) + 0.51 * (K * S) + (0.51 * d + 2.1) * (U * (K * W))) + 1 / 2 ^ 500) := by
  have hU := U_pos
  have hU7 := U_le
  have hK0 : 0 ≤ K := by linarith
  have hD0 : 0 ≤ D := by rw [← hD]; exact abs_nonneg _
  have s1 := scale_near ha hb hD.le (by linarith [show (2 : ℝ) ^ 401 ≤ 2 ^ 500 by norm_num])
  have hT0 : 0 ≤ K * W := by positivity
  have hTb : K * W ≤ 2 ^ 410 := by
    calc K * W ≤ 2 ^ 400 * 2 ^ 10 := by gcongr
      _ = _ := by norm_num
  have hd' : (d : ℝ) ≤ 10 ^ 12 := by exact_mod_cast hd
  have hdU : (d : ℝ) * U ≤ 0.00012 := by
    calc (d : ℝ) * U ≤ 10 ^ 12 * U := by gcongr
      _ ≤ _ := by unfold U; norm_num
  have hdT : (1.005 * d + 1.01) * (U * (K * W)) ≤ 0.00013 * (K * W) := by
    have : (1.005 * d + 1.01) * (U * (K * W)) = (1.005 * (d * U) + 1.01 * U) * (K * W) := by ring
    rw [this]
    exact mul_le_mul_of_nonneg_right (by linarith) hT0
  have hdT0 : 0 ≤ (1.005 * d + 1.01) * (U * (K * W)) := by positivity
  have hKS := mul_le_mul_of_nonneg_left hS hK0
  have hKS0 : 0 ≤ K * S := by positivity
  have hκW : 0 ≤ κ * W := by positivity
  have hMW : 0 ≤ M * W := by positivity
  have hMκ : (M + κ) * W ≤ K * W := mul_le_mul_of_nonneg_right hK hW0
  set R := 1.002 * (κ * W) + 1.001 * (K * S) + (1.005 * d + 1.01) * (U * (K * W)) + 1 / 2 ^ 1000 with hR
  set T := K * W with hT
  have htiny : (0 : ℝ) ≤ 1 / 2 ^ 1000 := by positivity
  have hR0 : 0 ≤ R := by linarith
  have hRT : M * W + R ≤ 1.01 * T + 1 / 2 ^ 1000 := by rw [hR]; linarith
  have hUD7 : U * D ≤ 0.0000001 * D := mul_le_mul_of_nonneg_right hU7 hD0
  have hUD : 0 ≤ U * D := by positivity
  have s2 := s1.mul hx (A := 0.501 * D + 1 / 2 ^ 1075) (B := 1.01 * T + 1 / 2 ^ 1000) (by
      rw [abs_div, hD, abs_of_pos (by norm_num : (0 : ℝ) < 2)]; linarith) (by linarith) (by
      calc (0.501 * D + 1 / 2 ^ 1075) * (1.01 * T + 1 / 2 ^ 1000) ≤ (0.501 * 2 ^ 401 + 1 / 2 ^ 1075) * (1.01 * 2 ^ 410 + 1 / 2 ^ 1000) := by gcongr
        _ ≤ _ := by norm_num)
  refine s2.mono ?_
  have hUDT : 0 ≤ U * D * T := by positivity
  have t1 : (1 : ℝ) / 2 ^ 1075 * R ≤ 1 / 2 ^ 1075 * (1.01 * 2 ^ 410 + 1 / 2 ^ 1000) := mul_le_mul_of_nonneg_left (by linarith) (by positivity)
  have t2 : U * D * (1 / 2 ^ 1000) ≤ 0.0000001 * 2 ^ 401 * (1 / 2 ^ 1000) := mul_le_mul_of_nonneg_right (by linarith) htiny
  have t3 : (1 : ℝ) / 2 ^ 1075 * (1.01 * T + 1 / 2 ^ 1000) ≤ 1 / 2 ^ 1075 * (1.01 * 2 ^ 410 + 1 / 2 ^ 1000) := mul_le_mul_of_nonneg_left (by linarith) (by positivity)
  have t4 : U * (1 / 2 ^ 1075 * (1.01 * T + 1 / 2 ^ 1000)) ≤ 1 * (1 / 2 ^ 1075 * (1.01 * 2 ^ 410 + 1 / 2 ^ 1000)) :=
    mul_le_mul (by linarith) t3 (by positivity) (by norm_num)
  have t5 : D * (1 / 2 ^ 1000) ≤ 2 ^ 401 * (1 / 2 ^ 1000) := mul_le_mul_of_nonneg_right hDb htiny
  have hnum : 3 * ((1 : ℝ) / 2 ^ 1075 * (1.01 * 2 ^ 410 + 1 / 2 ^ 1000)) + 2 * (0.0000001 * 2 ^ 401 * (1 / 2 ^ 1000)) + 2 ^ 401 * (1 / 2 ^ 1000) + 1 / 2 ^ 1075 ≤ 1 / 2 ^ 500 := by
    norm_num
  have t6 : 0 ≤ D * (κ * W) := mul_nonneg hD0 hκW
  have t7 : 0 ≤ D * (K * S) := mul_nonneg hD0 hKS0
  have t8 : 0 ≤ d * (U * D * T) := mul_nonneg (Nat.cast_nonneg d) hUDT
  have e1 : (0.501 * D + 1 / 2 ^ 1075) * R + (1.01 * (U * D) + 1 / 2 ^ 1075) * (1.01 * T + 1 / 2 ^ 1000) +
      U * ((0.501 * D + 1 / 2 ^ 1075) * (1.01 * T + 1 / 2 ^ 1000)) + 1 / 2 ^ 1075 =
      0.501 * (1.002 * (D * (κ * W)) + 1.001 * (D * (K * S)) + 1.005 * (d * (U * D * T)) + 1.01 * (U * D * T) + D * (1 / 2 ^ 1000)) + 1 / 2 ^ 1075 * R +
      (1.01 * 1.01 * (U * D * T) + 1.01 * (U * D * (1 / 2 ^ 1000)) + 1 / 2 ^ 1075 * (1.01 * T + 1 / 2 ^ 1000)) +
      (0.501 * 1.01 * (U * D * T) + 0.501 * (U * D * (1 / 2 ^ 1000)) + U * (1 / 2 ^ 1075 * (1.01 * T + 1 / 2 ^ 1000))) + 1 / 2 ^ 1075 := by
    rw [hR]; ring
  have e2 : D * (0.503 * (κ * W) + 0.51 * (K * S) + (0.51 * d + 2.1) * (U * T)) =
      0.503 * (D * (κ * W)) + 0.51 * (D * (K * S)) + 0.51 * (d * (U * D * T)) + 2.1 * (U * D * T) := by ring
  have t9 : 0 ≤ D * (1 / 2 ^ 1000) := mul_nonneg hD0 htiny
  have t10 : 0 ≤ U * D * (1 / 2 ^ 1000) := mul_nonneg hUD htiny
  rw [e1, e2]
  clear_value R T
  linarith

end GaussQuad.F64
