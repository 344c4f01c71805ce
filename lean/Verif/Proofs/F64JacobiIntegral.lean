import Verif.Proofs.F64JacobiRule
import Verif.Proofs.GaussConvergence

/-! Integration with the binary64 Jacobi rule: the change of variables and the scale factor. -/

set_option exponentiation.threshold 3000

namespace GaussQuad.F64
open FloatOps Spec Polynomial Props

section
variable [L : Libm]

/-- `argument_transformation` slightly outside the reference interval -/
theorem argT_near' {a b x : F64} {B : ℝ} (ha : a.isFinite = true) (hb : b.isFinite = true) (haB : |a.rv| ≤ B) (hbB : |b.rv| ≤ B) (hB : B ≤ 2 ^ 400)
    (hx : x.isFinite = true) (hX : |x.rv| ≤ 1.001) :
    Near (lit 0.5 *ᶠ ((b -ᶠ a) *ᶠ x +ᶠ (b +ᶠ a)) : F64) ((b.rv - a.rv) / 2 * x.rv + (a.rv + b.rv) / 2) (6 * (U * B) + 1 / 2 ^ 1000) := by
  have hU := U_pos
  have hU7 := U_le
  have hB0 : 0 ≤ B := (abs_nonneg _).trans haB
  have a1 := _root_.abs_le.1 haB
  have b1 := _root_.abs_le.1 hbB
  have x1 := _root_.abs_le.1 hX
  have hBU : 0 ≤ B * U := by positivity
  have hBU7 : B * U ≤ B * 0.0000001 := mul_le_mul_of_nonneg_left hU7 hB0
  have hbig : (2 : ℝ) ^ 400 * 10 ≤ 2 ^ 1023 := by norm_num
  have hbig1 : (1 : ℝ) ≤ 2 ^ 1023 := by norm_num
  have s1 : Near (F64.sub b a) (b.rv - a.rv) (0 + 0 + U * (2 * B)) := (near_self hb).sub (near_self ha) (by
    have : |b.rv - a.rv| ≤ 2 * B := by rw [_root_.abs_le]; constructor <;> linarith
    linarith) (by linarith)
  have s2 : Near (F64.add b a) (b.rv + a.rv) (0 + 0 + U * (2 * B)) := (near_self hb).add (near_self ha) (by
    have : |b.rv + a.rv| ≤ 2 * B := by rw [_root_.abs_le]; constructor <;> linarith
    linarith) (by linarith)
  have s3 := s1.mul (near_self hx) (A := 2.001 * B) (B := 1.001) (by
    have : |b.rv - a.rv| ≤ 2 * B := by rw [_root_.abs_le]; constructor <;> linarith
    linarith) (by linarith) (by linarith)
  have ht : (1 : ℝ) / 2 ^ 1075 ≤ 1 := by norm_num
  have ht0 : (0 : ℝ) ≤ 1 / 2 ^ 1075 := by positivity
  have hz : |(b.rv - a.rv) * x.rv + (b.rv + a.rv)| ≤ 2.005 * B := by
    have e : (b.rv - a.rv) * x.rv + (b.rv + a.rv) = b.rv * (1.001 + x.rv) + a.rv * (1.001 - x.rv) - 0.001 * (a.rv + b.rv) := by ring
    rw [e, _root_.abs_le]
    constructor
    · have := mul_le_mul_of_nonneg_right b1.1 (by linarith : 0 ≤ 1.001 + x.rv)
      have := mul_le_mul_of_nonneg_right a1.1 (by linarith : 0 ≤ 1.001 - x.rv)
      linarith
    · have := mul_le_mul_of_nonneg_right b1.2 (by linarith : 0 ≤ 1.001 + x.rv)
      have := mul_le_mul_of_nonneg_right a1.2 (by linarith : 0 ≤ 1.001 - x.rv)
      linarith
  have s4 := s3.add s2 (A := 2.01 * B + 1 / 2 ^ 1075) (by linarith) (by linarith)
  have s5 := (lit_half_rel (L := ‹Libm›)).near.mul s4 (A := 1 / 2) (B := 2.02 * B + 2 * (1 / 2 ^ 1075)) (by
      rw [abs_of_pos (by norm_num)]; norm_num) (by
      have : U * (1 / 2 ^ 1075) ≤ 1 * (1 / 2 ^ 1075) := mul_le_mul_of_nonneg_right (by linarith) ht0
      linarith) (by linarith)
  have e : 1 / 2 * ((b.rv - a.rv) * x.rv + (b.rv + a.rv)) = (b.rv - a.rv) / 2 * x.rv + (a.rv + b.rv) / 2 := by ring
  rw [e] at s5
  refine s5.mono ?_
  have hUt : U * (1 / 2 ^ 1075) ≤ 1 * (1 / 2 ^ 1075) := mul_le_mul_of_nonneg_right (by linarith) ht0
  have h4 : 4 * ((1 : ℝ) / 2 ^ 1075) ≤ 1 / 2 ^ 1000 := by norm_num
  linarith

/-- the composite of the integrand and the change of variables -/
theorem computes_argT {a b : F64} {B : ℝ} (ha : a.isFinite = true) (hb : b.isFinite = true) (haB : |a.rv| ≤ B) (hbB : |b.rv| ≤ B) (hB : B ≤ 2 ^ 400)
    {f : F64 → F64} {g : ℝ → ℝ} {lo hi M Λ κ η : ℝ} (hΛ : 0 ≤ Λ) (hη0 : 0 ≤ η) (hη : η ≤ 0.001)
    (hlo : ∀ t, |t| ≤ 1 + η → lo + (6 * (U * B) + 1 / 2 ^ 1000) ≤ (b.rv - a.rv) / 2 * t + (a.rv + b.rv) / 2 ∧
      (b.rv - a.rv) / 2 * t + (a.rv + b.rv) / 2 + (6 * (U * B) + 1 / 2 ^ 1000) ≤ hi)
    (hf : Computes f g (Set.Icc lo hi) M Λ κ) :
    Computes (fun x => f (GaussJacobi.argumentTransformation x a b)) (fun t => g ((b.rv - a.rv) / 2 * t + (a.rv + b.rv) / 2)) (Set.Icc (-(1 + η)) (1 + η)) M
      (Λ * (|b.rv - a.rv| / 2)) (κ + Λ * (6 * (U * B) + 1 / 2 ^ 1000)) := by
  have hB0 : 0 ≤ B := (abs_nonneg _).trans haB
  have hU := U_pos
  obtain ⟨τ, hτ⟩ : ∃ τ, τ = 6 * (U * B) + 1 / 2 ^ 1000 := ⟨_, rfl⟩
  have hτ0 : 0 ≤ τ := by rw [hτ]; positivity
  have key := fun {x : F64} hx hX => argT_near' (x := x) ha hb haB hbB hB hx hX
  rw [← hτ] at hlo key ⊢
  have hmem : ∀ t ∈ Set.Icc (-(1 + η)) (1 + η), (b.rv - a.rv) / 2 * t + (a.rv + b.rv) / 2 ∈ Set.Icc lo hi := fun t ht => by
    have := hlo t (_root_.abs_le.2 ht)
    exact ⟨by linarith [this.1], by linarith [this.2]⟩
  refine ⟨fun t ht => hf.bound _ (hmem t ht), fun s hs t ht => ?_, fun y hy hI => ?_⟩
  · refine (hf.lipschitz _ (hmem s hs) _ (hmem t ht)).trans (le_of_eq ?_)
    rw [show (b.rv - a.rv) / 2 * s + (a.rv + b.rv) / 2 - ((b.rv - a.rv) / 2 * t + (a.rv + b.rv) / 2) = (b.rv - a.rv) / 2 * (s - t) by ring, abs_mul, abs_div,
      abs_of_pos (by norm_num : (0 : ℝ) < 2)]
    ring
  · have hn : Near (GaussJacobi.argumentTransformation y a b) ((b.rv - a.rv) / 2 * y.rv + (a.rv + b.rv) / 2) τ :=
      key hy ((_root_.abs_le.2 hI).trans (by linarith))
    have h1 := hlo y.val (_root_.abs_le.2 hI)
    have h2 := _root_.abs_le.1 hn.2
    have hmy : ((GaussJacobi.argumentTransformation y a b).val : ℝ) ∈ Set.Icc lo hi := by
      refine ⟨?_, ?_⟩
      · have := h1.1
        have h3 := h2.1
        change lo ≤ (GaussJacobi.argumentTransformation y a b).rv
        change _ ≤ (b.rv - a.rv) / 2 * y.rv + (a.rv + b.rv) / 2 at this
        linarith
      · have := h1.2
        have h3 := h2.2
        change (GaussJacobi.argumentTransformation y a b).rv ≤ hi
        change (b.rv - a.rv) / 2 * y.rv + (a.rv + b.rv) / 2 + _ ≤ _ at this
        linarith
    have h3 := hf.accurate _ hn.1 hmy
    have h4 := (hf.lipschitz _ hmy _ (hmem _ hI)).trans (mul_le_mul_of_nonneg_left hn.2 hΛ)
    refine ⟨h3.1, ?_⟩
    refine (abs_sub_le _ (g (GaussJacobi.argumentTransformation y a b).val) _).trans (add_le_add h3.2 h4)

/-- the product with the scale factor -/
theorem scaleFactor_near {a b x : F64} (ha : a.isFinite = true) (hb : b.isFinite = true) (hD : |b.rv - a.rv| ≤ 2 ^ 401) {Q E K : ℝ} (hQ : |Q| ≤ K)
    (hK : K + E ≤ 2 ^ 505) (hx : Near x Q E) :
    Near (F64.mul (GaussJacobi.scaleFactor a b) x) ((b.rv - a.rv) / 2 * Q) (|b.rv - a.rv| * (0.501 * E + 1.6 * (U * K)) + 1 / 2 ^ 500) := by
  have hU := U_pos
  have hU7 := U_le
  have hE0 : 0 ≤ E := (abs_nonneg _).trans hx.2
  have hK0 : 0 ≤ K := (abs_nonneg _).trans hQ
  obtain ⟨D, hDd⟩ : ∃ D, D = |b.rv - a.rv| := ⟨_, rfl⟩
  have hD0 : 0 ≤ D := by rw [hDd]; exact abs_nonneg _
  have s1 : Near (GaussJacobi.scaleFactor a b) _ _ := scale_near ha hb (D := D) (by rw [hDd]) (by
    rw [hDd]; exact hD.trans (by norm_num))
  rw [← hDd] at hD ⊢
  have hUD7 : U * D ≤ 0.0000001 * D := mul_le_mul_of_nonneg_right hU7 hD0
  have hUD : 0 ≤ U * D := by positivity
  have ht0 : (0 : ℝ) ≤ 1 / 2 ^ 1075 := by positivity
  have s2 := s1.mul hx (A := 0.5 * D + (1.01 * (U * D) + 1 / 2 ^ 1075)) (B := K + E) (by
      rw [abs_div, ← hDd, abs_of_pos (by norm_num : (0 : ℝ) < 2)]; linarith) (by linarith) (by
      calc (0.5 * D + (1.01 * (U * D) + 1 / 2 ^ 1075)) * (K + E) ≤ (0.6 * 2 ^ 401 + 1 / 2 ^ 1075) * 2 ^ 505 := by
            refine mul_le_mul (by linarith) hK (by positivity) (by positivity)
        _ ≤ _ := by norm_num)
  refine s2.mono ?_
  have t1 : (1 : ℝ) / 2 ^ 1075 * (K + E) ≤ 1 / 2 ^ 1075 * 2 ^ 505 := mul_le_mul_of_nonneg_left hK ht0
  have t2 : (1 : ℝ) / 2 ^ 1075 * E ≤ 1 / 2 ^ 1075 * 2 ^ 505 := mul_le_mul_of_nonneg_left (by linarith) ht0
  have t3 : U * (1 / 2 ^ 1075 * (K + E)) ≤ 1 * (1 / 2 ^ 1075 * 2 ^ 505) := mul_le_mul (by linarith) t1 (mul_nonneg ht0 (by linarith)) zero_le_one
  have hnum : 3 * ((1 : ℝ) / 2 ^ 1075 * 2 ^ 505) + 1 / 2 ^ 1075 ≤ 1 / 2 ^ 500 := by norm_num
  have hDE : 0 ≤ D * E := mul_nonneg hD0 hE0
  have hDK : 0 ≤ U * D * K := mul_nonneg hUD hK0
  have u1 : U * D * E ≤ 0.0000001 * (D * E) := by
    rw [← mul_assoc]
    exact mul_le_mul_of_nonneg_right hUD7 hE0
  have u0 : 0 ≤ U * D * E := mul_nonneg hUD hE0
  have u2 : U * (U * D * E) ≤ 0.0000001 * (U * D * E) := mul_le_mul_of_nonneg_right hU7 u0
  have u3 : U * (U * D * K) ≤ 0.0000001 * (U * D * K) := mul_le_mul_of_nonneg_right hU7 hDK
  obtain ⟨t, ht⟩ : ∃ t : ℝ, t = 1 / 2 ^ 1075 := ⟨_, rfl⟩
  rw [← ht] at t1 t2 t3 hnum ⊢
  have e1 : (0.5 * D + (1.01 * (U * D) + t)) * E + (1.01 * (U * D) + t) * (K + E) +
      U * ((0.5 * D + (1.01 * (U * D) + t)) * (K + E)) + t =
      0.5 * (D * E) + 1.01 * (U * D * E) + t * E + 1.01 * (U * D * K) + 1.01 * (U * D * E) + t * (K + E) +
      0.5 * (U * D * K) + 0.5 * (U * D * E) + 1.01 * (U * (U * D * K)) + 1.01 * (U * (U * D * E)) + U * (t * (K + E)) + t := by ring
  have e2 : D * (0.501 * E + 1.6 * (U * K)) = 0.501 * (D * E) + 1.6 * (U * D * K) := by ring
  rw [e1, e2]
  linarith

/-- the value of a rule close to a rule on `(-1, 1)`, transported to `[a, b]` -/
theorem interval_value {R : List (F64 × F64)} {G : List (ℝ × ℝ)} {m η ω : ℝ} (hN : NearRule R G m η ω) (hη0 : 0 ≤ η) (hη : η ≤ 0.001) (hω0 : 0 ≤ ω) (hω : ω ≤ 0.05)
    (hm0 : 0 ≤ m) (hm : quad G (fun _ => 1) = m) (hn : G.length ≤ 10 ^ 12) (hnode : ∀ q ∈ G, -1 < q.1 ∧ q.1 < 1) (hw : ∀ q ∈ G, 0 ≤ q.2)
    {a b : F64} {B : ℝ} (ha : a.isFinite = true) (hb : b.isFinite = true) (haB : |a.rv| ≤ B) (hbB : |b.rv| ≤ B) (hB : B ≤ 2 ^ 400)
    {f : F64 → F64} {g : ℝ → ℝ} {lo hi M Λ κ : ℝ} (hΛ : 0 ≤ Λ)
    (hlo : ∀ t, |t| ≤ 1 + η → lo + (6 * (U * B) + 1 / 2 ^ 1000) ≤ (b.rv - a.rv) / 2 * t + (a.rv + b.rv) / 2 ∧
      (b.rv - a.rv) / 2 * t + (a.rv + b.rv) / 2 + (6 * (U * B) + 1 / 2 ^ 1000) ≤ hi)
    (hf : Computes f g (Set.Icc lo hi) M Λ κ) (hκ : 0 ≤ κ) (hM : 0 ≤ M)
    {κ' : ℝ} (hκ' : κ' = κ + Λ * (6 * (U * B) + 1 / 2 ^ 1000)) (hK : m * (M + κ' + Λ * |b.rv - a.rv|) ≤ 2 ^ 500) {d : ℕ} (hd : d ≤ 10 ^ 12) {x : F64}
    (hx : x = sumList (R.map fun p => F64.mul (f (GaussJacobi.argumentTransformation p.1 a b)) p.2) ∧ d = R.length ∨
      ∃ s, x = parSumMap s R (fun p => F64.mul (f (GaussJacobi.argumentTransformation p.1 a b)) p.2) ∧ d = roundings s R.length) :
    Near (F64.mul (GaussJacobi.scaleFactor a b) x) ((b.rv - a.rv) / 2 * quad G fun t => g ((b.rv - a.rv) / 2 * t + (a.rv + b.rv) / 2))
      (|b.rv - a.rv| * (m * (0.26 * (Λ * |b.rv - a.rv| * η) + 0.501 * (ω * M) + 0.53 * κ' + (0.56 * d + 2.2) * (U * (M + κ')))) + 1 / 2 ^ 490) := by
  have hB0 : 0 ≤ B := (abs_nonneg _).trans haB
  have hU := U_pos
  have hf' := computes_argT ha hb haB hbB hB hΛ hη0 hη hlo hf
  rw [← hκ'] at hf'
  have hτ0 : 0 ≤ 6 * (U * B) + 1 / 2 ^ 1000 := by positivity
  have hκ0 : 0 ≤ κ' := by rw [hκ']; positivity
  obtain ⟨D, hDd⟩ : ∃ D, D = |b.rv - a.rv| := ⟨_, rfl⟩
  have hD0 : 0 ≤ D := by rw [hDd]; exact abs_nonneg _
  have hD2 : D ≤ 2 * 2 ^ 400 := by
    rw [hDd]
    refine (abs_sub _ _).trans (by linarith)
  rw [← hDd] at hf' hK ⊢
  have hΛD : 0 ≤ Λ * D := by positivity
  have hKm : m * (M + κ') + m * (Λ * D) ≤ 2 ^ 500 := by rw [← mul_add]; exact hK
  have hmK : 0 ≤ m * (M + κ') := by positivity
  have hmΛ : 0 ≤ m * (Λ * D) := by positivity
  have v := close_value hN hη0 hω hm0 hm hn (lo := -(1 + η)) (hi := 1 + η) (fun q hq => ⟨by linarith [(hnode q hq).1], by linarith [(hnode q hq).2]⟩) hf' hκ0 hM
    (by positivity) (le_trans (by linarith) (show (2 : ℝ) ^ 500 ≤ 2 ^ 1012 by norm_num)) hd hx
  have hQ : |quad G fun t => g ((b.rv - a.rv) / 2 * t + (a.rv + b.rv) / 2)| ≤ m * M := by
    have h1 := abs_quad_le (f := fun t => g ((b.rv - a.rv) / 2 * t + (a.rv + b.rv) / 2)) (ε := M) hw
      (fun q hq => hf'.bound q.1 ⟨by linarith [(hnode q hq).1], by linarith [(hnode q hq).2]⟩)
    have e : (G.map Prod.snd).sum = m := by rw [← hm]; simp [quad]
    rw [e, mul_comm] at h1
    exact h1
  obtain ⟨E, hE⟩ : ∃ E, E = m * (Λ * (D / 2) * η + ω * M + 1.05 * κ' + 1.1 * (d + 1) * (U * (M + κ'))) + 1 / 2 ^ 1000 := ⟨_, rfl⟩
  rw [← hE] at v
  have hd' : (d : ℝ) ≤ 10 ^ 12 := by exact_mod_cast hd
  have hdU : 1.1 * ((d : ℝ) + 1) * U ≤ 0.001 := by
    calc 1.1 * ((d : ℝ) + 1) * U ≤ 1.1 * (10 ^ 12 + 1) * U := by gcongr
      _ ≤ _ := by unfold U; norm_num
  have hmM : 0 ≤ m * M := by positivity
  have hmκ : 0 ≤ m * κ' := by positivity
  have eE : E = 0.5 * (m * (Λ * D)) * η + ω * (m * M) + 1.05 * (m * κ') + 1.1 * (d + 1) * U * (m * M + m * κ') + 1 / 2 ^ 1000 := by rw [hE]; ring
  have hsum : m * (M + κ') = m * M + m * κ' := by ring
  have g1 : 0.5 * (m * (Λ * D)) * η ≤ 0.5 * (m * (Λ * D)) * 0.001 := mul_le_mul_of_nonneg_left hη (by positivity)
  have g2 : ω * (m * M) ≤ 0.05 * (m * M) := mul_le_mul_of_nonneg_right hω hmM
  have g3 : 1.1 * (d + 1) * U * (m * M + m * κ') ≤ 0.001 * (m * M + m * κ') := mul_le_mul_of_nonneg_right hdU (by positivity)
  have hE1 : m * M + E ≤ 2 ^ 505 := by
    rw [eE]
    have : (1 : ℝ) / 2 ^ 1000 ≤ 1 := by norm_num
    linarith [show (2 : ℝ) * 2 ^ 500 + 1 ≤ 2 ^ 505 by norm_num]
  have w := scaleFactor_near ha hb (by rw [← hDd]; linarith [show (2 : ℝ) * 2 ^ 400 ≤ 2 ^ 401 by norm_num]) hQ hE1 v
  rw [← hDd] at w
  refine w.mono ?_
  have h1 : D * (1 / 2 ^ 1000) ≤ 2 * 2 ^ 400 * (1 / 2 ^ 1000) := mul_le_mul_of_nonneg_right hD2 (by positivity)
  have hnum : 0.501 * ((2 : ℝ) * 2 ^ 400 * (1 / 2 ^ 1000)) + 1 / 2 ^ 500 ≤ 1 / 2 ^ 490 := by norm_num
  obtain ⟨T1, hT1⟩ : ∃ T, T = D * (m * (Λ * D * η)) := ⟨_, rfl⟩
  obtain ⟨T2, hT2⟩ : ∃ T, T = D * (m * (ω * M)) := ⟨_, rfl⟩
  obtain ⟨T3, hT3⟩ : ∃ T, T = D * (m * κ') := ⟨_, rfl⟩
  obtain ⟨T4, hT4⟩ : ∃ T, T = D * (m * (U * M)) := ⟨_, rfl⟩
  obtain ⟨T5, hT5⟩ : ∃ T, T = D * (m * (U * κ')) := ⟨_, rfl⟩
  have p1 : 0 ≤ T1 := by rw [hT1]; positivity
  have p2 : 0 ≤ T2 := by rw [hT2]; positivity
  have p3 : 0 ≤ T3 := by rw [hT3]; positivity
  have p4 : 0 ≤ T4 := by rw [hT4]; positivity
  have p5 : 0 ≤ T5 := by rw [hT5]; positivity
  have p6 : 0 ≤ (d : ℝ) * T4 := by positivity
  have p7 : 0 ≤ (d : ℝ) * T5 := by positivity
  have e1 : D * (0.501 * E + 1.6 * (U * (m * M))) = 0.501 * (0.5 * T1 + T2 + 1.05 * T3 + 1.1 * (d * T4 + d * T5 + T4 + T5) + D * (1 / 2 ^ 1000)) + 1.6 * T4 := by
    rw [hE, hT1, hT2, hT3, hT4, hT5]; ring
  have e2 : D * (m * (0.26 * (Λ * D * η) + 0.501 * (ω * M) + 0.53 * κ' + (0.56 * d + 2.2) * (U * (M + κ')))) =
      0.26 * T1 + 0.501 * T2 + 0.53 * T3 + 0.56 * (d * T4) + 0.56 * (d * T5) + 2.2 * T4 + 2.2 * T5 := by
    rw [hT1, hT2, hT3, hT4, hT5]; ring
  rw [e1, e2]
  linarith

end
end GaussQuad.F64
