import Verif.Proofs.F64Chebyshev
import Verif.Proofs.F64Gauss
import Verif.Proofs.TrigExists
import Verif.Props.Chebyshev
import Verif.Props.LegendreF64Integral

/-!
# C57: `integrate` and `par_integrate` of the Chebyshev rules in binary64
-/

set_option exponentiation.threshold 3000

namespace GaussQuad.Props
open Polynomial Spec FloatOps F64

theorem pair1_real (n i : ℕ) : (GaussChebyshevFirstKind.pair n i : ℝ × ℝ) = (Real.cos (Real.pi * (2 * (i : ℝ) - 1) / (2 * n)), Real.pi / n) := by
  simp only [GaussChebyshevFirstKind.pair, real_pi, real_mul, real_sub, real_div, real_ofNat, real_cos, real_lit_two, real_lit_one]

theorem pair2_real (n i : ℕ) : (GaussChebyshevSecondKind.pair n i : ℝ × ℝ) =
    (Real.cos (Real.pi * (i : ℝ) / (n + 1)), Real.pi / (n + 1) * Real.sin (Real.pi * (i : ℝ) / (n + 1)) ^ 2) := by
  simp only [GaussChebyshevSecondKind.pair, real_pi, real_mul, real_add, real_div, real_ofNat, real_cos, real_sin, real_lit_one, mul_one_div]
  rw [sq, mul_assoc]

theorem sum_rangeRev (n : ℕ) (u : ℕ → ℝ) : ((rangeRev (n + 1)).map u).sum = ∑ i ∈ Finset.range n, u (i + 1) := by
  rw [rangeRev, Nat.add_sub_cancel, List.map_reverse, List.sum_reverse, List.range'_eq_map_range, List.map_map]
  induction n with
  | zero => simp
  | succ n ih => rw [List.range_succ, List.map_append, List.sum_append, ih, Finset.sum_range_succ]; simp [add_comm]

theorem quad_pairs1 (n : ℕ) (F : ℝ → ℝ) : quad (pairs1 n) F = ∑ i ∈ Finset.range n, Real.pi / n * F (Real.cos (Real.pi * (2 * i + 1) / (2 * n))) := by
  rw [quad, pairs1, List.map_map, sum_rangeRev]
  refine Finset.sum_congr rfl fun i _ => ?_
  simp only [Function.comp, pair1_real]
  push_cast
  ring_nf

theorem quad_pairs2 (n : ℕ) (F : ℝ → ℝ) : quad (pairs2 n) F =
    ∑ i ∈ Finset.range n, Real.pi / (n + 1) * Real.sin (Real.pi * (i + 1) / (n + 1)) ^ 2 * F (Real.cos (Real.pi * (i + 1) / (n + 1))) := by
  rw [quad, pairs2, List.map_map, sum_rangeRev]
  refine Finset.sum_congr rfl fun i _ => ?_
  simp only [Function.comp, pair2_real]
  push_cast
  rfl

theorem forall₂_rangeRev {n : ℕ} {R : F64 × F64 → ℝ × ℝ → Prop} {u : ℕ → F64 × F64} {v : ℕ → ℝ × ℝ} (h : ∀ i, 1 ≤ i → i ≤ n → R (u i) (v i)) :
    List.Forall₂ R ((rangeRev (n + 1)).map u) ((rangeRev (n + 1)).map v) := by
  rw [List.forall₂_map_left_iff, List.forall₂_map_right_iff, List.forall₂_same]
  intro i hi
  rw [rangeRev, List.mem_reverse, List.mem_range'_1] at hi
  exact h i hi.1 (by omega)

/-- the common part of both kinds: `W` bounds the sum of the weights, `S` the sum of their errors -/
theorem cheb_core [L : Libm] {n : ℕ} {G : List (ℝ × ℝ)} {σ : ℝ × ℝ → ℝ} {W S δ : ℝ} {pairs : List (F64 × F64)} (hlen : G.length = n) (hmax : n ≤ 10 ^ 12)
    (hs : RuleSizes G σ W S) (hclose : List.Forall₂ (fun p q => Near p.1 q.1 δ ∧ Near p.2 q.2 (σ q)) pairs G) (hG : ∀ q ∈ G, |q.1| ≤ 1)
    (hδ : δ ≤ 3 / 10 ^ 15) {a b : F64} {f : F64 → F64} {g : ℝ → ℝ} {B M Λ η c0 c1 c2 : ℝ} (ha : a.isFinite = true) (hb : b.isFinite = true)
    (haB : |(a.val : ℝ)| ≤ B) (hbB : |(b.val : ℝ)| ≤ B) (hB : B ≤ 2 ^ 400) (hf : Computes f g (around a.val b.val (4 / 10 ^ 15 * B + 1 / 2 ^ 1000)) M Λ η)
    (hΛ : 0 ≤ Λ) (hK : M + (η + Λ * (4 / 10 ^ 15 * B + 1 / 2 ^ 1000)) ≤ 2 ^ 400)
    (hc0 : 0.503 * W ≤ c0) (hc1 : 0.51 * S + 2.1 * (U * W) ≤ c1) (hc2 : 0.51 * (U * W) ≤ c2) :
    let E := fun d : ℕ => |(b.val : ℝ) - a.val| * (c0 * (η + Λ * (4 / 10 ^ 15 * B + 1 / 2 ^ 1000)) +
      (c1 + c2 * d) * (M + (η + Λ * (4 / 10 ^ 15 * B + 1 / 2 ^ 1000)))) + 1 / 2 ^ 500;
    let I := ((b.val : ℝ) - a.val) / 2 * quad G (fun x => g (((b.val : ℝ) - a.val) / 2 * x + (a.val + b.val) / 2));
    (∀ v : F64, v = F64.mul (sumList (pairs.map fun p => (f (lit 0.5 *ᶠ ((b -ᶠ a) *ᶠ p.1 +ᶠ (b +ᶠ a)) : F64) *ᶠ p.2 : F64))) (lit 0.5 *ᶠ (b -ᶠ a) : F64) →
      v.isFinite = true ∧ |(v.val : ℝ) - I| ≤ E n) ∧
    ∀ s, roundings s n ≤ 10 ^ 12 → ∀ v : F64,
      v = F64.mul (parSumMap s pairs fun p => (f (lit 0.5 *ᶠ ((b -ᶠ a) *ᶠ p.1 +ᶠ (b +ᶠ a)) : F64) *ᶠ p.2 : F64)) (lit 0.5 *ᶠ (b -ᶠ a) : F64) →
      v.isFinite = true ∧ |(v.val : ℝ) - I| ≤ E (roundings s n) := by
  intro E I
  have hB0 : 0 ≤ B := (abs_nonneg _).trans haB
  have hρ : 0 ≤ 4 / 10 ^ 15 * B + 1 / 2 ^ 1000 := by positivity
  have hmem : (a.val : ℝ) ∈ around a.val b.val (4 / 10 ^ 15 * B + 1 / 2 ^ 1000) :=
    ⟨by linarith [min_le_left (a.val : ℝ) b.val], by linarith [le_max_left (a.val : ℝ) b.val]⟩
  have hM : 0 ≤ M := (abs_nonneg _).trans (hf.bound _ hmem)
  have hη : 0 ≤ η := (abs_nonneg _).trans (hf.accurate a ha hmem).2
  have hκ : 0 ≤ η + Λ * (4 / 10 ^ 15 * B + 1 / 2 ^ 1000) := by positivity
  have main := fun {d : ℕ} (hd : d ≤ 10 ^ 12) {x : F64} hx =>
    gauss_value_near (W := W) (S := S) (d := d) (x := x) hs hclose hG hδ ha hb haB hbB hB hf hΛ hη hM hK (by omega) hd hx
  have fin : ∀ {d : ℕ} {v : F64}, Near v I (|b.rv - a.rv| * (0.503 * ((η + Λ * argErr B) * W) + 0.51 * ((M + (η + Λ * argErr B)) * S) +
        (0.51 * d + 2.1) * (U * ((M + (η + Λ * argErr B)) * W))) + 1 / 2 ^ 500) → v.isFinite = true ∧ |(v.val : ℝ) - I| ≤ E d := by
    intro d v h
    refine ⟨h.1, h.2.trans ?_⟩
    refine add_le_add (mul_le_mul_of_nonneg_left ?_ (abs_nonneg _)) le_rfl
    have hK0 : 0 ≤ M + (η + Λ * (4 / 10 ^ 15 * B + 1 / 2 ^ 1000)) := add_nonneg hM hκ
    change 0.503 * ((η + Λ * (4 / 10 ^ 15 * B + 1 / 2 ^ 1000)) * W) + 0.51 * ((M + (η + Λ * (4 / 10 ^ 15 * B + 1 / 2 ^ 1000))) * S) +
        (0.51 * d + 2.1) * (U * ((M + (η + Λ * (4 / 10 ^ 15 * B + 1 / 2 ^ 1000))) * W)) ≤ _
    generalize η + Λ * (4 / 10 ^ 15 * B + 1 / 2 ^ 1000) = κ at hκ hK0 ⊢
    generalize M + κ = K at hK0 ⊢
    have k0 := mul_le_mul_of_nonneg_right hc0 hκ
    have k1 := mul_le_mul_of_nonneg_right hc1 hK0
    have k2 := mul_le_mul_of_nonneg_right (mul_le_mul_of_nonneg_right hc2 (Nat.cast_nonneg (α := ℝ) d)) hK0
    calc _ = 0.503 * W * κ + (0.51 * S + 2.1 * (U * W)) * K + 0.51 * (U * W) * d * K := by ring
      _ ≤ c0 * κ + c1 * K + c2 * d * K := by linarith
      _ = _ := by ring
  refine ⟨fun v hv => ?_, fun s hs' v hv => ?_⟩
  · rw [hv, mul_comm']
    exact fin (main hmax (Or.inl ⟨rfl, hlen.symm⟩))
  · rw [hv, mul_comm']
    exact fin (main hs' (Or.inr ⟨s, rfl, by rw [hlen]⟩))

theorem cheb1_sizes {n : ℕ} (hn : 0 < n) : RuleSizes (pairs1 n) (fun q => 1.4 * U * |q.2|) Real.pi (1.4 * U * Real.pi) := by
  have hp := Real.pi_pos
  have hU := U_pos
  have hm : ((pairs1 n).map fun q => |q.2|).sum = Real.pi := by
    rw [← mass1 hn]
    congr 1
    refine List.map_congr_left fun q hq => abs_of_pos ?_
    obtain ⟨i, -, rfl⟩ := List.mem_map.1 hq
    rw [pair1_real]
    positivity
  refine ⟨hm.le, ?_, fun q => by positivity, mul_le_mul_of_nonneg_right (by unfold U; norm_num) hp.le, by have := Real.pi_lt_four; norm_num; linarith⟩
  rw [List.sum_map_mul_left, hm]

theorem cheb2_sizes {n : ℕ} (hn : 0 < n) : RuleSizes (pairs2 n) (fun _ => 31 * U * (Real.pi / (n + 1))) (Real.pi / 2) (31 * U * Real.pi) := by
  have hp := Real.pi_pos
  have hU := U_pos
  have hm : ((pairs2 n).map fun q => |q.2|).sum = Real.pi / 2 := by
    rw [← mass2 hn]
    congr 1
    refine List.map_congr_left fun q hq => abs_of_nonneg ?_
    obtain ⟨i, -, rfl⟩ := List.mem_map.1 hq
    rw [pair2_real]
    positivity
  refine ⟨hm.le, ?_, fun q => by positivity, ?_, by have := Real.pi_lt_four; norm_num; linarith⟩
  · rw [List.map_const', List.sum_replicate, length_pairs2, nsmul_eq_mul]
    have h1 : (n : ℝ) * (Real.pi / (n + 1)) ≤ Real.pi := by rw [mul_div_assoc', div_le_iff₀ (by positivity)]; nlinarith
    calc _ = 31 * U * (n * (Real.pi / (n + 1))) := by ring
      _ ≤ _ := mul_le_mul_of_nonneg_left h1 (by positivity)
  · have : 31 * U * Real.pi ≤ 0.0005 * Real.pi := mul_le_mul_of_nonneg_right (by unfold U; norm_num) hp.le
    linarith

/-- C57, first kind: let `g` be bounded by `M` and `Λ`-Lipschitz on the integration interval widened by `ρ = 4e-15·B + 2^-1000`, and let the program
`f` compute it there with absolute error `η`.  Then binary64 `integrate` of the `n`-point rule returns a finite number within
`|b-a|·(1.6 κ + (1e-15 + 1.8e-16·n)(M + κ)) + 2^-500`, `κ = η + Λρ`, of `(b-a)/2·Σ π/n·g(x_i)` with the mapped Chebyshev nodes `x_i`;
`par_integrate` is within the same bound with `n` replaced by the number of roundings on the longest path of the reduction tree.  If `g` is a
polynomial of degree at most `2n-1`, that sum is its integral against the weight. -/
theorem C57_first_kind [L : Libm] (hL : AccurateTrig L) (mode : Overflow) {n : ℕ} (hn : 0 < n) (hmax : n ≤ 10 ^ 12) :
    ∃ r : Rule F64, GaussChebyshevFirstKind.new mode n = some r ∧
      ∀ (a b : F64) (f : F64 → F64) (g : ℝ → ℝ) (B M Λ η : ℝ), a.isFinite = true → b.isFinite = true → |(a.val : ℝ)| ≤ B → |(b.val : ℝ)| ≤ B →
      B ≤ 2 ^ 400 → let ρ := 4 / 10 ^ 15 * B + 1 / 2 ^ 1000; let κ := η + Λ * ρ;
      let I := ((b.val : ℝ) - a.val) / 2 * ∑ i ∈ Finset.range n, Real.pi / n *
        g (((b.val : ℝ) - a.val) / 2 * Real.cos (Real.pi * (2 * i + 1) / (2 * n)) + (a.val + b.val) / 2);
      let E := fun d : ℕ => |(b.val : ℝ) - a.val| * (1.6 * κ + (1 / 10 ^ 15 + 1.8 / 10 ^ 16 * d) * (M + κ)) + 1 / 2 ^ 500;
      Computes f g (around a.val b.val ρ) M Λ η → 0 ≤ Λ → M + κ ≤ 2 ^ 400 →
      (((AnyRule.chebyshevFirst r).value a b f).isFinite = true ∧ |(((AnyRule.chebyshevFirst r).value a b f).val : ℝ) - I| ≤ E n) ∧
      (∀ s, roundings s n ≤ 10 ^ 12 → ((AnyRule.chebyshevFirst r).parIntegrate s s a b f).isFinite = true ∧
        |(((AnyRule.chebyshevFirst r).parIntegrate s s a b f).val : ℝ) - I| ≤ E (roundings s n)) ∧
      (∀ p : ℝ[X], p.natDegree ≤ 2 * n - 1 → (∀ t, g t = p.eval t) → a.val ≠ b.val →
        I = ∫ t in (a.val : ℝ)..b.val, g t * (1 / Real.sqrt (1 - ((2 * t - a.val - b.val) / (b.val - a.val)) ^ 2))) := by
  refine ⟨_, cheb1_new_eq (by omega), ?_⟩
  intro a b f g B M Λ η ha hb haB hbB hB
  dsimp only
  intro hf hΛ hK
  have hclose : List.Forall₂ (fun (p : F64 × F64) (q : ℝ × ℝ) => Near p.1 q.1 (10 * U) ∧ Near p.2 q.2 (1.4 * U * |q.2|))
      ((rangeRev (n + 1)).map (GaussChebyshevFirstKind.pair n)) (pairs1 n) :=
    forall₂_rangeRev fun i h1 h2 => by
      rw [pair1_real]
      have := cheb1_pair_close hL h1 h2 (by omega : n < 2 ^ 52)
      exact ⟨this.1, this.2.1, this.2.2⟩
  have hp4 := Real.pi_lt_d2
  have hp3 := Real.pi_pos
  have hU : U ≤ 1.1103 / 10 ^ 16 := by unfold U; norm_num
  have hUp : U * Real.pi ≤ 1.1103 / 10 ^ 16 * 3.15 := mul_le_mul hU hp4.le hp3.le (by norm_num)
  have core := cheb_core (c0 := 1.6) (c1 := 1 / 10 ^ 15) (c2 := 1.8 / 10 ^ 16) (length_pairs1 n) hmax (cheb1_sizes hn) hclose
    (fun q hq => _root_.abs_le.2 ⟨(nodes1 hn q hq).1.le, (nodes1 hn q hq).2.le⟩) (by unfold U; norm_num) ha hb haB hbB hB hf hΛ hK
    (by linarith) (by linarith) (by linarith)
  dsimp only at core
  rw [quad_pairs1] at core
  refine ⟨core.1 _ ?_, fun s hs => core.2 s hs _ rfl, fun p hp hg hab => ?_⟩
  · have := sumMapM_id (F := F64) ((rangeRev (n + 1)).map (GaussChebyshevFirstKind.pair n))
      (fun p => (do let y ← (pure (f (GaussChebyshevFirstKind.argumentTransformation p.1 a b)) : Id F64); pure (y *ᶠ p.2) : Id F64))
    exact congrArg (fun x => F64.mul x (GaussChebyshevFirstKind.scaleFactor a b)) this
  · have := exact_interval (cheb1_exact hn) (by exact_mod_cast hab : (a.val : ℝ) ≠ b.val) hp
    rw [one_mul] at this
    rw [← quad_pairs1 n (fun x => g (((b.val : ℝ) - a.val) / 2 * x + (a.val + b.val) / 2))]
    simp only [hg]
    refine Eq.trans ?_ this
    rw [quad, quad, ← List.sum_map_mul_left]
    simp only [List.map_map]
    congr 1
    apply List.map_congr_left
    intro q _
    simp only [Function.comp]
    ring

/-- C57, second kind: as for the first kind with the bound `|b-a|·(0.8 κ + (6e-15 + 9e-17·n)(M + κ)) + 2^-500` around
`(b-a)/2·Σ π/(n+1)·sin²(π(i+1)/(n+1))·g(x_i)`. -/
theorem C57_second_kind [L : Libm] (hL : AccurateTrig L) (hS : AccurateSin L) (mode : Overflow) {n : ℕ} (hn : 0 < n) (hmax : n ≤ 10 ^ 12) :
    ∃ r : Rule F64, GaussChebyshevSecondKind.new mode n = some r ∧
      ∀ (a b : F64) (f : F64 → F64) (g : ℝ → ℝ) (B M Λ η : ℝ), a.isFinite = true → b.isFinite = true → |(a.val : ℝ)| ≤ B → |(b.val : ℝ)| ≤ B →
      B ≤ 2 ^ 400 → let ρ := 4 / 10 ^ 15 * B + 1 / 2 ^ 1000; let κ := η + Λ * ρ;
      let I := ((b.val : ℝ) - a.val) / 2 * ∑ i ∈ Finset.range n, Real.pi / (n + 1) * Real.sin (Real.pi * (i + 1) / (n + 1)) ^ 2 *
        g (((b.val : ℝ) - a.val) / 2 * Real.cos (Real.pi * (i + 1) / (n + 1)) + (a.val + b.val) / 2);
      let E := fun d : ℕ => |(b.val : ℝ) - a.val| * (0.8 * κ + (6 / 10 ^ 15 + 9 / 10 ^ 17 * d) * (M + κ)) + 1 / 2 ^ 500;
      Computes f g (around a.val b.val ρ) M Λ η → 0 ≤ Λ → M + κ ≤ 2 ^ 400 →
      (((AnyRule.chebyshevSecond r).value a b f).isFinite = true ∧ |(((AnyRule.chebyshevSecond r).value a b f).val : ℝ) - I| ≤ E n) ∧
      (∀ s, roundings s n ≤ 10 ^ 12 → ((AnyRule.chebyshevSecond r).parIntegrate s s a b f).isFinite = true ∧
        |(((AnyRule.chebyshevSecond r).parIntegrate s s a b f).val : ℝ) - I| ≤ E (roundings s n)) ∧
      (∀ p : ℝ[X], p.natDegree ≤ 2 * n - 1 → (∀ t, g t = p.eval t) → a.val ≠ b.val →
        I = ∫ t in (a.val : ℝ)..b.val, g t * Real.sqrt (1 - ((2 * t - a.val - b.val) / (b.val - a.val)) ^ 2)) := by
  refine ⟨_, cheb2_new_eq (by omega), ?_⟩
  intro a b f g B M Λ η ha hb haB hbB hB
  dsimp only
  intro hf hΛ hK
  have hclose : List.Forall₂ (fun (p : F64 × F64) (q : ℝ × ℝ) => Near p.1 q.1 (13 * U) ∧ Near p.2 q.2 (31 * U * (Real.pi / (n + 1))))
      ((rangeRev (n + 1)).map (GaussChebyshevSecondKind.pair n)) (pairs2 n) :=
    forall₂_rangeRev fun i h1 h2 => by
      rw [pair2_real]
      exact cheb2_pair_close hL hS h1 h2 (by omega : n < 2 ^ 52)
  have hp4 := Real.pi_lt_d2
  have hp3 := Real.pi_pos
  have hU : U ≤ 1.1103 / 10 ^ 16 := by unfold U; norm_num
  have hUp : U * Real.pi ≤ 1.1103 / 10 ^ 16 * 3.15 := mul_le_mul hU hp4.le hp3.le (by norm_num)
  have core := cheb_core (c0 := 0.8) (c1 := 6 / 10 ^ 15) (c2 := 9 / 10 ^ 17) (length_pairs2 n) hmax (cheb2_sizes hn) hclose
    (fun q hq => _root_.abs_le.2 ⟨(nodes2 hn q hq).1.le, (nodes2 hn q hq).2.le⟩) (by unfold U; norm_num) ha hb haB hbB hB hf hΛ hK
    (by linarith) (by linarith) (by linarith)
  dsimp only at core
  rw [quad_pairs2] at core
  refine ⟨core.1 _ ?_, fun s hs => core.2 s hs _ rfl, fun p hp hg hab => ?_⟩
  · have := sumMapM_id (F := F64) ((rangeRev (n + 1)).map (GaussChebyshevSecondKind.pair n))
      (fun p => (do let y ← (pure (f (GaussChebyshevSecondKind.argumentTransformation p.1 a b)) : Id F64); pure (y *ᶠ p.2) : Id F64))
    exact congrArg (fun x => F64.mul x (GaussChebyshevSecondKind.scaleFactor a b)) this
  · have := exact_interval (cheb2_exact hn) (by exact_mod_cast hab : (a.val : ℝ) ≠ b.val) hp
    rw [one_mul] at this
    rw [← quad_pairs2 n (fun x => g (((b.val : ℝ) - a.val) / 2 * x + (a.val + b.val) / 2))]
    simp only [hg]
    refine Eq.trans ?_ this
    rw [quad, quad, ← List.sum_map_mul_left]
    simp only [List.map_map]
    congr 1
    apply List.map_congr_left
    intro q _
    simp only [Function.comp]
    ring

/-- binary64 `integrate` of `x * x` over `[0, 1]` with the ten-point rules: finite numbers within `2e-14` of the integrals against the two weights -/
example : ∃ _L : Libm, (∃ r : Rule F64, GaussChebyshevFirstKind.new .checked 10 = some r ∧
      ((AnyRule.chebyshevFirst r).value (F64.zero false) (lit 1.0) (fun y => F64.mul y y)).isFinite = true ∧
      |(((AnyRule.chebyshevFirst r).value (F64.zero false) (lit 1.0) (fun y => F64.mul y y)).val : ℝ) -
        ∫ t in (0 : ℝ)..1, t ^ 2 * (1 / Real.sqrt (1 - ((2 * t - 0 - 1) / (1 - 0)) ^ 2))| ≤ 2 / 10 ^ 14) ∧
    ∃ r : Rule F64, GaussChebyshevSecondKind.new .checked 10 = some r ∧
      ((AnyRule.chebyshevSecond r).value (F64.zero false) (lit 1.0) (fun y => F64.mul y y)).isFinite = true ∧
      |(((AnyRule.chebyshevSecond r).value (F64.zero false) (lit 1.0) (fun y => F64.mul y y)).val : ℝ) -
        ∫ t in (0 : ℝ)..1, t ^ 2 * Real.sqrt (1 - ((2 * t - 0 - 1) / (1 - 0)) ^ 2)| ≤ 2 / 10 ^ 14 := by
  obtain ⟨L, hL, hS⟩ := accurateTrigSin_exists
  have h1 : ((lit 1.0 : F64).val : ℝ) = 1 := by
    have := lit_one_rel.2
    rw [zero_mul, zero_mul] at this
    have := abs_nonpos_iff.1 this
    unfold rv at this; linarith
  have h0 : ((F64.zero false).val : ℝ) = 0 := by rw [val_zero]; simp
  have hne : (F64.zero false).val ≠ (lit 1.0 : F64).val := by
    intro h
    have : ((F64.zero false).val : ℝ) = ((lit 1.0 : F64).val : ℝ) := by rw [h]
    rw [h0, h1] at this; norm_num at this
  obtain ⟨r, hr, h⟩ := C57_first_kind hL .checked (n := 10) (by norm_num) (by norm_num)
  obtain ⟨r', hr', h'⟩ := C57_second_kind hL hS .checked (n := 10) (by norm_num) (by norm_num)
  obtain ⟨⟨a1, a2⟩, -, a3⟩ := h (F64.zero false) (lit 1.0) (fun y => F64.mul y y) (fun t => t ^ 2) 1 1.1 2.1 (1 / 10 ^ 15) (zero_isFinite _) lit_one_rel.1
    (by rw [h0]; norm_num) (by rw [h1]; norm_num) (by norm_num) (by rw [h0, h1]; exact square_computes) (by norm_num) (by norm_num)
  obtain ⟨⟨b1, b2⟩, -, b3⟩ := h' (F64.zero false) (lit 1.0) (fun y => F64.mul y y) (fun t => t ^ 2) 1 1.1 2.1 (1 / 10 ^ 15) (zero_isFinite _) lit_one_rel.1
    (by rw [h0]; norm_num) (by rw [h1]; norm_num) (by norm_num) (by rw [h0, h1]; exact square_computes) (by norm_num) (by norm_num)
  rw [a3 (X ^ 2) (by simp) (by simp) hne, h0, h1] at a2
  rw [b3 (X ^ 2) (by simp) (by simp) hne, h0, h1] at b2
  refine ⟨L, ⟨r, hr, a1, a2.trans ?_⟩, r', hr', b1, b2.trans ?_⟩
  · norm_num
  · norm_num

end GaussQuad.Props
