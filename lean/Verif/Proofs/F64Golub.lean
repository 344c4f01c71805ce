import Verif.Spec.EigenF64
import Verif.Proofs.Perturb
import Verif.Proofs.GolubWelschTheory
import Verif.Proofs.F64Integrate

/-! The Golub-Welsch algorithm in binary64 with a backward stable eigen-solver. -/

set_option exponentiation.threshold 3000

namespace GaussQuad.F64
open FloatOps Spec

theorem frob_add {ι : Type} [Fintype ι] {x y : ι → ℝ} {a b : ℝ} (ha : 0 ≤ a) (hb : 0 ≤ b) (hx : ∑ i, x i ^ 2 ≤ a ^ 2) (hy : ∑ i, y i ^ 2 ≤ b ^ 2) :
    ∑ i, (x i + y i) ^ 2 ≤ (a + b) ^ 2 := by
  have cs := Finset.sum_mul_sq_le_sq_mul_sq Finset.univ x y
  have h1 : (∑ i, x i * y i) ^ 2 ≤ (a * b) ^ 2 := by
    rw [mul_pow]
    exact cs.trans (mul_le_mul hx hy (Finset.sum_nonneg fun i _ => sq_nonneg _) (sq_nonneg _))
  have h2 : ∑ i, x i * y i ≤ a * b := (le_abs_self _).trans (abs_le_of_sq_le_sq h1 (by positivity))
  calc ∑ i, (x i + y i) ^ 2 = ∑ i, x i ^ 2 + 2 * ∑ i, x i * y i + ∑ i, y i ^ 2 := by
        rw [Finset.mul_sum, ← Finset.sum_add_distrib, ← Finset.sum_add_distrib]
        exact Finset.sum_congr rfl fun i _ => by ring
    _ ≤ _ := by nlinarith

theorem frob_add₂ {n : ℕ} {x y : Fin n → Fin n → ℝ} {a b : ℝ} (ha : 0 ≤ a) (hb : 0 ≤ b) (hx : ∑ i, ∑ j, x i j ^ 2 ≤ a ^ 2)
    (hy : ∑ i, ∑ j, y i j ^ 2 ≤ b ^ 2) : ∑ i, ∑ j, (x i j + y i j) ^ 2 ≤ (a + b) ^ 2 := by
  have := frob_add (ι := Fin n × Fin n) (x := fun p => x p.1 p.2) (y := fun p => y p.1 p.2) ha hb
    (by rw [Fintype.sum_prod_type]; exact hx) (by rw [Fintype.sum_prod_type]; exact hy)
  rwa [Fintype.sum_prod_type] at this

theorem _root_.GaussQuad.Spec.NearRule.mono {L : List (F64 × F64)} {G : List (ℝ × ℝ)} {m η ω η' ω' : ℝ} (h : NearRule L G m η ω) (hm : 0 ≤ m) (hη : η ≤ η')
    (hω : ω ≤ ω') : NearRule L G m η' ω' := by
  refine ⟨h.length, h.finite, h.nonneg, fun i h1 h2 => (h.nodes i h1 h2).trans hη, fun g lo hi Λ M hΛ hM hin hb hl => ?_⟩
  refine (h.sums g lo hi Λ M hΛ hM (fun q hq => ⟨by linarith [(hin q hq).1], by linarith [(hin q hq).2]⟩) hb hl).trans ?_
  exact mul_le_mul_of_nonneg_left (add_le_add (mul_le_mul_of_nonneg_left hη hΛ) (mul_le_mul_of_nonneg_right hω hM)) hm

theorem _root_.GaussQuad.Spec.CloseRule.mono {L : List (F64 × F64)} {G : List (ℝ × ℝ)} {m η ω η' ω' : ℝ} (h : CloseRule L G m η ω) (hm : 0 ≤ m) (hη : η ≤ η')
    (hω : ω ≤ ω') : CloseRule L G m η' ω' := ⟨h.toNearRule.mono hm hη hω, h.ascending⟩

/-- a tridiagonal matrix with entries bounded by `κ` -/
theorem frob_tridiag {n : ℕ} {D : Fin n → Fin n → ℝ} {κ : ℝ} (hκ : ∀ i j, |D i j| ≤ κ)
    (h0 : ∀ i j : Fin n, (i : ℕ) ≠ j → (j : ℕ) ≠ i + 1 → (i : ℕ) ≠ j + 1 → D i j = 0) : ∑ i, ∑ j, D i j ^ 2 ≤ 3 * n * κ ^ 2 := by
  have row : ∀ i : Fin n, ∑ j, D i j ^ 2 ≤ 3 * κ ^ 2 := by
    intro i
    have h1 : ∑ j, D i j ^ 2 ≤ ∑ j : Fin n, ((if (i : ℕ) = j then κ ^ 2 else 0) + (if (j : ℕ) = i + 1 then κ ^ 2 else 0) + (if (i : ℕ) = j + 1 then κ ^ 2 else 0)) := by
      refine Finset.sum_le_sum fun j _ => ?_
      have hs : D i j ^ 2 ≤ κ ^ 2 := by rw [← sq_abs]; exact pow_le_pow_left₀ (abs_nonneg _) (hκ i j) 2
      have hk := sq_nonneg κ
      by_cases e1 : (i : ℕ) = j
      · rw [if_pos e1, if_neg (by omega), if_neg (by omega)]; linarith
      by_cases e2 : (j : ℕ) = i + 1
      · rw [if_neg e1, if_pos e2, if_neg (by omega)]; linarith
      by_cases e3 : (i : ℕ) = j + 1
      · rw [if_neg e1, if_neg e2, if_pos e3]; linarith
      rw [h0 i j e1 e2 e3, if_neg e1, if_neg e2, if_neg e3]; norm_num
    refine h1.trans ?_
    have aux : ∀ p : Fin n → Prop, [DecidablePred p] → (∀ j j', p j → p j' → j = j') → ∑ j, (if p j then κ ^ 2 else 0) ≤ κ ^ 2 := by
      intro p _ hp
      rw [← Finset.sum_filter, Finset.sum_const, nsmul_eq_mul]
      have : (Finset.univ.filter p).card ≤ 1 := Finset.card_le_one.2 fun a ha b hb => hp a b (Finset.mem_filter.1 ha).2 (Finset.mem_filter.1 hb).2
      have : ((Finset.univ.filter p).card : ℝ) ≤ 1 := by exact_mod_cast this
      nlinarith [sq_nonneg κ]
    rw [Finset.sum_add_distrib, Finset.sum_add_distrib]
    have a1 := aux (fun j => (i : ℕ) = j) fun j j' h h' => by ext; omega
    have a2 := aux (fun j => (j : ℕ) = i + 1) fun j j' h h' => by ext; omega
    have a3 := aux (fun j => (i : ℕ) = j + 1) fun j j' h h' => by ext; omega
    linarith
  calc ∑ i, ∑ j, D i j ^ 2 ≤ ∑ _i : Fin n, 3 * κ ^ 2 := Finset.sum_le_sum fun i _ => row i
    _ = _ := by rw [Finset.sum_const, Finset.card_univ, Fintype.card_fin, nsmul_eq_mul]; ring

theorem val_le_of_totalLe {x y : F64} (h : x.totalLeb y = true) : x.val ≤ y.val := by
  by_contra hlt
  push Not at hlt
  have h1 := (key_lt_iff y x).2 hlt
  simp only [totalLeb, decide_eq_true_eq, totalKey] at h
  simp only [key] at h1
  split at h <;> split at h <;> simp_all <;> omega

/-- the product of two non-negative finite numbers -/
theorem mul_val_nonneg {x y : F64} (hx : x.isFinite = true) (hy : y.isFinite = true) (h : 0 ≤ x.val * y.val) (hf : (F64.mul x y).isFinite = true) :
    0 ≤ (F64.mul x y).val := by
  rw [mul_finite hx hy] at hf ⊢
  have := le_round hf (b := F64.zero false) (zero_isFinite _) (by rw [val_zero]; exact h)
  rwa [val_zero] at this

/-- one weight -/
theorem weight_near {v mh : F64} {m γ : ℝ} (hv : v.isFinite = true) (hv1 : |v.rv| ≤ 2) (hm : Near mh m (γ * m)) (hm0 : 1 / 2 ^ 200 ≤ m) (hm1 : m ≤ 2 ^ 1015)
    (hγ : 0 ≤ γ) (hγ1 : γ ≤ 0.001) :
    Near (F64.mul (F64.mul v v) mh) (m * v.rv ^ 2) (m * ((1.0001 * γ + 2.01 * U) * v.rv ^ 2) + m * (1 / 2 ^ 870)) ∧
      0 ≤ (F64.mul (F64.mul v v) mh).val := by
  have hU := U_pos
  have hU1 : U ≤ 1 / 10 ^ 15 := by unfold U; norm_num
  have hmp : 0 < m := lt_of_lt_of_le (by positivity) hm0
  have hs : |v.rv| * |v.rv| = v.rv ^ 2 := by rw [← sq, sq_abs]
  have hs4 : v.rv ^ 2 ≤ 4 := by rw [← hs]; nlinarith [abs_nonneg v.rv]
  have hs0 := sq_nonneg v.rv
  have n0 := near_self hv
  have n1 := n0.mul n0 (A := |v.rv|) (B := |v.rv|) (by simp) (by simp) (by rw [hs]; linarith [show (4 : ℝ) ≤ 2 ^ 1023 by norm_num])
  rw [hs, ← sq] at n1
  simp only [mul_zero, zero_mul, zero_add, add_zero] at n1
  obtain ⟨t, ht⟩ : ∃ t : ℝ, t = 1 / 2 ^ 1075 := ⟨_, rfl⟩
  have ht0 : 0 ≤ t := by rw [ht]; positivity
  have ht1 : t ≤ 1 := by rw [ht]; norm_num
  rw [← ht] at n1
  have hγm : 0 ≤ γ * m := by positivity
  have hγm1 : γ * m ≤ 0.001 * m := mul_le_mul_of_nonneg_right hγ1 hmp.le
  have hUs : 0 ≤ U * v.rv ^ 2 := by positivity
  have hUs1 : U * v.rv ^ 2 ≤ 1 := by nlinarith
  have n2 := n1.mul hm (A := v.rv ^ 2 + (U * v.rv ^ 2 + t)) (B := m + γ * m) (by rw [abs_of_nonneg hs0]) (by rw [abs_of_pos hmp]) (by
    calc (v.rv ^ 2 + (U * v.rv ^ 2 + t)) * (m + γ * m) ≤ 6 * (2 * 2 ^ 1015) := mul_le_mul (by linarith) (by linarith) (by positivity) (by norm_num)
      _ ≤ _ := by norm_num)
  have e : v.rv ^ 2 * m = m * v.rv ^ 2 := mul_comm _ _
  rw [e, ← ht] at n2
  constructor
  · refine n2.mono ?_
    have hms : 0 ≤ m * v.rv ^ 2 := by positivity
    -- the part that comes from underflow
    have hu : t * (1.1 * m + 1) ≤ m * (1 / 2 ^ 870) := by
      have h1 : t ≤ t * 2 ^ 200 * m := by
        have := mul_le_mul_of_nonneg_left hm0 (by positivity : 0 ≤ t * 2 ^ 200)
        calc t = t * 2 ^ 200 * (1 / 2 ^ 200) := by ring
          _ ≤ _ := this
      have h2 : t * (1.1 + 2 ^ 200) ≤ 1 / 2 ^ 870 := by rw [ht]; norm_num
      calc t * (1.1 * m + 1) = t * 1.1 * m + t := by ring
        _ ≤ t * 1.1 * m + t * 2 ^ 200 * m := by linarith
        _ = t * (1.1 + 2 ^ 200) * m := by ring
        _ ≤ 1 / 2 ^ 870 * m := mul_le_mul_of_nonneg_right h2 hmp.le
        _ = _ := by ring
    have main : (v.rv ^ 2 + U * v.rv ^ 2) * (γ * m) + U * v.rv ^ 2 * (m + γ * m) + U * ((v.rv ^ 2 + U * v.rv ^ 2) * (m + γ * m)) ≤
        m * ((1.0001 * γ + 2.01 * U) * v.rv ^ 2) := by
      have c : (1 + U) * γ + U * (1 + γ) + U * ((1 + U) * (1 + γ)) ≤ 1.0001 * γ + 2.01 * U := by
        have h1 : U * γ ≤ 1 / 10 ^ 15 * γ := mul_le_mul_of_nonneg_right hU1 hγ
        have h2 : U * γ ≤ U * 0.001 := mul_le_mul_of_nonneg_left hγ1 hU.le
        have h3 : U * U ≤ U * (1 / 10 ^ 15) := mul_le_mul_of_nonneg_left hU1 hU.le
        have h4 : U * U * γ ≤ U * U * 1 := mul_le_mul_of_nonneg_left (by linarith) (by positivity)
        linarith
      calc _ = ((1 + U) * γ + U * (1 + γ) + U * ((1 + U) * (1 + γ))) * (m * v.rv ^ 2) := by ring
        _ ≤ (1.0001 * γ + 2.01 * U) * (m * v.rv ^ 2) := mul_le_mul_of_nonneg_right c hms
        _ = _ := by ring
    have rest : t * (γ * m) + t * (m + γ * m) + U * (t * (m + γ * m)) + t ≤ t * (1.1 * m + 1) := by
      have h1 : t * (γ * m) ≤ t * (0.001 * m) := mul_le_mul_of_nonneg_left hγm1 ht0
      have h2 : U * (t * (m + γ * m)) ≤ 1 / 10 ^ 15 * (t * (m + γ * m)) := mul_le_mul_of_nonneg_right hU1 (by positivity)
      have h3 : 0 ≤ t * m := by positivity
      linarith
    calc _ = ((v.rv ^ 2 + U * v.rv ^ 2) * (γ * m) + U * v.rv ^ 2 * (m + γ * m) + U * ((v.rv ^ 2 + U * v.rv ^ 2) * (m + γ * m))) +
          (t * (γ * m) + t * (m + γ * m) + U * (t * (m + γ * m)) + t) := by ring
      _ ≤ _ := by linarith
  · refine mul_val_nonneg n1.1 hm.1 (mul_nonneg (mul_val_nonneg hv hv (mul_self_nonneg _) n1.1) ?_) n2.1
    have h1 := (_root_.abs_le.1 hm.2).1
    have : (0 : ℝ) ≤ mh.rv := by linarith
    rw [rv] at this
    exact_mod_cast this

section
variable [L : Libm]

theorem lit_zero_val : (lit 0.0 : F64).isFinite = true ∧ (lit 0.0 : F64).rv = 0 := by
  have e : (lit 0.0 : F64) = zero false := by
    change F64.round (0.0 : ℚ) false = _
    rw [show (0.0 : ℚ) = 0 by norm_num, round_zero]
  rw [e]
  exact ⟨zero_isFinite _, by rw [rv, val_zero]; simp⟩

/-- the weights of all nodes together -/
theorem weights_sum {n : ℕ} {v : Fin n → F64} {q : Fin n → ℝ} {mh : F64} {m γ ε : ℝ} (hn : n ≤ 10 ^ 12) (hv : ∀ j, (v j).isFinite = true)
    (hq : ∑ j, q j ^ 2 = 1) (hvq : ∑ j, ((v j).rv - q j) ^ 2 ≤ ε ^ 2) (hε : 0 ≤ ε) (hε1 : ε ≤ 0.01) (hm : Near mh m (γ * m)) (hm0 : 1 / 2 ^ 200 ≤ m)
    (hm1 : m ≤ 2 ^ 1015) (hγ : 0 ≤ γ) (hγ1 : γ ≤ 0.001) :
    (∀ j, (F64.mul (F64.mul (v j) (v j)) mh).isFinite = true ∧ 0 ≤ (F64.mul (F64.mul (v j) (v j)) mh).val) ∧
      ∑ j, |(F64.mul (F64.mul (v j) (v j)) mh).rv - m * q j ^ 2| ≤ m * (2.01 * ε + 1.03 * γ + 2.2 * U) := by
  have hU := U_pos
  have hmp : 0 < m := lt_of_lt_of_le (by positivity) hm0
  -- difference of the squares
  have hcs : ∑ j, |(v j).rv - q j| * |q j| ≤ ε := by
    have cs := Finset.sum_mul_sq_le_sq_mul_sq Finset.univ (fun j => |(v j).rv - q j|) (fun j => |q j|)
    simp only [sq_abs] at cs
    rw [hq, mul_one] at cs
    exact (le_abs_self _).trans (abs_le_of_sq_le_sq (cs.trans hvq) hε)
  have hsq : ∑ j, |(v j).rv ^ 2 - q j ^ 2| ≤ 2.01 * ε := by
    calc ∑ j, |(v j).rv ^ 2 - q j ^ 2| ≤ ∑ j, (((v j).rv - q j) ^ 2 + 2 * (|(v j).rv - q j| * |q j|)) := by
          refine Finset.sum_le_sum fun j _ => ?_
          rw [show (v j).rv ^ 2 - q j ^ 2 = ((v j).rv - q j) ^ 2 + 2 * (((v j).rv - q j) * q j) by ring]
          refine (abs_add_le _ _).trans ?_
          rw [abs_mul 2, abs_mul, abs_of_nonneg (sq_nonneg _), abs_of_pos (by norm_num : (0 : ℝ) < 2)]
      _ = ∑ j, ((v j).rv - q j) ^ 2 + 2 * ∑ j, |(v j).rv - q j| * |q j| := by rw [Finset.sum_add_distrib, Finset.mul_sum]
      _ ≤ _ := by nlinarith
  have hvs : ∑ j, (v j).rv ^ 2 ≤ 1.0201 := by
    have : ∑ j, (v j).rv ^ 2 ≤ ∑ j, (q j ^ 2 + |(v j).rv ^ 2 - q j ^ 2|) := Finset.sum_le_sum fun j _ => by linarith [le_abs_self ((v j).rv ^ 2 - q j ^ 2)]
    rw [Finset.sum_add_distrib, hq] at this
    linarith
  have hv1 : ∀ j, |(v j).rv| ≤ 2 := fun j => by
    have : (v j).rv ^ 2 ≤ 2 ^ 2 := (Finset.single_le_sum (f := fun j => (v j).rv ^ 2) (fun i _ => sq_nonneg _) (Finset.mem_univ j)).trans (by linarith)
    exact abs_le_of_sq_le_sq this (by norm_num)
  have hw := fun j => weight_near (hv j) (hv1 j) hm hm0 hm1 hγ hγ1
  refine ⟨fun j => ⟨(hw j).1.1, (hw j).2⟩, ?_⟩
  calc ∑ j, |(F64.mul (F64.mul (v j) (v j)) mh).rv - m * q j ^ 2|
      ≤ ∑ j, (m * ((1.0001 * γ + 2.01 * U) * (v j).rv ^ 2) + m * (1 / 2 ^ 870) + m * |(v j).rv ^ 2 - q j ^ 2|) := by
        refine Finset.sum_le_sum fun j _ => ?_
        have h1 := (hw j).1.2
        have h2 := abs_sub_le (F64.mul (F64.mul (v j) (v j)) mh).rv (m * (v j).rv ^ 2) (m * q j ^ 2)
        rw [← mul_sub, abs_mul, abs_of_pos hmp] at h2
        linarith
    _ = m * ((1.0001 * γ + 2.01 * U) * ∑ j, (v j).rv ^ 2) + n * (m * (1 / 2 ^ 870)) + m * ∑ j, |(v j).rv ^ 2 - q j ^ 2| := by
        rw [Finset.sum_add_distrib, Finset.sum_add_distrib, Finset.sum_const, Finset.card_univ, Fintype.card_fin, nsmul_eq_mul, ← Finset.mul_sum,
          ← Finset.mul_sum, ← Finset.mul_sum]
    _ = m * ((1.0001 * γ + 2.01 * U) * ∑ j, (v j).rv ^ 2 + n * (1 / 2 ^ 870) + ∑ j, |(v j).rv ^ 2 - q j ^ 2|) := by ring
    _ ≤ m * (2.01 * ε + 1.03 * γ + 2.2 * U) := by
        refine mul_le_mul_of_nonneg_left ?_ hmp.le
        have h1 : (1.0001 * γ + 2.01 * U) * ∑ j, (v j).rv ^ 2 ≤ (1.0001 * γ + 2.01 * U) * 1.0201 := mul_le_mul_of_nonneg_left hvs (by positivity)
        have h2 : (n : ℝ) * (1 / 2 ^ 870) ≤ 0.1 * U := by
          have : (n : ℝ) ≤ 10 ^ 12 := by exact_mod_cast hn
          calc (n : ℝ) * (1 / 2 ^ 870) ≤ 10 ^ 12 * (1 / 2 ^ 870) := mul_le_mul_of_nonneg_right this (by positivity)
            _ ≤ _ := by unfold U; norm_num
        linarith

/-- Golub-Welsch in binary64 against the exact decomposition of the exact matrix -/
theorem golub_close {ext : Externals F64} {n : ℕ} (hn : 0 < n) (hn1 : n ≤ 10 ^ 12) {ε : ℝ} (hst : StableSolver ext n ε) (hε : 0 ≤ ε) (hε1 : ε ≤ 0.01)
    {ah bh : ℕ → F64} {mh : F64} {a b : ℕ → ℝ} {m γ κ θ : ℝ} (ha : ∀ k < n, Near (ah k) (a k) (θ * κ)) (hb : ∀ k, k + 1 < n → Near (bh k) (b k) (θ * κ))
    (hθκ1 : θ * κ + κ ≤ 2 ^ 400) (hmod : (n = 1 ∧ (ah 0).rv = 0) ∨ (∃ k < n, 1 / 2 ^ 400 ≤ |(ah k).rv|) ∨ ∃ k, k + 1 < n ∧ 1 / 2 ^ 400 ≤ |(bh k).rv|) (haκ : ∀ k < n, |a k| ≤ κ) (hbκ : ∀ k, k + 1 < n → |b k| ≤ κ)
    (hθ : 0 ≤ θ) (hm : Near mh m (γ * m)) (hm0 : 1 / 2 ^ 200 ≤ m) (hm1 : m ≤ 2 ^ 1015) (hγ : 0 ≤ γ) (hγ1 : γ ≤ 0.001)
    {E : SymEigen ℝ n} (hE : IsEigenDecomposition (jacobiMatrix n a b) E) {G : List (ℝ × ℝ)}
    (hG : G.Perm (List.ofFn fun j => (E.eigenvalues j, m * E.eigenvectors ⟨0, hn⟩ j ^ 2))) (hGs : G.Pairwise fun p q => p.1 ≤ q.1) :
    ∃ R, golubWelsch ext n ah bh mh = some R ∧
      CloseRule R G m ((ε * (1 + θ) + θ) * κ * Real.sqrt (3 * n)) (2.01 * ε + 1.03 * γ + 2.2 * U) := by
  obtain ⟨M, hM, hR⟩ := golubWelsch_eq ext hn ah bh mh
  refine ⟨_, hR, ?_⟩
  have hM' : M = fun i j : Fin n => if (i : ℕ) = j then ah i else if (j : ℕ) = i + 1 then bh i else if (i : ℕ) = j + 1 then bh j else lit 0.0 := by
    have := companionMatrix_eq hn ah bh
    rw [hM] at this
    exact Option.some.inj this
  have hzero := lit_zero_val
  have hκ : 0 ≤ κ := (abs_nonneg _).trans (haκ 0 hn)
  have hθκ : 0 ≤ θ * κ := by positivity
  have hmp : 0 < m := lt_of_lt_of_le (by positivity) hm0
  have hN := Real.sqrt_nonneg (3 * n : ℝ)
  have hN2 : Real.sqrt (3 * n : ℝ) ^ 2 = 3 * n := Real.sq_sqrt (by positivity)
  -- the matrix
  have hsymm : ∀ i j, M i j = M j i := by
    intro i j
    rw [hM']
    simp only
    rcases lt_trichotomy (i : ℕ) j with h | h | h
    · rw [if_neg (by omega), if_neg (by omega : ¬ (j : ℕ) = i), if_neg (by omega : ¬ (i : ℕ) = j + 1)]
      simp only [if_neg (by omega : ¬ (i : ℕ) = j + 1)]
    · rw [if_pos h, if_pos h.symm, h]
    · rw [if_neg (by omega), if_neg (by omega : ¬ (j : ℕ) = i), if_neg (by omega : ¬ (j : ℕ) = i + 1)]
      simp only [if_neg (by omega : ¬ (j : ℕ) = i + 1)]
  have hcases : ∀ i j : Fin n, (M i j).isFinite = true ∧ |(M i j).rv - jacobiMatrix n a b i j| ≤ θ * κ ∧ |jacobiMatrix n a b i j| ≤ κ ∧
      ((i : ℕ) ≠ j → (j : ℕ) ≠ i + 1 → (i : ℕ) ≠ j + 1 → (M i j).rv = 0 ∧ jacobiMatrix n a b i j = 0) := by
    intro i j
    have hi := i.2
    have hj := j.2
    rw [hM']
    simp only [jacobiMatrix]
    by_cases e1 : (i : ℕ) = j
    · rw [if_pos e1, if_pos e1]
      exact ⟨(ha _ hi).1, (ha _ hi).2, haκ _ hi, fun h => absurd e1 h⟩
    rw [if_neg e1, if_neg e1]
    by_cases e2 : (j : ℕ) = i + 1
    · rw [if_pos e2, if_pos e2]
      exact ⟨(hb _ (by omega)).1, (hb _ (by omega)).2, hbκ _ (by omega), fun _ h => absurd e2 h⟩
    rw [if_neg e2, if_neg e2]
    by_cases e3 : (i : ℕ) = j + 1
    · rw [if_pos e3, if_pos e3]
      exact ⟨(hb _ (by omega)).1, (hb _ (by omega)).2, hbκ _ (by omega), fun _ _ h => absurd e3 h⟩
    rw [if_neg e3, if_neg e3]
    exact ⟨hzero.1, by rw [hzero.2]; simpa using hθκ, by simpa using hκ, fun _ _ _ => ⟨hzero.2, rfl⟩⟩
  have hmodM : Moderate M := by
    refine ⟨fun i j => ⟨(hcases i j).1, ?_⟩, ?_⟩
    · have h1 := (hcases i j).2.1
      have h2 := (hcases i j).2.2.1
      have h3 := abs_sub_abs_le_abs_sub (M i j).rv (jacobiMatrix n a b i j)
      change |(M i j).rv| ≤ _
      linarith
    · rcases hmod with ⟨rfl, h⟩ | ⟨k, hk, h⟩ | ⟨k, hk, h⟩
      · refine Or.inl fun i j => ?_
        have hi : (i : ℕ) = 0 := by omega
        have hj : (j : ℕ) = 0 := by omega
        rw [hM']
        simp only [hi, hj]
        exact h
      · refine Or.inr ⟨⟨k, hk⟩, ⟨k, hk⟩, ?_⟩
        rw [hM']
        simpa [rv] using h
      · refine Or.inr ⟨⟨k, by omega⟩, ⟨k + 1, hk⟩, ?_⟩
        rw [hM']
        simpa [rv] using h
  obtain ⟨f1, f2, M', Q, g1, g2, g3⟩ := hst M hsymm hmodM
  set S := ext.eig n M with hS
  set η := (ε * (1 + θ) + θ) * κ * Real.sqrt (3 * n) with hη
  have hη0 : 0 ≤ η := by positivity
  have d1 : ∑ i, ∑ j, ((M i j).rv - jacobiMatrix n a b i j) ^ 2 ≤ (θ * κ * Real.sqrt (3 * n)) ^ 2 := by
    refine (frob_tridiag (fun i j => (hcases i j).2.1) fun i j h1 h2 h3 => ?_).trans (le_of_eq ?_)
    · obtain ⟨z1, z2⟩ := (hcases i j).2.2.2 h1 h2 h3
      rw [z1, z2, sub_zero]
    · rw [mul_pow (θ * κ), hN2]; ring
  have d2 : ∑ i, ∑ j, (jacobiMatrix n a b i j) ^ 2 ≤ (κ * Real.sqrt (3 * n)) ^ 2 := by
    refine (frob_tridiag (fun i j => (hcases i j).2.2.1) fun i j h1 h2 h3 => ((hcases i j).2.2.2 h1 h2 h3).2).trans (le_of_eq ?_)
    rw [mul_pow, hN2]; ring
  have d3 : ∑ i, ∑ j, ((M i j).rv) ^ 2 ≤ ((1 + θ) * κ * Real.sqrt (3 * n)) ^ 2 := by
    have := frob_add₂ (by positivity) (by positivity) d1 d2
    simp only [sub_add_cancel] at this
    refine this.trans (le_of_eq ?_)
    ring
  have d4 : ∑ i, ∑ j, (M' i j - (M i j).rv) ^ 2 ≤ (ε * ((1 + θ) * κ * Real.sqrt (3 * n))) ^ 2 := by
    rw [mul_pow]
    exact g2.trans (mul_le_mul_of_nonneg_left d3 (sq_nonneg _))
  have d5 : ∑ i, ∑ j, (M' i j - jacobiMatrix n a b i j) ^ 2 ≤ η ^ 2 := by
    have := frob_add₂ (by positivity) (by positivity) d4 d1
    simp only [sub_add_sub_cancel] at this
    refine this.trans (le_of_eq ?_)
    rw [hη]; ring
  have hC := Perturb.coupling g1 hE d5
  -- the weights
  have hqs : ∑ j, Q ⟨0, hn⟩ j ^ 2 = 1 := by
    have := congrFun (congrFun (Perturb.mul_tr g1) ⟨0, hn⟩) ⟨0, hn⟩
    rw [Matrix.mul_apply, Matrix.one_apply_eq] at this
    rw [← this]
    exact Finset.sum_congr rfl fun j _ => sq _
  have hvq : ∑ j, ((S.eigenvectors ⟨0, hn⟩ j).rv - Q ⟨0, hn⟩ j) ^ 2 ≤ ε ^ 2 :=
    (Finset.single_le_sum (f := fun i => ∑ j, ((S.eigenvectors i j).rv - Q i j) ^ 2) (fun i _ => Finset.sum_nonneg fun j _ => sq_nonneg _)
      (Finset.mem_univ (⟨0, hn⟩ : Fin n))).trans g3
  obtain ⟨w1, w2⟩ := weights_sum hn1 (fun j => f2 ⟨0, hn⟩ j) hqs hvq hε hε1 hm hm0 hm1 hγ hγ1
  have hpairs : eigenPairs hn S mh = List.ofFn fun j : Fin n => (S.eigenvalues j, F64.mul (F64.mul (S.eigenvectors ⟨0, hn⟩ j) (S.eigenvectors ⟨0, hn⟩ j)) mh) := by
    apply List.ext_getElem
    · simp [eigenPairs]
    · intro i h1 h2
      simp [eigenPairs]
      rfl
  have hperm := ext.sort_perm (eigenPairs hn S mh)
  set R := ext.sort (eigenPairs hn S mh) with hRd
  have hRn : R.length = n := by rw [hperm.length_eq, length_eigenPairs]
  have hGn : G.length = n := by rw [hG.length_eq, List.length_ofFn]
  have hmem : ∀ p ∈ R, ∃ j, p = (S.eigenvalues j, F64.mul (F64.mul (S.eigenvectors ⟨0, hn⟩ j) (S.eigenvectors ⟨0, hn⟩ j)) mh) := by
    intro p hp
    rw [hperm.mem_iff, hpairs, List.mem_ofFn] at hp
    exact hp.imp fun j hj => hj.symm
  have hasc : R.Pairwise fun p q => p.1.val ≤ q.1.val := (ext.sort_sorted _).imp fun {p q} h => val_le_of_totalLe h
  have hnodes : ∀ i (h : i < R.length) (h' : i < G.length), |((R[i]).1.val : ℝ) - (G[i]).1| ≤ η := by
    intro i h h'
    have p1 : (R.map fun p => ((p.1.val : ℚ) : ℝ)).Perm (List.ofFn fun j => ((S.eigenvalues j).val : ℝ)) := by
      have := hperm.map fun p => ((p.1.val : ℚ) : ℝ)
      rw [hpairs, List.map_ofFn] at this
      exact this
    have p2 : (G.map fun p => p.1).Perm (List.ofFn E.eigenvalues) := by
      have := hG.map fun p => p.1
      rw [List.map_ofFn] at this
      exact this
    have := hC.sorted_close hη0 p1 p2 (by
      rw [List.pairwise_map]
      exact hasc.imp fun {p q} h => by exact_mod_cast h) (by rw [List.pairwise_map]; exact hGs) (i := i) (by simpa using h) (by simpa using h')
    simpa using this
  refine ⟨⟨hRn.trans hGn.symm, ?_, ?_, hnodes, ?_⟩, hasc⟩
  · intro p hp
    obtain ⟨j, rfl⟩ := hmem p hp
    exact ⟨f1 j, (w1 j).1⟩
  · intro p hp
    obtain ⟨j, rfl⟩ := hmem p hp
    exact (w1 j).2
  · intro g lo hi Λ K hΛ hK0 hin hK hl
    have hRin : ∀ j, ((S.eigenvalues j).val : ℝ) ∈ Set.Icc lo hi := by
      intro j
      have : (S.eigenvalues j, F64.mul (F64.mul (S.eigenvectors ⟨0, hn⟩ j) (S.eigenvectors ⟨0, hn⟩ j)) mh) ∈ R := by
        rw [hperm.mem_iff, hpairs, List.mem_ofFn]; exact ⟨j, rfl⟩
      obtain ⟨i, hi', he⟩ := List.getElem_of_mem this
      have h1 := hnodes i hi' (by omega)
      rw [he] at h1
      have h2 := hin _ (List.getElem_mem (by omega : i < G.length))
      have h3 := _root_.abs_le.1 h1
      exact ⟨by linarith [h2.1], by linarith [h2.2]⟩
    have hGin : ∀ j, E.eigenvalues j ∈ Set.Icc lo hi := by
      intro j
      have : (E.eigenvalues j, m * E.eigenvectors ⟨0, hn⟩ j ^ 2) ∈ G := by rw [hG.mem_iff, List.mem_ofFn]; exact ⟨j, rfl⟩
      have := hin _ this
      exact ⟨by linarith [this.1], by linarith [this.2]⟩
    have e1 : (R.map fun p => (p.2.val : ℝ) * g p.1.val).sum =
        ∑ j, (F64.mul (F64.mul (S.eigenvectors ⟨0, hn⟩ j) (S.eigenvectors ⟨0, hn⟩ j)) mh).rv * g ((S.eigenvalues j).val) := by
      rw [(hperm.map _).sum_eq, hpairs, List.map_ofFn, List.sum_ofFn]
      rfl
    have e2 : quad G g = m * ∑ j, E.eigenvectors ⟨0, hn⟩ j ^ 2 * g (E.eigenvalues j) := by
      unfold quad
      rw [(hG.map _).sum_eq, List.map_ofFn, List.sum_ofFn, Finset.mul_sum]
      exact Finset.sum_congr rfl fun j _ => by simp only [Function.comp]; ring
    have h1 := Perturb.lipschitz g1 hE d5 hη0 hΛ g (fun i j => hl _ (hRin i) _ (hGin j)) ⟨0, hn⟩
    rw [e1, e2]
    have e3 : ∑ j, (F64.mul (F64.mul (S.eigenvectors ⟨0, hn⟩ j) (S.eigenvectors ⟨0, hn⟩ j)) mh).rv * g ((S.eigenvalues j).val) -
        m * ∑ j, E.eigenvectors ⟨0, hn⟩ j ^ 2 * g (E.eigenvalues j) =
        ∑ j, ((F64.mul (F64.mul (S.eigenvectors ⟨0, hn⟩ j) (S.eigenvectors ⟨0, hn⟩ j)) mh).rv - m * Q ⟨0, hn⟩ j ^ 2) * g ((S.eigenvalues j).val) +
        m * (∑ j, Q ⟨0, hn⟩ j ^ 2 * g ((S.eigenvalues j).val) - ∑ j, E.eigenvectors ⟨0, hn⟩ j ^ 2 * g (E.eigenvalues j)) := by
      simp only [sub_mul, Finset.sum_sub_distrib, mul_sub, Finset.mul_sum]
      simp only [mul_assoc]
      ring
    rw [e3]
    refine (abs_add_le _ _).trans ?_
    have h2 : |∑ j, ((F64.mul (F64.mul (S.eigenvectors ⟨0, hn⟩ j) (S.eigenvectors ⟨0, hn⟩ j)) mh).rv - m * Q ⟨0, hn⟩ j ^ 2) * g ((S.eigenvalues j).val)| ≤
        m * (2.01 * ε + 1.03 * γ + 2.2 * U) * K := by
      refine (Finset.abs_sum_le_sum_abs _ _).trans ?_
      refine le_trans ?_ (mul_le_mul_of_nonneg_right w2 hK0)
      rw [Finset.sum_mul]
      refine Finset.sum_le_sum fun j _ => ?_
      rw [abs_mul]
      exact mul_le_mul_of_nonneg_left (hK _ (hRin j)) (abs_nonneg _)
    have h3 : |m * (∑ j, Q ⟨0, hn⟩ j ^ 2 * g ((S.eigenvalues j).val) - ∑ j, E.eigenvectors ⟨0, hn⟩ j ^ 2 * g (E.eigenvalues j))| ≤ m * (Λ * η) := by
      rw [abs_mul, abs_of_pos hmp]
      exact mul_le_mul_of_nonneg_left h1 hmp.le
    linarith

end
end GaussQuad.F64
