import Verif.Proofs.LegendrePoly
import Verif.Proofs.OrthogonalJacobi
import Verif.Proofs.GaussUnique
import Verif.Proofs.GaussSums

/-!
# The true Gauss-Legendre rule: its nodes are the roots of `P_n`, its weights the Christoffel numbers
-/

namespace GaussQuad
open Polynomial Spec MeasureTheory LegendrePoly

theorem jacW_zero : jacW 0 0 = fun _ => 1 := by funext x; simp [jacW]

/-- leading coefficient of `P_n` -/
noncomputable def legLead : ℕ → ℝ
  | 0 => 1
  | n + 1 => legLead n * ((2 * n + 1) / (n + 1))

theorem legLead_pos : ∀ n, 0 < legLead n
  | 0 => one_pos
  | n + 1 => mul_pos (legLead_pos n) (by positivity)

theorem jacA_zero (k : ℕ) : jacA 0 0 k = 0 := by unfold jacA; split <;> simp

theorem jacB_zero (k : ℕ) : jacB 0 0 k ^ 2 = (k + 1) ^ 2 / ((2 * k + 1) * (2 * k + 3)) := by
  rw [jacB_sq (by norm_num) (by norm_num) (by norm_num)]
  have h1 : (2 * (k : ℝ) + 1) ≠ 0 := by positivity
  have h2 : (2 * (k : ℝ) + 3) ≠ 0 := by positivity
  have h3 : ((k : ℝ) + 1) ≠ 0 := by positivity
  have e1 : 2 * ((k : ℝ) + 1) + 0 + 0 + 1 = 2 * k + 3 := by ring
  have e2 : 2 * ((k : ℝ) + 1) + 0 + 0 - 1 = 2 * k + 1 := by ring
  have e3 : 2 * ((k : ℝ) + 1) + 0 + 0 = 2 * (k + 1) := by ring
  rw [e1, e2, e3]
  field_simp
  ring

/-- the Legendre polynomials are the monic polynomials of the Jacobi recurrence, rescaled -/
theorem legendre_monic : ∀ n : ℕ, legendreP n = C (legLead n) * monicSeq (jacA 0 0) (jacB 0 0) n
  | 0 => by simp [legendreP, legLead, monicSeq]
  | 1 => by simp [legendreP, legLead, monicSeq, jacA_zero]
  | k + 2 => by
    have h1 := legendre_monic (k + 1)
    have h0 := legendre_monic k
    have hk : (k : ℝ) + 2 ≠ 0 := by positivity
    have hk1 : (k : ℝ) + 1 ≠ 0 := by positivity
    have hk2 : 2 * (k : ℝ) + 1 ≠ 0 := by positivity
    have hk3 : 2 * (k : ℝ) + 3 ≠ 0 := by positivity
    have e1 : legLead (k + 2) = (2 * k + 3) / (k + 2) * legLead (k + 1) := by
      rw [legLead]; push_cast; rw [mul_comm]; congr 2 <;> ring
    have e2 : legLead (k + 2) * jacB 0 0 k ^ 2 = (k + 1) / (k + 2) * legLead k := by
      rw [e1, legLead, jacB_zero]; field_simp
    rw [legendreP, h1, h0, monicSeq, jacA_zero, mul_sub, ← mul_assoc (C (legLead (k + 2))) (C (jacB 0 0 k ^ 2)), ← C_mul, e2, e1,
      C_mul, C_mul, C_0]
    ring

theorem legendre_natDegree (n : ℕ) : (legendreP n).natDegree = n := by
  rw [legendre_monic, natDegree_C_mul (legLead_pos n).ne', (monicSeq_degree _ _ n).2]

theorem legendre_ne_zero (n : ℕ) : legendreP n ≠ 0 := by
  rw [legendre_monic]
  exact mul_ne_zero (C_ne_zero.2 (legLead_pos n).ne') (monicSeq_degree _ _ n).1.ne_zero

theorem integrable_one (p : ℝ[X]) : IntegrableOn (fun x => p.eval x * (1 : ℝ)) (Set.Ioo (-1) 1) := by
  have := integrable_jacobi (α := 0) (β := 0) (by norm_num) (by norm_num) p
  rwa [jacW_zero] at this

/-- the integral over `(-1, 1)` as a linear functional on polynomials -/
noncomputable def legInt : ℝ[X] →ₗ[ℝ] ℝ := weightFunctional (Set.Ioo (-1) 1) (fun _ => 1) integrable_one

theorem legInt_apply (p : ℝ[X]) : legInt p = weightIntegral (Set.Ioo (-1) 1) (fun _ => 1) p := rfl

theorem legInt_monic (m : ℕ) (hm : 1 ≤ m) : legInt (monicSeq (jacA 0 0) (jacB 0 0) m) = 0 := by
  have := jacobi_orthogonal (α := 0) (β := 0) (by norm_num) (by norm_num) (by norm_num) m hm
  rw [weightFunctional_apply, jacW_zero] at this
  exact this

theorem legInt_one : legInt 1 = 2 := by
  rw [legInt_apply, weightIntegral, setIntegral_Ioo_eq_interval (by norm_num)]
  simp; norm_num

/-- orthogonality -/
theorem legInt_orthogonal {q : ℝ[X]} {n : ℕ} (hq : q.degree < n) : legInt (q * legendreP n) = 0 := by
  rw [legendre_monic, mul_left_comm, ← smul_eq_C_mul, map_smul, functional_orthogonal' legInt_monic hq, smul_zero]

theorem degree_legendre (n : ℕ) : (legendreP n).degree = n := by
  rw [degree_eq_natDegree (legendre_ne_zero n), legendre_natDegree]

theorem legInt_ne {j k : ℕ} (h : j ≠ k) : legInt (legendreP j * legendreP k) = 0 := by
  rcases Nat.lt_or_gt_of_ne h with h | h
  · exact legInt_orthogonal (by rw [degree_legendre]; exact_mod_cast h)
  · rw [mul_comm]; exact legInt_orthogonal (by rw [degree_legendre]; exact_mod_cast h)

/-- the norms of the Legendre polynomials -/
theorem legInt_norm (k : ℕ) : legInt (legendreP k * legendreP k) = 2 / (2 * k + 1) := by
  have key : ∀ k : ℕ, (2 * k + 3) * legInt (legendreP (k + 1) * legendreP (k + 1)) = (2 * k + 1) * legInt (legendreP k * legendreP k) := by
    intro k
    -- recurrence times `P_k` and times `P_{k+1}`
    have hk : (k : ℝ) + 2 ≠ 0 := by positivity
    have hk1 : (k : ℝ) + 1 ≠ 0 := by positivity
    have a1 : (2 * k + 3) * legInt (X * legendreP (k + 1) * legendreP k) = (k + 1) * legInt (legendreP k * legendreP k) := by
      have h := legInt_ne (show k + 2 ≠ k by omega)
      rw [legendreP] at h
      have e : (C ((2 * k + 3) / (k + 2) : ℝ) * X * legendreP (k + 1) - C ((k + 1) / (k + 2) : ℝ) * legendreP k) * legendreP k =
          ((2 * k + 3) / (k + 2) : ℝ) • (X * legendreP (k + 1) * legendreP k) - ((k + 1) / (k + 2) : ℝ) • (legendreP k * legendreP k) := by
        rw [smul_eq_C_mul, smul_eq_C_mul]; ring
      rw [e, map_sub, map_smul, map_smul, smul_eq_mul, smul_eq_mul] at h
      field_simp at h
      linarith
    have a2 : (2 * k + 1) * legInt (X * legendreP (k + 1) * legendreP k) = (k + 1) * legInt (legendreP (k + 1) * legendreP (k + 1)) := by
      cases k with
      | zero => simp [legendreP]
      | succ k =>
        have hk' : (k : ℝ) + 2 ≠ 0 := by positivity
        have h := legInt_ne (show k ≠ k + 2 by omega)
        have e : legendreP (k + 2) * legendreP (k + 2) = ((2 * k + 3) / (k + 2) : ℝ) • (X * legendreP (k + 2) * legendreP (k + 1)) -
            ((k + 1) / (k + 2) : ℝ) • (legendreP k * legendreP (k + 2)) := by
          rw [smul_eq_C_mul, smul_eq_C_mul]
          conv_lhs => enter [1]; rw [legendreP]
          ring
        rw [show k + 1 + 1 = k + 2 from rfl, e, map_sub, map_smul, map_smul, h, smul_zero, sub_zero, smul_eq_mul]
        push_cast
        field_simp
        ring
    have : ((k : ℝ) + 1) * ((2 * k + 3) * legInt (legendreP (k + 1) * legendreP (k + 1))) =
        (k + 1) * ((2 * k + 1) * legInt (legendreP k * legendreP k)) := by
      linear_combination (2 * k + 1) * a1 - (2 * k + 3) * a2
    exact mul_left_cancel₀ hk1 this
  have h0 : ∀ k : ℕ, (2 * k + 1) * legInt (legendreP k * legendreP k) = 2 := by
    intro k
    induction k with
    | zero => simp [legendreP, legInt_one]
    | succ k ih =>
      have := key k
      push_cast
      have e : (2 * ((k : ℝ) + 1) + 1) = 2 * k + 3 := by ring
      rw [e, this]; exact ih
  rw [eq_div_iff (by positivity), mul_comm]
  exact h0 k

/-- there is a Gauss-Legendre rule of every degree -/
theorem exists_gauss_legendre {n : ℕ} (hn : 0 < n) : ∃ G : List (ℝ × ℝ), G.length = n ∧ G.Pairwise (fun p q => p.1 ≤ q.1) ∧
    ExactUpTo G (2 * n - 1) (Set.Ioo (-1) 1) (fun _ => 1) 1 := by
  obtain ⟨L, -, h1, h2, h3⟩ := golubWelsch_exact exactSolver_exists hn (jacA 0 0) (jacB 0 0) 2 legInt_monic (by rw [legInt_one]; norm_num)
  refine ⟨L, h1, h2, fun p hp => ?_⟩
  rw [h3 p hp, legInt_one, legInt_apply]; norm_num

/-- the Christoffel number `2 / Σ_{k<n} (2k+1) P_k(x)²` -/
noncomputable def legOmega (n : ℕ) (x : ℝ) : ℝ := 2 / ∑ k ∈ Finset.range n, (2 * k + 1) * P k x ^ 2

theorem posDef_one' : PosDef (Set.Ioo (-1) 1) fun _ => 1 := by
  have := posDef_jacobi (α := 0) (β := 0) (by norm_num) (by norm_num)
  rwa [jacW_zero] at this

section
variable {n : ℕ} {G : List (ℝ × ℝ)} (hn : 0 < n) (hlen : G.length = n)
  (hex : ExactUpTo G (2 * n - 1) (Set.Ioo (-1) 1) (fun _ => 1) 1)
include hn hlen hex

/-- the nodes are roots of `P_n` -/
theorem true_root : ∀ p ∈ G, P n p.1 = 0 := by
  subst hlen
  intro p hp
  obtain ⟨i, hi⟩ := List.get_of_mem hp
  obtain ⟨hw, ho⟩ := gauss_local one_pos hex posDef_one' i
  have hdeg : (others G i * legendreP G.length).natDegree ≤ 2 * G.length - 1 := by
    refine natDegree_mul_le.trans ?_
    rw [others_natDegree, legendre_natDegree]; omega
  have h := hex _ hdeg
  rw [one_mul, ← legInt_apply, legInt_orthogonal (by
    rw [degree_eq_natDegree (others_monic i).ne_zero, others_natDegree]
    exact_mod_cast Nat.sub_lt hn one_pos), quad_fin, Finset.sum_eq_single i] at h
  · rw [eval_mul] at h
    rcases mul_eq_zero.1 h with h | h
    · exact absurd h hw.ne'
    · rcases mul_eq_zero.1 h with h | h
      · exact absurd h ho
      · rw [← hi]; exact h
  · intro k _ hk
    rw [eval_mul, others_eval i k hk]; simp
  · simp

/-- the weights are the Christoffel numbers -/
theorem true_weight : ∀ p ∈ G, p.2 = legOmega n p.1 := by
  subst hlen
  intro p hp
  obtain ⟨i, hi⟩ := List.get_of_mem hp
  let B : Matrix (Fin G.length) (Fin G.length) ℝ := Matrix.of fun k i => (2 * (k : ℕ) + 1) / 2 * P k (G.get i).1 * (G.get i).2
  let D : Matrix (Fin G.length) (Fin G.length) ℝ := Matrix.of fun i k => P k (G.get i).1
  have hBD : B * D = 1 := by
    ext k l
    rw [Matrix.mul_apply, Matrix.one_apply]
    have h := hex (legendreP k * legendreP l) (natDegree_mul_le.trans (by rw [legendre_natDegree, legendre_natDegree]; omega))
    rw [one_mul, ← legInt_apply, quad_fin] at h
    have e : ∑ j, B k j * D j l = (2 * (k : ℕ) + 1) / 2 * legInt (legendreP k * legendreP l) := by
      rw [← h, Finset.mul_sum]
      apply Finset.sum_congr rfl
      intro j _
      simp only [B, D, Matrix.of_apply, eval_mul, P]
      ring
    rw [e]
    split_ifs with hkl
    · subst hkl
      rw [legInt_norm]
      have : (2 * ((k : ℕ) : ℝ) + 1) ≠ 0 := by positivity
      field_simp
    · rw [legInt_ne (fun h => hkl (Fin.ext h)), mul_zero]
  have hDB := mul_eq_one_comm.1 hBD
  have h := congrFun (congrFun hDB i) i
  rw [Matrix.mul_apply, Matrix.one_apply_eq] at h
  have e : (∑ k ∈ Finset.range G.length, (2 * k + 1) * P k p.1 ^ 2) * p.2 = 2 := by
    rw [← hi, Finset.sum_range (fun k => (2 * (k : ℝ) + 1) * P k (G.get i).1 ^ 2), Finset.sum_mul]
    refine Eq.trans ?_ (show 2 * (∑ j, D i j * B j i) = 2 by rw [h, mul_one])
    rw [Finset.mul_sum]
    apply Finset.sum_congr rfl
    intro k _
    simp only [B, D, Matrix.of_apply]
    ring
  have hne : (∑ k ∈ Finset.range G.length, (2 * k + 1) * P k p.1 ^ 2) ≠ 0 := by
    intro h0; rw [h0, zero_mul] at e; norm_num at e
  rw [legOmega, eq_div_iff hne, mul_comm]; exact e

end

/-- any `n` distinct roots of `P_n`, with the Christoffel numbers as weights, form the Gauss rule -/
theorem gauss_of_roots {n : ℕ} (hn : 0 < n) {R : List ℝ} (hR : R.length = n) (hnd : R.Nodup) (hroot : ∀ x ∈ R, P n x = 0) :
    ExactUpTo (R.map fun x => (x, legOmega n x)) (2 * n - 1) (Set.Ioo (-1) 1) (fun _ => 1) 1 := by
  obtain ⟨G, h1, -, h2⟩ := exists_gauss_legendre hn
  have hG : G = (G.map Prod.fst).map fun x => (x, legOmega n x) := by
    rw [List.map_map]
    conv_lhs => rw [← List.map_id G]
    apply List.map_congr_left
    intro p hp
    simp only [id, Function.comp]
    rw [← true_weight hn h1 h2 p hp]
  have hGnd : (G.map Prod.fst).Nodup := gauss_nodes_nodup one_pos (by rw [h1]; exact h2) posDef_one'
  have hsub : ∀ {l : List ℝ}, l.length = n → l.Nodup → (∀ x ∈ l, P n x = 0) → l.toFinset = (legendreP n).roots.toFinset := by
    intro l hl hn' hr
    apply Finset.eq_of_subset_of_card_le
    · intro x hx
      rw [Multiset.mem_toFinset, mem_roots (legendre_ne_zero n)]
      exact hr x (List.mem_toFinset.1 hx)
    · rw [List.toFinset_card_of_nodup hn', hl]
      calc (legendreP n).roots.toFinset.card ≤ (legendreP n).roots.card := Multiset.toFinset_card_le _
        _ ≤ (legendreP n).natDegree := card_roots' _
        _ = n := legendre_natDegree n
  have hperm : R.Perm (G.map Prod.fst) := by
    rw [List.perm_ext_iff_of_nodup hnd hGnd]
    intro x
    rw [← List.mem_toFinset, ← List.mem_toFinset (l := G.map Prod.fst), hsub hR hnd hroot, hsub (by simpa using h1) hGnd]
    intro x hx
    obtain ⟨p, hp, rfl⟩ := List.mem_map.1 hx
    exact true_root hn h1 h2 p hp
  intro p hp
  rw [quad_perm (hperm.map fun x => (x, legOmega n x)), ← hG]
  exact h2 p hp

/-- the Christoffel number through `P_{n-1}` only, up to the energy -/
theorem legOmega_eq (n : ℕ) (x : ℝ) : legOmega (n + 1) x * ((n + 1) ^ 2 * E n x) = 2 * (1 - x ^ 2) := by
  rw [← christoffel n x, legOmega]
  have : 0 < ∑ k ∈ Finset.range (n + 1), (2 * (k : ℝ) + 1) * P k x ^ 2 := by
    apply Finset.sum_pos'
    · intro k _; positivity
    · exact ⟨0, by simp, by simp⟩
  field_simp

end GaussQuad
