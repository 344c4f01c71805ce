import Verif.Proofs.F64Golub
import Verif.Proofs.GolubRules
import Verif.Proofs.F64Chebyshev
import Verif.Proofs.F64Bessel
import Verif.Spec.Backend

/-! The Hermite rule in binary64. -/

set_option exponentiation.threshold 3000

namespace GaussQuad.F64
open FloatOps Spec MeasureTheory Polynomial

/-- every Gauss rule of a weight function comes from the eigen-decomposition of the matrix of its recurrence -/
theorem gauss_decomposition {n : ℕ} (hn : 0 < n) (a b : ℕ → ℝ) {S : Set ℝ} {w : ℝ → ℝ} {m : ℝ}
    (hint : ∀ p : ℝ[X], IntegrableOn (fun x => p.eval x * w x) S) (hpos : PosDef S w) (hmass : ∫ x in S, w x = m) (hm : 0 < m)
    (h : ∀ m, 1 ≤ m → weightFunctional S w hint (monicSeq a b m) = 0) {G : List (ℝ × ℝ)} (hG : G.length = n) (hex : ExactUpTo G (2 * n - 1) S w 1) :
    ∃ E : SymEigen ℝ n, IsEigenDecomposition (jacobiMatrix n a b) E ∧
      G.Perm (List.ofFn fun j => (E.eigenvalues j, m * E.eigenvectors ⟨0, hn⟩ j ^ 2)) := by
  obtain ⟨E, hE⟩ := exists_eigen (jacobiMatrix n a b) (jacobiMatrix_symm n a b)
  refine ⟨E, hE, ?_⟩
  have h1 : weightFunctional S w hint 1 = m := by
    rw [weightFunctional_apply, weightIntegral, ← hmass]; simp
  set L := List.ofFn fun j => (E.eigenvalues j, m * E.eigenvectors ⟨0, hn⟩ j ^ 2) with hL
  have hLn : L.length = n := List.length_ofFn
  have hexL : ExactUpTo L (2 * L.length - 1) S w 1 := by
    intro p hp
    rw [hLn] at hp
    have := spectral_exact hE hn h hp
    rw [h1, weightFunctional_apply] at this
    rw [one_mul, this, spectralFunctional_apply, quad, hL, List.map_ofFn, List.sum_ofFn, Finset.mul_sum]
    exact Finset.sum_congr rfl fun j _ => by simp only [Function.comp]; ring
  have := gauss_unique (c := 1) (c' := 1) one_pos one_pos (hG.trans hLn.symm) hexL (by rw [hLn]; exact hex) hpos
  simp only [div_one, one_mul] at this
  rw [show (L.map fun p => (p.1, p.2)) = L by simp] at this
  exact this.symm

/-- the eigenvalues are bounded by the absolute row sums -/
theorem eig_le {n : ℕ} {A : Fin n → Fin n → ℝ} {E : SymEigen ℝ n} (hE : IsEigenDecomposition A E) {ρ : ℝ} (hρ : ∀ i, ∑ k, |A i k| ≤ ρ) (j : Fin n) :
    |E.eigenvalues j| ≤ ρ := by
  obtain ⟨r, -, hr⟩ := Finset.exists_max_image Finset.univ (fun i => |E.eigenvectors i j|) ⟨j, Finset.mem_univ _⟩
  have hne : 0 < |E.eigenvectors r j| := by
    rcases (abs_nonneg (E.eigenvectors r j)).eq_or_lt with h | h
    · exfalso
      have hz : ∀ i, E.eigenvectors i j = 0 := fun i => abs_nonpos_iff.1 ((hr i (Finset.mem_univ _)).trans h.symm.le)
      have := hE.orthonormal j j
      simp [hz] at this
    · exact h
  have h1 : |E.eigenvalues j| * |E.eigenvectors r j| ≤ ρ * |E.eigenvectors r j| := by
    rw [← abs_mul, ← hE.eigen r j]
    refine (Finset.abs_sum_le_sum_abs _ _).trans ?_
    calc ∑ k, |A r k * E.eigenvectors k j| ≤ ∑ k, |A r k| * |E.eigenvectors r j| := Finset.sum_le_sum fun k _ => by
          rw [abs_mul]; exact mul_le_mul_of_nonneg_left (hr k (Finset.mem_univ _)) (abs_nonneg _)
      _ = (∑ k, |A r k|) * |E.eigenvectors r j| := by rw [Finset.sum_mul]
      _ ≤ _ := mul_le_mul_of_nonneg_right (hρ r) hne.le
  exact le_of_mul_le_mul_right h1 hne

theorem jacobiMatrix_row {n : ℕ} {a b : ℕ → ℝ} {p q : ℝ} (ha : ∀ k < n, |a k| ≤ p) (hb : ∀ k, k + 1 < n → |b k| ≤ q) (hq : 0 ≤ q) (i : Fin n) :
    ∑ k, |jacobiMatrix n a b i k| ≤ p + 2 * q := by
  have hp : 0 ≤ p := (abs_nonneg _).trans (ha i i.2)
  have h1 : ∀ k : Fin n, |jacobiMatrix n a b i k| ≤
      (if (i : ℕ) = k then p else 0) + (if (k : ℕ) = i + 1 then q else 0) + (if (i : ℕ) = k + 1 then q else 0) := by
    intro k
    have hi := i.2
    have hk := k.2
    unfold jacobiMatrix
    by_cases e1 : (i : ℕ) = k
    · rw [if_pos e1, if_pos e1, if_neg (by omega), if_neg (by omega)]; linarith [ha i hi]
    by_cases e2 : (k : ℕ) = i + 1
    · rw [if_neg e1, if_pos e2, if_neg e1, if_pos e2, if_neg (by omega)]; linarith [hb i (by omega)]
    by_cases e3 : (i : ℕ) = k + 1
    · rw [if_neg e1, if_neg e2, if_pos e3, if_neg e1, if_neg e2, if_pos e3]; linarith [hb k (by omega)]
    rw [if_neg e1, if_neg e2, if_neg e3, if_neg e1, if_neg e2, if_neg e3]; simp
  have aux : ∀ (r : ℝ), 0 ≤ r → ∀ P : Fin n → Prop, [DecidablePred P] → (∀ j j', P j → P j' → j = j') → ∑ j, (if P j then r else 0) ≤ r := by
    intro r hr P _ hP
    rw [← Finset.sum_filter, Finset.sum_const, nsmul_eq_mul]
    have : (Finset.univ.filter P).card ≤ 1 := Finset.card_le_one.2 fun a ha b hb => hP a b (Finset.mem_filter.1 ha).2 (Finset.mem_filter.1 hb).2
    have : ((Finset.univ.filter P).card : ℝ) ≤ 1 := by exact_mod_cast this
    nlinarith
  refine (Finset.sum_le_sum fun k _ => h1 k).trans ?_
  rw [Finset.sum_add_distrib, Finset.sum_add_distrib]
  have a1 := aux p hp (fun j => (i : ℕ) = j) fun j j' h h' => by ext; omega
  have a2 := aux q hq (fun j => (j : ℕ) = i + 1) fun j j' h h' => by ext; omega
  have a3 := aux q hq (fun j => (i : ℕ) = j + 1) fun j j' h h' => by ext; omega
  linarith

theorem quad_one {n : ℕ} {S : Set ℝ} {w : ℝ → ℝ} {m : ℝ} (hmass : ∫ x in S, w x = m) {G : List (ℝ × ℝ)} (hex : ExactUpTo G n S w 1) :
    quad G (fun _ => 1) = m := by
  have := hex 1 (by simp)
  simpa [weightIntegral, hmass] using this

theorem herm_b_le {n : ℕ} (k : ℕ) (hk : k + 1 < n) : |hermB k| ≤ Real.sqrt (n / 2) := by
  unfold hermB
  rw [abs_of_nonneg (Real.sqrt_nonneg _)]
  refine Real.sqrt_le_sqrt ?_
  have : (k : ℝ) + 1 < n := by exact_mod_cast hk
  linarith

/-- the nodes of the Gauss-Hermite rule -/
theorem herm_nodes {n : ℕ} (hn : 0 < n) {G : List (ℝ × ℝ)} (hG : G.length = n) (hex : ExactUpTo G (2 * n - 1) Set.univ hermW 1) :
    ∀ q ∈ G, |q.1| ≤ Real.sqrt (2 * n) := by
  obtain ⟨E, hE, hGE⟩ := gauss_decomposition hn hermA hermB integrable_hermite posDef_hermite hermite_mass (Real.sqrt_pos.2 Real.pi_pos) hermite_orthogonal hG hex
  intro q hq
  rw [hGE.mem_iff, List.mem_ofFn] at hq
  obtain ⟨j, rfl⟩ := hq
  have h := eig_le hE (jacobiMatrix_row (p := 0) (fun k _ => by rw [hermA, abs_zero]) herm_b_le (Real.sqrt_nonneg _)) j
  refine h.trans (le_of_eq ?_)
  rw [zero_add, show (2 * n : ℝ) = 2 ^ 2 * (n / 2) by ring, Real.sqrt_mul (by norm_num), Real.sqrt_sq (by norm_num)]

section
variable [L : Libm]

theorem sqrt_rel (hs : AccurateSqrt L) {x : F64} {r c : ℝ} (hx : Rel x r c) (hr : 0 < r) (hc0 : 0 ≤ c) (hc : c ≤ 100000) :
    Rel (FloatOps.sqrt x : F64) (Real.sqrt r) (0.51 * c + 2.01) := by
  have hU := U_pos
  have hU1 := U_le_eta
  obtain ⟨a, ha, e⟩ := hx.exists hr.ne'
  have hcU : c * U ≤ 100000 * (1 / 10 ^ 15) := mul_le_mul hc hU1 hU.le (by norm_num)
  have hcU0 : 0 ≤ c * U := by positivity
  have ha1 := _root_.abs_le.1 (ha.trans hcU)
  have hx0 : 0 < x.rv := by rw [e]; exact mul_pos hr (by linarith [ha1.1])
  obtain ⟨f1, f2⟩ := hs x hx.1 hx0
  refine ⟨f1, ?_⟩
  change |(FloatOps.sqrt x : F64).rv - Real.sqrt x.rv| ≤ 1 / 2 ^ 52 * Real.sqrt x.rv at f2
  have hr' := Real.sqrt_pos.2 hr
  rw [e, Real.sqrt_mul hr.le] at f2
  have hq0 := Real.sqrt_nonneg (1 + a)
  have hq2 : Real.sqrt (1 + a) ^ 2 = 1 + a := Real.sq_sqrt (by linarith [ha1.1])
  obtain ⟨q, hq⟩ : ∃ q, q = Real.sqrt (1 + a) := ⟨_, rfl⟩
  rw [← hq] at f2 hq0 hq2
  have hqa : 0.99 ≤ q := by nlinarith
  have hqb : q ≤ 1.001 := by nlinarith
  have hq1 : |q - 1| ≤ 0.509 * (c * U) := by
    have h1 : (q - 1) * (q + 1) = a := by linarith
    have h2 : |q - 1| * (q + 1) = |a| := by rw [← h1, abs_mul, abs_of_pos (by linarith : 0 < q + 1)]
    have h3 : |q - 1| * 1.99 ≤ |q - 1| * (q + 1) := mul_le_mul_of_nonneg_left (by linarith) (abs_nonneg _)
    linarith
  rw [abs_of_pos hr']
  calc |(FloatOps.sqrt x : F64).rv - Real.sqrt r| ≤ |(FloatOps.sqrt x : F64).rv - Real.sqrt r * q| + |Real.sqrt r * q - Real.sqrt r| := abs_sub_le _ _ _
    _ = |(FloatOps.sqrt x : F64).rv - Real.sqrt r * q| + Real.sqrt r * |q - 1| := by
        rw [← abs_of_pos hr', ← abs_mul, abs_of_pos hr', mul_sub, mul_one]
    _ ≤ 1 / 2 ^ 52 * (Real.sqrt r * q) + Real.sqrt r * |q - 1| := by linarith
    _ = Real.sqrt r * (2 * U * q + |q - 1|) := by unfold U; ring
    _ ≤ Real.sqrt r * (2 * U * 1.001 + 0.509 * (c * U)) := by gcongr
    _ ≤ Real.sqrt r * ((0.51 * c + 2.01) * U) := mul_le_mul_of_nonneg_left (by linarith) hr'.le
    _ = _ := by ring

omit L in
theorem Rel.lower {x : F64} {r c : ℝ} (hx : Rel x r c) (hc0 : 0 ≤ c) (hc : c ≤ 100000) (h1 : 1 / 2 ^ 390 ≤ |r|) : 1 / 2 ^ 400 ≤ |x.rv| := by
  have hU := U_pos
  have hcU : c * U ≤ 100000 * (1 / 10 ^ 15) := mul_le_mul hc U_le_eta hU.le (by norm_num)
  have h3 := hx.2.trans (mul_le_mul_of_nonneg_right hcU (abs_nonneg r))
  have h5 := abs_sub_abs_le_abs_sub r x.rv
  rw [abs_sub_comm] at h5
  have : (1 : ℝ) / 2 ^ 400 ≤ 0.9 * (1 / 2 ^ 390) := by norm_num
  linarith

theorem herm_offDiag (hs : AccurateSqrt L) {k : ℕ} (hk : k < 10 ^ 12) : Rel (GaussHermite.offDiag k : F64) (hermB k) 3.2 := by
  have h1 : IsNat (F64.add (lit 1.0 : F64) (ofNat k)) (1 + k) := lit_one_isNat.add (ofNat_isNat (by omega)) (by omega)
  have hk' : (k : ℝ) < 10 ^ 12 := by exact_mod_cast hk
  have hk0 : (0 : ℝ) ≤ k := by positivity
  have e : ((1 + k : ℕ) : ℝ) = 1 + k := by push_cast; ring
  have h2 := h1.rel
  rw [e] at h2
  have hp : 0 < (1 + (k : ℝ)) * (1 / 2) := by positivity
  have h3 := h2.mul lit_half_rel (d := 1.001) (by rw [abs_of_pos hp]; exact le_trans (by norm_num : (1 : ℝ) / 2 ^ 900 ≤ 1 / 2) (by linarith))
    (by rw [abs_of_pos hp]; exact le_trans (by linarith : _ ≤ (10 : ℝ) ^ 12) (by norm_num)) le_rfl le_rfl (by norm_num) (by norm_num) (by norm_num)
  exact (sqrt_rel hs h3 hp (by norm_num) (by norm_num)).mono (by norm_num)

/-- the Hermite rule -/
theorem hermite_close (hs : AccurateSqrt L) {ext : Externals F64} {n : ℕ} (hn : 0 < n) (hn1 : n ≤ 10 ^ 12) {ε : ℝ} (hst : StableSolver ext n ε) (hε : 0 ≤ ε)
    (hε1 : ε ≤ 0.01) {G : List (ℝ × ℝ)} (hG : G.length = n) (hGs : G.Pairwise fun p q => p.1 ≤ q.1) (hex : ExactUpTo G (2 * n - 1) Set.univ hermW 1) :
    ∃ r, GaussHermite.new ext n = some r ∧ CloseRule r.nodeWeightPairs G (Real.sqrt Real.pi) (1.23 * n * (ε + 4 * U)) (2.01 * ε + 5 * U) := by
  have hU := U_pos
  have hU1 := U_le_eta
  have hn0 : (0 : ℝ) < n := by exact_mod_cast hn
  have hn1' : (n : ℝ) ≤ 10 ^ 12 := by exact_mod_cast hn1
  have hpi : 0 < Real.sqrt Real.pi := Real.sqrt_pos.2 Real.pi_pos
  have hpi1 : 1 ≤ Real.sqrt Real.pi := Real.one_le_sqrt.2 (by linarith [Real.pi_gt_three])
  have hpi2 : Real.sqrt Real.pi ≤ 2 := Real.sqrt_le_iff.2 ⟨by norm_num, by linarith [Real.pi_le_four]⟩
  obtain ⟨E, hE, hGE⟩ := gauss_decomposition hn hermA hermB integrable_hermite posDef_hermite hermite_mass hpi hermite_orthogonal hG hex
  have hm : Near (FloatOps.sqrt (pi : F64) : F64) (Real.sqrt Real.pi) (2.2 * U * Real.sqrt Real.pi) := by
    have := (sqrt_rel hs pi_rel Real.pi_pos (by norm_num) (by norm_num)).near.mono (δ := 2.2 * U * Real.sqrt Real.pi) (by
      rw [abs_of_pos hpi]
      exact mul_le_mul_of_nonneg_right (by linarith) hpi.le)
    exact this
  have hb0 : ∀ k, 0.7 ≤ hermB k := by
    intro k
    refine Real.le_sqrt_of_sq_le ?_
    have : (0 : ℝ) ≤ k := by positivity
    linarith
  have hbκ : ∀ k, k + 1 < n → |hermB k| ≤ Real.sqrt (n / 2) := fun k hk => herm_b_le k hk
  obtain ⟨R, hR, hC⟩ := golub_close (κ := Real.sqrt (n / 2)) (θ := 3.2 * U) (ah := GaussHermite.diag) (bh := GaussHermite.offDiag) hn hn1 hst hε hε1
    (a := hermA) (b := hermB)
    (fun k _ => ⟨lit_zero_val.1, by
      have : (GaussHermite.diag k : F64).rv = 0 := lit_zero_val.2
      rw [this, hermA, sub_zero, abs_zero]; positivity⟩)
    (fun k hk => (herm_offDiag hs (by omega)).near.mono (mul_le_mul_of_nonneg_left (hbκ k hk) (by positivity)))
    (by
      have h1 : Real.sqrt (n / 2) ≤ 10 ^ 12 := Real.sqrt_le_iff.2 ⟨by norm_num, by linarith [show (10 : ℝ) ^ 12 ≤ (10 ^ 12) ^ 2 by norm_num]⟩
      have h0 := Real.sqrt_nonneg ((n : ℝ) / 2)
      have h2 : 3.2 * U * Real.sqrt (n / 2) ≤ 1 * Real.sqrt (n / 2) := mul_le_mul_of_nonneg_right (by linarith) h0
      linarith [show (2 : ℝ) * 10 ^ 12 ≤ 2 ^ 400 by norm_num])
    (by
      rcases Nat.lt_or_ge 1 n with h | h
      · refine Or.inr (Or.inr ⟨0, h, (herm_offDiag hs (by norm_num)).lower (by norm_num) (by norm_num) ?_⟩)
        rw [abs_of_nonneg (by linarith [hb0 0])]
        exact le_trans (by norm_num) (hb0 0)
      · exact Or.inl ⟨by omega, lit_zero_val.2⟩)
    (fun k _ => by rw [hermA, abs_zero]; positivity) hbκ (by positivity) hm
    (le_trans (by norm_num) hpi1) (hpi2.trans (by norm_num)) (by positivity) (by linarith) hE hGE hGs
  refine ⟨⟨R⟩, ?_, hC.mono hpi.le ?_ (by linarith)⟩
  · simp only [GaussHermite.new, hR]; rfl
  · have h1 : Real.sqrt (n / 2) * Real.sqrt (3 * n) ≤ 1.225 * n := by
      rw [← Real.sqrt_mul (by positivity)]
      refine Real.sqrt_le_iff.2 ⟨by positivity, ?_⟩
      nlinarith
    have h2 : 0 ≤ ε * (1 + 3.2 * U) + 3.2 * U := by positivity
    calc (ε * (1 + 3.2 * U) + 3.2 * U) * Real.sqrt (n / 2) * Real.sqrt (3 * n) = (ε * (1 + 3.2 * U) + 3.2 * U) * (Real.sqrt (n / 2) * Real.sqrt (3 * n)) := by ring
      _ ≤ (ε * (1 + 3.2 * U) + 3.2 * U) * (1.225 * n) := mul_le_mul_of_nonneg_left h1 h2
      _ = 1.225 * n * (ε * (1 + 3.2 * U) + 3.2 * U) := by ring
      _ ≤ 1.225 * n * (ε + 3.98 * U) := by
          refine mul_le_mul_of_nonneg_left ?_ (by positivity)
          have : ε * U ≤ 0.01 * U := mul_le_mul_of_nonneg_right hε1 hU.le
          linarith
      _ ≤ 1.23 * n * (ε + 4 * U) := by
          refine mul_le_mul (by linarith) (by linarith) (by positivity) (by positivity)

end
end GaussQuad.F64
