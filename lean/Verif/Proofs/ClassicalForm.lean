import Verif.Proofs.NodeSums
import Verif.Proofs.NodeSpacing
import Verif.Proofs.GaussNorms
import Verif.Spec.Classical
import Mathlib.RingTheory.Polynomial.Hermite.Basic

/-!
# Weights and nodes of a Gauss rule through the other nodes
-/

namespace GaussQuad
open Polynomial Spec MeasureTheory

theorem rootPoly_perm {l l' : List ℝ} (h : l.Perm l') : rootPoly l = rootPoly l' := (h.map _).prod_eq

theorem rootPoly_erase {l : List ℝ} {x : ℝ} (hx : x ∈ l) : rootPoly l = (X - C x) * rootPoly (l.erase x) := by
  rw [← rootPoly_cons]
  exact rootPoly_perm (List.perm_cons_erase hx)

theorem rootPoly_monic (l : List ℝ) : (rootPoly l).Monic ∧ (rootPoly l).natDegree = l.length := by
  induction l with
  | nil => simp [rootPoly]
  | cons x l ih =>
    rw [rootPoly_cons]
    exact ⟨(monic_X_sub_C x).mul ih.1, by rw [(monic_X_sub_C x).natDegree_mul ih.1, natDegree_X_sub_C, ih.2, List.length_cons, add_comm]⟩

/-- the logarithmic derivative -/
theorem rootPoly_log_deriv {l : List ℝ} {x : ℝ} (hx : x ∉ l) :
    (derivative (rootPoly l)).eval x = (rootPoly l).eval x * (l.map fun y => 1 / (x - y)).sum := by
  induction l with
  | nil => simp [rootPoly]
  | cons y l ih =>
    rw [List.mem_cons, not_or] at hx
    have h0 : x - y ≠ 0 := sub_ne_zero.2 hx.1
    rw [rootPoly_cons, derivative_mul, eval_add, eval_mul, eval_mul, ih hx.2, List.map_cons, List.sum_cons, derivative_sub, derivative_X, derivative_C, eval_mul, eval_sub, eval_sub,
      eval_X, eval_C, eval_one, eval_zero]
    field_simp
    ring

/-- first and second derivative at a simple root -/
theorem rootPoly_deriv {l : List ℝ} {x : ℝ} (hl : l.Nodup) (hx : x ∈ l) :
    (derivative (rootPoly l)).eval x = ((l.erase x).map fun y => x - y).prod ∧
    (derivative (derivative (rootPoly l))).eval x = 2 * (derivative (rootPoly l)).eval x * ((l.erase x).map fun y => 1 / (x - y)).sum := by
  have hn : x ∉ l.erase x := fun h => (hl.mem_erase_iff.1 h).1 rfl
  have h1 := rootPoly_log_deriv hn
  have h2 : (derivative (rootPoly l)).eval x = (rootPoly (l.erase x)).eval x := by
    rw [rootPoly_erase hx, derivative_mul]; simp
  refine ⟨by rw [h2, rootPoly_eval], ?_⟩
  rw [h2, mul_assoc, ← h1, rootPoly_erase hx]
  simp only [derivative_mul, derivative_add, derivative_sub, derivative_X, derivative_C, sub_zero, one_mul, eval_add, eval_mul, eval_sub, eval_X, eval_C, sub_self, zero_mul, add_zero]
  ring

theorem rootPoly_deriv_ne {l : List ℝ} {x : ℝ} (hl : l.Nodup) (hx : x ∈ l) : (derivative (rootPoly l)).eval x ≠ 0 := by
  rw [(rootPoly_deriv hl hx).1]
  refine List.prod_ne_zero fun h => ?_
  obtain ⟨y, hy, e⟩ := List.mem_map.1 h
  exact (hl.mem_erase_iff.1 hy).1 (sub_eq_zero.1 e).symm

variable {a b : ℕ → ℝ}

/-- the weight through the derivative of the orthogonal polynomial and its predecessor -/
theorem IsGauss.weight_prev {L : List (ℝ × ℝ)} {n : ℕ} {S : Set ℝ} {w : ℝ → ℝ} {c : ℝ} (h : IsGauss L n S w c) (hn : 0 < n) (hc : 0 < c) (hpos : PosDef S w)
    (hint : ∀ p : ℝ[X], IntegrableOn (fun x => p.eval x * w x) S) (ho : ∀ m, 1 ≤ m → weightFunctional S w hint (monicSeq a b m) = 0) {p : ℝ × ℝ} (hp : p ∈ L) :
    p.2 * ((derivative (monicSeq a b n)).eval p.1 * (prevTerm a b n).eval p.1) = c * weightIntegral S w ((Lagrange.nodal (nodeSet L) id) ^ 2) := by
  obtain ⟨m, rfl⟩ : ∃ m, n = m + 1 := ⟨n - 1, by omega⟩
  have hnd := gauss_nodes_nodup hc h.exact' hpos
  have hmem : p.1 ∈ L.map Prod.fst := List.mem_map.2 ⟨p, hp, rfl⟩
  have hroot := h.rootPoly hn hc hpos hint ho
  set q := GaussQuad.rootPoly ((L.map Prod.fst).erase p.1) with hq
  have hqm := rootPoly_monic ((L.map Prod.fst).erase p.1)
  rw [← hq, List.length_erase_of_mem hmem, List.length_map, h.length, Nat.add_sub_cancel] at hqm
  obtain ⟨m1, m2⟩ := monicSeq_degree a b m
  have hder : (derivative (monicSeq a b (m + 1))).eval p.1 = q.eval p.1 := by
    rw [← hroot, rootPoly_erase hmem, ← hq, derivative_mul]; simp
  have hquad : quad L (fun x => (q * monicSeq a b m).eval x) = p.2 * (q * monicSeq a b m).eval p.1 := by
    unfold quad
    obtain ⟨s, t, rfl⟩ := List.append_of_mem hp
    have hz : ∀ r ∈ s ++ t, r.2 * (q * monicSeq a b m).eval r.1 = 0 := by
      intro r hr
      have hr' : r.1 ∈ ((s ++ p :: t).map Prod.fst).erase p.1 := by
        rw [hnd.mem_erase_iff]
        refine ⟨?_, List.mem_map.2 ⟨r, by simp only [List.mem_append, List.mem_cons] at hr ⊢; tauto, rfl⟩⟩
        rw [List.map_append, List.map_cons, List.nodup_append] at hnd
        obtain ⟨-, h2, h3⟩ := hnd
        rcases List.mem_append.1 hr with hr | hr
        · exact h3 _ (List.mem_map.2 ⟨r, hr, rfl⟩) _ List.mem_cons_self
        · exact fun e => (List.nodup_cons.1 h2).1 (e ▸ List.mem_map.2 ⟨r, hr, rfl⟩)
      have : q.eval r.1 = 0 := by
        rw [hq, rootPoly_eval]
        exact List.prod_eq_zero (List.mem_map.2 ⟨r.1, hr', sub_self _⟩)
      rw [eval_mul, this]; ring
    rw [List.map_append, List.map_cons, List.sum_append, List.sum_cons, List.sum_eq_zero, List.sum_eq_zero, zero_add, add_zero]
    · intro y hy; obtain ⟨r, hr, rfl⟩ := List.mem_map.1 hy; exact hz r (List.mem_append_right _ hr)
    · intro y hy; obtain ⟨r, hr, rfl⟩ := List.mem_map.1 hy; exact hz r (List.mem_append_left _ hr)
  have hex := h.exact' (q * monicSeq a b m) (by rw [h.length, hqm.1.natDegree_mul m1, hqm.2, m2]; omega)
  rw [hquad, ← weightFunctional_apply hint] at hex
  have horth : weightFunctional S w hint (q * monicSeq a b m) = weightFunctional S w hint (monicSeq a b m ^ 2) := by
    rw [← sub_eq_zero, ← map_sub, show q * monicSeq a b m - monicSeq a b m ^ 2 = (q - monicSeq a b m) * monicSeq a b m by ring]
    by_cases h0 : q - monicSeq a b m = 0
    · rw [h0, zero_mul, map_zero]
    refine functional_orthogonal' ho ?_
    refine lt_of_lt_of_eq (degree_sub_lt_left ?_ hqm.1.ne_zero ?_) ?_
    · rw [degree_eq_natDegree hqm.1.ne_zero, degree_eq_natDegree m1.ne_zero, hqm.2, m2]
    · rw [hqm.1.leadingCoeff, m1.leadingCoeff]
    · rw [degree_eq_natDegree hqm.1.ne_zero, hqm.2]
  rw [horth] at hex
  have hL : L.length = m + 1 := h.length
  rw [hder, nodal_norm (by rw [hL]; omega) hc h.exact' hpos hint ho, hL, Finset.prod_range_succ]
  have hnorm := monicSeq_norm ho m
  have h1 : weightFunctional S w hint 1 = ∫ x in S, w x := by rw [weightFunctional_apply, weightIntegral]; simp
  rw [hnorm, h1, eval_mul] at hex
  have hprev : (prevTerm a b (m + 1)).eval p.1 = b m ^ 2 * (monicSeq a b m).eval p.1 := by simp [prevTerm]
  rw [hprev]
  linear_combination b m ^ 2 * hex

/-! ### Polynomial solutions of `A p'' + B p' = λ p` -/

/-- `(a₂ X² + a₁ X + a₀) p'' + (b₁ X + b₀) p'` -/
noncomputable def opD (a2 a1 a0 b1 b0 : ℝ) (p : ℝ[X]) : ℝ[X] :=
  (C a2 * X ^ 2 + C a1 * X + C a0) * derivative (derivative p) + (C b1 * X + C b0) * derivative p

section ode
variable {a2 a1 a0 b1 b0 : ℝ}

theorem opD_coeff (p : ℝ[X]) (k : ℕ) : (opD a2 a1 a0 b1 b0 p).coeff k =
    (a2 * (k * (k - 1)) + b1 * k) * p.coeff k + (a1 * k + b0) * (k + 1) * p.coeff (k + 1) + a0 * ((k + 2) * (k + 1)) * p.coeff (k + 2) := by
  have e : opD a2 a1 a0 b1 b0 p = C a2 * (X ^ 2 * derivative (derivative p)) + C a1 * (X * derivative (derivative p)) + C a0 * derivative (derivative p) +
      C b1 * (X * derivative p) + C b0 * derivative p := by rw [opD]; ring
  rw [e]
  simp only [coeff_add, coeff_C_mul]
  match k with
  | 0 => simp [coeff_derivative, mul_coeff_zero, pow_two]; ring
  | 1 =>
    have c1 : ∀ q : ℝ[X], (X * q).coeff 1 = q.coeff 0 := fun q => coeff_X_mul q 0
    have c2 : ∀ q : ℝ[X], (X ^ 2 * q).coeff 1 = 0 := fun q => by rw [pow_two, mul_assoc, c1, mul_coeff_zero, coeff_X_zero, zero_mul]
    rw [c1, c1, c2]
    simp [coeff_derivative]; ring
  | k + 2 =>
    rw [coeff_X_mul, coeff_X_mul, pow_two, mul_assoc, coeff_X_mul, coeff_X_mul]
    simp only [coeff_derivative]
    push_cast
    ring

theorem opD_sub (p q : ℝ[X]) : opD a2 a1 a0 b1 b0 (p - q) = opD a2 a1 a0 b1 b0 p - opD a2 a1 a0 b1 b0 q := by
  simp only [opD, derivative_sub]; ring

/-- at most one solution of degree `n` with given leading coefficient -/
theorem opD_unique {n : ℕ} (hne : ∀ k < n, a2 * ((k : ℝ) * (k - 1)) + b1 * k ≠ a2 * (n * (n - 1)) + b1 * n) {p q : ℝ[X]} (hp : p.natDegree ≤ n) (hq : q.natDegree ≤ n)
    (hpq : p.coeff n = q.coeff n) (h1 : opD a2 a1 a0 b1 b0 p = C (a2 * ((n : ℝ) * (n - 1)) + b1 * n) * p)
    (h2 : opD a2 a1 a0 b1 b0 q = C (a2 * ((n : ℝ) * (n - 1)) + b1 * n) * q) : p = q := by
  by_contra h
  have hd : p - q ≠ 0 := sub_ne_zero.2 h
  have hle : (p - q).natDegree ≤ n := (natDegree_sub_le _ _).trans (max_le hp hq)
  have hlt : (p - q).natDegree < n := by
    refine lt_of_le_of_ne hle fun e => ?_
    have : (p - q).leadingCoeff = 0 := by rw [leadingCoeff, e, coeff_sub, hpq, sub_self]
    exact hd (leadingCoeff_eq_zero.1 this)
  have e := congrArg (fun r : ℝ[X] => r.coeff (p - q).natDegree) (show opD a2 a1 a0 b1 b0 (p - q) = C (a2 * ((n : ℝ) * (n - 1)) + b1 * n) * (p - q) by rw [opD_sub, h1, h2]; ring)
  simp only [opD_coeff, coeff_C_mul] at e
  rw [coeff_eq_zero_of_natDegree_lt (n := (p - q).natDegree + 1) (by omega), coeff_eq_zero_of_natDegree_lt (n := (p - q).natDegree + 2) (by omega)] at e
  simp only [mul_zero, add_zero] at e
  exact hne _ hlt (mul_right_cancel₀ (leadingCoeff_ne_zero.2 hd) e)

/-- points in equilibrium are the roots of a solution -/
theorem opD_rootPoly {l : List ℝ} (hl : l.Nodup) (h : ∀ x ∈ l, 2 * (a2 * x ^ 2 + a1 * x + a0) * repulsion l x + (b1 * x + b0) = 0) :
    opD a2 a1 a0 b1 b0 (rootPoly l) = C (a2 * ((l.length : ℝ) * (l.length - 1)) + b1 * l.length) * rootPoly l := by
  obtain ⟨m1, m2⟩ := rootPoly_monic l
  set p := rootPoly l
  set D := opD a2 a1 a0 b1 b0 p - C (a2 * ((l.length : ℝ) * (l.length - 1)) + b1 * l.length) * p with hD
  have hcoeff : ∀ k, l.length ≤ k → D.coeff k = 0 := by
    intro k hk
    rw [hD, coeff_sub, opD_coeff, coeff_C_mul, coeff_eq_zero_of_natDegree_lt (n := k + 1) (by omega), coeff_eq_zero_of_natDegree_lt (n := k + 2) (by omega)]
    rcases hk.lt_or_eq with hk | rfl
    · rw [coeff_eq_zero_of_natDegree_lt (n := k) (by omega)]; ring
    · ring
  have hroot : ∀ x ∈ l, D.eval x = 0 := by
    intro x hx
    obtain ⟨-, h2⟩ := rootPoly_deriv hl hx
    rw [show rootPoly l = p from rfl] at h2
    have h0 : p.eval x = 0 := by rw [rootPoly_eval]; exact List.prod_eq_zero (List.mem_map.2 ⟨x, hx, sub_self x⟩)
    have := h x hx
    simp only [hD, opD, eval_sub, eval_add, eval_mul, eval_C, eval_pow, eval_X, h2, h0, mul_zero, sub_zero]
    rw [repulsion] at this
    linear_combination (derivative p).eval x * this
  have hz : D = 0 := by
    by_contra hne
    have h1 : l.length ≤ D.natDegree := by
      have hsub : l.toFinset.card ≤ D.natDegree := by
        refine (Finset.card_le_card ?_).trans ((Multiset.toFinset_card_le _).trans (card_roots' D))
        intro x hx
        rw [Multiset.mem_toFinset, mem_roots hne]
        exact hroot x (List.mem_toFinset.1 hx)
      rwa [List.toFinset_card_of_nodup hl] at hsub
    exact leadingCoeff_ne_zero.2 hne (hcoeff _ h1)
  exact sub_eq_zero.1 hz

/-- a power sum whose coefficients satisfy the recurrence is a solution -/
theorem opD_explicit {n : ℕ} {c : ℕ → ℝ}
    (hc : ∀ k < n, (a1 * (k : ℝ) + b0) * (k + 1) * c (k + 1) = (a2 * ((n : ℝ) * (n - 1)) + b1 * n - (a2 * (k * (k - 1)) + b1 * k)) * c k) :
    opD a2 a1 0 b1 b0 (∑ k ∈ Finset.range (n + 1), C (c k) * X ^ k) = C (a2 * ((n : ℝ) * (n - 1)) + b1 * n) * ∑ k ∈ Finset.range (n + 1), C (c k) * X ^ k := by
  have hco : ∀ k, (∑ k ∈ Finset.range (n + 1), C (c k) * X ^ k : ℝ[X]).coeff k = if k < n + 1 then c k else 0 := by
    intro k
    simp only [finsetSum_coeff, coeff_C_mul, coeff_X_pow, mul_ite, mul_one, mul_zero]
    rw [Finset.sum_ite_eq]
    simp
  ext k
  rw [opD_coeff, coeff_C_mul, hco, hco]
  rcases lt_trichotomy k n with h | rfl | h
  · rw [if_pos (by omega), if_pos (by omega), hc k h]; ring
  · rw [if_pos (by omega), if_neg (by omega)]; ring
  · rw [if_neg (by omega), if_neg (by omega)]; ring

/-- the points in equilibrium are the roots of the explicit sum -/
theorem explicit_eq {l : List ℝ} (hl : l.Nodup) (h : ∀ x ∈ l, 2 * (a2 * x ^ 2 + a1 * x) * repulsion l x + (b1 * x + b0) = 0)
    (hne : ∀ k < l.length, a2 * ((k : ℝ) * (k - 1)) + b1 * k ≠ a2 * (l.length * (l.length - 1)) + b1 * l.length) {c : ℕ → ℝ}
    (hc : ∀ k < l.length, (a1 * (k : ℝ) + b0) * (k + 1) * c (k + 1) = (a2 * ((l.length : ℝ) * (l.length - 1)) + b1 * l.length - (a2 * (k * (k - 1)) + b1 * k)) * c k) (x : ℝ) :
    ∑ k ∈ Finset.range (l.length + 1), c k * x ^ k = c l.length * (rootPoly l).eval x := by
  obtain ⟨m1, m2⟩ := rootPoly_monic l
  have h1 := opD_rootPoly (a0 := 0) hl (fun x hx => by simpa using h x hx)
  have h2 := opD_explicit hc
  have h3 : opD a2 a1 0 b1 b0 (C (c l.length) * rootPoly l) = C (a2 * ((l.length : ℝ) * (l.length - 1)) + b1 * l.length) * (C (c l.length) * rootPoly l) := by
    have : opD a2 a1 0 b1 b0 (C (c l.length) * rootPoly l) = C (c l.length) * opD a2 a1 0 b1 b0 (rootPoly l) := by
      simp only [opD, derivative_C_mul]; ring
    rw [this, h1]; ring
  have hco : ∀ k, (∑ k ∈ Finset.range (l.length + 1), C (c k) * X ^ k : ℝ[X]).coeff k = if k < l.length + 1 then c k else 0 := by
    intro k
    simp only [finsetSum_coeff, coeff_C_mul, coeff_X_pow, mul_ite, mul_one, mul_zero]
    rw [Finset.sum_ite_eq]
    simp
  have := opD_unique hne (p := ∑ k ∈ Finset.range (l.length + 1), C (c k) * X ^ k) (q := C (c l.length) * rootPoly l) ?_ ?_ ?_ h2 h3
  · have e := congrArg (eval x) this
    simpa [eval_finsetSum] using e
  · refine natDegree_sum_le_of_forall_le _ _ fun k hk => (natDegree_C_mul_X_pow_le _ _).trans ?_
    have := Finset.mem_range.1 hk
    omega
  · exact (natDegree_C_mul_le _ _).trans m2.le
  · rw [hco, if_pos (by omega), coeff_C_mul]
    have : (rootPoly l).coeff l.length = 1 := by rw [← m2]; exact m1
    rw [this, mul_one]

/-- two sets of points in equilibrium agree -/
theorem equilibrium_unique {l l' : List ℝ} (hl : l.Nodup) (hl' : l'.Nodup) (hlen : l'.length = l.length)
    (hne : ∀ k < l.length, a2 * ((k : ℝ) * (k - 1)) + b1 * k ≠ a2 * (l.length * (l.length - 1)) + b1 * l.length)
    (h : ∀ x ∈ l, 2 * (a2 * x ^ 2 + a1 * x + a0) * repulsion l x + (b1 * x + b0) = 0)
    (h' : ∀ x ∈ l', 2 * (a2 * x ^ 2 + a1 * x + a0) * repulsion l' x + (b1 * x + b0) = 0) : l'.Perm l := by
  obtain ⟨m1, m2⟩ := rootPoly_monic l
  obtain ⟨m1', m2'⟩ := rootPoly_monic l'
  have e1 := opD_rootPoly hl h
  have e2 := opD_rootPoly hl' h'
  rw [hlen] at e2
  have e := opD_unique hne (m2'.trans hlen).le m2.le (by
    have t1 : (rootPoly l).coeff l.length = 1 := by rw [← m2]; exact m1
    have t2 : (rootPoly l').coeff l'.length = 1 := by rw [← m2']; exact m1'
    rw [t1, ← hlen, t2]) e2 e1
  have hr : ∀ s : List ℝ, (rootPoly s).roots = (s : Multiset ℝ) := fun s => by
    induction s with
    | nil => simp [rootPoly]
    | cons y s ih => rw [rootPoly_cons, roots_mul (mul_ne_zero (X_sub_C_ne_zero y) (rootPoly_monic s).1.ne_zero), roots_X_sub_C, ih]; rfl
  have := congrArg roots e
  rw [hr, hr] at this
  exact Multiset.coe_eq_coe.1 this

end ode

/-- the polynomials of the Hermite recurrence are scaled Hermite polynomials -/
theorem hermite_monicSeq (k : ℕ) : ((hermite k).map (Int.castRingHom ℝ)).comp (C (Real.sqrt 2) * X) = C (Real.sqrt 2 ^ k) * monicSeq hermA hermB k := by
  have h2 : Real.sqrt 2 * Real.sqrt 2 = 2 := Real.mul_self_sqrt (by norm_num)
  induction k with
  | zero => simp [monicSeq]
  | succ k ih =>
    have hd := congrArg derivative ih
    rw [derivative_comp, derivative_C_mul, derivative_X, mul_one, derivative_C_mul] at hd
    have hp : C (1 / 2 : ℝ) * derivative (monicSeq hermA hermB k) = prevTerm hermA hermB k := hermite_derivative k
    rw [hermite_succ, Polynomial.map_sub, Polynomial.map_mul, map_X, ← derivative_map, sub_comp, mul_comp, X_comp, ih, monicSeq_rec, ← hp]
    simp only [hermA, map_zero, sub_zero]
    have h0 : (C (Real.sqrt 2) : ℝ[X]) ≠ 0 := C_ne_zero.2 (by positivity)
    have hC : (C (Real.sqrt 2) * C (Real.sqrt 2) : ℝ[X]) = 2 := by rw [← C_mul, h2]; rfl
    have hh : (C (1 / 2 : ℝ) : ℝ[X]) * 2 = 1 := by
      rw [show (2 : ℝ[X]) = C 2 from rfl, ← C_mul]; norm_num
    apply mul_left_cancel₀ h0
    rw [mul_sub, hd, pow_succ, C_mul]
    linear_combination (C (Real.sqrt 2 ^ k) * derivative (monicSeq hermA hermB k)) * hh +
      C (Real.sqrt 2 ^ k) * C (1 / 2 : ℝ) * derivative (monicSeq hermA hermB k) * hC

end GaussQuad
