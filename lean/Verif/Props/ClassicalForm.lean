import Verif.Proofs.ClassicalForm
import Verif.Proofs.LaguerreSpacing
import Verif.Proofs.JacobiSpacing
import Verif.Props.Interlacing
import Verif.Props.GolubWelschMore
import Verif.Props.NodeSums

/-!
# C106: the rules are the classical ones

The zeros and weights of the textbooks, and Stieltjes' equations, for Gauss-Hermite (`/repo/src/hermite/mod.rs:69-81`), Gauss-Laguerre
(`/repo/src/laguerre/mod.rs:75-92`) and Gauss-Jacobi (`/repo/src/jacobi/mod.rs:77-144`).
-/

namespace GaussQuad.Props
open Polynomial Spec FloatOps MeasureTheory

section general
variable {a b : ℕ → ℝ} {L : List (ℝ × ℝ)} {n : ℕ} {S : Set ℝ} {w : ℝ → ℝ} {c : ℝ}

/-- Stieltjes' equation of a node from the differential equation of the polynomial -/
theorem node_repulsion (h : IsGauss L n S w c) (hn : 0 < n) (hc : 0 < c) (hpos : PosDef S w) (hint : ∀ p : ℝ[X], IntegrableOn (fun x => p.eval x * w x) S)
    (ho : ∀ m, 1 ≤ m → weightFunctional S w hint (monicSeq a b m) = 0) {p : ℝ × ℝ} (hp : p ∈ L) {A B : ℝ}
    (hode : A * (derivative (derivative (monicSeq a b n))).eval p.1 = B * (derivative (monicSeq a b n)).eval p.1) :
    2 * A * repulsion (L.map Prod.fst) p.1 = B ∧ gapProduct (L.map Prod.fst) p.1 = (derivative (monicSeq a b n)).eval p.1 := by
  have hnd := gauss_nodes_nodup hc h.exact' hpos
  have hmem : p.1 ∈ L.map Prod.fst := List.mem_map.2 ⟨p, hp, rfl⟩
  obtain ⟨h1, h2⟩ := rootPoly_deriv hnd hmem
  have h3 := rootPoly_deriv_ne hnd hmem
  rw [h.rootPoly hn hc hpos hint ho] at h1 h2 h3
  refine ⟨?_, h1.symm⟩
  rw [h2] at hode
  apply mul_right_cancel₀ h3
  rw [repulsion]
  linarith

theorem node_zero (h : IsGauss L n S w c) (hn : 0 < n) (hc : 0 < c) (hpos : PosDef S w) (hint : ∀ p : ℝ[X], IntegrableOn (fun x => p.eval x * w x) S)
    (ho : ∀ m, 1 ≤ m → weightFunctional S w hint (monicSeq a b m) = 0) {p : ℝ × ℝ} (hp : p ∈ L) : (monicSeq a b n).eval p.1 = 0 :=
  (isGauss_zero_iff hint ho hc hpos hn h p.1).2 (List.mem_map.2 ⟨p, hp, rfl⟩)

end general

/-! ### Gauss-Hermite -/

theorem hermite_equations {L : List (ℝ × ℝ)} {n : ℕ} (hn : 0 < n) (h : IsGauss L n Set.univ hermW 1) {p : ℝ × ℝ} (hp : p ∈ L) :
    repulsion (L.map Prod.fst) p.1 = p.1 ∧ gapProduct (L.map Prod.fst) p.1 = (derivative (monicSeq hermA hermB n)).eval p.1 := by
  have hz := node_zero h hn one_pos posDef_hermite integrable_hermite hermite_orthogonal hp
  have := node_repulsion h hn one_pos posDef_hermite integrable_hermite hermite_orthogonal hp (A := 1) (B := 2 * p.1) (by rw [hermite_ode, hz]; ring)
  exact ⟨by linarith [this.1], this.2⟩

/-- C106: the nodes `x` of Gauss-Hermite satisfy Stieltjes' equations `∑ 1/(x - y) = x` (`y` the other nodes), and the weight of `x` is
`√π n! / 2^(n-1)` divided by the squared product of the `x - y` -/
theorem C106_hermite {ext : Externals ℝ} (hext : ExactSolver ext) {n : ℕ} (hn : 0 < n) :
    ∃ r : Rule ℝ, GaussHermite.new ext n = some r ∧ ∀ p ∈ r.asNodeWeightPairs, repulsion (r.asNodeWeightPairs.map Prod.fst) p.1 = p.1 ∧
      p.2 * gapProduct (r.asNodeWeightPairs.map Prod.fst) p.1 ^ 2 = Real.sqrt Real.pi * n.factorial / 2 ^ (n - 1) := by
  obtain ⟨r, h1, h2⟩ := hermite_gauss hext hn
  refine ⟨r, h1, fun p hp => ?_⟩
  have hp' : p ∈ r.nodeWeightPairs := hp
  obtain ⟨e1, e2⟩ := hermite_equations hn h2 hp'
  refine ⟨e1, ?_⟩
  have h3 := h2.weight_prev hn one_pos posDef_hermite integrable_hermite hermite_orthogonal hp'
  rw [← hermite_derivative_eval, ← e2, hermite_norm (by rw [h2.length]; exact hn) one_pos h2.exact', h2.length] at h3
  change p.2 * gapProduct (r.nodeWeightPairs.map Prod.fst) p.1 ^ 2 = _
  obtain ⟨m, rfl⟩ : ∃ m, n = m + 1 := ⟨n - 1, by omega⟩
  rw [pow_succ (2 : ℝ) m] at h3
  rw [Nat.add_sub_cancel, eq_div_iff (by positivity)]
  field_simp at h3
  linarith

/-- C106: Stieltjes' equations have no other solution -/
theorem C106_hermite_unique {ext : Externals ℝ} (hext : ExactSolver ext) {n : ℕ} (hn : 0 < n) :
    ∃ r : Rule ℝ, GaussHermite.new ext n = some r ∧ ∀ l : List ℝ, l.length = n → l.Nodup → (∀ x ∈ l, repulsion l x = x) →
      l.Perm (r.asNodeWeightPairs.map Prod.fst) := by
  obtain ⟨r, h1, h2⟩ := hermite_gauss hext hn
  refine ⟨r, h1, fun l hl hnd h => ?_⟩
  have hlen : (r.nodeWeightPairs.map Prod.fst).length = n := by rw [List.length_map, h2.length]
  show l.Perm (r.nodeWeightPairs.map Prod.fst)
  refine equilibrium_unique (a2 := 0) (a1 := 0) (a0 := 1) (b1 := -2) (b0 := 0) (gauss_nodes_nodup one_pos h2.exact' posDef_hermite) hnd (hl.trans hlen.symm) ?_ ?_ ?_
  · intro k hk h
    have hk' : (k : ℝ) < (r.nodeWeightPairs.map Prod.fst).length := by exact_mod_cast hk
    linarith
  · intro x hx
    obtain ⟨p, hp, rfl⟩ := List.mem_map.1 hx
    linarith [(hermite_equations hn h2 hp).1]
  · intro x hx
    linarith [h x hx]

theorem aeval_hermite (k : ℕ) (x : ℝ) : aeval (Real.sqrt 2 * x) (hermite k) = Real.sqrt 2 ^ k * (monicSeq hermA hermB k).eval x := by
  have := congrArg (eval x) (hermite_monicSeq k)
  rw [eval_comp, eval_mul, eval_mul, eval_C, eval_C, eval_X, eval_map] at this
  rw [← this, aeval_def]
  rfl

/-- C106: the nodes of Gauss-Hermite are the zeros of the Hermite polynomial of degree `n` (Mathlib's `hermite` is the probabilists' one, hence the factor `√2`), and the weights are
`√π (n-1)! / (n He_{n-1}(√2 x)²)`, that is `2^(n-1) n! √π / (n² H_{n-1}(x)²)` -/
theorem C106_hermite_poly {ext : Externals ℝ} (hext : ExactSolver ext) {n : ℕ} (hn : 0 < n) :
    ∃ r : Rule ℝ, GaussHermite.new ext n = some r ∧ (∀ x : ℝ, x ∈ r.asNodeWeightPairs.map Prod.fst ↔ aeval (Real.sqrt 2 * x) (hermite n) = 0) ∧
      ∀ p ∈ r.asNodeWeightPairs, p.2 = Real.sqrt Real.pi * (n - 1).factorial / (n * (aeval (Real.sqrt 2 * p.1) (hermite (n - 1))) ^ 2) := by
  obtain ⟨r, h1, h2⟩ := hermite_gauss hext hn
  have hs : Real.sqrt 2 ≠ 0 := by positivity
  refine ⟨r, h1, fun x => ?_, fun p hp => ?_⟩
  · have := isGauss_zero_iff integrable_hermite hermite_orthogonal one_pos posDef_hermite hn h2 x
    rw [aeval_hermite, mul_eq_zero, or_iff_right (pow_ne_zero _ hs), this]
    rfl
  · have hp' : p ∈ r.nodeWeightPairs := hp
    have h3 := h2.weight_prev hn one_pos posDef_hermite integrable_hermite hermite_orthogonal hp'
    have h4 := hermite_derivative_eval p.1 n
    have hne : (derivative (monicSeq hermA hermB n)).eval p.1 ≠ 0 := by
      rw [← h2.rootPoly hn one_pos posDef_hermite integrable_hermite hermite_orthogonal]
      exact rootPoly_deriv_ne (gauss_nodes_nodup one_pos h2.exact' posDef_hermite) (List.mem_map.2 ⟨p, hp', rfl⟩)
    rw [hermite_norm (by rw [h2.length]; exact hn) one_pos h2.exact', h2.length] at h3
    obtain ⟨m, rfl⟩ : ∃ m, n = m + 1 := ⟨n - 1, by omega⟩
    have h5 : (prevTerm hermA hermB (m + 1)).eval p.1 = (1 + m) / 2 * (monicSeq hermA hermB m).eval p.1 := by simp [prevTerm, hermB_sq]
    rw [h5] at h3 h4
    have h6 : (derivative (monicSeq hermA hermB (m + 1))).eval p.1 = (1 + m) * (monicSeq hermA hermB m).eval p.1 := by linarith
    rw [h6] at h3 hne
    have hm : (monicSeq hermA hermB m).eval p.1 ≠ 0 := fun h => hne (by rw [h, mul_zero])
    rw [Nat.add_sub_cancel, aeval_hermite, mul_pow, ← pow_mul, mul_comm m 2, pow_mul, Real.sq_sqrt (by norm_num), eq_div_iff (by positivity)]
    rw [Nat.factorial_succ, pow_succ (2 : ℝ) m] at h3
    push_cast at h3 ⊢
    have hm0 : (m : ℝ) + 1 ≠ 0 := by positivity
    field_simp at h3
    have hm1 : (1 + (m : ℝ)) ≠ 0 := by positivity
    apply mul_left_cancel₀ hm1
    linear_combination h3

/-! ### Gauss-Laguerre -/

section laguerre
variable {α : ℝ} {L : List (ℝ × ℝ)} {n : ℕ} {c : ℝ}

theorem laguerre_equations (hα : -1 < α) (hc : 0 < c) (hn : 0 < n) (h : IsGauss L n (Set.Ioi 0) (lagW α) c) {p : ℝ × ℝ} (hp : p ∈ L) :
    0 < p.1 ∧ 2 * p.1 * repulsion (L.map Prod.fst) p.1 = p.1 - (α + 1) ∧ gapProduct (L.map Prod.fst) p.1 = (derivative (monicSeq (lagA α) (lagB α) n)).eval p.1 := by
  have hz := node_zero h hn hc (posDef_laguerre hα) (integrable_laguerre hα) (laguerre_orthogonal hα) hp
  have hp0 : 0 < p.1 := gauss_nodes_gt hc h.exact' (posDef_laguerre hα) (fun x hx => (show (0 : ℝ) < x from hx).le) p hp
  have ho := laguerre_ode hα n hp0.ne'
  rw [hz] at ho
  exact ⟨hp0, node_repulsion h hn hc (posDef_laguerre hα) (integrable_laguerre hα) (laguerre_orthogonal hα) hp (A := p.1) (B := p.1 - (α + 1)) (by linarith)⟩

theorem laguerre_weight (hα : -1 < α) (hc : 0 < c) (hn : 0 < n) (h : IsGauss L n (Set.Ioi 0) (lagW α) c) {p : ℝ × ℝ} (hp : p ∈ L) :
    p.2 * (p.1 * (derivative (monicSeq (lagA α) (lagB α) n)).eval p.1 ^ 2) = c * (n.factorial * Real.Gamma (n + α + 1)) ∧
    p.1 * (derivative (monicSeq (lagA α) (lagB α) n)).eval p.1 = -(monicSeq (lagA α) (lagB α) (n + 1)).eval p.1 := by
  have h3 := h.weight_prev hn hc (posDef_laguerre hα) (integrable_laguerre hα) (laguerre_orthogonal hα) hp
  have h4 := laguerre_derivative_eval hα p.1 n
  have hz := node_zero h hn hc (posDef_laguerre hα) (integrable_laguerre hα) (laguerre_orthogonal hα) hp
  rw [hz, mul_zero, zero_add] at h4
  rw [← h4, laguerre_norm hα (by rw [h.length]; exact hn) hc h.exact', h.length] at h3
  refine ⟨by linear_combination h3, ?_⟩
  rw [monicSeq_rec, eval_sub, eval_mul, hz, h4]; ring

/-- the explicit sum is the polynomial of the recurrence -/
theorem laguerrePoly_eq (hα : -1 < α) (n : ℕ) (x : ℝ) : laguerrePoly n α x = (-1) ^ n / n.factorial * (monicSeq (lagA α) (lagB α) n).eval x := by
  have hG : ∀ k : ℕ, Real.Gamma (k + α + 1) ≠ 0 := fun k => (Real.Gamma_pos_of_pos (by have : (0 : ℝ) ≤ k := Nat.cast_nonneg k; linarith)).ne'
  rcases Nat.eq_zero_or_pos n with rfl | hn
  · have := hG 0
    simp only [Nat.cast_zero, zero_add] at this
    simp [laguerrePoly, monicSeq, div_self this]
  obtain ⟨r, h1, -, h2⟩ := laguerre_gauss exactSolver_exists hn ⟨α⟩ hα
  have hc := laguerre_factor_pos hα
  replace h2 : IsGauss r.nodeWeightPairs n (Set.Ioi 0) (lagW α) (gamma (α + 1) / Real.Gamma (α + 1)) := h2
  have hlen : (r.nodeWeightPairs.map Prod.fst).length = n := by rw [List.length_map, h2.length]
  have e := explicit_eq (a2 := 0) (a1 := 1) (b1 := -1) (b0 := α + 1) (gauss_nodes_nodup hc h2.exact' (posDef_laguerre hα)) ?_ ?_
    (c := fun k => (-1) ^ k * (Real.Gamma (n + α + 1) / (Real.Gamma (k + α + 1) * (n - k).factorial)) / k.factorial) ?_ x
  · rw [hlen, h2.rootPoly hn hc (posDef_laguerre hα) (integrable_laguerre hα) (laguerre_orthogonal hα)] at e
    rw [laguerrePoly]
    refine (Finset.sum_congr rfl fun k _ => ?_).trans (e.trans ?_)
    · ring
    · have := hG n
      rw [Nat.sub_self, Nat.factorial_zero, Nat.cast_one, mul_one, div_self this, mul_one]
  · intro y hy
    obtain ⟨p, hp, rfl⟩ := List.mem_map.1 hy
    have := (laguerre_equations hα hc hn h2 hp).2.1
    linarith
  · intro k hk h
    have hk' : (k : ℝ) < (r.nodeWeightPairs.map Prod.fst).length := by exact_mod_cast hk
    linarith
  · rw [hlen]
    intro k hk
    obtain ⟨d, rfl⟩ : ∃ d, n = k + 1 + d := ⟨n - (k + 1), by omega⟩
    rw [show k + 1 + d - (k + 1) = d by omega, show k + 1 + d - k = d + 1 by omega, Nat.factorial_succ, Nat.factorial_succ]
    have hk0 : (k : ℝ) + α + 1 ≠ 0 := by have : (0 : ℝ) ≤ k := Nat.cast_nonneg k; linarith
    have g0 := hG k
    push_cast
    rw [show (k : ℝ) + 1 + α + 1 = (k + α + 1) + 1 by ring, Real.Gamma_add_one hk0]
    generalize Real.Gamma ((k : ℝ) + 1 + d + α + 1) = G
    have f1 : (k.factorial : ℝ) ≠ 0 := by positivity
    have f2 : (d.factorial : ℝ) ≠ 0 := by positivity
    have f3 : (k : ℝ) + 1 ≠ 0 := by positivity
    have f4 : (d : ℝ) + 1 ≠ 0 := by positivity
    rw [show 1 * (k : ℝ) + (α + 1) = k + α + 1 by ring, pow_succ]
    field_simp
    ring

end laguerre

/-- C106: the nodes `x` of Gauss-Laguerre satisfy `∑ 1/(x - y) = 1/2 - (α + 1)/(2x)` (`y` the other nodes), and the weight of `x` is `n! Γ(n + α + 1) / x` divided by the squared product
of the `x - y`, up to the relative error of the crate's gamma function -/
theorem C106_laguerre {ext : Externals ℝ} (hext : ExactSolver ext) {n : ℕ} (hn : 0 < n) {α : FiniteAboveNegOne ℝ} (hα : -1 < α.get) :
    ∃ (r : LaguerreRule ℝ) (c : ℝ), GaussLaguerre.new ext n α = some r ∧ |c - 1| ≤ 2e-12 ∧ ∀ p ∈ r.asNodeWeightPairs,
      repulsion (r.asNodeWeightPairs.map Prod.fst) p.1 = 1 / 2 - (α.get + 1) / (2 * p.1) ∧
      p.2 * (p.1 * gapProduct (r.asNodeWeightPairs.map Prod.fst) p.1 ^ 2) = c * (n.factorial * Real.Gamma (n + α.get + 1)) := by
  obtain ⟨r, h1, -, h2⟩ := laguerre_gauss hext hn α hα
  have hc := laguerre_factor_pos hα
  refine ⟨r, _, h1, C49_gamma_accurate (x := α.get + 1) (fun m h => by
    have : (0 : ℝ) ≤ m := Nat.cast_nonneg m
    linarith), fun p hp => ?_⟩
  have hp' : p ∈ r.nodeWeightPairs := hp
  obtain ⟨e0, e1, e2⟩ := laguerre_equations hα hc hn h2 hp'
  have e3 := (laguerre_weight hα hc hn h2 hp').1
  rw [← e2] at e3
  refine ⟨?_, e3⟩
  change repulsion (r.nodeWeightPairs.map Prod.fst) p.1 = _
  field_simp
  linarith

/-- C106: these equations have no other solution -/
theorem C106_laguerre_unique {ext : Externals ℝ} (hext : ExactSolver ext) {n : ℕ} (hn : 0 < n) {α : FiniteAboveNegOne ℝ} (hα : -1 < α.get) :
    ∃ r : LaguerreRule ℝ, GaussLaguerre.new ext n α = some r ∧ ∀ l : List ℝ, l.length = n → l.Nodup → (∀ x ∈ l, 2 * x * repulsion l x = x - (α.get + 1)) →
      l.Perm (r.asNodeWeightPairs.map Prod.fst) := by
  obtain ⟨r, h1, -, h2⟩ := laguerre_gauss hext hn α hα
  have hc := laguerre_factor_pos hα
  refine ⟨r, h1, fun l hl hnd h => ?_⟩
  have hlen : (r.nodeWeightPairs.map Prod.fst).length = n := by rw [List.length_map, h2.length]
  show l.Perm (r.nodeWeightPairs.map Prod.fst)
  refine equilibrium_unique (a2 := 0) (a1 := 1) (a0 := 0) (b1 := -1) (b0 := α.get + 1) (gauss_nodes_nodup hc h2.exact' (posDef_laguerre hα)) hnd (hl.trans hlen.symm) ?_ ?_ ?_
  · intro k hk h
    have hk' : (k : ℝ) < (r.nodeWeightPairs.map Prod.fst).length := by exact_mod_cast hk
    linarith
  · intro x hx
    obtain ⟨p, hp, rfl⟩ := List.mem_map.1 hx
    linarith [(laguerre_equations hα hc hn h2 hp).2.1]
  · intro x hx
    linarith [h x hx]

/-- C106: the nodes of Gauss-Laguerre are the zeros of the generalised Laguerre polynomial of degree `n`, and the weights are `Γ(n + α + 1) x / (n! (n + 1)² L_{n+1}(x)²)`, up to the
relative error of the crate's gamma function -/
theorem C106_laguerre_poly {ext : Externals ℝ} (hext : ExactSolver ext) {n : ℕ} (hn : 0 < n) {α : FiniteAboveNegOne ℝ} (hα : -1 < α.get) :
    ∃ (r : LaguerreRule ℝ) (c : ℝ), GaussLaguerre.new ext n α = some r ∧ |c - 1| ≤ 2e-12 ∧
      (∀ x : ℝ, x ∈ r.asNodeWeightPairs.map Prod.fst ↔ laguerrePoly n α.get x = 0) ∧
      ∀ p ∈ r.asNodeWeightPairs, p.2 = c * (Real.Gamma (n + α.get + 1) * p.1 / (n.factorial * (n + 1) ^ 2 * laguerrePoly (n + 1) α.get p.1 ^ 2)) := by
  obtain ⟨r, h1, -, h2⟩ := laguerre_gauss hext hn α hα
  have hc := laguerre_factor_pos hα
  refine ⟨r, _, h1, C49_gamma_accurate (x := α.get + 1) (fun m h => by
    have : (0 : ℝ) ≤ m := Nat.cast_nonneg m
    linarith), fun x => ?_, fun p hp => ?_⟩
  · have := isGauss_zero_iff (integrable_laguerre hα) (laguerre_orthogonal hα) hc (posDef_laguerre hα) hn h2 x
    rw [laguerrePoly_eq hα, mul_eq_zero, or_iff_right (by positivity), this]
    rfl
  · have hp' : p ∈ r.nodeWeightPairs := hp
    obtain ⟨e0, -, e2⟩ := laguerre_equations hα hc hn h2 hp'
    obtain ⟨e3, e4⟩ := laguerre_weight hα hc hn h2 hp'
    have hne : (derivative (monicSeq (lagA α.get) (lagB α.get) n)).eval p.1 ≠ 0 := by
      rw [← h2.rootPoly hn hc (posDef_laguerre hα) (integrable_laguerre hα) (laguerre_orthogonal hα)]
      exact rootPoly_deriv_ne (gauss_nodes_nodup hc h2.exact' (posDef_laguerre hα)) (List.mem_map.2 ⟨p, hp', rfl⟩)
    have hL : laguerrePoly (n + 1) α.get p.1 ^ 2 * (n + 1).factorial ^ 2 = (p.1 * (derivative (monicSeq (lagA α.get) (lagB α.get) n)).eval p.1) ^ 2 := by
      rw [laguerrePoly_eq hα, e4, mul_pow, div_pow, ← pow_mul, mul_comm (n + 1) 2, pow_mul]
      have : ((n + 1).factorial : ℝ) ≠ 0 := by positivity
      field_simp
      ring
    rw [Nat.factorial_succ] at hL
    push_cast at hL
    have hL0 : laguerrePoly (n + 1) α.get p.1 ≠ 0 := by
      intro h
      rw [h] at hL
      have : 0 < (p.1 * (derivative (monicSeq (lagA α.get) (lagB α.get) n)).eval p.1) ^ 2 := by positivity
      linarith
    have f1 : (n.factorial : ℝ) ≠ 0 := by positivity
    have hn1 : (n : ℝ) + 1 ≠ 0 := by positivity
    rw [mul_div_assoc', eq_div_iff (by positivity)]
    generalize (gamma (α.get + 1) : ℝ) / Real.Gamma (α.get + 1) = c at *
    apply mul_left_cancel₀ f1
    linear_combination p.2 * hL + p.1 * e3

/-! ### Gauss-Jacobi -/

section jacobi
variable {α β : ℝ} {L : List (ℝ × ℝ)} {n : ℕ} {c : ℝ}

theorem jacobi_equations (hα : -1 < α) (hβ : -1 < β) (hs : α + β ≠ -1) (hc : 0 < c) (hn : 0 < n) (h : IsGauss L n (Set.Ioo (-1) 1) (jacW α β) c) {p : ℝ × ℝ} (hp : p ∈ L) :
    -1 < p.1 ∧ p.1 < 1 ∧ 2 * (1 - p.1 ^ 2) * repulsion (L.map Prod.fst) p.1 = α - β + (α + β + 2) * p.1 ∧
      gapProduct (L.map Prod.fst) p.1 = (derivative (monicSeq (jacA α β) (jacB α β) n)).eval p.1 := by
  have hz := node_zero h hn hc (posDef_jacobi hα hβ) (integrable_jacobi hα hβ) (jacobi_orthogonal hα hβ hs) hp
  obtain ⟨b1, b2⟩ := jacobi_nodes hα hβ h hc p hp
  have ho := jacobi_ode hα hβ hs n (x := p.1) (by nlinarith)
  rw [hz] at ho
  exact ⟨b1, b2, node_repulsion h hn hc (posDef_jacobi hα hβ) (integrable_jacobi hα hβ) (jacobi_orthogonal hα hβ hs) hp (A := 1 - p.1 ^ 2)
    (B := α - β + (α + β + 2) * p.1) (by linarith)⟩

theorem jacobi_weight (hα : -1 < α) (hβ : -1 < β) (hs : α + β ≠ -1) (hc : 0 < c) (hn : 0 < n) (h : IsGauss L n (Set.Ioo (-1) 1) (jacW α β) c) {p : ℝ × ℝ} (hp : p ∈ L) :
    p.2 * ((1 - p.1 ^ 2) * (derivative (monicSeq (jacA α β) (jacB α β) n)).eval p.1 ^ 2) =
      c * (2 ^ (2 * n + α + β + 1) * n.factorial * Real.Gamma (n + α + 1) * Real.Gamma (n + β + 1) * Real.Gamma (n + α + β + 1) / Real.Gamma (2 * n + α + β + 1) ^ 2) := by
  have h3 := h.weight_prev hn hc (posDef_jacobi hα hβ) (integrable_jacobi hα hβ) (jacobi_orthogonal hα hβ hs) hp
  have h4 := jacobi_derivative_eval hα hβ hs p.1 n
  have hz := node_zero h hn hc (posDef_jacobi hα hβ) (integrable_jacobi hα hβ) (jacobi_orthogonal hα hβ hs) hp
  rw [hz, mul_zero, zero_add] at h4
  rw [jacobi_norm hα hβ hs (by rw [h.length]; exact hn) hc h.exact', h.length, jacNorm] at h3
  have hn1 : (1 : ℝ) ≤ n := by exact_mod_cast hn
  have hz' : 2 * (n : ℝ) + α + β + 1 ≠ 0 := by linarith
  have hG : Real.Gamma (2 * n + α + β + 1) ≠ 0 := (Real.Gamma_pos_of_pos (by linarith)).ne'
  have e : p.2 * ((1 - p.1 ^ 2) * (derivative (monicSeq (jacA α β) (jacB α β) n)).eval p.1 ^ 2) =
      (2 * n + α + β + 1) * (p.2 * ((derivative (monicSeq (jacA α β) (jacB α β) n)).eval p.1 * (prevTerm (jacA α β) (jacB α β) n).eval p.1)) := by
    linear_combination p.2 * (derivative (monicSeq (jacA α β) (jacB α β) n)).eval p.1 * h4
  rw [e, h3]
  field_simp

theorem repulsion_affine (l : List ℝ) (x : ℝ) : repulsion (l.map fun x => (x - 1) / 2) ((x - 1) / 2) = 2 * repulsion l x := by
  have hinj : Function.Injective fun x : ℝ => (x - 1) / 2 := fun x y h => by
    simp only at h; linarith
  rw [repulsion, repulsion, ← List.map_erase hinj, List.map_map, ← List.sum_map_mul_left]
  congr 1
  refine List.map_congr_left fun y _ => ?_
  simp only [Function.comp_apply]
  rw [show (x - 1) / 2 - (y - 1) / 2 = (x - y) / 2 by ring, one_div_div, mul_one_div]

theorem rootPoly_affine (l : List ℝ) (x : ℝ) : (rootPoly (l.map fun x => (x - 1) / 2)).eval ((x - 1) / 2) = (rootPoly l).eval x / 2 ^ l.length := by
  induction l with
  | nil => simp [rootPoly]
  | cons y l ih =>
    rw [List.map_cons, rootPoly_cons, rootPoly_cons, eval_mul, eval_mul, ih, List.length_cons, pow_succ]
    simp only [eval_sub, eval_X, eval_C]
    field_simp
    ring

/-- the explicit sum is the polynomial with the nodes as roots -/
theorem jacobiPoly_eq (hα : -1 < α) (hβ : -1 < β) (hs : α + β ≠ -1) (hc : 0 < c) (hn : 0 < n) (h : IsGauss L n (Set.Ioo (-1) 1) (jacW α β) c) (x : ℝ) :
    jacobiPoly n α β x = Real.Gamma (2 * n + α + β + 1) / (2 ^ n * n.factorial * Real.Gamma (n + α + β + 1)) * (rootPoly (L.map Prod.fst)).eval x := by
  have hn1 : (1 : ℝ) ≤ n := by exact_mod_cast hn
  have hG : ∀ k : ℕ, Real.Gamma (k + α + 1) ≠ 0 := fun k => (Real.Gamma_pos_of_pos (by have : (0 : ℝ) ≤ k := Nat.cast_nonneg k; linarith)).ne'
  set l := L.map Prod.fst with hl
  have hlen : l.length = n := by rw [hl, List.length_map, h.length]
  set l' := l.map fun x => (x - 1) / 2 with hl'
  have hlen' : l'.length = n := by rw [hl', List.length_map, hlen]
  have hinj : Function.Injective fun x : ℝ => (x - 1) / 2 := fun x y h => by
    simp only at h; linarith
  have hnd : l'.Nodup := (gauss_nodes_nodup hc h.exact' (posDef_jacobi hα hβ)).map hinj
  have e := explicit_eq (a2 := 1) (a1 := 1) (b1 := α + β + 2) (b0 := α + 1) hnd ?_ ?_
    (c := fun k => n.choose k * (Real.Gamma (n + k + α + β + 1) / Real.Gamma (k + α + 1))) ?_ ((x - 1) / 2)
  · rw [hlen', hl', rootPoly_affine, hlen, Nat.choose_self, Nat.cast_one, one_mul] at e
    rw [jacobiPoly, e, show (n : ℝ) + n + α + β + 1 = 2 * n + α + β + 1 by ring]
    have := hG n
    have : Real.Gamma (n + α + β + 1) ≠ 0 := (Real.Gamma_pos_of_pos (by linarith)).ne'
    field_simp
  · intro y hy
    obtain ⟨z, hz, rfl⟩ := List.mem_map.1 hy
    obtain ⟨p, hp, rfl⟩ := List.mem_map.1 hz
    have := (jacobi_equations hα hβ hs hc hn h hp).2.2.1
    rw [hl', repulsion_affine]
    linear_combination (-1 / 2) * this
  · intro k hk he
    have hk' : (k : ℝ) < l'.length := by exact_mod_cast hk
    have hk0 : (0 : ℝ) ≤ k := Nat.cast_nonneg k
    rw [hlen'] at hk' he
    have : ((n : ℝ) - k) * (n + k + α + β + 1) = 0 := by linear_combination -he
    rcases mul_eq_zero.1 this with h | h <;> linarith
  · rw [hlen']
    intro k hk
    have hk0 : (0 : ℝ) ≤ k := Nat.cast_nonneg k
    have hch : ((n.choose (k + 1) : ℕ) : ℝ) * (k + 1) = n.choose k * (n - k) := by
      have := Nat.choose_succ_right_eq n k
      rw [← Nat.cast_sub hk.le]
      exact_mod_cast this
    have hk1 : (k : ℝ) + α + 1 ≠ 0 := by linarith
    have hk2 : (n : ℝ) + k + α + β + 1 ≠ 0 := by linarith
    have g0 := hG k
    push_cast
    rw [show (k : ℝ) + 1 + α + 1 = (k + α + 1) + 1 by ring, Real.Gamma_add_one hk1, show (n : ℝ) + (k + 1) + α + β + 1 = (n + k + α + β + 1) + 1 by ring, Real.Gamma_add_one hk2]
    rw [show 1 * (k : ℝ) + (α + 1) = k + α + 1 by ring]
    field_simp
    linear_combination ((n : ℝ) + k + α + β + 1) * Real.Gamma (n + k + α + β + 1) * hch

end jacobi

/-- C106: the nodes `x` of Gauss-Jacobi satisfy `∑ 1/(x - y) = (α + 1)/(2(1 - x)) - (β + 1)/(2(1 + x))` (`y` the other nodes), and the weight of `x` is a constant divided by `1 - x²` and the
squared product of the `x - y`, up to the relative error of the crate's gamma function -/
theorem C106_jacobi {ext : Externals ℝ} (hext : ExactSolver ext) (mode : Overflow) {n : ℕ} (hn : 0 < n) {α β : FiniteAboveNegOne ℝ} (hα : -1 < α.get) (hβ : -1 < β.get)
    (hs : α.get + β.get ≠ -1) (hd : ¬ Delegated α.get β.get) (hodd : n % 2 = 0 ∨ n = 1 ∨ α = β) :
    ∃ (r : JacobiRule ℝ) (c : ℝ), GaussJacobi.new mode ext n α β = some r ∧ |c - 1| ≤ 6e-12 ∧ ∀ p ∈ r.asNodeWeightPairs,
      repulsion (r.asNodeWeightPairs.map Prod.fst) p.1 = (α.get + 1) / (2 * (1 - p.1)) - (β.get + 1) / (2 * (1 + p.1)) ∧
      p.2 * ((1 - p.1 ^ 2) * gapProduct (r.asNodeWeightPairs.map Prod.fst) p.1 ^ 2) =
        c * (2 ^ (2 * n + α.get + β.get + 1) * n.factorial * Real.Gamma (n + α.get + 1) * Real.Gamma (n + β.get + 1) * Real.Gamma (n + α.get + β.get + 1) /
          Real.Gamma (2 * n + α.get + β.get + 1) ^ 2) := by
  obtain ⟨r, c, h1, hc, hc1, h2⟩ := jacobi_isGauss hext mode hn hα hβ hs hd hodd
  refine ⟨r, c, h1, hc1, fun p hp => ?_⟩
  have hp' : p ∈ r.nodeWeightPairs := hp
  obtain ⟨b1, b2, e1, e2⟩ := jacobi_equations hα hβ hs hc hn h2 hp'
  have e3 := jacobi_weight hα hβ hs hc hn h2 hp'
  rw [← e2] at e3
  refine ⟨?_, e3⟩
  change repulsion (r.nodeWeightPairs.map Prod.fst) p.1 = _
  have f1 : 1 - p.1 ≠ 0 := by linarith
  have f2 : 1 + p.1 ≠ 0 := by linarith
  field_simp
  linear_combination e1

/-- C106: these equations have no other solution -/
theorem C106_jacobi_unique {ext : Externals ℝ} (hext : ExactSolver ext) (mode : Overflow) {n : ℕ} (hn : 0 < n) {α β : FiniteAboveNegOne ℝ} (hα : -1 < α.get) (hβ : -1 < β.get)
    (hs : α.get + β.get ≠ -1) (hd : ¬ Delegated α.get β.get) (hodd : n % 2 = 0 ∨ n = 1 ∨ α = β) :
    ∃ r : JacobiRule ℝ, GaussJacobi.new mode ext n α β = some r ∧ ∀ l : List ℝ, l.length = n → l.Nodup →
      (∀ x ∈ l, 2 * (1 - x ^ 2) * repulsion l x = (α.get + 1) * (1 + x) - (β.get + 1) * (1 - x)) → l.Perm (r.asNodeWeightPairs.map Prod.fst) := by
  obtain ⟨r, c, h1, hc, -, h2⟩ := jacobi_isGauss hext mode hn hα hβ hs hd hodd
  refine ⟨r, h1, fun l hl hnd h => ?_⟩
  have hlen : (r.nodeWeightPairs.map Prod.fst).length = n := by rw [List.length_map, h2.length]
  show l.Perm (r.nodeWeightPairs.map Prod.fst)
  refine equilibrium_unique (a2 := -1) (a1 := 0) (a0 := 1) (b1 := -(α.get + β.get + 2)) (b0 := β.get - α.get) (gauss_nodes_nodup hc h2.exact' (posDef_jacobi hα hβ)) hnd
    (hl.trans hlen.symm) ?_ ?_ ?_
  · intro k hk he
    have hk' : (k : ℝ) < (r.nodeWeightPairs.map Prod.fst).length := by exact_mod_cast hk
    have hk0 : (0 : ℝ) ≤ k := Nat.cast_nonneg k
    have hn1 : (1 : ℝ) ≤ n := by exact_mod_cast hn
    rw [hlen] at hk' he
    have : ((n : ℝ) - k) * (n + k + α.get + β.get + 1) = 0 := by linear_combination he
    rcases mul_eq_zero.1 this with h | h <;> linarith
  · intro x hx
    obtain ⟨p, hp, rfl⟩ := List.mem_map.1 hx
    linarith [(jacobi_equations hα hβ hs hc hn h2 hp).2.2.1]
  · intro x hx
    linarith [h x hx]

/-- C106: the nodes of Gauss-Jacobi are the zeros of the Jacobi polynomial of degree `n`, and the weights are
`2^(α+β+1) Γ(n+α+1) Γ(n+β+1) / (n! Γ(n+α+β+1) (1 - x²) P_n'(x)²)`, up to the relative error of the crate's gamma function -/
theorem C106_jacobi_poly {ext : Externals ℝ} (hext : ExactSolver ext) (mode : Overflow) {n : ℕ} (hn : 0 < n) {α β : FiniteAboveNegOne ℝ} (hα : -1 < α.get) (hβ : -1 < β.get)
    (hs : α.get + β.get ≠ -1) (hd : ¬ Delegated α.get β.get) (hodd : n % 2 = 0 ∨ n = 1 ∨ α = β) :
    ∃ (r : JacobiRule ℝ) (c : ℝ), GaussJacobi.new mode ext n α β = some r ∧ |c - 1| ≤ 6e-12 ∧
      (∀ x : ℝ, x ∈ r.asNodeWeightPairs.map Prod.fst ↔ jacobiPoly n α.get β.get x = 0) ∧
      ∀ p ∈ r.asNodeWeightPairs, p.2 = c * (2 ^ (α.get + β.get + 1) * Real.Gamma (n + α.get + 1) * Real.Gamma (n + β.get + 1) /
        (n.factorial * Real.Gamma (n + α.get + β.get + 1) * ((1 - p.1 ^ 2) * deriv (jacobiPoly n α.get β.get) p.1 ^ 2))) := by
  obtain ⟨r, c, h1, hc, hc1, h2⟩ := jacobi_isGauss hext mode hn hα hβ hs hd hodd
  have hn1 : (1 : ℝ) ≤ n := by exact_mod_cast hn
  have g1 : 0 < Real.Gamma (2 * n + α.get + β.get + 1) := Real.Gamma_pos_of_pos (by linarith)
  have g2 : 0 < Real.Gamma (n + α.get + β.get + 1) := Real.Gamma_pos_of_pos (by linarith)
  have hP := jacobiPoly_eq hα hβ hs hc hn h2
  have hroot := h2.rootPoly hn hc (posDef_jacobi hα hβ) (integrable_jacobi hα hβ) (jacobi_orthogonal hα hβ hs)
  refine ⟨r, c, h1, hc1, fun x => ?_, fun p hp => ?_⟩
  · have := isGauss_zero_iff (integrable_jacobi hα hβ) (jacobi_orthogonal hα hβ hs) hc (posDef_jacobi hα hβ) hn h2 x
    rw [hP, hroot, mul_eq_zero, or_iff_right (by positivity), this]
    rfl
  · have hp' : p ∈ r.nodeWeightPairs := hp
    obtain ⟨b1, b2, -, -⟩ := jacobi_equations hα hβ hs hc hn h2 hp'
    have e3 := jacobi_weight hα hβ hs hc hn h2 hp'
    have hne : (derivative (monicSeq (jacA α.get β.get) (jacB α.get β.get) n)).eval p.1 ≠ 0 := by
      rw [← hroot]
      exact rootPoly_deriv_ne (gauss_nodes_nodup hc h2.exact' (posDef_jacobi hα hβ)) (List.mem_map.2 ⟨p, hp', rfl⟩)
    have hder : deriv (jacobiPoly n α.get β.get) p.1 = Real.Gamma (2 * n + α.get + β.get + 1) / (2 ^ n * n.factorial * Real.Gamma (n + α.get + β.get + 1)) *
        (derivative (monicSeq (jacA α.get β.get) (jacB α.get β.get) n)).eval p.1 := by
      rw [funext hP, hroot, deriv_const_mul _ (Polynomial.differentiable _ _), Polynomial.deriv]
    have h1x : 1 - p.1 ^ 2 ≠ 0 := by nlinarith
    have e4 : (2 : ℝ) ^ (2 * n + α.get + β.get + 1) = 2 ^ (α.get + β.get + 1) * (2 ^ n) ^ 2 := by
      rw [show 2 * (n : ℝ) + α.get + β.get + 1 = (α.get + β.get + 1) + ((2 * n : ℕ) : ℝ) by push_cast; ring, Real.rpow_add (by norm_num), Real.rpow_natCast, ← pow_mul, mul_comm n 2]
    rw [e4] at e3
    have f1 : (n.factorial : ℝ) ≠ 0 := by positivity
    rw [hder]
    generalize (derivative (monicSeq (jacA α.get β.get) (jacB α.get β.get) n)).eval p.1 = D at *
    have g1' := g1.ne'
    have g2' := g2.ne'
    field_simp at e3 ⊢
    linear_combination e3

/-! ### Instances -/

/-- degree 2: the two nodes satisfy `1/(x - y) = x`, and each weight times `(x - y)²` is `√π`; `±√(1/2)` is the only solution -/
example : ∃ ext : Externals ℝ, ExactSolver ext ∧ ∃ r : Rule ℝ, GaussHermite.new ext 2 = some r ∧
    (r.asNodeWeightPairs.map Prod.fst).Perm [Real.sqrt (1 / 2), -Real.sqrt (1 / 2)] ∧
    ∀ p ∈ r.asNodeWeightPairs, p.2 * gapProduct (r.asNodeWeightPairs.map Prod.fst) p.1 ^ 2 = Real.sqrt Real.pi := by
  refine ⟨_, exactSolver_exists, ?_⟩
  obtain ⟨r, h1, h2⟩ := C106_hermite exactSolver_exists (n := 2) (by norm_num)
  obtain ⟨r', h1', h3⟩ := C106_hermite_unique exactSolver_exists (n := 2) (by norm_num)
  obtain rfl : r = r' := Option.some.inj (h1.symm.trans h1')
  have hs : 0 < Real.sqrt (1 / 2) := Real.sqrt_pos.2 (by norm_num)
  have hs2 : Real.sqrt (1 / 2) * Real.sqrt (1 / 2) = 1 / 2 := Real.mul_self_sqrt (by norm_num)
  generalize Real.sqrt (1 / 2) = s at *
  have hne : s ≠ -s := by linarith
  refine ⟨r, h1, (h3 [s, -s] rfl (by simpa using hne) ?_).symm, fun p hp => by simpa using (h2 p hp).2⟩
  intro x hx
  simp only [List.mem_cons, List.not_mem_nil, or_false] at hx
  rcases hx with rfl | rfl
  · simp only [repulsion, List.erase_cons_head, List.map_cons, List.map_nil, List.sum_cons, List.sum_nil, add_zero, sub_neg_eq_add]
    field_simp; linarith
  · rw [repulsion, List.erase_cons_tail (by simpa using hne), List.erase_cons_head]
    simp only [List.map_cons, List.map_nil, List.sum_cons, List.sum_nil, add_zero]
    have : -s - s ≠ 0 := by linarith
    field_simp; linarith

/-- degree 2: the weights are `√π / (4 x²)` -/
example {ext : Externals ℝ} (hext : ExactSolver ext) : ∃ r : Rule ℝ, GaussHermite.new ext 2 = some r ∧
    ∀ p ∈ r.asNodeWeightPairs, p.2 = Real.sqrt Real.pi / (4 * p.1 ^ 2) := by
  obtain ⟨r, h1, -, h3⟩ := C106_hermite_poly hext (n := 2) (by norm_num)
  refine ⟨r, h1, fun p hp => ?_⟩
  rw [h3 p hp]
  simp [mul_pow]
  ring

/-- one node, `α = 1`: Laguerre's node is 2; Jacobi's with `(1, 2)` solves `2 (1 + x) = 3 (1 - x)`, so it is 1/5 -/
example {ext : Externals ℝ} (hext : ExactSolver ext) :
    (∃ r : LaguerreRule ℝ, GaussLaguerre.new ext 1 ⟨1⟩ = some r ∧ [2].Perm (r.asNodeWeightPairs.map Prod.fst)) ∧
    ∃ r : JacobiRule ℝ, GaussJacobi.new .checked ext 1 ⟨1⟩ ⟨2⟩ = some r ∧ [1 / 5].Perm (r.asNodeWeightPairs.map Prod.fst) := by
  constructor
  · obtain ⟨r, h1, h2⟩ := C106_laguerre_unique hext (n := 1) one_pos (α := ⟨1⟩) (by norm_num [FiniteAboveNegOne.get])
    exact ⟨r, h1, h2 [2] rfl (by simp) (by simp [repulsion, FiniteAboveNegOne.get]; norm_num)⟩
  · obtain ⟨r, h1, h2⟩ := C106_jacobi_unique hext .checked (n := 1) one_pos (α := ⟨1⟩) (β := ⟨2⟩) (by norm_num [FiniteAboveNegOne.get]) (by norm_num [FiniteAboveNegOne.get])
      (by norm_num [FiniteAboveNegOne.get]) (by norm_num [Delegated, FiniteAboveNegOne.get]) (Or.inr (Or.inl rfl))
    exact ⟨r, h1, h2 [1 / 5] rfl (by simp) (by simp [repulsion, FiniteAboveNegOne.get]; norm_num)⟩

/-- degree 4, `α = 1`: nodes and weights of Gauss-Laguerre through `L_4` and `L_5`; degree 4, `(1, 2)`: of Gauss-Jacobi through `P_4` -/
example {ext : Externals ℝ} (hext : ExactSolver ext) :
    (∃ (r : LaguerreRule ℝ) (c : ℝ), GaussLaguerre.new ext 4 ⟨1⟩ = some r ∧ |c - 1| ≤ 2e-12 ∧
      (∀ x : ℝ, x ∈ r.asNodeWeightPairs.map Prod.fst ↔ laguerrePoly 4 1 x = 0) ∧ ∀ p ∈ r.asNodeWeightPairs, p.2 = c * (p.1 / (5 * laguerrePoly 5 1 p.1 ^ 2))) ∧
    ∃ r : JacobiRule ℝ, GaussJacobi.new .checked ext 4 ⟨1⟩ ⟨2⟩ = some r ∧ (∀ x : ℝ, x ∈ r.asNodeWeightPairs.map Prod.fst ↔ jacobiPoly 4 1 2 x = 0) ∧
      ∀ p ∈ r.asNodeWeightPairs, repulsion (r.asNodeWeightPairs.map Prod.fst) p.1 = 1 / (1 - p.1) - 3 / (2 * (1 + p.1)) := by
  constructor
  · obtain ⟨r, c, h1, h2, h3, h4⟩ := C106_laguerre_poly hext (n := 4) (by norm_num) (α := ⟨1⟩) (by norm_num [FiniteAboveNegOne.get])
    refine ⟨r, c, h1, h2, h3, fun p hp => ?_⟩
    rw [h4 p hp]
    have hG : Real.Gamma (((4 : ℕ) : ℝ) + FiniteAboveNegOne.get (⟨1⟩ : FiniteAboveNegOne ℝ) + 1) = 120 := by
      rw [show ((4 : ℕ) : ℝ) + FiniteAboveNegOne.get (⟨1⟩ : FiniteAboveNegOne ℝ) + 1 = ((5 : ℕ) : ℝ) + 1 by norm_num [FiniteAboveNegOne.get], Real.Gamma_nat_eq_factorial]
      norm_num [Nat.factorial]
    rw [hG]
    congr 1
    have : ((4 : ℕ).factorial : ℝ) * (((4 : ℕ) : ℝ) + 1) ^ 2 = 120 * 5 := by norm_num [Nat.factorial]
    rw [this, mul_assoc, mul_div_mul_left _ _ (by norm_num)]
    rfl
  · have a1 : -1 < FiniteAboveNegOne.get (⟨1⟩ : FiniteAboveNegOne ℝ) := by norm_num [FiniteAboveNegOne.get]
    have a2 : -1 < FiniteAboveNegOne.get (⟨2⟩ : FiniteAboveNegOne ℝ) := by norm_num [FiniteAboveNegOne.get]
    obtain ⟨r, c, h1, -, h3, -⟩ := C106_jacobi_poly hext .checked (n := 4) (by norm_num) (α := ⟨1⟩) (β := ⟨2⟩) a1 a2
      (by norm_num [FiniteAboveNegOne.get]) (by norm_num [Delegated, FiniteAboveNegOne.get]) (Or.inl rfl)
    obtain ⟨r', c', h1', -, h4⟩ := C106_jacobi hext .checked (n := 4) (by norm_num) (α := ⟨1⟩) (β := ⟨2⟩) a1 a2
      (by norm_num [FiniteAboveNegOne.get]) (by norm_num [Delegated, FiniteAboveNegOne.get]) (Or.inl rfl)
    obtain rfl : r = r' := Option.some.inj (h1.symm.trans h1')
    refine ⟨r, h1, h3, fun p hp => ?_⟩
    rw [(h4 p hp).1]
    show ((1 : ℝ) + 1) / (2 * (1 - p.1)) - (2 + 1) / (2 * (1 + p.1)) = _
    rw [show (1 : ℝ) + 1 = 2 * 1 by norm_num, mul_div_mul_left _ _ two_ne_zero]
    norm_num

/-- degree 3, `α = 0`: `∑ 1/(x - y) = 1/2 - 1/(2x)`, and each weight is `36 c / (x ∏ (x - y)²)` -/
example {ext : Externals ℝ} (hext : ExactSolver ext) : ∃ (r : LaguerreRule ℝ) (c : ℝ), GaussLaguerre.new ext 3 ⟨0⟩ = some r ∧ |c - 1| ≤ 2e-12 ∧ ∀ p ∈ r.asNodeWeightPairs,
    repulsion (r.asNodeWeightPairs.map Prod.fst) p.1 = 1 / 2 - 1 / (2 * p.1) ∧ p.2 * (p.1 * gapProduct (r.asNodeWeightPairs.map Prod.fst) p.1 ^ 2) = c * 36 := by
  obtain ⟨r, c, h1, h2, h3⟩ := C106_laguerre hext (n := 3) (by norm_num) (α := ⟨0⟩) (by norm_num [FiniteAboveNegOne.get])
  have hG : (((3 : ℕ).factorial : ℕ) : ℝ) * Real.Gamma (((3 : ℕ) : ℝ) + FiniteAboveNegOne.get (⟨0⟩ : FiniteAboveNegOne ℝ) + 1) = 36 := by
    rw [show ((3 : ℕ) : ℝ) + FiniteAboveNegOne.get (⟨0⟩ : FiniteAboveNegOne ℝ) + 1 = ((3 : ℕ) : ℝ) + 1 by norm_num [FiniteAboveNegOne.get], Real.Gamma_nat_eq_factorial]
    norm_num [Nat.factorial]
  refine ⟨r, c, h1, h2, fun p hp => ⟨?_, ?_⟩⟩
  · rw [(h3 p hp).1]
    show 1 / 2 - ((0 : ℝ) + 1) / (2 * p.1) = _
    rw [zero_add]
  · rw [(h3 p hp).2, hG]

end GaussQuad.Props
