import Verif.Proofs.Interlace
import Verif.Props.GaussError

/-!
# C71: the nodes of consecutive degrees interlace

Between any two neighbouring nodes of the rule of degree `n + 1` lies exactly one node of the rule of degree `n`, and no node of degree `n` lies outside the nodes of degree
`n + 1`; in particular two consecutive degrees share no node.  `/repo/src/hermite/mod.rs`, `/repo/src/laguerre/mod.rs`, `/repo/src/chebyshev/mod.rs`, `/repo/src/jacobi/mod.rs`.
-/

namespace GaussQuad.Props
open Polynomial Spec FloatOps MeasureTheory

/-- `y` has one entry more than `x`, and `y 0 < x 0 < y 1 < x 1 < ⋯ < y n` -/
def Interlaced (x y : List ℝ) : Prop :=
  ∃ h : y.length = x.length + 1, ∀ i, ∀ hi : i < x.length, y[i] < x[i] ∧ x[i] < y[i + 1]

theorem interlaced_of_gauss {L L' : List (ℝ × ℝ)} {n : ℕ} {S : Set ℝ} {w : ℝ → ℝ} {c c' : ℝ} (h : IsGauss L n S w c) (h' : IsGauss L' (n + 1) S w c') (hc : 0 < c) (hc' : 0 < c')
    (hpos : PosDef S w) (hint : ∀ p : ℝ[X], IntegrableOn (fun x => p.eval x * w x) S) : Interlaced (L.map (·.1)) (L'.map (·.1)) := by
  have hlen : L'.length = L.length + 1 := by rw [h.length, h'.length]
  refine ⟨by simpa using hlen, fun i hi => ?_⟩
  rw [List.length_map] at hi
  have := gauss_interlace hc hc' h.exact' h'.exact' hlen hpos hint (h.strict hc hpos) (h'.strict hc' hpos) hi
  simpa using this

theorem isGauss1 {n : ℕ} (hn : 0 < n) (hlt : n + 1 < 2 ^ 64) : IsGauss (pairs1 n) n (Set.Ioo (-1) 1) chebW1 1 := by
  refine ⟨length_pairs1 n, ?_, exact1 hn⟩
  obtain ⟨r, h1, h2⟩ := (C12_chebyshev .checked hn hlt).1
  rw [cheb1_new_eq hlt, Option.some.injEq] at h1
  subst h1
  exact (List.pairwise_map.1 h2).imp le_of_lt

theorem isGauss2 {n : ℕ} (hn : 0 < n) (hlt : n + 1 < 2 ^ 64) : IsGauss (pairs2 n) n (Set.Ioo (-1) 1) chebW2 1 := by
  refine ⟨length_pairs2 n, ?_, exact2 hn⟩
  obtain ⟨r, h1, h2⟩ := (C12_chebyshev .checked hn hlt).2
  rw [cheb2_new_eq hlt, Option.some.injEq] at h1
  subst h1
  exact (List.pairwise_map.1 h2).imp le_of_lt

/-- outside the delegated pairs, the stored Jacobi rule is the Gauss rule of its weight at even degrees, at degree 1 and for equal parameters -/
theorem jacobi_isGauss {ext : Externals ℝ} (hext : ExactSolver ext) (mode : Overflow) {n : ℕ} (hn : 0 < n) {α β : FiniteAboveNegOne ℝ} (hα : -1 < α.get) (hβ : -1 < β.get)
    (hs : α.get + β.get ≠ -1) (hd : ¬ Delegated α.get β.get) (hodd : n % 2 = 0 ∨ n = 1 ∨ α = β) :
    ∃ (r : JacobiRule ℝ) (c : ℝ), GaussJacobi.new mode ext n α β = some r ∧ 0 < c ∧ |c - 1| ≤ 6e-12 ∧
      IsGauss r.nodeWeightPairs n (Set.Ioo (-1) 1) (jacW α.get β.get) c := by
  obtain ⟨r, c, hr, hc, hc1, hex, hlen⟩ := jacobi_exact_rule hext mode hn hα hβ hs hd hodd
  refine ⟨r, c, hr, hc, hc1, hlen, ?_, by rw [hlen]; exact exactUpTo_of_jacobiExact hex⟩
  by_cases h1 : n = 1
  · subst h1
    obtain ⟨q, hq⟩ := List.length_eq_one_iff.1 hlen
    rw [hq]; simp
  · rw [jacobi_new_general mode ext h1 hd] at hr
    obtain ⟨r', L, e1, e2, -, e3, e4, -⟩ := jacobi_general hext hn hα hβ hs
    rw [hr, Option.some.injEq] at e1
    subst e1
    rcases Nat.mod_two_eq_zero_or_one n with h2 | h2
    · rw [e3 h2]; exact e2.sorted
    · obtain rfl : α = β := by
        rcases hodd with h | h | h
        · omega
        · exact absurd h h1
        · exact h
      obtain ⟨hlt, h4⟩ := e4 h2
      have hm := e2.middle (jacobiFactor_pos hα hα hs) (posDef_jacobi hα hα) (jacobi_reflect _ _) h2 hlt
      have e : (0, (L[n / 2]).2) = L[n / 2] := by rw [← hm]
      rw [h4, e, List.set_getElem_self]
      exact e2.sorted

/-- C71 for Gauss-Hermite -/
theorem C71_hermite {ext : Externals ℝ} (hext : ExactSolver ext) {n : ℕ} (hn : 0 < n) {r r' : Rule ℝ} (hr : GaussHermite.new ext n = some r)
    (hr' : GaussHermite.new ext (n + 1) = some r') : Interlaced (r.asNodeWeightPairs.map (·.1)) (r'.asNodeWeightPairs.map (·.1)) := by
  obtain ⟨s, h1, h2⟩ := hermite_gauss hext hn
  obtain ⟨s', h1', h2'⟩ := hermite_gauss hext (Nat.succ_pos n)
  rw [hr, Option.some.injEq] at h1
  rw [Nat.succ_eq_add_one, hr', Option.some.injEq] at h1'
  subst h1 h1'
  exact interlaced_of_gauss h2 h2' one_pos one_pos posDef_hermite integrable_hermite

/-- C71 for Gauss-Laguerre, every parameter -/
theorem C71_laguerre {ext : Externals ℝ} (hext : ExactSolver ext) {n : ℕ} (hn : 0 < n) {α : FiniteAboveNegOne ℝ} (hα : -1 < α.get) {r r' : LaguerreRule ℝ}
    (hr : GaussLaguerre.new ext n α = some r) (hr' : GaussLaguerre.new ext (n + 1) α = some r') :
    Interlaced (r.asNodeWeightPairs.map (·.1)) (r'.asNodeWeightPairs.map (·.1)) := by
  obtain ⟨s, h1, -, h2⟩ := laguerre_gauss hext hn α hα
  obtain ⟨s', h1', -, h2'⟩ := laguerre_gauss hext (Nat.succ_pos n) α hα
  rw [hr, Option.some.injEq] at h1
  rw [Nat.succ_eq_add_one, hr', Option.some.injEq] at h1'
  subst h1 h1'
  exact interlaced_of_gauss h2 h2' (laguerre_factor_pos hα) (laguerre_factor_pos hα) (posDef_laguerre hα) (integrable_laguerre hα)

/-- C71 for both Gauss-Chebyshev rules -/
theorem C71_chebyshev (mode : Overflow) {n : ℕ} (hn : 0 < n) (hlt : n + 2 < 2 ^ 64) {r r' : Rule ℝ} :
    (GaussChebyshevFirstKind.new mode n = some r → GaussChebyshevFirstKind.new mode (n + 1) = some r' →
      Interlaced (r.asNodeWeightPairs.map (·.1)) (r'.asNodeWeightPairs.map (·.1))) ∧
    (GaussChebyshevSecondKind.new mode n = some r → GaussChebyshevSecondKind.new mode (n + 1) = some r' →
      Interlaced (r.asNodeWeightPairs.map (·.1)) (r'.asNodeWeightPairs.map (·.1))) := by
  refine ⟨fun h h' => ?_, fun h h' => ?_⟩
  · rw [cheb1_new_eq (by omega), Option.some.injEq] at h h'
    subst h h'
    exact interlaced_of_gauss (isGauss1 hn (by omega)) (isGauss1 (Nat.succ_pos n) (by omega)) one_pos one_pos posDef_cheb1 integrableOn_cheb1
  · rw [cheb2_new_eq (by omega), Option.some.injEq] at h h'
    subst h h'
    exact interlaced_of_gauss (isGauss2 hn (by omega)) (isGauss2 (Nat.succ_pos n) (by omega)) one_pos one_pos posDef_cheb2 integrableOn_cheb2

/-- C71 for Gauss-Jacobi outside the delegated pairs, where both rules are Gauss rules: for equal parameters, or between the degrees 1 and 2.  (At the other odd degrees the crate
overwrites the middle node, `C34_odd_refuted`.) -/
theorem C71_jacobi {ext : Externals ℝ} (hext : ExactSolver ext) (mode : Overflow) {n : ℕ} (hn : 0 < n) {α β : FiniteAboveNegOne ℝ} (hα : -1 < α.get) (hβ : -1 < β.get)
    (hs : α.get + β.get ≠ -1) (hd : ¬ Delegated α.get β.get) (hsym : n = 1 ∨ α = β) {r r' : JacobiRule ℝ}
    (hr : GaussJacobi.new mode ext n α β = some r) (hr' : GaussJacobi.new mode ext (n + 1) α β = some r') :
    Interlaced (r.asNodeWeightPairs.map (·.1)) (r'.asNodeWeightPairs.map (·.1)) := by
  obtain ⟨s, c, h1, hc, -, h2⟩ := jacobi_isGauss hext mode hn hα hβ hs hd (by tauto)
  obtain ⟨s', c', h1', hc', -, h2'⟩ := jacobi_isGauss hext mode (Nat.succ_pos n) hα hβ hs hd (by
    rcases hsym with h | h
    · left; omega
    · right; right; exact h)
  rw [hr, Option.some.injEq] at h1
  rw [Nat.succ_eq_add_one, hr', Option.some.injEq] at h1'
  subst h1 h1'
  exact interlaced_of_gauss h2 h2' hc hc' (posDef_jacobi hα hβ) (integrable_jacobi hα hβ)

/-- Gauss-Hermite of degrees 7 and 8 -/
example : ∃ ext : Externals ℝ, ExactSolver ext ∧ ∃ r r' : Rule ℝ, GaussHermite.new ext 7 = some r ∧ GaussHermite.new ext 8 = some r' ∧
    Interlaced (r.asNodeWeightPairs.map (·.1)) (r'.asNodeWeightPairs.map (·.1)) := by
  obtain ⟨r, h, -⟩ := hermite_gauss exactSolver_exists (n := 7) (by norm_num)
  obtain ⟨r', h', -⟩ := hermite_gauss exactSolver_exists (n := 8) (by norm_num)
  exact ⟨_, exactSolver_exists, r, r', h, h', C71_hermite exactSolver_exists (by norm_num) h h'⟩

example : ∃ ext : Externals ℝ, ExactSolver ext ∧ ∃ r r' : LaguerreRule ℝ, GaussLaguerre.new ext 4 ⟨-1 / 2⟩ = some r ∧ GaussLaguerre.new ext 5 ⟨-1 / 2⟩ = some r' ∧
    Interlaced (r.asNodeWeightPairs.map (·.1)) (r'.asNodeWeightPairs.map (·.1)) := by
  obtain ⟨r, h, -⟩ := laguerre_gauss exactSolver_exists (n := 4) (by norm_num) ⟨-1 / 2⟩ (by norm_num)
  obtain ⟨r', h', -⟩ := laguerre_gauss exactSolver_exists (n := 5) (by norm_num) ⟨-1 / 2⟩ (by norm_num)
  exact ⟨_, exactSolver_exists, r, r', h, h', C71_laguerre exactSolver_exists (by norm_num) (α := ⟨-1 / 2⟩) (by norm_num) h h'⟩

example : ∃ r r' : Rule ℝ, GaussChebyshevFirstKind.new .checked 1000 = some r ∧ GaussChebyshevFirstKind.new .checked 1001 = some r' ∧
    Interlaced (r.asNodeWeightPairs.map (·.1)) (r'.asNodeWeightPairs.map (·.1)) :=
  ⟨_, _, cheb1_new_eq (by norm_num), cheb1_new_eq (by norm_num), (C71_chebyshev .checked (n := 1000) (by norm_num) (by norm_num)).1 (cheb1_new_eq (by norm_num)) (cheb1_new_eq (by norm_num))⟩

/-- Gauss-Jacobi with `α = β = 1`, degrees 4 and 5 -/
example : ∃ ext : Externals ℝ, ExactSolver ext ∧ ∃ r r' : JacobiRule ℝ, GaussJacobi.new .checked ext 4 ⟨1⟩ ⟨1⟩ = some r ∧ GaussJacobi.new .checked ext 5 ⟨1⟩ ⟨1⟩ = some r' ∧
    Interlaced (r.asNodeWeightPairs.map (·.1)) (r'.asNodeWeightPairs.map (·.1)) := by
  have hd : ¬ Delegated (1 : ℝ) 1 := by rintro (⟨h, -⟩ | ⟨h, -⟩ | ⟨h, -⟩) <;> norm_num at h
  obtain ⟨r, -, h, -⟩ := jacobi_isGauss exactSolver_exists .checked (n := 4) (by norm_num) (α := ⟨1⟩) (β := ⟨1⟩) (by norm_num) (by norm_num) (by norm_num) hd (by norm_num)
  obtain ⟨r', -, h', -⟩ := jacobi_isGauss exactSolver_exists .checked (n := 5) (by norm_num) (α := ⟨1⟩) (β := ⟨1⟩) (by norm_num) (by norm_num) (by norm_num) hd (by norm_num)
  exact ⟨_, exactSolver_exists, r, r', h, h',
    C71_jacobi exactSolver_exists .checked (by norm_num) (α := ⟨1⟩) (β := ⟨1⟩) (by norm_num) (by norm_num) (by norm_num) hd (Or.inr rfl) h h'⟩

end GaussQuad.Props
