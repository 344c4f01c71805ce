import Verif.Props.LegendreLarge
import Verif.Props.LegendreMiddle

/-!
# Odd Gauss-Legendre rules above degree 100: how far the middle node is from 0 and what that does to swapped bounds (C37, C20)
-/

namespace GaussQuad.Props
open Polynomial Spec FloatOps Bogaert LegendrePoly

/-- there is only one increasing list of `n` roots of `P_n` -/
theorem roots_unique {n : ℕ} {R S : List ℝ} (hR : R.length = n) (hS : S.length = n) (sR : R.Pairwise (· < ·)) (sS : S.Pairwise (· < ·))
    (zR : ∀ x ∈ R, P n x = 0) (zS : ∀ x ∈ S, P n x = 0) : R = S := by
  have nR : R.Nodup := sR.imp ne_of_lt
  have nS : S.Nodup := sS.imp ne_of_lt
  have hsub : ∀ {l : List ℝ}, l.length = n → l.Nodup → (∀ x ∈ l, P n x = 0) → l.toFinset = (legendreP n).roots.toFinset := by
    intro l hl hn' hr
    apply Finset.eq_of_subset_of_card_le
    · intro x hx
      rw [Multiset.mem_toFinset, mem_roots (legendre_ne_zero n)]
      exact hr x (List.mem_toFinset.1 hx)
    · rw [List.toFinset_card_of_nodup hn', hl]
      calc (legendreP n).roots.toFinset.card ≤ (legendreP n).roots.card := Multiset.toFinset_card_le _
        _ ≤ (legendreP n).natDegree := card_roots' _
        _ = n := legendre_natDegree n
  have hperm : R.Perm S := by
    rw [List.perm_ext_iff_of_nodup nR nS]
    intro x
    rw [← List.mem_toFinset, ← List.mem_toFinset (l := S), hsub hR nR zR, hsub hS nS zS]
  exact hperm.eq_of_pairwise (fun a b _ _ h1 h2 => absurd h1 (not_lt.2 h2.le)) sR sS

/-- the increasing list of roots of `P_n` is symmetric -/
theorem roots_symm {n : ℕ} {R : List ℝ} (hR : R.length = n) (sR : R.Pairwise (· < ·)) (zR : ∀ x ∈ R, P n x = 0) :
    R = (R.map fun x => -x).reverse := by
  refine roots_unique hR (by simpa using hR) sR ?_ zR ?_
  · rw [List.pairwise_reverse, List.pairwise_map]
    exact sR.imp fun h => neg_lt_neg h
  · intro x hx
    rw [List.mem_reverse, List.mem_map] at hx
    obtain ⟨y, hy, rfl⟩ := hx
    exact P_neg_root (zR y hy)

/-- C37, what is true of the middle node: for odd `n > 100` it is within `7.5e-17` of 0. -/
theorem C37_middle_close (mode : Overflow) {m : ℕ} (hm : 50 ≤ m) (hlt : 2 * m + 1 + 1 < 2 ^ 64) :
    ∃ r : Rule ℝ, GaussLegendre.new mode (2 * m + 1) = some r ∧ ∃ p, r.asNodeWeightPairs[m]? = some p ∧ |p.1| ≤ 75 / 10 ^ 18 := by
  obtain ⟨r, hr, G, hlen, hs, hin, -, hclose⟩ := C50_asymptotic mode (n := 2 * m + 1) (by omega) hlt
  refine ⟨r, hr, ?_⟩
  have hlen' := hclose.length_eq
  have hlt1 : m < r.asNodeWeightPairs.length := by omega
  have hlt2 : m < G.length := by omega
  refine ⟨r.asNodeWeightPairs[m], List.getElem?_eq_getElem hlt1, ?_⟩
  have h1 := (hclose.get hlt1 hlt2).1
  have hsym := roots_symm (n := 2 * m + 1) (R := G.map (·.1)) (by simpa using hlen) hs (by
    intro x hx
    obtain ⟨q, hq, rfl⟩ := List.mem_map.1 hx
    exact (hin q hq).1)
  have h2 : (G.map (·.1))[m]? = ((G.map (·.1)).map fun x => -x).reverse[m]? := by rw [← hsym]
  rw [List.getElem?_reverse (by simp; omega), List.length_map, List.length_map, hlen, show 2 * m + 1 - 1 - m = m by omega,
    List.getElem?_map, List.getElem?_map, List.getElem?_map, List.getElem?_eq_getElem hlt2] at h2
  simp only [Option.map_some, Option.some.injEq] at h2
  have h3 : (G[m]).1 = 0 := by linarith
  simp only [List.get_eq_getElem, h3, sub_zero] at h1
  exact h1

example : ∃ r : Rule ℝ, GaussLegendre.new .checked 101 = some r ∧ ∃ p, r.asNodeWeightPairs[50]? = some p ∧ |p.1| ≤ 75 / 10 ^ 18 :=
  C37_middle_close .checked (m := 50) le_rfl (by norm_num)

/-- C20, what is true for odd `n > 100`: swapping the bounds negates the result up to the two middle function values, taken at most
`7.5e-17 |b-a|` apart. -/
theorem C20_legendre_odd (mode : Overflow) {m : ℕ} (hm : 50 ≤ m) (hlt : 2 * m + 1 + 1 < 2 ^ 64) :
    ∃ r : Rule ℝ, GaussLegendre.new mode (2 * m + 1) = some r ∧ ∃ x w : ℝ, |x| ≤ 75 / 10 ^ 18 ∧ 0 < w ∧ w < 3 ∧ ∀ (a b : ℝ) (f : ℝ → ℝ),
      (AnyRule.legendre r).value b a f = -(AnyRule.legendre r).value a b f +
        (b - a) / 2 * w * (f ((a + b) / 2 + (b - a) / 2 * x) - f ((a + b) / 2 - (b - a) / 2 * x)) := by
  obtain ⟨r, h1, p, hp, hpx⟩ := C37_middle_close mode hm hlt
  obtain ⟨r', h1', hlen, hw, -, hmir, -⟩ := C37_legendre mode (n := 2 * m + 1) (by omega) (by omega)
  rw [h1] at h1'
  obtain rfl := Option.some.inj h1'
  obtain ⟨r', h1', hsum2⟩ := C43_legendre mode (n := 2 * m + 1) (by omega) (by omega)
  rw [h1] at h1'
  obtain rfl := Option.some.inj h1'
  have hpm := List.mem_of_getElem? hp
  refine ⟨r, h1, p.1, p.2, hpx, (hw p hpm).2.2, ?_, fun a b f => ?_⟩
  · have h2 : p.2 ≤ (r.asNodeWeightPairs.map (·.2)).sum :=
      List.single_le_sum (fun x hx => by obtain ⟨q, hq, rfl⟩ := List.mem_map.1 hx; exact (hw q hq).2.2.le) _ (List.mem_map_of_mem hpm)
    have h3 := (abs_le.1 hsum2).2
    norm_num at h3; linarith
  rw [value_gauss_quad rfl, value_gauss_quad rfl]
  have hL : r.nodeWeightPairs.length = 2 * m + 1 := hlen
  have key : ∀ F : ℝ → ℝ, quad r.nodeWeightPairs (fun x => F (-x)) = quad r.nodeWeightPairs F - p.2 * (F p.1 - F (-p.1)) := by
    intro F
    simp only [quad]
    rw [list_sum_eq, list_sum_eq, hL, ← Finset.sum_range_reflect]
    rw [← Finset.add_sum_erase _ _ (Finset.mem_range.2 (show m < 2 * m + 1 by omega)),
      ← Finset.add_sum_erase (Finset.range (2 * m + 1)) (fun i => Option.getD (Option.map _ r.nodeWeightPairs[i]?) 0)
        (Finset.mem_range.2 (show m < 2 * m + 1 by omega))]
    have e0 : r.nodeWeightPairs[m]? = some p := hp
    rw [show 2 * m + 1 - 1 - m = m by omega, e0]
    simp only [Option.map_some, Option.getD_some]
    have : ∑ i ∈ (Finset.range (2 * m + 1)).erase m, (Option.map (fun q : ℝ × ℝ => q.2 * F (-q.1)) r.nodeWeightPairs[2 * m + 1 - 1 - i]?).getD 0 =
        ∑ i ∈ (Finset.range (2 * m + 1)).erase m, (Option.map (fun q : ℝ × ℝ => q.2 * F q.1) r.nodeWeightPairs[i]?).getD 0 := by
      apply Finset.sum_congr rfl
      intro i hi
      rw [Finset.mem_erase, Finset.mem_range] at hi
      have := hmir i hi.2 (Or.inl (by omega))
      rw [Rule.asNodeWeightPairs] at this
      rw [this]
      cases r.nodeWeightPairs[i]? <;> simp
    rw [this]; ring
  have h2 := key fun x => f ((b - a) / 2 * x + (a + b) / 2)
  have e : (fun x : ℝ => f ((a - b) / 2 * x + (b + a) / 2)) = fun x => (fun x => f ((b - a) / 2 * x + (a + b) / 2)) (-x) := by
    funext x; simp only; congr 1; ring
  rw [e, h2, show (a + b) / 2 + (b - a) / 2 * p.1 = (b - a) / 2 * p.1 + (a + b) / 2 by ring,
    show (a + b) / 2 - (b - a) / 2 * p.1 = (b - a) / 2 * -p.1 + (a + b) / 2 by ring]
  ring

/-- with a 1-Lipschitz integrand on `[-1, 1]` the defect is below `5e-16` -/
example : ∃ r : Rule ℝ, GaussLegendre.new .checked 101 = some r ∧
    |(AnyRule.legendre r).value 1 (-1) Real.sin + (AnyRule.legendre r).value (-1) 1 Real.sin| ≤ 5 / 10 ^ 16 := by
  obtain ⟨r, h1, x, w, h2, h3, h4, h5⟩ := C20_legendre_odd .checked (m := 50) le_rfl (by norm_num)
  refine ⟨r, h1, ?_⟩
  rw [h5 (-1) 1 Real.sin]
  norm_num
  have h6 : |Real.sin x| ≤ 75 / 10 ^ 18 := (Real.abs_sin_le_abs).trans h2
  rw [← two_mul, abs_mul, abs_of_pos h3, abs_two]
  norm_num at h6
  nlinarith [abs_nonneg (Real.sin x)]

end GaussQuad.Props
