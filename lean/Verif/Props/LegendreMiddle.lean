import Verif.Props.Legendre
import Verif.Proofs.Interval

/-!
# The middle node of an odd Gauss-Legendre rule above degree 100 is not 0: C37 and C20 refuted there
-/

namespace GaussQuad.Props
open Polynomial Spec FloatOps Bogaert Interval

theorem pi_mem : Mem Real.pi (3.14159265358979323846, 3.14159265358979323847) := by
  constructor
  · push_cast; exact Real.pi_gt_d20.le
  · push_cast; exact Real.pi_lt_d20.le

/-- `cos e` for small `e` -/
theorem cos_mem {e : ℝ} (he : Mem e (-0.00001, 0.00001)) {I : ℚ × ℚ} (h : Mem (e * e) I) :
    Mem (Real.cos e) (add (sub (1, 1) (mul (0.5, 0.5) I)) (-0.000000000000000000001, 0.000000000000000000001)) := by
  have h1 := he.1
  have h2 := he.2
  push_cast at h1 h2
  have habs : |e| ≤ 0.00001 := abs_le.2 ⟨by linarith, by linarith⟩
  have hb := Real.cos_bound (x := e) (by linarith)
  have h4 : |e| ^ 4 * (5 / 96) ≤ 0.000000000000000000001 := by
    calc |e| ^ 4 * (5 / 96) ≤ 0.00001 ^ 4 * (5 / 96) := by gcongr
      _ ≤ _ := by norm_num
  have hb2 := abs_le.1 (hb.trans h4)
  have hm : Mem (Real.cos e - (1 - e ^ 2 / 2)) (-0.000000000000000000001, 0.000000000000000000001) := by
    constructor
    · push_cast; linarith [hb2.1]
    · push_cast; linarith [hb2.2]
  have := ((mem_const 1).sub ((mem_const 0.5).mul h)).add hm
  have e1 : ((1 : ℚ) : ℝ) - ((0.5 : ℚ) : ℝ) * (e * e) + (Real.cos e - (1 - e ^ 2 / 2)) = Real.cos e := by push_cast; ring
  rwa [e1] at this

theorem mid_theta_101 (b : ℝ) : (computePairCore 101 (besselJ0ZeroAsymptotic 51 : ℝ) b).theta < Real.pi / 2 := by
  have hz : Mem (Real.pi * (((51 : ℕ) : ℝ) - ((0.25 : ℚ) : ℝ))) (159.4358271696820068518, 159.4358271696820068526) := by
    have := pi_mem.mul ((mem_const ((51 : ℕ) : ℚ)).sub (mem_const 0.25))
    rw [Rat.cast_natCast] at this
    exact this.mono (by decide +kernel) (by decide +kernel)
  have hr : Mem (((1.0 : ℚ) : ℝ) / (Real.pi * (((51 : ℕ) : ℝ) - ((0.25 : ℚ) : ℝ)))) (0.00627211598391705756, 0.00627211598391705758) := by
    have := hz.inv (by decide +kernel)
    have h1 : ((1.0 : ℚ) : ℝ) = 1 := by norm_num
    rw [h1]
    exact this.mono (by decide +kernel) (by decide +kernel)
  have ez : Real.pi * (((51 : ℕ) : ℝ) - ((0.25 : ℚ) : ℝ)) = 203 / 4 * Real.pi := by push_cast; ring
  have hnu : (besselJ0ZeroAsymptotic 51 : ℝ) = Real.pi * (((51 : ℕ) : ℝ) - ((0.25 : ℚ) : ℝ)) +
      (besselJ0ZeroAsymptotic 51 - Real.pi * (((51 : ℕ) : ℝ) - ((0.25 : ℚ) : ℝ))) := by ring
  have hg : Mem (besselJ0ZeroAsymptotic 51 - Real.pi * (((51 : ℕ) : ℝ) - ((0.25 : ℚ) : ℝ))) (0.000783994581139471510, 0.000783994581139471514) := by
    simp only [besselJ0ZeroAsymptotic, real_add, real_sub, real_mul, real_div, real_lit, real_ofNat, real_pi]
    rw [add_sub_cancel_left]
    generalize ((1.0 : ℚ) : ℝ) / (Real.pi * (((51 : ℕ) : ℝ) - ((0.25 : ℚ) : ℝ))) = r at hr ⊢
    have h2 : Mem (r * r) (0.0000393394389157078390, 0.0000393394389157078394) := (hr.mul hr).mono (by decide +kernel) (by decide +kernel)
    exact (hr.mul ((mem_const _).add (h2.mul ((mem_const _).add (h2.mul ((mem_const _).add (h2.mul ((mem_const _).add (h2.mul
      ((mem_const _).add (h2.mul ((mem_const _).add (h2.mul ((mem_const _).add (h2.mul ((mem_const _).add
      ((mem_const _).mul h2))))))))))))))))).mono (by decide +kernel) (by decide +kernel)
  rw [hnu, ez]
  rw [ez] at hg
  generalize (besselJ0ZeroAsymptotic 51 - 203 / 4 * Real.pi : ℝ) = g at hg ⊢
  simp only [computePairCore, real_add, real_mul, real_div, real_ofNat, real_lit_one, real_lit_half, real_sin]
  have ew : (1 : ℝ) / (((101 : ℕ) : ℝ) + 1 / 2) = ((2 / 203 : ℚ) : ℝ) := by push_cast; norm_num
  rw [ew]
  have et : ((2 / 203 : ℚ) : ℝ) * (203 / 4 * Real.pi + g) = ((0.5 : ℚ) : ℝ) * Real.pi + ((2 / 203 : ℚ) : ℝ) * g := by push_cast; ring
  have ewn : ((2 / 203 : ℚ) : ℝ) * ((2 / 203 : ℚ) : ℝ) * ((203 / 4 * Real.pi + g) /
      Real.sin (((2 / 203 : ℚ) : ℝ) * (203 / 4 * Real.pi + g))) = ((2 / 203 : ℚ) : ℝ) *
      ((((2 / 203 : ℚ) : ℝ) * (203 / 4 * Real.pi + g)) * (1 / Real.sin (((2 / 203 : ℚ) : ℝ) * (203 / 4 * Real.pi + g)))) := by ring
  rw [ewn, et]
  have hs : Real.sin (((0.5 : ℚ) : ℝ) * Real.pi + ((2 / 203 : ℚ) : ℝ) * g) = Real.cos (((2 / 203 : ℚ) : ℝ) * g) := by
    have : ((0.5 : ℚ) : ℝ) * Real.pi + ((2 / 203 : ℚ) : ℝ) * g = ((2 / 203 : ℚ) : ℝ) * g + Real.pi / 2 := by push_cast; ring
    rw [this, Real.sin_add_pi_div_two]
  rw [hs]
  have he : Mem (((2 / 203 : ℚ) : ℝ) * g) (0.000007724084543246024, 0.000007724084543246025) :=
    ((mem_const _).mul hg).mono (by decide +kernel) (by decide +kernel)
  have ht : Mem (((0.5 : ℚ) : ℝ) * Real.pi + ((2 / 203 : ℚ) : ℝ) * g) (1.57080405087943986524, 1.57080405087943986527) :=
    (((mem_const _).mul pi_mem).add he).mono (by decide +kernel) (by decide +kernel)
  have hc : Mem (Real.cos (((2 / 203 : ℚ) : ℝ) * g)) (0.99999999997016925896, 0.99999999997016925901) :=
    (cos_mem (he.mono (by decide +kernel) (by decide +kernel)) (he.mul he)).mono (by decide +kernel) (by decide +kernel)
  generalize hT : ((0.5 : ℚ) : ℝ) * Real.pi + ((2 / 203 : ℚ) : ℝ) * g = t at ht ⊢
  generalize Real.cos (((2 / 203 : ℚ) : ℝ) * g) = c at hc ⊢
  have hx : Mem (t * t) (2.4674253662592579048, 2.4674253662592579051) := (ht.mul ht).mono (by decide +kernel) (by decide +kernel)
  have hwi : Mem (((2 / 203 : ℚ) : ℝ) * (t * (1 / c))) (0.0154759019795694, 0.0154759019795695) :=
    ((mem_const _).mul (ht.mul (hc.inv (by decide +kernel)))).mono (by decide +kernel) (by decide +kernel)
  have hwi2 : Mem (((2 / 203 : ℚ) : ℝ) * (t * (1 / c))) (mul (2 / 203, 2 / 203) (mul (1.57080405087943986524, 1.57080405087943986527)
      (inv (0.99999999997016925896, 0.99999999997016925901)))) := (mem_const _).mul (ht.mul (hc.inv (by decide +kernel)))
  generalize ((2 / 203 : ℚ) : ℝ) * (t * (1 / c)) = wi at hwi hwi2 ⊢
  have hq : Mem (wi * wi) (0.00023950354208, 0.00023950354209) := (hwi.mul hwi).mono (by decide +kernel) (by decide +kernel)
  generalize t * t = x at hx ⊢
  have h1 : Mem (sf1t x) (-0.032251449967873570, -0.032251449967873565) := by
    simp only [sf1t, real_add, real_sub, real_mul, real_lit]
    exact ((((((((((((mem_const _).mul hx).add (mem_const _)).mul hx).sub (mem_const _)).mul hx).add (mem_const _)).mul hx).sub
      (mem_const _)).mul hx).add (mem_const _)).mul hx |>.sub (mem_const _)).mono (by decide +kernel) (by decide +kernel)
  have h2 : Mem (sf2t x) (0.00439296971514140, 0.00439296971514141) := by
    simp only [sf2t, real_add, real_sub, real_mul, real_lit]
    exact ((((((((((((mem_const _).mul hx).sub (mem_const _)).mul hx).add (mem_const _)).mul hx).sub (mem_const _)).mul hx).add
      (mem_const _)).mul hx).sub (mem_const _)).mul hx |>.add (mem_const _)).mono (by decide +kernel) (by decide +kernel)
  have h3 : Mem (sf3t x) (-0.0020538703995, -0.0020538703994) := by
    simp only [sf3t, real_add, real_sub, real_mul, real_lit]
    exact ((((((((((((mem_const _).mul hx).add (mem_const _)).mul hx).sub (mem_const _)).mul hx).add (mem_const _)).mul hx).sub
      (mem_const _)).mul hx).add (mem_const _)).mul hx |>.sub (mem_const _)).mono (by decide +kernel) (by decide +kernel)
  have hS := h1.add (hq.mul (h2.add (hq.mul h3)))
  have key := hg.add ((ht.mul hwi2).mul hS)
  have hneg := key.lt_zero (by decide +kernel)
  have : ((2 / 203 : ℚ) : ℝ) * (203 / 4 * Real.pi + g + t * wi * (sf1t x + wi * wi * (sf2t x + wi * wi * sf3t x))) =
      Real.pi / 2 + 2 / 203 * (g + t * wi * (sf1t x + wi * wi * (sf2t x + wi * wi * sf3t x))) := by push_cast; ring
  rw [this]
  linarith

/-- C37 fails in one place: for degree 101 the middle node (index 50 of 101) is strictly positive, not 0, so the rule is not exactly
symmetric.  (The node comes from the asymptotic formula; the tables up to degree 100 set the middle angle to π/2.) -/
theorem C37_middle_refuted (mode : Overflow) :
    ∃ r : Rule ℝ, GaussLegendre.new mode 101 = some r ∧ ∃ p, r.asNodeWeightPairs[50]? = some p ∧ 0 < p.1 ∧
      r.asNodeWeightPairs[101 - 1 - 50]? ≠ r.asNodeWeightPairs[50]?.map fun p => ((-p.1, p.2) : ℝ × ℝ) := by
  obtain ⟨θ, w, h, hr⟩ := legendre_pairs mode (n := 101) (by norm_num) (by norm_num)
  have hp1 := Real.pi_pos
  have hlt : θ 51 < Real.pi / 2 := by
    have h1 := h.new 51 (by norm_num) (by norm_num)
    have h2 : (ThetaWeightPair.new 101 51 : Option (ThetaWeightPair ℝ)) =
        some (computePairCore 101 (besselJ0ZeroAsymptotic 51) (besselJ1SquaredAsymptotic 51)) := by
      simp [ThetaWeightPair.new, csub, computePair, besselJ0Zero, besselJ1Squared]
    rw [h2] at h1
    have h3 := congrArg ThetaWeightPair.theta (Option.some.inj h1)
    simp only at h3
    rw [← h3]
    exact mid_theta_101 _
  have hpos : 0 < Real.cos (θ 51) :=
    Real.cos_pos_of_mem_Ioo ⟨by linarith [(h.range (k := 51) (by norm_num) (by norm_num)).1], hlt⟩
  have hi : ((rangeRev (101 + 1)).map fun k => (Real.cos (θ k), w k))[50]? = some (Real.cos (θ 51), w 51) := by
    rw [List.getElem?_map, List.getElem?_eq_getElem (by simp [length_rangeRev]), getElem_rangeRev]; rfl
  refine ⟨_, hr, (Real.cos (θ 51), w 51), hi, hpos, ?_⟩
  rw [show 101 - 1 - 50 = 50 from rfl, Rule.asNodeWeightPairs, hi]
  simp only [Option.map_some, ne_eq, Option.some.injEq, Prod.mk.injEq, not_and]
  intro h'
  linarith

theorem list_sum_eq (L : List (ℝ × ℝ)) (g : ℝ × ℝ → ℝ) : (L.map g).sum = ∑ i ∈ Finset.range L.length, (L[i]?.map g).getD 0 := by
  induction L with
  | nil => rfl
  | cons a l ih => rw [List.length_cons, Finset.sum_range_succ', List.map_cons, List.sum_cons, ih]; simp [add_comm]

/-- C20 fails for the same reason: with the identity as integrand and degree 101, swapping the bounds of `[-1, 1]` does not negate
the (non-zero) result. -/
theorem C20_legendre_odd_refuted (mode : Overflow) :
    ∃ r : Rule ℝ, GaussLegendre.new mode 101 = some r ∧
      (AnyRule.legendre r).value 1 (-1) (fun x => x) ≠ -(AnyRule.legendre r).value (-1) 1 (fun x => x) := by
  obtain ⟨r, h1, p, hp, hpos, -⟩ := C37_middle_refuted mode
  obtain ⟨r', h1', hlen, hw, -, hmir, -⟩ := C37_legendre mode (n := 101) (by norm_num) (by norm_num)
  rw [h1] at h1'
  obtain rfl := Option.some.inj h1'
  refine ⟨r, h1, ?_⟩
  rw [value_gauss_quad rfl, value_gauss_quad rfl]
  have hL : r.nodeWeightPairs.length = 101 := hlen
  have hpw := (hw p (List.mem_of_getElem? hp)).2.2
  -- the antisymmetric sum is twice the middle term
  have hsum : 2 * (r.nodeWeightPairs.map fun q => q.2 * q.1).sum = 2 * (p.2 * p.1) := by
    set g : ℕ → ℝ := fun i => (r.nodeWeightPairs[i]?.map fun q => q.2 * q.1).getD 0 with hg
    have e1 : (r.nodeWeightPairs.map fun q => q.2 * q.1).sum = ∑ i ∈ Finset.range 101, g i := by
      rw [list_sum_eq, hL]
    have e2 := Finset.sum_range_reflect g 101
    have e3 : ∑ i ∈ Finset.range 101, (g i + g (101 - 1 - i)) = 2 * g 50 := by
      rw [Finset.sum_eq_single 50]
      · simp; ring
      · intro i hi h50
        have hi' : i < 101 := Finset.mem_range.1 hi
        have := hmir i hi' (Or.inl (by omega))
        simp only [hg, Rule.asNodeWeightPairs] at this ⊢
        rw [this]
        cases r.nodeWeightPairs[i]? <;> simp
      · simp
    rw [Finset.sum_add_distrib, e2] at e3
    have e4 : g 50 = p.2 * p.1 := by
      simp only [hg]; rw [show r.nodeWeightPairs[50]? = some p from hp]; rfl
    rw [e1]; rw [e4] at e3; linarith
  have hne : (r.nodeWeightPairs.map fun q => q.2 * q.1).sum ≠ 0 := by
    have : 0 < p.2 * p.1 := mul_pos hpw hpos
    intro h0
    rw [h0] at hsum
    linarith
  intro hc
  apply hne
  have e5 : (fun q : ℝ × ℝ => q.2 * -q.1) = fun q => (-1) * (q.2 * q.1) := by funext q; ring
  simp only [quad] at hc
  norm_num at hc
  simp only [← mul_neg, e5, List.sum_map_mul_left] at hc
  linarith

end GaussQuad.Props
