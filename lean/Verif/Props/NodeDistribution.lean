import Verif.Proofs.NodeCount
import Verif.Proofs.LegendreSpacing
import Verif.Props.Legendre
import Verif.Props.Chebyshev
import Verif.Props.Protocol
import Verif.Props.HermiteSpacing
import Verif.Props.LaguerreSpacing
import Verif.Props.JacobiSpacing

/-!
# C111: how many evaluation points lie in a given part of the domain

Nodes of all Gauss rules (`/repo/src/legendre/mod.rs:60-119`, `/repo/src/chebyshev/mod.rs:24-105, 150-217`, `/repo/src/hermite/mod.rs:71-89`, `/repo/src/laguerre/mod.rs:84-105`, `/repo/src/jacobi/mod.rs:75-167`).
-/

namespace GaussQuad.Props
open Polynomial Spec FloatOps

/-- the affine image of the nodes in a window -/
theorem inWindow_affine {L : List (ℝ × ℝ)} {a b c d : ℝ} (hab : a < b) :
    inWindow (L.map fun p => lit 0.5 *ᶠ ((b -ᶠ a) *ᶠ p.1 +ᶠ (b +ᶠ a))) c d = inWindow (L.map Prod.fst) ((2 * c - a - b) / (b - a)) ((2 * d - a - b) / (b - a)) := by
  unfold inWindow
  rw [List.filter_map, List.filter_map, List.length_map, List.length_map]
  congr 1
  refine List.filter_congr fun p _ => ?_
  have hd : 0 < b - a := by linarith
  simp only [Function.comp, real_add, real_mul, real_sub, real_lit_half, decide_eq_decide]
  rw [div_le_iff₀ hd, le_div_iff₀ hd]
  constructor
  · rintro ⟨h1, h2⟩; constructor <;> linarith
  · rintro ⟨h1, h2⟩; constructor <;> linarith

/-- a window and its angles -/
theorem window_angles {a b c d : ℝ} (hab : a < b) (hac : a ≤ c) (hcd : c ≤ d) (hdb : d ≤ b) :
    -1 ≤ (2 * c - a - b) / (b - a) ∧ (2 * c - a - b) / (b - a) ≤ (2 * d - a - b) / (b - a) ∧ (2 * d - a - b) / (b - a) ≤ 1 := by
  have hd : 0 < b - a := by linarith
  refine ⟨?_, ?_, ?_⟩
  · rw [le_div_iff₀ hd]; linarith
  · gcongr
  · rw [div_le_iff₀ hd]; linarith

/-- nodes that are cosines of angles close to an arithmetic progression -/
theorem count_points {n : ℕ} {θ w : ℕ → ℝ} {N s η τ : ℝ} (hN : 0 < N) (hη : 0 ≤ η) (hτ : 0 ≤ τ) (h : ∀ k, 1 ≤ k → k ≤ n → |θ k * N - Real.pi * (k - s)| ≤ Real.pi * η) (hs : 0 ≤ s + η)
    (hn : N + s - η - τ < n + 1) (hθ : ∀ k, 1 ≤ k → k ≤ n → 0 ≤ θ k ∧ θ k ≤ Real.pi) {a b c d : ℝ} (hab : a < b) (hac : a ≤ c) (hcd : c ≤ d) (hdb : d ≤ b) :
    let δ := Real.arccos ((2 * c - a - b) / (b - a)) - Real.arccos ((2 * d - a - b) / (b - a))
    let m := inWindow (((rangeRev (n + 1)).map fun k => (Real.cos (θ k), w k)).map fun p => lit 0.5 *ᶠ ((b -ᶠ a) *ᶠ p.1 +ᶠ (b +ᶠ a))) c d
    0 ≤ δ / Real.pi ∧ δ / Real.pi ≤ 1 ∧ N * δ / Real.pi - 2 * η - τ - 1 ≤ m ∧ m ≤ N * δ / Real.pi + 2 * η + 1 := by
  intro δ m
  obtain ⟨w1, w2, w3⟩ := window_angles hab hac hcd hdb
  have hp := Real.pi_pos
  have h1 := Real.arccos_le_arccos w2
  have hm : m = ((rangeRev (n + 1)).filter fun k => Real.arccos ((2 * d - a - b) / (b - a)) ≤ θ k ∧ θ k ≤ Real.arccos ((2 * c - a - b) / (b - a))).length := by
    show inWindow _ c d = _
    rw [inWindow_affine hab]
    unfold inWindow
    rw [List.map_map, List.filter_map, List.length_map]
    congr 1
    refine List.filter_congr fun k hk => ?_
    obtain ⟨k1, k2⟩ := mem_rangeRev.1 hk
    obtain ⟨t1, t2⟩ := hθ k k1 (by omega)
    simp only [Function.comp, decide_eq_decide]
    rw [and_comm]
    refine and_congr ?_ ?_
    · refine ⟨fun h => by simpa [Real.arccos_cos t1 t2] using Real.arccos_le_arccos h, fun h => ?_⟩
      rw [← Real.cos_arccos (x := (2 * d - a - b) / (b - a)) (by linarith) w3]
      exact Real.cos_le_cos_of_nonneg_of_le_pi (Real.arccos_nonneg _) t2 h
    · refine ⟨fun h => by simpa [Real.arccos_cos t1 t2] using Real.arccos_le_arccos h, fun h => ?_⟩
      rw [← Real.cos_arccos (x := (2 * c - a - b) / (b - a)) w1 (by linarith)]
      exact Real.cos_le_cos_of_nonneg_of_le_pi t1 (Real.arccos_le_pi _) h
  have hδ : δ ≤ Real.pi := by
    have := Real.arccos_nonneg ((2 * d - a - b) / (b - a))
    have := Real.arccos_le_pi ((2 * c - a - b) / (b - a))
    show _ - _ ≤ _
    linarith
  have hδ0 : 0 ≤ δ := by show 0 ≤ _ - _; linarith
  obtain ⟨c1, c2⟩ := count_angles hN hη hτ h hs hn (Real.arccos_nonneg _) h1 (Real.arccos_le_pi _)
  rw [hm]
  exact ⟨by positivity, (div_le_one hp).2 hδ, c1, c2⟩

/-- **C111 (Legendre and Chebyshev).**  For every degree, the number of points between `c` and `d` differs by at most two from `n` times the share of `[c, d]` in the angle. -/
theorem C111_finite_interval (mode : Overflow) {n : ℕ} (hn : 0 < n) (hlt : n + 1 < 2 ^ 64) :
    ∃ r r1 r2 : Rule ℝ, GaussLegendre.new mode n = some r ∧ GaussChebyshevFirstKind.new mode n = some r1 ∧ GaussChebyshevSecondKind.new mode n = some r2 ∧
      ∀ R ∈ [AnyRule.legendre r, .chebyshevFirst r1, .chebyshevSecond r2], ∀ a b c d : ℝ, a < b → a ≤ c → c ≤ d → d ≤ b →
        |(inWindow (points a b R) c d : ℝ) - n * ((Real.arccos ((2 * c - a - b) / (b - a)) - Real.arccos ((2 * d - a - b) / (b - a))) / Real.pi)| ≤ 2 := by
  have hp := Real.pi_pos
  have hn1 : (1 : ℝ) ≤ n := by exact_mod_cast hn
  obtain ⟨θ, w, h, hr⟩ := legendre_pairs mode hn hlt
  refine ⟨_, _, _, hr, cheb1_new_eq hlt, cheb2_new_eq hlt, fun R hR a b c d hab hac hcd hdb => ?_⟩
  have fin : ∀ {N η τ δ : ℝ} {m : ℕ}, 0 ≤ δ / Real.pi → δ / Real.pi ≤ 1 → N * δ / Real.pi - 2 * η - τ - 1 ≤ m → m ≤ N * δ / Real.pi + 2 * η + 1 → (n : ℝ) ≤ N → 2 * η + τ ≤ 1 → 
      N - n + 2 * η ≤ 1 → |(m : ℝ) - n * (δ / Real.pi)| ≤ 2 := by
    intro N η τ δ m h0 h1 h2 h3 h4 h5 h6
    rw [mul_div_assoc] at h2 h3
    have := mul_le_mul_of_nonneg_left h1 (show 0 ≤ N - n by linarith)
    have := mul_nonneg (show 0 ≤ N - n by linarith) h0
    exact abs_le.2 ⟨by linarith, by linarith⟩
  simp only [List.mem_cons, List.not_mem_nil, or_false] at hR
  rcases hR with rfl | rfl | rfl
  · obtain ⟨e1, e2, e3, e4⟩ := count_points (w := w) (N := (n : ℝ) + 1 / 2) (s := 1 / 4) (η := 0.02) (τ := 0) (by positivity) (by norm_num) le_rfl (fun k k1 k2 => (h.near k1 k2).trans (by
      have := Real.pi_gt_three
      linarith)) (by norm_num) (by linarith) (fun k k1 k2 => ⟨(h.range k1 k2).1.le, (h.range k1 k2).2.le⟩) hab hac hcd hdb
    exact fin e1 e2 e3 e4 (by linarith) (by norm_num) (by norm_num)
  · have e : (GaussChebyshevFirstKind.pair n : ℕ → ℝ × ℝ) = fun k : ℕ => (Real.cos (Real.pi * ((k : ℝ) - 1 / 2) / n), Real.pi / n) := by
      funext k
      simp only [GaussChebyshevFirstKind.pair, real_pi, real_mul, real_sub, real_div, real_ofNat, real_cos, real_lit_two, real_lit_one]
      congr 2
      field_simp
    obtain ⟨e1, e2, e3, e4⟩ := count_points (n := n) (θ := fun k => Real.pi * ((k : ℝ) - 1 / 2) / n) (w := fun _ => Real.pi / n) (N := (n : ℝ)) (s := 1 / 2) (η := 0) (τ := 0) (by positivity) le_rfl le_rfl (fun k k1 k2 => by
      rw [div_mul_cancel₀ _ (by positivity), sub_self, abs_zero, mul_zero]) (by norm_num) (by linarith) (fun k k1 k2 => by
        have g1 : (1 : ℝ) ≤ k := by exact_mod_cast k1
        have g2 : (k : ℝ) ≤ n := by exact_mod_cast k2
        exact ⟨div_nonneg (mul_nonneg hp.le (by linarith)) (by linarith), by rw [div_le_iff₀ (by linarith)]; nlinarith⟩) hab hac hcd hdb
    rw [e]
    exact fin e1 e2 e3 e4 le_rfl (by norm_num) (by norm_num)
  · have e : (GaussChebyshevSecondKind.pair n : ℕ → ℝ × ℝ) = fun k : ℕ => (Real.cos (Real.pi * (k : ℝ) / (n + 1)), (GaussChebyshevSecondKind.pair n k : ℝ × ℝ).2) := by
      funext k
      refine Prod.ext ?_ rfl
      simp only [GaussChebyshevSecondKind.pair, real_pi, real_mul, real_add, real_div, real_ofNat, real_cos, real_lit_one]
      try congr 1
      try field_simp
    obtain ⟨e1, e2, e3, e4⟩ := count_points (n := n) (θ := fun k => Real.pi * (k : ℝ) / (n + 1)) (w := fun k => (GaussChebyshevSecondKind.pair n k : ℝ × ℝ).2) (N := (n : ℝ) + 1) (s := 0) (η := 0) (τ := 1 / 2) (by positivity) le_rfl (by norm_num) (fun k k1 k2 => by
      rw [div_mul_cancel₀ _ (by positivity), sub_zero, sub_self, abs_zero, mul_zero]) (by norm_num) (by linarith) (fun k k1 k2 => by
        have g2 : (k : ℝ) ≤ n := by exact_mod_cast k2
        exact ⟨by positivity, by rw [div_le_iff₀ (by linarith)]; nlinarith⟩) hab hac hcd hdb
    rw [e]
    exact fin e1 e2 e3 e4 (by linarith) (by norm_num) (by norm_num)

/-- **C111 (Hermite).**  The number of nodes between `c` and `d` is `√(2n+1) (d-c)/π` up to a constant. -/
theorem C111_hermite {ext : Externals ℝ} (hext : ExactSolver ext) {n : ℕ} (hn : 0 < n) :
    ∃ r : Rule ℝ, GaussHermite.new ext n = some r ∧ ∀ a b c d R : ℝ, c ≤ d → -R ≤ c → d ≤ R →
      (Real.sqrt (2 * n + 1) - R) * (d - c) / Real.pi - 1 ≤ inWindow (points a b (.hermite r)) c d ∧
      inWindow (points a b (.hermite r)) c d ≤ Real.sqrt (2 * n + 1) * (d - c) / Real.pi + 1 := by
  obtain ⟨r, h1, h2⟩ := hermite_gauss hext hn
  obtain ⟨r', h1', hgap⟩ := C94_gap hext hn
  obtain rfl : r = r' := Option.some.inj (h1.symm.trans h1')
  obtain ⟨r', h1', hdense⟩ := C94_dense hext hn
  obtain rfl : r = r' := Option.some.inj (h1.symm.trans h1')
  refine ⟨r, h1, fun a b c d R hcd hc hd => ?_⟩
  have hp := Real.pi_pos
  have hM : 0 < Real.sqrt (2 * n + 1) := Real.sqrt_pos.2 (by positivity)
  have hM2 : Real.sqrt (2 * n + 1) ^ 2 = 2 * n + 1 := Real.sq_sqrt (by positivity)
  have hR : 0 ≤ R := by linarith
  have hnd := gauss_nodes_nodup one_pos h2.exact' posDef_hermite
  have hpts : points a b (.hermite r) = r.nodeWeightPairs.map Prod.fst := rfl
  rw [hpts]
  unfold inWindow
  constructor
  · rcases le_or_gt (Real.sqrt (2 * n + 1)) R with hle | hlt
    · have : (Real.sqrt (2 * n + 1) - R) * (d - c) / Real.pi ≤ 0 := div_nonpos_of_nonpos_of_nonneg (mul_nonpos_of_nonpos_of_nonneg (by linarith) (by linarith)) hp.le
      refine le_trans ?_ (Nat.cast_nonneg _)
      linarith
    have hω : 0 < Real.sqrt (2 * n + 1) - R := by linarith
    have hR2 : R ^ 2 < 2 * n + 1 := by rw [← hM2]; exact pow_lt_pow_left₀ hlt hR two_ne_zero
    have hω1 : Real.sqrt (2 * n + 1) - R ≤ Real.sqrt (2 * n + 1 - R ^ 2) := Real.le_sqrt_of_sq_le (by nlinarith)
    have := le_count (L := r.nodeWeightPairs.map Prod.fst) (p := fun x => decide (c ≤ x ∧ x ≤ d)) (f := fun x => x) (s := c) (t := d) (g := Real.pi / (Real.sqrt (2 * n + 1) - R)) (by positivity) (fun u hu hu1 => by
      obtain ⟨q, hq, q1, q2⟩ := hdense R u (u + Real.pi / (Real.sqrt (2 * n + 1) - R)) hR2 (by linarith) (by linarith) (by
        rw [add_sub_cancel_left]; exact div_le_div_of_nonneg_left hp.le hω hω1)
      exact ⟨q.1, List.mem_map.2 ⟨q, hq, rfl⟩, by rw [decide_eq_true_eq]; constructor <;> linarith, q1, q2⟩)
    rw [div_div_eq_mul_div, mul_comm (d - c)] at this
    exact this
  · have := count_le hnd (p := fun x => decide (c ≤ x ∧ x ≤ d)) (f := fun x => x) (s := c) (t := d) (g := Real.pi / Real.sqrt (2 * n + 1)) (by positivity) hcd (fun x _ hx => by
      rwa [decide_eq_true_eq] at hx) (fun x hx _ y hy _ hxy => by
      obtain ⟨p, hp', rfl⟩ := List.mem_map.1 hx
      obtain ⟨q, hq, rfl⟩ := List.mem_map.1 hy
      exact hgap p hp' q hq fun h => hxy (by rw [h]))
    rw [div_div_eq_mul_div, mul_comm (d - c)] at this
    exact this

/-- **C111 (Laguerre).**  The number of nodes between `c` and `d` is `√(4n+2α+2) (√d-√c)/π` up to a constant. -/
theorem C111_laguerre {ext : Externals ℝ} (hext : ExactSolver ext) {n : ℕ} (hn : 0 < n) {α : FiniteAboveNegOne ℝ} (hα : -1 < α.get) :
    ∃ r : LaguerreRule ℝ, GaussLaguerre.new ext n α = some r ∧ ∀ a b c d : ℝ, 0 < c → c ≤ d →
      (Real.sqrt (4 * n + 2 * α.get + 2) - Real.sqrt (d + max 0 (α.get ^ 2 - 1 / 4) / c)) * (Real.sqrt d - Real.sqrt c) / Real.pi - 1 ≤ inWindow (points a b (.laguerre r)) c d ∧
      inWindow (points a b (.laguerre r)) c d ≤ Real.sqrt (4 * n + 2 * α.get + 2 + max 0 (1 / 4 - α.get ^ 2) / c) * (Real.sqrt d - Real.sqrt c) / Real.pi + 1 := by
  obtain ⟨r, h1, -, h2⟩ := laguerre_gauss hext hn α hα
  obtain ⟨r', h1', hgap⟩ := C95_gap hext hn hα
  obtain rfl : r = r' := Option.some.inj (h1.symm.trans h1')
  obtain ⟨r', h1', hdense⟩ := C95_dense hext hn hα
  obtain rfl : r = r' := Option.some.inj (h1.symm.trans h1')
  refine ⟨r, h1, fun a b c d hc hcd => ?_⟩
  have hp := Real.pi_pos
  have hM0 : (0 : ℝ) < 4 * n + 2 * α.get + 2 := by
    have : (1 : ℝ) ≤ n := by exact_mod_cast hn
    linarith
  have hE : 0 ≤ d + max 0 (α.get ^ 2 - 1 / 4) / c := by
    have := div_nonneg (le_max_left 0 (α.get ^ 2 - 1 / 4)) hc.le
    linarith
  have hΩ : 0 < 4 * n + 2 * α.get + 2 + max 0 (1 / 4 - α.get ^ 2) / c := by
    have := div_nonneg (le_max_left 0 (1 / 4 - α.get ^ 2)) hc.le
    linarith
  have hΩ' := Real.sqrt_pos.2 hΩ
  have hs : Real.sqrt c ≤ Real.sqrt d := Real.sqrt_le_sqrt hcd
  have hsc := Real.sqrt_pos.2 hc
  have hnd := gauss_nodes_nodup (laguerre_factor_pos hα) h2.exact' (posDef_laguerre hα)
  have hpts : points a b (.laguerre r) = r.nodeWeightPairs.map Prod.fst := rfl
  rw [hpts]
  unfold inWindow
  constructor
  · rcases le_or_gt (Real.sqrt (4 * n + 2 * α.get + 2)) (Real.sqrt (d + max 0 (α.get ^ 2 - 1 / 4) / c)) with hle | hlt
    · have : (Real.sqrt (4 * n + 2 * α.get + 2) - Real.sqrt (d + max 0 (α.get ^ 2 - 1 / 4) / c)) * (Real.sqrt d - Real.sqrt c) / Real.pi ≤ 0 :=
        div_nonpos_of_nonpos_of_nonneg (mul_nonpos_of_nonpos_of_nonneg (by linarith) (by linarith)) hp.le
      refine le_trans ?_ (Nat.cast_nonneg _)
      linarith
    have hω : 0 < Real.sqrt (4 * n + 2 * α.get + 2) - Real.sqrt (d + max 0 (α.get ^ 2 - 1 / 4) / c) := by linarith
    have hq1 := Real.sq_sqrt hM0.le
    have hq2 := Real.sq_sqrt hE
    have := le_count (L := r.nodeWeightPairs.map Prod.fst) (p := fun x => decide (c ≤ x ∧ x ≤ d)) (f := Real.sqrt) (s := Real.sqrt c) (t := Real.sqrt d) (div_pos hp hω) (fun u hu hu1 => by
      have hu0 : 0 < u := by linarith
      obtain ⟨q, hq, q1, q2⟩ := hdense (Real.sqrt d) u _ _ hu0 hu1 hω (by
        rw [Real.sq_sqrt (by linarith)]
        have : max 0 (α.get ^ 2 - 1 / 4) / u ^ 2 ≤ max 0 (α.get ^ 2 - 1 / 4) / c := by
          refine div_le_div_of_nonneg_left (le_max_left _ _) hc ?_
          rw [← Real.sq_sqrt hc.le]; gcongr
        have h0 := Real.sqrt_nonneg (d + max 0 (α.get ^ 2 - 1 / 4) / c)
        nlinarith) (by rw [add_sub_cancel_left])
      refine ⟨q.1, List.mem_map.2 ⟨q, hq, rfl⟩, ?_, q1, q2⟩
      rw [decide_eq_true_eq]
      have hs1 : Real.sqrt c < Real.sqrt q.1 := by linarith
      have hs2 : Real.sqrt q.1 ≤ Real.sqrt d := by linarith
      exact ⟨((Real.sqrt_lt_sqrt_iff hc.le).1 hs1).le, (Real.sqrt_le_sqrt_iff (by linarith)).1 hs2⟩)
    rw [div_div_eq_mul_div, mul_comm (Real.sqrt d - Real.sqrt c)] at this
    exact this
  · have := count_le hnd (p := fun x => decide (c ≤ x ∧ x ≤ d)) (f := Real.sqrt) (s := Real.sqrt c) (t := Real.sqrt d) (div_pos hp hΩ') hs (fun x _ hx => by
      rw [decide_eq_true_eq] at hx
      exact ⟨Real.sqrt_le_sqrt hx.1, Real.sqrt_le_sqrt hx.2⟩) (fun x hx hx2 y hy hy2 hxy => by
      obtain ⟨p, hp', rfl⟩ := List.mem_map.1 hx
      obtain ⟨q, hq, rfl⟩ := List.mem_map.1 hy
      rw [decide_eq_true_eq] at hx2 hy2
      have aux : ∀ p ∈ r.asNodeWeightPairs, ∀ q ∈ r.asNodeWeightPairs, c ≤ p.1 → p.1 < q.1 → 
          Real.pi / Real.sqrt (4 * n + 2 * α.get + 2 + max 0 (1 / 4 - α.get ^ 2) / c) ≤ Real.sqrt q.1 - Real.sqrt p.1 := fun p hp' q hq h3 h4 => by
        obtain ⟨p0, h5⟩ := hgap p hp' q hq h4
        refine le_trans (div_le_div_of_nonneg_left hp.le (Real.sqrt_pos.2 ?_) (Real.sqrt_le_sqrt ?_)) h5
        · have := div_nonneg (le_max_left 0 (1 / 4 - α.get ^ 2)) p0.le
          linarith
        · have := div_le_div_of_nonneg_left (le_max_left 0 (1 / 4 - α.get ^ 2)) hc h3
          linarith
      rcases lt_or_gt_of_ne hxy with h | h
      · rw [abs_sub_comm]
        exact (aux p hp' q hq hx2.1 h).trans (le_abs_self _)
      · exact (aux q hq p hp' hy2.1 h).trans (le_abs_self _))
    rw [div_div_eq_mul_div, mul_comm (Real.sqrt d - Real.sqrt c)] at this
    exact this

theorem sq_add_le {N G : ℝ} (hN : 0 ≤ N) (hG : 0 ≤ G) : N ^ 2 + G ≤ (N + Real.sqrt G) ^ 2 := by
  nlinarith [Real.sq_sqrt hG, Real.sqrt_nonneg G, mul_nonneg hN (Real.sqrt_nonneg G)]

theorem sq_sub_le {N E : ℝ} (hE : 0 ≤ E) (h : Real.sqrt E ≤ N) : (N - Real.sqrt E) ^ 2 ≤ N ^ 2 - E := by
  nlinarith [Real.sq_sqrt hE, Real.sqrt_nonneg E, mul_le_mul_of_nonneg_right h (Real.sqrt_nonneg E)]

/-- **C111 (Jacobi).**  The number of points between `c` and `d` is `(n + (α+β+1)/2) δ/π` up to a constant, where `δ` is the difference of the angles of `c` and `d`. -/
theorem C111_jacobi {ext : Externals ℝ} (hext : ExactSolver ext) (mode : Overflow) {n : ℕ} (hn : 0 < n) {α β : FiniteAboveNegOne ℝ} (hα : -1 < α.get) (hβ : -1 < β.get)
    (hs : α.get + β.get ≠ -1) (hd : ¬ Delegated α.get β.get) (hodd : n % 2 = 0 ∨ n = 1 ∨ α = β) :
    ∃ r : JacobiRule ℝ, GaussJacobi.new mode ext n α β = some r ∧ ∀ a b c d : ℝ, a < c → c ≤ d → d < b →
      let N := n + (α.get + β.get + 1) / 2
      let δ := Real.arccos ((2 * c - a - b) / (b - a)) - Real.arccos ((2 * d - a - b) / (b - a))
      (N - Real.sqrt (max 0 (α.get ^ 2 - 1 / 4) * (b - a) / (4 * (b - d)) + max 0 (β.get ^ 2 - 1 / 4) * (b - a) / (4 * (c - a)))) * δ / Real.pi - 1 ≤ inWindow (points a b (.jacobi r)) c d ∧
      inWindow (points a b (.jacobi r)) c d ≤
        (N + Real.sqrt (max 0 (1 / 4 - α.get ^ 2) * (b - a) / (4 * (b - d)) + max 0 (1 / 4 - β.get ^ 2) * (b - a) / (4 * (c - a)))) * δ / Real.pi + 1 := by
  obtain ⟨r, κ, h1, hκ, -, h2⟩ := jacobi_isGauss hext mode hn hα hβ hs hd hodd
  obtain ⟨r', h1', hgap⟩ := C96_gap hext mode hn hα hβ hs hd hodd
  obtain rfl : r = r' := Option.some.inj (h1.symm.trans h1')
  obtain ⟨r', h1', hdense⟩ := C96_dense hext mode hn hα hβ hs hd hodd
  obtain rfl : r = r' := Option.some.inj (h1.symm.trans h1')
  refine ⟨r, h1, fun a b c d hac hcd hdb => ?_⟩
  intro N δ
  have hp := Real.pi_pos
  have hab : a < b := by linarith
  have hba : 0 < b - a := by linarith
  have hN : 0 < N := by
    have : (1 : ℝ) ≤ n := by exact_mod_cast hn
    show 0 < (n : ℝ) + (α.get + β.get + 1) / 2
    linarith
  obtain ⟨-, w2, -⟩ := window_angles hab hac.le hcd hdb.le
  set C := (2 * c - a - b) / (b - a) with hC
  set D := (2 * d - a - b) / (b - a) with hD
  have w1 : -1 < C := by rw [hC, lt_div_iff₀ hba]; linarith
  have w3 : D < 1 := by rw [hD, div_lt_iff₀ hba]; linarith
  have eD : ∀ m : ℝ, m * (b - a) / (4 * (b - d)) = m / (2 * (1 - D)) := fun m => by
    have e : 1 - D = 2 * (b - d) / (b - a) := by rw [hD]; field_simp; ring
    rw [e]
    have : b - d ≠ 0 := by linarith
    field_simp
    norm_num
  have eC : ∀ m : ℝ, m * (b - a) / (4 * (c - a)) = m / (2 * (1 + C)) := fun m => by
    have e : 1 + C = 2 * (c - a) / (b - a) := by rw [hC]; field_simp; ring
    rw [e]
    have : c - a ≠ 0 := by linarith
    field_simp
    norm_num
  rw [eD, eC, eD, eC]
  have hm1 : 0 ≤ max 0 (α.get ^ 2 - 1 / 4) := le_max_left _ _
  have hm2 : 0 ≤ max 0 (β.get ^ 2 - 1 / 4) := le_max_left _ _
  have hm3 : 0 ≤ max 0 (1 / 4 - α.get ^ 2) := le_max_left _ _
  have hm4 : 0 ≤ max 0 (1 / 4 - β.get ^ 2) := le_max_left _ _
  have hD1 : 0 < 1 - D := by linarith
  have hC1 : 0 < 1 + C := by linarith
  set E := max 0 (α.get ^ 2 - 1 / 4) / (2 * (1 - D)) + max 0 (β.get ^ 2 - 1 / 4) / (2 * (1 + C)) with hE
  set G := max 0 (1 / 4 - α.get ^ 2) / (2 * (1 - D)) + max 0 (1 / 4 - β.get ^ 2) / (2 * (1 + C)) with hG
  have hE0 : 0 ≤ E := by rw [hE]; positivity
  have hG0 : 0 ≤ G := by rw [hG]; positivity
  have hsE := Real.sqrt_nonneg E
  have hsG := Real.sqrt_nonneg G
  have hδ : Real.arccos D ≤ Real.arccos C := Real.arccos_le_arccos w2
  have hδ0 : 0 ≤ δ := by show 0 ≤ _ - _; linarith
  have hnd := gauss_nodes_nodup hκ h2.exact' (posDef_jacobi hα hβ)
  have hin := jacobi_nodes hα hβ h2 hκ
  have hpts : inWindow (points a b (.jacobi r)) c d = inWindow (r.nodeWeightPairs.map Prod.fst) C D := inWindow_affine hab
  have hD0 : 0 < Real.arccos D := Real.arccos_pos.2 w3
  have hCπ : Real.arccos C < Real.pi := by
    have := Real.arccos_lt_arccos le_rfl w1 (by linarith)
    rwa [Real.arccos_neg_one] at this
  rw [hpts]
  unfold inWindow
  constructor
  · rcases le_or_gt N (Real.sqrt E) with hle | hlt
    · have : (N - Real.sqrt E) * δ / Real.pi ≤ 0 := div_nonpos_of_nonpos_of_nonneg (mul_nonpos_of_nonpos_of_nonneg (by linarith) hδ0) hp.le
      refine le_trans ?_ (Nat.cast_nonneg _)
      linarith
    have hω : 0 < N - Real.sqrt E := by linarith
    have := le_count (L := r.nodeWeightPairs.map Prod.fst) (p := fun x => decide (C ≤ x ∧ x ≤ D)) (f := Real.arccos) (s := Real.arccos D) (t := Real.arccos C) (div_pos hp hω) (fun u hu hu1 => by
      have hg := div_pos hp hω
      have u0 : 0 < u := by linarith
      have a1 : Real.arccos (Real.cos u) = u := Real.arccos_cos u0.le (by linarith)
      have a2 : Real.arccos (Real.cos (u + Real.pi / (N - Real.sqrt E))) = u + Real.pi / (N - Real.sqrt E) := Real.arccos_cos (by linarith) (by linarith)
      have b1 : Real.cos u ≤ D := by
        rw [← Real.cos_arccos (x := D) (by linarith) w3.le]
        exact Real.cos_le_cos_of_nonneg_of_le_pi hD0.le (by linarith) hu
      have b2 : C ≤ Real.cos (u + Real.pi / (N - Real.sqrt E)) := by
        rw [← Real.cos_arccos (x := C) w1.le (by linarith)]
        exact Real.cos_le_cos_of_nonneg_of_le_pi (by linarith) hCπ.le hu1
      obtain ⟨q, hq, q1, q2⟩ := hdense (Real.cos (u + Real.pi / (N - Real.sqrt E))) (Real.cos u) _ (by linarith) (by linarith) hω (by
        have c1 := div_le_div_of_nonneg_left hm1 (show 0 < 2 * (1 - D) by linarith) (show 2 * (1 - D) ≤ 2 * (1 - Real.cos u) by linarith)
        have c2 := div_le_div_of_nonneg_left hm2 (show 0 < 2 * (1 + C) by linarith) (show 2 * (1 + C) ≤ 2 * (1 + Real.cos (u + Real.pi / (N - Real.sqrt E))) by linarith)
        have c3 := sq_sub_le hE0 hlt.le
        have c4 : N ^ 2 = ((n : ℝ) + (α.get + β.get + 1) / 2) ^ 2 := rfl
        rw [← c4]
        linarith) (by rw [a1, a2, add_sub_cancel_left])
      obtain ⟨q3, q4⟩ := hin q hq
      refine ⟨q.1, List.mem_map.2 ⟨q, hq, rfl⟩, ?_, ?_, ?_⟩
      · rw [decide_eq_true_eq]
        exact ⟨by linarith, by linarith⟩
      · have := Real.arccos_lt_arccos q3.le q2 (Real.cos_le_one _)
        rwa [a1] at this
      · have := Real.arccos_le_arccos q1
        rwa [a2] at this)
    rw [div_div_eq_mul_div, mul_comm (Real.arccos C - Real.arccos D)] at this
    exact this
  · have hΩ : 0 < N + Real.sqrt G := by linarith
    have := count_le hnd (p := fun x => decide (C ≤ x ∧ x ≤ D)) (f := Real.arccos) (s := Real.arccos D) (t := Real.arccos C) (div_pos hp hΩ) hδ (fun x _ hx => by
      rw [decide_eq_true_eq] at hx
      exact ⟨Real.arccos_le_arccos hx.2, Real.arccos_le_arccos hx.1⟩) (fun x hx hx2 y hy hy2 hxy => by
      obtain ⟨p, hp', rfl⟩ := List.mem_map.1 hx
      obtain ⟨q, hq, rfl⟩ := List.mem_map.1 hy
      rw [decide_eq_true_eq] at hx2 hy2
      have aux : ∀ p ∈ r.asNodeWeightPairs, ∀ q ∈ r.asNodeWeightPairs, C ≤ p.1 → q.1 ≤ D → p.1 < q.1 → Real.pi / (N + Real.sqrt G) ≤ Real.arccos p.1 - Real.arccos q.1 := fun p hp' q hq h3 h3' h4 => by
        obtain ⟨p0, q0, h5⟩ := hgap p hp' q hq h4
        refine le_trans (div_le_div_of_nonneg_left hp.le (Real.sqrt_pos.2 ?_) ?_) h5
        · have c1 := div_nonneg hm3 (show 0 ≤ 2 * (1 - q.1) by linarith)
          have c2 := div_nonneg hm4 (show 0 ≤ 2 * (1 + p.1) by linarith)
          have c4 : N ^ 2 = ((n : ℝ) + (α.get + β.get + 1) / 2) ^ 2 := rfl
          rw [← c4]
          have := pow_pos hN 2
          linarith
        · refine Real.sqrt_le_iff.2 ⟨hΩ.le, ?_⟩
          have c1 := div_le_div_of_nonneg_left hm3 (show 0 < 2 * (1 - D) by linarith) (show 2 * (1 - D) ≤ 2 * (1 - q.1) by linarith)
          have c2 := div_le_div_of_nonneg_left hm4 (show 0 < 2 * (1 + C) by linarith) (show 2 * (1 + C) ≤ 2 * (1 + p.1) by linarith)
          have c4 : N ^ 2 = ((n : ℝ) + (α.get + β.get + 1) / 2) ^ 2 := rfl
          have c5 := sq_add_le hN.le hG0
          rw [← c4]
          linarith
      rcases lt_or_gt_of_ne hxy with h | h
      · exact (aux p hp' q hq hx2.1 hy2.2 h).trans (le_abs_self _)
      · rw [abs_sub_comm]
        exact (aux q hq p hp' hy2.1 hx2.2 h).trans (le_abs_self _))
    rw [div_div_eq_mul_div, mul_comm (Real.arccos C - Real.arccos D)] at this
    exact this

/-- `C111_finite_interval`: of 1000 points on `[0, 1]`, between 498 and 502 lie below 1/2 -/
example : ∃ r : Rule ℝ, GaussLegendre.new .checked 1000 = some r ∧ 498 ≤ inWindow (points 0 1 (.legendre r)) 0 (1 / 2) ∧ inWindow (points 0 1 (.legendre r)) 0 (1 / 2) ≤ 502 := by
  obtain ⟨r, r1, r2, h1, -, -, h⟩ := C111_finite_interval .checked (n := 1000) (by norm_num) (by norm_num)
  have h2 := h (.legendre r) (by simp) 0 1 0 (1 / 2) (by norm_num) le_rfl (by norm_num) (by norm_num)
  norm_num at h2
  rw [show (Real.pi - Real.pi / 2) / Real.pi = 1 / 2 by field_simp; norm_num] at h2
  obtain ⟨h3, h4⟩ := abs_le.1 h2
  have h5 : (498 : ℝ) ≤ inWindow (points 0 1 (.legendre r)) 0 (1 / 2) := by linarith
  have h6 : (inWindow (points 0 1 (.legendre r)) 0 (1 / 2) : ℝ) ≤ 502 := by linarith
  exact ⟨r, h1, by exact_mod_cast h5, by exact_mod_cast h6⟩

/-- `C111_hermite`: of 200 nodes, 12 or 13 lie between -1 and 1 -/
example : ∃ ext : Externals ℝ, ExactSolver ext ∧ ∃ r : Rule ℝ, GaussHermite.new ext 200 = some r ∧ 12 ≤ inWindow (points 0 0 (.hermite r)) (-1) 1 ∧
    inWindow (points 0 0 (.hermite r)) (-1) 1 ≤ 13 := by
  obtain ⟨r, h1, h⟩ := C111_hermite exactSolver_exists (n := 200) (by norm_num)
  obtain ⟨h2, h3⟩ := h 0 0 (-1) 1 1 (by norm_num) le_rfl le_rfl
  have s1 : 20 ≤ Real.sqrt (2 * ((200 : ℕ) : ℝ) + 1) := Real.le_sqrt_of_sq_le (by norm_num)
  have s2 : Real.sqrt (2 * ((200 : ℕ) : ℝ) + 1) ≤ 20.03 := Real.sqrt_le_iff.2 ⟨by norm_num, by norm_num⟩
  generalize Real.sqrt (2 * ((200 : ℕ) : ℝ) + 1) = M at *
  have p1 := Real.pi_gt_d2
  have p2 := Real.pi_lt_d2
  have h4 : (11 : ℝ) < inWindow (points 0 0 (.hermite r)) (-1) 1 := by
    refine lt_of_lt_of_le ?_ h2
    have : 12 < (M - 1) * (1 - -1) / Real.pi := by rw [lt_div_iff₀ (by linarith)]; linarith
    linarith
  have h5 : (inWindow (points 0 0 (.hermite r)) (-1) 1 : ℝ) < 14 := by
    refine lt_of_le_of_lt h3 ?_
    have : M * (1 - -1) / Real.pi < 13 := by rw [div_lt_iff₀ (by linarith)]; linarith
    linarith
  have h6 : 11 < inWindow (points 0 0 (.hermite r)) (-1) 1 := by exact_mod_cast h4
  have h7 : inWindow (points 0 0 (.hermite r)) (-1) 1 < 14 := by exact_mod_cast h5
  exact ⟨_, exactSolver_exists, r, h1, by omega, by omega⟩

/-- `C111_laguerre`: of 999 nodes for `α = 1/2`, 19 to 21 lie between 1 and 4 -/
example : ∃ ext : Externals ℝ, ExactSolver ext ∧ ∃ r : LaguerreRule ℝ, GaussLaguerre.new ext 999 ⟨1 / 2⟩ = some r ∧ 19 ≤ inWindow (points 0 0 (.laguerre r)) 1 4 ∧
    inWindow (points 0 0 (.laguerre r)) 1 4 ≤ 21 := by
  obtain ⟨r, h1, h⟩ := C111_laguerre exactSolver_exists (n := 999) (by norm_num) (α := ⟨1 / 2⟩) (by norm_num [FiniteAboveNegOne.get])
  obtain ⟨h2, h3⟩ := h 0 0 1 4 (by norm_num) (by norm_num)
  have e4 : Real.sqrt 4 = 2 := by rw [show (4 : ℝ) = 2 ^ 2 by norm_num]; exact Real.sqrt_sq (by norm_num)
  have e : ((1 : ℝ) / 2) ^ 2 - 1 / 4 = 0 := by norm_num
  have e' : (1 : ℝ) / 4 - (1 / 2) ^ 2 = 0 := by norm_num
  simp only [FiniteAboveNegOne.get, e, e', max_self, zero_div, add_zero, e4, Real.sqrt_one] at h2 h3
  have s1 : 63 ≤ Real.sqrt (4 * ((999 : ℕ) : ℝ) + 2 * (1 / 2) + 2) := Real.le_sqrt_of_sq_le (by norm_num)
  have s2 : Real.sqrt (4 * ((999 : ℕ) : ℝ) + 2 * (1 / 2) + 2) ≤ 64 := Real.sqrt_le_iff.2 ⟨by norm_num, by norm_num⟩
  generalize Real.sqrt (4 * ((999 : ℕ) : ℝ) + 2 * (1 / 2) + 2) = M at *
  have p1 := Real.pi_gt_d2
  have p2 := Real.pi_lt_d2
  have h4 : (18 : ℝ) < inWindow (points 0 0 (.laguerre r)) 1 4 := by
    refine lt_of_lt_of_le ?_ h2
    have : 19 < (M - 2) * (2 - 1) / Real.pi := by rw [lt_div_iff₀ (by linarith)]; linarith
    linarith
  have h5 : (inWindow (points 0 0 (.laguerre r)) 1 4 : ℝ) < 22 := by
    refine lt_of_le_of_lt h3 ?_
    have : M * (2 - 1) / Real.pi < 21 := by rw [div_lt_iff₀ (by linarith)]; linarith
    linarith
  have h6 : 18 < inWindow (points 0 0 (.laguerre r)) 1 4 := by exact_mod_cast h4
  have h7 : inWindow (points 0 0 (.laguerre r)) 1 4 < 22 := by exact_mod_cast h5
  exact ⟨_, exactSolver_exists, r, h1, by omega, by omega⟩

/-- `C111_jacobi`: of 98 nodes for `α = 1`, `β = 2`, 16 or 17 lie between 0 and 1/2 -/
example : ∃ ext : Externals ℝ, ExactSolver ext ∧ ∃ r : JacobiRule ℝ, GaussJacobi.new .checked ext 98 ⟨1⟩ ⟨2⟩ = some r ∧ 16 ≤ inWindow (points (-1) 1 (.jacobi r)) 0 (1 / 2) ∧
    inWindow (points (-1) 1 (.jacobi r)) 0 (1 / 2) ≤ 17 := by
  obtain ⟨r, h1, h⟩ := C111_jacobi exactSolver_exists .checked (n := 98) (by norm_num) (α := ⟨1⟩) (β := ⟨2⟩) (by norm_num [FiniteAboveNegOne.get]) (by norm_num [FiniteAboveNegOne.get])
    (by norm_num [FiniteAboveNegOne.get]) (by norm_num [FiniteAboveNegOne.get, Delegated]) (.inl rfl)
  obtain ⟨h2, h3⟩ := h (-1) 1 0 (1 / 2) (by norm_num) (by norm_num) (by norm_num)
  have e1 : Real.arccos ((2 * 0 - -1 - 1) / (1 - -1)) - Real.arccos ((2 * (1 / 2) - -1 - 1) / (1 - -1)) = Real.pi / 6 := by
    have a1 : Real.arccos (1 / 2) = Real.pi / 3 := by
      rw [← Real.cos_pi_div_three]; exact Real.arccos_cos (by positivity) (by linarith [Real.pi_pos])
    have a2 : ((2 * 0 - -1 - 1) / (1 - -1) : ℝ) = 0 := by norm_num
    have a3 : ((2 * (1 / 2) - -1 - 1) / (1 - -1) : ℝ) = 1 / 2 := by norm_num
    rw [a2, a3, a1, Real.arccos_zero]
    ring
  have e2 : max 0 ((1 : ℝ) ^ 2 - 1 / 4) = 3 / 4 := by norm_num
  have e3 : max 0 ((2 : ℝ) ^ 2 - 1 / 4) = 15 / 4 := by norm_num
  have e4 : max 0 ((1 : ℝ) / 4 - 1 ^ 2) = 0 := by norm_num
  have e5 : max 0 ((1 : ℝ) / 4 - 2 ^ 2) = 0 := by norm_num
  simp only [FiniteAboveNegOne.get, e1, e2, e3, e4, e5] at h2 h3
  have s1 : Real.sqrt (3 / 4 * (1 - -1) / (4 * (1 - 1 / 2)) + 15 / 4 * (1 - -1) / (4 * (0 - -1))) ≤ 2 := Real.sqrt_le_iff.2 ⟨by norm_num, by norm_num⟩
  have s2 : Real.sqrt (0 * (1 - -1) / (4 * (1 - 1 / 2)) + 0 * (1 - -1) / (4 * (0 - -1))) = 0 := by norm_num
  rw [s2] at h3
  generalize Real.sqrt (3 / 4 * (1 - -1) / (4 * (1 - 1 / 2)) + 15 / 4 * (1 - -1) / (4 * (0 - -1))) = E at *
  have hp : ∀ x : ℝ, x * (Real.pi / 6) / Real.pi = x / 6 := fun x => by have := Real.pi_ne_zero; field_simp
  rw [hp] at h2 h3
  have h4 : (15 : ℝ) < inWindow (points (-1) 1 (.jacobi r)) 0 (1 / 2) := by
    refine lt_of_lt_of_le ?_ h2
    push_cast; linarith
  have h5 : (inWindow (points (-1) 1 (.jacobi r)) 0 (1 / 2) : ℝ) < 18 := by
    refine lt_of_le_of_lt h3 ?_
    push_cast; linarith
  have h6 : 15 < inWindow (points (-1) 1 (.jacobi r)) 0 (1 / 2) := by exact_mod_cast h4
  have h7 : inWindow (points (-1) 1 (.jacobi r)) 0 (1 / 2) < 18 := by exact_mod_cast h5
  exact ⟨_, exactSolver_exists, r, h1, by omega, by omega⟩

end GaussQuad.Props
