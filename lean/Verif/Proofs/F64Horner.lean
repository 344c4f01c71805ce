import Verif.Proofs.F64Approx
import Verif.Model.Legendre

/-!
# binary64 Horner schemes: computed forward error bounds
-/

set_option exponentiation.threshold 3000

namespace GaussQuad.F64
open FloatOps Spec

variable {F : Type} [FloatOps F]

/-- `(((c0 * x ± c1) * x ± c2) ...)`; the flag `true` means subtraction -/
def hornerG (c0 : ℚ) (l : List (Bool × ℚ)) (x : F) : F :=
  l.foldl (fun a p => if p.1 then a *ᶠ x -ᶠ lit p.2 else a *ᶠ x +ᶠ lit p.2) (lit c0)

/-- `cm + x * (... (c2 + x * (c1 + c0 * x)))` -/
def hornerN (c0 c1 : ℚ) (l : List ℚ) (x : F) : F :=
  l.foldl (fun a c => lit c +ᶠ x *ᶠ a) (lit c1 +ᶠ lit c0 *ᶠ x)

/-- bounds of magnitude and error (in units of roundoff) after one Horner step, given those of the accumulator (`s`), of the argument
(`X`, `D`) and the coefficient -/
def hstep (X D : ℚ) (s : ℚ × ℚ) (c : ℚ) : ℚ × ℚ :=
  let A := s.1 + s.2 / 10 ^ 15
  let B := X + D / 10 ^ 15
  let e := A * D + s.2 * B + A * B + 1 / 10 ^ 6 + (|c| + 1 / 10 ^ 6)
  (s.1 * X + |c|, e + (s.1 * X + |c| + e / 10 ^ 15))

/-- bounds and a check that nothing is large -/
def hbound (X D : ℚ) (s : ℚ × ℚ) : List ℚ → (ℚ × ℚ) × Bool
  | [] => (s, true)
  | c :: l =>
    let ok := decide (0 ≤ s.1 ∧ 0 ≤ s.2 ∧ s.1 ≤ 10 ^ 12 ∧ s.2 ≤ 10 ^ 12 ∧ |c| ≤ 10 ^ 12)
    let r := hbound X D (hstep X D s c) l
    (r.1, ok && r.2)

theorem U_le_eta : U ≤ 1 / 10 ^ 15 := by unfold U; norm_num
theorem tiny_le : (1 : ℝ) / 2 ^ 1075 ≤ 1 / 10 ^ 6 * U := by unfold U; norm_num

theorem lit_near {c : ℚ} (hc : |c| ≤ 10 ^ 12) : Near (round c false) c ((((|c| : ℚ) : ℝ) + 1 / 10 ^ 6) * U) := by
  have hc' : |(c : ℝ)| ≤ 10 ^ 12 := by
    have : ((|c| : ℚ) : ℝ) ≤ ((10 ^ 12 : ℚ) : ℝ) := by exact_mod_cast hc
    push_cast at this; exact this
  refine (round_near (hc'.trans (by norm_num))).mono ?_
  have := tiny_le
  push_cast
  linarith

/-- the product of one step -/
theorem step_mul {a x : F64} {r ξ : ℝ} {X D : ℚ} {s : ℚ × ℚ} (ha : Near a r (s.2 * U)) (hr : |r| ≤ s.1) (hx : Near x ξ (D * U)) (hξ : |ξ| ≤ X)
    (hX : X ≤ 1000) (hD0 : 0 ≤ D) (hD : D ≤ 10 ^ 6) (h1 : s.1 ≤ 10 ^ 12) (h20 : 0 ≤ s.2) (h2 : s.2 ≤ 10 ^ 12) :
    Near (F64.mul a x) (r * ξ) (((((s.1 + s.2 / 10 ^ 15) * D + s.2 * (X + D / 10 ^ 15) + (s.1 + s.2 / 10 ^ 15) * (X + D / 10 ^ 15) + 1 / 10 ^ 6 : ℚ)) : ℝ) * U) ∧
    Near (F64.mul x a) (r * ξ) (((((s.1 + s.2 / 10 ^ 15) * D + s.2 * (X + D / 10 ^ 15) + (s.1 + s.2 / 10 ^ 15) * (X + D / 10 ^ 15) + 1 / 10 ^ 6 : ℚ)) : ℝ) * U) := by
  have hU := U_pos
  have hη := U_le_eta
  obtain ⟨A, E⟩ := s
  simp only at *
  have c1 : (X : ℝ) ≤ 1000 := by exact_mod_cast hX
  have c2 : (0 : ℝ) ≤ D := by exact_mod_cast hD0
  have c3 : (D : ℝ) ≤ 10 ^ 6 := by exact_mod_cast hD
  have c4 : (A : ℝ) ≤ 10 ^ 12 := by exact_mod_cast h1
  have c5 : (0 : ℝ) ≤ E := by exact_mod_cast h20
  have c6 : (E : ℝ) ≤ 10 ^ 12 := by exact_mod_cast h2
  have c7 : (0 : ℝ) ≤ A := (abs_nonneg _).trans hr
  have c8 : (0 : ℝ) ≤ X := (abs_nonneg _).trans hξ
  have kA : |r| + E * U ≤ (A + E / 10 ^ 15 : ℝ) := by
    have : (E : ℝ) * U ≤ E * (1 / 10 ^ 15) := by gcongr
    linarith
  have kB : |ξ| + D * U ≤ (X + D / 10 ^ 15 : ℝ) := by
    have : (D : ℝ) * U ≤ D * (1 / 10 ^ 15) := by gcongr
    linarith
  have hbig : (A + E / 10 ^ 15 : ℝ) * (X + D / 10 ^ 15) ≤ 2 ^ 1023 := by
    calc (A + E / 10 ^ 15 : ℝ) * (X + D / 10 ^ 15) ≤ (10 ^ 12 + 10 ^ 12 / 10 ^ 15) * (1000 + 10 ^ 6 / 10 ^ 15) := by gcongr
      _ ≤ 2 ^ 1023 := by norm_num
  have ht := tiny_le
  constructor
  · refine (ha.mul hx kA kB hbig).mono ?_
    push_cast
    have e : ((A + E / 10 ^ 15) * D + E * (X + D / 10 ^ 15) + (A + E / 10 ^ 15) * (X + D / 10 ^ 15) + 1 / 10 ^ 6 : ℝ) * U =
        (A + E / 10 ^ 15) * (D * U) + E * U * (X + D / 10 ^ 15) + U * ((A + E / 10 ^ 15) * (X + D / 10 ^ 15)) + 1 / 10 ^ 6 * U := by ring
    rw [e]; linarith
  · have h := hx.mul ha kB kA (by rw [mul_comm]; exact hbig)
    rw [mul_comm r ξ]
    refine h.mono ?_
    push_cast
    have e : ((A + E / 10 ^ 15) * D + E * (X + D / 10 ^ 15) + (A + E / 10 ^ 15) * (X + D / 10 ^ 15) + 1 / 10 ^ 6 : ℝ) * U =
        (A + E / 10 ^ 15) * (D * U) + E * U * (X + D / 10 ^ 15) + U * ((A + E / 10 ^ 15) * (X + D / 10 ^ 15)) + 1 / 10 ^ 6 * U := by ring
    rw [e, mul_comm (X + D / 10 ^ 15 : ℝ) (E * U), mul_comm (X + D / 10 ^ 15 : ℝ) (A + E / 10 ^ 15)]; linarith

/-- adding the coefficient -/
theorem step_add {m : F64} {p : ℝ} {c e M : ℚ} (hm : Near m p (e * U)) (hp : |p| ≤ M) (he0 : 0 ≤ e) (he : e ≤ 10 ^ 30) (hM : M ≤ 10 ^ 30) (hc : |c| ≤ 10 ^ 12) :
    let E : ℚ := e + (|c| + 1 / 10 ^ 6) + (M + |c| + (e + (|c| + 1 / 10 ^ 6)) / 10 ^ 15)
    Near (F64.add m (round c false)) (p + c) (E * U) ∧ Near (F64.sub m (round c false)) (p - c) (E * U) ∧ Near (F64.add (round c false) m) (c + p) (E * U) := by
  intro E
  have hU := U_pos
  have hη := U_le_eta
  have hl := lit_near hc
  have hcr : ((|c| : ℚ) : ℝ) = |(c : ℝ)| := by push_cast; rfl
  have c1 : (0 : ℝ) ≤ e := by exact_mod_cast he0
  have c2 : (e : ℝ) ≤ 10 ^ 30 := by exact_mod_cast he
  have c3 : (M : ℝ) ≤ 10 ^ 30 := by exact_mod_cast hM
  have c4 : |(c : ℝ)| ≤ 10 ^ 12 := by rw [← hcr]; exact_mod_cast hc
  have c5 := abs_nonneg (c : ℝ)
  set A : ℝ := M + |(c : ℝ)| + (e + (|(c : ℝ)| + 1 / 10 ^ 6)) / 10 ^ 15 with hA
  have kE : (e * U + (((|c| : ℚ) : ℝ) + 1 / 10 ^ 6) * U) ≤ (e + (|(c : ℝ)| + 1 / 10 ^ 6)) / 10 ^ 15 := by
    rw [hcr]
    have : (e + (|(c : ℝ)| + 1 / 10 ^ 6)) * U ≤ (e + (|(c : ℝ)| + 1 / 10 ^ 6)) * (1 / 10 ^ 15) := by gcongr
    linarith
  have hbig : A ≤ 2 ^ 1023 := by
    calc A ≤ 10 ^ 30 + 10 ^ 12 + (10 ^ 30 + (10 ^ 12 + 1 / 10 ^ 6)) / 10 ^ 15 := by rw [hA]; gcongr
      _ ≤ 2 ^ 1023 := by norm_num
  have hE : (E : ℝ) * U = e * U + (((|c| : ℚ) : ℝ) + 1 / 10 ^ 6) * U + U * A := by
    rw [hA]; simp only [E]; push_cast; ring
  have hE' : (E : ℝ) * U = (((|c| : ℚ) : ℝ) + 1 / 10 ^ 6) * U + e * U + U * A := by rw [hE]; ring
  refine ⟨?_, ?_, ?_⟩
  · rw [hE]
    refine hm.add hl ?_ hbig
    have := abs_add_le p c
    linarith
  · rw [hE]
    refine hm.sub hl ?_ hbig
    have := abs_sub p (c : ℝ)
    linarith
  · rw [hE']
    refine hl.add hm ?_ hbig
    have := abs_add_le (c : ℝ) p
    linarith

variable [Libm]

/-- one full step -/
theorem step_all {a x : F64} {r ξ : ℝ} {X D : ℚ} {s : ℚ × ℚ} {c : ℚ} (ha : Near a r (s.2 * U)) (hr : |r| ≤ s.1) (hx : Near x ξ (D * U)) (hξ : |ξ| ≤ X)
    (hX : X ≤ 1000) (hD0 : 0 ≤ D) (hD : D ≤ 10 ^ 6) (h1 : s.1 ≤ 10 ^ 12) (h20 : 0 ≤ s.2) (h2 : s.2 ≤ 10 ^ 12) (hc : |c| ≤ 10 ^ 12) :
    Near (a *ᶠ x +ᶠ lit c : F64) (r * ξ + c) ((hstep X D s c).2 * U) ∧ Near (a *ᶠ x -ᶠ lit c : F64) (r * ξ - c) ((hstep X D s c).2 * U) ∧
    Near (lit c +ᶠ x *ᶠ a : F64) (c + ξ * r) ((hstep X D s c).2 * U) ∧ Near (lit c +ᶠ a *ᶠ x : F64) (c + r * ξ) ((hstep X D s c).2 * U) ∧
    |r * ξ + c| ≤ (hstep X D s c).1 ∧ |r * ξ - c| ≤ (hstep X D s c).1 := by
  obtain ⟨m1, m2⟩ := step_mul ha hr hx hξ hX hD0 hD h1 h20 h2
  have hA0 : (0 : ℚ) ≤ s.1 := by
    have : (0 : ℝ) ≤ s.1 := (abs_nonneg _).trans hr
    exact_mod_cast this
  have hX0 : (0 : ℚ) ≤ X := by
    have : (0 : ℝ) ≤ X := (abs_nonneg _).trans hξ
    exact_mod_cast this
  set e : ℚ := (s.1 + s.2 / 10 ^ 15) * D + s.2 * (X + D / 10 ^ 15) + (s.1 + s.2 / 10 ^ 15) * (X + D / 10 ^ 15) + 1 / 10 ^ 6 with he
  have he0 : 0 ≤ e := by rw [he]; positivity
  have heb : e ≤ 10 ^ 30 := by
    calc e ≤ (10 ^ 12 + 10 ^ 12 / 10 ^ 15) * 10 ^ 6 + 10 ^ 12 * (1000 + 10 ^ 6 / 10 ^ 15) +
          (10 ^ 12 + 10 ^ 12 / 10 ^ 15) * (1000 + 10 ^ 6 / 10 ^ 15) + 1 / 10 ^ 6 := by rw [he]; gcongr
      _ ≤ 10 ^ 30 := by norm_num
  have hM : s.1 * X ≤ 10 ^ 30 := by
    calc s.1 * X ≤ 10 ^ 12 * 1000 := by gcongr
      _ ≤ 10 ^ 30 := by norm_num
  have hp : |r * ξ| ≤ ((s.1 * X : ℚ) : ℝ) := by
    rw [abs_mul]; push_cast
    exact mul_le_mul hr hξ (abs_nonneg _) ((abs_nonneg _).trans hr)
  have hE : (hstep X D s c).2 = e + (|c| + 1 / 10 ^ 6) + (s.1 * X + |c| + (e + (|c| + 1 / 10 ^ 6)) / 10 ^ 15) := rfl
  have hM' : (hstep X D s c).1 = s.1 * X + |c| := rfl
  rw [hE, hM']
  obtain ⟨g1, g2, -⟩ := step_add m1 hp he0 heb hM hc
  obtain ⟨-, -, g3⟩ := step_add m2 hp he0 heb hM hc
  obtain ⟨-, -, g4⟩ := step_add m1 hp he0 heb hM hc
  refine ⟨g1, g2, ?_, g4, ?_, ?_⟩
  · rw [mul_comm ξ r]; exact g3
  · push_cast at hp ⊢; exact (abs_add_le _ _).trans (by gcongr)
  · push_cast at hp ⊢; exact (abs_sub _ _).trans (by gcongr)

theorem foldG_near {x : F64} {ξ : ℝ} {X D : ℚ} (hx : Near x ξ (D * U)) (hξ : |ξ| ≤ X) (hX : X ≤ 1000) (hD0 : 0 ≤ D) (hD : D ≤ 10 ^ 6) :
    ∀ (l : List (Bool × ℚ)) (s : ℚ × ℚ) (a : F64) (r : ℝ), Near a r (s.2 * U) → |r| ≤ s.1 → (hbound X D s (l.map (·.2))).2 = true →
      Near (l.foldl (fun a p => if p.1 then a *ᶠ x -ᶠ lit p.2 else a *ᶠ x +ᶠ lit p.2) a)
        (l.foldl (fun (a : ℝ) p => if p.1 then a *ᶠ ξ -ᶠ lit p.2 else a *ᶠ ξ +ᶠ lit p.2) r) ((hbound X D s (l.map (·.2))).1.2 * U) ∧
      |l.foldl (fun (a : ℝ) p => if p.1 then a *ᶠ ξ -ᶠ lit p.2 else a *ᶠ ξ +ᶠ lit p.2) r| ≤ (hbound X D s (l.map (·.2))).1.1 := by
  intro l
  induction l with
  | nil => intro s a r ha hr _; exact ⟨ha, hr⟩
  | cons p l ih =>
    intro s a r ha hr hok
    simp only [List.map_cons, hbound, Bool.and_eq_true, decide_eq_true_eq] at hok
    obtain ⟨⟨k1, k2, k3, k4, k5⟩, hok⟩ := hok
    obtain ⟨g1, g2, -, -, b1, b2⟩ := step_all (c := p.2) ha hr hx hξ hX hD0 hD k3 k2 k4 k5
    simp only [List.map_cons, hbound, List.foldl_cons]
    obtain ⟨sg, c⟩ := p
    cases sg
    · exact ih _ _ _ g1 b1 hok
    · exact ih _ _ _ g2 b2 hok

theorem hornerG_near {x : F64} {ξ : ℝ} {X D : ℚ} (hx : Near x ξ (D * U)) (hξ : |ξ| ≤ X) (hX : X ≤ 1000) (hD0 : 0 ≤ D) (hD : D ≤ 10 ^ 6)
    {c0 : ℚ} {l : List (Bool × ℚ)} {A E : ℚ} (hc : |c0| ≤ 10 ^ 12)
    (h : (hbound X D (|c0|, |c0| + 1 / 10 ^ 6) (l.map (·.2))).2 = true ∧ (hbound X D (|c0|, |c0| + 1 / 10 ^ 6) (l.map (·.2))).1.1 ≤ A ∧
      (hbound X D (|c0|, |c0| + 1 / 10 ^ 6) (l.map (·.2))).1.2 ≤ E) :
    Near (hornerG c0 l x) (hornerG c0 l ξ) (E * U) ∧ |hornerG c0 l ξ| ≤ A := by
  have h0 : Near (round c0 false) (c0 : ℝ) (((|c0|, |c0| + 1 / 10 ^ 6) : ℚ × ℚ).2 * U) := by
    have := lit_near hc
    push_cast at this ⊢; exact this
  obtain ⟨h1, h2⟩ := foldG_near hx hξ hX hD0 hD l (|c0|, |c0| + 1 / 10 ^ 6) (round c0 false) (c0 : ℝ) h0 (by push_cast; exact le_rfl) h.1
  have c1 : ((hbound X D (|c0|, |c0| + 1 / 10 ^ 6) (l.map (·.2))).1.1 : ℝ) ≤ A := by exact_mod_cast h.2.1
  have c2 : ((hbound X D (|c0|, |c0| + 1 / 10 ^ 6) (l.map (·.2))).1.2 : ℝ) ≤ E := by exact_mod_cast h.2.2
  exact ⟨h1.mono (mul_le_mul_of_nonneg_right c2 U_pos.le), h2.trans c1⟩

theorem foldN_near {x : F64} {ξ : ℝ} {X D : ℚ} (hx : Near x ξ (D * U)) (hξ : |ξ| ≤ X) (hX : X ≤ 1000) (hD0 : 0 ≤ D) (hD : D ≤ 10 ^ 6) :
    ∀ (l : List ℚ) (s : ℚ × ℚ) (a : F64) (r : ℝ), Near a r (s.2 * U) → |r| ≤ s.1 → (hbound X D s l).2 = true →
      Near (l.foldl (fun a c => lit c +ᶠ x *ᶠ a) a)
        (l.foldl (fun (a : ℝ) c => lit c +ᶠ ξ *ᶠ a) r) ((hbound X D s l).1.2 * U) ∧
      |l.foldl (fun (a : ℝ) c => lit c +ᶠ ξ *ᶠ a) r| ≤ (hbound X D s l).1.1 := by
  intro l
  induction l with
  | nil => intro s a r ha hr _; exact ⟨ha, hr⟩
  | cons c l ih =>
    intro s a r ha hr hok
    simp only [hbound, Bool.and_eq_true, decide_eq_true_eq] at hok
    obtain ⟨⟨k1, k2, k3, k4, k5⟩, hok⟩ := hok
    obtain ⟨-, -, g1, -, b1, -⟩ := step_all (c := c) ha hr hx hξ hX hD0 hD k3 k2 k4 k5
    simp only [hbound, List.foldl_cons]
    refine ih _ _ _ g1 ?_ hok
    rw [add_comm, mul_comm] at b1
    exact b1

theorem hornerN_near {x : F64} {ξ : ℝ} {X D : ℚ} (hx : Near x ξ (D * U)) (hξ : |ξ| ≤ X) (hX : X ≤ 1000) (hD0 : 0 ≤ D) (hD : D ≤ 10 ^ 6)
    {c0 c1 : ℚ} {l : List ℚ} {A E : ℚ} (hc : |c0| ≤ 10 ^ 12)
    (h : (hbound X D (|c0|, |c0| + 1 / 10 ^ 6) (c1 :: l)).2 = true ∧ (hbound X D (|c0|, |c0| + 1 / 10 ^ 6) (c1 :: l)).1.1 ≤ A ∧
      (hbound X D (|c0|, |c0| + 1 / 10 ^ 6) (c1 :: l)).1.2 ≤ E) :
    Near (hornerN c0 c1 l x) (hornerN c0 c1 l ξ) (E * U) ∧ |hornerN c0 c1 l ξ| ≤ A := by
  have h0 : Near (round c0 false) (c0 : ℝ) (((|c0|, |c0| + 1 / 10 ^ 6) : ℚ × ℚ).2 * U) := by
    have := lit_near hc
    push_cast at this ⊢; exact this
  obtain ⟨hok, hA, hE⟩ := h
  simp only [hbound, Bool.and_eq_true, decide_eq_true_eq] at hok
  obtain ⟨⟨k1, k2, k3, k4, k5⟩, hok⟩ := hok
  obtain ⟨-, -, -, g1, b1, -⟩ := step_all (c := c1) h0 (by push_cast; exact le_rfl) hx hξ hX hD0 hD k3 k2 k4 k5
  obtain ⟨h1, h2⟩ := foldN_near hx hξ hX hD0 hD l _ _ _ g1 (by rw [add_comm] at b1; exact b1) hok
  have c1' : ((hbound X D (|c0|, |c0| + 1 / 10 ^ 6) (c1 :: l)).1.1 : ℝ) ≤ A := by exact_mod_cast hA
  have c2 : ((hbound X D (|c0|, |c0| + 1 / 10 ^ 6) (c1 :: l)).1.2 : ℝ) ≤ E := by exact_mod_cast hE
  exact ⟨h1.mono (mul_le_mul_of_nonneg_right c2 U_pos.le), h2.trans c1'⟩

end GaussQuad.F64
