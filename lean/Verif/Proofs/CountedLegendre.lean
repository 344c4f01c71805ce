import Verif.Model.Counted
import Verif.Model.Legendre
import Verif.Proofs.Structure

/-! Costs of the functions of `legendre/bogaert/mod.rs` in the counting arithmetic, and that counting changes no value. -/

namespace GaussQuad
open FloatOps Bogaert
variable {F : Type} [FloatOps F]

namespace Counted

@[simp] theorem cost_add (x y : Counted F) : (x +ᶠ y).cost = x.cost + y.cost + 1 := rfl
@[simp] theorem cost_sub (x y : Counted F) : (x -ᶠ y).cost = x.cost + y.cost + 1 := rfl
@[simp] theorem cost_mul (x y : Counted F) : (x *ᶠ y).cost = x.cost + y.cost + 1 := rfl
@[simp] theorem cost_div (x y : Counted F) : (x /ᶠ y).cost = x.cost + y.cost + 1 := rfl
@[simp] theorem cost_sin (x : Counted F) : (sin x).cost = x.cost + 1 := rfl
@[simp] theorem cost_cos (x : Counted F) : (cos x).cost = x.cost + 1 := rfl
@[simp] theorem cost_sqrt (x : Counted F) : (sqrt x).cost = x.cost + 1 := rfl
@[simp] theorem cost_pow (x y : Counted F) : (pow x y).cost = x.cost + y.cost + 1 := rfl
@[simp] theorem cost_lit (q : Rat) : (lit q : Counted F).cost = 0 := rfl
@[simp] theorem cost_ofNat (n : Nat) : (ofNat n : Counted F).cost = 1 := rfl
@[simp] theorem cost_pi : (pi : Counted F).cost = 0 := rfl
@[simp] theorem cost_sumInit : (sumInit : Counted F).cost = 0 := rfl
@[simp] theorem val_add (x y : Counted F) : (x +ᶠ y).val = x.val +ᶠ y.val := rfl
@[simp] theorem val_sub (x y : Counted F) : (x -ᶠ y).val = x.val -ᶠ y.val := rfl
@[simp] theorem val_mul (x y : Counted F) : (x *ᶠ y).val = x.val *ᶠ y.val := rfl
@[simp] theorem val_div (x y : Counted F) : (x /ᶠ y).val = x.val /ᶠ y.val := rfl
@[simp] theorem val_sin (x : Counted F) : (sin x).val = sin x.val := rfl
@[simp] theorem val_cos (x : Counted F) : (cos x).val = cos x.val := rfl
@[simp] theorem val_sqrt (x : Counted F) : (sqrt x).val = sqrt x.val := rfl
@[simp] theorem val_pow (x y : Counted F) : (pow x y).val = pow x.val y.val := rfl
@[simp] theorem val_lit (q : Rat) : (lit q : Counted F).val = lit q := rfl
@[simp] theorem val_ofNat (n : Nat) : (ofNat n : Counted F).val = ofNat n := rfl
@[simp] theorem val_pi : (pi : Counted F).val = pi := rfl
@[simp] theorem val_sumInit : (sumInit : Counted F).val = sumInit := rfl

end Counted

namespace Bogaert
open Counted

@[simp] theorem cost_tableLit (v : Int) : (tableLit v : Counted F).cost = 0 := rfl
@[simp] theorem val_tableLit (v : Int) : (tableLit v : Counted F).val = tableLit v := rfl

theorem cost_j0 (k : Nat) : (besselJ0ZeroAsymptotic k : Counted F).cost = 97 := by
  simp only [besselJ0ZeroAsymptotic, cost_add, cost_sub, cost_mul, cost_div, cost_lit, cost_ofNat, cost_pi]

theorem cost_j1 (k : Nat) : (besselJ1SquaredAsymptotic k : Counted F).cost = 84 := by
  simp only [besselJ1SquaredAsymptotic, cost_add, cost_sub, cost_mul, cost_div, cost_lit, cost_ofNat, cost_pi]

theorem cost_core (n : Nat) (nu b : Counted F) : (computePairCore n nu b).theta.cost = 285 + 48 * nu.cost ∧
    (computePairCore n nu b).weight.cost = 388 + 66 * nu.cost + 2 * b.cost := by
  simp only [computePairCore, sf1t, sf2t, sf3t, wsf1t, wsf2t, wsf3t, cost_add, cost_sub, cost_mul, cost_div, cost_lit, cost_ofNat, cost_pi, cost_sin]
  constructor <;> omega

/-- a counted computation with result `o` agrees with the plain result `o'` and costs at most `c` -/
def Costs {α β : Type} (val : α → β) (cost : α → Nat) (c : Nat) (o : Option α) (o' : Option β) : Prop :=
  o.map val = o' ∧ ∀ x, o = some x → cost x ≤ c

theorem costs_j0 (k : Nat) : Costs Counted.val Counted.cost 97 (besselJ0Zero k : Option (Counted F)) (besselJ0Zero k) := by
  unfold besselJ0Zero
  split
  · refine ⟨rfl, fun x hx => ?_⟩
    rw [Option.some_inj] at hx; rw [← hx, cost_j0]; exact Nat.le_refl _
  · cases csub k 1 with
    | none => exact ⟨rfl, fun x hx => by cases hx⟩
    | some i =>
      simp only [Option.bind_eq_bind, Option.bind_some]
      cases LegendreData.JZ[i]? with
      | none => exact ⟨rfl, fun x hx => by cases hx⟩
      | some v =>
        refine ⟨rfl, fun x hx => ?_⟩
        simp only [Option.bind_some, Option.pure_def, Option.some_inj] at hx; rw [← hx]; simp

theorem costs_j1 (k : Nat) : Costs Counted.val Counted.cost 84 (besselJ1Squared k : Option (Counted F)) (besselJ1Squared k) := by
  unfold besselJ1Squared
  split
  · refine ⟨rfl, fun x hx => ?_⟩
    rw [Option.some_inj] at hx; rw [← hx, cost_j1]; exact Nat.le_refl _
  · cases csub k 1 with
    | none => exact ⟨rfl, fun x hx => by cases hx⟩
    | some i =>
      simp only [Option.bind_eq_bind, Option.bind_some]
      cases LegendreData.J1[i]? with
      | none => exact ⟨rfl, fun x hx => by cases hx⟩
      | some v =>
        refine ⟨rfl, fun x hx => ?_⟩
        simp only [Option.bind_some, Option.pure_def, Option.some_inj] at hx; rw [← hx]; simp

/-- forgetting the counts of a pair -/
def erasePair (p : ThetaWeightPair (Counted F)) : ThetaWeightPair F := ⟨p.theta.val, p.weight.val⟩
/-- operations of both components -/
def pairCost (p : ThetaWeightPair (Counted F)) : Nat := p.theta.cost + p.weight.cost

theorem costs_pair (n k : Nat) : Costs erasePair pairCost 11899 (computePair n k : Option (ThetaWeightPair (Counted F))) (computePair n k) := by
  unfold computePair
  obtain ⟨h1, h2⟩ := costs_j0 (F := F) k
  obtain ⟨h3, h4⟩ := costs_j1 (F := F) k
  rw [← h1, ← h3]
  cases hj0 : (besselJ0Zero k : Option (Counted F)) with
  | none => exact ⟨rfl, fun x hx => by cases hx⟩
  | some nu =>
    cases hj1 : (besselJ1Squared k : Option (Counted F)) with
    | none => exact ⟨rfl, fun x hx => by cases hx⟩
    | some b =>
      refine ⟨rfl, fun x hx => ?_⟩
      simp only [Option.bind_eq_bind, Option.bind_some, Option.pure_def, Option.some_inj] at hx
      rw [← hx, pairCost, (cost_core n nu b).1, (cost_core n nu b).2]
      have := h2 nu hj0
      have := h4 b hj1
      omega

theorem costs_table2 (T : List (List Int)) (i j : Nat) : Costs Counted.val Counted.cost 0 (table2 T i j : Option (Counted F)) (table2 T i j) := by
  unfold table2
  cases T[i]? with
  | none => exact ⟨rfl, fun x hx => by cases hx⟩
  | some row =>
    simp only [Option.bind_eq_bind, Option.bind_some]
    cases row[j]? with
    | none => exact ⟨rfl, fun x hx => by cases hx⟩
    | some v =>
      refine ⟨rfl, fun x hx => ?_⟩
      simp only [Option.bind_some, Option.pure_def, Option.some_inj] at hx; rw [← hx]; simp

/-- one of the branches of `tabulated_pair` -/
theorem costs_branch (T W : List (List Int)) (i j : Nat) (flip : Bool) :
    Costs erasePair pairCost 1
      ((table2 T i j : Option (Counted F)).bind fun th => (table2 W i j).bind fun w => some ⟨if flip then pi -ᶠ th else th, w⟩)
      ((table2 T i j : Option F).bind fun th => (table2 W i j).bind fun w => some ⟨if flip then pi -ᶠ th else th, w⟩) := by
  obtain ⟨h1, h2⟩ := costs_table2 (F := F) T i j
  obtain ⟨h3, h4⟩ := costs_table2 (F := F) W i j
  rw [← h1, ← h3]
  cases hT : (table2 T i j : Option (Counted F)) with
  | none => exact ⟨rfl, fun x hx => by cases hx⟩
  | some th =>
    cases hW : (table2 W i j : Option (Counted F)) with
    | none => exact ⟨rfl, fun x hx => by cases hx⟩
    | some w =>
      have e1 := h2 th hT
      have e2 := h4 w hW
      refine ⟨by cases flip <;> rfl, fun x hx => ?_⟩
      simp only [Option.bind_some, Option.some_inj] at hx
      rw [← hx, pairCost]
      cases flip
      · simp; omega
      · simp; omega

theorem costs_tabulated (n k : Nat) : Costs erasePair pairCost 3 (tabulatedPair n k : Option (ThetaWeightPair (Counted F))) (tabulatedPair n k) := by
  have none : ∀ {o : Option (ThetaWeightPair (Counted F))} {o'}, o = none → o' = none → Costs erasePair pairCost 3 o o' := by
    rintro o o' rfl rfl; exact ⟨rfl, fun x hx => by cases hx⟩
  have mono : ∀ {o : Option (ThetaWeightPair (Counted F))} {o'}, Costs erasePair pairCost 1 o o' → Costs erasePair pairCost 3 o o' :=
    fun h => ⟨h.1, fun x hx => Nat.le_trans (h.2 x hx) (by omega)⟩
  unfold tabulatedPair
  simp only [Option.bind_eq_bind, Option.pure_def]
  split
  · cases csub n 1 with
    | none => exact none rfl rfl
    | some nm1 =>
      simp only [Option.bind_some]
      cases compare k (nm1 / 2) with
      | eq =>
        simp only
        cases LegendreData.CL[n]? with
        | none => exact none rfl rfl
        | some c =>
          refine ⟨rfl, fun x hx => ?_⟩
          simp only [Option.bind_some, Option.some_inj] at hx
          rw [← hx, pairCost]; simp
      | lt =>
        simp only
        cases csub (nm1 / 2) 1 with
        | none => exact none rfl rfl
        | some i =>
          cases csub (nm1 / 2) k with
          | none => exact none rfl rfl
          | some d =>
            simp only [Option.bind_some]
            cases csub d 1 with
            | none => exact none rfl rfl
            | some j => exact mono (costs_branch _ _ i j false)
      | gt =>
        simp only
        cases csub (nm1 / 2) 1 with
        | none => exact none rfl rfl
        | some i =>
          cases csub k (nm1 / 2) with
          | none => exact none rfl rfl
          | some d =>
            simp only [Option.bind_some]
            cases csub d 1 with
            | none => exact none rfl rfl
            | some j => exact mono (costs_branch _ _ i j true)
  · have gt : Costs erasePair pairCost 3
        ((csub (n / 2) 1).bind fun i => (csub k (n / 2)).bind fun j => (table2 LegendreData.EVEN_THETA_ZEROS i j : Option (Counted F)).bind fun th =>
          (table2 LegendreData.EVEN_WEIGHTS i j).bind fun w => some (⟨pi -ᶠ th, w⟩ : ThetaWeightPair (Counted F)))
        ((csub (n / 2) 1).bind fun i => (csub k (n / 2)).bind fun j => (table2 LegendreData.EVEN_THETA_ZEROS i j : Option F).bind fun th =>
          (table2 LegendreData.EVEN_WEIGHTS i j).bind fun w => some (⟨pi -ᶠ th, w⟩ : ThetaWeightPair F)) := by
      cases csub (n / 2) 1 with
      | none => exact none rfl rfl
      | some i =>
        cases csub k (n / 2) with
        | none => exact none rfl rfl
        | some j => exact mono (costs_branch _ _ i j true)
    cases compare k (n / 2) with
    | lt =>
      simp only
      cases csub (n / 2) 1 with
      | none => exact none rfl rfl
      | some i =>
        cases csub (n / 2) k with
        | none => exact none rfl rfl
        | some d =>
          simp only [Option.bind_some]
          cases csub d 1 with
          | none => exact none rfl rfl
          | some j => exact mono (costs_branch _ _ i j false)
    | eq => exact gt
    | gt => exact gt

theorem costs_thetaWeight (n k : Nat) : Costs erasePair pairCost 11900 (ThetaWeightPair.new n k : Option (ThetaWeightPair (Counted F)))
    (ThetaWeightPair.new n k) := by
  unfold ThetaWeightPair.new
  split
  · cases csub k 1 with
    | none => exact ⟨rfl, fun x hx => by cases hx⟩
    | some i =>
      have := costs_tabulated (F := F) n i
      exact ⟨this.1, fun x hx => Nat.le_trans (this.2 x hx) (by omega)⟩
  · cases csub (2 * k) 1 with
    | none => exact ⟨rfl, fun x hx => by cases hx⟩
    | some t =>
      simp only [Option.bind_eq_bind, Option.bind_some]
      split
      · cases csub n k with
        | none => exact ⟨rfl, fun x hx => by cases hx⟩
        | some d =>
          obtain ⟨h1, h2⟩ := costs_pair (F := F) n (d + 1)
          simp only [Option.bind_some]
          rw [← h1]
          cases hp : (computePair n (d + 1) : Option (ThetaWeightPair (Counted F))) with
          | none => exact ⟨rfl, fun x hx => by cases hx⟩
          | some p =>
            refine ⟨rfl, fun x hx => ?_⟩
            simp only [Option.bind_some, Option.pure_def, Option.some_inj] at hx
            have := h2 p hp
            rw [pairCost] at this
            rw [← hx, pairCost]; simp only [cost_sub, cost_pi]; omega
      · have := costs_pair (F := F) n k
        exact ⟨this.1, fun x hx => Nat.le_trans (this.2 x hx) (by omega)⟩

theorem costs_nodeWeight (n k : Nat) : Costs (fun p : Counted F × Counted F => (p.1.val, p.2.val)) (fun p => p.1.cost + p.2.cost) 11901
    (nodeWeightPair n k) (nodeWeightPair n k) := by
  unfold nodeWeightPair
  obtain ⟨h1, h2⟩ := costs_thetaWeight (F := F) n k
  rw [← h1]
  cases hp : (ThetaWeightPair.new n k : Option (ThetaWeightPair (Counted F))) with
  | none => exact ⟨rfl, fun x hx => by cases hx⟩
  | some p =>
    refine ⟨rfl, fun x hx => ?_⟩
    simp only [Option.bind_eq_bind, Option.bind_some, Option.pure_def, Option.some_inj] at hx
    have := h2 p hp
    rw [pairCost] at this
    rw [← hx]; simp only [cost_cos]; omega

theorem costs_mapM (n : Nat) : ∀ l : List Nat,
    ((l.mapM (nodeWeightPair n) : Option (List (Counted F × Counted F))).map fun ps => ps.map fun p => (p.1.val, p.2.val)) = l.mapM (nodeWeightPair n) ∧
    ∀ ps : List (Counted F × Counted F), l.mapM (nodeWeightPair n) = some ps → (ps.map fun p => p.1.cost + p.2.cost).sum ≤ 11901 * l.length := by
  intro l
  induction l with
  | nil => exact ⟨by simp, fun ps h => by simp at h; subst h; simp⟩
  | cons k l ih =>
    obtain ⟨h1, h2⟩ := costs_nodeWeight (F := F) n k
    simp only [List.mapM_cons, Option.bind_eq_bind, Option.pure_def]
    rw [← h1, ← ih.1]
    cases hp : (nodeWeightPair n k : Option (Counted F × Counted F)) with
    | none => exact ⟨rfl, fun x hx => by cases hx⟩
    | some p =>
      cases hl : (l.mapM (nodeWeightPair n) : Option (List (Counted F × Counted F))) with
      | none => exact ⟨rfl, fun x hx => by cases hx⟩
      | some ps =>
        refine ⟨rfl, fun x hx => ?_⟩
        simp only [Option.bind_some, Option.some_inj] at hx
        rw [← hx]
        have := h2 p hp
        have := ih.2 ps hl
        simp only [List.map_cons, List.sum_cons, List.length_cons] at *
        omega

end Bogaert
end GaussQuad
