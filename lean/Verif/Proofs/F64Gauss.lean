import Verif.Proofs.F64Integrate
import Verif.Spec.Approx
import Verif.Model.Legendre
import Verif.Proofs.Structure

/-! `integrate` and `par_integrate` of the Gauss rules on an interval, in binary64, against a nearby real rule. -/

set_option exponentiation.threshold 3000

namespace GaussQuad.F64
open FloatOps Props Spec

variable [Libm]

/-- the transformed argument -/
noncomputable def tr (a b : F64) (x : ℝ) : ℝ := (b.rv - a.rv) / 2 * x + (a.rv + b.rv) / 2

theorem tr_mem {a b : F64} {x : ℝ} (hx : |x| ≤ 1) : min a.rv b.rv ≤ tr a b x ∧ tr a b x ≤ max a.rv b.rv := by
  have x1 := _root_.abs_le.1 hx
  have e : tr a b x = a.rv * ((1 - x) / 2) + b.rv * ((1 + x) / 2) := by unfold tr; ring
  have p1 : 0 ≤ (1 - x) / 2 := by linarith
  have p2 : 0 ≤ (1 + x) / 2 := by linarith
  rw [e]
  constructor
  · have := mul_le_mul_of_nonneg_right (min_le_left a.rv b.rv) p1
    have := mul_le_mul_of_nonneg_right (min_le_right a.rv b.rv) p2
    linarith
  · have := mul_le_mul_of_nonneg_right (le_max_left a.rv b.rv) p1
    have := mul_le_mul_of_nonneg_right (le_max_right a.rv b.rv) p2
    linarith

/-- error bound for the transformed arguments -/
noncomputable def argErr (B : ℝ) : ℝ := 4 / 10 ^ 15 * B + 1 / 2 ^ 1000

variable {pairs : List (F64 × F64)} {G : List (ℝ × ℝ)} {σ : ℝ × ℝ → ℝ} {W S δ : ℝ}

theorem gauss_items (hs : RuleSizes G σ W S) (hclose : List.Forall₂ (fun p q => Near p.1 q.1 δ ∧ Near p.2 q.2 (σ q)) pairs G)
    (hG : ∀ q ∈ G, |q.1| ≤ 1) (hδ : δ ≤ 3 / 10 ^ 15) {a b : F64} {f : F64 → F64} {g : ℝ → ℝ} {B M Λ η : ℝ}
    (ha : a.isFinite = true) (hb : b.isFinite = true) (haB : |a.rv| ≤ B) (hbB : |b.rv| ≤ B) (hB : B ≤ 2 ^ 400)
    (hf : Computes f g (around a.rv b.rv (argErr B)) M Λ η) (hΛ : 0 ≤ Λ) (hη : 0 ≤ η) (hM : 0 ≤ M) (hK : M + (η + Λ * argErr B) ≤ 2 ^ 400) :
    List.Forall₂ (fun (p : F64 × F64) q => Near (f (lit 0.5 *ᶠ ((b -ᶠ a) *ᶠ p.1 +ᶠ (b +ᶠ a)) : F64) *ᶠ p.2 : F64) (g (tr a b q.1) * q.2)
      (termErr (M + (η + Λ * argErr B)) (η + Λ * argErr B) σ q)) pairs G ∧ ∀ q ∈ G, |g (tr a b q.1)| ≤ M := by
  have hB0 : 0 ≤ B := (abs_nonneg _).trans haB
  have hA0 : 0 ≤ argErr B := by unfold argErr; positivity
  have hmem : ∀ q ∈ G, tr a b q.1 ∈ around a.rv b.rv (argErr B) := fun q hq => by
    have := tr_mem (a := a) (b := b) (hG q hq)
    exact ⟨by linarith [this.1], by linarith [this.2]⟩
  have hbd : ∀ q ∈ G, |g (tr a b q.1)| ≤ M := fun q hq => hf.bound _ (hmem q hq)
  refine ⟨?_, hbd⟩
  have key : ∀ (p : F64 × F64) q, q ∈ G → Near p.1 q.1 δ ∧ Near p.2 q.2 (σ q) → Near (f (lit 0.5 *ᶠ ((b -ᶠ a) *ᶠ p.1 +ᶠ (b +ᶠ a)) : F64) *ᶠ p.2 : F64)
      (g (tr a b q.1) * q.2) (termErr (M + (η + Λ * argErr B)) (η + Λ * argErr B) σ q) := by
    rintro p q hq ⟨h1, h2⟩
    have n1 := argT_near ha hb haB hbB hB h1 (hG q hq) (by linarith [show (3 : ℝ) / 10 ^ 15 ≤ 0.001 by norm_num])
    have n2 : Near (lit 0.5 *ᶠ ((b -ᶠ a) *ᶠ p.1 +ᶠ (b +ᶠ a)) : F64) (tr a b q.1) (argErr B) := n1.mono (by
      have : 1.01 * δ + 6 * U ≤ 4 / 10 ^ 15 := by unfold U; norm_num at hδ ⊢; linarith
      have := mul_le_mul_of_nonneg_left this hB0
      unfold argErr; linarith)
    set y := (lit 0.5 *ᶠ ((b -ᶠ a) *ᶠ p.1 +ᶠ (b +ᶠ a)) : F64) with hy
    have ht := tr_mem (a := a) (b := b) (hG q hq)
    have hd := _root_.abs_le.1 n2.2
    have hym : y.rv ∈ around a.rv b.rv (argErr B) := ⟨by linarith [ht.1], by linarith [ht.2]⟩
    obtain ⟨f1, f2⟩ := hf.accurate y n2.1 hym
    have n3 : Near (f y) (g (tr a b q.1)) (η + Λ * argErr B) := by
      refine ⟨f1, ?_⟩
      have l1 := hf.lipschitz _ hym _ (hmem q hq)
      have l2 := mul_le_mul_of_nonneg_left n2.2 hΛ
      have := abs_sub_le (f y).rv (g y.rv) (g (tr a b q.1))
      have f2' : |(f y).rv - g y.rv| ≤ η := f2
      linarith
    have hw : |q.2| ≤ W := (List.single_le_sum (l := G.map fun q => |q.2|) (by
      intro z hz; obtain ⟨w, -, rfl⟩ := List.mem_map.1 hz; exact abs_nonneg _) _ (List.mem_map_of_mem hq)).trans hs.sum
    have hσ : σ q ≤ S := (List.single_le_sum (l := G.map σ) (by
      intro z hz; obtain ⟨w, -, rfl⟩ := List.mem_map.1 hz; exact hs.nonneg _) _ (List.mem_map_of_mem hq)).trans hs.err
    refine term_near n3 h2 (hbd q hq) le_rfl ?_
    have hW0 : 0 ≤ W := (abs_nonneg _).trans hw
    have hσ0 := hs.nonneg q
    calc (M + (η + Λ * argErr B)) * (|q.2| + σ q) ≤ 2 ^ 400 * (2 ^ 10 + 2 ^ 10) := by
          refine mul_le_mul hK ?_ (by positivity) (by positivity)
          have := hs.small; have := hs.le; linarith
      _ ≤ _ := by norm_num
  have aux : ∀ {xs : List (F64 × F64)} {l : List (ℝ × ℝ)}, (∀ q ∈ l, q ∈ G) → List.Forall₂ (fun p q => Near p.1 q.1 δ ∧ Near p.2 q.2 (σ q)) xs l →
      List.Forall₂ (fun (p : F64 × F64) q => Near (f (lit 0.5 *ᶠ ((b -ᶠ a) *ᶠ p.1 +ᶠ (b +ᶠ a)) : F64) *ᶠ p.2 : F64) (g (tr a b q.1) * q.2)
      (termErr (M + (η + Λ * argErr B)) (η + Λ * argErr B) σ q)) xs l := by
    intro xs l hl h
    induction h with
    | nil => exact .nil
    | cons h1 h2 ih => exact .cons (key _ _ (hl _ (by simp)) h1) (ih fun q hq => hl q (List.mem_cons_of_mem _ hq))
  exact aux (fun _ h => h) hclose

/-- Both sums, scaled: `d` is the number of roundings on the longest path (the number of pairs for the sequential sum). -/
theorem gauss_value_near (hs : RuleSizes G σ W S) (hclose : List.Forall₂ (fun p q => Near p.1 q.1 δ ∧ Near p.2 q.2 (σ q)) pairs G)
    (hG : ∀ q ∈ G, |q.1| ≤ 1) (hδ : δ ≤ 3 / 10 ^ 15) {a b : F64} {f : F64 → F64} {g : ℝ → ℝ} {B M Λ η : ℝ}
    (ha : a.isFinite = true) (hb : b.isFinite = true) (haB : |a.rv| ≤ B) (hbB : |b.rv| ≤ B) (hB : B ≤ 2 ^ 400)
    (hf : Computes f g (around a.rv b.rv (argErr B)) M Λ η) (hΛ : 0 ≤ Λ) (hη : 0 ≤ η) (hM : 0 ≤ M) (hK : M + (η + Λ * argErr B) ≤ 2 ^ 400)
    (hn : G.length ≤ 10 ^ 12) {d : ℕ} (hd : d ≤ 10 ^ 12) {x : F64}
    (hx : x = sumList (pairs.map fun p => (f (lit 0.5 *ᶠ ((b -ᶠ a) *ᶠ p.1 +ᶠ (b +ᶠ a)) : F64) *ᶠ p.2 : F64)) ∧ d = G.length ∨
      ∃ s, x = parSumMap s pairs (fun p => (f (lit 0.5 *ᶠ ((b -ᶠ a) *ᶠ p.1 +ᶠ (b +ᶠ a)) : F64) *ᶠ p.2 : F64)) ∧ d = roundings s G.length) :
    Near (F64.mul (lit 0.5 *ᶠ (b -ᶠ a) : F64) x) ((b.rv - a.rv) / 2 * quad G (fun x => g (tr a b x)))
      (|b.rv - a.rv| * (0.503 * ((η + Λ * argErr B) * W) + 0.51 * ((M + (η + Λ * argErr B)) * S) +
        (0.51 * d + 2.1) * (U * ((M + (η + Λ * argErr B)) * W))) + 1 / 2 ^ 500) := by
  obtain ⟨hitems, hbd⟩ := gauss_items hs hclose hG hδ ha hb haB hbB hB hf hΛ hη hM hK
  have hB0 : 0 ≤ B := (abs_nonneg _).trans haB
  have hA0 : 0 ≤ argErr B := by unfold argErr; positivity
  set κ := η + Λ * argErr B with hκ
  have hκ0 : 0 ≤ κ := by positivity
  set K := M + κ with hKd
  have hK0 : 0 ≤ K := by positivity
  have hW0 : 0 ≤ W := le_trans (List.sum_nonneg (by intro z hz; obtain ⟨w, -, rfl⟩ := List.mem_map.1 hz; exact abs_nonneg _)) hs.sum
  have hS0 : 0 ≤ S := le_trans (List.sum_nonneg (by intro z hz; obtain ⟨w, -, rfl⟩ := List.mem_map.1 hz; exact hs.nonneg _)) hs.err
  have hmass := (mass_le (Y := fun x => g (tr a b x)) hs hκ0 hM hbd hKd.ge hn).2
  have hmass' : (G.map fun q => |g (tr a b q.1) * q.2| + termErr K κ σ q).sum ≤ 2 ^ 1015 := by
    refine hmass.trans ?_
    have : K * W ≤ 2 ^ 400 * 2 ^ 10 := mul_le_mul hK hs.le hW0 (by positivity)
    have : (1.003 : ℝ) * (2 ^ 400 * 2 ^ 10) + 1 / 2 ^ 1010 ≤ 2 ^ 1015 := by norm_num
    linarith
  have he := termErr_nonneg hK0 hκ0 hs.nonneg
  have hsum : Sum d x (G.map fun q => g (tr a b q.1) * q.2).sum (G.map (termErr K κ σ)).sum (G.map fun q => |g (tr a b q.1) * q.2| + termErr K κ σ q).sum := by
    rcases hx with ⟨rfl, rfl⟩ | ⟨s, rfl, rfl⟩
    · exact sumList_near he (by rw [List.forall₂_map_left_iff]; exact hitems) hn hmass'
    · exact parSumMap_near he s hitems hd hmass'
  have h1 := weighted_near (Y := fun x => g (tr a b x)) hs hκ0 hM hbd hKd.ge hK hn hd hsum
  have hq : (G.map fun q => g (tr a b q.1) * q.2).sum = quad G (fun x => g (tr a b x)) := by
    unfold quad; congr 1; apply List.map_congr_left; intro q _; ring
  have hQ : |(G.map fun q => g (tr a b q.1) * q.2).sum| ≤ M * W := by
    refine le_trans ?_ ((abs_sum_le G (fun x => g (tr a b x)) hbd).trans (mul_le_mul_of_nonneg_left hs.sum hM))
    have : ∀ l : List (ℝ × ℝ), |(l.map fun q => g (tr a b q.1) * q.2).sum| ≤ (l.map fun q => |g (tr a b q.1) * q.2|).sum := by
      intro l
      induction l with
      | nil => simp
      | cons q l ih => simp only [List.map_cons, List.sum_cons]; exact (abs_add_le _ _).trans (by linarith)
    exact this G
  have hD : |b.rv - a.rv| ≤ 2 ^ 401 := by
    have := abs_sub b.rv a.rv
    have e : (2 : ℝ) ^ 401 = 2 ^ 400 + 2 ^ 400 := by norm_num
    linarith
  have h2 := scaled_near ha hb rfl hD hκ0 hM hKd.ge hK hd hW0 hs.le hS0 hs.small hQ h1
  rw [hq] at h2
  exact h2

end GaussQuad.F64
