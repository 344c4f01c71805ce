import Verif.Spec.Backward
import Verif.Props.RayonRounding
import Verif.Props.IntervalScale
import Verif.Proofs.F64Overflow

/-!
# C122: backward stability in binary64

The result of `integrate` and of `par_integrate` is, up to one final underflow, what the exact rule (with the stored weights) gives for
values of the integrand that differ from the computed ones by a relative amount of a few roundings.
-/

set_option exponentiation.threshold 3000

namespace GaussQuad.Props
open Spec F64 FloatOps

/-- relative error of `k` roundings -/
def RelClose (k : ℕ) (t t' : ℚ) : Prop := Nearby ((1 + u) ^ k - 1) t t'

theorem one_le_pow_u (k : ℕ) : 1 ≤ (1 + u) ^ k := one_le_pow₀ (by linarith [u_pos])

theorem RelClose.mono {k l : ℕ} (h : k ≤ l) {t t' : ℚ} (H : RelClose k t t') : RelClose l t t' := by
  refine H.trans (mul_le_mul_of_nonneg_right ?_ (abs_nonneg _))
  have := pow_le_pow_right₀ (show 1 ≤ 1 + u by linarith [u_pos]) h
  linarith

theorem RelClose.refl (k : ℕ) (t : ℚ) : RelClose k t t := by
  unfold RelClose Nearby
  rw [_root_.sub_self, abs_zero]
  exact mul_nonneg (by linarith [one_le_pow_u k]) (abs_nonneg _)

theorem RelClose.abs {k : ℕ} {t t' : ℚ} (H : RelClose k t t') : |t'| ≤ (1 + u) ^ k * |t| := by
  have h : |t' - t| ≤ ((1 + u) ^ k - 1) * |t| := H
  have : t' = (t' - t) + t := by ring
  rw [this]
  refine (abs_add_le _ _).trans ?_
  linarith

theorem RelClose.trans {k l : ℕ} {t t' t'' : ℚ} (H : RelClose k t t') (H' : RelClose l t' t'') : RelClose (k + l) t t'' := by
  have h1 : |t' - t| ≤ ((1 + u) ^ k - 1) * |t| := H
  have h2 : |t'' - t'| ≤ ((1 + u) ^ l - 1) * |t'| := H'
  show |t'' - t| ≤ ((1 + u) ^ (k + l) - 1) * |t|
  have : t'' - t = (t'' - t') + (t' - t) := by ring
  rw [this]
  refine (abs_add_le _ _).trans ?_
  have h3 := mul_le_mul_of_nonneg_left H.abs (show 0 ≤ (1 + u) ^ l - 1 by linarith [one_le_pow_u l])
  rw [pow_add]
  linarith

theorem RelClose.mul {k : ℕ} (c : ℚ) {t t' : ℚ} (H : RelClose k t t') : RelClose k (c * t) (c * t') := by
  have h1 : |t' - t| ≤ ((1 + u) ^ k - 1) * |t| := H
  show |c * t' - c * t| ≤ ((1 + u) ^ k - 1) * |c * t|
  rw [← mul_sub, abs_mul, abs_mul]
  have := mul_le_mul_of_nonneg_left h1 (abs_nonneg c)
  linarith

/-- a factor that is itself perturbed -/
theorem RelClose.mul_mul {k l : ℕ} {c c' t t' : ℚ} (H : RelClose k c c') (H' : RelClose l t t') : RelClose (k + l) (c * t) (c' * t') := by
  have h1 : RelClose k (c * t) (c' * t) := by rw [mul_comm c, mul_comm c']; exact H.mul t
  exact h1.trans (H'.mul c')

/-- the sum of perturbed terms -/
def Perturbed (k : ℕ) (r : ℚ) (ts : List ℚ) : Prop := ∃ ts', List.Forall₂ (RelClose k) ts ts' ∧ r = ts'.sum

theorem Perturbed.mono {k l : ℕ} (h : k ≤ l) {r : ℚ} {ts : List ℚ} (H : Perturbed k r ts) : Perturbed l r ts := by
  obtain ⟨ts', h1, h2⟩ := H
  exact ⟨ts', h1.imp fun _ _ h' => h'.mono h, h2⟩

theorem perturbed_nil (k : ℕ) : Perturbed k 0 [] := ⟨[], .nil, by simp⟩

theorem perturbed_single (k : ℕ) (t : ℚ) : Perturbed k t [t] := ⟨[t], .cons (RelClose.refl k t) .nil, by simp⟩

theorem perturbed_near {k : ℕ} {t t' : ℚ} (h : RelClose k t t') : Perturbed k t' [t] := ⟨[t'], .cons h .nil, by simp⟩

theorem exists_rel {r q : ℚ} (h : |r - q| ≤ u * |q|) : ∃ e, |e| ≤ u ∧ r = q * (1 + e) := by
  by_cases hq : q = 0
  · subst hq
    rw [abs_zero, mul_zero, sub_zero] at h
    exact ⟨0, by rw [abs_zero]; exact u_pos.le, by rw [abs_nonpos_iff.1 h]; simp⟩
  · refine ⟨(r - q) / q, ?_, by field_simp; ring⟩
    rw [abs_div, div_le_iff₀ (abs_pos.2 hq)]; exact h

theorem relClose_one {t t' : ℚ} (h : |t' - t| ≤ u * |t|) : RelClose 1 t t' := by
  show |t' - t| ≤ ((1 + u) ^ 1 - 1) * |t|
  rw [pow_one, add_sub_cancel_left]; exact h

theorem Perturbed.map {k l : ℕ} {r : ℚ} {ts : List ℚ} (c : ℚ) {w : ℚ} (hw : ∀ t t', RelClose k t t' → RelClose l (c * t) (w * t'))
    (H : Perturbed k r ts) : Perturbed l (w * r) (ts.map (c * ·)) := by
  obtain ⟨ts', h1, rfl⟩ := H
  refine ⟨ts'.map (w * ·), ?_, ?_⟩
  · rw [List.forall₂_map_left_iff, List.forall₂_map_right_iff]
    exact h1.imp fun _ _ h => hw _ _ h
  · rw [List.sum_map_mul_left, List.map_id']

/-- one more rounding -/
theorem Perturbed.round {k : ℕ} {r r' : ℚ} {ts : List ℚ} (H : Perturbed k r ts) (h : |r' - r| ≤ u * |r|) : Perturbed (k + 1) r' ts := by
  obtain ⟨e, he, rfl⟩ := exists_rel h
  have := H.map (l := k + 1) 1 (w := 1 + e) fun t t' ht => by
    rw [one_mul, mul_comm]
    refine ht.trans (relClose_one ?_)
    rw [mul_add, mul_one, add_sub_cancel_left, abs_mul, mul_comm]
    exact mul_le_mul_of_nonneg_right he (abs_nonneg _)
  simp only [one_mul, List.map_id'] at this
  rwa [mul_comm] at this

theorem Perturbed.append {k : ℕ} {r r' : ℚ} {ts ts' : List ℚ} (H : Perturbed k r ts) (H' : Perturbed k r' ts') :
    Perturbed k (r + r') (ts ++ ts') := by
  obtain ⟨a, a1, rfl⟩ := H
  obtain ⟨b, b1, rfl⟩ := H'
  exact ⟨a ++ b, List.rel_append a1 b1, by rw [List.sum_append]⟩

theorem Perturbed.add {k : ℕ} {x y : F64} {ts ts' : List ℚ} (hf : (F64.add x y).isFinite = true)
    (H : x.isFinite = true → Perturbed k x.val ts) (H' : y.isFinite = true → Perturbed k y.val ts') :
    Perturbed (k + 1) (F64.add x y).val (ts ++ ts') := by
  obtain ⟨fx, fy, he⟩ := add_error hf
  exact ((H fx).append (H' fy)).round he

/-- terms that are themselves perturbed -/
theorem Perturbed.refine {k l : ℕ} {r : ℚ} {ts ts₀ : List ℚ} (h : List.Forall₂ (RelClose l) ts₀ ts) (H : Perturbed k r ts) :
    Perturbed (l + k) r ts₀ := by
  obtain ⟨ts', h1, h2⟩ := H
  refine ⟨ts', ?_, h2⟩
  clear h2
  induction h generalizing ts' with
  | nil => cases h1; exact .nil
  | cons h hs ih =>
    cases h1 with
    | cons h' hs' => exact .cons (h.trans h') (ih _ hs')

theorem perturbed_negZero (k : ℕ) : Perturbed k (F64.zero true).val [] := by rw [val_zero]; exact perturbed_nil k

theorem foldl_perturbed {α : Type} (l : ℕ) (g : α → F64) (t : α → ℚ) (xs : List α) :
    (∀ x ∈ xs, (g x).isFinite = true → RelClose l (t x) (g x).val) → ∀ (k : ℕ) (acc : F64) (ts : List ℚ),
    ((xs.map g).foldl F64.add acc).isFinite = true → (acc.isFinite = true → Perturbed (l + k) acc.val ts) →
    Perturbed (l + k + xs.length) ((xs.map g).foldl F64.add acc).val (ts ++ xs.map t) := by
  induction xs with
  | nil => intro _ k acc ts hf h; simpa using h hf
  | cons y ys ih =>
    intro ht k acc ts hf h
    simp only [List.map_cons, List.foldl_cons] at hf ⊢
    have := ih (fun x hx => ht x (List.mem_cons_of_mem _ hx)) (k + 1) (F64.add acc (g y)) (ts ++ [t y]) hf fun hf' =>
      Perturbed.add hf' h fun h' => perturbed_near ((ht y (by simp) h').mono (Nat.le_add_right _ _))
    rw [List.append_assoc, List.singleton_append] at this
    rw [List.length_cons, show l + k + (ys.length + 1) = l + (k + 1) + ys.length by omega]
    exact this

/-- the factor `w`, a small whole number -/
theorem Perturbed.mulNat {k c : ℕ} {w x : F64} {ts : List ℚ} (hw : w.val = c) (hf : (F64.mul w x).isFinite = true)
    (H : x.isFinite = true → Perturbed k x.val ts) : Perturbed (k + 1) (F64.mul w x).val (ts.map ((c : ℚ) * ·)) := by
  obtain ⟨fw, fx⟩ := finite_of_mul hf
  have hg : OnGrid 1074 (w.val * x.val) := by
    rw [hw]
    obtain ⟨z, hz⟩ := onGrid_val x
    exact ⟨c * z, by rw [hz]; push_cast; ring⟩
  have h1 := (H fx).map (l := k) (c : ℚ) (w := c) fun t t' h => h.mul _
  refine h1.round ?_
  rw [mul_fin fw fx] at hf ⊢
  have := round_error_grid hf hg
  rwa [hw] at this ⊢

/-- a rounding without underflow -/
theorem round_notTiny {q : ℚ} {s : Bool} (hf : (F64.round q s).isFinite = true) (h : NotTiny q) : |(F64.round q s).val - q| ≤ u * |q| := by
  rcases h with rfl | h
  · rw [round_zero, val_zero]; simp
  · exact round_error_normal hf h

/-- the final multiplication: one more rounding of the terms and at most half a smallest subnormal number -/
theorem Perturbed.final {k l : ℕ} {S F : F64} {c : ℚ} {ts : List ℚ} (hf : (F64.mul S F).isFinite = true)
    (H : S.isFinite = true → Perturbed k S.val ts) (hF : F.isFinite = true → RelClose l c F.val) :
    ∃ r, Perturbed (l + k + 1) r (ts.map (c * ·)) ∧ |(F64.mul S F).val - r| ≤ 1 / 2 ^ 1075 := by
  obtain ⟨fS, fF⟩ := finite_of_mul hf
  have h1 := (H fS).map (l := l + k) c (w := F.val) fun t t' h => (hF fF).mul_mul h
  rw [mul_comm] at h1
  rw [mul_fin fS fF] at hf ⊢
  by_cases hn : NotTiny (S.val * F.val)
  · refine ⟨_, h1.round (round_notTiny hf hn), ?_⟩
    rw [_root_.sub_self, abs_zero]; positivity
  · refine ⟨_, h1.mono (Nat.le_succ _), ?_⟩
    unfold NotTiny at hn
    push Not at hn
    obtain ⟨K, e, h1, h2, h3⟩ := round_error_units hf hn.1
    rcases h2 with rfl | h2
    · rw [pow_zero] at h3
      rw [← h1] at h3
      rw [abs_sub_comm, le_div_iff₀ (by positivity), show (2 : ℚ) ^ 1075 = 2 ^ 1074 * 2 by rw [← pow_succ]]
      linarith
    · exfalso
      refine absurd hn.2 (not_lt.2 ?_)
      rw [div_le_iff₀ (by positivity)]
      have e1 : (2 : ℚ) ^ 1074 = 2 ^ 52 * 2 ^ 1022 := by rw [← pow_add]
      rw [pow_add, e1] at h2
      have h4 : (1 : ℚ) ≤ 2 ^ e := one_le_pow₀ (by norm_num)
      have h5 : (0 : ℚ) < 2 ^ 52 := by positivity
      have h6 : (2 : ℚ) ^ 52 * 1 ≤ 2 ^ 52 * (|S.val * F.val| * 2 ^ 1022) := by nlinarith
      exact le_of_mul_le_mul_left h6 h5

/-- from perturbed terms to perturbed values -/
theorem values_of_terms {k : ℕ} {cs vs : List ℚ} : ∀ {ts : List ℚ}, List.Forall₂ (RelClose k) (List.zipWith (· * ·) cs vs) ts →
    cs.length = vs.length → ∃ ys, List.Forall₂ (RelClose k) vs ys ∧ ts = List.zipWith (· * ·) cs ys := by
  induction cs generalizing vs with
  | nil =>
    intro ts h hl
    cases vs with
    | nil => cases h; exact ⟨[], .nil, rfl⟩
    | cons => simp at hl
  | cons c cs ih =>
    intro ts h hl
    cases vs with
    | nil => simp at hl
    | cons v vs =>
      rw [List.zipWith_cons_cons] at h
      cases h with
      | @cons _ t _ ts h hs =>
        obtain ⟨ys, h1, rfl⟩ := ih hs (by simpa using hl)
        by_cases hc : c = 0
        · subst hc
          have : t = 0 := by
            have h' : |t - 0 * v| ≤ _ * |0 * v| := h
            rw [zero_mul, abs_zero, mul_zero, sub_zero] at h'
            exact abs_nonpos_iff.1 h'
          exact ⟨v :: ys, .cons (RelClose.refl _ _) h1, by rw [this]; simp⟩
        · refine ⟨t / c :: ys, .cons ?_ h1, ?_⟩
          · have := h.mul c⁻¹
            rw [inv_mul_cancel_left₀ hc] at this
            rwa [div_eq_inv_mul]
          · rw [List.zipWith_cons_cons, mul_div_cancel₀ _ hc]

section
variable [L : Libm]

theorem seqSum_perturbed {α : Type} {l : ℕ} {g : α → F64} {t : α → ℚ} {xs : List α}
    (ht : ∀ x ∈ xs, (g x).isFinite = true → RelClose l (t x) (g x).val) (hf : ((xs.map g).foldl (· +ᶠ ·) sumInit).isFinite = true) :
    Perturbed (l + xs.length) ((xs.map g).foldl (· +ᶠ ·) sumInit).val (xs.map t) := by
  have := foldl_perturbed l g t xs ht 0 (F64.zero true) [] hf fun _ => perturbed_negZero _
  rwa [List.nil_append, Nat.add_zero] at this

theorem parSum_perturbed {α : Type} {l : ℕ} {g : α → F64} {t : α → ℚ} (s : Schedule) : ∀ {xs : List α},
    (∀ x ∈ xs, (g x).isFinite = true → RelClose l (t x) (g x).val) → (parSumMap s xs g).isFinite = true →
    Perturbed (l + roundings s xs.length) (parSumMap s xs g).val (xs.map t) := by
  induction s with
  | leaf =>
    intro xs ht hf
    have hf' : (F64.add (F64.add (F64.zero true) (F64.zero true)) (sumList (xs.map g))).isFinite = true := hf
    have := Perturbed.add (k := l + xs.length + 1) (ts := []) (ts' := xs.map t) hf'
      (fun h => Perturbed.add (ts := []) (ts' := []) (k := l + xs.length) h (fun _ => perturbed_negZero _) (fun _ => perturbed_negZero _))
      (fun h => (seqSum_perturbed ht h).mono (Nat.le_succ _))
    rw [List.nil_append] at this
    exact this
  | split mid sl sr ihl ihr =>
    intro xs ht hf
    have hf' : (F64.add (F64.add (F64.zero true) (parSumMap sl (xs.take mid) g)) (parSumMap sr (xs.drop mid) g)).isFinite = true := hf
    set k := max (roundings sl (min mid xs.length)) (roundings sr (xs.length - mid)) with hk
    have := Perturbed.add (k := l + k + 1) hf'
      (fun h => Perturbed.add (k := l + k) (ts := []) h (fun _ => perturbed_negZero _) (fun h' => by
        have := ihl (fun x hx => ht x (List.mem_of_mem_take hx)) h'
        rw [List.length_take] at this
        exact this.mono (Nat.add_le_add_left (le_max_left _ _) _)))
      (fun h => by
        have := ihr (fun x hx => ht x (List.mem_of_mem_drop hx)) h
        rw [List.length_drop] at this
        exact this.mono ((Nat.add_le_add_left (le_max_right _ _) _).trans (Nat.le_succ _)))
    rw [List.nil_append, ← List.map_append, List.take_append_drop] at this
    exact this

/-- the computed difference of the bounds -/
theorem sub_near {a b : F64} (hf : (b -ᶠ a : F64).isFinite = true) : RelClose 1 (b.val - a.val) (b -ᶠ a : F64).val := by
  have h := (add_error (x := b) (y := neg a) hf).2.2
  rw [neg_val, ← sub_eq_add_neg] at h
  exact relClose_one h

omit L in
theorem div_near {x y : F64} {q c : ℚ} {k : ℕ} (hy : y.isFinite = true) (h0 : y.isZero = false) (hc : y.val = c)
    (hf : (F64.div x y).isFinite = true) (hx : x.isFinite = true → RelClose k q x.val) (hn : NotTiny (x.val / c)) :
    RelClose (k + 1) (q / c) (F64.div x y).val := by
  have fx : x.isFinite = true := by
    by_contra h
    rw [Bool.not_eq_true] at h
    rw [div_not_finite_left h] at hf
    exact absurd hf (by decide)
  rw [div_finite fx hy h0, hc] at hf ⊢
  have h1 := (hx fx).mul c⁻¹
  rw [← div_eq_inv_mul, ← div_eq_inv_mul] at h1
  exact h1.trans (relClose_one (round_notTiny hf hn))

theorem degree_near {x : F64} {q : ℚ} {k : ℕ} (r : NodeRule) (hf : (x /ᶠ ofNat r.degree : F64).isFinite = true)
    (hx : x.isFinite = true → RelClose k q x.val) (hn : NotTiny (x.val / r.degree)) :
    RelClose (k + 1) (q / r.degree) (x /ᶠ ofNat r.degree : F64).val := by
  have hv : (ofNat r.degree : F64).val = r.degree := (val_round_nat (n := r.degree) (by have := r.lt; omega) false).1
  refine div_near (degree_finite r) ?_ hv hf hx hn
  by_contra h
  rw [Bool.not_eq_false] at h
  have : (ofNat r.degree : F64).val = 0 := isZero_iff.1 h
  rw [hv] at this
  have hp := r.pos
  have : r.degree = 0 := by exact_mod_cast this
  omega

theorem lit_half_rat : (lit 0.5 : F64).val = 1 / 2 := by show (F64.round 0.5 false).val = _; decide +kernel

omit L in
theorem half_near' {h x : F64} {q : ℚ} {k : ℕ} (hv : h.val = 1 / 2) (hf : (F64.mul h x).isFinite = true)
    (hx : x.isFinite = true → RelClose k q x.val) (hn : NotTiny (x.val / 2)) : RelClose (k + 1) (q / 2) (F64.mul h x).val := by
  obtain ⟨fl, fd⟩ := finite_of_mul hf
  have h1 := (hx fd).mul (1 / 2)
  have e : ∀ q : ℚ, 1 / 2 * q = q / 2 := fun q => by ring
  rw [e, e] at h1
  refine h1.trans (relClose_one ?_)
  rw [mul_fin fl fd, hv, e] at hf ⊢
  exact round_notTiny hf hn

theorem half_near {a b : F64} (hf : (lit 0.5 *ᶠ (b -ᶠ a) : F64).isFinite = true) (hn : NotTiny ((b -ᶠ a : F64).val / 2)) :
    RelClose 2 ((b.val - a.val) / 2) (lit 0.5 *ᶠ (b -ᶠ a) : F64).val :=
  half_near' lit_half_rat hf sub_near hn

/-- the result is what the exact rule gives for values of the integrand perturbed by `k` roundings -/
def Backward (k : ℕ) (a b : F64) (f : F64 → F64) (R : AnyRule F64) (result : F64) : Prop :=
  ∃ ys, List.Forall₂ (Nearby ((1 + u) ^ k - 1)) ((points a b R).map fun x => (f x).val) ys ∧
    |result.val - (List.zipWith (· * ·) (coefficients a b R) ys).sum| ≤ 1 / 2 ^ 1075

theorem backward_of_terms {k l : ℕ} (hkl : k ≤ l) {a b : F64} {f : F64 → F64} {R : AnyRule F64} {result : F64} {ts : List ℚ}
    (hl : (coefficients a b R).length = ((points a b R).map fun x => (f x).val).length)
    (ht : ts = List.zipWith (· * ·) (coefficients a b R) ((points a b R).map fun x => (f x).val))
    (h : ∃ r, Perturbed k r ts ∧ |result.val - r| ≤ 1 / 2 ^ 1075) : Backward l a b f R result := by
  subst ht
  obtain ⟨r, hr, he⟩ := h
  obtain ⟨ts, h1, rfl⟩ := hr.mono hkl
  obtain ⟨ys, h2, rfl⟩ := values_of_terms h1 hl
  exact ⟨ys, h2, he⟩

/-- the Gauss rules: any way of adding up the products -/
theorem gauss_terms {ps : List (F64 × F64)} {pt : F64 × F64 → F64} {f : F64 → F64}
    (hn : ∀ q ∈ (ps.map pt).zip ps, NotTiny ((f q.1).val * q.2.2.val)) :
    ∀ p ∈ ps, (f (pt p) *ᶠ p.2 : F64).isFinite = true → RelClose 1 ((f (pt p)).val * p.2.val) (f (pt p) *ᶠ p.2 : F64).val := by
  intro p hp hf
  have hf' : (F64.mul (f (pt p)) p.2).isFinite = true := hf
  obtain ⟨f1, f2⟩ := finite_of_mul hf'
  have hm : (pt p, p) ∈ (ps.map pt).zip ps := by
    clear hn
    induction ps with
    | nil => simp at hp
    | cons q ps ih =>
      rw [List.map_cons, List.zip_cons_cons]
      rcases List.mem_cons.1 hp with rfl | hp
      · exact List.mem_cons_self
      · exact List.mem_cons_of_mem _ (ih hp)
  refine relClose_one ?_
  show |(F64.mul (f (pt p)) p.2).val - _| ≤ _
  rw [mul_fin f1 f2] at hf' ⊢
  exact round_notTiny hf' (hn _ hm)

omit L in
theorem gauss_coefficients (c : ℚ) (ps : List (F64 × F64)) (pt : F64 × F64 → F64) (f : F64 → F64) :
    (ps.map fun p => (f (pt p)).val * p.2.val).map (c * ·) =
      List.zipWith (· * ·) (ps.map fun p => c * p.2.val) ((ps.map pt).map fun x => (f x).val) := by
  induction ps with
  | nil => rfl
  | cons p ps ih => simp only [List.map_cons, List.zipWith_cons_cons, ih]; congr 1; ring

omit L in
theorem replicate_coefficients {α : Type} (c : ℚ) (xs : List α) (g : α → ℚ) {n : ℕ} (hn : n = xs.length) :
    List.zipWith (· * ·) (List.replicate n c) (xs.map g) = (xs.map g).map (c * ·) := by
  subst hn
  induction xs with
  | nil => rfl
  | cons p ps ih => simp only [List.length_cons, List.replicate_succ, List.map_cons, List.zipWith_cons_cons, ih]

/-- how the terms of Simpson's rule are added up -/
theorem bracket_perturbed {k : ℕ} {S T m A B : F64} {ts₁ ts₂ : List ℚ} (h1 : S.isFinite = true → Perturbed k S.val ts₁)
    (h2 : T.isFinite = true → Perturbed k T.val ts₂)
    (hf : (lit 2.0 *ᶠ S +ᶠ lit 4.0 *ᶠ T +ᶠ lit 4.0 *ᶠ m +ᶠ A +ᶠ B : F64).isFinite = true) :
    Perturbed (k + 5) (lit 2.0 *ᶠ S +ᶠ lit 4.0 *ᶠ T +ᶠ lit 4.0 *ᶠ m +ᶠ A +ᶠ B : F64).val
      (ts₁.map (((2 : ℕ) : ℚ) * ·) ++ ts₂.map (((4 : ℕ) : ℚ) * ·) ++ [m.val].map (((4 : ℕ) : ℚ) * ·) ++ [A.val] ++ [B.val]) :=
  Perturbed.add hf (fun f1 => Perturbed.add f1 (fun f2 => Perturbed.add f2 (fun f3 => Perturbed.add f3
      (fun f => Perturbed.mulNat lit_two_nat f h1) (fun f => Perturbed.mulNat lit_four_nat f h2))
      (fun f => (Perturbed.mulNat lit_four_nat f fun _ => perturbed_single k _).mono (Nat.le_succ _)))
    (fun _ => perturbed_single _ _)) (fun _ => perturbed_single _ _)

theorem trapezoid_perturbed {k : ℕ} {x y S : F64} {ts : List ℚ} (hn : NotTiny ((x +ᶠ y : F64).val / 2))
    (hS : S.isFinite = true → Perturbed k S.val ts) (hf : ((x +ᶠ y) /ᶠ lit 2.0 +ᶠ S : F64).isFinite = true) :
    Perturbed (k + 3) ((x +ᶠ y) /ᶠ lit 2.0 +ᶠ S : F64).val ([x.val / 2, y.val / 2] ++ ts) := by
  refine Perturbed.add (k := k + 2) hf (fun hd => ?_) (fun h => (hS h).mono (Nat.le_add_right _ _))
  have hd' : (F64.div (x +ᶠ y) (lit 2.0)).isFinite = true := hd
  have fs : (x +ᶠ y : F64).isFinite = true := by
    by_contra h
    rw [Bool.not_eq_true] at h
    rw [div_not_finite_left h] at hd'
    exact absurd hd' (by decide)
  have p1 : Perturbed (0 + 1) (x +ᶠ y : F64).val ([x.val] ++ [y.val]) :=
    Perturbed.add fs (fun _ => perturbed_single 0 _) (fun _ => perturbed_single 0 _)
  have p2 := p1.map (l := 1) (1 / 2) (w := 1 / 2) fun t t' h => h.mul _
  have e : ∀ q : ℚ, 1 / 2 * q = q / 2 := fun q => by ring
  simp only [e, List.cons_append, List.nil_append, List.map_cons, List.map_nil] at p2
  refine (p2.round (r' := ((x +ᶠ y) /ᶠ lit 2.0 : F64).val) ?_).mono (by omega)
  show |(F64.div (x +ᶠ y) (lit 2.0)).val - _| ≤ _
  have f2 : (lit 2.0 : F64).isFinite = true := lit_two_finite
  have z2 : (lit 2.0 : F64).isZero = false := by
    by_contra h
    rw [Bool.not_eq_false] at h
    have := isZero_iff.1 h
    rw [lit_two_nat] at this
    norm_num at this
  rw [div_finite fs f2 z2, lit_two_nat] at hd' ⊢
  exact round_notTiny hd' hn

theorem six_near {a b : F64} (r : NodeRule) (hf : ((b -ᶠ a) /ᶠ ofNat r.degree /ᶠ lit 6.0 : F64).isFinite = true)
    (h1 : NotTiny ((b -ᶠ a : F64).val / r.degree)) (h2 : NotTiny (((b -ᶠ a) /ᶠ ofNat r.degree : F64).val / 6)) :
    RelClose 3 ((b.val - a.val) / r.degree / 6) ((b -ᶠ a) /ᶠ ofNat r.degree /ᶠ lit 6.0 : F64).val := by
  have v6 : (lit 6.0 : F64).val = 6 := by show (F64.round 6.0 false).val = _; decide +kernel
  refine div_near lit_six_finite ?_ v6 hf (fun h => degree_near r h sub_near h1) h2
  by_contra h
  rw [Bool.not_eq_false] at h
  have := isZero_iff.1 h
  rw [v6] at this
  norm_num at this

/-- a way of adding up the values of a function over a list of `n` items, with at most `N` roundings for each -/
def SumsWithin (n N : ℕ) (S : (α : Type) → List α → (α → F64) → F64) : Prop :=
  ∀ (α : Type) (l : ℕ) (g : α → F64) (t : α → ℚ) (xs : List α), xs.length = n →
    (∀ x ∈ xs, (g x).isFinite = true → RelClose l (t x) (g x).val) → (S α xs g).isFinite = true →
    Perturbed (l + N) (S α xs g).val (xs.map t)

/-- the rules, with the sums left open -/
def ruleWith (S S' : (α : Type) → List α → (α → F64) → F64) (a b : F64) (f : F64 → F64) : AnyRule F64 → F64
  | .midpoint r => S ℕ (List.range r.degree) (fun i => f (a +ᶠ (b -ᶠ a) /ᶠ ofNat r.degree *ᶠ (lit 0.5 +ᶠ ofNat i))) *ᶠ
      ((b -ᶠ a) /ᶠ ofNat r.degree)
  | .trapezoid r => ((f a +ᶠ f b) /ᶠ lit 2.0 +ᶠ
      S ℕ (List.range' 1 (r.degree - 1)) (fun i => f (a +ᶠ ofNat i *ᶠ ((b -ᶠ a) /ᶠ ofNat r.degree)))) *ᶠ ((b -ᶠ a) /ᶠ ofNat r.degree)
  | .simpson r => (b -ᶠ a) /ᶠ ofNat r.degree /ᶠ lit 6.0 *ᶠ
      (lit 2.0 *ᶠ S ℕ (List.range' 1 (r.degree - 1)) (fun i => f (a +ᶠ ofNat i *ᶠ ((b -ᶠ a) /ᶠ ofNat r.degree))) +ᶠ
        lit 4.0 *ᶠ S' ℕ (List.range' 1 (r.degree - 1))
          (fun i => f (a +ᶠ (lit 2.0 *ᶠ ofNat i -ᶠ lit 1.0) *ᶠ ((b -ᶠ a) /ᶠ ofNat r.degree) /ᶠ lit 2.0)) +ᶠ
        lit 4.0 *ᶠ f (a +ᶠ (lit 2.0 *ᶠ ofNat r.degree -ᶠ lit 1.0) *ᶠ ((b -ᶠ a) /ᶠ ofNat r.degree) /ᶠ lit 2.0) +ᶠ f a +ᶠ f b)
  | .legendre r => lit 0.5 *ᶠ (b -ᶠ a) *ᶠ S _ r.nodeWeightPairs fun p => f (lit 0.5 *ᶠ ((b -ᶠ a) *ᶠ p.1 +ᶠ (b +ᶠ a))) *ᶠ p.2
  | .jacobi r => lit 0.5 *ᶠ (b -ᶠ a) *ᶠ S _ r.nodeWeightPairs fun p => f (lit 0.5 *ᶠ ((b -ᶠ a) *ᶠ p.1 +ᶠ (b +ᶠ a))) *ᶠ p.2
  | .chebyshevFirst r =>
      S _ r.nodeWeightPairs (fun p => f (lit 0.5 *ᶠ ((b -ᶠ a) *ᶠ p.1 +ᶠ (b +ᶠ a))) *ᶠ p.2) *ᶠ (lit 0.5 *ᶠ (b -ᶠ a))
  | .chebyshevSecond r =>
      S _ r.nodeWeightPairs (fun p => f (lit 0.5 *ᶠ ((b -ᶠ a) *ᶠ p.1 +ᶠ (b +ᶠ a))) *ᶠ p.2) *ᶠ (lit 0.5 *ᶠ (b -ᶠ a))
  | .hermite r => S _ r.nodeWeightPairs fun p => f p.1 *ᶠ p.2
  | .laguerre r => S _ r.nodeWeightPairs fun p => f p.1 *ᶠ p.2

theorem backward_core {N : ℕ} {S S' : (α : Type) → List α → (α → F64) → F64} (R : AnyRule F64) (hS : SumsWithin (sumLength R) N S)
    (hS' : SumsWithin (sumLength R) N S') (a b : F64) (f : F64 → F64) (h1 : StepNormal a b R) (h2 : TermsNormal a b f R)
    (hf : (ruleWith S S' a b f R).isFinite = true) : Backward (N + 9) a b f R (ruleWith S S' a b f R) := by
  have gauss : ∀ (ps : List (F64 × F64)) (pt : F64 × F64 → F64), SumsWithin ps.length N S →
      NotTiny ((b -ᶠ a : F64).val / 2) → (∀ q ∈ (ps.map pt).zip ps, NotTiny ((f q.1).val * q.2.2.val)) →
      (F64.mul (S _ ps fun p => f (pt p) *ᶠ p.2) (lit 0.5 *ᶠ (b -ᶠ a))).isFinite = true →
      ∃ r, Perturbed (2 + (1 + N) + 1) r ((ps.map fun p => (f (pt p)).val * p.2.val).map ((b.val - a.val) / 2 * ·)) ∧
        |(F64.mul (S _ ps fun p => f (pt p) *ᶠ p.2) (lit 0.5 *ᶠ (b -ᶠ a))).val - r| ≤ 1 / 2 ^ 1075 := by
    intro ps pt hs hn ht hf
    exact Perturbed.final hf (fun h => hs _ 1 _ _ ps rfl (gauss_terms ht) h) (fun h => half_near h hn)
  have infinite : ∀ (ps : List (F64 × F64)), SumsWithin ps.length N S →
      (∀ q ∈ (ps.map fun p => p.1).zip ps, NotTiny ((f q.1).val * q.2.2.val)) → (S _ ps fun p => f p.1 *ᶠ p.2).isFinite = true →
      ∃ r, Perturbed (1 + N) r ((ps.map fun p => (f p.1).val * p.2.val).map (1 * ·)) ∧
        |(S _ ps fun p => f p.1 *ᶠ p.2).val - r| ≤ 1 / 2 ^ 1075 := by
    intro ps hs ht hf
    refine ⟨_, ?_, by rw [_root_.sub_self, abs_zero]; positivity⟩
    simp only [one_mul, List.map_id']
    exact hs _ 1 _ _ ps rfl (gauss_terms ht) hf
  have c : ∀ x y : F64, x *ᶠ y = F64.mul y x := fun x y => mulComm x y
  cases R with
  | midpoint r =>
    refine backward_of_terms (k := 2 + (0 + N) + 1) (by omega) (by simp [coefficients, points]) ?_
      (Perturbed.final hf (fun h => hS _ 0 _ (fun i => (f (a +ᶠ (b -ᶠ a) /ᶠ ofNat r.degree *ᶠ (lit 0.5 +ᶠ ofNat i))).val) _
        List.length_range (fun x _ _ => RelClose.refl _ _) h) (fun h => degree_near r h sub_near h1))
    simp only [coefficients, points, List.map_map, Function.comp_def]
    rw [replicate_coefficients _ _ _ (by simp), List.map_map]; rfl
  | trapezoid r =>
    refine backward_of_terms (k := 2 + (0 + N + 3) + 1) (by omega) (by simp [coefficients, points]) ?_
      (Perturbed.final hf (fun h => trapezoid_perturbed h2 (fun h => hS _ 0 _
        (fun i => (f (a +ᶠ ofNat i *ᶠ ((b -ᶠ a) /ᶠ ofNat r.degree))).val) _
        List.length_range' (fun x _ _ => RelClose.refl _ _) h) h) (fun h => degree_near r h sub_near h1))
    rw [range'_one_eq]
    simp only [coefficients, points, List.map_map, Function.comp_def, List.map_cons, List.cons_append,
      List.nil_append, List.zipWith_cons_cons]
    rw [replicate_coefficients _ _ _ (by simp), List.map_map]
    simp only [Function.comp_def]
    congr 1
    · ring
    · congr 1
      ring
  | simpson r =>
    have hf' : (F64.mul _ _).isFinite = true := (congrArg F64.isFinite (c _ _)).symm.trans hf
    have fin := Perturbed.final hf' (fun h => bracket_perturbed (fun h => hS _ 0 _
        (fun i => (f (a +ᶠ ofNat i *ᶠ ((b -ᶠ a) /ᶠ ofNat r.degree))).val) _
        List.length_range' (fun x _ _ => RelClose.refl _ _) h) (fun h => hS' _ 0 _
        (fun i => (f (a +ᶠ (lit 2.0 *ᶠ ofNat i -ᶠ lit 1.0) *ᶠ ((b -ᶠ a) /ᶠ ofNat r.degree) /ᶠ lit 2.0)).val) _
        List.length_range' (fun x _ _ => RelClose.refl _ _) h) h) (fun h => six_near r h h1.1 h1.2)
    rw [mulComm] at fin
    obtain ⟨d, hd⟩ : ∃ d, r.degree = d + 1 := ⟨r.degree - 1, by have := r.pos; omega⟩
    refine backward_of_terms (k := 3 + (0 + N + 5) + 1) (by omega) (by simp [coefficients, points]) ?_ fin
    rw [range'_one_eq]
    simp only [coefficients, points, hd, Nat.add_sub_cancel, List.range_succ, List.replicate_succ', List.map_append, List.map_map,
      Function.comp_def, List.map_cons, List.map_nil]
    rw [List.zipWith_append (by simp), List.zipWith_append (by simp), List.zipWith_append (by simp), 
      replicate_coefficients _ _ _ (by simp), replicate_coefficients _ _ _ (by simp), List.map_map, List.map_map]
    simp only [Function.comp_def, List.zipWith_cons_cons, List.zipWith_nil_left, List.append_assoc, List.cons_append, List.nil_append]
    have e2 : ∀ (h y : ℚ), h / 6 * (((2 : ℕ) : ℚ) * y) = h / 3 * y := fun h y => by push_cast; ring
    have e4 : ∀ (h y : ℚ), h / 6 * (((4 : ℕ) : ℚ) * y) = 2 * h / 3 * y := fun h y => by push_cast; ring
    simp only [e2, e4]
  | legendre r =>
    have fin := gauss r.nodeWeightPairs _ hS h1 h2 ((congrArg F64.isFinite (c _ _)).symm.trans hf)
    rw [mulComm] at fin
    exact backward_of_terms (by omega) (by simp [coefficients, points]) (gauss_coefficients _ _ _ f) fin
  | jacobi r =>
    have fin := gauss r.nodeWeightPairs _ hS h1 h2 ((congrArg F64.isFinite (c _ _)).symm.trans hf)
    rw [mulComm] at fin
    exact backward_of_terms (by omega) (by simp [coefficients, points]) (gauss_coefficients _ _ _ f) fin
  | chebyshevFirst r =>
    exact backward_of_terms (by omega) (by simp [coefficients, points]) (gauss_coefficients _ _ _ f) (gauss r.nodeWeightPairs _ hS h1 h2 hf)
  | chebyshevSecond r =>
    exact backward_of_terms (by omega) (by simp [coefficients, points]) (gauss_coefficients _ _ _ f) (gauss r.nodeWeightPairs _ hS h1 h2 hf)
  | hermite r =>
    refine backward_of_terms (by omega) (by simp [coefficients, points]) ?_ (infinite r.nodeWeightPairs hS h2 hf)
    have := gauss_coefficients 1 r.nodeWeightPairs (fun p => p.1) f
    simp only [one_mul] at this ⊢
    exact this
  | laguerre r =>
    refine backward_of_terms (by omega) (by simp [coefficients, points]) ?_ (infinite r.nodeWeightPairs hS h2 hf)
    have := gauss_coefficients 1 r.nodeWeightPairs (fun p => p.1) f
    simp only [one_mul] at this ⊢
    exact this

theorem value_ruleWith (R : AnyRule F64) (a b : F64) (f : F64 → F64) :
    R.value a b f = ruleWith (fun _ xs g => (xs.map g).foldl (· +ᶠ ·) sumInit) (fun _ xs g => (xs.map g).foldl (· +ᶠ ·) sumInit) a b f R := by
  rw [value_eq]
  cases R with
  | midpoint r => simp [combine, ruleWith, points, List.map_map, Function.comp_def]
  | trapezoid r =>
    simp only [combine, ruleWith, points, range'_one_eq, List.map_append, List.map_map, Function.comp_def, List.map_cons, List.map_nil]
    rfl
  | simpson r =>
    obtain ⟨d, hd⟩ : ∃ d, r.degree = d + 1 := ⟨r.degree - 1, by have := r.pos; omega⟩
    set pe : ℕ → F64 := fun node => a +ᶠ ofNat node *ᶠ ((b -ᶠ a) /ᶠ ofNat r.degree) with hpe
    set pm : ℕ → F64 := fun node => a +ᶠ (lit 2.0 *ᶠ ofNat node -ᶠ lit 1.0) *ᶠ ((b -ᶠ a) /ᶠ ofNat r.degree) /ᶠ lit 2.0 with hpm
    have ep : (points a b (.simpson r)).map f = (List.range' 1 d).map (fun i => f (pe i)) ++
        ((List.range' 1 d).map (fun i => f (pm i)) ++ [f (pm (d + 1))]) ++ [f a, f b] := by
      rw [range'_one_eq]
      simp only [points, hd, Nat.add_sub_cancel, List.range_succ, List.map_append, List.map_map, List.map_cons, List.map_nil,
        Function.comp_def, hpe, hpm]
    obtain ⟨l1, l2, l3, l4, l5, -⟩ := simpson_lists (d := d) (E := (List.range' 1 d).map fun i => f (pe i))
      (M := (List.range' 1 d).map fun i => f (pm i)) (m := f (pm (d + 1))) (u := f a) (v := f b) (z := (sumInit : F64)) (by simp) (by simp)
    have hn : r.degree - 1 = d := by omega
    simp only [combine, ruleWith, ep, hn]
    rw [hd, l1, l2, l3, l4, l5]
    simp only [hpe, hpm, hd]
  | legendre r => simp only [combine, ruleWith, points, weighted_map_eq]
  | jacobi r => simp only [combine, ruleWith, points, weighted_map_eq]
  | chebyshevFirst r => simp only [combine, ruleWith, points, weighted_map_eq]
  | chebyshevSecond r => simp only [combine, ruleWith, points, weighted_map_eq]
  | hermite r => simp only [combine, ruleWith, points, weighted_map_eq]
  | laguerre r => simp only [combine, ruleWith, points, weighted_map_eq]

theorem par_ruleWith (R : AnyRule F64) (s s' : Schedule) (a b : F64) (f : F64 → F64) :
    R.parIntegrate s s' a b f = ruleWith (fun _ xs g => parSumMap s xs g) (fun _ xs g => parSumMap s' xs g) a b f R := by
  cases R <;> rfl

/-- C122: `integrate` is backward stable in binary64: if the result is finite and nothing underflows on the way, it is, up to
`2^-1075`, what the exact rule with the stored weights gives for values of the integrand changed by a relative amount of at most
`(1 + 2^-53)^k - 1`, `k` the number of terms plus nine. -/
theorem C122_integrate (R : AnyRule F64) (a b : F64) (f : F64 → F64) (h1 : StepNormal a b R) (h2 : TermsNormal a b f R)
    (hf : (R.value a b f).isFinite = true) :
    ∃ ys, List.Forall₂ (Nearby ((1 + u) ^ (sumLength R + 9) - 1)) ((points a b R).map fun x => (f x).val) ys ∧
      |(R.value a b f).val - (List.zipWith (· * ·) (coefficients a b R) ys).sum| ≤ 1 / 2 ^ 1075 := by
  have hs : SumsWithin (sumLength R) (sumLength R) fun _ xs g => (xs.map g).foldl (· +ᶠ ·) sumInit := by
    intro α l g t xs hl ht hf
    rw [← hl]
    exact seqSum_perturbed ht hf
  rw [value_ruleWith] at hf ⊢
  exact backward_core R hs hs a b f h1 h2 hf

/-- C122: `par_integrate`, under every schedule -/
theorem C122_par (R : AnyRule F64) (s s' : Schedule) (a b : F64) (f : F64 → F64) (h1 : StepNormal a b R) (h2 : TermsNormal a b f R)
    (hf : (R.parIntegrate s s' a b f).isFinite = true) :
    ∃ ys, List.Forall₂ (Nearby ((1 + u) ^ (max (roundings s (sumLength R)) (roundings s' (sumLength R)) + 9) - 1))
        ((points a b R).map fun x => (f x).val) ys ∧
      |(R.parIntegrate s s' a b f).val - (List.zipWith (· * ·) (coefficients a b R) ys).sum| ≤ 1 / 2 ^ 1075 := by
  have hs : ∀ s'', roundings s'' (sumLength R) ≤ max (roundings s (sumLength R)) (roundings s' (sumLength R)) →
      SumsWithin (sumLength R) (max (roundings s (sumLength R)) (roundings s' (sumLength R))) fun _ xs g => parSumMap s'' xs g := by
    intro s'' hm α l g t xs hl ht hf
    have := parSum_perturbed s'' ht hf
    rw [hl] at this
    exact this.mono (by omega)
  rw [par_ruleWith] at hf ⊢
  exact backward_core R (hs s (le_max_left _ _)) (hs s' (le_max_right _ _)) a b f h1 h2 hf

/-- C122: with the splits rayon makes (`C121_rayon`), the number of roundings of `par_integrate` is that of `integrate` and at most four
more. -/
theorem C122_rayon (R : AnyRule F64) (s s' : Schedule) (a b : F64) (f : F64 → F64) (hs : Halving s (sumLength R))
    (hs' : Halving s' (sumLength R)) (h1 : StepNormal a b R) (h2 : TermsNormal a b f R)
    (hf : (R.parIntegrate s s' a b f).isFinite = true) :
    ∃ ys, List.Forall₂ (Nearby ((1 + u) ^ (sumLength R + 13) - 1)) ((points a b R).map fun x => (f x).val) ys ∧
      |(R.parIntegrate s s' a b f).val - (List.zipWith (· * ·) (coefficients a b R) ys).sum| ≤ 1 / 2 ^ 1075 := by
  obtain ⟨ys, h, he⟩ := C122_par R s s' a b f h1 h2 hf
  refine ⟨ys, h.imp fun _ _ hn => RelClose.mono (k := max (roundings s (sumLength R)) (roundings s' (sumLength R)) + 9) ?_ hn, he⟩
  have := C121_rayon s _ hs
  have := C121_rayon s' _ hs'
  omega

omit L in
theorem zipWith_near {ε : ℚ} {vs ys : List ℚ} (h : List.Forall₂ (Nearby ε) vs ys) : ∀ cs : List ℚ,
    |(List.zipWith (· * ·) cs ys).sum - (List.zipWith (· * ·) cs vs).sum| ≤ ε * (List.zipWith (fun c v => |c * v|) cs vs).sum := by
  induction h with
  | nil => intro cs; simp
  | @cons v y vs ys h hs ih =>
    intro cs
    cases cs with
    | nil => simp
    | cons c cs =>
      simp only [List.zipWith_cons_cons, List.sum_cons]
      have h1 : |y - v| ≤ ε * |v| := h
      have h2 := ih cs
      have e : c * y + (List.zipWith (· * ·) cs ys).sum - (c * v + (List.zipWith (· * ·) cs vs).sum) =
          c * (y - v) + ((List.zipWith (· * ·) cs ys).sum - (List.zipWith (· * ·) cs vs).sum) := by ring
      rw [e]
      refine (abs_add_le _ _).trans ?_
      rw [abs_mul, abs_mul]
      have := mul_le_mul_of_nonneg_left h1 (abs_nonneg c)
      linarith

/-- C122: the error against the exact rule applied to the computed values: relative to the sum of the magnitudes of the exact terms -/
theorem C122_forward (R : AnyRule F64) (a b : F64) (f : F64 → F64) (h1 : StepNormal a b R) (h2 : TermsNormal a b f R)
    (hf : (R.value a b f).isFinite = true) :
    |(R.value a b f).val - (List.zipWith (· * ·) (coefficients a b R) ((points a b R).map fun x => (f x).val)).sum| ≤
      ((1 + u) ^ (sumLength R + 9) - 1) * (List.zipWith (fun c y => |c * y|) (coefficients a b R) ((points a b R).map fun x => (f x).val)).sum
        + 1 / 2 ^ 1075 := by
  obtain ⟨ys, h, he⟩ := C122_integrate R a b f h1 h2 hf
  have := zipWith_near h (coefficients a b R)
  have e := abs_sub_le (R.value a b f).val (List.zipWith (· * ·) (coefficients a b R) ys).sum
    (List.zipWith (· * ·) (coefficients a b R) ((points a b R).map fun x => (f x).val)).sum
  linarith

/-- C122: if the exact terms have one sign, say all are nonnegative, the result has a small relative error -/
theorem C122_positive (R : AnyRule F64) (a b : F64) (f : F64 → F64) (h1 : StepNormal a b R) (h2 : TermsNormal a b f R)
    (hf : (R.value a b f).isFinite = true)
    (h0 : ∀ t ∈ List.zipWith (· * ·) (coefficients a b R) ((points a b R).map fun x => (f x).val), 0 ≤ t) {k : ℕ}
    (hk : k = sumLength R + 9) (hku : k * u < 1) :
    |(R.value a b f).val - (List.zipWith (· * ·) (coefficients a b R) ((points a b R).map fun x => (f x).val)).sum| ≤
      k * u / (1 - k * u) * (List.zipWith (· * ·) (coefficients a b R) ((points a b R).map fun x => (f x).val)).sum + 1 / 2 ^ 1075 := by
  refine (C122_forward R a b f h1 h2 hf).trans ?_
  have e : List.zipWith (fun c y => |c * y|) (coefficients a b R) ((points a b R).map fun x => (f x).val) =
      List.zipWith (· * ·) (coefficients a b R) ((points a b R).map fun x => (f x).val) := by
    have e' : List.zipWith (fun c y => |c * y|) (coefficients a b R) ((points a b R).map fun x => (f x).val) =
        (List.zipWith (· * ·) (coefficients a b R) ((points a b R).map fun x => (f x).val)).map fun t => |t| := by
      rw [List.map_zipWith]
    rw [e']
    exact (List.map_congr_left fun t ht => abs_of_nonneg (h0 t ht)).trans (List.map_id' _)
  rw [e, ← hk]
  have hs := List.sum_nonneg h0
  have := mul_le_mul_of_nonneg_right (gamma_bound hku) hs
  linarith

end

section
attribute [local instance] Conformance.noLibm

instance (q : ℚ) : Decidable (NotTiny q) := inferInstanceAs (Decidable (_ ∨ _))

/-- `x²` on `[0, 0.7]` with three panels: the hypotheses hold -/
example : ∃ ys, List.Forall₂ (Nearby ((1 + u) ^ 11 - 1))
      ((points (zero false) (F64.round 0.7 false) (.simpson ⟨3, by norm_num, by norm_num⟩)).map fun x => (F64.mul x x).val) ys ∧
    |((AnyRule.simpson ⟨3, by norm_num, by norm_num⟩).value (zero false) (F64.round 0.7 false) fun x => F64.mul x x).val -
      (List.zipWith (· * ·) (coefficients (zero false) (F64.round 0.7 false) (.simpson ⟨3, by norm_num, by norm_num⟩)) ys).sum|
      ≤ 1 / 2 ^ 1075 :=
  C122_integrate (.simpson ⟨3, by norm_num, by norm_num⟩) _ _ (fun x => F64.mul x x)
    ⟨show NotTiny _ by decide +kernel, show NotTiny _ by decide +kernel⟩ trivial (by decide +kernel)

/-- the numbers of Simpson's rule with two panels on `[0, 6]`: the exact coefficients are `h/6` times `2, 4, 4, 1, 1` -/
example : coefficients (zero false) (F64.round 6 false) (.simpson ⟨2, by norm_num, by norm_num⟩) = [1, 2, 2, 1 / 2, 1 / 2] := by
  decide +kernel

example : coefficients (zero false) (F64.round 6 false) (.trapezoid ⟨3, by norm_num, by norm_num⟩) = [1, 1, 2, 2] := by
  decide +kernel

/-- trapezoid rule, split after the first point -/
example : ∃ ys, List.Forall₂ (Nearby ((1 + u) ^ 15 - 1))
      ((points (zero false) (F64.round 0.7 false) (.trapezoid ⟨3, by norm_num, by norm_num⟩)).map fun x => (F64.mul x x).val) ys ∧
    |((AnyRule.trapezoid ⟨3, by norm_num, by norm_num⟩).parIntegrate (.split 1 .leaf .leaf) .leaf (zero false) (F64.round 0.7 false)
        fun x => F64.mul x x).val -
      (List.zipWith (· * ·) (coefficients (zero false) (F64.round 0.7 false) (.trapezoid ⟨3, by norm_num, by norm_num⟩)) ys).sum|
      ≤ 1 / 2 ^ 1075 :=
  C122_rayon (.trapezoid ⟨3, by norm_num, by norm_num⟩) _ _ _ _ (fun x => F64.mul x x)
    ⟨rfl, le_refl 2, trivial, trivial⟩ trivial
    (show NotTiny _ by decide +kernel) (show NotTiny _ by decide +kernel) (by decide +kernel)

/-- `x²` on `[0, 0.7]` with three panels of the midpoint rule: relative error at most `13 · 2^-53` -/
example : let e := (List.zipWith (· * ·) (coefficients (zero false) (F64.round 0.7 false) (.midpoint ⟨3, by norm_num, by norm_num⟩))
      ((points (zero false) (F64.round 0.7 false) (.midpoint ⟨3, by norm_num, by norm_num⟩)).map fun x => (F64.mul x x).val)).sum
    |((AnyRule.midpoint ⟨3, by norm_num, by norm_num⟩).value (zero false) (F64.round 0.7 false) fun x => F64.mul x x).val - e| ≤
      13 * u * e := by
  intro e
  have h := C122_positive (.midpoint ⟨3, by norm_num, by norm_num⟩) (zero false) (F64.round 0.7 false) (fun x => F64.mul x x)
    (show NotTiny _ by decide +kernel) trivial (by decide +kernel) (by decide +kernel) (k := 12) rfl (by unfold u; norm_num)
  refine h.trans ?_
  decide +kernel

/-- two stored pairs on `[0, 2]` for `x` -/
example : |((AnyRule.legendre ⟨[(F64.round (-0.3) false, F64.round 0.7 false), (F64.round 0.6 false, F64.round 1.1 false)]⟩).value
      (zero false) (F64.round 2 false) id).val - 2.25| ≤ 1 / 2 ^ 48 := by
  have := C122_forward (.legendre ⟨[(F64.round (-0.3) false, F64.round 0.7 false), (F64.round 0.6 false, F64.round 1.1 false)]⟩)
    (zero false) (F64.round 2 false) id (show NotTiny _ by decide +kernel)
    (show ∀ q ∈ List.zip _ _, NotTiny _ by decide +kernel) (by decide +kernel)
  refine (abs_sub_le _ _ _).trans (add_le_add this (le_of_eq rfl) |>.trans ?_)
  decide +kernel

end

end GaussQuad.Props
