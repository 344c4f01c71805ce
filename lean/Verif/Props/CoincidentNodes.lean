import Verif.Proofs.F64Ends
import Verif.Props.FloatRobust

/-!
# C100: very large degrees

In exact arithmetic the nodes of the Gauss-Legendre and the Chebyshev rules are distinct and strictly inside the interval for every degree (C37, C23).
In binary64 this ends: from degree `2^29` on the outermost nodes are the ends of the interval, from degree `5·2^29` on some nodes coincide whatever the
backend.
-/

set_option exponentiation.threshold 3000

namespace GaussQuad.Props
open Spec FloatOps Bogaert F64

/-- five numbers out of four cannot be strictly increasing -/
theorem five_of_four [L : Libm] {l : List (F64 × F64)} {n : ℕ} (hlen : l.length = n) (hn : 5 ≤ n)
    (h : ∀ k (hk : 1 ≤ k) (hk5 : k ≤ 5), (0x3FEFFFFFFFFFFFFD : ℤ) < (l[n - k]'(by omega)).1.key ∧ (l[n - k]'(by omega)).1.key < 0x3FF0000000000002) :
    ¬ l.Pairwise (fun p q => FloatOps.lt p.1 q.1 = true) := by
  intro hp
  have hlt : ∀ i j (hij : i < j) (hj : j < n), (l[i]'(by omega)).1.key < (l[j]'(by omega)).1.key := by
    intro i j hij hj
    have := List.pairwise_iff_getElem.1 hp i j (by omega) (by omega) hij
    change F64.ltb _ _ = true at this
    simp only [F64.ltb, Bool.and_eq_true, decide_eq_true_eq] at this
    exact this.2
  have a1 := h 1 (by omega) (by omega)
  have a5 := h 5 (by omega) (by omega)
  have b1 := hlt (n - 5) (n - 4) (by omega) (by omega)
  have b2 := hlt (n - 4) (n - 3) (by omega) (by omega)
  have b3 := hlt (n - 3) (n - 2) (by omega) (by omega)
  have b4 := hlt (n - 2) (n - 1) (by omega) (by omega)
  omega

theorem val_lit_one [L : Libm] : (lit 1.0 : F64).val = 1 := by
  have := lit_one_isNat (L := L); rw [IsNat] at this; rw [this.2]; norm_num

theorem lit_neg_one [L : Libm] : (lit (-1.0) : F64) = F64.ofBits 0xBFF0000000000000 := by
  change F64.round (-1.0) false = _
  decide +kernel

theorem val_lit_neg_one [L : Libm] : (lit (-1.0) : F64).val = -1 := by
  rw [lit_neg_one]; decide +kernel

/-- C100, Legendre: of the nodes of the binary64 rule of degree `n` the first `⌊n / 2^29⌋` are exactly `-1.0`, as many at the other end exactly `1.0`. -/
theorem C100_legendre [L : Libm] (hL : AccurateTrig L) (hE : CosEnds L) (mode : Overflow) {n : ℕ} (hlt : n + 1 < 2 ^ 64) :
    ∃ r : Rule F64, GaussLegendre.new mode n = some r ∧ ∃ hlen : r.asNodeWeightPairs.length = n,
      ∀ i (hi : i < n / 2 ^ 29), (r.asNodeWeightPairs[i]'(by omega)).1 = lit (-1.0) ∧ (r.asNodeWeightPairs[n - 1 - i]'(by omega)).1 = lit 1.0 := by
  obtain ⟨r, h1, h2, h3⟩ := legendre_new_some (F := F64) (mode := mode) hlt
  refine ⟨r, h1, h2, fun i hi => ?_⟩
  have hk : (i + 1) * 2 ^ 29 ≤ n := (Nat.mul_le_mul_right _ hi).trans (Nat.div_mul_le_self n (2 ^ 29))
  have e1 := h3 i (by omega)
  have e2 := h3 (n - 1 - i) (by omega)
  rw [List.getElem?_eq_getElem (by omega)] at e1 e2
  rw [show n - i = n + 1 - (i + 1) by omega] at e1
  rw [show n - (n - 1 - i) = i + 1 by omega] at e2
  obtain ⟨-, v1⟩ := legendre_left hL hE (by omega) hk (by omega) e1
  obtain ⟨-, v2⟩ := legendre_right hL hE (by omega) hk (by omega) e2
  exact ⟨eq_of_val_eq (v1.trans val_lit_neg_one.symm) (by rw [val_lit_neg_one]; norm_num),
    eq_of_val_eq (v2.trans val_lit_one.symm) (by rw [val_lit_one]; norm_num)⟩

/-- both Chebyshev rules at once -/
theorem cheb_ends [L : Libm] {pair : ℕ → ℕ → F64 × F64} {n : ℕ}
    (h : ∀ k, 1 ≤ k → k * 2 ^ 29 ≤ n → ((pair n k).1.isFinite = true ∧ (pair n k).1.val = 1) ∧
      ((pair n (n + 1 - k)).1.isFinite = true ∧ (pair n (n + 1 - k)).1.val = -1)) :
    ∃ hlen : (Rule.asNodeWeightPairs (⟨(rangeRev (n + 1)).map (pair n)⟩ : Rule F64)).length = n, ∀ i (hi : i < n / 2 ^ 29),
      ((Rule.asNodeWeightPairs (⟨(rangeRev (n + 1)).map (pair n)⟩ : Rule F64))[i]'(by omega)).1 = lit (-1.0) ∧
      ((Rule.asNodeWeightPairs (⟨(rangeRev (n + 1)).map (pair n)⟩ : Rule F64))[n - 1 - i]'(by omega)).1 = lit 1.0 := by
  have hlen : (Rule.asNodeWeightPairs (⟨(rangeRev (n + 1)).map (pair n)⟩ : Rule F64)).length = n := by
    simp [Rule.asNodeWeightPairs, length_rangeRev]
  refine ⟨hlen, fun i hi => ?_⟩
  have hget : ∀ i (hi : i < n), (Rule.asNodeWeightPairs (⟨(rangeRev (n + 1)).map (pair n)⟩ : Rule F64))[i]'(by omega) = pair n (n - i) := by
    intro i hi
    simp only [Rule.asNodeWeightPairs, List.getElem_map]
    rw [getElem_rangeRev (hi := n + 1) (i := i) (by rw [length_rangeRev]; omega), Nat.add_sub_cancel]
  have hk : (i + 1) * 2 ^ 29 ≤ n := (Nat.mul_le_mul_right _ hi).trans (Nat.div_mul_le_self n (2 ^ 29))
  obtain ⟨⟨-, v2⟩, -, v1⟩ := h (i + 1) (by omega) hk
  rw [hget i (by omega), hget (n - 1 - i) (by omega), show n - i = n + 1 - (i + 1) by omega, show n - (n - 1 - i) = i + 1 by omega]
  exact ⟨eq_of_val_eq (v1.trans val_lit_neg_one.symm) (by rw [val_lit_neg_one]; norm_num),
    eq_of_val_eq (v2.trans val_lit_one.symm) (by rw [val_lit_one]; norm_num)⟩

/-- C100, Chebyshev of the first kind -/
theorem C100_chebyshev_first [L : Libm] (hE : CosEnds L) (mode : Overflow) {n : ℕ} (hlt : n < 2 ^ 52) :
    ∃ r : Rule F64, GaussChebyshevFirstKind.new mode n = some r ∧ ∃ hlen : r.asNodeWeightPairs.length = n,
      ∀ i (hi : i < n / 2 ^ 29), (r.asNodeWeightPairs[i]'(by omega)).1 = lit (-1.0) ∧ (r.asNodeWeightPairs[n - 1 - i]'(by omega)).1 = lit 1.0 :=
  ⟨_, cheb1_new_eq (by omega), cheb_ends fun _ hk hn => cheb1_ends hE hk hn hlt⟩

/-- C100, Chebyshev of the second kind -/
theorem C100_chebyshev_second [L : Libm] (hE : CosEnds L) (mode : Overflow) {n : ℕ} (hlt : n < 2 ^ 52) :
    ∃ r : Rule F64, GaussChebyshevSecondKind.new mode n = some r ∧ ∃ hlen : r.asNodeWeightPairs.length = n,
      ∀ i (hi : i < n / 2 ^ 29), (r.asNodeWeightPairs[i]'(by omega)).1 = lit (-1.0) ∧ (r.asNodeWeightPairs[n - 1 - i]'(by omega)).1 = lit 1.0 :=
  ⟨_, cheb2_new_eq (by omega), cheb_ends fun _ hk hn => cheb2_ends hE hk hn hlt⟩

/-- C100, whatever the backend: from degree `5·2^29` on no accurate `cos` gives strictly increasing nodes. -/
theorem C100_not_distinct [L : Libm] (hL : AccurateTrig L) (mode : Overflow) {n : ℕ} (hn : 5 * 2 ^ 29 ≤ n) :
    (n + 1 < 2 ^ 64 → ∃ r : Rule F64, GaussLegendre.new mode n = some r ∧
      ¬ r.asNodeWeightPairs.Pairwise (fun p q => FloatOps.lt p.1 q.1 = true)) ∧
    (n < 2 ^ 52 → (∃ r : Rule F64, GaussChebyshevFirstKind.new mode n = some r ∧
      ¬ r.asNodeWeightPairs.Pairwise (fun p q => FloatOps.lt p.1 q.1 = true)) ∧
      ∃ r : Rule F64, GaussChebyshevSecondKind.new mode n = some r ∧
      ¬ r.asNodeWeightPairs.Pairwise (fun p q => FloatOps.lt p.1 q.1 = true)) := by
  have cheb : ∀ pair : ℕ → ℕ → F64 × F64, (∀ k, 1 ≤ k → k ≤ 5 → ∃ x : F64, (pair n k).1 = L.cos x ∧ x.isFinite = true ∧ 0 ≤ x.rv ∧ |x.rv| ≤ 1 / 2 ^ 27) →
      ¬ (Rule.asNodeWeightPairs (⟨(rangeRev (n + 1)).map (pair n)⟩ : Rule F64)).Pairwise (fun p q => FloatOps.lt p.1 q.1 = true) := by
    intro pair h
    have hlen : (Rule.asNodeWeightPairs (⟨(rangeRev (n + 1)).map (pair n)⟩ : Rule F64)).length = n := by
      simp [Rule.asNodeWeightPairs, length_rangeRev]
    refine five_of_four hlen (by omega) fun k hk hk5 => ?_
    have e : (Rule.asNodeWeightPairs (⟨(rangeRev (n + 1)).map (pair n)⟩ : Rule F64))[n - k]'(by omega) = pair n k := by
      simp only [Rule.asNodeWeightPairs, List.getElem_map]
      rw [getElem_rangeRev (hi := n + 1) (i := n - k) (by rw [length_rangeRev]; omega)]
      congr 1; omega
    rw [e]
    obtain ⟨x, e1, hx, h0, h1⟩ := h k hk hk5
    rw [e1]
    exact (cos_key hL hx h0 h1).2
  refine ⟨fun hlt => ?_, fun hlt => ⟨⟨_, cheb1_new_eq (by omega), cheb _ fun k hk hk5 => ?_⟩, ⟨_, cheb2_new_eq (by omega), cheb _ fun k hk hk5 => ?_⟩⟩⟩
  · obtain ⟨r, h1, h2, h3⟩ := legendre_new_some (F := F64) (mode := mode) hlt
    refine ⟨r, h1, five_of_four (n := n) h2 (by omega) fun k hk hk5 => ?_⟩
    have e := h3 (n - k) (by omega)
    rw [List.getElem?_eq_getElem (by omega), show n - (n - k) = k by omega] at e
    obtain ⟨x, e1, hx, h0, h1⟩ := legendre_right_angle hL hk ((Nat.mul_le_mul_right _ hk5).trans hn) (by omega) e
    change _ < (r.nodeWeightPairs[n - k]'(by omega)).1.key ∧ (r.nodeWeightPairs[n - k]'(by omega)).1.key < _
    rw [e1]
    exact (cos_key hL hx h0 h1).2
  · have r1 := cheb1_angle (L := L) hk (by omega : k ≤ n) hlt
    obtain ⟨a, b⟩ := cheb1_small (n := n) hk ((Nat.mul_le_mul_right _ hk5).trans hn)
    exact ⟨_, rfl, r1.1, nonneg_of_rel r1 (by norm_num) a, small_of_rel r1 (by norm_num) (by norm_num) a b⟩
  · have r1 := cheb2_angle (L := L) hk (by omega : k ≤ n) hlt
    obtain ⟨a, b⟩ := cheb2_small (n := n) (k := k) ((Nat.mul_le_mul_right _ hk5).trans hn)
    exact ⟨_, rfl, r1.1, nonneg_of_rel r1 (by norm_num) a, small_of_rel r1 (by norm_num) (by norm_num) a b⟩

/-! ## The ends of the interval are called -/

theorem val_round_int {z : ℤ} (hz : |z| < 2 ^ 53) (s : Bool) : (round (z : ℚ) s).val = z ∧ (round (z : ℚ) s).isFinite = true := by
  have hn : z.natAbs < 2 ^ 53 := by rw [Int.abs_eq_natAbs] at hz; omega
  have hb : z.natAbs * 2 ^ 1074 < 2 ^ 2098 := by
    calc z.natAbs * 2 ^ 1074 < 2 ^ 53 * 2 ^ 1074 := Nat.mul_lt_mul_of_pos_right hn (Nat.two_pow_pos _)
      _ ≤ 2 ^ 2098 := by rw [← pow_add]; exact Nat.pow_le_pow_right (by norm_num) (by norm_num)
  obtain ⟨x, hx, -, hv⟩ := exists_repr 1074 hn hb (decide (z < 0))
  have : x.val = (z : ℚ) := by
    rw [hv, Nat.cast_mul, Nat.cast_pow, Nat.cast_ofNat, mul_div_assoc, div_self pow1074_pos.ne', mul_one, Nat.cast_natAbs]
    rcases lt_or_ge z 0 with h | h
    · simp [h, abs_of_neg h]
    · simp [not_lt.2 h, abs_of_nonneg h]
  rw [← this]
  exact val_round_of_repr hx s

/-- `x` is the integer `z` -/
def IsInt (x : F64) (z : ℤ) : Prop := x.isFinite = true ∧ x.val = z

theorem IsInt.add {x y : F64} {m k : ℤ} (hx : IsInt x m) (hy : IsInt y k) (h : |m + k| < 2 ^ 53) : IsInt (F64.add x y) (m + k) := by
  have e : F64.add x y = round ((m + k : ℤ) : ℚ) (x.sign && y.sign) := by rw [add_finite hx.1 hy.1, hx.2, hy.2]; push_cast; rfl
  rw [IsInt, e]
  exact ⟨(val_round_int h _).2, (val_round_int h _).1⟩

theorem IsInt.sub {x y : F64} {m k : ℤ} (hx : IsInt x m) (hy : IsInt y k) (h : |m - k| < 2 ^ 53) : IsInt (F64.sub x y) (m - k) := by
  have e : F64.sub x y = round ((m - k : ℤ) : ℚ) (x.sign && !y.sign) := by rw [sub_finite hx.1 hy.1, hx.2, hy.2]; push_cast; rfl
  rw [IsInt, e]
  exact ⟨(val_round_int h _).2, (val_round_int h _).1⟩

theorem IsInt.mul {x y : F64} {m k : ℤ} (hx : IsInt x m) (hy : IsInt y k) (h : |m * k| < 2 ^ 53) : IsInt (F64.mul x y) (m * k) := by
  have e : F64.mul x y = round ((m * k : ℤ) : ℚ) (x.sign != y.sign) := by rw [mul_finite hx.1 hy.1, hx.2, hy.2]; push_cast; rfl
  rw [IsInt, e]
  exact ⟨(val_round_int h _).2, (val_round_int h _).1⟩

theorem IsInt.half [L : Libm] {x : F64} {m : ℤ} (hx : IsInt x (2 * m)) (h : |m| < 2 ^ 53) : IsInt (F64.mul (lit 0.5) x) m := by
  have hh := lit_half_rel (L := L)
  have hv : (lit 0.5 : F64).val = 1 / 2 := by
    have := hh.2
    rw [zero_mul, zero_mul] at this
    have := sub_eq_zero.1 (abs_eq_zero.1 (le_antisymm this (abs_nonneg _)))
    rw [rv] at this
    have h2 : (((lit 0.5 : F64).val : ℚ) : ℝ) = ((1 / 2 : ℚ) : ℝ) := by rw [this]; norm_num
    exact_mod_cast h2
  have e : F64.mul (lit 0.5) x = round ((m : ℤ) : ℚ) ((lit 0.5 : F64).sign != x.sign) := by
    rw [mul_finite hh.1 hx.1, hx.2, hv]; push_cast; congr 1; ring
  rw [IsInt, e]
  exact ⟨(val_round_int h _).2, (val_round_int h _).1⟩

/-- the point that belongs to a node `±1` on an interval with integer ends -/
theorem end_points [L : Libm] {a b x : F64} {A B : ℤ} (ha : IsInt a A) (hb : IsInt b B) (hA : |A| ≤ 2 ^ 50) (hB : |B| ≤ 2 ^ 50) :
    (IsInt x 1 → IsInt (lit 0.5 *ᶠ ((b -ᶠ a) *ᶠ x +ᶠ (b +ᶠ a))) B) ∧ (IsInt x (-1) → IsInt (lit 0.5 *ᶠ ((b -ᶠ a) *ᶠ x +ᶠ (b +ᶠ a))) A) := by
  rw [_root_.abs_le] at hA hB
  have h1 := hb.sub ha (by rw [_root_.abs_lt]; omega)
  have h2 := hb.add ha (by rw [_root_.abs_lt]; omega)
  refine ⟨fun hx => ?_, fun hx => ?_⟩
  · have h3 := h1.mul hx (by rw [mul_one, _root_.abs_lt]; omega)
    have h4 := h3.add h2 (by rw [mul_one, _root_.abs_lt]; omega)
    rw [show (B - A) * 1 + (B + A) = 2 * B by ring] at h4
    exact h4.half (by rw [_root_.abs_lt]; omega)
  · have h3 := h1.mul hx (by rw [mul_neg_one, _root_.abs_lt]; omega)
    have h4 := h3.add h2 (by rw [mul_neg_one, _root_.abs_lt]; omega)
    rw [show (B - A) * -1 + (B + A) = 2 * A by ring] at h4
    exact h4.half (by rw [_root_.abs_lt]; omega)

/-- the rules C100 is about -/
def AngleRule [Libm] (mode : Overflow) (n : ℕ) (R : AnyRule F64) : Prop :=
  (∃ r, GaussLegendre.new mode n = some r ∧ R = .legendre r) ∨ (∃ r, GaussChebyshevFirstKind.new mode n = some r ∧ R = .chebyshevFirst r) ∨
  ∃ r, GaussChebyshevSecondKind.new mode n = some r ∧ R = .chebyshevSecond r

/-- C100: from degree `2^29` on the three rules call the integrand at both ends of an interval with integer ends. -/
theorem C100_ends_called [L : Libm] (hL : AccurateTrig L) (hE : CosEnds L) (mode : Overflow) {n : ℕ} (hn : 2 ^ 29 ≤ n) (hlt : n < 2 ^ 52) {R : AnyRule F64}
    (hR : AngleRule mode n R) {a b : F64} {A B : ℤ} (ha : IsInt a A) (hb : IsInt b B) (hA : |A| ≤ 2 ^ 50) (hB : |B| ≤ 2 ^ 50) :
    (∃ x ∈ points a b R, x.isFinite = true ∧ x.val = a.val) ∧ ∃ x ∈ points a b R, x.isFinite = true ∧ x.val = b.val := by
  have hk : 0 < n / 2 ^ 29 := Nat.div_pos hn (by norm_num)
  have one : IsInt (lit 1.0 : F64) 1 := ⟨lit_one_isNat.1, by rw [val_lit_one]; norm_num⟩
  have mone : IsInt (lit (-1.0) : F64) (-1) := ⟨by rw [lit_neg_one]; decide +kernel, by rw [val_lit_neg_one]; norm_num⟩
  have key : ∀ r : Rule F64, (∃ hlen : r.asNodeWeightPairs.length = n, ∀ i (hi : i < n / 2 ^ 29), (r.asNodeWeightPairs[i]'(by omega)).1 = lit (-1.0) ∧
      (r.asNodeWeightPairs[n - 1 - i]'(by omega)).1 = lit 1.0) →
      (∃ x ∈ r.nodeWeightPairs.map (fun p => lit 0.5 *ᶠ ((b -ᶠ a) *ᶠ p.1 +ᶠ (b +ᶠ a))), x.isFinite = true ∧ x.val = a.val) ∧
      ∃ x ∈ r.nodeWeightPairs.map (fun p => lit 0.5 *ᶠ ((b -ᶠ a) *ᶠ p.1 +ᶠ (b +ᶠ a))), x.isFinite = true ∧ x.val = b.val := by
    rintro r ⟨hlen, h⟩
    obtain ⟨e1, e2⟩ := h 0 hk
    obtain ⟨-, q1⟩ := end_points (x := (r.asNodeWeightPairs[0]'(by omega)).1) ha hb hA hB
    obtain ⟨q2, -⟩ := end_points (x := (r.asNodeWeightPairs[n - 1 - 0]'(by omega)).1) ha hb hA hB
    rw [e1] at q1
    rw [e2] at q2
    have q1 := q1 mone
    have q2 := q2 one
    refine ⟨⟨_, List.mem_map.2 ⟨_, List.getElem_mem _, by rw [← e1]; rfl⟩, q1.1, q1.2.trans ha.2.symm⟩,
      ⟨_, List.mem_map.2 ⟨_, List.getElem_mem _, by rw [← e2]; rfl⟩, q2.1, q2.2.trans hb.2.symm⟩⟩
  rcases hR with ⟨r, hr, rfl⟩ | ⟨r, hr, rfl⟩ | ⟨r, hr, rfl⟩
  · obtain ⟨r', e, h⟩ := C100_legendre hL hE mode (n := n) (by omega)
    rw [hr] at e; cases e
    exact key r h
  · obtain ⟨r', e, h⟩ := C100_chebyshev_first hE mode (n := n) hlt
    rw [hr] at e; cases e
    exact key r h
  · obtain ⟨r', e, h⟩ := C100_chebyshev_second hE mode (n := n) hlt
    rw [hr] at e; cases e
    exact key r h

theorem callAll_mem {σ : Type} (f : Closure σ F64) {x : F64} : ∀ {xs : List F64} (s : σ), x ∈ xs → ∃ s', (f s' x).1 ∈ (callAll f s xs).1
  | y :: ys, s, h => by
    rcases List.mem_cons.1 h with rfl | h
    · exact ⟨s, by simp [callAll]⟩
    · obtain ⟨s', hs'⟩ := callAll_mem f (f s y).2 h
      exact ⟨s', by simp only [callAll]; exact List.mem_cons_of_mem _ hs'⟩

/-- C100: so an integrand with a pole at an end of the interval, integrable or not, does not get a finite result, whatever its other values; neither
sequentially nor in parallel. -/
theorem C100_pole_at_end [L : Libm] (hL : AccurateTrig L) (hE : CosEnds L) (mode : Overflow) {n : ℕ} (hn : 2 ^ 29 ≤ n) (hlt : n < 2 ^ 52) {R : AnyRule F64}
    (hR : AngleRule mode n R) {a b : F64} {A B : ℤ} (ha : IsInt a A) (hb : IsInt b B) (hA : |A| ≤ 2 ^ 50) (hB : |B| ≤ 2 ^ 50) :
    (∀ (σ : Type) (f : Closure σ F64) (s : σ), ((∀ t x, x.val = a.val → (f t x).1.isFinite = false) ∨ (∀ t x, x.val = b.val → (f t x).1.isFinite = false)) →
      ((R.integrate a b (logged f)).run ([], s)).1.isFinite = false) ∧
    (∀ (f : F64 → F64) (s s' : Schedule), ((∀ x, x.val = a.val → (f x).isFinite = false) ∨ (∀ x, x.val = b.val → (f x).isFinite = false)) →
      (R.parIntegrate s s' a b f).isFinite = false) := by
  obtain ⟨⟨x, hx, -, vx⟩, y, hy, -, vy⟩ := C100_ends_called hL hE mode hn hlt hR ha hb hA hB
  refine ⟨fun σ f s h => ?_, fun f s s' h => ?_⟩
  · by_contra hc
    rw [Bool.not_eq_false] at hc
    have hall := (C77_finite_result R a b f s hc).1
    rcases h with h | h
    · obtain ⟨t, ht⟩ := callAll_mem f s hx
      have := hall _ ht
      rw [h t x vx] at this; cases this
    · obtain ⟨t, ht⟩ := callAll_mem f s hy
      have := hall _ ht
      rw [h t y vy] at this; cases this
  · by_contra hc
    rw [Bool.not_eq_false] at hc
    have hall := (C77_finite_par R a b f s s' hc).1
    rcases h with h | h
    · have := hall _ hx
      rw [h x vx] at this; cases this
    · have := hall _ hy
      rw [h y vy] at this; cases this

/-- the hypotheses can be met -/
example : ∃ L : Libm, AccurateTrig L ∧ CosEnds L := cosEnds_exists

/-- degree `2^31`: the first four nodes are all `-1.0` -/
example [L : Libm] (hL : AccurateTrig L) (hE : CosEnds L) : ∃ r : Rule F64, GaussLegendre.new .checked (2 ^ 31) = some r ∧
    (r.asNodeWeightPairs[3]?).map (·.1) = some (lit (-1.0)) ∧ (r.asNodeWeightPairs[0]?).map (·.1) = some (lit (-1.0)) := by
  obtain ⟨r, h1, h2, h3⟩ := C100_legendre hL hE .checked (n := 2 ^ 31) (by norm_num)
  refine ⟨r, h1, ?_, ?_⟩
  · rw [List.getElem?_eq_getElem (by omega)]; simp only [Option.map_some]; rw [(h3 3 (by norm_num)).1]
  · rw [List.getElem?_eq_getElem (by omega)]; simp only [Option.map_some]; rw [(h3 0 (by norm_num)).1]

/-- `∫₀¹ dx/√x = 2`: as soon as `f(0)` is not finite the result of degree `10^9` is not finite -/
example [L : Libm] (hL : AccurateTrig L) (hE : CosEnds L) (f : F64 → F64) (hf : ∀ x, x.val = 0 → (f x).isFinite = false) (s s' : Schedule) :
    ∃ r : Rule F64, GaussLegendre.new .checked (10 ^ 9) = some r ∧ ((AnyRule.legendre r).parIntegrate s s' (zero false) (lit 1.0) f).isFinite = false := by
  obtain ⟨r, h1, -⟩ := C100_legendre hL hE .checked (n := 10 ^ 9) (by norm_num)
  refine ⟨r, h1, (C100_pole_at_end hL hE .checked (n := 10 ^ 9) (A := 0) (B := 1) (by norm_num) (by norm_num) (.inl ⟨r, h1, rfl⟩) ⟨rfl, by rw [val_zero]; norm_num⟩
    ⟨lit_one_isNat.1, by rw [val_lit_one]; norm_num⟩ (by norm_num) (by norm_num)).2 f s s' (.inl fun x hx => hf x (by rw [hx, val_zero]))⟩

/-- degree `2^31`: the ends are nodes of the Chebyshev rules, four times each, and no accurate `cos` avoids coincidences at degree `3·10^9` -/
example [L : Libm] (hL : AccurateTrig L) (hE : CosEnds L) :
    (∃ r : Rule F64, GaussChebyshevFirstKind.new .checked (2 ^ 31) = some r ∧ (r.asNodeWeightPairs[3]?).map (·.1) = some (lit (-1.0))) ∧
    (∃ r : Rule F64, GaussChebyshevSecondKind.new .checked (2 ^ 31) = some r ∧ (r.asNodeWeightPairs[3]?).map (·.1) = some (lit (-1.0))) ∧
    ∃ r : Rule F64, GaussLegendre.new .checked (3 * 10 ^ 9) = some r ∧ ¬ r.asNodeWeightPairs.Pairwise (fun p q => FloatOps.lt p.1 q.1 = true) := by
  refine ⟨?_, ?_, (C100_not_distinct hL .checked (n := 3 * 10 ^ 9) (by norm_num)).1 (by norm_num)⟩
  · obtain ⟨r, h1, h2, h3⟩ := C100_chebyshev_first hE .checked (n := 2 ^ 31) (by norm_num)
    exact ⟨r, h1, by rw [List.getElem?_eq_getElem (by omega)]; simp only [Option.map_some]; rw [(h3 3 (by norm_num)).1]⟩
  · obtain ⟨r, h1, h2, h3⟩ := C100_chebyshev_second hE .checked (n := 2 ^ 31) (by norm_num)
    exact ⟨r, h1, by rw [List.getElem?_eq_getElem (by omega)]; simp only [Option.map_some]; rw [(h3 3 (by norm_num)).1]⟩

/-- on [0, 1] with `10^9` nodes the integrand is called at 0 -/
example [L : Libm] (hL : AccurateTrig L) (hE : CosEnds L) : ∃ r : Rule F64, GaussLegendre.new .checked (10 ^ 9) = some r ∧
    ∃ x ∈ points (zero false) (lit 1.0) (.legendre r), x.val = 0 := by
  obtain ⟨r, h1, -⟩ := C100_legendre hL hE .checked (n := 10 ^ 9) (by norm_num)
  obtain ⟨⟨x, hx, -, h⟩, -⟩ := C100_ends_called hL hE .checked (n := 10 ^ 9) (A := 0) (B := 1) (by norm_num) (by norm_num) (.inl ⟨r, h1, rfl⟩) (a := zero false) (b := lit 1.0)
    ⟨rfl, by rw [val_zero]; norm_num⟩ ⟨lit_one_isNat.1, by rw [val_lit_one]; norm_num⟩ (by norm_num) (by norm_num)
  exact ⟨r, h1, x, hx, by rw [h, val_zero]⟩

end GaussQuad.Props
