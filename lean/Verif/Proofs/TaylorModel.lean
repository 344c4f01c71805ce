import Verif.Proofs.ListPoly
import Mathlib.Algebra.Order.BigOperators.Group.List
import Mathlib.Algebra.Order.AbsoluteValue.Basic

/-!
# Polynomial enclosures in two variables

A `TM` is a polynomial in `x` and `y` with integer coefficients (rows: powers of `y`; inside a row: powers of `x`) together with an
absolute error, everything divided by a common scale `M`.  It encloses a real number `f` at `(x, y) ∈ [0,1]²`.
-/

namespace GaussQuad.TaylorModel
open ListPoly

/-- absolute coefficient sum -/
def norm1 : List ℤ → ℕ
  | [] => 0
  | c :: p => c.natAbs + norm1 p

def norm2 : List (List ℤ) → ℕ
  | [] => 0
  | r :: p => norm1 r + norm2 p

/-- value of a two-variable polynomial -/
def ev2 (x y : ℝ) : List (List ℤ) → ℝ
  | [] => 0
  | r :: p => ev x r + y * ev2 x y p

def add2 : List (List ℤ) → List (List ℤ) → List (List ℤ)
  | [], q => q
  | p, [] => p
  | a :: p, b :: q => add a b :: add2 p q

def smul2 (c : ℤ) (p : List (List ℤ)) : List (List ℤ) := p.map (smul c)

def mul2 : List (List ℤ) → List (List ℤ) → List (List ℤ)
  | [], _ => []
  | r :: p, q => add2 (q.map (mul r)) ([] :: mul2 p q)

variable {x y : ℝ}

theorem ev_abs_le (hx : 0 ≤ x) (hx1 : x ≤ 1) (p : List ℤ) : |ev x p| ≤ norm1 p := by
  induction p with
  | nil => simp [norm1]
  | cons c p ih =>
    rw [ev_cons, norm1]
    push_cast
    refine (abs_add_le _ _).trans (add_le_add (le_of_eq ?_) ?_)
    · rw [Nat.cast_natAbs, Int.cast_abs]
    · rw [abs_mul, abs_of_nonneg hx]
      nlinarith [abs_nonneg (ev x p)]

theorem ev2_abs_le (hx : 0 ≤ x) (hx1 : x ≤ 1) (hy : 0 ≤ y) (hy1 : y ≤ 1) (p : List (List ℤ)) : |ev2 x y p| ≤ norm2 p := by
  induction p with
  | nil => simp [norm2, ev2]
  | cons c p ih =>
    rw [ev2, norm2]
    push_cast
    refine (abs_add_le _ _).trans (add_le_add (ev_abs_le hx hx1 c) ?_)
    rw [abs_mul, abs_of_nonneg hy]
    nlinarith [abs_nonneg (ev2 x y p)]

theorem ev2_add : ∀ p q : List (List ℤ), ev2 x y (add2 p q) = ev2 x y p + ev2 x y q
  | [], q => by simp [add2, ev2]
  | a :: p, [] => by simp [add2, ev2]
  | a :: p, b :: q => by simp only [add2, ev2, ev2_add p q, ev_add]; ring

theorem ev2_smul (c : ℤ) (p : List (List ℤ)) : ev2 x y (smul2 c p) = c * ev2 x y p := by
  induction p with
  | nil => simp [smul2, ev2]
  | cons a p ih =>
    have : ev2 x y (smul2 c (a :: p)) = ev x (smul c a) + y * ev2 x y (smul2 c p) := rfl
    rw [this, ih, ev_smul, ev2]; ring

theorem ev2_map_mul (r : List ℤ) (q : List (List ℤ)) : ev2 x y (q.map (mul r)) = ev x r * ev2 x y q := by
  induction q with
  | nil => simp [ev2]
  | cons a q ih => rw [List.map_cons, ev2, ih, ev_mul, ev2]; ring

theorem ev2_mul (p q : List (List ℤ)) : ev2 x y (mul2 p q) = ev2 x y p * ev2 x y q := by
  induction p with
  | nil => simp [mul2, ev2]
  | cons r p ih => rw [mul2, ev2_add, ev2_map_mul, ev2, ih, ev2]; simp; ring

/-! ## fast product: rows are packed into single integers -/

@[irreducible] def half : ℕ := 57896044618658097711785492504343953926634992332820282019728792003956564819968
@[irreducible] def base : ℕ := 115792089237316195423570985008687907853269984665640564039457584007913129639936

theorem base_eq : base = 2 * half := by unfold base half; norm_num
theorem half_pos : 0 < half := by unfold half; norm_num

def pack : List ℤ → ℤ
  | [] => 0
  | c :: p => Int.add c (Int.mul (Int.ofNat base) (pack p))

def offset : ℕ → ℕ
  | 0 => 0
  | n + 1 => Nat.add half (Nat.mul base (offset n))

def unpackN : ℕ → ℕ → List ℤ
  | 0, _ => []
  | n + 1, N => Int.subNatNat (Nat.mod N base) half :: unpackN n (Nat.div N base)

def unpack (n : ℕ) (E : ℤ) : List ℤ := unpackN n (Int.toNat (Int.add E (Int.ofNat (offset n))))

def len1 : List (List ℤ) → ℕ
  | [] => 0
  | r :: p => Nat.max r.length (len1 p)

def mulF (p q : List (List ℤ)) : List (List ℤ) := (mul (p.map pack) (q.map pack)).map (unpack (len1 p + len1 q))

/-- the product; packed if the coefficients are small enough -/
def mulK (p q : List (List ℤ)) : List (List ℤ) := bif Nat.blt (norm2 p * norm2 q) half then mulF p q else mul2 p q

theorem pack_cons (c : ℤ) (p : List ℤ) : pack (c :: p) = c + base * pack p := rfl

theorem pack_add : ∀ p q : List ℤ, pack (add p q) = pack p + pack q
  | [], q => by simp [add, pack]
  | a :: p, [] => by simp [add, pack]
  | a :: p, b :: q => by simp only [add, pack_cons, pack_add p q]; ring

theorem pack_smul (c : ℤ) (p : List ℤ) : pack (smul c p) = c * pack p := by
  induction p with
  | nil => simp [smul, pack]
  | cons a p ih =>
    have : pack (smul c (a :: p)) = c * a + base * pack (smul c p) := rfl
    rw [this, ih, pack_cons]; ring

theorem pack_mul (p q : List ℤ) : pack (mul p q) = pack p * pack q := by
  induction p with
  | nil => simp [mul, pack]
  | cons a p ih => rw [mul, pack_add, pack_smul, pack_cons, ih, pack_cons]; ring

theorem map_pack_add2 : ∀ p q : List (List ℤ), (add2 p q).map pack = add (p.map pack) (q.map pack)
  | [], q => by simp [add2, add]
  | a :: p, [] => by simp [add2, add]
  | a :: p, b :: q => by simp [add2, add, pack_add, map_pack_add2 p q]

theorem map_pack_mul2 (p q : List (List ℤ)) : (mul2 p q).map pack = mul (p.map pack) (q.map pack) := by
  induction p with
  | nil => simp [mul2, mul]
  | cons r p ih =>
    have e : (q.map (mul r)).map pack = smul (pack r) (q.map pack) := by
      rw [smul, List.map_map, List.map_map]
      apply List.map_congr_left
      intro a _
      simp [pack_mul]
    rw [mul2, map_pack_add2, List.map_cons, ih, e]
    rfl

theorem norm1_add : ∀ p q : List ℤ, norm1 (add p q) ≤ norm1 p + norm1 q
  | [], q => by simp [add, norm1]
  | a :: p, [] => by simp [add, norm1]
  | a :: p, b :: q => by
    simp only [add, norm1]
    have := norm1_add p q
    have := Int.natAbs_add_le a b
    omega

theorem norm1_smul (c : ℤ) (p : List ℤ) : norm1 (smul c p) = c.natAbs * norm1 p := by
  induction p with
  | nil => simp [smul, norm1]
  | cons a p ih =>
    have : norm1 (smul c (a :: p)) = (c * a).natAbs + norm1 (smul c p) := rfl
    rw [this, ih, norm1, Int.natAbs_mul]; ring

theorem norm1_mul (p q : List ℤ) : norm1 (mul p q) ≤ norm1 p * norm1 q := by
  induction p with
  | nil => simp [mul, norm1]
  | cons a p ih =>
    rw [mul]
    refine (norm1_add _ _).trans ?_
    rw [norm1_smul, norm1, norm1]
    simp only [Int.natAbs_zero, Nat.zero_add]
    nlinarith

theorem norm2_add : ∀ p q : List (List ℤ), norm2 (add2 p q) ≤ norm2 p + norm2 q
  | [], q => by simp [add2, norm2]
  | a :: p, [] => by simp [add2, norm2]
  | a :: p, b :: q => by
    simp only [add2, norm2]
    have := norm2_add p q
    have := norm1_add a b
    omega

theorem norm2_map_mul (r : List ℤ) (q : List (List ℤ)) : norm2 (q.map (mul r)) ≤ norm1 r * norm2 q := by
  induction q with
  | nil => simp [norm2]
  | cons a q ih =>
    rw [List.map_cons, norm2, norm2]
    have := norm1_mul r a
    nlinarith

theorem norm2_mul (p q : List (List ℤ)) : norm2 (mul2 p q) ≤ norm2 p * norm2 q := by
  induction p with
  | nil => simp [mul2, norm2]
  | cons a p ih =>
    rw [mul2]
    refine (norm2_add _ _).trans ?_
    rw [norm2, norm2]
    have := norm2_map_mul a q
    simp only [norm1, Nat.zero_add]
    nlinarith

theorem length_add : ∀ p q : List ℤ, (add p q).length = max p.length q.length
  | [], q => by simp [add]
  | a :: p, [] => by simp [add]
  | a :: p, b :: q => by simp [add, length_add p q]

theorem length_mul (p q : List ℤ) : (mul p q).length ≤ p.length + q.length := by
  induction p with
  | nil => simp [mul]
  | cons a p ih =>
    rw [mul, length_add, smul, List.length_map, List.length_cons, List.length_cons]
    omega

theorem len1_add : ∀ p q : List (List ℤ), len1 (add2 p q) = max (len1 p) (len1 q)
  | [], q => by simp [add2, len1]
  | a :: p, [] => by simp [add2, len1]
  | a :: p, b :: q => by
    simp only [add2, len1, len1_add p q, length_add]
    show max (max _ _) (max _ _) = max (max _ _) (max _ _)
    omega

theorem len1_cons (a : List ℤ) (p : List (List ℤ)) : len1 (a :: p) = max a.length (len1 p) := rfl

theorem len1_map_mul (r : List ℤ) (q : List (List ℤ)) : len1 (q.map (mul r)) ≤ r.length + len1 q := by
  induction q with
  | nil => simp [len1]
  | cons a q ih =>
    rw [List.map_cons, len1_cons, len1_cons]
    have := length_mul r a
    omega

theorem len1_mul (p q : List (List ℤ)) : len1 (mul2 p q) ≤ len1 p + len1 q := by
  induction p with
  | nil => simp [mul2, len1]
  | cons a p ih =>
    rw [mul2, len1_add, len1_cons, len1_cons]
    have := len1_map_mul a q
    simp only [List.length_nil]
    omega

theorem ev_unpackN (x : ℝ) : ∀ (n : ℕ) (r : List ℤ) (N : ℕ), r.length ≤ n → norm1 r < half → (N : ℤ) = pack r + offset n →
    ev x (unpackN n N) = ev x r
  | 0, r, N, hl, _, _ => by
    have : r = [] := List.length_eq_zero_iff.1 (by omega)
    subst this; rfl
  | n + 1, r, N, hl, hr, hN => by
    obtain ⟨c, r', hc, hl', hr', hp, he⟩ : ∃ (c : ℤ) (r' : List ℤ), c.natAbs < half ∧ r'.length ≤ n ∧ norm1 r' < half ∧
        pack r = c + base * pack r' ∧ ev x r = c + x * ev x r' := by
      rcases r with _ | ⟨c, r'⟩
      · exact ⟨0, [], by simpa using half_pos, by simp, by simpa [norm1] using half_pos, by simp [pack], by simp⟩
      · refine ⟨c, r', ?_, by simpa using hl, ?_, rfl, rfl⟩ <;> (rw [norm1] at hr; omega)
    have hoff : (offset (n + 1) : ℤ) = half + base * offset n := by
      have : offset (n + 1) = half + base * offset n := rfl
      rw [this]; push_cast; ring
    rw [hp, hoff] at hN
    have hB := base_eq
    have hd0 : 0 ≤ c + half ∧ c + half < base := by omega
    obtain ⟨d, hd⟩ := Int.eq_ofNat_of_zero_le hd0.1
    have hdB : d < base := by omega
    have hN' : (N : ℤ) = d + base * (pack r' + offset n) := by rw [hN, ← hd]; ring
    have hbpos : 0 < base := by have := half_pos; omega
    have hq : 0 ≤ pack r' + offset n := by
      by_contra hneg
      push Not at hneg
      have h1 : (base : ℤ) * (pack r' + offset n) ≤ base * (-1) := mul_le_mul_of_nonneg_left (by omega) (by omega)
      have : (0 : ℤ) ≤ N := by positivity
      omega
    obtain ⟨m, hm⟩ := Int.eq_ofNat_of_zero_le hq
    rw [hm] at hN'
    have hNn : N = d + base * m := by exact_mod_cast hN'
    have hmod : N % base = d := by rw [hNn, Nat.add_mul_mod_self_left, Nat.mod_eq_of_lt hdB]
    have hdiv : N / base = m := by rw [hNn, Nat.add_mul_div_left _ _ hbpos, Nat.div_eq_of_lt hdB, Nat.zero_add]
    have ih := ev_unpackN x n r' m hl' hr' hm.symm
    have : unpackN (n + 1) N = Int.subNatNat (N % base) half :: unpackN n (N / base) := rfl
    rw [this, hmod, hdiv, ev_cons, ih, he, Int.subNatNat_eq_coe]
    have : ((d : ℤ) - half) = c := by omega
    rw [this]

theorem pack_lower (r : List ℤ) : ∀ n, r.length ≤ n → norm1 r < half → 0 ≤ pack r + offset n := by
  induction r with
  | nil => intro n _ _; simp [pack]
  | cons c r ih =>
    intro n hn hr
    rw [norm1] at hr
    obtain ⟨n, rfl⟩ : ∃ k, n = k + 1 := ⟨n - 1, by simp at hn; omega⟩
    have := ih n (by simpa using hn) (by omega)
    have hoff : (offset (n + 1) : ℤ) = half + base * offset n := by
      have : offset (n + 1) = half + base * offset n := rfl
      rw [this]; push_cast; ring
    rw [pack_cons, hoff]
    have h1 : (0 : ℤ) ≤ base * (pack r + offset n) := mul_nonneg (by positivity) this
    have h2 : 0 ≤ c + half := by omega
    calc (0 : ℤ) ≤ (c + half) + base * (pack r + offset n) := add_nonneg h2 h1
      _ = _ := by ring

theorem ev_unpack (x : ℝ) {n : ℕ} {r : List ℤ} (hl : r.length ≤ n) (hr : norm1 r < half) : ev x (unpack n (pack r)) = ev x r := by
  apply ev_unpackN x n r _ hl hr
  have := pack_lower r n hl hr
  exact Int.toNat_of_nonneg this

theorem ev2_map_unpack (x y : ℝ) {n : ℕ} : ∀ {p : List (List ℤ)}, len1 p ≤ n → norm2 p < half → ev2 x y ((p.map pack).map (unpack n)) = ev2 x y p
  | [], _, _ => rfl
  | r :: p, hl, hp => by
    rw [len1_cons] at hl
    rw [norm2] at hp
    simp only [List.map_cons, ev2]
    rw [ev_unpack x (by omega) (by omega), ev2_map_unpack x y (p := p) (by omega) (by omega)]

theorem ev2_mulK (x y : ℝ) (p q : List (List ℤ)) : ev2 x y (mulK p q) = ev2 x y p * ev2 x y q := by
  rw [← ev2_mul, mulK]
  rcases h : Nat.blt (norm2 p * norm2 q) half
  · rfl
  · have h' : norm2 p * norm2 q < half := by
      have h2 : Nat.ble (norm2 p * norm2 q + 1) half = true := h
      rw [Nat.ble_eq] at h2; omega
    rw [cond_true, mulF, ← map_pack_mul2]
    exact ev2_map_unpack x y (len1_mul p q) (lt_of_le_of_lt (norm2_mul p q) h')

structure TM where
  p : List (List ℤ)
  e : ℕ

/-- the enclosure relation: `|f M - p(x, y)| ≤ e` -/
def Mem (M : ℕ) (x y : ℝ) (f : ℝ) (t : TM) : Prop := |f * M - ev2 x y t.p| ≤ t.e

namespace TM

def add (s t : TM) : TM := ⟨add2 s.p t.p, s.e + t.e⟩
def neg (t : TM) : TM := ⟨smul2 (-1) t.p, t.e⟩
def sub (s t : TM) : TM := s.add t.neg
def imul (c : ℤ) (t : TM) : TM := ⟨smul2 c t.p, c.natAbs * t.e⟩

/-- drop the powers of `y` from `J` on and of `x` from `D` on and divide by `M` -/
def cut (M D J : ℕ) (p : List (List ℤ)) : List (List ℤ) := (p.take J).map fun r => (r.take D).map (· / (M : ℤ))

/-- product, cut to the given size; `f` is the exact product -/
def mulAux (M : ℕ) (s t : TM) (f k : List (List ℤ)) : TM :=
  ⟨k, (norm2 s.p * t.e + norm2 t.p * s.e + s.e * t.e + norm2 (add2 f (smul2 (-(M : ℤ)) k))) / M + 1⟩

def mul (M D J : ℕ) (s t : TM) : TM := mulAux M s t (mulK s.p t.p) (cut M D J (mulK s.p t.p))

/-- upper bound of `|f| M` -/
def bound (t : TM) : ℕ := norm2 t.p + t.e

end TM

variable {M : ℕ} {f g : ℝ} {s t : TM}

theorem Mem.add (hf : Mem M x y f s) (hg : Mem M x y g t) : Mem M x y (f + g) (s.add t) := by
  rw [Mem, TM.add, ev2_add]
  push_cast
  calc |(f + g) * M - (ev2 x y s.p + ev2 x y t.p)| = |(f * M - ev2 x y s.p) + (g * M - ev2 x y t.p)| := by ring_nf
    _ ≤ _ := (abs_add_le _ _).trans (add_le_add hf hg)

theorem Mem.neg (hf : Mem M x y f s) : Mem M x y (-f) s.neg := by
  rw [Mem, TM.neg, ev2_smul]
  have e : -f * M - ((-1 : ℤ) : ℝ) * ev2 x y s.p = -(f * M - ev2 x y s.p) := by push_cast; ring
  rw [e, abs_neg]; exact hf

theorem Mem.sub (hf : Mem M x y f s) (hg : Mem M x y g t) : Mem M x y (f - g) (s.sub t) := by
  rw [sub_eq_add_neg]; exact hf.add hg.neg

theorem Mem.imul (c : ℤ) (hf : Mem M x y f s) : Mem M x y (c * f) (s.imul c) := by
  rw [Mem, TM.imul, ev2_smul]
  have e : (c : ℝ) * f * M - c * ev2 x y s.p = c * (f * M - ev2 x y s.p) := by ring
  rw [e, abs_mul]
  push_cast
  have : |(c : ℝ)| = (c.natAbs : ℝ) := by rw [Nat.cast_natAbs, Int.cast_abs]
  rw [this]
  exact mul_le_mul_of_nonneg_left hf (by positivity)

theorem Mem.mul (D J : ℕ) (hM : 0 < M) (hx : 0 ≤ x) (hx1 : x ≤ 1) (hy : 0 ≤ y) (hy1 : y ≤ 1) (hf : Mem M x y f s) (hg : Mem M x y g t) :
    Mem M x y (f * g) (s.mul M D J t) := by
  rw [TM.mul]
  generalize TM.cut M D J (mulK s.p t.p) = k
  rw [Mem, TM.mulAux]
  have hMr : (0 : ℝ) < M := by exact_mod_cast hM
  have h1 := ev2_abs_le hx hx1 hy hy1 s.p
  have h2 := ev2_abs_le hx hx1 hy hy1 t.p
  have h3 := ev2_abs_le hx hx1 hy hy1 (add2 (mulK s.p t.p) (smul2 (-(M : ℤ)) k))
  rw [ev2_add, ev2_smul, ev2_mulK] at h3
  push_cast at h3
  rw [Mem] at hf hg
  set a := ev2 x y s.p
  set b := ev2 x y t.p
  set c := ev2 x y k
  have e : (f * g * M - c) * M = a * (g * M - b) + b * (f * M - a) + (f * M - a) * (g * M - b) + (a * b + -M * c) := by ring
  have hb : |(f * g * M - c) * M| ≤ norm2 s.p * t.e + norm2 t.p * s.e + s.e * t.e + norm2 (add2 (mulK s.p t.p) (smul2 (-(M : ℤ)) k)) := by
    rw [e]
    refine (abs_add_le _ _).trans (add_le_add ((abs_add_le _ _).trans (add_le_add ((abs_add_le _ _).trans (add_le_add ?_ ?_)) ?_)) h3)
    · rw [abs_mul]; exact mul_le_mul h1 hg (abs_nonneg _) (by positivity)
    · rw [abs_mul]; exact mul_le_mul h2 hf (abs_nonneg _) (by positivity)
    · rw [abs_mul]; exact mul_le_mul hf hg (abs_nonneg _) (by positivity)
  rw [abs_mul, abs_of_pos hMr] at hb
  generalize hn : norm2 s.p * t.e + norm2 t.p * s.e + s.e * t.e + norm2 (add2 (mulK s.p t.p) (smul2 (-(M : ℤ)) k)) = n
  have hb' : |f * g * M - c| * M ≤ (n : ℝ) := by rw [← hn]; push_cast; exact hb
  have : (n : ℝ) ≤ ((n / M + 1 : ℕ) : ℝ) * M := by
    have : n ≤ (n / M + 1) * M := by
      have := Nat.div_add_mod n M
      have := Nat.mod_lt n hM
      nlinarith
    exact_mod_cast this
  exact le_of_mul_le_mul_right (hb'.trans this) hMr

theorem Mem.bound (hx : 0 ≤ x) (hx1 : x ≤ 1) (hy : 0 ≤ y) (hy1 : y ≤ 1) (hf : Mem M x y f s) : |f| * M ≤ s.bound := by
  have h1 := ev2_abs_le hx hx1 hy hy1 s.p
  rw [TM.bound]
  push_cast
  calc |f| * M = |f * M| := by rw [abs_mul, Nat.abs_cast]
    _ = |ev2 x y s.p + (f * M - ev2 x y s.p)| := by ring_nf
    _ ≤ _ := (abs_add_le _ _).trans (add_le_add h1 hf)

/-- allow for a further error `d / M` -/
theorem Mem.widen {d : ℕ} (hf : Mem M x y f s) (h : |g - f| * M ≤ d) : Mem M x y g ⟨s.p, s.e + d⟩ := by
  rw [Mem] at hf ⊢
  push_cast
  calc |g * M - ev2 x y s.p| = |(f * M - ev2 x y s.p) + (g - f) * M| := by ring_nf
    _ ≤ s.e + d := (abs_add_le _ _).trans (add_le_add hf (by rw [abs_mul, Nat.abs_cast]; exact h))

/-- polynomial with integer coefficients over the scale -/
theorem mem_poly (hM : 0 < M) (p : List (List ℤ)) : Mem M x y (ev2 x y p / M) ⟨p, 0⟩ := by
  have : (M : ℝ) ≠ 0 := by exact_mod_cast hM.ne'
  simp [Mem, div_mul_cancel₀ _ this]

/-- Horner evaluation of a polynomial whose coefficients are `c / M` -/
def TM.horner (M D J : ℕ) (z : TM) : List ℤ → TM
  | [] => ⟨[], 0⟩
  | c :: l => (⟨[[c]], 0⟩ : TM).add (z.mul M D J (TM.horner M D J z l))

theorem Mem.horner (D J : ℕ) (hM : 0 < M) (hx : 0 ≤ x) (hx1 : x ≤ 1) (hy : 0 ≤ y) (hy1 : y ≤ 1) (hz : Mem M x y f s) :
    ∀ l : List ℤ, Mem M x y (ev f l / M) (TM.horner M D J s l)
  | [] => by simp [Mem, TM.horner, ev2]
  | c :: l => by
    have h1 := mem_poly (x := x) (y := y) hM [[c]]
    have h2 := h1.add (hz.mul D J hM hx hx1 hy hy1 (Mem.horner D J hM hx hx1 hy hy1 hz l))
    have e : ev f (c :: l) / M = ev2 x y [[c]] / M + f * (ev f l / M) := by simp [ev2]; ring
    rw [e]; exact h2

end GaussQuad.TaylorModel
