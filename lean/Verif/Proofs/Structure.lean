import Verif.Model.GolubRules
import Verif.Model.NewtonCotes
import Mathlib.Data.List.Basic
import Mathlib.Control.Basic

/-! Structural lemmas that hold for every arithmetic. -/

namespace GaussQuad
open FloatOps

/-! ### Companion matrix -/

section Companion
variable {F : Type} [FloatOps F]

/-- entry of the symmetric tridiagonal matrix restricted to loop iterations below `k` -/
def partialEntry (diag offDiag : Nat → F) (k i j : Nat) : F :=
  if i = j ∧ i < k then diag i
  else if j = i + 1 ∧ i < k then offDiag i
  else if i = j + 1 ∧ j < k then offDiag j
  else lit 0.0

theorem companionStep_entries {n k : Nat} (diag offDiag : Nat → F) (hk : k + 1 < n) :
    companionStep diag offDiag (fun i j : Fin n => partialEntry diag offDiag k i j) k
      = some (fun i j : Fin n => partialEntry diag offDiag (k + 1) i j) := by
  have h1 : k < n := by omega
  simp only [companionStep, setEntry, h1, hk, and_self, if_true, Option.bind_eq_bind, Option.bind_some]
  congr 1
  funext i j
  simp only [partialEntry]
  by_cases hij : (i : Nat) = j
  · by_cases hi : (i : Nat) = k
    · have : (j : Nat) = k := by omega
      simp [hi, this]
    · have h2 : ¬ ((j : Nat) = k) := by omega
      have : (j : Nat) < k ↔ (j : Nat) < k + 1 := by omega
      simp [hij, h2, this]
  · by_cases h : (j : Nat) = i + 1
    · by_cases hi : (i : Nat) = k
      · have : (j : Nat) = k + 1 := by omega
        simp [hi, this]
      · have h3 : (i : Nat) < k ↔ (i : Nat) < k + 1 := by omega
        have h4 : ¬ ((i : Nat) = k + 1 ∧ (j : Nat) = k) := by omega
        have h5 : ¬ ((i : Nat) = (i : Nat) + 1 + 1) := by omega
        have h6 : ¬ ((i : Nat) + 1 = k ∧ (i : Nat) = k + 1) := by omega
        simp [h, hi, h3, h5]
        intro a b; omega
    · by_cases h' : (i : Nat) = j + 1
      · by_cases hj : (j : Nat) = k
        · have : (i : Nat) = k + 1 := by omega
          simp [hj, this]
        · have h3 : (j : Nat) < k ↔ (j : Nat) < k + 1 := by omega
          have h5 : ¬ ((j : Nat) = (j : Nat) + 1 + 1) := by omega
          simp [h', hj, h3, h5]
          intro a b; omega
      · have a1 : ¬ ((i : Nat) = k + 1 ∧ (j : Nat) = k) := by omega
        have a2 : ¬ ((i : Nat) = k ∧ (j : Nat) = k + 1) := by omega
        have a3 : ¬ ((i : Nat) = k ∧ (j : Nat) = k) := by omega
        simp [hij, h, h', a1, a2, a3]

theorem companion_loop {n : Nat} (diag offDiag : Nat → F) (k : Nat) (hk : k + 1 ≤ n) :
    (List.range k).foldlM (companionStep diag offDiag) (zerosMatrix n)
      = some (fun i j : Fin n => partialEntry diag offDiag k i j) := by
  induction k with
  | zero =>
    simp only [List.range_zero, List.foldlM_nil]
    show some _ = some _
    congr 1
    funext i j
    simp [zerosMatrix, partialEntry]
  | succ k ih =>
    rw [List.range_succ, List.foldlM_append, ih (by omega)]
    simp only [Option.bind_eq_bind, Option.bind_some, List.foldlM_cons, List.foldlM_nil]
    rw [companionStep_entries diag offDiag (by omega)]
    rfl

/-- the tridiagonal matrix the loop builds -/
theorem companionMatrix_eq {n : Nat} (hn : 0 < n) (diag offDiag : Nat → F) :
    companionMatrix n diag offDiag = some (fun i j : Fin n =>
      if (i : Nat) = j then diag i
      else if (j : Nat) = i + 1 then offDiag i
      else if (i : Nat) = j + 1 then offDiag j
      else lit 0.0) := by
  have h1 : csub n 1 = some (n - 1) := by simp [csub]; omega
  simp only [companionMatrix, h1, Option.bind_eq_bind, Option.bind_some]
  rw [companion_loop diag offDiag (n - 1) (by omega)]
  simp only [Option.bind_some, setEntry]
  rw [if_pos ⟨by omega, by omega⟩]
  congr 1
  funext i j
  simp only [partialEntry]
  have hi := i.2
  have hj := j.2
  by_cases hij : (i : Nat) = j
  · by_cases h : (i : Nat) = n - 1
    · have : (j : Nat) = n - 1 := by omega
      simp [h, this]
    · have : ¬ ((j : Nat) = n - 1) := by omega
      have h2 : (j : Nat) < n - 1 := by omega
      simp [hij, this, h2]
  · have a1 : ¬ ((i : Nat) = n - 1 ∧ (j : Nat) = n - 1) := by omega
    by_cases h : (j : Nat) = i + 1
    · have h2 : (i : Nat) < n - 1 := by omega
      have a2 : ¬ ((i : Nat) = n - 1 ∧ (i : Nat) + 1 = n - 1) := by omega
      have a3 : (i : Nat) ≠ n - 1 := by omega
      simp [h, h2, a3]
    · by_cases h' : (i : Nat) = j + 1
      · have h2 : (j : Nat) < n - 1 := by omega
        have a3 : (j : Nat) ≠ n - 1 := by omega
        have a4 : ¬ ((j : Nat) = (j : Nat) + 1 + 1) := by omega
        simp [h', h2, a3, a4]
      · simp [hij, h, h', a1]

end Companion

/-! ### golub_welsch -/

section GW
variable {F : Type} [FloatOps F]

theorem length_eigenPairs {n : Nat} (h : 0 < n) (E : SymEigen F n) (s : F) :
    (eigenPairs h E s).length = n := by
  simp [eigenPairs]

theorem golubWelsch_eq (ext : Externals F) {n : Nat} (hn : 0 < n) (diag offDiag : Nat → F) (s : F) :
    ∃ M, companionMatrix n diag offDiag = some M ∧
      golubWelsch ext n diag offDiag s = some (ext.sort (eigenPairs hn (ext.eig n M) s)) := by
  refine ⟨_, companionMatrix_eq hn diag offDiag, ?_⟩
  simp only [golubWelsch, companionMatrix_eq hn diag offDiag, Option.bind_eq_bind, Option.bind_some, hn,
    dif_pos]
  rfl

theorem golubWelsch_isSome (ext : Externals F) {n : Nat} (hn : 0 < n) (diag offDiag : Nat → F) (s : F) :
    ∃ l, golubWelsch ext n diag offDiag s = some l ∧ l.length = n ∧
      l.Pairwise (fun p q => totalLe p.1 q.1 = true) := by
  obtain ⟨M, hM, h⟩ := golubWelsch_eq ext hn diag offDiag s
  refine ⟨_, h, ?_, ext.sort_sorted _⟩
  rw [(ext.sort_perm _).length_eq, length_eigenPairs]

end GW

/-! ### Schedules -/

section Sched
variable {α β : Type}

theorem parCollect_eq (s : Schedule) : ∀ (xs : List α) (g : α → Option β),
    parCollect s xs g = xs.mapM g := by
  induction s with
  | leaf => intro xs g; rfl
  | split mid l r ihl ihr =>
    intro xs g
    simp only [parCollect, ihl, ihr]
    conv_rhs => rw [← List.take_append_drop mid xs, List.mapM_append]

end Sched

/-! ### Sums of effectful maps -/

section Sum
variable {F : Type} [FloatOps F] {m : Type → Type} [Monad m] [LawfulMonad m] {α : Type}

theorem foldlM_add (xs : List α) (g : α → m F) : ∀ acc : F,
    xs.foldlM (fun acc x => do let y ← g x; pure (acc +ᶠ y)) acc
      = (fun ys => List.foldl FloatOps.add acc ys) <$> xs.mapM g := by
  induction xs with
  | nil => intro acc; simp
  | cons x xs ih =>
    intro acc
    simp only [List.foldlM_cons, bind_assoc, pure_bind, ih, List.mapM_cons, map_bind, map_pure,
      List.foldl_cons]
    congr 1; funext y
    rw [← bind_pure_comp]

theorem sumMapM_eq (xs : List α) (g : α → m F) : sumMapM xs g = sumList <$> xs.mapM g := by
  rw [sumMapM, foldlM_add]; rfl

end Sum

theorem sumMapM_id {F : Type} [FloatOps F] {α : Type} (xs : List α) (g : α → Id F) :
    (sumMapM (m := Id) xs g).run = sumList (xs.map fun x => (g x).run) := by
  have : (xs.mapM g).run = xs.map fun x => (g x).run := by
    induction xs with
    | nil => rfl
    | cons x xs ih => rw [List.mapM_cons, List.map_cons, ← ih]; rfl
  rw [sumMapM_eq, ← this]; rfl

theorem mapM_map_mul {F : Type} [FloatOps F] {m : Type → Type} [Monad m] [LawfulMonad m]
    (φ : F → F) (f : F → m F) (ps : List (F × F)) :
    ps.mapM (fun p => do let y ← f (φ p.1); pure (y *ᶠ p.2))
      = (fun ys => List.zipWith FloatOps.mul ys (ps.map (·.2))) <$> (ps.map (fun p => φ p.1)).mapM f := by
  induction ps with
  | nil => simp
  | cons p ps ih =>
    simp only [List.mapM_cons, List.map_cons, bind_assoc, pure_bind, ih, map_bind, map_pure,
      bind_map_left, List.zipWith_cons_cons]

/-! ### Ranges -/

theorem length_rangeRev (hi : Nat) : (rangeRev hi).length = hi - 1 := by simp [rangeRev]

theorem mem_rangeRev {hi k : Nat} : k ∈ rangeRev hi ↔ 1 ≤ k ∧ k < hi := by
  simp [rangeRev, List.mem_range'_1]; omega

theorem getElem_rangeRev {hi i : Nat} (h : i < (rangeRev hi).length) :
    (rangeRev hi)[i] = hi - 1 - i := by
  rw [length_rangeRev] at h
  simp [rangeRev]; omega

/-! ### Legendre tables -/

section Tables
open LegendreData

theorem odd_theta_shape : ∀ i < 49, (ODD_THETA_ZEROS[i]?.map List.length) = some (i + 1) := by decide +kernel
theorem odd_weight_shape : ∀ i < 49, (ODD_WEIGHTS[i]?.map List.length) = some (i + 1) := by decide +kernel
theorem even_theta_shape : ∀ i < 50, (EVEN_THETA_ZEROS[i]?.map List.length) = some (i + 1) := by decide +kernel
theorem even_weight_shape : ∀ i < 50, (EVEN_WEIGHTS[i]?.map List.length) = some (i + 1) := by decide +kernel
theorem cl_shape : CL.length = 101 := by decide +kernel
theorem jz_shape : JZ.length = 20 := by decide +kernel
theorem j1_shape : J1.length = 21 := by decide +kernel

variable {F : Type} [FloatOps F]

theorem table2_some {T : List (List Int)} {N : Nat}
    (hT : ∀ i < N, (T[i]?.map List.length) = some (i + 1)) {i j : Nat} (hi : i < N) (hj : j ≤ i) :
    ∃ v row, T[i]? = some row ∧ row[j]? = some v ∧ (Bogaert.table2 T i j : Option F) = some (tableLit v) := by
  have h := hT i hi
  rcases hr : T[i]? with _ | row
  · rw [hr] at h; simp at h
  · rw [hr] at h; simp at h
    have hj' : j < row.length := by omega
    exact ⟨row[j], row, rfl, by simp [hj'], by simp [Bogaert.table2, hr, hj']⟩

theorem tabulatedPair_some {n k : Nat} (hn : n ≤ 100) (hk : k < n) :
    ∃ p, (Bogaert.tabulatedPair n k : Option (Bogaert.ThetaWeightPair F)) = some p := by
  unfold Bogaert.tabulatedPair
  by_cases hodd : n % 2 = 1
  · have h1 : csub n 1 = some (n - 1) := by simp [csub]; omega
    simp only [hodd, beq_self_eq_true, if_true, h1, Option.bind_eq_bind, Option.bind_some]
    set n2 := (n - 1) / 2 with hn2
    rcases Nat.lt_trichotomy k n2 with h | h | h
    · have hc : compare k n2 = .lt := Nat.compare_eq_lt.2 h
      simp only [hc]
      have e1 : csub n2 1 = some (n2 - 1) := by simp [csub]; omega
      have e2 : csub n2 k = some (n2 - k) := by simp [csub]; omega
      have e3 : csub (n2 - k) 1 = some (n2 - k - 1) := by simp [csub]; omega
      obtain ⟨v, r, -, -, hv⟩ := table2_some (F := F) odd_theta_shape (i := n2 - 1) (j := n2 - k - 1) (by omega) (by omega)
      obtain ⟨w, r', -, -, hw⟩ := table2_some (F := F) odd_weight_shape (i := n2 - 1) (j := n2 - k - 1) (by omega) (by omega)
      simp [e1, e2, e3, hv, hw]
    · have hc : compare k n2 = .eq := Nat.compare_eq_eq.2 h
      simp only [hc]
      have : n < CL.length := by rw [cl_shape]; omega
      simp [this]
    · have hc : compare k n2 = .gt := Nat.compare_eq_gt.2 h
      simp only [hc]
      have e1 : csub n2 1 = some (n2 - 1) := by simp [csub]; omega
      have e2 : csub k n2 = some (k - n2) := by simp [csub]; omega
      have e3 : csub (k - n2) 1 = some (k - n2 - 1) := by simp [csub]; omega
      obtain ⟨v, r, -, -, hv⟩ := table2_some (F := F) odd_theta_shape (i := n2 - 1) (j := k - n2 - 1) (by omega) (by omega)
      obtain ⟨w, r', -, -, hw⟩ := table2_some (F := F) odd_weight_shape (i := n2 - 1) (j := k - n2 - 1) (by omega) (by omega)
      simp [e1, e2, e3, hv, hw]
  · have hne : (n % 2 == 1) = false := by simp; omega
    simp only [hne, Bool.false_eq_true, if_false]
    set n2 := n / 2 with hn2
    have e1 : csub n2 1 = some (n2 - 1) := by simp [csub]; omega
    rcases Nat.lt_trichotomy k n2 with h | h | h
    · have hc : compare k n2 = .lt := Nat.compare_eq_lt.2 h
      simp only [hc]
      have e2 : csub n2 k = some (n2 - k) := by simp [csub]; omega
      have e3 : csub (n2 - k) 1 = some (n2 - k - 1) := by simp [csub]; omega
      obtain ⟨v, r, -, -, hv⟩ := table2_some (F := F) even_theta_shape (i := n2 - 1) (j := n2 - k - 1) (by omega) (by omega)
      obtain ⟨w, r', -, -, hw⟩ := table2_some (F := F) even_weight_shape (i := n2 - 1) (j := n2 - k - 1) (by omega) (by omega)
      simp [e1, e2, e3, hv, hw]
    all_goals
      first
      | have hc : compare k n2 = .eq := Nat.compare_eq_eq.2 h
        simp only [hc]
      | have hc : compare k n2 = .gt := Nat.compare_eq_gt.2 h
        simp only [hc]
      have e2 : csub k n2 = some (k - n2) := by simp [csub]; omega
      obtain ⟨v, r, -, -, hv⟩ := table2_some (F := F) even_theta_shape (i := n2 - 1) (j := k - n2) (by omega) (by omega)
      obtain ⟨w, r', -, -, hw⟩ := table2_some (F := F) even_weight_shape (i := n2 - 1) (j := k - n2) (by omega) (by omega)
      simp [e1, e2, hv, hw]

theorem besselJ0Zero_some {k : Nat} (hk : 1 ≤ k) : ∃ v, (Bogaert.besselJ0Zero k : Option F) = some v := by
  unfold Bogaert.besselJ0Zero
  split
  · exact ⟨_, rfl⟩
  · have e1 : csub k 1 = some (k - 1) := by simp [csub]; omega
    have : k - 1 < JZ.length := by rw [jz_shape]; omega
    simp [e1, this]

theorem besselJ1Squared_some {k : Nat} (hk : 1 ≤ k) : ∃ v, (Bogaert.besselJ1Squared k : Option F) = some v := by
  unfold Bogaert.besselJ1Squared
  split
  · exact ⟨_, rfl⟩
  · have e1 : csub k 1 = some (k - 1) := by simp [csub]; omega
    have : k - 1 < J1.length := by rw [j1_shape]; omega
    simp [e1, this]

theorem computePair_some {n k : Nat} (hk : 1 ≤ k) :
    ∃ p, (Bogaert.computePair n k : Option (Bogaert.ThetaWeightPair F)) = some p := by
  obtain ⟨v, hv⟩ := besselJ0Zero_some (F := F) hk
  obtain ⟨w, hw⟩ := besselJ1Squared_some (F := F) hk
  exact ⟨_, by simp [Bogaert.computePair, hv, hw]; rfl⟩

theorem thetaWeightPair_some {n k : Nat} (hk : 1 ≤ k) (hkn : k ≤ n) :
    ∃ p, (Bogaert.ThetaWeightPair.new n k : Option (Bogaert.ThetaWeightPair F)) = some p := by
  unfold Bogaert.ThetaWeightPair.new
  split
  · have e1 : csub k 1 = some (k - 1) := by simp [csub]; omega
    simp only [e1, Option.bind_eq_bind, Option.bind_some]
    exact tabulatedPair_some (by omega) (by omega)
  · have e1 : csub (2 * k) 1 = some (2 * k - 1) := by simp [csub]; omega
    simp only [e1, Option.bind_eq_bind, Option.bind_some]
    split
    · have e2 : csub n k = some (n - k) := by simp [csub]; omega
      obtain ⟨p, hp⟩ := computePair_some (F := F) (n := n) (k := n - k + 1) (by omega)
      exact ⟨_, by simp [e2, hp]; rfl⟩
    · exact computePair_some hk

theorem nodeWeightPair_some {n k : Nat} (hk : 1 ≤ k) (hkn : k ≤ n) :
    ∃ p, (Bogaert.nodeWeightPair n k : Option (F × F)) = some p := by
  obtain ⟨p, hp⟩ := thetaWeightPair_some (F := F) hk hkn
  exact ⟨_, by simp [Bogaert.nodeWeightPair, hp]; rfl⟩

end Tables

theorem mapM_some_of_forall {α β : Type} {g : α → Option β} : ∀ {xs : List α},
    (∀ x ∈ xs, ∃ y, g x = some y) → ∃ ys, xs.mapM g = some ys ∧ ys.length = xs.length ∧
      ∀ i (h : i < xs.length), g xs[i] = ys[i]? := by
  intro xs
  induction xs with
  | nil => intro _; exact ⟨[], by simp⟩
  | cons x xs ih =>
    intro h
    obtain ⟨y, hy⟩ := h x (by simp)
    obtain ⟨ys, h1, h2, h3⟩ := ih (fun x hx => h x (by simp [hx]))
    refine ⟨y :: ys, by simp [List.mapM_cons, hy, h1], by simp [h2], ?_⟩
    intro i hi
    cases i with
    | zero => simpa using hy
    | succ i => simpa using h3 i (by simpa using hi)

theorem usizeAddOne_ok {mode : Overflow} {n : Nat} (h : n + 1 < 2 ^ 64) :
    usizeAddOne mode n = some (n + 1) := by simp only [usizeAddOne, h, if_true]

section New
variable {F : Type} [FloatOps F]

theorem legendre_new_some {mode : Overflow} {n : Nat} (h : n + 1 < 2 ^ 64) :
    ∃ r : Rule F, GaussLegendre.new mode n = some r ∧ r.nodeWeightPairs.length = n ∧
      ∀ i, i < n → Bogaert.nodeWeightPair n (n - i) = r.nodeWeightPairs[i]? := by
  obtain ⟨ys, h1, h2, h3⟩ := mapM_some_of_forall (g := (Bogaert.nodeWeightPair n : Nat → Option (F × F)))
    (xs := rangeRev (n + 1)) (by
      intro k hk
      rw [mem_rangeRev] at hk
      exact nodeWeightPair_some hk.1 (by omega))
  refine ⟨⟨ys⟩, by simp [GaussLegendre.new, usizeAddOne_ok h, h1], by simp [h2, length_rangeRev], ?_⟩
  intro i hi
  have hi' : i < (rangeRev (n + 1)).length := by rw [length_rangeRev]; omega
  have := h3 i hi'
  rw [getElem_rangeRev hi'] at this
  simpa using this

theorem cheb1_new_eq {mode : Overflow} {n : Nat} (h : n + 1 < 2 ^ 64) :
    (GaussChebyshevFirstKind.new mode n : Option (Rule F))
      = some ⟨(rangeRev (n + 1)).map (GaussChebyshevFirstKind.pair n)⟩ := by
  simp [GaussChebyshevFirstKind.new, usizeAddOne_ok h]

theorem cheb2_new_eq {mode : Overflow} {n : Nat} (h : n + 1 < 2 ^ 64) :
    (GaussChebyshevSecondKind.new mode n : Option (Rule F))
      = some ⟨(rangeRev (n + 1)).map (GaussChebyshevSecondKind.pair n)⟩ := by
  simp [GaussChebyshevSecondKind.new, usizeAddOne_ok h]

theorem fixMiddle_some {n : Nat} {l : List (F × F)} (hn : 0 < n) (hl : l.length = n) :
    ∃ l', GaussJacobi.fixMiddle n l = some l' ∧ l'.length = n := by
  unfold GaussJacobi.fixMiddle
  split
  · have : n / 2 < l.length := by omega
    exact ⟨l.set (n / 2) (lit 0.0, (l[n / 2]).2), by simp [this], by simp [hl]⟩
  · exact ⟨l, rfl, hl⟩

theorem jacobi_newGeneral_some (ext : Externals F) {n : Nat} (hn : 0 < n) (α β : FiniteAboveNegOne F) :
    ∃ r, GaussJacobi.newGeneral ext n α β = some r ∧ r.nodeWeightPairs.length = n := by
  obtain ⟨l, h1, h2, -⟩ := golubWelsch_isSome ext hn (GaussJacobi.diag α.get β.get)
    (GaussJacobi.offDiag α.get β.get) (GaussJacobi.weightScale α.get β.get)
  obtain ⟨l', h3, h4⟩ := fixMiddle_some hn h2
  exact ⟨_, by simp [GaussJacobi.newGeneral, h1, h3]; rfl, h4⟩

theorem jacobi_new_some (mode : Overflow) (ext : Externals F) {n : Nat} (hn : 0 < n) (h : n + 1 < 2 ^ 64)
    (α β : FiniteAboveNegOne F) :
    ∃ r, GaussJacobi.new mode ext n α β = some r ∧ r.nodeWeightPairs.length = n := by
  unfold GaussJacobi.new
  split
  · obtain ⟨r, h1, h2, -⟩ := legendre_new_some (F := F) (mode := mode) h
    exact ⟨_, by rw [h1]; rfl, h2⟩
  split
  · exact ⟨_, by rw [cheb1_new_eq h]; rfl, by
      simp [GaussJacobi.ofChebyshevFirstKind, Rule.intoNodeWeightPairs, length_rangeRev]⟩
  split
  · exact ⟨_, by rw [cheb2_new_eq h]; rfl, by
      simp [GaussJacobi.ofChebyshevSecondKind, Rule.intoNodeWeightPairs, length_rangeRev]⟩
  split
  · rename_i h1; exact ⟨_, rfl, by simp [h1]⟩
  · exact jacobi_newGeneral_some ext hn α β

end New

end GaussQuad
