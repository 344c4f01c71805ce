import Verif.Model.MatrixMemory
import Verif.Props.Alloc
import Verif.Props.GolubWelschStructure
import Verif.Model.RealOps
import Mathlib.Tactic.Ring
import Mathlib.Tactic.NormNum
import Mathlib.Order.Defs.LinearOrder

/-!
# C93: machine integers and memory in the Golub-Welsch constructors

`/repo/src/golub_welsch.rs` l.22-61 allocates a full `n` by `n` matrix.  The behaviour of the matrix type is assumed, see `Model/MatrixMemory`.
-/

namespace GaussQuad.Props
open FloatOps
variable {F : Type} [FloatOps F]

/-- the ways to end, stated without the constructors: `good` is what is asked for -/
def golubOutcome {α : Type} (M : Memory) (mode : Overflow) (n : Nat) (good : α) : MemOutcome α :=
  if n < 2 ^ 30 then
    if M.alloc.grants (8 * n ^ 2) = true then
      match M.rest n with
      | .done _ => .done good
      | .panic => .panic
      | .abort => .abort
      | .outOfBounds => .outOfBounds
    else .abort
  else if n < 2 ^ 32 ∨ mode = .checked then .panic
  else if 2 ^ 63 ≤ 8 * (n ^ 2 % 2 ^ 64) then .panic
  else if n ^ 2 % 2 ^ 64 = 0 ∨ M.alloc.grants (8 * (n ^ 2 % 2 ^ 64)) = true then .outOfBounds
  else .abort

theorem usizeMul_ok (mode : Overflow) {x y : Nat} (h : x * y < 2 ^ 64) : usizeMul mode x y = some (x * y) := by rw [usizeMul.eq_def, if_pos h]

theorem usizeAdd_ok (mode : Overflow) {x y : Nat} (h : x + y < 2 ^ 64) : usizeAdd mode x y = some (x + y) := by rw [usizeAdd.eq_def, if_pos h]

theorem usizeMul_wrapping (x y : Nat) : usizeMul .wrapping x y = some (x * y % 2 ^ 64) := by
  unfold usizeMul
  split
  · rw [Nat.mod_eq_of_lt (by assumption)]
  · rfl

theorem usizeAdd_wrapping (x y : Nat) : usizeAdd .wrapping x y = some ((x + y) % 2 ^ 64) := by
  unfold usizeAdd
  split
  · rw [Nat.mod_eq_of_lt (by assumption)]
  · rfl

theorem position_wrapping (n i j : Nat) : position .wrapping n i j = some ((i + j * n) % 2 ^ 64) := by
  rw [position, usizeMul_wrapping]
  show usizeAdd .wrapping i _ = _
  rw [usizeAdd_wrapping, Nat.add_mod_mod]

/-- in a matrix of `n` rows different entries have different positions, all below `n * n` -/
theorem position_lt {n i j : Nat} (hi : i < n) (hj : j < n) : i + j * n < n * n := by
  have : (j + 1) * n ≤ n * n := Nat.mul_le_mul_right n hj
  rw [Nat.succ_mul] at this; omega

theorem position_inj {n i j i' j' : Nat} (hi : i < n) (hi' : i' < n) (h : i + j * n = i' + j' * n) : i = i' ∧ j = j' := by
  have hn : 0 < n := by omega
  have h1 := congrArg (· % n) h
  have h2 := congrArg (· / n) h
  simp only [Nat.add_mul_mod_self_right, Nat.mod_eq_of_lt hi, Nat.mod_eq_of_lt hi'] at h1
  simp only [Nat.add_mul_div_right _ _ hn, Nat.div_eq_of_lt hi, Nat.div_eq_of_lt hi', Nat.zero_add] at h2
  exact ⟨h1, h2⟩

theorem square_small {n : Nat} (h : n < 2 ^ 30) : n * n < 2 ^ 60 :=
  calc n * n < 2 ^ 30 * 2 ^ 30 := Nat.mul_lt_mul'' h h
    _ = 2 ^ 60 := by norm_num

/-- one write in memory is one write into the matrix -/
theorem write_sim (mode : Overflow) {n : Nat} (h : n < 2 ^ 30) {B : Block F} (hB : B.len = n * n) {i j : Nat} (hi : i < n) (hj : j < n) (v : F) :
    ∃ B' : Block F, writeEntry mode n B i j v = .done B' ∧ B'.len = n * n ∧ setEntry (B.matrix n) i j v = some (B'.matrix n) := by
  have h1 := position_lt hi hj
  have h2 := square_small h
  have hp : position mode n i j = some (i + j * n) := by
    rw [position, usizeMul_ok mode (by omega)]
    exact usizeAdd_ok mode (by omega)
  refine ⟨{ B with data := fun q => if q = i + j * n then v else B.data q }, ?_, hB, ?_⟩
  · rw [writeEntry, if_pos ⟨hi, hj⟩, hp]
    simp only
    rw [if_pos (by omega)]
  · rw [setEntry, if_pos ⟨hi, hj⟩]
    congr 1
    funext i' j'
    simp only [Block.matrix]
    by_cases e : i'.1 = i ∧ j'.1 = j
    · rw [if_pos e, if_pos (by rw [e.1, e.2])]
    · rw [if_neg e, if_neg fun hh => e (position_inj i'.2 hi hh)]

theorem step_sim (mode : Overflow) {n : Nat} (h : n < 2 ^ 30) (diag offDiag : Nat → F) {B : Block F} (hB : B.len = n * n) {k : Nat} (hk : k + 1 < n) :
    ∃ B' : Block F, companionWrites mode n diag offDiag B k = .done B' ∧ B'.len = n * n ∧ companionStep diag offDiag (B.matrix n) k = some (B'.matrix n) := by
  obtain ⟨B1, a1, a2, a3⟩ := write_sim mode h hB (by omega : k < n) (by omega : k < n) (diag k)
  obtain ⟨B2, b1, b2, b3⟩ := write_sim mode h a2 (by omega : k < n) hk (offDiag k)
  obtain ⟨B3, c1, c2, c3⟩ := write_sim mode h b2 hk (by omega : k < n) (offDiag k)
  refine ⟨B3, ?_, c2, ?_⟩
  · rw [companionWrites, a1, usizeAddOne.eq_def, if_pos (by omega)]
    show MemOutcome.bind (writeEntry mode n B1 k (k + 1) (offDiag k)) _ = _
    rw [b1]
    exact c1
  · simp only [companionStep, a3, b3, c3, Option.bind_eq_bind, Option.bind_some]

theorem loop_sim (mode : Overflow) {n : Nat} (h : n < 2 ^ 30) (diag offDiag : Nat → F) (l : List Nat) (hl : ∀ k ∈ l, k + 1 < n) : ∀ {B : Block F}, B.len = n * n →
    ∃ B' : Block F, l.foldlM (companionWrites mode n diag offDiag) B = .done B' ∧ B'.len = n * n ∧ l.foldlM (companionStep diag offDiag) (B.matrix n) = some (B'.matrix n) := by
  induction l with
  | nil => exact fun {B} hB => ⟨B, rfl, hB, rfl⟩
  | cons k l ih =>
    intro B hB
    obtain ⟨B1, a1, a2, a3⟩ := step_sim mode h diag offDiag hB (hl k List.mem_cons_self)
    obtain ⟨B2, b1, b2, b3⟩ := ih (fun k hk => hl k (List.mem_cons_of_mem _ hk)) a2
    refine ⟨B2, ?_, b2, ?_⟩
    · rw [List.foldlM_cons, a1]; exact b1
    · rw [List.foldlM_cons, a3]; exact b3

/-- below 2^30 the block that is filled represents the companion matrix of `Model/GolubWelsch` -/
theorem companion_small (M : Memory) (mode : Overflow) {n : Nat} (hn : 0 < n) (h : n < 2 ^ 30) (diag offDiag : Nat → F) :
    (M.alloc.grants (8 * n ^ 2) = true → ∃ B : Block F, companionBlock M mode n diag offDiag = .done B ∧ companionMatrix n diag offDiag = some (B.matrix n)) ∧
    (M.alloc.grants (8 * n ^ 2) ≠ true → companionBlock (F := F) M mode n diag offDiag = .abort) := by
  have hsq := square_small h
  have e : zerosBlock (F := F) M.alloc mode n = if M.alloc.grants (8 * n ^ 2) = true then .done ⟨n * n, fun _ => lit 0.0⟩ else .abort := by
    rw [zerosBlock, usizeMul_ok mode (by omega)]
    simp only
    have : n * n ≠ 0 := Nat.mul_ne_zero (by omega) (by omega)
    rw [if_neg (by omega), pow_two]
    simp only [this, false_or]
  constructor
  · intro hA
    rw [if_pos hA] at e
    obtain ⟨B, b1, b2, b3⟩ := loop_sim mode h diag offDiag (List.range (n - 1)) (fun k hk => by have := List.mem_range.1 hk; omega)
      (B := ⟨n * n, fun _ => lit 0.0⟩) rfl
    obtain ⟨B', c1, -, c3⟩ := write_sim mode h b2 (by omega : n - 1 < n) (by omega : n - 1 < n) (diag (n - 1))
    refine ⟨B', ?_, ?_⟩
    · rw [companionBlock, e, usizeSub.eq_def, if_pos (by omega)]
      show MemOutcome.bind ((List.range (n - 1)).foldlM (companionWrites mode n diag offDiag) _) _ = _
      rw [b1]
      exact c1
    · have h1 : csub n 1 = some (n - 1) := by rw [csub, if_pos (by omega)]
      have hz : (zerosMatrix n : Fin n → Fin n → F) = Block.matrix ⟨n * n, fun _ => lit 0.0⟩ n := rfl
      simp only [companionMatrix, h1, Option.bind_eq_bind, Option.bind_some, hz, b3, c3]
  · intro hA
    rw [if_neg hA] at e
    rw [companionBlock, e]
    rfl

/-- a write inside the shape, with wrapping arithmetic -/
theorem write_wrapping {n : Nat} (B : Block F) {i j : Nat} (hi : i < n) (hj : j < n) (v : F) :
    ((i + j * n) % 2 ^ 64 < B.len → ∃ B' : Block F, writeEntry .wrapping n B i j v = .done B' ∧ B'.len = B.len) ∧
    (B.len ≤ (i + j * n) % 2 ^ 64 → writeEntry .wrapping n B i j v = .outOfBounds) := by
  rw [writeEntry, if_pos ⟨hi, hj⟩, position_wrapping]
  constructor <;> intro h <;> simp only
  · rw [if_pos h]; exact ⟨_, rfl, rfl⟩
  · rw [if_neg (by omega)]

theorem write_either {n : Nat} (B : Block F) {i j : Nat} (hi : i < n) (hj : j < n) (v : F) :
    writeEntry .wrapping n B i j v = .outOfBounds ∨ ∃ B' : Block F, writeEntry .wrapping n B i j v = .done B' ∧ B'.len = B.len :=
  (lt_or_ge _ B.len).elim (fun h => .inr ((write_wrapping B hi hj v).1 h)) fun h => .inl ((write_wrapping B hi hj v).2 h)

theorem step_either {n : Nat} (hn : n < 2 ^ 64) (diag offDiag : Nat → F) (B : Block F) {k : Nat} (hk : k + 1 < n) :
    companionWrites .wrapping n diag offDiag B k = .outOfBounds ∨ ∃ B' : Block F, companionWrites .wrapping n diag offDiag B k = .done B' ∧ B'.len = B.len := by
  have hk1 : k < n := by omega
  rw [companionWrites, usizeAddOne.eq_def, if_pos (by omega)]
  rcases write_either B hk1 hk1 (diag k) with h | ⟨B1, h, l1⟩
  · rw [h]; exact .inl rfl
  rw [h]
  show MemOutcome.bind (writeEntry .wrapping n B1 k (k + 1) (offDiag k)) _ = _ ∨ ∃ B', MemOutcome.bind (writeEntry .wrapping n B1 k (k + 1) (offDiag k)) _ = _ ∧ _
  rcases write_either B1 hk1 hk (offDiag k) with h | ⟨B2, h, l2⟩
  · rw [h]; exact .inl rfl
  rw [h]
  rcases write_either B2 hk hk1 (offDiag k) with h | ⟨B3, h, l3⟩
  · exact .inl h
  · exact .inr ⟨B3, h, l3.trans (l2.trans l1)⟩

/-- a block of less than 2^60 numbers is too small for a matrix of 2^32 rows: some step of the loop writes outside it -/
theorem step_bad {n : Nat} (hn : n < 2 ^ 64) (h32 : 2 ^ 32 ≤ n) (diag offDiag : Nat → F) : ∃ k, k + 1 < n ∧
    ∀ B : Block F, B.len < 2 ^ 60 → companionWrites .wrapping n diag offDiag B k = .outOfBounds := by
  by_cases hbig : 2 ^ 60 ≤ n
  · refine ⟨0, by omega, fun B hB => ?_⟩
    rw [companionWrites, usizeAddOne.eq_def, if_pos (by omega)]
    rcases write_either B (by omega : 0 < n) (by omega : 0 < n) (diag 0) with h | ⟨B1, h, l1⟩
    · rw [h]; rfl
    rw [h]
    show MemOutcome.bind (writeEntry .wrapping n B1 0 1 (offDiag 0)) _ = _
    rw [(write_wrapping B1 (by omega : 0 < n) (by omega : 1 < n) (offDiag 0)).2 (by rw [Nat.mod_eq_of_lt (by omega)]; omega)]
    rfl
  · have hd : (2 ^ 60 / n) * n ≤ 2 ^ 60 := Nat.div_mul_le_self _ _
    have hd' : 2 ^ 60 < (2 ^ 60 / n + 1) * n := by
      have := Nat.lt_div_mul_add (a := 2 ^ 60) (b := n) (by omega)
      rw [Nat.succ_mul]; omega
    have hk : 2 ^ 60 / n ≤ 2 ^ 28 := by
      have := Nat.div_le_div_left (a := 2 ^ 60) h32 (by norm_num)
      have e : (2 ^ 60 : ℕ) / 2 ^ 32 = 2 ^ 28 := by norm_num
      omega
    rw [Nat.succ_mul] at hd'
    generalize 2 ^ 60 / n = q at hd hd' hk
    refine ⟨q + 1, by omega, fun B hB => ?_⟩
    have hk1 : q + 1 < n := by omega
    rw [companionWrites, (write_wrapping B hk1 hk1 (diag _)).2 (by rw [Nat.succ_mul, Nat.mod_eq_of_lt (by omega)]; omega)]
    rfl

theorem loop_bad {n : Nat} (hn : n < 2 ^ 64) (diag offDiag : Nat → F) {k : Nat} {len : Nat}
    (hk : ∀ B : Block F, B.len = len → companionWrites .wrapping n diag offDiag B k = .outOfBounds) (l : List Nat) (hl : ∀ k ∈ l, k + 1 < n) (hm : k ∈ l) :
    ∀ B : Block F, B.len = len → l.foldlM (companionWrites .wrapping n diag offDiag) B = .outOfBounds := by
  induction l with
  | nil => simp at hm
  | cons x l ih =>
    intro B hB
    rw [List.foldlM_cons]
    by_cases hx : k = x
    · subst hx; rw [hk B hB]; rfl
    · rcases step_either hn diag offDiag B (hl x List.mem_cons_self) with h | ⟨B', h, l'⟩
      · rw [h]; rfl
      · rw [h]
        exact ih (fun k hk => hl k (List.mem_cons_of_mem _ hk)) ((List.mem_cons.1 hm).resolve_left hx) B' (l'.trans hB)

/-- from 2^30 on no matrix is ever handed to the eigen-solver -/
theorem companion_large (M : Memory) (mode : Overflow) {n : Nat} (h : 2 ^ 30 ≤ n) (hn : n < 2 ^ 64) (diag offDiag : Nat → F) :
    companionBlock (F := F) M mode n diag offDiag =
      if n < 2 ^ 32 ∨ mode = .checked then .panic
      else if 2 ^ 63 ≤ 8 * (n ^ 2 % 2 ^ 64) then .panic
      else if n ^ 2 % 2 ^ 64 = 0 ∨ M.alloc.grants (8 * (n ^ 2 % 2 ^ 64)) = true then .outOfBounds
      else .abort := by
  rw [pow_two]
  have hlow : 2 ^ 60 ≤ n * n := calc (2 : ℕ) ^ 60 = 2 ^ 30 * 2 ^ 30 := by norm_num
    _ ≤ n * n := Nat.mul_le_mul h h
  by_cases h32 : n < 2 ^ 32
  · rw [if_pos (.inl h32), companionBlock, zerosBlock, usizeMul_ok mode (calc n * n < 2 ^ 32 * 2 ^ 32 := Nat.mul_lt_mul'' h32 h32
      _ = 2 ^ 64 := by norm_num)]
    simp only
    rw [if_pos (by omega)]
    rfl
  have hover : 2 ^ 64 ≤ n * n := calc (2 : ℕ) ^ 64 = 2 ^ 32 * 2 ^ 32 := by norm_num
    _ ≤ n * n := Nat.mul_le_mul (by omega) (by omega)
  cases mode with
  | checked =>
    rw [if_pos (.inr rfl), companionBlock, zerosBlock, usizeMul.eq_def, if_neg (by omega)]
    rfl
  | wrapping =>
    rw [if_neg (fun hh => hh.elim h32 (by simp)), companionBlock, zerosBlock, usizeMul_wrapping, usizeSub.eq_def, if_pos (by omega)]
    simp only
    split
    · rfl
    · rename_i hsmall
      split
      · obtain ⟨k, hk, hbad⟩ := step_bad hn (by omega) diag offDiag (F := F)
        show MemOutcome.bind ((List.range (n - 1)).foldlM (companionWrites .wrapping n diag offDiag) _) _ = _
        rw [loop_bad hn diag offDiag (k := k) (len := n * n % 2 ^ 64) (fun B hB => hbad B (by omega)) (List.range (n - 1))
          (fun k hk => by have := List.mem_range.1 hk; omega) (List.mem_range.2 (by omega)) _ rfl]
        rfl
      · rfl

/-- `golub_welsch` in memory -/
theorem golub_machine (M : Memory) (mode : Overflow) (ext : Externals F) {n : Nat} (hn : 0 < n) (hlt : n < 2 ^ 64) (diag offDiag : Nat → F) (s : F) {L : List (F × F)}
    (hL : golubWelsch ext n diag offDiag s = some L) : golubWelschMachine M mode ext n diag offDiag s = golubOutcome M mode n L := by
  unfold golubOutcome
  by_cases h : n < 2 ^ 30
  · rw [if_pos h]
    obtain ⟨h1, h2⟩ := companion_small M mode hn h diag offDiag
    by_cases hA : M.alloc.grants (8 * n ^ 2) = true
    · obtain ⟨B, b1, b2⟩ := h1 hA
      rw [if_pos hA, golubWelschMachine, b1]
      simp only [golubWelsch, b2, Option.bind_eq_bind, Option.bind_some, hn, dif_pos] at hL
      obtain rfl := Option.some.inj hL
      show MemOutcome.bind (M.rest n) _ = _
      cases M.rest n <;> simp [MemOutcome.bind, hn]
      rfl
    · rw [if_neg hA, golubWelschMachine, h2 hA]; rfl
  · rw [if_neg h, golubWelschMachine, companion_large M mode (by omega) hlt]
    split
    · rfl
    split
    · rfl
    split <;> rfl

theorem golubOutcome_map {α β : Type} (M : Memory) (mode : Overflow) (n : Nat) (x : α) (y : β) (f : α → MemOutcome β) (h : f x = .done y) :
    MemOutcome.bind (golubOutcome M mode n x) f = golubOutcome M mode n y := by
  unfold golubOutcome
  split
  · split
    · cases M.rest n <;> simp [MemOutcome.bind, h]
    · rfl
  split
  · rfl
  split
  · rfl
  split <;> rfl

/-- C93: how the three constructors end -/
theorem C93_outcome (M : Memory) (mode : Overflow) (ext : Externals F) {n : Nat} (hn : 0 < n) (hlt : n < 2 ^ 64) :
    (∃ r, GaussHermite.new ext n = some r ∧ GaussHermite.newMachine M mode ext n = golubOutcome M mode n r) ∧
    (∀ α, ∃ r, GaussLaguerre.new ext n α = some r ∧ GaussLaguerre.newMachine M mode ext n α = golubOutcome M mode n r) ∧
    (∀ α β, ∃ r, GaussJacobi.newGeneral ext n α β = some r ∧ GaussJacobi.newGeneralMachine M mode ext n α β = golubOutcome M mode n r) := by
  refine ⟨?_, fun α => ?_, fun α β => ?_⟩
  · obtain ⟨L, hL, -⟩ := golubWelsch_isSome ext hn GaussHermite.diag GaussHermite.offDiag (sqrt pi)
    refine ⟨⟨L⟩, by simp [GaussHermite.new, hL], ?_⟩
    rw [GaussHermite.newMachine, golub_machine M mode ext hn hlt _ _ _ hL]
    exact golubOutcome_map M mode n L _ _ rfl
  · obtain ⟨L, hL, -⟩ := golubWelsch_isSome ext hn (GaussLaguerre.diag α.get) (GaussLaguerre.offDiag α.get) (gamma (α.get +ᶠ lit 1.0))
    refine ⟨{ nodeWeightPairs := L, alpha := α }, by simp [GaussLaguerre.new, hL], ?_⟩
    rw [GaussLaguerre.newMachine, golub_machine M mode ext hn hlt _ _ _ hL]
    exact golubOutcome_map M mode n L _ _ rfl
  · obtain ⟨L, hL, hlen, -⟩ := golubWelsch_isSome ext hn (GaussJacobi.diag α.get β.get) (GaussJacobi.offDiag α.get β.get) (GaussJacobi.weightScale α.get β.get)
    obtain ⟨L', hL', -⟩ := fixMiddle_some hn hlen
    refine ⟨{ nodeWeightPairs := L', alpha := α, beta := β }, by simp [GaussJacobi.newGeneral, hL, hL'], ?_⟩
    rw [GaussJacobi.newGeneralMachine, golub_machine M mode ext hn hlt _ _ _ hL]
    exact golubOutcome_map M mode n L _ _ (by rw [hL']; rfl)

/-- C93: a rule is returned only for degrees below 2^30, and then it is the rule of the model without memory -/
theorem C93_returned (M : Memory) (mode : Overflow) (ext : Externals F) {n : Nat} (hn : 0 < n) (hlt : n < 2 ^ 64) (r : Rule F) :
    GaussHermite.newMachine M mode ext n = .done r ↔ n < 2 ^ 30 ∧ M.alloc.grants (8 * n ^ 2) = true ∧ M.rest n = .done () ∧ GaussHermite.new ext n = some r := by
  obtain ⟨r', h1, h2⟩ := (C93_outcome M mode ext hn hlt).1
  rw [h1, h2, golubOutcome]
  constructor
  · intro h
    split at h
    · split at h
      · rename_i ha hb
        cases hr : M.rest n <;> rw [hr] at h <;> simp at h
        exact ⟨ha, hb, rfl, by rw [h]⟩
      · simp at h
    · split at h
      · simp at h
      split at h
      · simp at h
      split at h <;> simp at h
  · rintro ⟨a, b, c, d⟩
    rw [if_pos a, if_pos b, c]
    simp only [MemOutcome.done.injEq]
    exact Option.some.inj d

/-- C93: with overflow checks nothing is ever written outside the block, for any degree -/
theorem C93_checked_safe (M : Memory) (ext : Externals F) {n : Nat} (hn : 0 < n) (hlt : n < 2 ^ 64) (hM : M.rest n ≠ .outOfBounds) :
    GaussHermite.newMachine M .checked ext n ≠ .outOfBounds ∧ (∀ α, GaussLaguerre.newMachine M .checked ext n α ≠ .outOfBounds) ∧
    ∀ α β, GaussJacobi.newGeneralMachine M .checked ext n α β ≠ .outOfBounds := by
  have key : ∀ {α : Type} (x : α), golubOutcome M .checked n x ≠ .outOfBounds := by
    intro α x
    unfold golubOutcome
    split
    · split
      · cases hr : M.rest n <;> simp_all
      · simp
    · simp
  obtain ⟨⟨r, -, h1⟩, h2, h3⟩ := C93_outcome M .checked ext hn hlt
  refine ⟨by rw [h1]; exact key _, fun α => ?_, fun α β => ?_⟩
  · obtain ⟨r, -, h⟩ := h2 α; rw [h]; exact key _
  · obtain ⟨r, -, h⟩ := h3 α β; rw [h]; exact key _

/-- C93: without overflow checks every degree that is a multiple of 2^32 writes outside the (empty) block, whatever the allocator does -/
theorem C93_out_of_bounds (M : Memory) (ext : Externals F) {m : Nat} (hm : 0 < m) (hlt : m < 2 ^ 32) :
    GaussHermite.newMachine M .wrapping ext (2 ^ 32 * m) = .outOfBounds ∧ (∀ α, GaussLaguerre.newMachine M .wrapping ext (2 ^ 32 * m) α = .outOfBounds) ∧
    ∀ α β, GaussJacobi.newGeneralMachine M .wrapping ext (2 ^ 32 * m) α β = .outOfBounds := by
  have key : ∀ {α : Type} (x : α), golubOutcome M .wrapping (2 ^ 32 * m) x = .outOfBounds := by
    intro α x
    have e : (2 ^ 32 * m) ^ 2 % 2 ^ 64 = 0 := Nat.mod_eq_zero_of_dvd ⟨m ^ 2, by ring⟩
    unfold golubOutcome
    rw [e, if_neg (by omega), if_neg (by simp; omega), if_neg (by norm_num), if_pos (.inl rfl)]
  obtain ⟨⟨r, -, h1⟩, h2, h3⟩ := C93_outcome M .wrapping ext (n := 2 ^ 32 * m) (by omega) (by omega)
  refine ⟨by rw [h1]; exact key _, fun α => ?_, fun α β => ?_⟩
  · obtain ⟨r, -, h⟩ := h2 α; rw [h]; exact key _
  · obtain ⟨r, -, h⟩ := h3 α β; rw [h]; exact key _

/-- C93: a single write.  Outside of the shape it panics; in a block of `n * n` numbers it changes the named entry and no other; without overflow checks it leaves a
block of any length exactly when the position modulo 2^64 is not in it. -/
theorem C93_write (mode : Overflow) (n : Nat) (B : Block F) (i j : Nat) (v : F) :
    (n ≤ i ∨ n ≤ j → writeEntry mode n B i j v = .panic) ∧
    (n < 2 ^ 30 → B.len = n * n → i < n → j < n → ∃ B', writeEntry mode n B i j v = .done B' ∧ B'.len = n * n ∧
      ∀ i' j' : Fin n, B'.matrix n i' j' = if i'.1 = i ∧ j'.1 = j then v else B.matrix n i' j') ∧
    (i < n → j < n → (writeEntry .wrapping n B i j v = .outOfBounds ↔ B.len ≤ (i + j * n) % 2 ^ 64)) := by
  refine ⟨fun h => ?_, fun h hB hi hj => ?_, fun hi hj => ⟨fun h => ?_, (write_wrapping B hi hj v).2⟩⟩
  · rw [writeEntry, if_neg (by omega)]
  · obtain ⟨B', h1, h2, h3⟩ := write_sim mode h hB hi hj v
    refine ⟨B', h1, h2, fun i' j' => ?_⟩
    rw [setEntry, if_pos ⟨hi, hj⟩] at h3
    exact (congrFun (congrFun (Option.some.inj h3) i') j').symm
  · by_contra hc
    obtain ⟨B', h1, -⟩ := (write_wrapping B hi hj v).1 (by omega)
    rw [h1] at h; cases h

/-- how a constructor that collects `n` pairs ends -/
def pairsOutcome {α : Type} (M : Memory) (n : Nat) (x : α) : MemOutcome α :=
  if 2 ^ 63 ≤ 16 * n then .panic else if M.alloc.grants (16 * n) = true then .done x else .abort

/-- the parameter pairs that `GaussJacobi::new` passes on to the Legendre and Chebyshev constructors -/
def passedOn (α β : FiniteAboveNegOne F) : Bool :=
  (feq α.get (lit 0.0) && feq β.get (lit 0.0)) || (feq α.get (lit (-0.5)) && feq β.get (lit (-0.5))) || (feq α.get (lit 0.5) && feq β.get (lit 0.5))

/-- C93 for `GaussJacobi::new` with its special cases: a rule that is returned is the one of the model without memory; the parameters that are passed on to the Legendre and
Chebyshev constructors and degree 1 need 16 bytes per pair and no matrix; for degrees from 2 on the other parameters end as `golubOutcome` says -/
theorem C93_jacobi (M : Memory) (mode : Overflow) (ext : Externals F) {n : Nat} (hn : 0 < n) (hlt : n < 2 ^ 64 - 1) (α β : FiniteAboveNegOne F) :
    (∀ r, GaussJacobi.newMachine M mode ext n α β = .done r → GaussJacobi.new mode ext n α β = some r) ∧
    ((feq α.get (lit 0.0) && feq β.get (lit 0.0)) = false → (feq α.get (lit (-0.5)) && feq β.get (lit (-0.5))) = false →
      (feq α.get (lit 0.5) && feq β.get (lit 0.5)) = false → n ≠ 1 →
      ∃ r, GaussJacobi.new mode ext n α β = some r ∧ GaussJacobi.newMachine M mode ext n α β = golubOutcome M mode n r) ∧
    (passedOn α β = true ∨ n = 1 → ∃ r, GaussJacobi.new mode ext n α β = some r ∧ GaussJacobi.newMachine M mode ext n α β = pairsOutcome M n r) := by
  refine ⟨?_, ?_, ?_⟩
  · intro r
    unfold GaussJacobi.newMachine GaussJacobi.new
    have conv : ∀ {o : Outcome (Rule F)} {f : Rule F → JacobiRule F}, (MemOutcome.ofOutcome o >>= fun x => pure (f x)) = MemOutcome.done r → ∃ x, o = .done x ∧ f x = r := by
      intro o f h
      cases o with
      | done x => exact ⟨x, rfl, MemOutcome.done.inj h⟩
      | panic => cases h
      | abort => cases h
    split
    · intro h
      obtain ⟨x, h1, h2⟩ := conv h
      rw [((C85_returned M.alloc mode none hn hlt x).1.1 h1).2.2, ← h2]; rfl
    split
    · intro h
      obtain ⟨x, h1, h2⟩ := conv h
      rw [((C85_returned M.alloc mode none hn hlt x).2.1.1 h1).2.2, ← h2]; rfl
    split
    · intro h
      obtain ⟨x, h1, h2⟩ := conv h
      rw [((C85_returned M.alloc mode none hn hlt x).2.2.1 h1).2.2, ← h2]; rfl
    split
    · intro h
      split at h
      · rw [MemOutcome.done.inj h]
      · cases h
    · intro h
      obtain ⟨r', h1, h2⟩ := (C93_outcome M mode ext hn (by omega)).2.2 α β
      rw [h1]
      rw [h2, golubOutcome] at h
      split at h
      · split at h
        · cases hr : M.rest n <;> rw [hr] at h <;> simp at h
          rw [h]
        · cases h
      · split at h
        · cases h
        split at h
        · cases h
        split at h <;> cases h
  · intro h1 h2 h3 h4
    obtain ⟨r, a, b⟩ := (C93_outcome M mode ext hn (by omega)).2.2 α β
    refine ⟨r, ?_, ?_⟩
    · rw [GaussJacobi.new, h1, h2, h3, if_neg h4]; exact a
    · rw [GaussJacobi.newMachine, h1, h2, h3, if_neg h4]; exact b
  · intro hp
    have conv : ∀ {o : Outcome (Rule F)} {g : Rule F} (f : Rule F → JacobiRule F), o = constructorOutcome M.alloc mode n g →
        (MemOutcome.ofOutcome o >>= fun x => pure (f x)) = pairsOutcome M n (f g) := by
      intro o g f h
      rw [h, constructorOutcome, if_neg (by omega), pairsOutcome]
      split
      · rfl
      split <;> rfl
    obtain ⟨⟨r1, g1, -⟩, ⟨r2, g2, -⟩, ⟨r3, g3, -⟩⟩ := C45_all_other_degrees (F := F) mode n (by omega) (by omega)
    unfold GaussJacobi.newMachine GaussJacobi.new
    split
    · exact ⟨_, by rw [g1]; rfl, conv _ (C85_legendre M.alloc mode none hn (by omega) fun _ => g1)⟩
    split
    · exact ⟨_, by rw [g2]; rfl, conv _ ((C85_chebyshev M.alloc mode none hn (by omega)).1 r2 fun _ => g2)⟩
    split
    · exact ⟨_, by rw [g3]; rfl, conv _ ((C85_chebyshev M.alloc mode none hn (by omega)).2 r3 fun _ => g3)⟩
    rename_i h1 h2 h3
    have h4 : n = 1 := hp.resolve_left (by simp [passedOn]; simp at h1 h2 h3; exact ⟨⟨h1, h2⟩, h3⟩)
    subst h4
    rw [if_pos rfl, if_pos rfl]
    refine ⟨_, rfl, ?_⟩
    rw [pairsOutcome, if_neg (show ¬ 2 ^ 63 ≤ 16 * 1 by norm_num), Nat.mul_one]

/-- a machine with 16 GB and an eigen-solver that always finds memory: degree 1000 works in both build modes -/
example (mode : Overflow) (ext : Externals F) : ∃ r, GaussHermite.new ext 1000 = some r ∧
    GaussHermite.newMachine ⟨⟨fun b => b ≤ 16 * 2 ^ 30⟩, fun _ => .done ()⟩ mode ext 1000 = .done r := by
  obtain ⟨r, h1, h2⟩ := (C93_outcome ⟨⟨fun b => b ≤ 16 * 2 ^ 30⟩, fun _ => .done ()⟩ mode ext (n := 1000) (by norm_num) (by norm_num)).1
  refine ⟨r, h1, ?_⟩
  rw [h2, golubOutcome, if_pos (by norm_num), if_pos (by norm_num)]

/-- the same machine with degree 50000: the matrix needs 20 GB, the process is aborted -/
example (mode : Overflow) (ext : Externals F) (α : FiniteAboveNegOne F) :
    GaussLaguerre.newMachine ⟨⟨fun b => b ≤ 16 * 2 ^ 30⟩, fun _ => .done ()⟩ mode ext 50000 α = .abort := by
  obtain ⟨r, -, h2⟩ := (C93_outcome ⟨⟨fun b => b ≤ 16 * 2 ^ 30⟩, fun _ => .done ()⟩ mode ext (n := 50000) (by norm_num) (by norm_num)).2.1 α
  rw [h2, golubOutcome, if_pos (by norm_num), if_neg (by norm_num)]

/-- degree 2^32 + 1: 2^33 + 1 numbers (64 GB) are reserved, and if they are granted the loop leaves the block -/
example (ext : Externals F) : GaussHermite.newMachine ⟨⟨fun _ => true⟩, fun _ => .done ()⟩ .wrapping ext (2 ^ 32 + 1) = .outOfBounds := by
  obtain ⟨r, -, h2⟩ := (C93_outcome ⟨⟨fun _ => true⟩, fun _ => .done ()⟩ .wrapping ext (n := 2 ^ 32 + 1) (by norm_num) (by norm_num)).1
  rw [h2, golubOutcome, if_neg (by norm_num), if_neg (by simp), if_neg (by norm_num), if_pos (.inr rfl)]

/-- degree 2^32 with and without overflow checks -/
example (M : Memory) (hM : M.rest (2 ^ 32) ≠ .outOfBounds) (ext : Externals F) :
    GaussHermite.newMachine M .wrapping ext (2 ^ 32) = .outOfBounds ∧ GaussHermite.newMachine M .checked ext (2 ^ 32) ≠ .outOfBounds :=
  ⟨(C93_out_of_bounds M ext (m := 1) (by norm_num) (by norm_num)).1, (C93_checked_safe M ext (by norm_num) (by norm_num) hM).1⟩

/-- degree 1 with alpha = 1 and beta = 0 when no memory is left -/
example (mode : Overflow) (ext : Externals ℝ) : GaussJacobi.newMachine ⟨⟨fun _ => false⟩, fun _ => .done ()⟩ mode ext 1 ⟨1⟩ ⟨0⟩ = .abort := by
  obtain ⟨r, -, h⟩ := (C93_jacobi ⟨⟨fun _ => false⟩, fun _ => .done ()⟩ mode ext (n := 1) (by norm_num) (by norm_num) ⟨1⟩ ⟨0⟩).2.2 (.inr rfl)
  rw [h, pairsOutcome, if_neg (by norm_num), if_neg (by simp)]

/-- parameters that are not delegated: alpha = 1 and beta = 0 -/
example (M : Memory) (mode : Overflow) (ext : Externals ℝ) :
    ∃ r, GaussJacobi.new mode ext 7 ⟨1⟩ ⟨0⟩ = some r ∧ GaussJacobi.newMachine M mode ext 7 ⟨1⟩ ⟨0⟩ = golubOutcome M mode 7 r :=
  (C93_jacobi M mode ext (by norm_num) (by norm_num) _ _).2.1 (by norm_num [FiniteAboveNegOne.get]) (by norm_num [FiniteAboveNegOne.get]) (by norm_num [FiniteAboveNegOne.get]) (by norm_num)

/-- a rule of degree 100 is returned when 80000 bytes are granted -/
example (mode : Overflow) (ext : Externals F) (r : Rule F) (h : GaussHermite.new ext 100 = some r) :
    GaussHermite.newMachine ⟨⟨fun b => b ≤ 80000⟩, fun _ => .done ()⟩ mode ext 100 = .done r :=
  (C93_returned _ mode ext (by norm_num) (by norm_num) r).2 ⟨by norm_num, by norm_num, rfl, h⟩

/-- an entry of a 3 by 3 matrix, and an index that is too large -/
example (mode : Overflow) (B : Block F) (hB : B.len = 9) (v : F) : (∃ B', writeEntry mode 3 B 2 1 v = .done B' ∧ B'.matrix 3 2 1 = v ∧ B'.matrix 3 1 2 = B.matrix 3 1 2) ∧
    writeEntry mode 3 B 2 3 v = .panic := by
  obtain ⟨B', h1, -, h3⟩ := (C93_write mode 3 B 2 1 v).2.1 (by norm_num) (by rw [hB]) (by norm_num) (by norm_num)
  exact ⟨⟨B', h1, by simpa using h3 2 1, by simpa using h3 1 2⟩, (C93_write mode 3 B 2 3 v).1 (.inr (by norm_num))⟩

end GaussQuad.Props
