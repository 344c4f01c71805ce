import Verif.Model.LegendreData
import Verif.Proofs.LegendreRootsData

/-!
# Kernel check of the Gauss-Legendre tables

Boolean checks on natural numbers, written with the raw `Nat` operations and `Nat.rec` so that the kernel evaluates them quickly.
`Verif.Proofs.LegendreCheckSound` proves what they mean.  The roots in `LegendreRootsData` are only hints: a wrong hint makes the
check fail.
-/

namespace GaussQuad.LegendreCheck
open LegendreData LegendreRoots

/-- modulus of the two's complement representation used for degree `n` -/
def modulus (n : Nat) : Nat := Nat.pow 2 (Nat.mul 120 n)

/-- one step of the scaled Legendre recurrence at `p / 10^30`, modulo `M`, from the residues `a`, `b` of index `j - 1` and `j` -/
def step (M p j a b : Nat) : Nat :=
  Nat.mod (Nat.add (Nat.mul (Nat.mul (Nat.succ (Nat.mul 2 j)) p) b)
    (Nat.mul (Nat.mul (Nat.mul j j) 1000000000000000000000000000000000000000000000000000000000000) (Nat.sub M a))) M

/-- iterate a two-term recurrence `fuel` times, then call the continuation -/
def iterate2 (g : Nat → Nat → Nat → Nat) (fuel : Nat) : Nat → Nat → Nat → (Nat → Nat → Bool) → Bool :=
  Nat.rec (motive := fun _ => Nat → Nat → Nat → (Nat → Nat → Bool) → Bool) (fun _ a b k => k a b)
    (fun _ ih j a b => ih (Nat.succ j) b (g j a b)) fuel

/-- `fuel` steps of the recurrence -/
def loop (M p : Nat) : Nat → Nat → Nat → Nat → (Nat → Nat → Bool) → Bool := iterate2 (step M p)

/-- new denominator of the Horner scheme for the cosine series -/
def denom (i D : Nat) : Nat :=
  Nat.mul D (Nat.mul (Nat.mul (Nat.succ (Nat.mul 2 i)) (Nat.add (Nat.mul 2 i) 2)) 10000000000000000000000000000000000000000)

/-- Horner scheme with denominators `d`; the value is `(A - B) / D` -/
def horner (d : Nat → Nat → Nat) (t : Nat) (fuel : Nat) : Nat → Nat → Nat → (Nat → Nat → Nat → Bool) → Bool :=
  Nat.rec (motive := fun _ => Nat → Nat → Nat → (Nat → Nat → Nat → Bool) → Bool) (fun A B D k => k A B D)
    (fun i ih A B D => ih (Nat.add (d i D) (Nat.mul t B)) (Nat.mul t A) (d i D)) fuel

/-- the cosine series at `sqrt(t / 10^40)` -/
def cosLoop : Nat → Nat → Nat → Nat → Nat → (Nat → Nat → Nat → Bool) → Bool := horner denom

/-- is the residue `r` that of a non-negative number? -/
def nonneg (M r : Nat) : Bool := Nat.ble (Nat.mul 2 r) M

/-- absolute value of the number with residue `r` -/
def absv (M r : Nat) : Nat := cond (nonneg M r) r (Nat.sub M r)

/-- `|cos(T / 10^20) - p / 10^30| ≤ 1.98e-16` up to the truncation of the series -/
def cosOk (T p : Nat) : Bool :=
  cosLoop (Nat.mul T T) 14 0 0 1 fun A B D =>
    (Nat.ble (Nat.mul 1000000000000000000000000000000 A)
      (Nat.add (Nat.mul 1000000000000000000000000000000 B) (Nat.mul (Nat.add p 198000000000000) D))).and
    (Nat.ble (Nat.add (Nat.mul 1000000000000000000000000000000 B) (Nat.mul p D))
      (Nat.add (Nat.mul 1000000000000000000000000000000 A) (Nat.mul 198000000000000 D)))

/-- the weight test at `c = s / 10^30`: `F = n! 10^(30 n)`, `L = n 10^30 |N_{n-1}|`, `A = |N_n|` -/
def weightOk (n W s F L A : Nat) : Bool :=
  ((Nat.ble (Nat.mul A 10000000000000000000000000) F).and (Nat.ble (Nat.mul F F) (Nat.mul (Nat.mul n n) (Nat.mul L L)))).and
  ((Nat.ble (Nat.add (Nat.mul (Nat.mul W 1000000000000000000000000000000000000000000000000000000000000) (Nat.mul (Nat.mul n n) (Nat.mul L L)))
      (Nat.mul 200000000000000000000 (Nat.mul (Nat.mul s s) (Nat.mul F F))))
    (Nat.add (Nat.mul 200000000000000000000000000000000000000000000000000000000000000000000000000000000 (Nat.mul F F))
      (Nat.mul 4900000000000000000000000000000000000000000000000000000000000000 (Nat.mul (Nat.mul n n) (Nat.mul L L))))).and
   (Nat.ble (Nat.mul 200000000000000000000000000000000000000000000000000000000000000000000000000000000 (Nat.mul F F))
     (Nat.add (Nat.add (Nat.mul (Nat.mul W 1000000000000000000000000000000000000000000000000000000000000) (Nat.mul (Nat.mul n n) (Nat.mul L L)))
      (Nat.mul 200000000000000000000 (Nat.mul (Nat.mul s s) (Nat.mul F F))))
      (Nat.mul 4900000000000000000000000000000000000000000000000000000000000000 (Nat.mul (Nat.mul n n) (Nat.mul L L))))))

/-- one table entry: angle `T / 10^20`, weight `W / 10^20`, root `p / 10^30`; `M` is the modulus, `F = n! 10^(30 n)` -/
def entryOk (M F n T W p : Nat) : Bool :=
  loop M (Nat.pred p) n 0 0 1 fun _ x =>
  loop M (Nat.succ p) n 0 0 1 fun a b =>
    ((Bool.xor (nonneg M x) (nonneg M b)).and (cosOk T p)).and
    (weightOk n W (Nat.succ p) F (Nat.mul n (Nat.mul 1000000000000000000000000000000 (absv M a))) (absv M b))

def factorial (n : Nat) : Nat :=
  Nat.rec (motive := fun _ => Nat) 1 (fun k r => Nat.mul (Nat.succ k) r) n

def rowAll (M F n : Nat) : List Int → List Int → List Nat → Bool
  | [], [], [] => true
  | T :: Ts, W :: Ws, p :: ps =>
    ((entryOk M F n T.toNat W.toNat p).and (decide (2 < p ∧ p + 2 < 1000000000000000000000000000000 ∧ 0 ≤ T ∧ T < 160000000000000000000 ∧ 0 ≤ W))).and
      (rowAll M F n Ts Ws ps)
  | _, _, _ => false

def sorted (ps : List Nat) : Bool := decide (ps.Pairwise fun a b => a + 2 < b)

def tableRow (n : Nat) (T W : List (List Int)) (R : List (List Nat)) (i : Nat) : Bool :=
  match T[i]?, W[i]?, R[i]? with
  | some ts, some ws, some ps =>
    (rowAll (modulus n) (Nat.mul (factorial n) (Nat.pow 10 (Nat.mul 30 n))) n ts ws ps).and ((sorted ps).and (decide (ps.length = i + 1)))
  | _, _, _ => false

theorem even_ok : ∀ i < 50, tableRow (2 * i + 2) EVEN_THETA_ZEROS EVEN_WEIGHTS EVEN_ROOTS i = true := by decide +kernel
theorem odd_ok : ∀ i < 49, tableRow (2 * i + 3) ODD_THETA_ZEROS ODD_WEIGHTS ODD_ROOTS i = true := by decide +kernel

end GaussQuad.LegendreCheck
