import Verif.Model.AnyRule

/-!
The `par_integrate` methods as concurrent programs.  `AnyRule.parIntegrate` gives the value for an integrand
without effects.  Here the integrand is any `Fn + Sync` closure: it may read and write state shared between the
threads (atomics, a mutex) and it may panic.  The calls of different rayon tasks interleave in any order.

Simplifications: one call of the integrand is atomic; the payload of a panic is not represented.
-/

namespace GaussQuad
open FloatOps

/-- What a rayon task still has to do. (/repo/src/legendre/mod.rs l.162-166, /repo/src/midpoint/mod.rs l.98-101, /repo/src/simpson/mod.rs l.109-122) -/
inductive Prog (F : Type) where
  /-- finished with a value -/
  | ret (v : F)
  /-- stopped by a panic -/
  | panic
  /-- call the integrand at `x`, continue with its answer -/
  | call (x : F) (k : F → Prog F)
  /-- `rayon::join` of two tasks, continue with both results -/
  | fork (l r : Prog F) (k : F → F → Prog F)

namespace Prog
variable {F : Type}

/-- run `p`, then `g` on its result (/repo/src/legendre/mod.rs l.162-166, /repo/src/midpoint/mod.rs l.98-101, /repo/src/simpson/mod.rs l.109-122) -/
def bind : Prog F → (F → Prog F) → Prog F
  | ret v, g => g v
  | panic, _ => panic
  | call x k, g => call x fun y => (k y).bind g
  | fork l r k, g => fork l r fun a b => (k a b).bind g

/-- neither a call nor a join is left (/repo/src/legendre/mod.rs l.162-166, /repo/src/midpoint/mod.rs l.98-101, /repo/src/simpson/mod.rs l.109-122) -/
def finished : Prog F → Prop
  | ret _ => True
  | panic => True
  | _ => False

/-- One step of the running tasks on the shared state.  The label is the call made, if any: its argument and its
answer, where `none` is a panic.  `rayon::join` always executes both closures and panics afterwards if one of them
did ("No matter what happens, both closures will always be executed", documentation of `rayon::join`).
(/repo/src/legendre/mod.rs l.162-166, /repo/src/midpoint/mod.rs l.98-101, /repo/src/simpson/mod.rs l.109-122) -/
inductive Step {σ : Type} (f : σ → F → Option F × σ) : σ → Prog F → Option (F × Option F) → σ → Prog F → Prop
  | call {s s' x y k} : f s x = (some y, s') → Step f s (call x k) (some (x, some y)) s' (k y)
  | unwind {s s' x k} : f s x = (none, s') → Step f s (call x k) (some (x, none)) s' panic
  | left {s s' e l l' r k} : Step f s l e s' l' → Step f s (fork l r k) e s' (fork l' r k)
  | right {s s' e l r r' k} : Step f s r e s' r' → Step f s (fork l r k) e s' (fork l r' k)
  | join {s a b k} : Step f s (fork (ret a) (ret b) k) none s (k a b)
  | panicLeft {s r k} : finished r → Step f s (fork panic r k) none s panic
  | panicRight {s l k} : finished l → Step f s (fork l panic k) none s panic

/-- Executions: any number of steps, with the log of the calls in the order in which they happened.
(/repo/src/legendre/mod.rs l.162-166, /repo/src/midpoint/mod.rs l.98-101, /repo/src/simpson/mod.rs l.109-122) -/
inductive Exec {σ : Type} (f : σ → F → Option F × σ) : σ → Prog F → List (F × Option F) → σ → Prog F → Prop
  | refl {s p} : Exec f s p [] s p
  | step {s₁ p₁ s₂ p₂ s₃ p₃ e log} : Step f s₁ p₁ e s₂ p₂ → Exec f s₂ p₂ log s₃ p₃ →
      Exec f s₁ p₁ (e.toList ++ log) s₃ p₃

end Prog

section
variable {F : Type} [FloatOps F] {α : Type}

/-- a leaf of the splitting: `iter.map(g).sum()` added to the empty sum (rayon `SumFolder::consume_iter`)
(/repo/src/legendre/mod.rs l.162-166, /repo/src/midpoint/mod.rs l.98-101, /repo/src/simpson/mod.rs l.109-122) -/
def leafProg (xs : List α) (acc : F) (g : α → Prog F) : Prog F :=
  match xs with
  | [] => .ret (sumReduce (sumList []) acc)
  | x :: xs => (g x).bind fun y => leafProg xs (acc +ᶠ y) g

/-- `par_iter.map(g).sum::<f64>()`, see `parSumMap`
(/repo/src/legendre/mod.rs l.162-166, /repo/src/midpoint/mod.rs l.98-101, /repo/src/simpson/mod.rs l.109-122) -/
def parSumProg (s : Schedule) (xs : List α) (g : α → Prog F) : Prog F :=
  match s with
  | .leaf => leafProg xs sumInit g
  | .split mid l r => .fork (parSumProg l (xs.take mid) g) (parSumProg r (xs.drop mid) g) fun a b => .ret (sumReduce a b)

/-- the closure `|(x, w)| integrand(t(x)) * w` (/repo/src/legendre/mod.rs l.165 and the like) -/
def pairProg (t : F → F) (p : F × F) : Prog F := .call (t p.1) fun y => .ret (y *ᶠ p.2)

/-- `par_integrate` of the nine structs as a concurrent program:
/repo/src/midpoint/mod.rs l.92-104, /repo/src/trapezoid/mod.rs l.89-101, /repo/src/simpson/mod.rs l.101-130,
/repo/src/legendre/mod.rs l.158-168, /repo/src/chebyshev/mod.rs l.109-119 and l.221-231,
/repo/src/jacobi/mod.rs l.171-181, /repo/src/hermite/mod.rs l.93-103, /repo/src/laguerre/mod.rs l.109-119. -/
def AnyRule.parProgram (s s' : Schedule) (R : AnyRule F) (a b : F) : Prog F :=
  match R with
  | .midpoint r =>
      let rectWidth := (b -ᶠ a) /ᶠ ofNat r.degree
      (parSumProg s (List.range r.degree) fun node =>
        .call (a +ᶠ rectWidth *ᶠ (lit 0.5 +ᶠ ofNat node)) .ret).bind fun sum => .ret (sum *ᶠ rectWidth)
  | .trapezoid r =>
      let deltaX := (b -ᶠ a) /ᶠ ofNat r.degree
      .call a fun fa => .call b fun fb =>
        let edgePoints := (fa +ᶠ fb) /ᶠ lit 2.0
        (parSumProg s (List.range' 1 (r.degree - 1)) fun x => .call (a +ᶠ ofNat x *ᶠ deltaX) .ret).bind fun sum =>
          .ret ((edgePoints +ᶠ sum) *ᶠ deltaX)
  | .simpson r =>
      let n : F := ofNat r.degree
      let h := (b -ᶠ a) /ᶠ n
      .fork (parSumProg s (List.range' 1 (r.degree - 1)) fun node => .call (a +ᶠ ofNat node *ᶠ h) .ret)
        (parSumProg s' (List.range' 1 (r.degree - 1)) fun node =>
          .call (a +ᶠ (lit 2.0 *ᶠ ofNat node -ᶠ lit 1.0) *ᶠ h /ᶠ lit 2.0) .ret)
        fun edges mids => .call (a +ᶠ (lit 2.0 *ᶠ n -ᶠ lit 1.0) *ᶠ h /ᶠ lit 2.0) fun fLast => .call a fun fa => .call b fun fb =>
          .ret (h /ᶠ lit 6.0 *ᶠ (lit 2.0 *ᶠ edges +ᶠ lit 4.0 *ᶠ mids +ᶠ lit 4.0 *ᶠ fLast +ᶠ fa +ᶠ fb))
  | .legendre r => (parSumProg s r.nodeWeightPairs (pairProg (GaussLegendre.argumentTransformation · a b))).bind fun result =>
      .ret (GaussLegendre.scaleFactor a b *ᶠ result)
  | .chebyshevFirst r => (parSumProg s r.nodeWeightPairs (pairProg (GaussChebyshevFirstKind.argumentTransformation · a b))).bind
      fun result => .ret (result *ᶠ GaussChebyshevFirstKind.scaleFactor a b)
  | .chebyshevSecond r => (parSumProg s r.nodeWeightPairs (pairProg (GaussChebyshevSecondKind.argumentTransformation · a b))).bind
      fun result => .ret (result *ᶠ GaussChebyshevSecondKind.scaleFactor a b)
  | .jacobi r => (parSumProg s r.nodeWeightPairs (pairProg (GaussJacobi.argumentTransformation · a b))).bind fun result =>
      .ret (GaussJacobi.scaleFactor a b *ᶠ result)
  | .hermite r => parSumProg s r.nodeWeightPairs (pairProg id)
  | .laguerre r => parSumProg s r.nodeWeightPairs (pairProg id)

end

end GaussQuad
