import Verif.Proofs.Concurrency
import Verif.Props.RealAlgebra

/-!
C70: `par_integrate` with an integrand that shares state between threads and may panic, under every splitting of the
work and every interleaving of the calls.
-/

namespace GaussQuad.Props
open FloatOps GaussQuad.Spec Prog

section
variable {F σ : Type} [FloatOps F] {f : σ → F → Option F × σ} {s s' : Schedule} {R : AnyRule F} {a b : F}

/-- C70: `par_integrate` always comes to an end, provided every call of the integrand does: no execution is infinite,
and an execution that is not finished can go on (there is no deadlock). -/
theorem C70_terminates (f : σ → F → Option F × σ) (s s' : Schedule) (R : AnyRule F) (a b : F) :
    (∀ (st : ℕ → σ) (p : ℕ → Prog F) (e : ℕ → Option (F × Option F)), p 0 = R.parProgram s s' a b →
      ¬ ∀ i, Step f (st i) (p i) (e i) (st (i + 1)) (p (i + 1))) ∧
    (∀ st log st' q, Exec f st (R.parProgram s s' a b) log st' q → (∃ v, q = .ret v) ∨ q = .panic ∨ ∃ e st'' q', Step f st' q e st'' q') := by
  refine ⟨fun st p e _ => no_infinite st p e, fun st log st' q _ => ?_⟩
  rcases progress (f := f) q st' with h | h
  · match q, h with
    | .ret v, _ => exact .inl ⟨v, rfl⟩
    | .panic, _ => exact .inr (.inl rfl)
  · exact .inr (.inr h)

/-- C70: an execution that returns a value has called the integrand at each documented point exactly once, and no call
has panicked. -/
theorem C70_calls {st st' : σ} {log : List (F × Option F)} {v : F} (h : Exec f st (R.parProgram s s' a b) log st' (.ret v)) :
    (log.map Prod.fst).Perm (points a b R) ∧ ∀ c ∈ log, c.2 ≠ none := by
  obtain ⟨rest, h1, h2⟩ := (fixed_program s s' R a b).exec h
  cases h1
  rw [List.append_nil] at h2
  refine ⟨h2, fun c hc hn => ?_⟩
  exact (exec_panic h (clean_program s s' R a b)).1 ⟨c.1, hn ▸ hc⟩

/-- C70: an execution that ends in a panic contains a call that panicked, and has called the integrand at no point more
often than documented. -/
theorem C70_panic {st st' : σ} {log : List (F × Option F)} (h : Exec f st (R.parProgram s s' a b) log st' .panic) :
    (∃ x ∈ points a b R, (x, none) ∈ log) ∧ (log.map Prod.fst).Subperm (points a b R) := by
  obtain ⟨rest, h1, h2⟩ := (fixed_program s s' R a b).exec h
  have sub : (log.map Prod.fst).Subperm (points a b R) :=
    (List.sublist_append_left _ rest).subperm.trans h2.subperm
  refine ⟨?_, sub⟩
  by_contra hn
  have : Clean (.panic : Prog F) := (exec_panic h (clean_program s s' R a b)).2 fun x hx =>
    hn ⟨x, sub.subset (List.mem_map.2 ⟨_, hx, rfl⟩), hx⟩
  cases this

/-- C70: for an integrand whose answers depend on the argument only (whatever it does to the shared state), the outcome
does not depend on the interleaving: the value of `parIntegrate` if it answers at all points, a panic if it panics at one. -/
theorem C70_deterministic {h : F → Option F} (hf : ∀ st x, (f st x).1 = h x) {st st' : σ} {log : List (F × Option F)} {q : Prog F}
    (he : Exec f st (R.parProgram s s' a b) log st' q) (hq : finished q) :
    (∀ h' : F → F, (∀ x ∈ points a b R, h x = some (h' x)) → q = .ret (R.parIntegrate s s' a b h')) ∧
    ((∃ x ∈ points a b R, h x = none) → q = .panic) := by
  have hd := denote_exec hf he
  have hfin : ∀ v, denote h q = some v → q = .ret v := by
    intro v hv
    match q, hq with
    | .ret w, _ => simp only [denote, Option.some.injEq] at hv; rw [hv]
    | .panic, _ => simp [denote] at hv
  refine ⟨fun h' hh => hfin _ ?_, fun hn => ?_⟩
  · rw [hd, denote_congr (fixed_program s s' R a b) hh, denote_program]
  · rw [← denote_none (fixed_program s s' R a b) (clean_program s s' R a b), ← hd] at hn
    match q, hq with
    | .ret w, _ => simp [denote] at hn
    | .panic, _ => rfl

/-- C70: `par_integrate` panics exactly when `integrate` does. -/
theorem C70_panics_like_sequential {h : F → Option F} (hf : ∀ st x, (f st x).1 = h x) {st st' : σ} {log : List (F × Option F)}
    {q : Prog F} (he : Exec f st (R.parProgram s s' a b) log st' q) (hq : finished q) :
    q = .panic ↔ R.integrate a b h = none := by
  have hseq : R.integrate a b h = none ↔ ∃ x ∈ points a b R, h x = none := by
    rw [protocol]
    generalize points a b R = xs
    change Option.map _ _ = none ↔ _
    rw [Option.map_eq_none_iff]
    induction xs with
    | nil => simp
    | cons x xs ih =>
      rw [List.mapM_cons]
      rcases hx : h x with _ | y
      · simp [hx]
      · rcases hm : xs.mapM h with _ | ys
        · simp [hx]; rw [← ih, hm]
        · simp [hx]
          intro z hz hn
          have := ih.2 ⟨z, hz, hn⟩
          rw [hm] at this; simp at this
  rw [hseq, ← denote_none (fixed_program s s' R a b) (clean_program s s' R a b), ← denote_exec hf he]
  match q, hq with
  | .ret w, _ => simp [denote]
  | .panic, _ => simp [denote]

/-- C70: if the effects of the calls on the shared state commute (a counter, a set of visited points, …), the final state
is that of calling the integrand at the points one after the other. -/
theorem C70_state {upd : σ → F → σ} (hf : ∀ st x, (f st x).2 = upd st x) (hc : ∀ st x y, upd (upd st x) y = upd (upd st y) x)
    {st st' : σ} {log : List (F × Option F)} {v : F} (h : Exec f st (R.parProgram s s' a b) log st' (.ret v)) :
    st' = (points a b R).foldl upd st := by
  rw [exec_state hf h]
  haveI : RightCommutative upd := ⟨hc⟩
  exact (C70_calls h).1.foldl_eq _

/-- C70: a counter incremented by every call ends at the number of points. -/
theorem C70_counter {h : F → Option F} {n n' : ℕ} {log : List (F × Option F)} {v : F}
    (he : Exec (fun n x => (h x, n + 1)) n (R.parProgram s s' a b) log n' (.ret v)) : n' = n + (points a b R).length := by
  rw [C70_state (upd := fun n _ => n + 1) (fun _ _ => rfl) (fun _ _ _ => rfl) he]
  generalize points a b R = xs
  clear he
  induction xs generalizing n with
  | nil => rfl
  | cons x xs ih => rw [List.foldl_cons, ih, List.length_cons]; omega

end

/-- C70, in exact arithmetic: every execution that returns, returns the value of `integrate`. -/
theorem C70_exact {σ : Type} {f : σ → ℝ → Option ℝ × σ} {s s' : Schedule} {R : AnyRule ℝ} {a b : ℝ} {h : ℝ → ℝ}
    (hf : ∀ st x, (f st x).1 = some (h x)) {st st' : σ} {log : List (ℝ × Option ℝ)} {q : Prog ℝ}
    (he : Exec f st (R.parProgram s s' a b) log st' q) (hq : finished q) : q = .ret (R.value a b h) := by
  rw [← C25_exact s s']
  exact (C70_deterministic (h := fun x => some (h x)) hf he hq).1 h fun _ _ => rfl

/-- the two halves of a two-point rule may run in either order; the log shows which came first -/
example {F : Type} [FloatOps F] (x₁ w₁ x₂ w₂ a b : F) (h : F → F) :
    ∃ v, Exec (fun n x => (some (h x), n + 1)) 0 ((AnyRule.hermite ⟨[(x₁, w₁), (x₂, w₂)]⟩).parProgram (.split 1 .leaf .leaf) .leaf a b)
      [(x₂, some (h x₂)), (x₁, some (h x₁))] 2 (.ret v) :=
  ⟨_, .step (.right (.call rfl)) (.step (.left (.call rfl)) (.step .join .refl))⟩

/-- a panic in the left half does not stop the right half, and the whole panics -/
example {F : Type} [FloatOps F] (x₁ w₁ x₂ w₂ a b y : F) (bad : F → Bool) (h1 : bad x₁ = true) (h2 : bad x₂ = false) :
    Exec (fun n x => (if bad x then none else some y, n + 1)) 0
      ((AnyRule.hermite ⟨[(x₁, w₁), (x₂, w₂)]⟩).parProgram (.split 1 .leaf .leaf) .leaf a b) [(x₁, none), (x₂, some y)] 2 .panic := by
  refine .step (s₂ := 1) (e := some (x₁, none)) (.left (.unwind ?_)) (.step (e := some (x₂, some y)) (.right (.call ?_)) (.step (.panicLeft ?_) .refl))
  · simp [h1]
  · simp [h2]
  · trivial

/-- the two calls of the first example: what was called, the state left behind, the value -/
example {F : Type} [FloatOps F] (x₁ w₁ x₂ w₂ a b : F) (h : F → F) {log : List (F × Option F)} {n : ℕ} {v : F}
    (he : Exec (fun n x => (some (h x), n + 1)) 0 ((AnyRule.hermite ⟨[(x₁, w₁), (x₂, w₂)]⟩).parProgram (.split 1 .leaf .leaf) .leaf a b) log n (.ret v)) :
    (log.map Prod.fst).Perm [x₁, x₂] ∧ n = 2 ∧ Prog.ret v = .ret ((AnyRule.hermite ⟨[(x₁, w₁), (x₂, w₂)]⟩).parIntegrate (.split 1 .leaf .leaf) .leaf a b h) := by
  refine ⟨(C70_calls he).1, ?_, (C70_deterministic (h := fun x => some (h x)) (fun _ _ => rfl) he trivial).1 h fun _ _ => rfl⟩
  have h1 := C70_counter (h := fun x => some (h x)) he
  have h2 := C70_state (upd := fun n _ => n + 1) (fun _ _ => rfl) (fun _ _ _ => rfl) he
  rw [h1]; rfl

/-- a panic at one of the two points: it is in the log, and `integrate` panics as well -/
example {F : Type} [FloatOps F] (x₁ w₁ x₂ w₂ a b y : F) (bad : F → Bool) {log : List (F × Option F)} {n : ℕ}
    (he : Exec (fun n x => (if bad x then none else some y, n + 1)) 0
      ((AnyRule.hermite ⟨[(x₁, w₁), (x₂, w₂)]⟩).parProgram (.split 1 .leaf .leaf) .leaf a b) log n .panic) :
    (∃ x ∈ [x₁, x₂], (x, none) ∈ log) ∧ (AnyRule.hermite ⟨[(x₁, w₁), (x₂, w₂)]⟩).integrate a b (fun x => if bad x then none else some y) = none :=
  ⟨(C70_panic he).1, (C70_panics_like_sequential (h := fun x => if bad x then none else some y) (fun _ _ => rfl) he trivial).1 rfl⟩

/-- over the reals the value is that of `integrate` -/
example (x₁ w₁ x₂ w₂ : ℝ) {log : List (ℝ × Option ℝ)} {n : ℕ} {q : Prog ℝ}
    (he : Exec (fun (n : ℕ) x => (some (x ^ 2), n + 1)) 0 ((AnyRule.hermite ⟨[(x₁, w₁), (x₂, w₂)]⟩).parProgram (.split 1 .leaf .leaf) .leaf 0 0) log n q)
    (hq : finished q) : q = .ret ((AnyRule.hermite ⟨[(x₁, w₁), (x₂, w₂)]⟩).value 0 0 fun x => x ^ 2) :=
  C70_exact (fun _ _ => rfl) he hq

/-- programs of which every outstanding call is made in any case: no call waits for the answer of another one -/
inductive Sure {F : Type} : Prog F → List F → Prop
  | ret (v) : Sure (.ret v) []
  | panic : Sure .panic []
  | call {x k} : (∀ y, Sure (k y) []) → Sure (.call x k) [x]
  | fork {l r k xs ys} : Sure l xs → Sure r ys → (∀ a b, Sure (k a b) []) → Sure (.fork l r k) (xs ++ ys)

theorem Sure.of_finished {F : Type} {p : Prog F} {xs} (h : Sure p xs) (hp : finished p) : xs = [] := by
  cases h with
  | ret => rfl
  | panic => rfl
  | call => cases hp
  | fork => cases hp

theorem Sure.step {F σ : Type} {f : σ → F → Option F × σ} {s s' : σ} {p q : Prog F} {e} (h : Step f s p e s' q) :
    ∀ {xs}, Sure p xs → ∃ rest, Sure q rest ∧ (e.toList.map Prod.fst ++ rest).Perm xs := by
  induction h with
  | call _ => rintro _ (_ | _ | hk | _); exact ⟨[], hk _, .refl _⟩
  | unwind _ => rintro _ (_ | _ | hk | _); exact ⟨[], .panic, .refl _⟩
  | left _ ih =>
    rintro _ (_ | _ | _ | ⟨hl, hr, hk⟩)
    obtain ⟨rest, h1, h2⟩ := ih hl
    exact ⟨_, .fork h1 hr hk, by rw [← List.append_assoc]; exact h2.append_right _⟩
  | right _ ih =>
    rintro _ (_ | _ | _ | @⟨_, _, _, xs, ys, hl, hr, hk⟩)
    obtain ⟨rest, h1, h2⟩ := ih hr
    refine ⟨_, .fork hl h1 hk, ?_⟩
    refine List.Perm.trans ?_ (h2.append_left xs)
    rw [← List.append_assoc, ← List.append_assoc]
    exact List.perm_append_comm.append_right _
  | join =>
    rintro _ (_ | _ | _ | ⟨hl, hr, hk⟩)
    cases hl; cases hr
    exact ⟨[], hk _ _, .refl _⟩
  | panicLeft hf =>
    rintro _ (_ | _ | _ | ⟨hl, hr, hk⟩)
    cases hl
    rw [hr.of_finished hf]
    exact ⟨[], .panic, .refl _⟩
  | panicRight hf =>
    rintro _ (_ | _ | _ | ⟨hl, hr, hk⟩)
    cases hr
    rw [hl.of_finished hf]
    exact ⟨[], .panic, .refl _⟩

theorem Sure.exec {F σ : Type} {f : σ → F → Option F × σ} {s s' : σ} {p q : Prog F} {log} (h : Exec f s p log s' q) :
    ∀ {xs}, Sure p xs → ∃ rest, Sure q rest ∧ (log.map Prod.fst ++ rest).Perm xs := by
  induction h with
  | refl => exact fun hp => ⟨_, hp, .refl _⟩
  | step hs _ ih =>
    intro xs hp
    obtain ⟨r1, h1, h2⟩ := hp.step hs
    obtain ⟨r2, h3, h4⟩ := ih h1
    refine ⟨r2, h3, ?_⟩
    rw [List.map_append, List.append_assoc]
    exact (h4.append_left _).trans h2

theorem Sure.bind {F : Type} {p : Prog F} {g : F → Prog F} {xs} (hp : Sure p xs) (hg : ∀ v, Sure (g v) []) : Sure (p.bind g) xs := by
  induction hp with
  | ret v => exact hg v
  | panic => exact .panic
  | call _ ih => exact .call fun y => ih y
  | fork hl hr _ _ _ ih => exact .fork hl hr fun a b => ih a b

/-- the splitting of `n` items in which every task gets at most one -/
def OneEach : Schedule → Nat → Prop
  | .leaf, n => n ≤ 1
  | .split mid l r, n => OneEach l (min mid n) ∧ OneEach r (n - mid)

theorem sure_sum {F α : Type} [FloatOps F] {g : α → Prog F} {pt : α → F} (hg : ∀ x, Sure (g x) [pt x]) (s : Schedule) :
    ∀ xs : List α, OneEach s xs.length → Sure (parSumProg s xs g) (xs.map pt) := by
  induction s with
  | leaf =>
    intro xs hx
    match xs, hx with
    | [], _ => exact .ret _
    | [x], _ => exact (hg x).bind fun v => .ret _
    | _ :: _ :: _, hx => exact absurd hx (by simp [OneEach])
  | split mid l r ihl ihr =>
    intro xs hx
    have := Sure.fork (ihl (xs.take mid) (by rw [List.length_take]; exact hx.1)) (ihr (xs.drop mid) (by rw [List.length_drop]; exact hx.2))
      fun a b => .ret (sumReduce a b)
    rwa [← List.map_append, List.take_append_drop] at this

/-- C70: when every item is a task of its own, all points of the midpoint and of the Gauss rules are called, each once, also if some of the calls panic: a panic stops no
other task.  (Trapezoid and Simpson call the ends of the interval one after the other.) -/
theorem C70_all_called {F σ : Type} [FloatOps F] {f : σ → F → Option F × σ} {s s' : Schedule} {R : AnyRule F} {a b : F} (h1 : ∀ r, R ≠ .trapezoid r)
    (h2 : ∀ r, R ≠ .simpson r) (hs : OneEach s (points a b R).length) {st st' : σ} {log : List (F × Option F)} {q : Prog F}
    (h : Exec f st (R.parProgram s s' a b) log st' q) (hq : finished q) : (log.map Prod.fst).Perm (points a b R) := by
  have hp : ∀ (t : F → F) (p : F × F), Sure (pairProg t p) [t p.1] := fun t p => .call fun _ => .ret _
  have key : Sure (R.parProgram s s' a b) (points a b R) := by
    cases R with
    | midpoint r => exact (sure_sum (fun _ => .call fun _ => .ret _) s _ (by simpa [points] using hs)).bind fun _ => .ret _
    | trapezoid r => exact absurd rfl (h1 r)
    | simpson r => exact absurd rfl (h2 r)
    | hermite r => exact sure_sum (hp _) s _ (by simpa [points] using hs)
    | laguerre r => exact sure_sum (hp _) s _ (by simpa [points] using hs)
    | _ r => exact (sure_sum (hp _) s _ (by simpa [points] using hs)).bind fun _ => .ret _
  obtain ⟨rest, h3, h4⟩ := key.exec h
  rwa [h3.of_finished hq, List.append_nil] at h4

/-- two nodes in two tasks: both are called, whatever panics -/
example {F σ : Type} [FloatOps F] {f : σ → F → Option F × σ} (x₁ w₁ x₂ w₂ a b : F) {st st' : σ} {log : List (F × Option F)}
    (h : Exec f st ((AnyRule.hermite ⟨[(x₁, w₁), (x₂, w₂)]⟩).parProgram (.split 1 .leaf .leaf) .leaf a b) log st' .panic) :
    (log.map Prod.fst).Perm [x₁, x₂] :=
  C70_all_called (R := .hermite ⟨[(x₁, w₁), (x₂, w₂)]⟩) (fun _ => nofun) (fun _ => nofun) (by simp [OneEach, points]) h trivial

end GaussQuad.Props
