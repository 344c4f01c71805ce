import Verif.Model.Parallel
import Verif.Spec.Protocol
import Verif.Proofs.Protocol

/-! Executions of concurrent programs: termination, the calls made, panics, and the value. -/

namespace GaussQuad.Prog
open FloatOps GaussQuad.Spec

section
variable {F σ : Type} {f : σ → F → Option F × σ}

/-! ### termination and progress -/

/-- `q` follows `p` in one step, from some state -/
def Next (f : σ → F → Option F × σ) (q p : Prog F) : Prop := ∃ s e s', Step f s p e s' q

theorem acc_ret (v : F) : Acc (Next f) (ret v) := ⟨_, fun _ ⟨_, _, _, h⟩ => by cases h⟩
theorem acc_panic : Acc (Next f) (panic : Prog F) := ⟨_, fun _ ⟨_, _, _, h⟩ => by cases h⟩

theorem acc_fork {k : F → F → Prog F} (hk : ∀ a b, Acc (Next f) (k a b)) {l r : Prog F} (hl : Acc (Next f) l) (hr : Acc (Next f) r) :
    Acc (Next f) (fork l r k) := by
  induction hl generalizing r with
  | intro l hl ihl =>
    induction hr with
    | intro r hr ihr =>
      refine ⟨_, fun q ⟨s, e, s', h⟩ => ?_⟩
      cases h with
      | left h => exact ihl _ ⟨_, _, _, h⟩ ⟨r, hr⟩
      | right h => exact ihr _ ⟨_, _, _, h⟩
      | join => exact hk _ _
      | panicLeft => exact acc_panic
      | panicRight => exact acc_panic

theorem acc (p : Prog F) : Acc (Next f) p := by
  induction p with
  | ret v => exact acc_ret v
  | panic => exact acc_panic
  | call x k ih =>
    refine ⟨_, fun q ⟨s, e, s', h⟩ => ?_⟩
    cases h with
    | call _ => exact ih _
    | unwind _ => exact acc_panic
  | fork l r k ihl ihr ihk => exact acc_fork ihk ihl ihr

theorem no_infinite (st : ℕ → σ) (p : ℕ → Prog F) (e : ℕ → Option (F × Option F)) :
    ¬ ∀ i, Step f (st i) (p i) (e i) (st (i + 1)) (p (i + 1)) := by
  intro h
  have key : ∀ q, Acc (Next f) q → ∀ i, p i ≠ q := by
    intro q hq
    induction hq with
    | intro q _ ih =>
      rintro i rfl
      exact ih _ ⟨_, _, _, h i⟩ (i + 1) rfl
  exact key _ (acc (p 0)) 0 rfl

theorem progress (p : Prog F) (s : σ) : finished p ∨ ∃ e s' q, Step f s p e s' q := by
  induction p with
  | ret v => exact .inl trivial
  | panic => exact .inl trivial
  | call x k _ =>
    right
    rcases h : f s x with ⟨_ | y, s'⟩
    · exact ⟨_, _, _, .unwind h⟩
    · exact ⟨_, _, _, .call h⟩
  | fork l r k ihl ihr _ =>
    right
    rcases ihl with hl | ⟨e, s', q, h⟩
    · rcases ihr with hr | ⟨e, s', q, h⟩
      · match l, r, hl, hr with
        | ret a, ret b, _, _ => exact ⟨_, _, _, .join⟩
        | panic, _, _, hr => exact ⟨_, _, _, .panicLeft hr⟩
        | ret a, panic, hl, _ => exact ⟨_, _, _, .panicRight hl⟩
      · exact ⟨_, _, _, .right h⟩
    · exact ⟨_, _, _, .left h⟩

/-! ### the calls -/

/-- whatever the answers are, `p` calls the integrand at `xs` unless it panics -/
inductive Fixed : Prog F → List F → Prop
  | ret (v) : Fixed (ret v) []
  | panic (xs) : Fixed panic xs
  | call {x k xs} : (∀ y, Fixed (k y) xs) → Fixed (call x k) (x :: xs)
  | fork {l r k xs ys zs} : Fixed l xs → Fixed r ys → (∀ a b, Fixed (k a b) zs) → Fixed (fork l r k) (xs ++ ys ++ zs)

theorem Fixed.step {s s' : σ} {p q : Prog F} {e} (h : Step f s p e s' q) :
    ∀ {xs}, Fixed p xs → ∃ rest, Fixed q rest ∧ (e.toList.map Prod.fst ++ rest).Perm xs := by
  induction h with
  | call _ => intro xs h; cases h with | call h => exact ⟨_, h _, .refl _⟩
  | unwind _ => intro xs h; cases h with | call h => exact ⟨_, .panic _, .refl _⟩
  | left _ ih =>
    intro xs h
    cases h with
    | fork hl hr hk =>
      obtain ⟨rest, h1, h2⟩ := ih hl
      refine ⟨_, .fork h1 hr hk, ?_⟩
      rw [← List.append_assoc, ← List.append_assoc]
      exact (h2.append_right _).append_right _
  | right _ ih =>
    intro xs h
    cases h with
    | fork hl hr hk =>
      obtain ⟨rest, h1, h2⟩ := ih hr
      refine ⟨_, .fork hl h1 hk, ?_⟩
      rw [← List.append_assoc, ← List.append_assoc]
      refine List.Perm.append_right _ ?_
      rw [List.append_assoc]
      exact (List.perm_append_comm_assoc _ _ _).trans (List.Perm.append_left _ h2)
  | join =>
    intro xs h
    cases h with
    | fork hl hr hk =>
      cases hl; cases hr
      exact ⟨_, hk _ _, .refl _⟩
  | panicLeft _ => intro xs h; exact ⟨xs, .panic _, .refl _⟩
  | panicRight _ => intro xs h; exact ⟨xs, .panic _, .refl _⟩

theorem Fixed.exec {s s' : σ} {p q : Prog F} {log} (h : Exec f s p log s' q) :
    ∀ {xs}, Fixed p xs → ∃ rest, Fixed q rest ∧ (log.map Prod.fst ++ rest).Perm xs := by
  induction h with
  | refl => intro xs h; exact ⟨xs, h, .refl _⟩
  | step h1 _ ih =>
    intro xs h
    obtain ⟨rest, a, b⟩ := h.step h1
    obtain ⟨rest', c, d⟩ := ih a
    refine ⟨rest', c, ?_⟩
    rw [List.map_append, List.append_assoc]
    exact (List.Perm.append_left _ d).trans b

/-! ### panics -/

/-- no panic has happened -/
inductive Clean : Prog F → Prop
  | ret (v) : Clean (ret v)
  | call {x k} : (∀ y, Clean (k y)) → Clean (call x k)
  | fork {l r k} : Clean l → Clean r → (∀ a b, Clean (k a b)) → Clean (fork l r k)

/-- some task has panicked -/
def Unwinding : Prog F → Prop
  | panic => True
  | fork l r _ => Unwinding l ∨ Unwinding r
  | _ => False

theorem Clean.not_unwinding {p : Prog F} (h : Clean p) : ¬ Unwinding p := by
  induction h with
  | ret v => exact id
  | call _ _ => exact id
  | fork _ _ _ hl hr _ => exact fun h => h.elim hl hr

theorem unwinding_step {s s' : σ} {p q : Prog F} {e} (h : Step f s p e s' q) : Unwinding p → Unwinding q := by
  induction h with
  | call _ => exact fun h => h.elim
  | unwind _ => exact fun _ => trivial
  | left _ ih => exact fun h => h.imp ih id
  | right _ ih => exact fun h => h.imp id ih
  | join => exact fun h => (h.elim id id).elim
  | panicLeft _ => exact fun _ => trivial
  | panicRight _ => exact fun _ => trivial

theorem panicking_step {s s' : σ} {p q : Prog F} {e} (h : Step f s p e s' q) : ∀ x, e = some (x, none) → Unwinding q := by
  induction h with
  | call _ => intro x h; simp at h
  | unwind _ => exact fun _ _ => trivial
  | left _ ih => exact fun x h => .inl (ih x h)
  | right _ ih => exact fun x h => .inr (ih x h)
  | join => intro x h; simp at h
  | panicLeft _ => exact fun _ _ => trivial
  | panicRight _ => exact fun _ _ => trivial

theorem clean_step {s s' : σ} {p q : Prog F} {e} (h : Step f s p e s' q) : Clean p → (∀ x, e ≠ some (x, none)) → Clean q := by
  induction h with
  | call _ => intro h _; cases h with | call h => exact h _
  | unwind _ => exact fun _ h => (h _ rfl).elim
  | left _ ih => intro h he; cases h with | fork hl hr hk => exact .fork (ih hl he) hr hk
  | right _ ih => intro h he; cases h with | fork hl hr hk => exact .fork hl (ih hr he) hk
  | join => intro h _; cases h with | fork hl hr hk => exact hk _ _
  | panicLeft _ => intro h _; cases h with | fork hl _ _ => cases hl
  | panicRight _ => intro h _; cases h with | fork _ hr _ => cases hr

theorem exec_unwinding {s s' : σ} {p q : Prog F} {log} (h : Exec f s p log s' q) : Unwinding p → Unwinding q := by
  induction h with
  | refl => exact id
  | step h1 _ ih => exact fun h => ih (unwinding_step h1 h)

/-- a task has panicked exactly when one of the calls has -/
theorem exec_panic {s s' : σ} {p q : Prog F} {log} (h : Exec f s p log s' q) : Clean p →
    ((∃ x, (x, none) ∈ log) → Unwinding q) ∧ ((∀ x, (x, none) ∉ log) → Clean q) := by
  induction h with
  | refl => exact fun h => ⟨fun ⟨x, hx⟩ => by simp at hx, fun _ => h⟩
  | @step s₁ p₁ s₂ p₂ s₃ p₃ e log h1 h2 ih =>
    intro h
    by_cases he : ∃ x, e = some (x, none)
    · obtain ⟨x, rfl⟩ := he
      exact ⟨fun _ => exec_unwinding h2 (panicking_step h1 x rfl), fun hn => (hn x (by simp)).elim⟩
    · have he' : ∀ x, e ≠ some (x, none) := fun x hx => he ⟨x, hx⟩
      obtain ⟨a, b⟩ := ih (clean_step h1 h he')
      refine ⟨fun ⟨x, hx⟩ => a ⟨x, ?_⟩, fun hn => b fun x hx => hn x (by simp [hx])⟩
      rw [List.mem_append, Option.mem_toList] at hx
      exact hx.elim (fun h => (he' x h).elim) id

/-! ### the value -/

/-- the result of `p` when the answer of the integrand depends on its argument only -/
def denote (h : F → Option F) : Prog F → Option F
  | ret v => some v
  | panic => none
  | call x k => (h x).bind fun y => denote h (k y)
  | fork l r k => (denote h l).bind fun a => (denote h r).bind fun b => denote h (k a b)

theorem denote_step {h : F → Option F} (hf : ∀ s x, (f s x).1 = h x) {s s' : σ} {p q : Prog F} {e} (hs : Step f s p e s' q) :
    denote h q = denote h p := by
  induction hs with
  | call hc => simp only [denote]; rw [← hf _ _, hc]; rfl
  | unwind hc => simp only [denote]; rw [← hf _ _, hc]; rfl
  | left _ ih => simp only [denote, ih]
  | right _ ih => simp only [denote, ih]
  | join => rfl
  | panicLeft _ => rfl
  | panicRight _ => simp [denote]

theorem denote_exec {h : F → Option F} (hf : ∀ s x, (f s x).1 = h x) {s s' : σ} {p q : Prog F} {log} (he : Exec f s p log s' q) :
    denote h q = denote h p := by
  induction he with
  | refl => rfl
  | step h1 _ ih => rw [ih, denote_step hf h1]

theorem denote_none {h : F → Option F} {p : Prog F} {xs} (hp : Fixed p xs) : Clean p →
    (denote h p = none ↔ ∃ x ∈ xs, h x = none) := by
  induction hp with
  | ret v => simp [denote]
  | panic xs => intro h; cases h
  | @call x k xs hk ih =>
    intro hc
    cases hc with
    | call hc =>
      rcases hx : h x with _ | y
      · simp [denote, hx]
      · simp [denote, hx, ih y (hc y)]
  | @fork l r k xs ys zs hl hr hk ihl ihr ihk =>
    intro hc
    cases hc with
    | fork hcl hcr hck =>
      simp only [denote, List.mem_append, or_and_right, exists_or]
      rw [← ihl hcl, ← ihr hcr]
      rcases hdl : denote h l with _ | a
      · simp
      rcases hdr : denote h r with _ | b
      · simp
      simp [ihk a b (hck a b)]

theorem denote_congr {h h' : F → Option F} {p : Prog F} {xs} (hp : Fixed p xs) (hh : ∀ x ∈ xs, h x = h' x) : denote h p = denote h' p := by
  induction hp with
  | ret v => rfl
  | panic xs => rfl
  | @call x k xs hk ih =>
    simp only [denote]
    rw [hh x (by simp)]
    exact congrArg _ (funext fun y => ih y fun z hz => hh z (by simp [hz]))
  | @fork l r k xs ys zs hl hr hk ihl ihr ihk =>
    simp only [denote]
    rw [ihl fun z hz => hh z (by simp [hz]), ihr fun z hz => hh z (by simp [hz])]
    exact congrArg _ (funext fun a => congrArg _ (funext fun b => ihk a b fun z hz => hh z (by simp [hz])))

theorem denote_bind (h : F → Option F) (p : Prog F) (g : F → Prog F) : denote h (p.bind g) = (denote h p).bind fun v => denote h (g v) := by
  induction p with
  | ret v => rfl
  | panic => rfl
  | call x k ih => simp only [bind, denote, ih, Option.bind_assoc]
  | fork l r k _ _ ih => simp only [bind, denote, ih, Option.bind_assoc]

theorem Fixed.bind {p : Prog F} {g : F → Prog F} {xs ys} (hp : Fixed p xs) (hg : ∀ v, Fixed (g v) ys) : Fixed (p.bind g) (xs ++ ys) := by
  induction hp with
  | ret v => exact hg v
  | panic xs => exact .panic _
  | call _ ih => exact .call ih
  | fork hl hr _ ih1 ih2 ih3 =>
    rw [List.append_assoc]
    exact .fork hl hr ih3

theorem Clean.bind {p : Prog F} {g : F → Prog F} (hp : Clean p) (hg : ∀ v, Clean (g v)) : Clean (p.bind g) := by
  induction hp with
  | ret v => exact hg v
  | call _ ih => exact .call ih
  | fork hl hr _ ih1 ih2 ih3 => exact .fork hl hr ih3

/-! ### the shared state -/

theorem step_state {upd : σ → F → σ} (hf : ∀ s x, (f s x).2 = upd s x) {s s' : σ} {p q : Prog F} {e} (h : Step f s p e s' q) :
    s' = (e.toList.map Prod.fst).foldl upd s := by
  induction h with
  | call hc => exact (congrArg Prod.snd hc).symm.trans (hf _ _)
  | unwind hc => exact (congrArg Prod.snd hc).symm.trans (hf _ _)
  | left _ ih => exact ih
  | right _ ih => exact ih
  | join => rfl
  | panicLeft _ => rfl
  | panicRight _ => rfl

theorem exec_state {upd : σ → F → σ} (hf : ∀ s x, (f s x).2 = upd s x) {s s' : σ} {p q : Prog F} {log} (h : Exec f s p log s' q) :
    s' = (log.map Prod.fst).foldl upd s := by
  induction h with
  | refl => rfl
  | step h1 _ ih => rw [ih, step_state hf h1, List.map_append, List.foldl_append]

end

/-! ### the programs of the crate -/

section
variable {F : Type} [FloatOps F] {α : Type}

theorem fixed_leaf {g : α → Prog F} {pt : α → F} (hg : ∀ x, Fixed (g x) [pt x]) (xs : List α) : ∀ acc, Fixed (leafProg xs acc g) (xs.map pt) := by
  induction xs with
  | nil => exact fun acc => .ret _
  | cons x xs ih => exact fun acc => (hg x).bind fun v => ih _

theorem fixed_sum {g : α → Prog F} {pt : α → F} (hg : ∀ x, Fixed (g x) [pt x]) (s : Schedule) : ∀ xs, Fixed (parSumProg s xs g) (xs.map pt) := by
  induction s with
  | leaf => exact fun xs => fixed_leaf hg xs _
  | split mid l r ihl ihr =>
    intro xs
    have := Fixed.fork (ihl (xs.take mid)) (ihr (xs.drop mid)) (zs := []) fun a b => .ret (sumReduce a b)
    rwa [List.append_nil, ← List.map_append, List.take_append_drop] at this

theorem clean_leaf {g : α → Prog F} (hg : ∀ x, Clean (g x)) (xs : List α) : ∀ acc, Clean (leafProg xs acc g) := by
  induction xs with
  | nil => exact fun acc => .ret _
  | cons x xs ih => exact fun acc => (hg x).bind fun v => ih _

theorem clean_sum {g : α → Prog F} (hg : ∀ x, Clean (g x)) (s : Schedule) : ∀ xs, Clean (parSumProg s xs g) := by
  induction s with
  | leaf => exact fun xs => clean_leaf hg xs _
  | split mid l r ihl ihr => exact fun xs => .fork (ihl _) (ihr _) fun a b => .ret _

theorem denote_leaf {g : α → Prog F} {h : F → Option F} {v : α → F} (xs : List α) (hg : ∀ x ∈ xs, denote h (g x) = some (v x)) :
    ∀ acc, denote h (leafProg xs acc g) = some (sumReduce (sumList []) ((xs.map v).foldl FloatOps.add acc)) := by
  induction xs with
  | nil => exact fun acc => rfl
  | cons x xs ih =>
    intro acc
    rw [leafProg, denote_bind, hg x (by simp), Option.bind_some, ih fun y hy => hg y (by simp [hy])]
    rfl

theorem denote_sum {g : α → Prog F} {h : F → Option F} {v : α → F} (s : Schedule) : ∀ xs, (∀ x ∈ xs, denote h (g x) = some (v x)) →
    denote h (parSumProg s xs g) = some (parSumMap s xs v) := by
  induction s with
  | leaf => exact fun xs hg => denote_leaf xs hg _
  | split mid l r ihl ihr =>
    intro xs hg
    simp only [parSumProg, denote, parSumMap]
    rw [ihl _ fun x hx => hg x (List.mem_of_mem_take hx), ihr _ fun x hx => hg x (List.mem_of_mem_drop hx)]
    rfl

theorem fixed_pair (t : F → F) (p : F × F) : Fixed (pairProg t p) [t p.1] := .call fun _ => .ret _
theorem clean_pair (t : F → F) (p : F × F) : Clean (pairProg t p) := .call fun _ => .ret _

omit [FloatOps F] in
theorem fixed_call (x : F) : Fixed (.call x .ret) [x] := .call fun _ => .ret _
omit [FloatOps F] in
theorem clean_call (x : F) : Clean (.call x .ret) := .call fun _ => .ret _

omit [FloatOps F] in
theorem fixed_ret {p : Prog F} {g : F → F} {xs} (hp : Fixed p xs) : Fixed (p.bind fun v => .ret (g v)) xs := by
  simpa using hp.bind (ys := []) fun v => .ret (g v)

theorem clean_program (s s' : Schedule) (R : AnyRule F) (a b : F) : Clean (R.parProgram s s' a b) := by
  cases R with
  | midpoint r => exact (clean_sum (fun _ => clean_call _) _ _).bind fun _ => .ret _
  | trapezoid r => exact .call fun _ => .call fun _ => (clean_sum (fun _ => clean_call _) _ _).bind fun _ => .ret _
  | simpson r =>
    exact .fork (clean_sum (fun _ => clean_call _) _ _) (clean_sum (fun _ => clean_call _) _ _) fun _ _ =>
      .call fun _ => .call fun _ => .call fun _ => .ret _
  | hermite r => exact clean_sum (clean_pair _) _ _
  | laguerre r => exact clean_sum (clean_pair _) _ _
  | _ r => exact (clean_sum (clean_pair _) _ _).bind fun _ => .ret _

omit [FloatOps F] in
theorem map_range' (g : Nat → F) (n : Nat) : (List.range' 1 n).map g = (List.range n).map fun i => g (i + 1) := by
  rw [List.range'_eq_map_range, List.map_map]
  exact List.map_congr_left fun i _ => by rw [Function.comp_apply, Nat.add_comm]

theorem fixed_program (s s' : Schedule) (R : AnyRule F) (a b : F) : Fixed (R.parProgram s s' a b) (points a b R) := by
  cases R with
  | midpoint r => exact fixed_ret (fixed_sum (fun _ => fixed_call _) _ _)
  | trapezoid r =>
    refine .call fun _ => .call fun _ => fixed_ret ?_
    have := fixed_sum (fun x : Nat => fixed_call (a +ᶠ ofNat x *ᶠ ((b -ᶠ a) /ᶠ ofNat r.degree))) s (List.range' 1 (r.degree - 1))
    rw [map_range'] at this
    exact this
  | simpson r =>
    have h1 := fixed_sum (fun x : Nat => fixed_call (a +ᶠ ofNat x *ᶠ ((b -ᶠ a) /ᶠ ofNat r.degree))) s (List.range' 1 (r.degree - 1))
    have h2 := fixed_sum (fun x : Nat => fixed_call (a +ᶠ (lit 2.0 *ᶠ ofNat x -ᶠ lit 1.0) *ᶠ ((b -ᶠ a) /ᶠ ofNat r.degree) /ᶠ lit 2.0)) s'
      (List.range' 1 (r.degree - 1))
    rw [map_range'] at h1 h2
    have h3 : ∀ k : F → F → F → F → F → F, ∀ e m, Fixed (.call (a +ᶠ (lit 2.0 *ᶠ ofNat r.degree -ᶠ lit 1.0) *ᶠ ((b -ᶠ a) /ᶠ ofNat r.degree) /ᶠ lit 2.0) fun x =>
        .call a fun y => .call b fun z => .ret (k e m x y z))
        [a +ᶠ (lit 2.0 *ᶠ ofNat r.degree -ᶠ lit 1.0) *ᶠ ((b -ᶠ a) /ᶠ ofNat r.degree) /ᶠ lit 2.0, a, b] :=
      fun k e m => .call fun _ => .call fun _ => .call fun _ => .ret _
    have := Fixed.fork h1 h2 (h3 fun e m x y z => (b -ᶠ a) /ᶠ ofNat r.degree /ᶠ lit 6.0 *ᶠ (lit 2.0 *ᶠ e +ᶠ lit 4.0 *ᶠ m +ᶠ lit 4.0 *ᶠ x +ᶠ y +ᶠ z))
    obtain ⟨n, hn⟩ : ∃ n, r.degree = n + 1 := ⟨r.degree - 1, by have := r.pos; omega⟩
    refine Eq.mp ?_ this
    congr 1
    simp only [points]
    rw [show List.range r.degree = List.range (r.degree - 1) ++ [r.degree - 1] by rw [hn, List.range_succ]; rfl, List.map_append]
    simp only [List.map_cons, List.map_nil, show r.degree - 1 + 1 = r.degree by omega, List.append_assoc, List.cons_append, List.nil_append]
  | hermite r => exact fixed_sum (fixed_pair _) _ _
  | laguerre r => exact fixed_sum (fixed_pair _) _ _
  | _ r => exact fixed_ret (fixed_sum (fixed_pair _) _ _)

theorem denote_sum_call (h : F → F) (pt : Nat → F) (s : Schedule) (xs : List Nat) :
    denote (fun x => some (h x)) (parSumProg s xs fun n => .call (pt n) .ret) = some (parSumMap s xs fun n => h (pt n)) :=
  denote_sum s xs fun _ _ => rfl

theorem denote_sum_pair (h : F → F) (t : F → F) (s : Schedule) (xs : List (F × F)) :
    denote (fun x => some (h x)) (parSumProg s xs (pairProg t)) = some (parSumMap s xs fun p => h (t p.1) *ᶠ p.2) :=
  denote_sum s xs fun _ _ => rfl

theorem denote_program (s s' : Schedule) (R : AnyRule F) (a b : F) (h : F → F) :
    denote (fun x => some (h x)) (R.parProgram s s' a b) = some (R.parIntegrate s s' a b h) := by
  cases R with
  | midpoint r => simp only [AnyRule.parProgram, denote_bind, denote_sum_call]; rfl
  | trapezoid r => simp only [AnyRule.parProgram, denote, denote_bind, denote_sum_call]; rfl
  | simpson r => simp only [AnyRule.parProgram, denote, denote_sum_call]; rfl
  | hermite r => exact denote_sum_pair _ _ _ _
  | laguerre r => exact denote_sum_pair _ _ _ _
  | _ r => simp only [AnyRule.parProgram, denote_bind, denote_sum_pair]; rfl

end

end GaussQuad.Prog
