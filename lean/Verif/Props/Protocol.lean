import Verif.Proofs.Protocol
import Verif.Model.F64
import Verif.Model.RealOps
import Mathlib.Data.List.Basic

/-!
# Calling protocol of `integrate`: C15 and C16
-/

namespace GaussQuad.Props
open Spec FloatOps

section
variable {F : Type} [FloatOps F]

/-- C15/C16, general form: for every kind of effect the integrand may have (any lawful monad), `integrate` performs
exactly the calls of `points`, in that order, and combines the values by a fixed function. -/
theorem C15_protocol {m : Type → Type} [Monad m] [LawfulMonad m] (R : AnyRule F) (a b : F) (f : F → m F) :
    R.integrate a b f = combine a b R <$> (points a b R).mapM f :=
  protocol R a b f

/-- with a closure that logs its calls, the log of the two-point trapezoid rule is the list of its points -/
example (a b : F) : ((AnyRule.trapezoid ⟨2, by decide, by decide⟩).integrate a b (fun x => (do modify (· ++ [x]); pure x : StateM (List F) F))) =
    combine a b (.trapezoid ⟨2, by decide, by decide⟩) <$> (points a b (.trapezoid ⟨2, by decide, by decide⟩)).mapM (fun x => (do modify (· ++ [x]); pure x : StateM (List F) F)) :=
  C15_protocol _ a b _

theorem callAll_mapM {σ : Type} (f : Closure σ F) (xs : List F) : ∀ (log : List F) (s : σ),
    (xs.mapM (logged f)).run (log, s) = ((callAll f s xs).1, (log ++ xs, (callAll f s xs).2)) := by
  induction xs with
  | nil => intro log s; simp [callAll]; rfl
  | cons x xs ih =>
    intro log s
    rw [List.mapM_cons]
    show ((xs.mapM (logged f) >>= fun ys => pure ((f s x).1 :: ys)).run (log ++ [x], (f s x).2)) = _
    simp only [StateT.run_bind, ih]
    simp [callAll]; rfl

/-- C15 for stateful (`FnMut`) integrands: the closure is called on `points` in order, each call sees the state left
by the previous one, nothing else touches the state, and the result is the fixed combination of the values. -/
theorem C15_state_threading {σ : Type} (R : AnyRule F) (a b : F) (f : Closure σ F) (s : σ) :
    (R.integrate a b (logged f)).run ([], s)
      = (combine a b R (callAll f s (points a b R)).1, (points a b R, (callAll f s (points a b R)).2)) := by
  rw [protocol]
  have h := callAll_mapM f (points a b R) [] s
  simp only [List.nil_append] at h
  simp [StateT.run_map, h]; rfl

/-- C15: number of calls.  `degree` calls for the Gauss rules and the midpoint rule, `n + 1` for the trapezoid rule,
`2n + 1` for Simpson. -/
theorem C15_number_of_calls (a b : F) :
    (∀ r : Rule F, (points a b (.legendre r)).length = r.degree ∧ (points a b (.chebyshevFirst r)).length = r.degree ∧
      (points a b (.chebyshevSecond r)).length = r.degree ∧ (points a b (.hermite r)).length = r.degree) ∧
    (∀ r : JacobiRule F, (points a b (.jacobi r)).length = r.degree) ∧
    (∀ r : LaguerreRule F, (points a b (.laguerre r)).length = r.degree) ∧
    (∀ r : NodeRule, (points (F := F) a b (.midpoint r)).length = r.degree) ∧
    (∀ r : NodeRule, (points (F := F) a b (.trapezoid r)).length = r.degree + 1) ∧
    (∀ r : NodeRule, (points (F := F) a b (.simpson r)).length = 2 * r.degree + 1) := by
  refine ⟨fun r => by simp [points, Rule.degree], fun r => by simp [points, Rule.degree],
    fun r => by simp [points, Rule.degree], fun r => by simp [points], fun r => ?_, fun r => ?_⟩
  · have := r.pos; simp [points]; omega
  · have := r.pos; simp [points]; omega

example (a b x w : F) : (points a b (.legendre ⟨[(x, w), (x, w), (x, w)]⟩)).length = 3 := ((C15_number_of_calls a b).1 _).1

theorem panicking_mapM (bad : F → Bool) (f : F → F) (xs : List F) : ∀ log : List F,
    ((xs.mapM (panicking bad f)).run.run log) =
      if xs.all (fun x => !bad x) then (.ok (xs.map f), log ++ xs)
      else (.error (), log ++ xs.takeWhile (fun x => !bad x) ++ (xs.dropWhile (fun x => !bad x)).take 1) := by
  induction xs with
  | nil => intro log; simp; rfl
  | cons x xs ih =>
    intro log
    rw [List.mapM_cons]
    rcases hb : bad x with _ | _
    · have h1 : (panicking bad f x : ExceptT Unit (StateM (List F)) F).run.run log = (.ok (f x), log ++ [x]) := by
        simp [panicking, hb]; rfl
      have h2 : ((panicking bad f x >>= fun y => xs.mapM (panicking bad f) >>= fun ys => pure (y :: ys)) :
          ExceptT Unit (StateM (List F)) (List F)).run.run log =
          ((xs.mapM (panicking bad f) >>= fun ys => pure (f x :: ys)) :
            ExceptT Unit (StateM (List F)) (List F)).run.run (log ++ [x]) := by
        rw [ExceptT.run_bind, StateT.run_bind, h1]; rfl
      rw [h2, ExceptT.run_bind, StateT.run_bind, ih]
      by_cases hall : xs.all (fun x => !bad x) = true
      · simp only [hall, if_true, List.all_cons, hb, Bool.not_false, Bool.and_self]
        simp; rfl
      · simp only [hall, List.all_cons, hb, Bool.not_false, Bool.true_and]
        simp [hb]; rfl
    · have h1 : (panicking bad f x : ExceptT Unit (StateM (List F)) F).run.run log = (.error (), log ++ [x]) := by
        simp [panicking, hb]; rfl
      rw [ExceptT.run_bind, StateT.run_bind, h1]
      simp [hb]; rfl

/-- C15 for panicking integrands: if some evaluation point is bad, the calls made are exactly the points before the
first bad one and that one; no call is made after the panic, and no result is returned. -/
theorem C15_panic_stops (R : AnyRule F) (a b : F) (bad : F → Bool) (f : F → F)
    (h : ∃ x ∈ points a b R, bad x = true) :
    ((R.integrate a b (panicking bad f)).run.run []) =
      (.error (), (points a b R).takeWhile (fun x => !bad x) ++ ((points a b R).dropWhile (fun x => !bad x)).take 1) := by
  rw [protocol]
  have hall : (points a b R).all (fun x => !bad x) = false := by
    rw [Bool.eq_false_iff]; intro hall
    rw [List.all_eq_true] at hall
    obtain ⟨x, hx, hb⟩ := h
    have := hall x hx; simp [hb] at this
  have hm := panicking_mapM bad f (points a b R) []
  rw [hall] at hm
  simp only [Bool.false_eq_true, if_false, List.nil_append] at hm
  rw [ExceptT.run_map, StateT.run_map, hm]; rfl

/-- C15 for pure integrands: the value is the fixed fold of the products. -/
theorem C15_value (R : AnyRule F) (a b : F) (f : F → F) : R.value a b f = combine a b R ((points a b R).map f) :=
  value_eq R a b f

example (x w a b : F) : (AnyRule.hermite ⟨[(x, w)]⟩).value a b (fun x => x) = combine a b (.hermite ⟨[(x, w)]⟩) (points a b (.hermite ⟨[(x, w)]⟩)) := by
  rw [C15_value, List.map_id']

end

/-- a stateful integrand that counts its calls: a degree-3 Simpson rule makes 7 calls -/
example (a b : ℝ) (f : ℝ → ℝ) :
    ((AnyRule.simpson ⟨3, by decide, by decide⟩ : AnyRule ℝ).integrate a b
      (logged (fun (c : ℕ) x => (f x, c + 1)))).run ([], 0) =
      (combine a b (.simpson ⟨3, by decide, by decide⟩) ((points a b (.simpson ⟨3, by decide, by decide⟩)).map f),
        (points a b (.simpson ⟨3, by decide, by decide⟩), 7)) := by
  rw [C15_state_threading]
  simp [callAll, points, List.range_succ]

/-- an integrand that panics at its second call -/
example [Libm] (a b : F64) (h : a ≠ b) (f : F64 → F64) :
    ((AnyRule.trapezoid ⟨4, by decide, by decide⟩ : AnyRule F64).integrate a b
      (panicking (fun x => decide (x = b)) f)).run.run [] = (.error (), [a, b]) := by
  rw [C15_panic_stops]
  · simp [points, h]
  · exact ⟨b, by simp [points], by simp⟩

end GaussQuad.Props
