import Verif.Model.Report
import Verif.Props.Param

/-!
# C76: formatting ignores the placeholder's options; what an error of `from_str` reports
-/

set_option exponentiation.threshold 3000

namespace GaussQuad.Props
open Spec F64 FiniteAboveNegOne

variable [L : Libm]

/-- the documented reason for rejecting a number, as one text -/
def rejectedText : String :=
  "attempted to convert a value that is infinite, NAN, or less than or equal to -1.0 to a `FiniteAboveNegOneF64`"

omit L in
theorem rejected_display (o : FmtOpts) (e : InfNanNegOneOrLessError) : formatWith o e.displayFmt = rejectedText :=
  (String.empty_append : "" ++ rejectedText = rejectedText)

omit L in
/-- C76, formatting: whatever options a placeholder has, a parameter is printed exactly as the plain `f64` with the
default options is, and it is appended to what was written before (so width, fill, sign, `#` and precision are
silently ignored, unlike for the `f64` itself). -/
theorem C76_options_ignored {ε : Type} [FloatOps F64] (std : StdFmt F64 ε) (x : FiniteAboveNegOne F64) (o : FmtOpts) (before : String) :
    (x.displayFmt std ⟨o, before⟩).buf = before ++ std.display {} x.get ∧
    (x.lowerExpFmt std ⟨o, before⟩).buf = before ++ std.lowerExp {} x.get ∧
    (x.upperExpFmt std ⟨o, before⟩).buf = before ++ std.upperExp {} x.get := ⟨rfl, rfl, rfl⟩

/-- C76, round trip: a parameter printed with *any* options (for instance `{:.1}` or `{:08}`) parses back to the same
bits, provided the library's plain formatting of finite numbers does. -/
theorem C76_round_trip {ε : Type} (parse : String → Except ε F64) (std : StdFmt F64 ε)
    (hstd : ∀ v : F64, v.isFinite = true → parse (std.display {} v) = .ok v ∧ parse (std.lowerExp {} v) = .ok v ∧
      parse (std.upperExp {} v) = .ok v)
    (x : FiniteAboveNegOne F64) (hx : Reachable parse x) (o : FmtOpts) :
    fromStr parse (formatWith o (x.displayFmt std)) = .ok x ∧
    fromStr parse (formatWith o (x.lowerExpFmt std)) = .ok x ∧
    fromStr parse (formatWith o (x.upperExpFmt std)) = .ok x := by
  have hv := C02_reachable_valid parse x hx
  have h := hstd x.val hv.1
  unfold formatWith
  rw [(C76_options_ignored std x o "").1, (C76_options_ignored std x o "").2.1, (C76_options_ignored std x o "").2.2]
  simp only [String.empty_append]
  exact ⟨((C04_from_str parse _).2.2 x).2 ⟨h.1, hv⟩, ((C04_from_str parse _).2.2 x).2 ⟨h.2.1, hv⟩,
    ((C04_from_str parse _).2.2 x).2 ⟨h.2.2, hv⟩⟩

/-- C76, errors: if `from_str` fails then either the text is not a number, and the error prints (under every options)
like the library's parse error does by default, or it is a number outside of the domain, and the error prints the
fixed text.  In both cases `source()` is `Some` of the inner error (the library's one prints with the options it is given) without a
further source, and a reporter that follows the chain shows this text twice and then stops. -/
theorem C76_report {ε : Type} (parse : String → Except ε F64) (std : StdFmt F64 ε) (s : String)
    (err : ParseFiniteAboveNegOneError ε) (h : fromStr parse s = .error err) :
    ∃ text inner, (∀ o, formatWith o (err.toDyn std).display = text) ∧ (err.toDyn std).report = [text, text] ∧
      (err.toDyn std).source = some inner ∧ inner.source.isNone ∧
      ((∃ e, parse s = .error e ∧ text = std.parseError {} e ∧ ∀ o, formatWith o inner.display = std.parseError o e) ∨
        (∃ v, parse s = .ok v ∧ ¬ Valid v ∧ text = rejectedText ∧ ∀ o, formatWith o inner.display = rejectedText)) := by
  cases err with
  | parseError e =>
    have hp := ((C04_from_str parse s).1 e).1 h
    refine ⟨std.parseError {} e, _, fun o => ?_, ?_, rfl, rfl, .inl ⟨e, hp, rfl, fun o => ?_⟩⟩
    · show "" ++ _ = _; exact String.empty_append
    · show ["" ++ _, "" ++ _] = _; rw [String.empty_append]
    · show "" ++ _ = _; exact String.empty_append
  | invalidValue e =>
    cases e
    obtain ⟨v, hv, hn⟩ := (C04_from_str parse s).2.1.1 h
    exact ⟨rejectedText, _, fun o => rejected_display {} .mk,
      congrArg₂ (fun a b => [a, b]) (rejected_display {} .mk) (rejected_display {} .mk), rfl, rfl, .inr ⟨v, hv, hn, rfl, fun o => rejected_display o .mk⟩⟩

/-- C76, `try_from`: rejected exactly when the value is out of the domain; then the error prints the fixed text under
every options and has no source. -/
theorem C76_try_from (v : F64) :
    (∃ e, tryFrom v = .error e ∧ (∀ o, formatWith o e.toDyn.display = rejectedText) ∧ e.toDyn.source.isNone ∧
      e.toDyn.report = [rejectedText]) ↔ ¬ Valid v := by
  constructor
  · rintro ⟨e, he, -⟩ hv
    obtain ⟨x, hx, -⟩ := (C04_try_from v).1 hv
    rw [hx] at he; cases he
  · intro hv
    exact ⟨.mk, (C04_try_from v).2 hv, fun o => rejected_display o .mk, rfl,
      congrArg (fun a => [a]) (rejected_display {} .mk)⟩

/-- a formatter whose output does depend on the options, so that ignoring them is a statement about the crate -/
def noisyStd : StdFmt F64 Unit where
  display o v := if o.precision = none then String.ofList (List.replicate ((if v.sign then 2 ^ 63 else 0) + v.mag) 'a') else "0.0"
  lowerExp _ _ := "1e0"
  upperExp _ _ := "1E0"
  parseError _ _ := "invalid float literal"

omit L in
example : (⟨F64.zero true⟩ : FiniteAboveNegOne F64).get = F64.zero true ∧
    noisyStd.display { precision := some 1 } (F64.zero false) ≠ noisyStd.display {} (F64.zero false) := by
  refine ⟨rfl, ?_⟩
  simp [noisyStd, F64.zero]

/-- a failing text: the error of a parser that rejects everything is reported twice -/
example : ∃ err, fromStr (F := F64) (fun _ => .error ()) "x" = .error err ∧
    (err.toDyn noisyStd).report = ["invalid float literal", "invalid float literal"] := ⟨.parseError (), rfl, rfl⟩

/-- a text that is a number out of the domain -/
example : ∃ err, fromStr (ε := Unit) (fun _ => .ok F64.nan) "NaN" = .error err ∧
    (err.toDyn noisyStd).report = [rejectedText, rejectedText] :=
  ⟨.invalidValue .mk, (C04_from_str _ _).2.1.2 ⟨_, rfl, fun h => absurd h.1 (by decide)⟩,
    congrArg₂ (fun a b => [a, b]) (rejected_display {} .mk) (rejected_display {} .mk)⟩

/-- the assumption of `C76_round_trip` can be met -/
example : ∃ (parse : String → Except Unit F64) (std : StdFmt F64 Unit), ∀ v : F64, v.isFinite = true →
    parse (std.display {} v) = .ok v ∧ parse (std.lowerExp {} v) = .ok v ∧ parse (std.upperExp {} v) = .ok v := by
  obtain ⟨parse, fmt, h⟩ : ∃ (parse : String → Except Unit F64) (fmt : F64 → String), ∀ v : F64, parse (fmt v) = .ok v := by
    refine ⟨fun s => .ok (ofBits s.length), fun v => String.ofList (List.replicate ((if v.sign then 2 ^ 63 else 0) + v.mag) 'a'), ?_⟩
    intro v
    have h := v.lt_mag
    rcases v with ⟨s, m, hm⟩
    simp only [String.length_ofList, List.length_replicate]
    cases s <;> simp [ofBits] <;> omega
  exact ⟨parse, ⟨fun _ v => fmt v, fun _ v => fmt v, fun _ v => fmt v, fun _ _ => ""⟩, fun v _ => ⟨h v, h v, h v⟩⟩

/-- the value one half with a formatter that is read back -/
example (parse : String → Except Unit F64) (std : StdFmt F64 Unit)
    (hstd : ∀ v : F64, v.isFinite = true → parse (std.display {} v) = .ok v ∧ parse (std.lowerExp {} v) = .ok v ∧ parse (std.upperExp {} v) = .ok v)
    (hx : Reachable parse ⟨F64.zero true⟩) : fromStr parse (formatWith { width := some 10 } (FiniteAboveNegOne.lowerExpFmt std ⟨F64.zero true⟩)) = .ok ⟨F64.zero true⟩ :=
  (C76_round_trip parse std hstd _ hx _).2.1

/-- the report of a rejected text has two equal lines -/
example : ∃ text, ((ParseFiniteAboveNegOneError.parseError () : ParseFiniteAboveNegOneError Unit).toDyn noisyStd).report = [text, text] := by
  obtain ⟨text, -, -, h, -⟩ := C76_report (fun _ => .error ()) noisyStd "x" (.parseError ()) rfl
  exact ⟨text, h⟩

end GaussQuad.Props
