import Verif.Model.DataApi

/-!
# Formatting and error reporting of the parameter type

Model of the hand-written `Display`, `LowerExp`, `UpperExp` and `core::error::Error` implementations in
/repo/src/data_api.rs l.43-62 and l.115-173, on top of a model of `core::fmt::Formatter`: a buffer together with
the options written after the colon of a placeholder.  `write!(f, "{}", v)` opens a *new* placeholder with default
options, so `v` does not see the options of `f`; it only appends to the same buffer.  A literal piece of a format
string is appended as it is.  Writing to a `String` never fails, so `fmt::Result` is always `Ok` and not modelled.
-/

namespace GaussQuad

/-- the options of a placeholder, `{:<fill><align><sign>#0<width>.<precision>}` (`core::fmt::FormattingOptions`)
(/repo/src/data_api.rs l.43-62 and l.120-173) -/
structure FmtOpts where
  fill : Char := ' '
  align : Option Ordering := none
  plus : Bool := false
  alternate : Bool := false
  zeroPad : Bool := false
  width : Option Nat := none
  precision : Option Nat := none
  deriving DecidableEq

/-- `core::fmt::Formatter` (/repo/src/data_api.rs l.43-62 and l.120-173) -/
structure Formatter where
  opts : FmtOpts
  buf : String

/-- a `fmt` method (/repo/src/data_api.rs l.43-62 and l.120-173) -/
abbrev Fmt := Formatter → Formatter

/-- `f.write_str(s)` (/repo/src/data_api.rs l.43-62 and l.120-173) -/
def Formatter.writeStr (f : Formatter) (s : String) : Formatter := { f with buf := f.buf ++ s }

/-- `write!(f, "{<o>}", v)`: run `v`'s `fmt` with the options `o` of the placeholder on the buffer of `f`
(/repo/src/data_api.rs l.43-62 and l.120-173) -/
def Formatter.placeholder (f : Formatter) (o : FmtOpts) (v : Fmt) : Formatter := { f with buf := (v ⟨o, f.buf⟩).buf }

/-- `format!("{<o>}", v)` (/repo/src/data_api.rs l.43-62 and l.120-173) -/
def formatWith (o : FmtOpts) (v : Fmt) : String := (v ⟨o, ""⟩).buf

/-- the standard library's formatting of `f64` and of `ParseFloatError`: the text appended under given options
(/repo/src/data_api.rs l.43-62 and l.158-164) -/
structure StdFmt (F ε : Type) where
  display : FmtOpts → F → String
  lowerExp : FmtOpts → F → String
  upperExp : FmtOpts → F → String
  parseError : FmtOpts → ε → String

/-- a library `fmt` method appends a text that depends on the options only (/repo/src/data_api.rs l.43-62 and l.158-164) -/
def stdFmt {α : Type} (text : FmtOpts → α → String) (v : α) : Fmt := fun f => f.writeStr (text f.opts v)

section
variable {F ε : Type} [FloatOps F]

/-- `impl fmt::Display for FiniteAboveNegOneF64`, /repo/src/data_api.rs l.43-48: `write!(f, "{}", self.0)` -/
def FiniteAboveNegOne.displayFmt (std : StdFmt F ε) (x : FiniteAboveNegOne F) : Fmt :=
  fun f => f.placeholder {} (stdFmt std.display x.val)

/-- `impl fmt::LowerExp`, /repo/src/data_api.rs l.50-55: `write!(f, "{:e}", self.0)` -/
def FiniteAboveNegOne.lowerExpFmt (std : StdFmt F ε) (x : FiniteAboveNegOne F) : Fmt :=
  fun f => f.placeholder {} (stdFmt std.lowerExp x.val)

/-- `impl fmt::UpperExp`, /repo/src/data_api.rs l.57-62: `write!(f, "{:E}", self.0)` -/
def FiniteAboveNegOne.upperExpFmt (std : StdFmt F ε) (x : FiniteAboveNegOne F) : Fmt :=
  fun f => f.placeholder {} (stdFmt std.upperExp x.val)

/-- `impl fmt::Display for InfNanNegOneOrLessError`, /repo/src/data_api.rs l.120-127 -/
def InfNanNegOneOrLessError.displayFmt (_e : InfNanNegOneOrLessError) : Fmt :=
  fun f => f.writeStr
    "attempted to convert a value that is infinite, NAN, or less than or equal to -1.0 to a `FiniteAboveNegOneF64`"

/-- `impl fmt::Display for ParseFiniteAboveNegOneF64Error`, /repo/src/data_api.rs l.157-164 -/
def ParseFiniteAboveNegOneError.displayFmt (std : StdFmt F ε) : ParseFiniteAboveNegOneError ε → Fmt
  | .parseError e => fun f => f.placeholder {} (stdFmt std.parseError e)
  | .invalidValue e => fun f => f.placeholder {} e.displayFmt

/-- `dyn core::error::Error`: how it prints and what it reports as its source (/repo/src/data_api.rs l.129, 167-173) -/
inductive DynError where
  | mk (display : Fmt) (source : Option DynError)

namespace DynError
/-- `Display::fmt` through the trait object (/repo/src/data_api.rs l.167-173) -/
def display : DynError → Fmt
  | mk d _ => d
/-- `Error::source` (/repo/src/data_api.rs l.167-173) -/
def source : DynError → Option DynError
  | mk _ s => s
/-- the chain of errors obtained by following `source()`, each printed with `{}` (what an error reporter shows) (/repo/src/data_api.rs l.167-173) -/
def report : DynError → List String
  | mk d none => [formatWith {} d]
  | mk d (some e) => formatWith {} d :: report e
end DynError

/-- `ParseFloatError` as `dyn Error`: the default `source()`, `None` (/repo/src/data_api.rs l.169) -/
def StdFmt.parseErrorDyn (std : StdFmt F ε) (e : ε) : DynError := .mk (stdFmt std.parseError e) none

/-- `impl Error for InfNanNegOneOrLessError`, /repo/src/data_api.rs l.129: the default `source()`, `None` -/
def InfNanNegOneOrLessError.toDyn (e : InfNanNegOneOrLessError) : DynError := .mk e.displayFmt none

/-- `impl Error for ParseFiniteAboveNegOneF64Error`, /repo/src/data_api.rs l.166-173 -/
def ParseFiniteAboveNegOneError.toDyn (std : StdFmt F ε) (e : ParseFiniteAboveNegOneError ε) : DynError :=
  .mk (e.displayFmt std) (match e with
    | .parseError e => some (std.parseErrorDyn e)
    | .invalidValue e => some e.toDyn)

end

end GaussQuad
