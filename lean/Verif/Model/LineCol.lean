import Verif.Model.ErrorPos
import Verif.Model.Result

/-!
# Line and column of an error

Every error of the library is a `pest::error::Error` (`/repo/src/parser/err.rs:10`, `/repo/src/analyzer/err.rs:136-145`), whose
field `line_col` is computed by `Position::line_col` of pest 2.7 (`original_line_col` in `pest/src/position.rs`, without
the feature `fast-line-col`) from the start of the span (`Error::new_from_span`) or from the position of a syntax error
(`Error::new_from_pos`), and, for a span, from its end. Modelled here: the line and column of the start and of the end; the rendering of the
source line is in `Render.lean`.
-/

namespace Dbml

/-- The loop `while pos != 0` of `original_line_col`; `none` is its `None => unreachable!()`.
`/repo/src/parser/mod.rs:58`, `/repo/src/parser/err.rs:13-30`, `/repo/src/analyzer/err.rs:136-145` (pest `Error` built there). -/
def lineColLoop : Nat → Str → Nat × Nat → Option (Nat × Nat)
  | 0, _, lc => some lc
  | _ + 1, [], _ => none
  | pos + 1, '\r' :: '\n' :: cs, lc => lineColLoop (if pos + 1 = 1 then pos + 1 - 1 else pos + 1 - 2) cs (lc.1 + 1, 1)
  | pos + 1, '\n' :: cs, lc => lineColLoop (pos + 1 - 1) cs (lc.1 + 1, 1)
  | pos + 1, c :: cs, lc => lineColLoop (pos + 1 - c.utf8Size) cs (lc.1, lc.2 + 1)

/-- `Position::line_col`: `none` if the offset is not one of the text (`position out of bounds`, or the panic of
`&input[..pos]`).
`/repo/src/parser/mod.rs:58`, `/repo/src/parser/err.rs:13-30`, `/repo/src/analyzer/err.rs:136-145` (pest `Error` built there). -/
def lineCol (input : Str) (pos : Nat) : Option (Nat × Nat) :=
  if isBoundary input pos then lineColLoop pos (takeBytes input pos) (1, 1) else none

/-- The offset at which an error starts.
`/repo/src/parser/mod.rs:58`, `/repo/src/parser/err.rs:13-30`, `/repo/src/analyzer/err.rs:136-145` (pest `Error` built there). -/
def PError.start (input : Str) : PError → Nat
  | .syntax => syntaxErrorPos input
  | .rules _ sp | .msg _ sp | .semantic _ sp => sp.start

/-- The line and column at which an error is reported.
`/repo/src/parser/mod.rs:58`, `/repo/src/parser/err.rs:13-30`, `/repo/src/analyzer/err.rs:136-145` (pest `Error` built there). -/
def PError.lineCol (input : Str) (e : PError) : Option (Nat × Nat) := Dbml.lineCol input (e.start input)

/-- `Position::skip_back(1)`: one character back, if there is one.
`/repo/src/parser/mod.rs:58`, `/repo/src/parser/err.rs:13-30`, `/repo/src/analyzer/err.rs:136-145` (pest `Error` built there). -/
def skipBack (input : Str) (pos : Nat) : Nat :=
  match (takeBytes input pos).getLast? with
  | some c => pos - c.utf8Size
  | none => pos

/-- The end of `line_col` in `Error::new_from_span`: the line and column of the end of the span or, if that is the
first column of a line, one column to the right of the character before it.
`/repo/src/parser/mod.rs:58`, `/repo/src/parser/err.rs:13-30`, `/repo/src/analyzer/err.rs:136-145` (pest `Error` built there). -/
def endLineCol (input : Str) (stop : Nat) : Option (Nat × Nat) :=
  match lineCol input stop with
  | none => none
  | some lc =>
    if lc.2 = 1 then
      match lineCol input (skipBack input stop) with
      | none => none
      | some lc' => some (lc'.1, lc'.2 + 1)
    else some lc

/-- The range of an error (`InputLocation::Span`); syntax errors have a single place (`InputLocation::Pos`).
`/repo/src/parser/mod.rs:58`, `/repo/src/parser/err.rs:13-30`, `/repo/src/analyzer/err.rs:136-145` (pest `Error` built there). -/
def PError.range : PError → Option Span
  | .syntax => none
  | .rules _ sp | .msg _ sp | .semantic _ sp => some sp

/-- The line and column at which the range of an error ends.
`/repo/src/parser/mod.rs:58`, `/repo/src/parser/err.rs:13-30`, `/repo/src/analyzer/err.rs:136-145` (pest `Error` built there). -/
def PError.endLineCol (input : Str) (e : PError) : Option (Nat × Nat) :=
  e.range.bind fun sp => Dbml.endLineCol input sp.stop

end Dbml
