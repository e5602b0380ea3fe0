import Verif.Model.LineCol
import Verif.Model.Expected

/-!
# The text of an error

Every error of the library is a `pest::error::Error` (`/repo/src/parser/err.rs:10-30`, `/repo/src/analyzer/err.rs:136-145`,
`/repo/src/parser/mod.rs:57-58`). What a user sees of it is its `Display` text: `Error::format` of pest 2.7
(`pest/src/error.rs`), which quotes the source line and marks the place. Modelled here: the fields `line` and `continued_line`
(`Error::new_from_pos`, `Error::new_from_span`), `Span::lines`, `Position::line_of` and the formatting. The library never
sets a path (`Error::with_path`). Every subtraction that could underflow, and every position that could be invalid,
makes the result `none` (a panic, in a build with overflow checks).
-/

namespace Dbml

/-- `str::char_indices`.
`/repo/src/parser/mod.rs:58`, `/repo/src/parser/err.rs:13-30`, `/repo/src/analyzer/err.rs:136-145` (pest `Error` built there). -/
def charIndices : Nat → Str → List (Nat × Char)
  | _, [] => []
  | n, c :: cs => (n, c) :: charIndices (n + c.utf8Size) cs

/-- `Position::find_line_start`.
`/repo/src/parser/mod.rs:58`, `/repo/src/parser/err.rs:13-30`, `/repo/src/analyzer/err.rs:136-145` (pest `Error` built there). -/
def findLineStart (input : Str) (pos : Nat) : Nat :=
  match ((charIndices 0 input).reverse.dropWhile fun p => pos ≤ p.1).find? fun p => p.2 = '\n' with
  | some p => p.1 + 1
  | none => 0

/-- `Position::find_line_end`.
`/repo/src/parser/mod.rs:58`, `/repo/src/parser/err.rs:13-30`, `/repo/src/analyzer/err.rs:136-145` (pest `Error` built there). -/
def findLineEnd (input : Str) (pos : Nat) : Nat :=
  if input = [] then 0
  else if pos = blen input - 1 then blen input
  else
    match ((charIndices 0 input).dropWhile fun p => p.1 < pos).find? fun p => p.2 = '\n' with
    | some p => p.1 + 1
    | none => blen input

/-- `Position::line_of`.
`/repo/src/parser/mod.rs:58`, `/repo/src/parser/err.rs:13-30`, `/repo/src/analyzer/err.rs:136-145` (pest `Error` built there). -/
def lineOf (input : Str) (pos : Nat) : Str := slice input ⟨findLineStart input pos, findLineEnd input pos⟩

/-- `Span::lines`, the iterator `LinesSpan::next` run to its end: the lines from position `pos` on. (Every step but the last
moves on by a character at least, so the length of the text is enough fuel.).
`/repo/src/parser/mod.rs:58`, `/repo/src/parser/err.rs:13-30`, `/repo/src/analyzer/err.rs:136-145` (pest `Error` built there). -/
def spanLines (input : Str) (stop : Nat) : Nat → Nat → List Str
  | 0, _ => []
  | fuel + 1, pos =>
    if stop < pos then []
    else if isBoundary input pos then
      if pos = blen input then []
      else lineOf input pos :: spanLines input stop fuel (findLineEnd input pos)
    else []

/-- `visualize_whitespace`.
`/repo/src/parser/mod.rs:58`, `/repo/src/parser/err.rs:13-30`, `/repo/src/analyzer/err.rs:136-145` (pest `Error` built there). -/
def visualizeWhitespace (s : Str) : Str := s.map fun c => if c = '\r' then '␍' else if c = '\n' then '␊' else c

/-- `replace(&['\r', '\n'][..], "")`.
`/repo/src/parser/mod.rs:58`, `/repo/src/parser/err.rs:13-30`, `/repo/src/analyzer/err.rs:136-145` (pest `Error` built there). -/
def stripLineBreaks (s : Str) : Str := s.filter fun c => !(c = '\r' || c = '\n')

/-- `matches!(c, Some('\n') | Some('\r'))`.
`/repo/src/parser/mod.rs:58`, `/repo/src/parser/err.rs:13-30`, `/repo/src/analyzer/err.rs:136-145` (pest `Error` built there). -/
def isLineBreak (c : Option Char) : Bool := c = some '\n' || c = some '\r'

/-- The fields of `pest::error::Error` that its text is made of: `line_col`, `line`, `continued_line`. -/
structure Quote where
  start : Nat × Nat
  stop : Option (Nat × Nat)
  line : Str
  continued : Option Str
deriving DecidableEq, Repr

/-- `Error::new_from_pos`.
`/repo/src/parser/mod.rs:58`, `/repo/src/parser/err.rs:13-30`, `/repo/src/analyzer/err.rs:136-145` (pest `Error` built there). -/
def Quote.ofPos (input : Str) (pos : Nat) : Option Quote := do
  let lc ← lineCol input pos
  let viz := isLineBreak (dropBytes input pos).head?
  let l := lineOf input pos
  return { start := lc, stop := none, line := if viz then visualizeWhitespace l else stripLineBreaks l, continued := none }

/-- `Error::new_from_span`.
`/repo/src/parser/mod.rs:58`, `/repo/src/parser/err.rs:13-30`, `/repo/src/analyzer/err.rs:136-145` (pest `Error` built there). -/
def Quote.ofSpan (input : Str) (sp : Span) : Option Quote := do
  let e ← endLineCol input sp.stop
  let s ← lineCol input sp.start
  let ls := spanLines input sp.stop (input.length + 1) sp.start
  let sl := ls.headD []
  let txt := slice input sp
  let viz := isLineBreak txt.head? || isLineBreak txt.tail.getLast?
  let ll := ls.tail.getLast?
  return { start := s, stop := some e, line := if viz then visualizeWhitespace sl else stripLineBreaks sl,
           continued := if viz then ll else ll.map visualizeWhitespace }

/-- `a - b` on `usize`.
`/repo/src/parser/mod.rs:58`, `/repo/src/parser/err.rs:13-30`, `/repo/src/analyzer/err.rs:136-145` (pest `Error` built there). -/
def usizeSub (a b : Nat) : Option Nat := if b ≤ a then some (a - b) else none

/-- `Error::spacing`: as many blanks as the larger line number has digits.
`/repo/src/parser/mod.rs:58`, `/repo/src/parser/err.rs:13-30`, `/repo/src/analyzer/err.rs:136-145` (pest `Error` built there). -/
def Quote.spacing (q : Quote) : Str :=
  let line := match q.stop with
    | none => q.start.1
    | some e => max q.start.1 e.1
  List.replicate (F64.natDigits line).length ' '

/-- The part of the marker under the characters before it: tabs stay tabs.
`/repo/src/parser/mod.rs:58`, `/repo/src/parser/err.rs:13-30`, `/repo/src/analyzer/err.rs:136-145` (pest `Error` built there). -/
def underBlanks (s : Str) : Str := s.map fun c => if c = '\t' then '\t' else ' '

/-- `Error::underline`.
`/repo/src/parser/mod.rs:58`, `/repo/src/parser/err.rs:13-30`, `/repo/src/analyzer/err.rs:136-145` (pest `Error` built there). -/
def Quote.underline (q : Quote) : Option Str := do
  match q.stop with
  | none =>
    let offset ← usizeSub q.start.2 1
    return underBlanks (q.line.take offset) ++ k!"^---"
  | some e =>
    let (start, stop) ←
      if e.2 < q.start.2 then do
        let start ← usizeSub e.2 1
        pure (start, q.start.2 + 1)
      else pure (q.start.2, e.2)
    let offset ← usizeSub start 1
    let n ← usizeSub stop start
    return underBlanks (q.line.take offset) ++ k!"^" ++
      (if 1 < n then List.replicate (n - 2) '-' ++ k!"^" else [])

/-- `{n:w$}`: a number, right-aligned.
`/repo/src/parser/mod.rs:58`, `/repo/src/parser/err.rs:13-30`, `/repo/src/analyzer/err.rs:136-145` (pest `Error` built there). -/
def padNat (w n : Nat) : Str := List.replicate (w - (F64.natDigits n).length) ' ' ++ F64.natDigits n

/-- The lines of `Error::format` up to the source line.
`/repo/src/parser/mod.rs:58`, `/repo/src/parser/err.rs:13-30`, `/repo/src/analyzer/err.rs:136-145` (pest `Error` built there). -/
def Quote.head (q : Quote) : Str :=
  q.spacing ++ k!"--> " ++ F64.natDigits q.start.1 ++ k!":" ++ F64.natDigits q.start.2 ++ k!"\n" ++
    q.spacing ++ k!" |\n" ++ padNat q.spacing.length q.start.1 ++ k!" | " ++ q.line ++ k!"\n"

/-- The lines of `Error::format` from the marker on.
`/repo/src/parser/mod.rs:58`, `/repo/src/parser/err.rs:13-30`, `/repo/src/analyzer/err.rs:136-145` (pest `Error` built there). -/
def Quote.foot (q : Quote) (underline message : Str) : Str :=
  q.spacing ++ k!" | " ++ underline ++ k!"\n" ++ q.spacing ++ k!" |\n" ++ q.spacing ++ k!" = " ++ message

/-- `Error::format`.
`/repo/src/parser/mod.rs:58`, `/repo/src/parser/err.rs:13-30`, `/repo/src/analyzer/err.rs:136-145` (pest `Error` built there). -/
def Quote.format (q : Quote) (message : Str) : Option Str :=
  q.underline.bind fun underline =>
    match q.stop, q.continued with
    | some e, some cont =>
      (usizeSub e.1 q.start.1).bind fun gap =>
        some (q.head ++ (if 1 < gap then q.spacing ++ k!" | ...\n" else []) ++ padNat q.spacing.length e.1 ++ k!" | " ++ cont ++
          k!"\n" ++ q.foot underline message)
    | _, _ => some (q.head ++ q.foot underline message)

/-- The fields of an error that its text is made of.
`/repo/src/parser/mod.rs:58`, `/repo/src/parser/err.rs:13-30`, `/repo/src/analyzer/err.rs:136-145` (pest `Error` built there). -/
def PError.quote (input : Str) (e : PError) : Option Quote :=
  match e.range with
  | none => Quote.ofPos input (e.start input)
  | some sp => Quote.ofSpan input sp

/-- `impl Display for Error`: the text of an error.
`/repo/src/parser/mod.rs:58`, `/repo/src/parser/err.rs:13-30`, `/repo/src/analyzer/err.rs:136-145` (pest `Error` built there). -/
def PError.render (input : Str) (e : PError) : Option Str := do
  let q ← e.quote input
  q.format (e.fullMessage input)

end Dbml
