/-!
# Strings, byte offsets and spans

Rust `&str`/`String` are modelled as lists of Unicode scalar values (`List Char`).
Byte offsets (what pest's `Span` and the AST's `span_range` hold) are sums of the
UTF-8 sizes of characters.
-/

namespace Dbml

/-- Rust `String` / `&str`, as the sequence of its `char`s.
`/repo/src/parser/mod.rs:57` and every string of `/repo/src/ast`. -/
abbrev Str := List Char

open Lean in
/-- `k!"abc"` is the explicit list `['a', 'b', 'c']` (built at elaboration time, so that the
kernel never has to unfold `String` operations). -/
macro:max "k!" s:str : term => do
  let cs := s.getString.toList.toArray.map fun c => Syntax.mkCharLit c
  `(([$cs,*] : List Char))

/-- `str::len`: the number of UTF-8 bytes of a string. Used by `src/analyzer/mod.rs:342,347`
(`val.len()`) and, through pest positions, by every span. -/
def blen : Str → Nat
  | [] => 0
  | c :: cs => c.utf8Size + blen cs

/-- `src/ast/mod.rs:3`: `SpanRange = Range<usize>`; `Default` is `0..0`. -/
structure Span where
  start : Nat
  stop : Nat
deriving DecidableEq, Repr, Inhabited

/-- `Range::<usize>::default()`.
`/repo/src/ast/mod.rs:3`. -/
def Span.zero : Span := ⟨0, 0⟩

/-- `str::is_char_boundary`, the condition under which `Span::new(input, ..)`
(`src/analyzer/err.rs:137`) accepts an endpoint: the offset is the byte length of a prefix. -/
def isBoundary : Str → Nat → Bool
  | _, 0 => true
  | [], _ + 1 => false
  | c :: cs, n + 1 => if c.utf8Size ≤ n + 1 then isBoundary cs (n + 1 - c.utf8Size) else false

/-- `pest::Span::new(input, start, end).is_some()` = `input.get(start..end).is_some()`:
`start ≤ end` and both are char boundaries of `input` (in particular `≤ input.len()`). -/
def Span.valid (input : Str) (s : Span) : Bool :=
  decide (s.start ≤ s.stop) && isBoundary input s.start && isBoundary input s.stop

/-- Drops `n` bytes from the front (`n` assumed to be a boundary; stops early otherwise).
`/repo/src/parser/mod.rs:57-58` (pest `as_str`). -/
def dropBytes : Str → Nat → Str
  | cs, 0 => cs
  | [], _ + 1 => []
  | c :: cs, n + 1 => if c.utf8Size ≤ n + 1 then dropBytes cs (n + 1 - c.utf8Size) else c :: cs

/-- Takes `n` bytes from the front (`n` assumed to be a boundary; stops early otherwise).
`/repo/src/parser/mod.rs:57-58` (pest `as_str`). -/
def takeBytes : Str → Nat → Str
  | _, 0 => []
  | [], _ + 1 => []
  | c :: cs, n + 1 => if c.utf8Size ≤ n + 1 then c :: takeBytes cs (n + 1 - c.utf8Size) else []

/-- `&input[start..end]` for a valid span.
`/repo/src/parser/mod.rs:57-58` (pest `as_str`). -/
def slice (input : Str) (s : Span) : Str :=
  takeBytes (dropBytes input s.start) (s.stop - s.start)

end Dbml
