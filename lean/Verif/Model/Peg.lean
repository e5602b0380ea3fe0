import Verif.Model.Str

/-!
# pest's parsing-expression semantics

`/repo/src/parser/mod.rs:18-20` derives the recognizer from `/repo/src/dbml.pest` with the
`pest_derive` macro. The dependency is not vendored; this file models pest 2.7's documented
semantics of the constructs that `dbml.pest` uses:

* ordered choice, greedy repetition, options and negative lookahead never backtrack into a
  sub-expression that succeeded;
* between the parts of a sequence and between repetitions, implicit `WHITESPACE`/`COMMENT` is
  skipped when (and only when) the dynamic atomicity is `NonAtomic`;
* `@{..}` switches to `Atomic` (no skipping, inner rules emit no tokens), `${..}` to
  `CompoundAtomic` (no skipping, inner rules do emit tokens), `{..}` inherits;
* a rule that succeeds outside an `Atomic` context emits one pair that owns the pairs emitted
  inside it.

Not modelled here: where pest reports a failure (see `Model/ErrorPos.lean`) and which rules it reports as expected
(see `Model/Expected.lean`). Not modelled at all: its call limit.
-/

namespace Dbml

/-- `pest::Atomicity`. -/
inductive Atomicity where
  | nonAtomic | compound | atomic
deriving DecidableEq, Repr

/-- Rule modifiers of the grammar file: `{}`, `@{}`, `${}`.
`/repo/src/dbml.pest` (e.g. lines 9, 10). -/
inductive Modifier where
  | normal | atomic | compound
deriving DecidableEq, Repr

/-- The named rules of `/repo/src/dbml.pest` that can appear as tokens (plus pest's `EOI`). -/
inductive Rule where
  | double_quoted_value | double_quoted_string | single_quoted_value | single_quoted_string
  | backquoted_quoted_value | backquoted_quoted_string | triple_quoted_value | triple_quoted_string
  | var | spaced_var | ident | property | attribute | block_settings | string_value | integer
  | decimal | number_value | boolean_value | hex_value | value | decl_ident | relation
  | rel_settings | ref_composition | ref_ident | ref_inline | ref_stmt | ref_short | ref_block
  | ref_decl | note_short | note_block | note_decl | indexes_settings
  | indexes_ident | indexes_multi | indexes_single | indexes_block | indexes_decl
  | enum_settings | enum_value | enum_block | enum_decl | col_attribute | col_settings
  | col_type_arg | col_type_array | col_type_unquoted | col_type_quoted | col_type | table_col
  | table_block | table_alias | table_decl | table_group_block | table_group_decl
  | project_block | project_decl | schema | EOI
deriving DecidableEq, Repr

/-- `pest::iterators::Pair`: rule, byte span, the matched text (`as_str`), and inner pairs
(`into_inner`). pest computes `as_str` by slicing the input at the span; here the text is stored
when the rule succeeds. `Dbml.Props.C07_raw_is_source` proves that the two agree wherever the AST
keeps the text. -/
inductive Pair where
  | mk (rule : Rule) (span : Span) (text : Str) (children : List Pair)
deriving Repr

namespace Pair
/-- `Pair::as_rule`.
`/repo/src/parser/mod.rs:62-960` (throughout). -/
def rule : Pair → Rule | mk r _ _ _ => r
/-- `Pair::as_span` composed with `s2r` (`/repo/src/parser/helper.rs:6-8`). -/
def span : Pair → Span | mk _ s _ _ => s
/-- `Pair::as_str`.
`/repo/src/parser/mod.rs:62-960` (throughout). -/
def text : Pair → Str | mk _ _ t _ => t
/-- `Pair::into_inner`.
`/repo/src/parser/mod.rs:62-960` (throughout). -/
def children : Pair → List Pair | mk _ _ _ cs => cs
end Pair

/-- Parsing expressions. A reference to a named rule carries the rule's body, which is possible
because the rule graph of `dbml.pest` is acyclic. -/
inductive PExpr where
  /-- `"..."` -/
  | str (s : Str)
  /-- `^"..."`, ASCII-case-insensitive literal -/
  | insens (s : Str)
  /-- one character of a class (`ASCII_ALPHA`, `ASCII_DIGIT`, `ANY`, ...) -/
  | cls (p : Char → Bool)
  /-- `SOI` -/
  | soi
  /-- `EOI` (emits a token) -/
  | eoi
  /-- `a ~ b` -/
  | seq (a b : PExpr)
  /-- `a | b` -/
  | alt (a b : PExpr)
  /-- `a?` -/
  | opt (a : PExpr)
  /-- `a*` -/
  | star (a : PExpr)
  /-- `!a` -/
  | neg (a : PExpr)
  /-- a named rule with its modifier and body -/
  | rule (r : Rule) (m : Modifier) (body : PExpr)

/-- Outcome of running an expression: success with the consumed prefix, the remaining input and
the emitted pairs; failure; or an infinite loop (a repetition whose body succeeds without
consuming anything).
`/repo/src/parser/mod.rs:57-58` (pest runtime behind `DBMLParser::parse`). -/
inductive Res where
  | ok (consumed rest : Str) (pairs : List Pair)
  | fail
  | diverge

/-- Prefix test returning the rest, for `"..."` literals.
`/repo/src/parser/mod.rs:57-58` (pest runtime behind `DBMLParser::parse`). -/
def stripPrefix : Str → Str → Option Str
  | [], inp => some inp
  | _ :: _, [] => none
  | k :: ks, c :: cs => if k = c then stripPrefix ks cs else none

/-- `u8::to_ascii_lowercase`, applied to `char`s.
`/repo/src/parser/mod.rs:57-58` (pest runtime behind `DBMLParser::parse`). -/
def asciiLower (c : Char) : Char :=
  if 'A' ≤ c ∧ c ≤ 'Z' then Char.ofNat (c.toNat + 32) else c

/-- `Position::match_insensitive`: `input[..s.len()].eq_ignore_ascii_case(s)`; returns the matched
text and the rest. (All `^"..."` literals of the grammar are ASCII.).
`/repo/src/parser/mod.rs:57-58` (pest runtime behind `DBMLParser::parse`). -/
def stripPrefixCI : Str → Str → Option (Str × Str)
  | [], inp => some ([], inp)
  | _ :: _, [] => none
  | k :: ks, c :: cs =>
    if asciiLower k = asciiLower c then
      (stripPrefixCI ks cs).map fun (m, r) => (c :: m, r)
    else none

/-- The repetition loop of `ParserState::repeat`: run `step` until it fails. A successful step
that consumes nothing would make pest loop forever. The first argument is fuel; it is always
started at `input length + 1`, which cannot run out because every continuing step consumes. -/
def repLoop (step : Nat → Str → Res) : Nat → Nat → Str → Res
  | 0, _, _ => .diverge
  | fuel + 1, pos, inp =>
    match step pos inp with
    | .fail => .ok [] inp []
    | .diverge => .diverge
    | .ok [] _ _ => .diverge
    | .ok c r ps =>
      match repLoop step fuel (pos + blen c) r with
      | .ok c' r' ps' => .ok (c ++ c') r' (ps ++ ps')
      | .fail => .fail
      | .diverge => .diverge

/-- Implicit skipping is only done in `NonAtomic` context (`hidden::skip` in pest's generated
code). -/
def skipIf (skip : Str → Res) (a : Atomicity) (inp : Str) : Res :=
  match a with
  | .nonAtomic => skip inp
  | _ => .ok [] inp []

/-- The atomicity in which the body of a rule runs.
`/repo/src/parser/mod.rs:57-58` (pest runtime behind `DBMLParser::parse`). -/
def bodyAtomicity (m : Modifier) (a : Atomicity) : Atomicity :=
  match m with
  | .normal => a
  | .atomic => .atomic
  | .compound => .compound

/-- Whether a succeeding rule emits a pair: `ParserState::rule` emits unless the atomicity in
which it is called is `Atomic`; `${}` rules switch to `CompoundAtomic` *before* calling it.
`/repo/src/parser/mod.rs:57-58` (pest runtime behind `DBMLParser::parse`). -/
def emits (m : Modifier) (a : Atomicity) : Bool :=
  match m with
  | .compound => true
  | _ => a ≠ .atomic

/-- Sequencing with implicit skipping in between: `a ~ skip ~ b`.
`/repo/src/parser/mod.rs:57-58` (pest runtime behind `DBMLParser::parse`). -/
def seqRes (skip : Str → Res) (at' : Atomicity) (pos : Nat) (ra : Res)
    (kb : Nat → Str → Res) : Res :=
  match ra with
  | .fail => .fail
  | .diverge => .diverge
  | .ok c1 r1 p1 =>
    match skipIf skip at' r1 with
    | .fail => .fail
    | .diverge => .diverge
    | .ok c2 r2 _ =>
      match kb (pos + blen c1 + blen c2) r2 with
      | .fail => .fail
      | .diverge => .diverge
      | .ok c3 r3 p3 => .ok (c1 ++ c2 ++ c3) r3 (p1 ++ p3)

/-- The interpreter for parsing expressions (pest's generated recognizer). `pos` is the byte
offset of `inp` in the whole text. -/
def run (skip : Str → Res) : PExpr → Atomicity → Nat → Str → Res
  | .str s, _, _, inp =>
    match stripPrefix s inp with
    | some r => .ok s r []
    | none => .fail
  | .insens s, _, _, inp =>
    match stripPrefixCI s inp with
    | some (m, r) => .ok m r []
    | none => .fail
  | .cls p, _, _, inp =>
    match inp with
    | c :: cs => if p c then .ok [c] cs [] else .fail
    | [] => .fail
  | .soi, _, pos, inp => if pos = 0 then .ok [] inp [] else .fail
  | .eoi, at', pos, inp =>
    match inp with
    | [] => .ok [] [] (if at' = .atomic then [] else [.mk .EOI ⟨pos, pos⟩ [] []])
    | _ => .fail
  | .seq a b, at', pos, inp =>
    seqRes skip at' pos (run skip a at' pos inp) (fun p i => run skip b at' p i)
  | .alt a b, at', pos, inp =>
    match run skip a at' pos inp with
    | .fail => run skip b at' pos inp
    | r => r
  | .opt a, at', pos, inp =>
    match run skip a at' pos inp with
    | .fail => .ok [] inp []
    | r => r
  | .star a, at', pos, inp =>
    match run skip a at' pos inp with
    | .fail => .ok [] inp []
    | .diverge => .diverge
    | .ok c r ps =>
      match repLoop
          (fun p i => seqRes skip at' p (.ok [] i []) (fun p' i' => run skip a at' p' i'))
          (r.length + 1) (pos + blen c) r with
      | .ok c' r' ps' => .ok (c ++ c') r' (ps ++ ps')
      | .fail => .fail
      | .diverge => .diverge
  | .neg a, at', pos, inp =>
    match run skip a at' pos inp with
    | .fail => .ok [] inp []
    | .diverge => .diverge
    | .ok _ _ _ => .fail
  | .rule r m body, at', pos, inp =>
    match run skip body (bodyAtomicity m at') pos inp with
    | .fail => .fail
    | .diverge => .diverge
    | .ok c rest ps =>
      .ok c rest (if emits m at' then [.mk r ⟨pos, pos + blen c⟩ c ps] else ps)

end Dbml
