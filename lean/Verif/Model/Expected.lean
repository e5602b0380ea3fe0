import Verif.Model.ErrorPos
import Verif.Model.Message

/-!
# What a syntax error says was expected

When the recognizer fails (`/repo/src/parser/mod.rs:57-58`), pest 2.7 returns `ErrorVariant::ParsingError { positives,
negatives }` at `attempt_pos`. `positives` are the rules "expected" there. They are collected by `ParserState::rule` and
`ParserState::track` (`pest/src/parser_state.rs`) while the recognizer runs, in `pos_attempts`; at the end they are
sorted and deduplicated (`pest::state`).

`expect` follows the control flow of `run` and passes the two fields of `ParserState` through. As in `attempt`, nothing is
tracked under `!` (its operands contain no named rule, see `negPlain` in `Proofs/Expected.lean`) and while skipping
(`WHITESPACE` and `COMMENT` run in `Atomic` mode); `neg_attempts`, to which only rules under `!` are added, is therefore
always empty and left out. The text of the error (`ErrorVariant::message`) is modelled as well; the
rendering of the source line around it is in `Render.lean`.
-/

namespace Dbml

/-- The fields `attempt_pos` and `pos_attempts` of `ParserState`.
`/repo/src/parser/mod.rs:57-58` (pest runtime behind `DBMLParser::parse`). -/
structure Attempts where
  pos : Nat := 0
  rules : List Rule := []
deriving DecidableEq, Repr

/-- `ParserState::attempts_at`.
`/repo/src/parser/mod.rs:57-58` (pest runtime behind `DBMLParser::parse`). -/
def Attempts.countAt (a : Attempts) (p : Nat) : Nat := if a.pos = p then a.rules.length else 0

/-- `pos_attempts_index` of `ParserState::rule`.
`/repo/src/parser/mod.rs:57-58` (pest runtime behind `DBMLParser::parse`). -/
def Attempts.index (a : Attempts) (p : Nat) : Nat := if p = a.pos then a.rules.length else 0

/-- `ParserState::track`, outside of `Atomic` mode and negative lookahead: `idx` and `prev` are the index and count
before the rule was tried. If exactly one attempt was added at the place of the rule, it is left alone; otherwise the
attempts of its parts at this place are replaced by the rule itself.
`/repo/src/parser/mod.rs:57-58` (pest runtime behind `DBMLParser::parse`). -/
def Attempts.track (a : Attempts) (r : Rule) (p idx prev : Nat) : Attempts :=
  if prev < a.countAt p ∧ a.countAt p - prev = 1 then a
  else
    let a1 := if p = a.pos then { a with rules := a.rules.take idx } else a
    let a2 : Attempts := if a1.pos < p then { pos := p, rules := [] } else a1
    if p = a2.pos then { a2 with rules := a2.rules ++ [r] } else a2

/-- `ParserState::rule` on failure: `before` is the state before the rule was tried.
`/repo/src/parser/mod.rs:57-58` (pest runtime behind `DBMLParser::parse`). -/
def Attempts.failed (before after : Attempts) (r : Rule) (p : Nat) : Attempts :=
  after.track r p (before.index p) (before.countAt p)

/-- A repetition (see `repLoop`).
`/repo/src/parser/mod.rs:57-58` (pest runtime behind `DBMLParser::parse`). -/
def expectLoop (step : Nat → Str → Res) (att : Nat → Str → Attempts → Attempts) : Nat → Nat → Str → Attempts → Attempts
  | 0, _, _, a => a
  | fuel + 1, pos, inp, a =>
    match step pos inp with
    | .ok (x :: xs) r _ => expectLoop step att fuel (pos + blen (x :: xs)) r (att pos inp a)
    | _ => att pos inp a

/-- What comes after the implicit skip that follows a success (see `seqRes`).
`/repo/src/parser/mod.rs:57-58` (pest runtime behind `DBMLParser::parse`). -/
def expectNext (skip : Str → Res) (at' : Atomicity) (pos : Nat) (ra : Res) (kb : Nat → Str → Attempts → Attempts)
    (a : Attempts) : Attempts :=
  match ra with
  | .ok c1 r1 _ =>
    match skipIf skip at' r1 with
    | .ok c2 r2 _ => kb (pos + blen c1 + blen c2) r2 a
    | _ => a
  | _ => a

/-- The attempts after running the expression.
`/repo/src/parser/mod.rs:57-58` (pest runtime behind `DBMLParser::parse`). -/
def expect (skip : Str → Res) : PExpr → Atomicity → Nat → Str → Attempts → Attempts
  | .str _, _, _, _, a => a
  | .insens _, _, _, _, a => a
  | .cls _, _, _, _, a => a
  | .soi, _, _, _, a => a
  | .eoi, at', pos, inp, a =>
    match inp with
    | [] => a
    | _ => if at' = .atomic then a else a.failed a .EOI pos
  | .seq e f, at', pos, inp, a =>
    expectNext skip at' pos (run skip e at' pos inp) (fun p i => expect skip f at' p i) (expect skip e at' pos inp a)
  | .alt e f, at', pos, inp, a =>
    match run skip e at' pos inp with
    | .fail => expect skip f at' pos inp (expect skip e at' pos inp a)
    | _ => expect skip e at' pos inp a
  | .opt e, at', pos, inp, a => expect skip e at' pos inp a
  | .star e, at', pos, inp, a =>
    match run skip e at' pos inp with
    | .ok c r _ =>
      expectLoop (fun p i => seqRes skip at' p (.ok [] i []) (fun p' i' => run skip e at' p' i'))
        (fun p i => expectNext skip at' p (.ok [] i []) fun p' i' => expect skip e at' p' i')
        (r.length + 1) (pos + blen c) r (expect skip e at' pos inp a)
    | _ => expect skip e at' pos inp a
  | .neg _, _, _, _, a => a
  | .rule r m body, at', pos, inp, a =>
    match run skip body (bodyAtomicity m at') pos inp with
    | .fail =>
      if emits m at' then a.failed (expect skip body (bodyAtomicity m at') pos inp a) r pos
      else expect skip body (bodyAtomicity m at') pos inp a
    | _ => expect skip body (bodyAtomicity m at') pos inp a

/-- The order of `Rule` (derived `Ord`): `EOI`, then the rules as they come in `/repo/src/dbml.pest`. -/
def Rule.inOrder : List Rule :=
  [.EOI, .double_quoted_value, .double_quoted_string, .single_quoted_value, .single_quoted_string,
   .backquoted_quoted_value, .backquoted_quoted_string, .triple_quoted_value, .triple_quoted_string,
   .var, .spaced_var, .ident, .property, .attribute, .block_settings, .string_value, .integer,
   .decimal, .number_value, .boolean_value, .hex_value, .value, .decl_ident, .relation,
   .rel_settings, .ref_composition, .ref_ident, .ref_inline, .ref_stmt, .ref_short, .ref_block,
   .ref_decl, .note_short, .note_block, .note_decl, .indexes_settings,
   .indexes_ident, .indexes_multi, .indexes_single, .indexes_block, .indexes_decl,
   .enum_settings, .enum_value, .enum_block, .enum_decl, .col_attribute, .col_settings,
   .col_type_arg, .col_type_array, .col_type_unquoted, .col_type_quoted, .col_type, .table_col,
   .table_block, .table_alias, .table_decl, .table_group_block, .table_group_decl,
   .project_block, .project_decl, .schema]

/-- `positives` of the error of a rejected text, sorted and deduplicated.
`/repo/src/parser/mod.rs:57-58` (pest runtime behind `DBMLParser::parse`). -/
def expectedRules (input : Str) : List Rule :=
  let a := expect G.skip G.schema .nonAtomic 0 input {}
  Rule.inOrder.filter fun r => a.rules.contains r

/-- `Debug` of a rule (derived).
`/repo/src/parser/mod.rs:18-20` (the `Rule` enum derived from `/repo/src/dbml.pest`). -/
def Rule.name : Rule → Str
  | .EOI => k!"EOI"
  | .double_quoted_value => k!"double_quoted_value"
  | .double_quoted_string => k!"double_quoted_string"
  | .single_quoted_value => k!"single_quoted_value"
  | .single_quoted_string => k!"single_quoted_string"
  | .backquoted_quoted_value => k!"backquoted_quoted_value"
  | .backquoted_quoted_string => k!"backquoted_quoted_string"
  | .triple_quoted_value => k!"triple_quoted_value"
  | .triple_quoted_string => k!"triple_quoted_string"
  | .var => k!"var"
  | .spaced_var => k!"spaced_var"
  | .ident => k!"ident"
  | .property => k!"property"
  | .attribute => k!"attribute"
  | .block_settings => k!"block_settings"
  | .string_value => k!"string_value"
  | .integer => k!"integer"
  | .decimal => k!"decimal"
  | .number_value => k!"number_value"
  | .boolean_value => k!"boolean_value"
  | .hex_value => k!"hex_value"
  | .value => k!"value"
  | .decl_ident => k!"decl_ident"
  | .relation => k!"relation"
  | .rel_settings => k!"rel_settings"
  | .ref_composition => k!"ref_composition"
  | .ref_ident => k!"ref_ident"
  | .ref_inline => k!"ref_inline"
  | .ref_stmt => k!"ref_stmt"
  | .ref_short => k!"ref_short"
  | .ref_block => k!"ref_block"
  | .ref_decl => k!"ref_decl"
  | .note_short => k!"note_short"
  | .note_block => k!"note_block"
  | .note_decl => k!"note_decl"
  | .indexes_settings => k!"indexes_settings"
  | .indexes_ident => k!"indexes_ident"
  | .indexes_multi => k!"indexes_multi"
  | .indexes_single => k!"indexes_single"
  | .indexes_block => k!"indexes_block"
  | .indexes_decl => k!"indexes_decl"
  | .enum_settings => k!"enum_settings"
  | .enum_value => k!"enum_value"
  | .enum_block => k!"enum_block"
  | .enum_decl => k!"enum_decl"
  | .col_attribute => k!"col_attribute"
  | .col_settings => k!"col_settings"
  | .col_type_arg => k!"col_type_arg"
  | .col_type_array => k!"col_type_array"
  | .col_type_unquoted => k!"col_type_unquoted"
  | .col_type_quoted => k!"col_type_quoted"
  | .col_type => k!"col_type"
  | .table_col => k!"table_col"
  | .table_block => k!"table_block"
  | .table_alias => k!"table_alias"
  | .table_decl => k!"table_decl"
  | .table_group_block => k!"table_group_block"
  | .table_group_decl => k!"table_group_decl"
  | .project_block => k!"project_block"
  | .project_decl => k!"project_decl"
  | .schema => k!"schema"

/-- `join(", ")`.
`/repo/src/parser/mod.rs:58`, `/repo/src/parser/err.rs:13-30`, `/repo/src/analyzer/err.rs:136-145` (pest `Error` built there). -/
def commaList : List Str → Str
  | [] => []
  | [a] => a
  | a :: b :: l => a ++ k!", " ++ commaList (b :: l)

/-- `Error::enumerate` of `pest/src/error.rs` (never called without rules). -/
def enumerateRules : List Str → Str
  | [] => []
  | [a] => a
  | [a, b] => a ++ k!" or " ++ b
  | l@(_ :: _ :: _ :: _) => commaList l.dropLast ++ k!", or " ++ l.getLast!

/-- `Error::parsing_error_message`, with no `negatives`.
`/repo/src/parser/mod.rs:58`, `/repo/src/parser/err.rs:13-30`, `/repo/src/analyzer/err.rs:136-145` (pest `Error` built there). -/
def parsingErrorMessage (positives : List Rule) : Str :=
  match positives with
  | [] => k!"unknown parsing error"
  | _ => k!"expected " ++ enumerateRules (positives.map Rule.name)

/-- `ErrorVariant::message` of the error returned for the text.
`/repo/src/parser/mod.rs:58`, `/repo/src/parser/err.rs:13-30`, `/repo/src/analyzer/err.rs:136-145` (pest `Error` built there). -/
def PError.fullMessage (input : Str) : PError → Str
  | .syntax => parsingErrorMessage (expectedRules input)
  | .rules rs _ => parsingErrorMessage rs
  | .msg m _ => m
  | .semantic e _ => e.display

end Dbml
