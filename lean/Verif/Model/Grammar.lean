import Verif.Model.Peg

/-!
# The DBML grammar, `/repo/src/dbml.pest`

One definition per grammar rule, in file order, as a `PExpr`. `a ~ b`, `a | b`, `a?`, `a*` and
`!a` are written with the combinators of `PExpr`. `x+` is unrolled to `x ~ x*`, `x{3}` to
`x ~ x ~ x` and `x{1,2}` to `x ~ x?`, as pest's own optimizer does.
The unused rule `note_inline` (line 52) is left out: no other rule refers to it.
-/

namespace Dbml
namespace G

/-- Sequence `a ~ b`. -/
infixr:35 " ~~ " => PExpr.seq
/-- Ordered choice `a | b`. -/
infixr:30 " <//> " => PExpr.alt

/-- pest `ASCII_ALPHA`. -/
def isAlpha (c : Char) : Bool := (decide ('a' ≤ c) && decide (c ≤ 'z')) || (decide ('A' ≤ c) && decide (c ≤ 'Z'))
/-- pest `ASCII_DIGIT`. -/
def isDigit (c : Char) : Bool := decide ('0' ≤ c) && decide (c ≤ '9')
/-- pest `ASCII_ALPHANUMERIC`. -/
def isAlnum (c : Char) : Bool := isAlpha c || isDigit c
/-- pest `ASCII_HEX_DIGIT`. -/
def isHex (c : Char) : Bool :=
  isDigit c || (decide ('a' ≤ c) && decide (c ≤ 'f')) || (decide ('A' ≤ c) && decide (c ≤ 'F'))
/-- `ASCII_ALPHANUMERIC | "_"`, as a single character class.
`/repo/src/dbml.pest:18-19`. -/
def isWordChar (c : Char) : Bool := isAlnum c || c == '_'

/-- pest built-in, used by `/repo/src/dbml.pest`. -/
def ASCII_ALPHA : PExpr := .cls isAlpha
/-- pest built-in, used by `/repo/src/dbml.pest`. -/
def ASCII_DIGIT : PExpr := .cls isDigit
/-- pest built-in, used by `/repo/src/dbml.pest`. -/
def ASCII_HEX_DIGIT : PExpr := .cls isHex
/-- pest `ANY`. -/
def ANY : PExpr := .cls fun _ => true
/-- pest `NEWLINE = "\n" | "\r\n" | "\r"`. -/
def NEWLINE : PExpr := .str ['\n'] <//> .str ['\r', '\n'] <//> .str ['\r']
/-- `dbml.pest:18,19`: `(ASCII_ALPHANUMERIC | "_")`, written as one class. -/
def WORD : PExpr := .cls isWordChar

/-- `dbml.pest:1` -/
def WHITESPACE : PExpr := .str k!" " <//> .str ['\t'] <//> NEWLINE
/-- `dbml.pest:5` -/
def single_line_comment : PExpr := .str k!"//" ~~ .star (.neg NEWLINE ~~ ANY)
/-- `dbml.pest:6` -/
def multi_line_comment : PExpr := .str k!"/*" ~~ .star (.neg (.str k!"*/") ~~ ANY) ~~ .str k!"*/"
/-- `dbml.pest:2` -/
def COMMENT : PExpr := single_line_comment <//> multi_line_comment

/-- pest's implicit skip when both `WHITESPACE` and `COMMENT` are defined:
`WHITESPACE* ~ (COMMENT ~ WHITESPACE*)*`, run atomically. -/
def skipExpr : PExpr := .star WHITESPACE ~~ .star (COMMENT ~~ .star WHITESPACE)

/-- The skipper. It runs in `Atomic` mode, so the skip passed to it is never used.
`/repo/src/dbml.pest:1-6`. -/
def skip (inp : Str) : Res := run (fun i => .ok [] i []) skipExpr .atomic 0 inp

/-- `dbml.pest:9` -/
def double_quoted_value : PExpr := .rule .double_quoted_value .atomic (.star (.neg (.str k!"\"") ~~ ANY))
/-- `dbml.pest:10` -/
def double_quoted_string : PExpr :=
  .rule .double_quoted_string .normal (.str k!"\"" ~~ double_quoted_value ~~ .str k!"\"")
/-- `dbml.pest:11` -/
def single_quoted_value : PExpr := .rule .single_quoted_value .atomic (.star (.neg (.str k!"'") ~~ ANY))
/-- `dbml.pest:12` -/
def single_quoted_string : PExpr :=
  .rule .single_quoted_string .normal (.str k!"'" ~~ single_quoted_value ~~ .str k!"'")
/-- `dbml.pest:13` -/
def backquoted_quoted_value : PExpr :=
  .rule .backquoted_quoted_value .atomic (.star (.neg (.str k!"`") ~~ ANY))
/-- `dbml.pest:14` -/
def backquoted_quoted_string : PExpr :=
  .rule .backquoted_quoted_string .normal (.str k!"`" ~~ backquoted_quoted_value ~~ .str k!"`")
/-- `dbml.pest:15` -/
def triple_quoted_value : PExpr :=
  .rule .triple_quoted_value .atomic (.star (.neg (.str k!"'''") ~~ ANY))
/-- `dbml.pest:16` -/
def triple_quoted_string : PExpr :=
  .rule .triple_quoted_string .normal (.str k!"'''" ~~ triple_quoted_value ~~ .str k!"'''")

/-- `dbml.pest:18` -/
def var : PExpr := .rule .var .atomic (ASCII_ALPHA ~~ .star WORD)
/-- `dbml.pest:19` -/
def spaced_var : PExpr := .rule .spaced_var .atomic (ASCII_ALPHA ~~ .star (.opt (.str k!" ") ~~ WORD))
/-- `dbml.pest:21` -/
def ident : PExpr := .rule .ident .normal (var <//> double_quoted_string)

/-- `dbml.pest:29` -/
def string_value : PExpr := .rule .string_value .normal (triple_quoted_string <//> single_quoted_string)
/-- `dbml.pest:30` -/
def integer : PExpr := .rule .integer .atomic (ASCII_DIGIT ~~ .star ASCII_DIGIT)
/-- `dbml.pest:31` -/
def decimal : PExpr :=
  .rule .decimal .atomic ((ASCII_DIGIT ~~ .star ASCII_DIGIT) ~~ .str k!"." ~~ .star ASCII_DIGIT)
/-- `dbml.pest:32` -/
def number_value : PExpr := .rule .number_value .normal (decimal <//> integer)
/-- `dbml.pest:33` -/
def boolean_value : PExpr :=
  .rule .boolean_value .atomic (.str k!"true" <//> .str k!"false" <//> .str k!"null")
/-- `ASCII_HEX_DIGIT{3}` of `dbml.pest:34` -/
def hex3 : PExpr := ASCII_HEX_DIGIT ~~ ASCII_HEX_DIGIT ~~ ASCII_HEX_DIGIT
/-- `dbml.pest:34` -/
def hex_value : PExpr := .rule .hex_value .atomic (.str k!"#" ~~ hex3 ~~ .opt hex3)
/-- `dbml.pest:35` -/
def value : PExpr :=
  .rule .value .normal
    (string_value <//> backquoted_quoted_string <//> boolean_value <//> number_value <//> hex_value)

/-- `dbml.pest:24` -/
def property : PExpr := .rule .property .normal (spaced_var ~~ .str k!":" ~~ (value <//> spaced_var))
/-- `dbml.pest:25` -/
def attr : PExpr :=
  .rule .attribute .normal
    (spaced_var ~~ .opt (.str k!":" ~~ (value <//> spaced_var <//> double_quoted_string)))
/-- The common shape `"[" ~ (item ~ ("," ~ item)*)? ~ "]"` of `dbml.pest:26,42,58,66,73`. -/
def bracketed (item : PExpr) : PExpr :=
  .str k!"[" ~~ .opt (item ~~ .star (.str k!"," ~~ item)) ~~ .str k!"]"
/-- `dbml.pest:26` -/
def block_settings : PExpr := .rule .block_settings .normal (bracketed attr)

/-- `dbml.pest:38` -/
def decl_ident : PExpr := .rule .decl_ident .normal (ident ~~ .opt (.str k!"." ~~ ident))

/-- `dbml.pest:41` -/
def relation : PExpr :=
  .rule .relation .atomic (.str k!"<>" <//> .str k!"-" <//> .str k!">" <//> .str k!"<")
/-- `dbml.pest:42` -/
def rel_settings : PExpr := .rule .rel_settings .normal (bracketed attr)
/-- `dbml.pest:43` -/
def ref_composition : PExpr :=
  .rule .ref_composition .normal
    (ident <//> (.str k!"(" ~~ ident ~~ .star (.str k!"," ~~ ident) ~~ .str k!")"))
/-- `dbml.pest:44` -/
def ref_ident : PExpr :=
  .rule .ref_ident .normal (ident ~~ .str k!"." ~~ .opt (ident ~~ .str k!".") ~~ ref_composition)
/-- `dbml.pest:45` -/
def ref_inline : PExpr := .rule .ref_inline .normal (.str k!"ref" ~~ .str k!":" ~~ relation ~~ ref_ident)
/-- `dbml.pest:46` -/
def ref_stmt : PExpr := .rule .ref_stmt .normal (ref_ident ~~ relation ~~ ref_ident ~~ .opt rel_settings)
/-- `dbml.pest:47` -/
def ref_short : PExpr := .rule .ref_short .normal (.insens k!"Ref" ~~ .opt ident ~~ .str k!":" ~~ ref_stmt)
/-- `dbml.pest:48` -/
def ref_block : PExpr :=
  .rule .ref_block .normal (.insens k!"Ref" ~~ .opt ident ~~ .str k!"{" ~~ ref_stmt ~~ .str k!"}")
/-- `dbml.pest:49` -/
def ref_decl : PExpr := .rule .ref_decl .normal (ref_block <//> ref_short)

/-- `dbml.pest:53` -/
def note_short : PExpr := .rule .note_short .normal (.insens k!"Note" ~~ .str k!":" ~~ string_value)
/-- `dbml.pest:54` -/
def note_block : PExpr :=
  .rule .note_block .normal (.insens k!"Note" ~~ .str k!"{" ~~ string_value ~~ .str k!"}")
/-- `dbml.pest:55` -/
def note_decl : PExpr := .rule .note_decl .normal (note_short <//> note_block)

/-- `dbml.pest:58` -/
def indexes_settings : PExpr := .rule .indexes_settings .normal (bracketed attr)
/-- `dbml.pest:59` -/
def indexes_ident : PExpr := .rule .indexes_ident .normal (ident <//> backquoted_quoted_string)
/-- `dbml.pest:60` -/
def indexes_multi : PExpr :=
  .rule .indexes_multi .normal
    (.str k!"(" ~~ .opt (indexes_ident ~~ .star (.str k!"," ~~ indexes_ident)) ~~ .str k!")"
      ~~ .opt indexes_settings)
/-- `dbml.pest:61` -/
def indexes_single : PExpr := .rule .indexes_single .normal (indexes_ident ~~ .opt indexes_settings)
/-- `dbml.pest:62` -/
def indexes_block : PExpr :=
  .rule .indexes_block .normal (.str k!"{" ~~ .star (indexes_single <//> indexes_multi) ~~ .str k!"}")
/-- `dbml.pest:63` -/
def indexes_decl : PExpr := .rule .indexes_decl .normal (.insens k!"Indexes" ~~ indexes_block)

/-- `dbml.pest:66` -/
def enum_settings : PExpr := .rule .enum_settings .normal (bracketed attr)
/-- `dbml.pest:67` -/
def enum_value : PExpr := .rule .enum_value .normal (ident ~~ .opt enum_settings)
/-- `dbml.pest:68` -/
def enum_block : PExpr := .rule .enum_block .normal (.str k!"{" ~~ .star enum_value ~~ .str k!"}")
/-- `dbml.pest:69` -/
def enum_decl : PExpr := .rule .enum_decl .normal (.insens k!"Enum " ~~ decl_ident ~~ enum_block)

/-- `dbml.pest:72` -/
def col_attribute : PExpr := .rule .col_attribute .normal (ref_inline <//> attr)
/-- `dbml.pest:73` -/
def col_settings : PExpr := .rule .col_settings .normal (bracketed col_attribute)
/-- `dbml.pest:74` -/
def col_type_arg : PExpr :=
  .rule .col_type_arg .normal (.str k!"(" ~~ .opt (value ~~ .star (.str k!"," ~~ value)) ~~ .str k!")")
/-- `dbml.pest:75` -/
def col_type_array : PExpr := .rule .col_type_array .normal (.str k!"[" ~~ .opt integer ~~ .str k!"]")
/-- `dbml.pest:76` -/
def col_type_unquoted : PExpr :=
  .rule .col_type_unquoted .compound (var ~~ .opt col_type_arg ~~ .star col_type_array)
/-- `dbml.pest:77` -/
def col_type_quoted : PExpr :=
  .rule .col_type_quoted .compound
    (.str k!"\"" ~~ spaced_var ~~ .opt col_type_arg ~~ .star col_type_array ~~ .str k!"\""
      ~~ .star col_type_array)
/-- `dbml.pest:78` -/
def col_type : PExpr :=
  .rule .col_type .compound (.opt (ident ~~ .str k!".") ~~ (col_type_quoted <//> col_type_unquoted))
/-- `dbml.pest:79` -/
def table_col : PExpr := .rule .table_col .normal (ident ~~ col_type ~~ .opt col_settings)
/-- `dbml.pest:80` -/
def table_block : PExpr :=
  .rule .table_block .normal (.str k!"{" ~~ .star (table_col <//> note_decl <//> indexes_decl) ~~ .str k!"}")
/-- `dbml.pest:81` -/
def table_alias : PExpr := .rule .table_alias .normal (.insens k!"as " ~~ ident)
/-- `dbml.pest:82` -/
def table_decl : PExpr :=
  .rule .table_decl .normal
    (.insens k!"Table " ~~ decl_ident ~~ .opt table_alias ~~ .opt block_settings ~~ table_block)

/-- `dbml.pest:85` -/
def table_group_block : PExpr :=
  .rule .table_group_block .normal (.str k!"{" ~~ .star (note_decl <//> decl_ident) ~~ .str k!"}")
/-- `dbml.pest:86` -/
def table_group_decl : PExpr :=
  .rule .table_group_decl .normal
    (.insens k!"TableGroup " ~~ ident ~~ .opt block_settings ~~ table_group_block)

/-- `dbml.pest:89` -/
def project_block : PExpr :=
  .rule .project_block .normal (.str k!"{" ~~ .star (note_decl <//> property) ~~ .str k!"}")
/-- `dbml.pest:90` -/
def project_decl : PExpr := .rule .project_decl .normal (.insens k!"Project " ~~ ident ~~ project_block)

/-- The top-level alternatives of `dbml.pest:92`. -/
def top_decl : PExpr :=
  project_decl <//> table_decl <//> enum_decl <//> ref_decl <//> table_group_decl <//> note_decl
/-- `dbml.pest:92` -/
def schema : PExpr := .rule .schema .normal (.soi ~~ .star top_decl ~~ .eoi)

end G

/-- `DBMLParser::parse(Rule::schema, input)` (`/repo/src/parser/mod.rs:58`): run the top rule at
offset 0 in `NonAtomic` mode. -/
def pestParse (input : Str) : Res := run G.skip G.schema .nonAtomic 0 input

end Dbml
