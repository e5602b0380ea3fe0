import Verif.Model.Grammar

/-!
# The rules of the grammar, by name
-/

namespace Dbml.Spec

/-- The definition of a rule in `/repo/src/dbml.pest`. -/
def definition : Rule → PExpr
  | .double_quoted_value => G.double_quoted_value
  | .double_quoted_string => G.double_quoted_string
  | .single_quoted_value => G.single_quoted_value
  | .single_quoted_string => G.single_quoted_string
  | .backquoted_quoted_value => G.backquoted_quoted_value
  | .backquoted_quoted_string => G.backquoted_quoted_string
  | .triple_quoted_value => G.triple_quoted_value
  | .triple_quoted_string => G.triple_quoted_string
  | .var => G.var
  | .spaced_var => G.spaced_var
  | .ident => G.ident
  | .property => G.property
  | .attribute => G.attr
  | .block_settings => G.block_settings
  | .string_value => G.string_value
  | .integer => G.integer
  | .decimal => G.decimal
  | .number_value => G.number_value
  | .boolean_value => G.boolean_value
  | .hex_value => G.hex_value
  | .value => G.value
  | .decl_ident => G.decl_ident
  | .relation => G.relation
  | .rel_settings => G.rel_settings
  | .ref_composition => G.ref_composition
  | .ref_ident => G.ref_ident
  | .ref_inline => G.ref_inline
  | .ref_stmt => G.ref_stmt
  | .ref_short => G.ref_short
  | .ref_block => G.ref_block
  | .ref_decl => G.ref_decl
  | .note_short => G.note_short
  | .note_block => G.note_block
  | .note_decl => G.note_decl
  | .indexes_settings => G.indexes_settings
  | .indexes_ident => G.indexes_ident
  | .indexes_multi => G.indexes_multi
  | .indexes_single => G.indexes_single
  | .indexes_block => G.indexes_block
  | .indexes_decl => G.indexes_decl
  | .enum_settings => G.enum_settings
  | .enum_value => G.enum_value
  | .enum_block => G.enum_block
  | .enum_decl => G.enum_decl
  | .col_attribute => G.col_attribute
  | .col_settings => G.col_settings
  | .col_type_arg => G.col_type_arg
  | .col_type_array => G.col_type_array
  | .col_type_unquoted => G.col_type_unquoted
  | .col_type_quoted => G.col_type_quoted
  | .col_type => G.col_type
  | .table_col => G.table_col
  | .table_block => G.table_block
  | .table_alias => G.table_alias
  | .table_decl => G.table_decl
  | .table_group_block => G.table_group_block
  | .table_group_decl => G.table_group_decl
  | .project_block => G.project_block
  | .project_decl => G.project_decl
  | .schema => G.schema
  | .EOI => .eoi

/-- The text has no `r` at the offset `p`: the rule fails there, in one of the two modes in which it emits a token. -/
def NotAt (text : Str) (p : Nat) (r : Rule) : Prop :=
  ∃ before after mode, text = before ++ after ∧ p = blen before ∧ mode ≠ .atomic ∧
    run G.skip (definition r) mode p after = .fail

/-- The names of the rules of `/repo/src/dbml.pest`, in the order of the file. -/
def ruleNames : List Str :=
  [k!"WHITESPACE", k!"COMMENT", k!"single_line_comment", k!"multi_line_comment", k!"double_quoted_value",
   k!"double_quoted_string", k!"single_quoted_value", k!"single_quoted_string", k!"backquoted_quoted_value",
   k!"backquoted_quoted_string", k!"triple_quoted_value", k!"triple_quoted_string", k!"var", k!"spaced_var",
   k!"ident", k!"property", k!"attribute", k!"block_settings", k!"string_value", k!"integer", k!"decimal",
   k!"number_value", k!"boolean_value", k!"hex_value", k!"value", k!"decl_ident", k!"relation", k!"rel_settings",
   k!"ref_composition", k!"ref_ident", k!"ref_inline", k!"ref_stmt", k!"ref_short", k!"ref_block", k!"ref_decl",
   k!"note_inline", k!"note_short", k!"note_block", k!"note_decl", k!"indexes_settings", k!"indexes_ident",
   k!"indexes_multi", k!"indexes_single", k!"indexes_block", k!"indexes_decl", k!"enum_settings", k!"enum_value",
   k!"enum_block", k!"enum_decl", k!"col_attribute", k!"col_settings", k!"col_type_arg", k!"col_type_array",
   k!"col_type_unquoted", k!"col_type_quoted", k!"col_type", k!"table_col", k!"table_block", k!"table_alias",
   k!"table_decl", k!"table_group_block", k!"table_group_decl", k!"project_block", k!"project_decl", k!"schema"]

/-- An example of each rule of the grammar. (There is none for the end of the input; what stands between quotes may be
empty.) -/
def sample : Rule → Str
  | .EOI => []
  | .double_quoted_value => k!"x y"
  | .double_quoted_string => k!"\"x y\""
  | .single_quoted_value => k!"x y"
  | .single_quoted_string => k!"'x y'"
  | .backquoted_quoted_value => k!"x y"
  | .backquoted_quoted_string => k!"`x y`"
  | .triple_quoted_value => k!"x y"
  | .triple_quoted_string => k!"'''x y'''"
  | .var => k!"x"
  | .spaced_var => k!"x y"
  | .ident => k!"x"
  | .property => k!"x y: 1"
  | .attribute => k!"x y: 1"
  | .block_settings => k!"[x: 1, y]"
  | .string_value => k!"'x y'"
  | .integer => k!"12"
  | .decimal => k!"1.5"
  | .number_value => k!"12"
  | .boolean_value => k!"true"
  | .hex_value => k!"#fff"
  | .value => k!"1.5"
  | .decl_ident => k!"x.y"
  | .relation => k!"<>"
  | .rel_settings => k!"[x: y]"
  | .ref_composition => k!"(x, y)"
  | .ref_ident => k!"x.y.z"
  | .ref_inline => k!"ref: > x.y"
  | .ref_stmt => k!"x.y > z.y"
  | .ref_short => k!"Ref: x.y > z.y"
  | .ref_block => k!"Ref { x.y > z.y }"
  | .ref_decl => k!"Ref: x.y > z.y"
  | .note_short => k!"Note: 'x y'"
  | .note_block => k!"Note { 'x y' }"
  | .note_decl => k!"Note: 'x y'"
  | .indexes_settings => k!"[pk]"
  | .indexes_ident => k!"x"
  | .indexes_multi => k!"(x, y) [pk]"
  | .indexes_single => k!"x [pk]"
  | .indexes_block => k!"{ x }"
  | .indexes_decl => k!"Indexes { x }"
  | .enum_settings => k!"[note: 'x y']"
  | .enum_value => k!"x [note: 'x y']"
  | .enum_block => k!"{ x y }"
  | .enum_decl => k!"Enum x { y z }"
  | .col_attribute => k!"pk"
  | .col_settings => k!"[pk, note: 'x y']"
  | .col_type_arg => k!"(1,2)"
  | .col_type_array => k!"[]"
  | .col_type_unquoted => k!"x(1,2)[]"
  | .col_type_quoted => k!"\"x y(1,2)\""
  | .col_type => k!"x.y(1,2)"
  | .table_col => k!"x y [pk]"
  | .table_block => k!"{ x y [pk] }"
  | .table_alias => k!"as x"
  | .table_decl => k!"Table x as y { x y [pk] }"
  | .table_group_block => k!"{ x.y }"
  | .table_group_decl => k!"TableGroup x { x.y }"
  | .project_block => k!"{ x y: 1 }"
  | .project_decl => k!"Project x { x y: 1 }"
  | .schema => k!"Table x as y { x y [pk] }"

end Dbml.Spec
