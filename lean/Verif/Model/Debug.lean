import Verif.Model.Ast

/-!
# The `Debug` text of an AST

Every type of the AST derives `Debug` and none of the larger ones derives `PartialEq`: the way to look at an AST, to log it or to compare it
with a recorded one (as `/repo/tests/mod.rs` does) is `format!("{:#?}", ast)`. Modelled here: what the derived implementations
write through `Formatter::debug_struct`, `debug_tuple`, `debug_list` in the alternate mode (`core::fmt::builders`), and `Debug` of
`str`, `usize`, `u32`, `i64`, `bool`, `f64`, `Option`, `Vec` and `Range`. `str` shows a character as it is, or escaped; which
characters other than the ones escaped by a backslash are shown as they are (`char::is_grapheme_extended`, `is_printable`:
tables of the Unicode version of the compiler) is a parameter, `Charset`.
-/

namespace Dbml

namespace F64

/-- The shortest digits of a finite number, as in `display`: `d * 10 ^ x`.
`/repo/src/ast/unit.rs:66` (`f64` under `#[derive(Debug)]`). -/
def digits (m : Nat) (e : Int) : Nat × Int :=
  let (num, den) := if 0 ≤ e then (m * 2 ^ e.toNat, 1) else (m, 2 ^ (-e).toNat)
  let k : Int :=
    if den ≤ num then ((natDigits (num / den)).length : Int)
    else 1 - ((natDigits ((den - 1) / num)).length : Int)
  shortest (.fin m e) num den k 17 1

/-- `d * 10 ^ x` in scientific notation (`float_to_exponential_common_shortest`).
`/repo/src/ast/unit.rs:66` (`f64` under `#[derive(Debug)]`). -/
def sci (d : Nat) (x : Int) : Str :=
  let all := natDigits d
  let ds := (all.reverse.dropWhile (· = '0')).reverse
  (match ds with
    | [] => []
    | [c] => [c]
    | c :: cs => c :: '.' :: cs) ++ 'e' :: displayInt ((all.length : Int) - 1 + x)

/-- `already_rounded_value_should_use_exponential`: from `1e16` on and below `1e-4`, except zero.
`/repo/src/ast/unit.rs:66` (`f64` under `#[derive(Debug)]`). -/
def exponential (m : Nat) (e : Int) : Bool :=
  let (num, den) := if 0 ≤ e then (m * 2 ^ e.toNat, 1) else (m, 2 ^ (-e).toNat)
  m ≠ 0 ∧ (den * 10 ^ 16 ≤ num ∨ num * 10 ^ 4 < den)

/-- `Debug` of `f64` (`float_to_general_debug`): in scientific notation, or with at least one digit after the point.
`/repo/src/ast/unit.rs:66` (`f64` under `#[derive(Debug)]`). -/
def debug : F64 → Str
  | .inf => display .inf
  | .fin m e =>
    if exponential m e then
      let (d, x) := digits m e
      sci d x
    else
      let t := display (.fin m e)
      if '.' ∈ t then t else t ++ k!".0"

end F64

/-- Which characters `str`'s `Debug` shows as they are, if it does not escape them by a backslash and a letter. -/
class Charset where
  /-- Shown as it is; otherwise as `\\u{...}`. -/
  shown : Char → Bool

namespace Debug

/-- What the builders of `core::fmt` are told to write: a text, or a line that opens a block, the items of the block, and the character that
closes it. `/repo/src/ast/schema.rs:6` (`#[derive(Debug)]`). -/
inductive D where
  | leaf (s : Str)
  | block (head : Str) (close : Char) (items : List D)

/-- What precedes on the same line (the name of a field). `/repo/src/ast/schema.rs:6` (`#[derive(Debug)]`). -/
def D.key (k : Str) : D → D
  | .leaf s => .leaf (k ++ s)
  | .block h c items => .block (k ++ h) c items

mutual
/-- `{:#?}`: items on lines of their own, indented by four blanks (`PadAdapter`), each followed by a comma.
`/repo/src/ast/schema.rs:6` (`#[derive(Debug)]`). -/
def D.render (ind : Str) : D → Str
  | .leaf s => s
  | .block h c items => h ++ '\n' :: (D.renders (ind ++ k!"    ") items ++ (ind ++ [c]))
/-- The items of a block. `/repo/src/ast/schema.rs:6` (`#[derive(Debug)]`). -/
def D.renders (ind : Str) : List D → Str
  | [] => []
  | d :: ds => ind ++ (d.render ind ++ ',' :: '\n' :: D.renders ind ds)
end

/-- `debug_struct`. `/repo/src/ast/schema.rs:6` (`#[derive(Debug)]`). -/
def struct (name : Str) (fields : List (Str × D)) : D :=
  .block (name ++ k!" {") '}' (fields.map fun p => p.2.key (p.1 ++ k!": "))

/-- `debug_tuple` with one field. `/repo/src/ast/schema.rs:17` (`#[derive(Debug)]`). -/
def tuple (name : Str) (d : D) : D := .block (name ++ k!"(") ')' [d]

/-- `debug_list` (`Vec`). `/repo/src/ast/schema.rs:13` (`#[derive(Debug)]`). -/
def list {α} (f : α → D) : List α → D
  | [] => .leaf k!"[]"
  | l => .block k!"[" ']' (l.map f)

/-- `Option`. `/repo/src/ast/table.rs:17-21` (`#[derive(Debug)]`). -/
def opt {α} (f : α → D) : Option α → D
  | some a => tuple k!"Some" (f a)
  | none => .leaf k!"None"

/-- `Range<usize>`. `/repo/src/ast/mod.rs:23` (`SpanRange`). -/
def span (s : Span) : D := .leaf (Nat.toDigits 10 s.start ++ k!".." ++ Nat.toDigits 10 s.stop)

/-- `bool`. `/repo/src/ast/table.rs:175` (`#[derive(Debug)]`). -/
def bool (b : Bool) : D := .leaf (if b then k!"true" else k!"false")

variable [Charset]

/-- `char::escape_debug` as `str` uses it. `/repo/src/ast/unit.rs:26-28` (`String` under `#[derive(Debug)]`). -/
def escape (c : Char) : Str :=
  if c = '\x00' then k!"\\0"
  else if c = '\t' then k!"\\t"
  else if c = '\r' then k!"\\r"
  else if c = '\n' then k!"\\n"
  else if c = '\\' then k!"\\\\"
  else if c = '"' then ['\\', '"']
  else if Charset.shown c then [c]
  else k!"\\u{" ++ Nat.toDigits 16 c.toNat ++ k!"}"

/-- `String`. `/repo/src/ast/unit.rs:26-28` (`String` under `#[derive(Debug)]`). -/
def str (s : Str) : D := .leaf ('"' :: (s.flatMap escape ++ ['"']))

/-- `#[derive(Debug)]`, `/repo/src/ast/unit.rs:21`. -/
def ident (i : Ident) : D :=
  struct k!"Ident" [(k!"span_range", span i.span_range), (k!"raw", str i.raw), (k!"to_string", str i.to_string)]
/-- `#[derive(Debug)]`, `/repo/src/ast/unit.rs:61`. -/
def value : Value → D
  | .enum s => tuple k!"Enum" (str s)
  | .string s => tuple k!"String" (str s)
  | .integer n => tuple k!"Integer" (.leaf (displayInt n))
  | .decimal f => tuple k!"Decimal" (.leaf f.debug)
  | .bool b => tuple k!"Bool" (bool b)
  | .hexColor s => tuple k!"HexColor" (str s)
  | .expr s => tuple k!"Expr" (str s)
  | .null => .leaf k!"Null"
/-- `#[derive(Debug)]`, `/repo/src/ast/unit.rs:10`. -/
def literal (l : Literal) : D :=
  struct k!"Literal" [(k!"span_range", span l.span_range), (k!"raw", str l.raw), (k!"value", value l.value)]
/-- `#[derive(Debug)]`, `/repo/src/ast/unit.rs:32`. -/
def attr (a : Attribute) : D :=
  struct k!"Attribute" [(k!"span_range", span a.span_range), (k!"key", ident a.key), (k!"value", opt literal a.value)]
/-- `#[derive(Debug)]`, `/repo/src/ast/unit.rs:43`. -/
def prop (a : Property) : D :=
  struct k!"Property" [(k!"span_range", span a.span_range), (k!"key", ident a.key), (k!"value", literal a.value)]
/-- `#[derive(Debug)]`, `/repo/src/ast/unit.rs:102`. -/
def note (n : NoteBlock) : D :=
  struct k!"NoteBlock" [(k!"span_range", span n.span_range), (k!"value", literal n.value)]
/-- `#[derive(Debug)]`, `/repo/src/ast/project.rs:8`. -/
def dbt : DatabaseType → D | .postgreSQL => .leaf k!"PostgreSQL" | .unknown s => tuple k!"Unknown" (str s)
/-- `#[derive(Debug)]`, `/repo/src/ast/project.rs:26`. -/
def project (p : ProjectBlock) : D :=
  struct k!"ProjectBlock" [(k!"span_range", span p.span_range), (k!"properties", list prop p.properties),
    (k!"ident", ident p.ident), (k!"database_type", opt dbt p.database_type), (k!"note", opt note p.note)]
/-- `#[derive(Debug)]`, `/repo/src/ast/refs.rs:29`. -/
def rel (r : Relation) : D := .leaf <| match r with
  | .undef => k!"Undef" | .one2one => k!"One2One" | .one2many => k!"One2Many" | .many2one => k!"Many2One"
  | .many2many => k!"Many2Many"
/-- `#[derive(Debug)]`, `/repo/src/ast/refs.rs:57`. -/
def refIdent (r : RefIdent) : D :=
  struct k!"RefIdent" [(k!"span_range", span r.span_range), (k!"schema", opt ident r.schema),
    (k!"table", ident r.table), (k!"compositions", list ident r.compositions)]
/-- `#[derive(Debug)]`, `/repo/src/ast/refs.rs:10`. -/
def refInline (r : RefInline) : D :=
  struct k!"RefInline" [(k!"span_range", span r.span_range), (k!"rel", rel r.rel), (k!"rhs", refIdent r.rhs)]
/-- `#[derive(Debug)]`, `/repo/src/ast/refs.rs:66`. -/
def action (a : ReferentialAction) : D := .leaf <| match a with
  | .noAction => k!"NoAction" | .cascade => k!"Cascade" | .restrict => k!"Restrict" | .setNull => k!"SetNull"
  | .setDefault => k!"SetDefault"
/-- `#[derive(Debug)]`, `/repo/src/ast/refs.rs:104`. -/
def refSettings (s : RefSettings) : D :=
  struct k!"RefSettings" [(k!"span_range", span s.span_range), (k!"attributes", list attr s.attributes),
    (k!"on_delete", opt action s.on_delete), (k!"on_update", opt action s.on_update)]
/-- `#[derive(Debug)]`, `/repo/src/ast/refs.rs:18`. -/
def refBlock (b : RefBlock) : D :=
  struct k!"RefBlock" [(k!"span_range", span b.span_range), (k!"name", opt ident b.name), (k!"rel", rel b.rel),
    (k!"lhs", refIdent b.lhs), (k!"rhs", refIdent b.rhs), (k!"settings", opt refSettings b.settings)]
/-- `#[derive(Debug)]`, `/repo/src/ast/indexes.rs:57`. -/
def idxType (t : IndexesType) : D := .leaf <| match t with
  | .btree => k!"BTree" | .gin => k!"Gin" | .gist => k!"Gist" | .hash => k!"Hash"
/-- `#[derive(Debug)]`, `/repo/src/ast/indexes.rs:29`. -/
def idxSettings (s : IndexesSettings) : D :=
  struct k!"IndexesSettings" [(k!"span_range", span s.span_range), (k!"attributes", list attr s.attributes),
    (k!"type", opt idxType s.type), (k!"is_unique", bool s.is_unique), (k!"is_pk", bool s.is_pk),
    (k!"note", opt str s.note), (k!"name", opt str s.name)]
/-- `#[derive(Debug)]`, `/repo/src/ast/indexes.rs:48`. -/
def idxCol : IndexesColumnType → D
  | .string i => tuple k!"String" (ident i)
  | .expr l => tuple k!"Expr" (literal l)
/-- `#[derive(Debug)]`, `/repo/src/ast/indexes.rs:18`. -/
def idxDef (d : IndexesDef) : D :=
  struct k!"IndexesDef" [(k!"span_range", span d.span_range), (k!"cols", list idxCol d.cols),
    (k!"settings", opt idxSettings d.settings)]
/-- `#[derive(Debug)]`, `/repo/src/ast/indexes.rs:9`. -/
def idxBlock (b : IndexesBlock) : D :=
  struct k!"IndexesBlock" [(k!"span_range", span b.span_range), (k!"defs", list idxDef b.defs)]
/-- `#[derive(Debug)]`, `/repo/src/ast/enums.rs:27`. -/
def enumSettings (s : EnumValueSettings) : D :=
  struct k!"EnumValueSettings" [(k!"span_range", span s.span_range), (k!"attributes", list attr s.attributes),
    (k!"note", opt str s.note)]
/-- `#[derive(Debug)]`, `/repo/src/ast/enums.rs:18`. -/
def enumValue (v : EnumValue) : D :=
  struct k!"EnumValue" [(k!"span_range", span v.span_range), (k!"value", ident v.value),
    (k!"settings", opt enumSettings v.settings)]
/-- `#[derive(Debug)]`, `/repo/src/ast/enums.rs:38`. -/
def enumIdent (i : EnumIdent) : D :=
  struct k!"EnumIdent" [(k!"span_range", span i.span_range), (k!"schema", opt ident i.schema), (k!"name", ident i.name)]
/-- `#[derive(Debug)]`, `/repo/src/ast/enums.rs:7`. -/
def enumBlock (b : EnumBlock) : D :=
  struct k!"EnumBlock" [(k!"span_range", span b.span_range), (k!"ident", enumIdent b.ident),
    (k!"values", list enumValue b.values)]
/-- `#[derive(Debug)]`, `/repo/src/ast/table.rs:62`. -/
def typeName : ColumnTypeName → D
  | .undef => .leaf k!"Undef"
  | .raw s => tuple k!"Raw" (str s)
  | .enum s => tuple k!"Enum" (str s)
  | .bit => .leaf k!"Bit"
  | .varbit => .leaf k!"Varbit"
  | .char => .leaf k!"Char"
  | .varchar => .leaf k!"VarChar"
  | .box => .leaf k!"Box"
  | .cidr => .leaf k!"Cidr"
  | .circle => .leaf k!"Circle"
  | .inet => .leaf k!"Inet"
  | .line => .leaf k!"Line"
  | .lineSegment => .leaf k!"LineSegment"
  | .macAddr => .leaf k!"MacAddr"
  | .macAddr8 => .leaf k!"MacAddr8"
  | .money => .leaf k!"Money"
  | .path => .leaf k!"Path"
  | .pgLongSequenceNumber => .leaf k!"PGLongSequenceNumber"
  | .pgSnapshot => .leaf k!"PGSnapshot"
  | .point => .leaf k!"Point"
  | .polygon => .leaf k!"Polygon"
  | .tsQuery => .leaf k!"TSQuery"
  | .tsVector => .leaf k!"TSVector"
  | .smallSerial => .leaf k!"SmallSerial"
  | .serial => .leaf k!"Serial"
  | .bigSerial => .leaf k!"BigSerial"
  | .smallInt => .leaf k!"SmallInt"
  | .integer => .leaf k!"Integer"
  | .bigInt => .leaf k!"BigInt"
  | .real => .leaf k!"Real"
  | .doublePrecision => .leaf k!"DoublePrecision"
  | .bool => .leaf k!"Bool"
  | .byteArray => .leaf k!"ByteArray"
  | .date => .leaf k!"Date"
  | .text => .leaf k!"Text"
  | .time => .leaf k!"Time"
  | .timetz => .leaf k!"Timetz"
  | .timestamp => .leaf k!"Timestamp"
  | .timestamptz => .leaf k!"Timestamptz"
  | .uuid => .leaf k!"Uuid"
  | .json => .leaf k!"Json"
  | .jsonb => .leaf k!"Jsonb"
  | .decimal => .leaf k!"Decimal"
  | .xml => .leaf k!"Xml"
/-- `Option<u32>` (`{:#?}`). `/repo/src/ast/table.rs:58`. -/
def arr (o : Option Nat) : D := opt (fun n => .leaf (Nat.toDigits 10 n)) o
/-- `#[derive(Debug)]`, `/repo/src/ast/table.rs:47`. -/
def colType (t : ColumnType) : D :=
  struct k!"ColumnType" [(k!"span_range", span t.span_range), (k!"raw", str t.raw), (k!"type_name", typeName t.type_name),
    (k!"args", list value t.args), (k!"arrays", list arr t.arrays)]
/-- `#[derive(Debug)]`, `/repo/src/ast/unit.rs:54`. -/
def nullable (n : Nullable) : D := .leaf <| match n with | .null => k!"Null" | .notNull => k!"NotNull"
/-- `#[derive(Debug)]`, `/repo/src/ast/table.rs:168`. -/
def colSettings (s : ColumnSettings) : D :=
  struct k!"ColumnSettings" [(k!"span_range", span s.span_range), (k!"attributes", list attr s.attributes),
    (k!"is_pk", bool s.is_pk), (k!"is_unique", bool s.is_unique), (k!"nullable", opt nullable s.nullable),
    (k!"is_incremental", bool s.is_incremental), (k!"note", opt str s.note), (k!"default", opt value s.default),
    (k!"refs", list refInline s.refs)]
/-- `#[derive(Debug)]`, `/repo/src/ast/table.rs:34`. -/
def tableCol (c : TableColumn) : D :=
  struct k!"TableColumn" [(k!"span_range", span c.span_range), (k!"name", ident c.name), (k!"type", colType c.type),
    (k!"settings", opt colSettings c.settings)]
/-- `#[derive(Debug)]`, `/repo/src/ast/table.rs:191`. -/
def tableIdent (i : TableIdent) : D :=
  struct k!"TableIdent" [(k!"span_range", span i.span_range), (k!"name", ident i.name),
    (k!"schema", opt ident i.schema), (k!"alias", opt ident i.alias)]
/-- `#[derive(Debug)]`, `/repo/src/ast/table.rs:25`. -/
def tableSettings (s : TableSettings) : D :=
  struct k!"TableSettings" [(k!"span_range", span s.span_range), (k!"attributes", list attr s.attributes)]
/-- `#[derive(Debug)]`, `/repo/src/ast/table_group.rs:22`. -/
def groupSettings (s : TableGroupSettings) : D :=
  struct k!"TableGroupSettings" [(k!"span_range", span s.span_range), (k!"attributes", list attr s.attributes)]
/-- `#[derive(Debug)]`, `/repo/src/ast/table.rs:8`. -/
def tableBlock (b : TableBlock) : D :=
  struct k!"TableBlock" [(k!"span_range", span b.span_range), (k!"cols", list tableCol b.cols),
    (k!"ident", tableIdent b.ident), (k!"note", opt note b.note), (k!"indexes", opt idxBlock b.indexes),
    (k!"settings", opt tableSettings b.settings)]
/-- `#[derive(Debug)]`, `/repo/src/ast/table_group.rs:31`. -/
def groupItem (i : TableGroupItem) : D :=
  struct k!"TableGroupItem" [(k!"span_range", span i.span_range), (k!"schema", opt ident i.schema),
    (k!"ident_alias", ident i.ident_alias)]
/-- `#[derive(Debug)]`, `/repo/src/ast/table_group.rs:6`. -/
def groupBlock (b : TableGroupBlock) : D :=
  struct k!"TableGroupBlock" [(k!"span_range", span b.span_range), (k!"ident", ident b.ident),
    (k!"note", opt note b.note), (k!"items", list groupItem b.items),
    (k!"settings", opt groupSettings b.settings)]
/-- `#[derive(Debug)]`, `/repo/src/ast/schema.rs:17`. -/
def block : TopLevelBlock → D
  | .project b => tuple k!"Project" (project b)
  | .table b => tuple k!"Table" (tableBlock b)
  | .tableGroup b => tuple k!"TableGroup" (groupBlock b)
  | .note b => tuple k!"Note" (note b)
  | .ref b => tuple k!"Ref" (refBlock b)
  | .enum b => tuple k!"Enum" (enumBlock b)
/-- `#[derive(Debug)]`, `/repo/src/ast/schema.rs:6`. -/
def schema (s : SchemaBlock) : D :=
  struct k!"SchemaBlock" [(k!"span_range", span s.span_range), (k!"input", str s.input), (k!"blocks", list block s.blocks)]

end Debug

/-- `format!("{:#?}", ast)`.
`/repo/src/ast/schema.rs:6` (`#[derive(Debug)]`). -/
def SchemaBlock.debug [Charset] (s : SchemaBlock) : Str := (Debug.schema s).render []

end Dbml
