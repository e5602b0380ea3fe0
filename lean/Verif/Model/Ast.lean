import Verif.Model.Str
import Verif.Model.F64

/-!
# The AST: `/repo/src/ast/*.rs`

Field names follow the Rust structs. `Default` instances are the Rust `#[derive(Default)]`s.
-/

namespace Dbml

/-- `/repo/src/ast/unit.rs:22-29` -/
structure Ident where
  span_range : Span := .zero
  raw : Str := []
  to_string : Str := []
deriving DecidableEq, Repr, Inhabited

/-- `/repo/src/ast/unit.rs:54-58` -/
inductive Nullable where
  | notNull | null
deriving DecidableEq, Repr

/-- `/repo/src/ast/unit.rs:61-71`. `Integer` holds an `i64`, modelled as an `Int` whose range is
enforced where it is created (`/repo/src/parser/mod.rs:844`); `Decimal` holds an `F64`. -/
inductive Value where
  | enum (s : Str)
  | string (s : Str)
  | integer (n : Int)
  | decimal (f : F64)
  | bool (b : Bool)
  | hexColor (s : Str)
  | expr (s : Str)
  | null
deriving DecidableEq, Repr

/-- `format!("{v}")` of an `i64`.
`/repo/src/ast/unit.rs:91`. -/
def displayInt (n : Int) : Str :=
  match n with
  | .ofNat k => Nat.toDigits 10 k
  | .negSucc k => '-' :: Nat.toDigits 10 (k + 1)

/-- `impl FromStr for Value`, `/repo/src/ast/unit.rs:73-84` -/
def Value.fromStr (s : Str) : Option Value :=
  if s = k!"true" then some (.bool true)
  else if s = k!"false" then some (.bool false)
  else if s = k!"null" then some .null
  else none

/-- `impl ToString for Value`, `/repo/src/ast/unit.rs:86-99` -/
def Value.toStr : Value → Str
  | .enum v => v
  | .string v => v
  | .integer v => displayInt v
  | .decimal v => v.display
  | .bool true => k!"true"
  | .bool false => k!"false"
  | .hexColor v => v
  | .expr v => v
  | .null => k!"null"

/-- `/repo/src/ast/unit.rs:11-18` -/
structure Literal where
  span_range : Span
  raw : Str
  value : Value
deriving DecidableEq, Repr

/-- `/repo/src/ast/unit.rs:33-40` -/
structure Attribute where
  span_range : Span := .zero
  key : Ident := {}
  value : Option Literal := none
deriving DecidableEq, Repr

/-- `/repo/src/ast/unit.rs:44-51` -/
structure Property where
  span_range : Span
  key : Ident
  value : Literal
deriving DecidableEq, Repr

/-- `/repo/src/ast/unit.rs:103-108` -/
structure NoteBlock where
  span_range : Span
  value : Literal
deriving DecidableEq, Repr

/-- `/repo/src/ast/project.rs:9-12` -/
inductive DatabaseType where
  | postgreSQL
  | unknown (s : Str)
deriving DecidableEq, Repr

/-- `impl FromStr for DatabaseType`, `/repo/src/ast/project.rs:14-23` (never an error). -/
def DatabaseType.fromStr (s : Str) : DatabaseType :=
  if s = k!"PostgreSQL" then .postgreSQL else .unknown s

/-- `/repo/src/ast/project.rs:27-38` -/
structure ProjectBlock where
  span_range : Span := .zero
  properties : List Property := []
  ident : Ident := {}
  database_type : Option DatabaseType := none
  note : Option NoteBlock := none
deriving DecidableEq, Repr

/-- `/repo/src/ast/refs.rs:30-41` -/
inductive Relation where
  | undef | one2one | one2many | many2one | many2many
deriving DecidableEq, Repr, Inhabited

/-- `impl FromStr for Relation`, `/repo/src/ast/refs.rs:43-55` (`none` is the error case). -/
def Relation.fromStr (s : Str) : Option Relation :=
  if s = k!"<" then some .one2many
  else if s = k!">" then some .many2one
  else if s = k!"-" then some .one2one
  else if s = k!"<>" then some .many2many
  else none

/-- `/repo/src/ast/refs.rs:58-64` -/
structure RefIdent where
  span_range : Span := .zero
  schema : Option Ident := none
  table : Ident := {}
  compositions : List Ident := []
deriving DecidableEq, Repr, Inhabited

/-- `/repo/src/ast/refs.rs:11-16` -/
structure RefInline where
  span_range : Span := .zero
  rel : Relation := .undef
  rhs : RefIdent := {}
deriving DecidableEq, Repr

/-- `/repo/src/ast/refs.rs:67-73` -/
inductive ReferentialAction where
  | noAction | cascade | restrict | setNull | setDefault
deriving DecidableEq, Repr

/-- `impl FromStr for ReferentialAction`, `/repo/src/ast/refs.rs:75-88` -/
def ReferentialAction.fromStr (s : Str) : Option ReferentialAction :=
  if s = k!"no action" then some .noAction
  else if s = k!"cascade" then some .cascade
  else if s = k!"restrict" then some .restrict
  else if s = k!"set null" then some .setNull
  else if s = k!"set default" then some .setDefault
  else none

/-- `impl ToString for ReferentialAction`, `/repo/src/ast/refs.rs:90-102` -/
def ReferentialAction.toStr : ReferentialAction → Str
  | .noAction => k!"no action"
  | .cascade => k!"cascade"
  | .restrict => k!"restrict"
  | .setNull => k!"set null"
  | .setDefault => k!"set default"

/-- `/repo/src/ast/refs.rs:105-112` -/
structure RefSettings where
  span_range : Span := .zero
  attributes : List Attribute := []
  on_delete : Option ReferentialAction := none
  on_update : Option ReferentialAction := none
deriving DecidableEq, Repr

/-- `/repo/src/ast/refs.rs:19-27` -/
structure RefBlock where
  span_range : Span := .zero
  name : Option Ident := none
  rel : Relation := .undef
  lhs : RefIdent := {}
  rhs : RefIdent := {}
  settings : Option RefSettings := none
deriving DecidableEq, Repr

/-- `/repo/src/ast/indexes.rs:49-54` -/
inductive IndexesColumnType where
  | string (i : Ident)
  | expr (l : Literal)
deriving DecidableEq, Repr

/-- `/repo/src/ast/indexes.rs:58-67` -/
inductive IndexesType where
  | btree | gin | gist | hash
deriving DecidableEq, Repr

/-- `impl FromStr for IndexesType`, `/repo/src/ast/indexes.rs:69-81` -/
def IndexesType.fromStr (s : Str) : Option IndexesType :=
  if s = k!"btree" then some .btree
  else if s = k!"gin" then some .gin
  else if s = k!"gist" then some .gist
  else if s = k!"hash" then some .hash
  else none

/-- `/repo/src/ast/indexes.rs:30-45` -/
structure IndexesSettings where
  span_range : Span := .zero
  attributes : List Attribute := []
  type : Option IndexesType := none
  is_unique : Bool := false
  is_pk : Bool := false
  note : Option Str := none
  name : Option Str := none
deriving DecidableEq, Repr

/-- `/repo/src/ast/indexes.rs:19-26` -/
structure IndexesDef where
  span_range : Span := .zero
  cols : List IndexesColumnType := []
  settings : Option IndexesSettings := none
deriving DecidableEq, Repr

/-- `/repo/src/ast/indexes.rs:10-15` -/
structure IndexesBlock where
  span_range : Span := .zero
  defs : List IndexesDef := []
deriving DecidableEq, Repr

/-- `/repo/src/ast/enums.rs:28-35` -/
structure EnumValueSettings where
  span_range : Span := .zero
  attributes : List Attribute := []
  note : Option Str := none
deriving DecidableEq, Repr

/-- `/repo/src/ast/enums.rs:19-24` -/
structure EnumValue where
  span_range : Span := .zero
  value : Ident := {}
  settings : Option EnumValueSettings := none
deriving DecidableEq, Repr

/-- `/repo/src/ast/enums.rs:39-46` -/
structure EnumIdent where
  span_range : Span := .zero
  schema : Option Ident := none
  name : Ident := {}
deriving DecidableEq, Repr

/-- `/repo/src/ast/enums.rs:8-15` -/
structure EnumBlock where
  span_range : Span := .zero
  ident : EnumIdent := {}
  values : List EnumValue := []
deriving DecidableEq, Repr

/-- `/repo/src/ast/table.rs:63-112` -/
inductive ColumnTypeName where
  | undef
  | raw (s : Str)
  | enum (s : Str)
  | bit | varbit | char | varchar | box | cidr | circle | inet | line | lineSegment | macAddr
  | macAddr8 | money | path | pgLongSequenceNumber | pgSnapshot | point | polygon | tsQuery
  | tsVector | smallSerial | serial | bigSerial | smallInt | integer | bigInt | real
  | doublePrecision | bool | byteArray | date | text | time | timetz | timestamp | timestamptz
  | uuid | json | jsonb | decimal | xml
deriving DecidableEq, Repr

/-- The arms of `impl FromStr for ColumnTypeName`, `/repo/src/ast/table.rs:118-159`, in order
(an or-pattern contributes one entry per alternative). -/
def ColumnTypeName.table : List (Str × ColumnTypeName) :=
  [ (k!"bit", .bit)
  , (k!"varbit", .varbit), (k!"bit varying", .varbit)
  , (k!"char", .char), (k!"character", .char)
  , (k!"varchar", .varchar), (k!"character varying", .varchar)
  , (k!"box", .box)
  , (k!"cidr", .cidr)
  , (k!"circle", .circle)
  , (k!"inet", .inet)
  , (k!"line", .line)
  , (k!"lseg", .lineSegment)
  , (k!"macaddr", .macAddr)
  , (k!"macaddr8", .macAddr8)
  , (k!"money", .money)
  , (k!"path", .path)
  , (k!"pg_lsn", .pgLongSequenceNumber)
  , (k!"pg_snapshot", .pgSnapshot)
  , (k!"point", .point)
  , (k!"polygon", .polygon)
  , (k!"tsquery", .tsQuery)
  , (k!"tsvector", .tsVector)
  , (k!"smallserial", .smallSerial), (k!"serial2", .smallSerial)
  , (k!"serial", .serial), (k!"serial4", .serial)
  , (k!"bigserial", .bigSerial), (k!"serial8", .bigSerial)
  , (k!"smallint", .smallInt), (k!"int2", .smallInt)
  , (k!"integer", .integer), (k!"int", .integer), (k!"int4", .integer)
  , (k!"bigint", .bigInt), (k!"int8", .bigInt)
  , (k!"real", .real), (k!"float4", .real)
  , (k!"double precision", .doublePrecision), (k!"float8", .doublePrecision)
  , (k!"bool", .bool), (k!"boolean", .bool)
  , (k!"bytea", .byteArray)
  , (k!"date", .date)
  , (k!"text", .text)
  , (k!"time", .time), (k!"time without time zone", .time)
  , (k!"timetz", .timetz), (k!"time with time zone", .timetz)
  , (k!"timestamp", .timestamp), (k!"timestamp without time zone", .timestamp)
  , (k!"timestamptz", .timestamptz), (k!"timestamp with time zone", .timestamptz)
  , (k!"uuid", .uuid)
  , (k!"json", .json)
  , (k!"jsonb", .jsonb)
  , (k!"decimal", .decimal), (k!"numeric", .decimal)
  , (k!"xml", .xml) ]

/-- `impl FromStr for ColumnTypeName`, `/repo/src/ast/table.rs:114-165` -/
def ColumnTypeName.fromStr (s : Str) : Option ColumnTypeName := ColumnTypeName.table.lookup s

/-- `/repo/src/ast/table.rs:48-59` -/
structure ColumnType where
  span_range : Span := .zero
  raw : Str := []
  type_name : ColumnTypeName := .undef
  args : List Value := []
  arrays : List (Option Nat) := []
deriving DecidableEq, Repr

/-- `/repo/src/ast/table.rs:169-188` -/
structure ColumnSettings where
  span_range : Span := .zero
  attributes : List Attribute := []
  is_pk : Bool := false
  is_unique : Bool := false
  nullable : Option Nullable := none
  is_incremental : Bool := false
  note : Option Str := none
  default : Option Value := none
  refs : List RefInline := []
deriving DecidableEq, Repr

/-- `/repo/src/ast/table.rs:35-44` -/
structure TableColumn where
  span_range : Span := .zero
  name : Ident := {}
  type : ColumnType := {}
  settings : Option ColumnSettings := none
deriving DecidableEq, Repr

/-- `/repo/src/ast/table.rs:192-201` -/
structure TableIdent where
  span_range : Span := .zero
  name : Ident := {}
  schema : Option Ident := none
  alias : Option Ident := none
deriving DecidableEq, Repr

/-- `/repo/src/ast/table.rs:26-31` -/
structure TableSettings where
  span_range : Span := .zero
  attributes : List Attribute := []
deriving DecidableEq, Repr

/-- `/repo/src/ast/table.rs:9-22` -/
structure TableBlock where
  span_range : Span := .zero
  cols : List TableColumn := []
  ident : TableIdent := {}
  note : Option NoteBlock := none
  indexes : Option IndexesBlock := none
  settings : Option TableSettings := none
deriving DecidableEq, Repr

/-- `/repo/src/ast/table_group.rs:32-39` -/
structure TableGroupItem where
  span_range : Span := .zero
  schema : Option Ident := none
  ident_alias : Ident := {}
deriving DecidableEq, Repr

/-- `/repo/src/ast/table_group.rs:23-28` -/
structure TableGroupSettings where
  span_range : Span := .zero
  attributes : List Attribute := []
deriving DecidableEq, Repr

/-- `/repo/src/ast/table_group.rs:7-19` -/
structure TableGroupBlock where
  span_range : Span := .zero
  ident : Ident := {}
  note : Option NoteBlock := none
  items : List TableGroupItem := []
  settings : Option TableGroupSettings := none
deriving DecidableEq, Repr

/-- `/repo/src/ast/schema.rs:18-31` -/
inductive TopLevelBlock where
  | project (b : ProjectBlock)
  | table (b : TableBlock)
  | tableGroup (b : TableGroupBlock)
  | note (b : NoteBlock)
  | ref (b : RefBlock)
  | enum (b : EnumBlock)
deriving DecidableEq, Repr

/-- `/repo/src/ast/schema.rs:7-14` -/
structure SchemaBlock where
  span_range : Span := .zero
  input : Str := []
  blocks : List TopLevelBlock := []
deriving DecidableEq, Repr

namespace SchemaBlock

/-- `/repo/src/ast/schema.rs:34-46` -/
def projects (s : SchemaBlock) : List ProjectBlock :=
  s.blocks.filterMap fun | .project b => some b | _ => none
/-- `/repo/src/ast/schema.rs:48-60` -/
def tables (s : SchemaBlock) : List TableBlock :=
  s.blocks.filterMap fun | .table b => some b | _ => none
/-- `/repo/src/ast/schema.rs:62-74` -/
def table_groups (s : SchemaBlock) : List TableGroupBlock :=
  s.blocks.filterMap fun | .tableGroup b => some b | _ => none
/-- `/repo/src/ast/schema.rs:76-88` -/
def refs (s : SchemaBlock) : List RefBlock :=
  s.blocks.filterMap fun | .ref b => some b | _ => none
/-- `/repo/src/ast/schema.rs:90-102` -/
def enums (s : SchemaBlock) : List EnumBlock :=
  s.blocks.filterMap fun | .enum b => some b | _ => none

end SchemaBlock

end Dbml
