import Verif.Model.Ast

/-!
# Writing down an AST

A printer as a user of the crate would write it: from the public fields of the AST alone (`raw` texts of names and
literals, relations, lists), without positions and without the source text. One token per line.
-/

namespace Dbml.Spec.Print

/-- `x, x, ...` -/
def sep {α : Type} (f : α → List Str) : List α → List Str
  | [] => []
  | x :: xs => f x ++ xs.flatMap fun y => k!"," :: f y

/-- `[x, x, ...]` -/
def brackets {α : Type} (f : α → List Str) (xs : List α) : List Str := k!"[" :: (sep f xs ++ [k!"]"])

def ident (i : Ident) : List Str := [i.raw]

/-- `key` or `key: value` -/
def attr (a : Attribute) : List Str :=
  a.key.raw :: match a.value with
    | none => []
    | some l => [k!":", l.raw]

/-- `[key: value, ...]` or nothing -/
def attrs : Option (List Attribute) → List Str
  | none => []
  | some as => brackets attr as

/-- `Note: 'text'` -/
def note (n : NoteBlock) : List Str := [k!"Note", k!":", n.value.raw]

def noteOpt : Option NoteBlock → List Str
  | none => []
  | some n => note n

def prop (p : Property) : List Str := [p.key.raw, k!":", p.value.raw]

/-- `Project name { properties, note }` -/
def project (b : ProjectBlock) : List Str :=
  k!"Project " :: b.ident.raw :: k!"{" :: (b.properties.flatMap prop ++ noteOpt b.note ++ [k!"}"])

/-- `[schema.]name` -/
def qual (schema : Option Ident) (name : Ident) : List Str :=
  match schema with
  | none => [name.raw]
  | some s => [s.raw, k!".", name.raw]

def rel : Relation → Str
  | .one2many => k!"<"
  | .many2one => k!">"
  | .one2one => k!"-"
  | .many2many => k!"<>"
  | .undef => []

/-- `[schema.]table.col` or `[schema.]table.(col, ...)` -/
def endpoint (r : RefIdent) : List Str :=
  qual r.schema r.table ++ k!"." :: match r.compositions with
    | [c] => [c.raw]
    | cs => k!"(" :: (sep ident cs ++ [k!")"])

/-- `Ref [name]: a.x > b.y [settings]` -/
def ref (r : RefBlock) : List Str :=
  k!"Ref" :: (r.name.toList.flatMap ident ++ k!":" :: (endpoint r.lhs ++ rel r.rel :: (endpoint r.rhs ++
    attrs (r.settings.map (·.attributes)))))

/-- `ref: > a.x` -/
def inlineRef (r : RefInline) : List Str := k!"ref" :: k!":" :: rel r.rel :: endpoint r.rhs

def indexCol : IndexesColumnType → List Str
  | .string i => [i.raw]
  | .expr l => [l.raw]

/-- `col [settings]` or `(col, ...) [settings]` -/
def index (d : IndexesDef) : List Str :=
  (match d.cols with
    | [c] => indexCol c
    | cs => k!"(" :: (sep indexCol cs ++ [k!")"])) ++ attrs (d.settings.map (·.attributes))

/-- `Indexes { ... }` or nothing -/
def indexes : Option IndexesBlock → List Str
  | none => []
  | some b => k!"Indexes" :: k!"{" :: (b.defs.flatMap index ++ [k!"}"])

def enumValue (v : EnumValue) : List Str := v.value.raw :: attrs (v.settings.map (·.attributes))

/-- `Enum [schema.]name { values }` -/
def enum (e : EnumBlock) : List Str :=
  k!"Enum " :: (qual e.ident.schema e.ident.name ++ k!"{" :: (e.values.flatMap enumValue ++ [k!"}"]))

/-- The settings of a column: attributes, then inline refs. -/
def colSettings : Option ColumnSettings → List Str
  | none => []
  | some s => brackets id (s.attributes.map attr ++ s.refs.map inlineRef)

/-- `name type [settings]` -/
def column (c : TableColumn) : List Str := c.name.raw :: c.type.raw :: colSettings c.settings

/-- `Table [schema.]name [as alias] [settings] { columns, note, indexes }` -/
def table (t : TableBlock) : List Str :=
  k!"Table " :: (qual t.ident.schema t.ident.name ++ (t.ident.alias.toList.flatMap (fun a => [k!"as ", a.raw]) ++
    (attrs (t.settings.map (·.attributes)) ++
      k!"{" :: (t.cols.flatMap column ++ noteOpt t.note ++ indexes t.indexes ++ [k!"}"]))))

def groupItem (i : TableGroupItem) : List Str := qual i.schema i.ident_alias

/-- `TableGroup name [settings] { items, note }` -/
def group (g : TableGroupBlock) : List Str :=
  k!"TableGroup " :: g.ident.raw :: (attrs (g.settings.map (·.attributes)) ++
    k!"{" :: (g.items.flatMap groupItem ++ noteOpt g.note ++ [k!"}"]))

def block : TopLevelBlock → List Str
  | .project b => project b
  | .table b => table b
  | .tableGroup b => group b
  | .note b => note b
  | .ref b => ref b
  | .enum b => enum b

/-- All tokens of a schema. -/
def tokens (s : SchemaBlock) : List Str := s.blocks.flatMap block

/-- One token per line. -/
def schema (s : SchemaBlock) : Str := (tokens s).flatMap fun t => t ++ ['\n']

end Dbml.Spec.Print
