import Verif.Model.Ast

/-!
# The size of an AST

Every record counts one, and every stored character counts one. Copies count: an identifier stores both its source
text and its name, settings store their attributes and the values taken from them.
-/

namespace Dbml

namespace Size

/-- The sum of the sizes. -/
def list {α : Type} (f : α → Nat) (l : List α) : Nat := (l.map f).sum
/-- Nothing, or the size of what is there. -/
def opt {α : Type} (f : α → Nat) : Option α → Nat
  | none => 0
  | some a => f a
/-- A string with its length. -/
def str (s : Str) : Nat := 1 + s.length

def ident (i : Ident) : Nat := 1 + str i.raw + str i.to_string
def value : Value → Nat
  | .enum s | .string s | .hexColor s | .expr s => 1 + str s
  | .integer _ | .decimal _ | .bool _ | .null => 1
def literal (l : Literal) : Nat := 1 + str l.raw + value l.value
def attr (a : Attribute) : Nat := 1 + ident a.key + opt literal a.value
def property (p : Property) : Nat := 1 + ident p.key + literal p.value
def note (n : NoteBlock) : Nat := 1 + literal n.value
def dbType : DatabaseType → Nat
  | .postgreSQL => 1
  | .unknown s => 1 + str s
def project (p : ProjectBlock) : Nat :=
  1 + list property p.properties + ident p.ident + opt dbType p.database_type + opt note p.note
def refIdent (r : RefIdent) : Nat := 1 + opt ident r.schema + ident r.table + list ident r.compositions
def refInline (r : RefInline) : Nat := 1 + refIdent r.rhs
def refSettings (s : RefSettings) : Nat := 1 + list attr s.attributes
def ref (r : RefBlock) : Nat := 1 + opt ident r.name + refIdent r.lhs + refIdent r.rhs + opt refSettings r.settings
def indexCol : IndexesColumnType → Nat
  | .string i => 1 + ident i
  | .expr l => 1 + literal l
def indexSettings (s : IndexesSettings) : Nat := 1 + list attr s.attributes + opt str s.note + opt str s.name
def indexDef (d : IndexesDef) : Nat := 1 + list indexCol d.cols + opt indexSettings d.settings
def indexes (b : IndexesBlock) : Nat := 1 + list indexDef b.defs
def enumSettings (s : EnumValueSettings) : Nat := 1 + list attr s.attributes + opt str s.note
def enumValue (v : EnumValue) : Nat := 1 + ident v.value + opt enumSettings v.settings
def enumIdent (i : EnumIdent) : Nat := 1 + opt ident i.schema + ident i.name
def enum (e : EnumBlock) : Nat := 1 + enumIdent e.ident + list enumValue e.values
def typeName : ColumnTypeName → Nat
  | .raw s => 1 + str s
  | .enum s => 1 + str s
  | _ => 1
def columnType (t : ColumnType) : Nat :=
  1 + str t.raw + typeName t.type_name + list value t.args + list (fun _ => 1) t.arrays
def columnSettings (s : ColumnSettings) : Nat :=
  1 + list attr s.attributes + opt str s.note + opt value s.default + list refInline s.refs
def column (c : TableColumn) : Nat := 1 + ident c.name + columnType c.type + opt columnSettings c.settings
def tableIdent (i : TableIdent) : Nat := 1 + ident i.name + opt ident i.schema + opt ident i.alias
def tableSettings (s : TableSettings) : Nat := 1 + list attr s.attributes
def table (t : TableBlock) : Nat :=
  1 + list column t.cols + tableIdent t.ident + opt note t.note + opt indexes t.indexes + opt tableSettings t.settings
def groupItem (i : TableGroupItem) : Nat := 1 + opt ident i.schema + ident i.ident_alias
def groupSettings (s : TableGroupSettings) : Nat := 1 + list attr s.attributes
def tableGroup (g : TableGroupBlock) : Nat :=
  1 + ident g.ident + opt note g.note + list groupItem g.items + opt groupSettings g.settings
def block : TopLevelBlock → Nat
  | .project b => 1 + project b
  | .table b => 1 + table b
  | .tableGroup b => 1 + tableGroup b
  | .note b => 1 + note b
  | .ref b => 1 + ref b
  | .enum b => 1 + enum b

/-- The size of the whole AST, with the copy of the input it holds. -/
def schema (s : SchemaBlock) : Nat := 1 + str s.input + list block s.blocks

end Size

end Dbml
