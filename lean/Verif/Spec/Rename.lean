import Verif.Spec.Source

/-!
# Names and renaming

The names of an AST are the identifiers that declare or mention something: a project, a schema, a table (or its alias),
a column, a ref, an enum, a value of an enum, a table group. (The keys of settings and properties are identifiers too,
but not names.) `mapNames f` replaces them, each according to its role.
-/

namespace Dbml

/-- What a name stands for. -/
inductive Role where
  | project | schema | table | col | ref | enumSchema | enum | value | group
deriving DecidableEq

namespace RefIdent
def names (r : RefIdent) : List (Role × Ident) :=
  r.schema.toList.map (Role.schema, ·) ++ (Role.table, r.table) :: r.compositions.map (Role.col, ·)
def mapNames (f : Role → Ident → Ident) (r : RefIdent) : RefIdent :=
  { r with schema := r.schema.map (f .schema), table := f .table r.table, compositions := r.compositions.map (f .col) }
end RefIdent

namespace RefInline
def names (r : RefInline) : List (Role × Ident) := r.rhs.names
def mapNames (f : Role → Ident → Ident) (r : RefInline) : RefInline := { r with rhs := r.rhs.mapNames f }
end RefInline

namespace RefBlock
def names (r : RefBlock) : List (Role × Ident) := r.name.toList.map (Role.ref, ·) ++ (r.lhs.names ++ r.rhs.names)
def mapNames (f : Role → Ident → Ident) (r : RefBlock) : RefBlock :=
  { r with name := r.name.map (f .ref), lhs := r.lhs.mapNames f, rhs := r.rhs.mapNames f }
end RefBlock

namespace IndexesColumnType
def names : IndexesColumnType → List (Role × Ident)
  | .string i => [(.col, i)]
  | .expr _ => []
def mapNames (f : Role → Ident → Ident) : IndexesColumnType → IndexesColumnType
  | .string i => .string (f .col i)
  | .expr l => .expr l
end IndexesColumnType

namespace IndexesDef
def names (d : IndexesDef) : List (Role × Ident) := d.cols.flatMap (·.names)
def mapNames (f : Role → Ident → Ident) (d : IndexesDef) : IndexesDef := { d with cols := d.cols.map (·.mapNames f) }
end IndexesDef

namespace IndexesBlock
def names (b : IndexesBlock) : List (Role × Ident) := b.defs.flatMap (·.names)
def mapNames (f : Role → Ident → Ident) (b : IndexesBlock) : IndexesBlock :=
  { b with defs := b.defs.map (·.mapNames f) }
end IndexesBlock

namespace EnumValue
def names (v : EnumValue) : List (Role × Ident) := [(.value, v.value)]
def mapNames (f : Role → Ident → Ident) (v : EnumValue) : EnumValue := { v with value := f .value v.value }
end EnumValue

namespace EnumBlock
def names (e : EnumBlock) : List (Role × Ident) :=
  e.ident.schema.toList.map (Role.enumSchema, ·) ++ (Role.enum, e.ident.name) :: e.values.flatMap (·.names)
def mapNames (f : Role → Ident → Ident) (e : EnumBlock) : EnumBlock :=
  { e with ident := { e.ident with schema := e.ident.schema.map (f .enumSchema), name := f .enum e.ident.name }
           values := e.values.map (·.mapNames f) }
end EnumBlock

namespace ColumnSettings
def names (s : ColumnSettings) : List (Role × Ident) := s.refs.flatMap (·.names)
def mapNames (f : Role → Ident → Ident) (s : ColumnSettings) : ColumnSettings :=
  { s with refs := s.refs.map (·.mapNames f) }
end ColumnSettings

namespace TableColumn
def names (c : TableColumn) : List (Role × Ident) := (.col, c.name) :: c.settings.toList.flatMap (·.names)
def mapNames (f : Role → Ident → Ident) (c : TableColumn) : TableColumn :=
  { c with name := f .col c.name, settings := c.settings.map (·.mapNames f) }
end TableColumn

namespace TableBlock
def names (t : TableBlock) : List (Role × Ident) :=
  t.ident.schema.toList.map (Role.schema, ·) ++ (Role.table, t.ident.name) ::
    (t.ident.alias.toList.map (Role.table, ·) ++ (t.cols.flatMap (·.names) ++ t.indexes.toList.flatMap (·.names)))
def mapNames (f : Role → Ident → Ident) (t : TableBlock) : TableBlock :=
  { t with
    ident := { t.ident with name := f .table t.ident.name, schema := t.ident.schema.map (f .schema)
                            alias := t.ident.alias.map (f .table) }
    cols := t.cols.map (·.mapNames f), indexes := t.indexes.map (·.mapNames f) }
end TableBlock

namespace TableGroupItem
def names (i : TableGroupItem) : List (Role × Ident) :=
  i.schema.toList.map (Role.schema, ·) ++ [(.table, i.ident_alias)]
def mapNames (f : Role → Ident → Ident) (i : TableGroupItem) : TableGroupItem :=
  { i with schema := i.schema.map (f .schema), ident_alias := f .table i.ident_alias }
end TableGroupItem

namespace TableGroupBlock
def names (g : TableGroupBlock) : List (Role × Ident) := (.group, g.ident) :: g.items.flatMap (·.names)
def mapNames (f : Role → Ident → Ident) (g : TableGroupBlock) : TableGroupBlock :=
  { g with ident := f .group g.ident, items := g.items.map (·.mapNames f) }
end TableGroupBlock

namespace TopLevelBlock
def names : TopLevelBlock → List (Role × Ident)
  | .project b => [(.project, b.ident)]
  | .table b => b.names
  | .tableGroup b => b.names
  | .note _ => []
  | .ref b => b.names
  | .enum b => b.names
def mapNames (f : Role → Ident → Ident) : TopLevelBlock → TopLevelBlock
  | .project b => .project { b with ident := f .project b.ident }
  | .table b => .table (b.mapNames f)
  | .tableGroup b => .tableGroup (b.mapNames f)
  | .note b => .note b
  | .ref b => .ref (b.mapNames f)
  | .enum b => .enum (b.mapNames f)
end TopLevelBlock

namespace SchemaBlock
/-- The names of a schema, with their roles. -/
def names (s : SchemaBlock) : List (Role × Ident) := s.blocks.flatMap (·.names)
end SchemaBlock

namespace Spec
open Source

/-- The text with the part at the span replaced. -/
def replaceAt (txt : Str) (sp : Span) (u : Str) : Str := takeBytes txt sp.start ++ (u ++ dropBytes txt sp.stop)

/-- New spellings for the names at some spans. -/
abbrev Edits := List (Span × Name)

/-- The text with the parts at the spans replaced, the last one first. -/
def applyEdits (es : Edits) (txt : Str) : Str := es.foldr (fun e t => replaceAt t e.1 e.2.text) txt

/-- The name with its new spelling, if it has one. -/
def respelled (es : Edits) (i : Ident) : Ident :=
  match es.find? fun e => e.1 = i.span_range with
  | some e => { i with raw := e.2.text, to_string := e.2.value }
  | none => i

/-- A spelling that can replace `raw`: a word, if `raw` is one; a quoted name without `*/` whose value does not begin
with `/*`. -/
def Fits (raw : Str) (w : Name) : Prop :=
  w.Ok ∧ match w with
    | .word _ => Syntax.IsVar raw
    | .quoted x => ¬ k!"*/" <:+: x.text k!"\"" ∧ ¬ k!"/*" <+: x.val

end Spec
end Dbml
