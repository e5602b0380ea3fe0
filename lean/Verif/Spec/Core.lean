import Verif.Spec.Valid

/-!
# What acceptance depends on

`core ρ s` is the schema `s` reduced to what the semantic rules look at, its tables, columns, schemas and table groups renamed by
`ρ`. Everything else - positions, source texts, notes, names of projects, refs and indexes, values of settings other
than defaults, referential actions, contents of index expressions, settings of table groups - is replaced by
something fixed.
-/

namespace Dbml.Spec

/-- New names for the schemas of tables, for tables (and their aliases), columns and table groups. -/
structure Renaming where
  schema : Str → Str := id
  table : Str → Str := id
  col : Str → Str := id
  group : Str → Str := id

/-- Different names stay different, and `public` stays `public`. -/
structure Renaming.Ok (ρ : Renaming) : Prop where
  schema : ∀ a b, ρ.schema a = ρ.schema b → a = b
  table : ∀ a b, ρ.table a = ρ.table b → a = b
  col : ∀ a b, ρ.col a = ρ.col b → a = b
  group : ∀ a b, ρ.group a = ρ.group b → a = b
  pub : ρ.schema k!"public" = k!"public"

namespace Core

/-- A name alone. -/
def name (n : Str) : Ident := { to_string := n }
/-- A name, renamed. -/
def ident (f : Str → Str) (i : Ident) : Ident := name (f i.to_string)
/-- The key of a setting. -/
def attr (a : Attribute) : Attribute := { key := name a.key.to_string }
/-- The key of a property. -/
def prop (p : Property) : Property :=
  { span_range := .zero, key := name p.key.to_string, value := { span_range := .zero, raw := [], value := .null } }
/-- The keys of the properties. -/
def project (b : ProjectBlock) : ProjectBlock := { properties := b.properties.map prop }
/-- An end of a ref. -/
def refIdent (ρ : Renaming) (r : RefIdent) : RefIdent :=
  { schema := r.schema.map (ident ρ.schema), table := ident ρ.table r.table, compositions := r.compositions.map (ident ρ.col) }
/-- The relation and the end of an inline ref. -/
def refInline (ρ : Renaming) (r : RefInline) : RefInline := { rel := r.rel, rhs := refIdent ρ r.rhs }
/-- The relation, the ends and the setting keys of a ref. -/
def ref (ρ : Renaming) (r : RefBlock) : RefBlock :=
  { rel := r.rel, lhs := refIdent ρ r.lhs, rhs := refIdent ρ r.rhs
    settings := r.settings.map fun st => { attributes := st.attributes.map attr } }
/-- The column of an index, or that there is an expression. -/
def indexCol (ρ : Renaming) : IndexesColumnType → IndexesColumnType
  | .string i => .string (ident ρ.col i)
  | .expr _ => .expr { span_range := .zero, raw := [], value := .null }
/-- The setting keys of an index, its type, and whether it is unique or a primary key. -/
def indexSettings (st : IndexesSettings) : IndexesSettings :=
  { attributes := st.attributes.map attr, type := st.type, is_unique := st.is_unique, is_pk := st.is_pk }
/-- An index. -/
def indexDef (ρ : Renaming) (d : IndexesDef) : IndexesDef :=
  { cols := d.cols.map (indexCol ρ), settings := d.settings.map indexSettings }
/-- The indexes of a table. -/
def indexes (ρ : Renaming) (b : IndexesBlock) : IndexesBlock := { defs := b.defs.map (indexDef ρ) }
/-- A value of an enum, with its setting keys. -/
def enumValue (v : EnumValue) : EnumValue :=
  { value := name v.value.to_string, settings := v.settings.map fun st => { attributes := st.attributes.map attr } }
/-- Schema, name and values of an enum. -/
def enum (e : EnumBlock) : EnumBlock :=
  { ident := { schema := e.ident.schema.map (ident id), name := ident id e.ident.name }, values := e.values.map enumValue }
/-- The setting keys of a column, whether it is a primary key, unique, nullable, its default value and its refs. -/
def colSettings (ρ : Renaming) (st : ColumnSettings) : ColumnSettings :=
  { attributes := st.attributes.map attr, is_pk := st.is_pk, is_unique := st.is_unique, nullable := st.nullable
    default := st.default, refs := st.refs.map (refInline ρ) }
/-- Name, type and settings of a column. -/
def column (ρ : Renaming) (c : TableColumn) : TableColumn :=
  { name := ident ρ.col c.name
    type := { type_name := c.type.type_name, args := c.type.args, arrays := c.type.arrays }
    settings := c.settings.map (colSettings ρ) }
/-- Schema, name, alias, columns, indexes and setting keys of a table. -/
def table (ρ : Renaming) (t : TableBlock) : TableBlock :=
  { cols := t.cols.map (column ρ)
    ident := { name := ident ρ.table t.ident.name, schema := t.ident.schema.map (ident ρ.schema)
               alias := t.ident.alias.map (ident ρ.table) }
    indexes := t.indexes.map (indexes ρ)
    settings := t.settings.map fun st => { attributes := st.attributes.map attr } }
/-- An item of a table group. -/
def groupItem (ρ : Renaming) (i : TableGroupItem) : TableGroupItem :=
  { schema := i.schema.map (ident ρ.schema), ident_alias := ident ρ.table i.ident_alias }
/-- Name and items of a table group. -/
def group (ρ : Renaming) (g : TableGroupBlock) : TableGroupBlock :=
  { ident := ident ρ.group g.ident, items := g.items.map (groupItem ρ) }
/-- A declaration; notes are dropped. -/
def block (ρ : Renaming) : TopLevelBlock → Option TopLevelBlock
  | .project b => some (.project (project b))
  | .table b => some (.table (table ρ b))
  | .tableGroup b => some (.tableGroup (group ρ b))
  | .note _ => none
  | .ref b => some (.ref (ref ρ b))
  | .enum b => some (.enum (enum b))

end Core

/-- The schema reduced to what the rules look at, renamed. -/
def core (ρ : Renaming) (s : SchemaBlock) : SchemaBlock := { blocks := s.blocks.filterMap (Core.block ρ) }

end Dbml.Spec
