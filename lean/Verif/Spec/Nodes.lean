import Verif.Model.Ast

/-!
# All nodes of a kind in an AST

Plain traversals, used to say "every column", "every literal", ... of a schema.
-/

namespace Dbml.Spec

/-- All columns. -/
def columns (s : SchemaBlock) : List TableColumn := s.tables.flatMap (·.cols)
/-- The settings of all columns. -/
def columnSettings (s : SchemaBlock) : List ColumnSettings := (columns s).filterMap (·.settings)
/-- All inline refs. -/
def refInlines (s : SchemaBlock) : List RefInline := (columnSettings s).flatMap (·.refs)
/-- All index definitions. -/
def indexDefs (s : SchemaBlock) : List IndexesDef :=
  (s.tables.filterMap (·.indexes)).flatMap (·.defs)
/-- The settings of all index definitions. -/
def indexSettings (s : SchemaBlock) : List IndexesSettings := (indexDefs s).filterMap (·.settings)
/-- The settings of all ref blocks. -/
def refSettings (s : SchemaBlock) : List RefSettings := s.refs.filterMap (·.settings)
/-- All enum values. -/
def enumValues (s : SchemaBlock) : List EnumValue := s.enums.flatMap (·.values)
/-- The settings of all enum values. -/
def enumSettings (s : SchemaBlock) : List EnumValueSettings := (enumValues s).filterMap (·.settings)
/-- The settings of all tables. -/
def tableSettings (s : SchemaBlock) : List TableSettings := s.tables.filterMap (·.settings)
/-- The settings of all table groups. -/
def groupSettings (s : SchemaBlock) : List TableGroupSettings := s.table_groups.filterMap (·.settings)
/-- All items of table groups. -/
def groupItems (s : SchemaBlock) : List TableGroupItem := s.table_groups.flatMap (·.items)
/-- The top-level notes. -/
def topNotes (s : SchemaBlock) : List NoteBlock :=
  s.blocks.filterMap fun | .note b => some b | _ => none
/-- All notes. -/
def notes (s : SchemaBlock) : List NoteBlock :=
  topNotes s ++ s.projects.filterMap (·.note) ++ s.tables.filterMap (·.note) ++
    s.table_groups.filterMap (·.note)
/-- All properties of projects. -/
def properties (s : SchemaBlock) : List Property := s.projects.flatMap (·.properties)
/-- All attributes. -/
def attributes (s : SchemaBlock) : List Attribute :=
  (tableSettings s).flatMap (·.attributes) ++ (columnSettings s).flatMap (·.attributes) ++
    (indexSettings s).flatMap (·.attributes) ++ (refSettings s).flatMap (·.attributes) ++
    (enumSettings s).flatMap (·.attributes) ++ (groupSettings s).flatMap (·.attributes)
/-- All ref endpoints. -/
def refIdents (s : SchemaBlock) : List RefIdent :=
  s.refs.map (·.lhs) ++ s.refs.map (·.rhs) ++ (refInlines s).map (·.rhs)
/-- All names of a declared or referenced thing (attribute and property keys are not identifiers in the
sense of the grammar: they may contain blanks). -/
def idents (s : SchemaBlock) : List Ident :=
  s.projects.map (·.ident) ++
  s.tables.flatMap (fun t => t.ident.schema.toList ++ (t.ident.name :: t.ident.alias.toList)) ++
  (columns s).map (·.name) ++
  (indexDefs s).flatMap (fun d => d.cols.filterMap fun | .string i => some i | .expr _ => none) ++
  s.enums.flatMap (fun e => e.ident.schema.toList ++ [e.ident.name]) ++
  (enumValues s).map (·.value) ++
  s.table_groups.map (·.ident) ++
  (groupItems s).flatMap (fun i => i.schema.toList ++ [i.ident_alias]) ++
  s.refs.filterMap (·.name) ++
  (refIdents s).flatMap (fun r => r.schema.toList ++ (r.table :: r.compositions))
/-- All literals. -/
def literals (s : SchemaBlock) : List Literal :=
  (attributes s).filterMap (·.value) ++ (properties s).map (·.value) ++ (notes s).map (·.value) ++
  (indexDefs s).flatMap (fun d => d.cols.filterMap fun | .string _ => none | .expr l => some l)

end Dbml.Spec
