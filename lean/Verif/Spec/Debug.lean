import Verif.Model.Ast
import Verif.Spec.Float

/-!
# The doubles in an AST (C87)
-/

namespace Dbml.Spec.Doubles

open Dbml

/-- The double that a value is, if it is one. -/
def value : Value → List F64
  | .decimal f => [f]
  | _ => []

/-- The doubles in a literal. -/
def literal (l : Literal) : List F64 := value l.value

/-- The doubles in a setting. -/
def attr (a : Attribute) : List F64 := a.value.toList.flatMap literal

/-- The doubles in a property. -/
def prop (a : Property) : List F64 := literal a.value

/-- The doubles in a note. -/
def note (n : NoteBlock) : List F64 := literal n.value

/-- The doubles in a project. -/
def project (p : ProjectBlock) : List F64 := p.properties.flatMap prop ++ p.note.toList.flatMap note

/-- The doubles in the settings of a ref. -/
def refSettings (s : RefSettings) : List F64 := s.attributes.flatMap attr

/-- The doubles in a ref. -/
def refBlock (b : RefBlock) : List F64 := b.settings.toList.flatMap refSettings

/-- The doubles in the settings of an index. -/
def idxSettings (s : IndexesSettings) : List F64 := s.attributes.flatMap attr

/-- The doubles in a column of an index. -/
def idxCol : IndexesColumnType → List F64
  | .string _ => []
  | .expr l => literal l

/-- The doubles in an index. -/
def idxDef (d : IndexesDef) : List F64 := d.cols.flatMap idxCol ++ d.settings.toList.flatMap idxSettings

/-- The doubles in the indexes of a table. -/
def idxBlock (b : IndexesBlock) : List F64 := b.defs.flatMap idxDef

/-- The doubles in the settings of an enum value. -/
def enumSettings (s : EnumValueSettings) : List F64 := s.attributes.flatMap attr

/-- The doubles in an enum value. -/
def enumValue (v : EnumValue) : List F64 := v.settings.toList.flatMap enumSettings

/-- The doubles in an enum. -/
def enumBlock (b : EnumBlock) : List F64 := b.values.flatMap enumValue

/-- The doubles in the type of a column (its arguments). -/
def colType (t : ColumnType) : List F64 := t.args.flatMap value

/-- The doubles in the settings of a column. -/
def colSettings (s : ColumnSettings) : List F64 := s.attributes.flatMap attr ++ s.default.toList.flatMap value

/-- The doubles in a column. -/
def tableCol (c : TableColumn) : List F64 := colType c.type ++ c.settings.toList.flatMap colSettings

/-- The doubles in the settings of a table. -/
def tableSettings (s : TableSettings) : List F64 := s.attributes.flatMap attr

/-- The doubles in the settings of a table group. -/
def groupSettings (s : TableGroupSettings) : List F64 := s.attributes.flatMap attr

/-- The doubles in a table. -/
def tableBlock (b : TableBlock) : List F64 := b.cols.flatMap tableCol ++ (b.note.toList.flatMap note ++ (b.indexes.toList.flatMap idxBlock ++ b.settings.toList.flatMap tableSettings))

/-- The doubles in a table group. -/
def groupBlock (b : TableGroupBlock) : List F64 := b.note.toList.flatMap note ++ b.settings.toList.flatMap groupSettings

/-- The doubles in a declaration. -/
def block : TopLevelBlock → List F64
  | .project b => project b
  | .table b => tableBlock b
  | .tableGroup b => groupBlock b
  | .note b => note b
  | .ref b => refBlock b
  | .enum b => enumBlock b

/-- The doubles in an AST. -/
def schema (s : SchemaBlock) : List F64 := s.blocks.flatMap block

end Dbml.Spec.Doubles

namespace Dbml.Spec

/-- All doubles in an AST are in canonical form: the model of `f64` (`Verif/Model/F64.lean`) has the numbers `m * 2 ^ e`, of which only
those with 53 bits or the least exponent exist, each once. -/
def Canonical (s : SchemaBlock) : Prop := ∀ m e, .fin m e ∈ Doubles.schema s → IsFloat m e

end Dbml.Spec
