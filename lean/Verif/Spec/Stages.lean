import Verif.Spec.Defects

/-!
# The stages of the analysis

What a user has to know to read an error: the checks come in a fixed order, and each kind of error belongs to
one or more of the stages.
-/

namespace Dbml.Spec

/-- The stages, in the order in which they are checked. -/
inductive Stage | project | tables | enums | groups | keys | columns | refs
deriving DecidableEq, Repr

/-- The position of a stage. -/
def Stage.number : Stage → Nat
  | .project => 0 | .tables => 1 | .enums => 2 | .groups => 3 | .keys => 4 | .columns => 5 | .refs => 6

/-- The rules of a stage hold. -/
def Stage.Ok (s : SchemaBlock) : Stage → Prop
  | .project => ProjectOk s
  | .tables => TablesOk s.tables
  | .enums => EnumsOk s.enums
  | .groups => TableGroupsOk s s.table_groups
  | .keys => ∀ t ∈ s.tables, KeysOk t
  | .columns => ∀ c ∈ Spec.columns s, ColumnOk s c
  | .refs => RefsOk s ∧ ∀ st ∈ refSettings s, DistinctKeys st.attributes

/-- The kinds of errors of a stage. -/
def Stage.Reports : Stage → Err → Prop
  | .project, e => e ∈ [.duplicateProjectSetting, .projectSettingNotFound, .duplicatePropertyKey]
  | .tables, e => e ∈ [.duplicateAttributeKey, .duplicateTableName, .duplicateColumnName, .duplicateAlias]
  | .enums, e => e ∈ [.duplicateAttributeKey, .duplicateEnumName, .duplicateEnumValue]
  | .groups, e => e ∈ [.duplicateTableGroupName, .tableNotFound, .duplicateTableGroupItem]
  | .keys, e => e ∈ [.duplicateAttributeKey, .duplicatePrimaryKey, .nullablePrimaryKey, .arrayPrimaryKey,
      .conflictNullableSetting, .emptyIndexesBlock, .columnNotFound, .invalidIndexesSetting, .duplicateUniqueKey,
      .duplicateIndexKey]
  | .columns, e => e ∈ [.invalidArgumentValue, .invalidEnum, .schemaNotFound, .enumNotFound, .enumValueNotFound,
      .defaultNullInNonNullable] ∨ (∃ n k, e = .invalidDataTypeArguments n k) ∨
      (∃ v t, e = .invalidDefaultValue v t) ∨ ∃ t, e = .dataTypeExceeded t
  | .refs, e => e ∈ [.duplicateAttributeKey, .mismatchedCompositeForeignKey, .schemaNotFound, .tableNotFound,
      .columnNotFound, .conflictRelation] ∨ (∃ a b c d, e = .mismatchedForeignKeyType a b c d) ∨
      ∃ k, e = .invalidForeignKey k

end Dbml.Spec
