import Verif.Model.Result

/-!
# The texts of error messages, as format strings

Taken literally from the attributes `#[display(fmt = "..", ..)]` of `/repo/src/analyzer/err.rs:18-134`.
-/

namespace Dbml.Spec

/-- Filling in a format string: each `{}` is replaced by the next argument. -/
def fill : Str → List Str → Str
  | '{' :: '}' :: f, a :: as => a ++ fill f as
  | c :: f, as => c :: fill f as
  | [], _ => []

/-- A number in decimal, without leading zeros. -/
def numeral (n : Nat) : Str := Nat.toDigits 10 n

/-- The texts of `InvalidForeignKeyErr`. -/
def foreignKeyTemplate : InvalidForeignKeyErr → Str
  | .nitherUniqueKeyNorPrimaryKey => k!"the referenced column is neither a primary key or a unique key"
  | .nitherUniqueKeyNorPrimaryKeyComposite => k!"the referenced column is neither a composite primary key or a composite unique key"
  | .one2One => k!"either side of the one-to-one relation must be a primary key or a unique key"
  | .one2OneComposite => k!"either side of the composite one-to-one relation must be a composite primary key or a composite unique key"
  | .many2Many => k!"both sides of the many-to-many relation must be a primary key or a unique key"
  | .many2ManyComposite => k!"both sides of the composite many-to-many relation must be either a composite primary key or a composite unique key"

/-- The format strings of `Err` with their arguments. -/
def template : Err → Str × List Str
  | .nullablePrimaryKey => (k!"Nullable primary key: a nullable primary is not allowed", [])
  | .arrayPrimaryKey => (k!"Array primary key: an array with primary is not allowed", [])
  | .invalidIndexesSetting => (k!"Invalid indexes setting: can specify either 'pk', 'unique', or 'type' within a setting", [])
  | .duplicateAttributeKey => (k!"Duplicate attribute key", [])
  | .duplicatePropertyKey => (k!"Duplicate property key", [])
  | .duplicateProjectSetting => (k!"Duplicate project setting", [])
  | .duplicatePrimaryKey => (k!"Duplicate primary key", [])
  | .duplicateUniqueKey => (k!"Duplicate unique key", [])
  | .duplicateIndexKey => (k!"Duplicate index key", [])
  | .duplicateTableName => (k!"Duplicate table name", [])
  | .duplicateColumnName => (k!"Duplicate column name", [])
  | .conflictRelation => (k!"Conflict relation", [])
  | .duplicateEnumName => (k!"Duplicate enum name", [])
  | .duplicateEnumValue => (k!"Duplicate enum value", [])
  | .duplicateTableGroupName => (k!"Duplicate table group name", [])
  | .duplicateTableGroupItem => (k!"Duplicate table group item", [])
  | .duplicateAlias => (k!"Duplicate alias", [])
  | .conflictNullableSetting => (k!"Conflict nullable setting: 'null' and 'not null' must not appear within the same setting", [])
  | .projectSettingNotFound => (k!"Project setting not found", [])
  | .emptyIndexesBlock => (k!"Empty indexes block", [])
  | .invalidEnum => (k!"Invalid enum", [])
  | .invalidDataType => (k!"Invalid data type", [])
  | .invalidDataTypeArguments raw_type n_arg => (k!"Invalid data type arguments: '{}' requires only {} argument(s)", [raw_type, numeral n_arg])
  | .invalidArgumentValue => (k!"Invalid argument value: the value for the argument is not integer", [])
  | .invalidDefaultValue raw_value raw_type => (k!"Invalid default value: the defualt value '{}' is not associated with '{}'", [raw_value, raw_type])
  | .defaultNullInNonNullable => (k!"Default null in non-nullable: the default value cannot be null in non-nullable field", [])
  | .dataTypeExceeded raw_type => (k!"Data type exceeded: the default value exceeds the maximum value of '{}'", [raw_type])
  | .tableGroupNotFound => (k!"Table group not found", [])
  | .schemaNotFound => (k!"Schema not found", [])
  | .tableNotFound => (k!"Table not found", [])
  | .columnNotFound => (k!"Column not found", [])
  | .enumNotFound => (k!"Enum not found", [])
  | .enumValueNotFound => (k!"Enum value not found", [])
  | .mismatchedForeignKeyType r_ident l_ident r_type l_type => (k!"Mismatched foreign key type: '{}': '{}' (left) and '{}': '{}' (right) are incompatible", [l_ident, l_type, r_ident, r_type])
  | .invalidForeignKey err => (k!"Invalid foreign key: {}", [fill (foreignKeyTemplate err) []])
  | .mismatchedCompositeForeignKey => (k!"Mismatched composite foreign key", [])

end Dbml.Spec
