import Verif.Model.Result

/-!
# Error messages: the `Display` texts of `/repo/src/analyzer/err.rs`
-/

namespace Dbml

/-- `impl Display for InvalidForeignKeyErr`, `/repo/src/analyzer/err.rs:116-134` -/
def InvalidForeignKeyErr.display : InvalidForeignKeyErr → Str
  | .nitherUniqueKeyNorPrimaryKey => k!"the referenced column is neither a primary key or a unique key"
  | .nitherUniqueKeyNorPrimaryKeyComposite =>
    k!"the referenced column is neither a composite primary key or a composite unique key"
  | .one2One => k!"either side of the one-to-one relation must be a primary key or a unique key"
  | .one2OneComposite =>
    k!"either side of the composite one-to-one relation must be a composite primary key or a composite unique key"
  | .many2Many => k!"both sides of the many-to-many relation must be a primary key or a unique key"
  | .many2ManyComposite =>
    k!"both sides of the composite many-to-many relation must be either a composite primary key or a composite unique key"

/-- `impl Display for Err`, `/repo/src/analyzer/err.rs:18-114` (derived by `derive_more`). `n_arg` is a `u32`, printed in
decimal. -/
def Err.display : Err → Str
  | .nullablePrimaryKey => k!"Nullable primary key: a nullable primary is not allowed"
  | .arrayPrimaryKey => k!"Array primary key: an array with primary is not allowed"
  | .invalidIndexesSetting =>
    k!"Invalid indexes setting: can specify either 'pk', 'unique', or 'type' within a setting"
  | .duplicateAttributeKey => k!"Duplicate attribute key"
  | .duplicatePropertyKey => k!"Duplicate property key"
  | .duplicateProjectSetting => k!"Duplicate project setting"
  | .duplicatePrimaryKey => k!"Duplicate primary key"
  | .duplicateUniqueKey => k!"Duplicate unique key"
  | .duplicateIndexKey => k!"Duplicate index key"
  | .duplicateTableName => k!"Duplicate table name"
  | .duplicateColumnName => k!"Duplicate column name"
  | .conflictRelation => k!"Conflict relation"
  | .duplicateEnumName => k!"Duplicate enum name"
  | .duplicateEnumValue => k!"Duplicate enum value"
  | .duplicateTableGroupName => k!"Duplicate table group name"
  | .duplicateTableGroupItem => k!"Duplicate table group item"
  | .duplicateAlias => k!"Duplicate alias"
  | .conflictNullableSetting =>
    k!"Conflict nullable setting: 'null' and 'not null' must not appear within the same setting"
  | .projectSettingNotFound => k!"Project setting not found"
  | .emptyIndexesBlock => k!"Empty indexes block"
  | .invalidEnum => k!"Invalid enum"
  | .invalidDataType => k!"Invalid data type"
  | .invalidDataTypeArguments raw_type n_arg =>
    k!"Invalid data type arguments: '" ++ (raw_type ++ (k!"' requires only " ++ (Nat.toDigits 10 n_arg ++ k!" argument(s)")))
  | .invalidArgumentValue => k!"Invalid argument value: the value for the argument is not integer"
  | .invalidDefaultValue raw_value raw_type =>
    k!"Invalid default value: the defualt value '" ++ (raw_value ++ (k!"' is not associated with '" ++ (raw_type ++ k!"'")))
  | .defaultNullInNonNullable =>
    k!"Default null in non-nullable: the default value cannot be null in non-nullable field"
  | .dataTypeExceeded raw_type =>
    k!"Data type exceeded: the default value exceeds the maximum value of '" ++ (raw_type ++ k!"'")
  | .tableGroupNotFound => k!"Table group not found"
  | .schemaNotFound => k!"Schema not found"
  | .tableNotFound => k!"Table not found"
  | .columnNotFound => k!"Column not found"
  | .enumNotFound => k!"Enum not found"
  | .enumValueNotFound => k!"Enum value not found"
  | .mismatchedForeignKeyType r_ident l_ident r_type l_type =>
    k!"Mismatched foreign key type: '" ++ (l_ident ++ (k!"': '" ++ (l_type ++ (k!"' (left) and '" ++
      (r_ident ++ (k!"': '" ++ (r_type ++ k!"' (right) are incompatible")))))))
  | .invalidForeignKey err => k!"Invalid foreign key: " ++ err.display
  | .mismatchedCompositeForeignKey => k!"Mismatched composite foreign key"

/-- The `message` of the `ErrorVariant::CustomError` in the returned error (`/repo/src/parser/err.rs:23-30`,
`/repo/src/analyzer/err.rs:136-145`); a `ParsingError` (`/repo/src/parser/err.rs:13-21` and pest's own errors) has none. -/
def PError.message : PError → Option Str
  | .syntax => none
  | .rules _ _ => none
  | .msg m _ => some m
  | .semantic e _ => some e.display

end Dbml
