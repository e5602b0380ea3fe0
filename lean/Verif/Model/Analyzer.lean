import Verif.Model.Indexer
import Verif.Model.Parser

/-!
# Semantic analysis: `/repo/src/analyzer/mod.rs`, `/repo/src/lib.rs`, `/repo/src/utils/mod.rs`
-/

namespace Dbml

/-- `/repo/src/analyzer/mod.rs:19-22` -/
structure AnalyzedIndexer where
  indexed_refs : List IndexedRef
  indexer : Indexer
deriving Repr

/-- `/repo/src/analyzer/mod.rs:26-33` -/
structure TableRef where
  ref_to : List IndexedRef
  ref_by : List IndexedRef
  ref_self : List IndexedRef

/-- "Check project block", `/repo/src/analyzer/mod.rs:79-87` -/
def checkProject (projects : List ProjectBlock) (span : Span) (input : Str) : Rs Unit :=
  if 1 < projects.length then throwErr .duplicateProjectSetting span input
  else
    match projects.head? with
    | some p => checkPropDuplicateKeys p.properties input
    | none => throwErr .projectSettingNotFound span input

/-- `filtered.len() == 2` of `/repo/src/analyzer/mod.rs:124-131`: the *set* of attribute keys that are
`null` or `not null` has two elements. -/
def nullConflict (attrs : List Attribute) : Bool :=
  (attrs.map (·.key.to_string)).contains k!"not null" && (attrs.map (·.key.to_string)).contains k!"null"

/-- The primary-key checks of a column, `/repo/src/analyzer/mod.rs:105-117` -/
def checkColumnPk (ti : TableIndexer) (col : TableColumn) (settings : ColumnSettings) (input : Str) :
    Rs TableIndexer :=
  if settings.is_pk then
    if !ti.pk_list.isEmpty then throwErr .duplicatePrimaryKey col.span_range input
    else if settings.nullable = some .null then throwErr .nullablePrimaryKey col.span_range input
    else if !col.type.arrays.isEmpty then throwErr .arrayPrimaryKey col.span_range input
    else .ok { ti with pk_list := ti.pk_list ++ [col.name.to_string] }
  else .ok ti

/-- Validation of one column's settings, `/repo/src/analyzer/mod.rs:104-134` -/
def checkColumn (ti : TableIndexer) (col : TableColumn) (input : Str) : Rs TableIndexer :=
  match col.settings with
  | none => .ok ti
  | some settings => do
    let ti ← checkColumnPk ti col settings input
    let ti : TableIndexer :=
      if settings.is_unique then { ti with unique_list := ti.unique_list ++ [[col.name.to_string]] }
      else ti
    if nullConflict settings.attributes then
      throwErr .conflictNullableSetting settings.span_range input
    else return ti

/-- The "column exists" loop over an index definition, `/repo/src/analyzer/mod.rs:166-172` -/
def checkIndexCols (cols : List TableColumn) (input : Str) : List IndexesColumnType → Rs Unit
  | [] => .ok ()
  | .string name :: rest =>
    if cols.any fun c => decide (c.name.to_string = name.to_string) then
      checkIndexCols cols input rest
    else throwErr .columnNotFound name.span_range input
  | .expr _ :: rest => checkIndexCols cols input rest

/-- The key checks of an index definition, `/repo/src/analyzer/mod.rs:186-206` -/
def checkIndexKey (ti : TableIndexer) (d : IndexesDef) (settings : IndexesSettings) (input : Str) :
    Rs TableIndexer :=
  let names := IndexedRef.defNames d
  if settings.is_pk then
    if !ti.pk_list.isEmpty then throwErr .duplicatePrimaryKey d.span_range input
    else .ok { ti with pk_list := ti.pk_list ++ names }
  else if settings.is_unique then
    if ti.unique_list.any fun u => names.all fun n => u.contains n then
      throwErr .duplicateUniqueKey d.span_range input
    else .ok { ti with unique_list := ti.unique_list ++ [names] }
  else .ok ti

/-- The type check of an index definition, `/repo/src/analyzer/mod.rs:208-220` -/
def checkIndexType (ti : TableIndexer) (d : IndexesDef) (settings : IndexesSettings) (input : Str) :
    Rs TableIndexer :=
  let names := IndexedRef.defNames d
  if settings.type.isSome then
    if ti.indexed_list.any fun e => decide (e.1 = names) && decide (e.2 = settings.type) then
      throwErr .duplicateIndexKey d.span_range input
    else .ok { ti with indexed_list := ti.indexed_list ++ [(names, settings.type)] }
  else .ok ti

/-- Validation of one index definition, `/repo/src/analyzer/mod.rs:149-232` -/
def checkIndexDef (ti : TableIndexer) (cols : List TableColumn) (blockSpan : Span)
    (d : IndexesDef) (input : Str) : Rs TableIndexer :=
  if d.cols.isEmpty then throwErr .emptyIndexesBlock blockSpan input
  else do
    let names := IndexedRef.defNames d
    checkIndexCols cols input d.cols
    match d.settings with
    | some settings =>
      checkAttrDuplicateKeys settings.attributes input
      if 1 < ([settings.is_pk, settings.is_unique, settings.type.isSome].filter (·)).length then
        throwErr .invalidIndexesSetting settings.span_range input
      else
        let ti ← checkIndexKey ti d settings input
        checkIndexType ti d settings input
    | none =>
      if ti.indexed_list.any fun e => decide (e.1 = names) then
        throwErr .duplicateIndexKey d.span_range input
      else return { ti with indexed_list := ti.indexed_list ++ [(names, none)] }

/-- The refs contributed by one column, `/repo/src/analyzer/mod.rs:137-143` -/
def columnRefs (ident : TableIdent) (col : TableColumn) : List IndexedRef :=
  IndexedRef.fromInline ((col.settings.map (·.refs)).getD []) ident col.name

/-- Validation of one table's columns and indexes, `/repo/src/analyzer/mod.rs:99-235`. The inline refs
that the Rust loop also collects are computed separately by `inlineRefs`: collecting them cannot
fail and nothing in the loop reads them. -/
def checkTable (table : TableBlock) (input : Str) : Rs Unit := do
  let ti ← table.cols.foldlM (init := ({} : TableIndexer)) fun ti col => checkColumn ti col input
  match table.indexes with
  | some block =>
    let _ ← block.defs.foldlM (init := ti) fun ti d =>
      checkIndexDef ti table.cols block.span_range d input
    return ()
  | none => return ()

/-- All inline refs, in table and column order (`indexed_refs.extend(..)`,
`/repo/src/analyzer/mod.rs:99-144`). -/
def inlineRefs (tables : List TableBlock) : List IndexedRef :=
  tables.flatMap fun t => t.cols.flatMap fun c => columnRefs t.ident c

/-- The argument-count rule of `/repo/src/analyzer/mod.rs:256-277`: the required number of arguments
of a built-in type that is given arguments. -/
def typeArity (t : ColumnTypeName) : Nat :=
  match t with
  | .varchar | .char | .time | .timestamp | .timetz | .timestamptz | .bit | .varbit => 1
  | .decimal => 2
  | _ => 0

/-- Argument checks of a built-in type, `/repo/src/analyzer/mod.rs:254-282`. For the types of
arity 0 the error is unconditional; as `args` is not empty here, `args.len() != 0` is the same. -/
def checkTypeArgs (rawType : Str) (t : ColumnTypeName) (ty : ColumnType) (input : Str) : Rs Unit :=
  if ty.args.isEmpty then .ok ()
  else if ty.args.length ≠ typeArity t then
    throwErr (.invalidDataTypeArguments rawType (typeArity t)) ty.span_range input
  else if ty.args.all fun | .integer _ => true | _ => false then .ok ()
  else throwErr .invalidArgumentValue ty.span_range input

/-- `str::split('.')`
`/repo/src/analyzer/mod.rs:287`. -/
def splitDot : Str → List Str
  | [] => [[]]
  | c :: cs =>
    if c = '.' then [] :: splitDot cs
    else
      match splitDot cs with
      | s :: ss => (c :: s) :: ss
      | [] => [[c]]

/-- `attributes.iter().find_map(|attr| (attr.key.to_string == "default").then(|| attr.value..span))
.and_then(id).unwrap_or_else(|| unreachable!())`, `/repo/src/analyzer/mod.rs:297-302,323-328`: the span
of the value of the *first* attribute named `default`. -/
def defaultSpan (attrs : List Attribute) : Rs Span :=
  match attrs.find? fun a => decide (a.key.to_string = k!"default") with
  | some a =>
    match a.value with
    | some v => .ok v.span_range
    | none => .panic .defaultValueMissing
  | none => .panic .defaultValueMissing

/-- Schema and name of a type that is not built in, `/repo/src/analyzer/mod.rs:286-292` -/
def enumParts (rawType : Str) (span : Span) (input : Str) : Rs (Option Str × Str) :=
  match splitDot rawType with
  | [_] => .ok (none, rawType)
  | [s, n] => .ok (some s, n)
  | _ => throwErr .invalidEnum span input

/-- The check that the default of a column is a value of its enum, `/repo/src/analyzer/mod.rs:296-310` -/
def checkEnumDefault (ix : Indexer) (enumSchema : Option Str) (enumName : Str) (defaultValue : Value)
    (typeSpan defSpan : Span) (input : Str) : Rs Unit :=
  match ix.lookupEnumValues enumSchema enumName [defaultValue.toStr] with
  | (false, (_, _)) => throwErr .schemaNotFound typeSpan input
  | (true, (false, _)) => throwErr .enumNotFound typeSpan input
  | (true, (true, f)) =>
    if f.any (· = false) then throwErr .enumValueNotFound defSpan input
    else .ok ()

/-- The resolution of a raw type name, `/repo/src/analyzer/mod.rs:247-319` -/
def resolveType (ix : Indexer) (col : TableColumn) (input : Str) : Rs ColumnTypeName :=
  match col.type.type_name with
  | .raw rawType =>
    match ColumnTypeName.fromStr rawType with
    | some t => do
      checkTypeArgs rawType t col.type input
      return t
    | none => do
      let p ← enumParts rawType col.type.span_range input
      match col.settings with
      | some { attributes, default := some defaultValue, .. } => do
        let span ← defaultSpan attributes
        checkEnumDefault ix p.1 p.2 defaultValue col.type.span_range span input
        return .enum p.2
      | _ => return .enum p.2
  | _ => .panic .typeNameNotRaw

/-- `i16::MAX`, `i16::MIN`, `i32::MAX`, `i32::MIN`, `i64::MAX`, `i64::MIN` as used at
`/repo/src/analyzer/mod.rs:360,364,368`. -/
def i16Max : Int := 32767
/-- `/repo/src/analyzer/mod.rs:360`. -/
def i16Min : Int := -32768
/-- `/repo/src/analyzer/mod.rs:364`. -/
def i32Max : Int := 2147483647
/-- `/repo/src/analyzer/mod.rs:364`. -/
def i32Min : Int := -2147483648
/-- `/repo/src/analyzer/mod.rs:368`. -/
def i64MaxI : Int := 9223372036854775807
/-- `/repo/src/analyzer/mod.rs:368`. -/
def i64MinI : Int := -9223372036854775808

/-- `matches!(col.r#type.args[0], Value::Integer(n) if p(n))`, `/repo/src/analyzer/mod.rs:342,347`.
Indexing an empty `Vec` panics. -/
def firstArgMatches (args : List Value) (p : Int → Bool) : Rs Bool :=
  match args with
  | [] => .panic .argsIndex
  | .integer n :: _ => .ok (p n)
  | _ :: _ => .ok false

/-- Validation of a default value against the column type, `/repo/src/analyzer/mod.rs:331-387`.
`val.overflowing_add(1).1` is `val = i64::MAX`, `val.overflowing_sub(1).1` is `val = i64::MIN`. -/
def checkDefault (col : TableColumn) (settings : ColumnSettings) (typeName : ColumnTypeName)
    (value : Value) (span : Span) (input : Str) : Rs Unit :=
  match value with
  | .string val =>
    let err : Rs Unit := throwErr (.invalidDefaultValue val col.type.raw) span input
    match typeName with
    | .bit | .char => do
      if ← firstArgMatches col.type.args fun len => decide ((blen val : Int) ≠ len) then err
      else return ()
    | .varbit | .varchar => do
      if ← firstArgMatches col.type.args fun cap => decide ((blen val : Int) > cap) then err
      else return ()
    | _ => .ok ()
  | .integer val =>
    let err : Rs Unit := throwErr (.dataTypeExceeded col.type.raw) span input
    match typeName with
    | .smallInt => if val > i16Max ∨ val < i16Min then err else .ok ()
    | .integer => if val > i32Max ∨ val < i32Min then err else .ok ()
    | .bigInt => if val = i64MaxI ∨ val = i64MinI then err else .ok ()
    | _ => .ok ()
  | .bool _ =>
    if typeName = .bool then .ok ()
    else throwErr (.invalidDefaultValue value.toStr col.type.raw) span input
  | .null =>
    if settings.nullable = some .null then .ok ()
    else throwErr .defaultNullInNonNullable span input
  | .enum _ | .decimal _ | .hexColor _ | .expr _ => .ok ()

/-- The check of a column's default, `/repo/src/analyzer/mod.rs:321-388` -/
def checkColDefault (col : TableColumn) (typeName : ColumnTypeName) (input : Str) : Rs Unit :=
  match col.settings with
  | some settings =>
    match settings.default with
    | some value => do
      let span ← defaultSpan settings.attributes
      checkDefault col settings typeName value span input
    | none => .ok ()
  | none => .ok ()

/-- Validation and typing of one column, `/repo/src/analyzer/mod.rs:244-397` -/
def typeColumn (ix : Indexer) (input : Str) (col : TableColumn) : Rs TableColumn := do
  let typeName ← resolveType ix col input
  checkColDefault col typeName input
  return { col with type := { col.type with type_name := typeName } }

/-- Validation and typing of one table, `/repo/src/analyzer/mod.rs:240-401` -/
def typeTable (ix : Indexer) (input : Str) (table : TableBlock) : Rs TableBlock := do
  let cols ← table.cols.mapM (typeColumn ix input)
  return { table with cols := cols }

/-- One iteration of "validate ref", `/repo/src/analyzer/mod.rs:406-419` -/
def checkRef (tables : List TableBlock) (ix : Indexer) (indexedRefs : List IndexedRef) (input : Str)
    (r : IndexedRef) : Rs Unit := do
  checkSettings (r.settings.map (·.attributes)) input
  r.validateRefType tables ix input
  if (indexedRefs.filter fun o => r.occupySameColumn o ix).length ≠ 1 then
    throwErr .conflictRelation r.span_range input
  else return ()

/-- Sequential `for x in xs { f(x)?; }`.
`/repo/src/analyzer/mod.rs:99,103,148,166,405`. -/
def forEach {α : Type} (f : α → Rs Unit) : List α → Rs Unit
  | [] => .ok ()
  | x :: xs => do
    f x
    forEach f xs

/-- `analyze`, `/repo/src/analyzer/mod.rs:70-423` -/
def analyze (schema : SchemaBlock) : Rs AnalyzedIndexer := do
  let input := schema.input
  let tables := schema.tables
  checkProject schema.projects schema.span_range input
  let ix ← Indexer.indexTable {} tables input
  let ix ← ix.indexEnums schema.enums input
  let ix ← ix.indexTableGroups schema.table_groups input
  forEach (fun t => checkTable t input) tables
  let indexedRefs := schema.refs.map IndexedRef.ofRefBlock ++ inlineRefs tables
  let typed ← tables.mapM (typeTable ix input)
  forEach (checkRef typed ix indexedRefs input) indexedRefs
  return { indexed_refs := indexedRefs, indexer := ix }

/-- `parse_dbml`, `/repo/src/lib.rs:59-63` -/
def parseDbml (input : Str) : Rs SchemaBlock := do
  let ast ← parseDbmlUnchecked input
  let _ ← analyze ast
  return ast

/-- The closure `eq` of `get_table_refs`, `/repo/src/utils/mod.rs:37-40` -/
def identEqRef (t : TableIdent) (r : RefIdent) : Bool :=
  decide (t.schema.map (·.to_string) = r.schema.map (·.to_string)) &&
    decide (t.name.to_string = r.table.to_string)

/-- One iteration of `get_table_refs`, `/repo/src/utils/mod.rs:42-53` -/
def addTableRef (t : TableIdent) (ix : Indexer) (acc : TableRef) (r : IndexedRef) : TableRef :=
  let l := ix.resolveRefAlias r.lhs
  let rr := ix.resolveRefAlias r.rhs
  if identEqRef t l && identEqRef t rr then { acc with ref_self := acc.ref_self ++ [r] }
  else if identEqRef t l then { acc with ref_to := acc.ref_to ++ [r] }
  else if identEqRef t rr then { acc with ref_by := acc.ref_by ++ [r] }
  else acc

/-- `get_table_refs`, `/repo/src/utils/mod.rs:32-60` -/
def getTableRefs (t : TableIdent) (a : AnalyzedIndexer) : TableRef :=
  a.indexed_refs.foldl (addTableRef t a.indexer) { ref_to := [], ref_by := [], ref_self := [] }

end Dbml
