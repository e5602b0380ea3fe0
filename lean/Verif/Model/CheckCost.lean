import Verif.Model.Analyzer
import Verif.Spec.Size

/-!
# The semantic analysis with a step counter

`analyzeC` is `analyze` (`Verif/Model/Analyzer.lean`) instrumented: it also counts steps. A step is one comparison, copy
or move of a name (or of another string or value), one round of a loop, or the visit of one node of a `BTreeMap` or `BTreeSet`
(which has at most eleven entries). A lookup or insertion visits as many nodes as the tree is high, and a tree of `n` entries is at
most `log2 n + 1` high. Two sets are built (by sorting) and compared with `n * log2 n` steps up to a constant factor. An
iteration over a `Vec` that stops at a match is counted as if it did not stop; copying a part of the AST is counted with its size;
an error costs the length of the text (pest computes its line and column). `Dbml.Props.C83_same_result` proves that the result is
that of `analyze`.
-/

namespace Dbml

/-- An outcome together with the number of steps it took.
Instrumentation of `AnalyzerResult`, `/repo/src/analyzer/err.rs:16`. -/
structure Ct (α : Type) where
  val : Rs α
  steps : Nat

namespace Ct

/-- The `?` operator, adding up the steps (`/repo/src/analyzer/mod.rs:80` and throughout). -/
def bind {α β : Type} (x : Ct α) (f : α → Ct β) : Ct β :=
  match x.val with
  | .ok a => ⟨(f a).val, x.steps + (f a).steps⟩
  | .err e => ⟨.err e, x.steps⟩
  | .panic s => ⟨.panic s, x.steps⟩
  | .diverge => ⟨.diverge, x.steps⟩

/-- Sequencing (`/repo/src/analyzer/mod.rs:80` and throughout). -/
instance : Monad Ct where
  pure a := ⟨.ok a, 0⟩
  bind := Ct.bind

end Ct

/-- A result that takes `n` steps. Instrumentation; no counterpart in `/repo/src/analyzer/mod.rs:70-423`. -/
def charge {α : Type} (n : Nat) (x : Rs α) : Ct α := ⟨x, n⟩

/-- `n` steps. Instrumentation; no counterpart in `/repo/src/analyzer/mod.rs:70-423`. -/
def tick (n : Nat) : Ct Unit := charge n (.ok ())

/-- The steps of a lookup in (or an insertion into) a tree with these entries
(`/repo/src/analyzer/indexer.rs:79,84,134,149,163`). -/
def lookSteps {α : Type} (l : List α) : Nat := Nat.log2 l.length + 1

/-- `throwErr` with a counter, `/repo/src/analyzer/err.rs:136-145` -/
def throwErrC {α : Type} (e : Err) (span : Span) (input : Str) : Ct α := charge (input.length + 1) (throwErr e span input)

/-- `dupKeys` with a counter, `/repo/src/analyzer/helper.rs:6-11,22-27` -/
def dupKeysC {α : Type} (key : α → Str) : List Str → List α → Ct (List α)
  | _, [] => pure []
  | seen, a :: as => do
    tick (lookSteps seen)
    if seen.contains (key a) then do
      let r ← dupKeysC key seen as
      pure (a :: r)
    else dupKeysC key (key a :: seen) as

/-- `checkAttrDuplicateKeys` with a counter, `/repo/src/analyzer/helper.rs:5-19` -/
def checkAttrDuplicateKeysC (attrs : List Attribute) (input : Str) : Ct Unit := do
  let d ← dupKeysC (·.key.to_string) [] attrs
  match d.head? with
  | some attr => throwErrC .duplicateAttributeKey attr.span_range input
  | none => tick 1

/-- `checkPropDuplicateKeys` with a counter, `/repo/src/analyzer/helper.rs:21-35` -/
def checkPropDuplicateKeysC (props : List Property) (input : Str) : Ct Unit := do
  let d ← dupKeysC (·.key.to_string) [] props
  match d.head? with
  | some prop => throwErrC .duplicatePropertyKey prop.span_range input
  | none => tick 1

/-- `checkSettings` with a counter, `/repo/src/analyzer/indexer.rs:43-45,65-67,120-122` -/
def checkSettingsC (attrs : Option (List Attribute)) (input : Str) : Ct Unit :=
  match attrs with
  | some as => checkAttrDuplicateKeysC as input
  | none => tick 1

namespace Indexer

/-- `containsTable` with a counter, `/repo/src/analyzer/indexer.rs:191-197` -/
def containsTableC (ix : Indexer) (schema name : Str) : Ct Bool := do
  tick (lookSteps ix.schema_map)
  match mapGet ix.schema_map schema with
  | some item => charge (lookSteps item.table_map) (.ok (mapContains item.table_map name))
  | none => pure false

/-- `containsEnum` with a counter, `/repo/src/analyzer/indexer.rs:200-206` -/
def containsEnumC (ix : Indexer) (schema name : Str) : Ct Bool := do
  tick (lookSteps ix.schema_map)
  match mapGet ix.schema_map schema with
  | some item => charge (lookSteps item.enum_map) (.ok (mapContains item.enum_map name))
  | none => pure false

/-- `indexCols` with a counter, `/repo/src/analyzer/indexer.rs:63-72` -/
def indexColsC (cols : List TableColumn) (input : Str) : Ct (List Str) :=
  cols.foldlM (init := ([] : List Str)) fun indexed col => do
    checkSettingsC (col.settings.map (·.attributes)) input
    tick (lookSteps indexed)
    if indexed.contains col.name.to_string then
      throwErrC .duplicateColumnName col.span_range input
    else pure (col.name.to_string :: indexed)

/-- `indexTable1` with a counter, `/repo/src/analyzer/indexer.rs:42-89`. (Two steps for the copied names.) -/
def indexTable1C (ix : Indexer) (table : TableBlock) (input : Str) : Ct Indexer := do
  checkSettingsC (table.settings.map (·.attributes)) input
  tick 2
  let schema := schemaOrDefault table.ident.schema
  let name := table.ident.name.to_string
  let found ← ix.containsTableC schema name
  if found then
    throwErrC .duplicateTableName table.ident.span_range input
  else do
    let indexedCols ← indexColsC table.cols input
    tick (lookSteps ix.schema_map)
    let block := ix.schemaBlock schema
    tick (lookSteps block.table_map)
    let block := { block with table_map := mapInsert block.table_map name indexedCols }
    tick (lookSteps ix.schema_map)
    let ix := { ix with schema_map := mapInsert ix.schema_map schema block }
    match table.ident.alias with
    | some alias => do
      tick (lookSteps ix.table_alias_map)
      if mapContains ix.table_alias_map alias.to_string then
        throwErrC .duplicateAlias alias.span_range input
      else do
        tick (lookSteps ix.table_alias_map)
        pure { ix with
          table_alias_map := mapInsert ix.table_alias_map alias.to_string (schema, name) }
    | none => pure ix

/-- `indexTable` with a counter, `/repo/src/analyzer/indexer.rs:41-92` -/
def indexTableC (ix : Indexer) (tables : List TableBlock) (input : Str) : Ct Indexer :=
  tables.foldlM (init := ix) fun ix table => indexTable1C ix table input

/-- `indexEnumValues` with a counter, `/repo/src/analyzer/indexer.rs:118-127` -/
def indexEnumValuesC (values : List EnumValue) (input : Str) : Ct (List Str) :=
  values.foldlM (init := ([] : List Str)) fun indexed value => do
    checkSettingsC (value.settings.map (·.attributes)) input
    tick (lookSteps indexed)
    if indexed.contains value.value.to_string then
      throwErrC .duplicateEnumValue value.span_range input
    else pure (value.value.to_string :: indexed)

/-- `indexEnum1` with a counter, `/repo/src/analyzer/indexer.rs:101-135`. (Two steps for the copied names.) -/
def indexEnum1C (ix : Indexer) (enum : EnumBlock) (input : Str) : Ct Indexer := do
  tick 2
  let schema := schemaOrDefault enum.ident.schema
  let name := enum.ident.name.to_string
  let found ← ix.containsEnumC schema name
  if found then
    throwErrC .duplicateEnumName enum.ident.span_range input
  else do
    let valueSets ← indexEnumValuesC enum.values input
    tick (lookSteps ix.schema_map)
    let block := ix.schemaBlock schema
    tick (lookSteps block.enum_map)
    let block := { block with enum_map := mapInsert block.enum_map name valueSets }
    tick (lookSteps ix.schema_map)
    pure { ix with schema_map := mapInsert ix.schema_map schema block }

/-- `indexEnums` with a counter, `/repo/src/analyzer/indexer.rs:100-138` -/
def indexEnumsC (ix : Indexer) (enums : List EnumBlock) (input : Str) : Ct Indexer :=
  enums.foldlM (init := ix) fun ix enum => indexEnum1C ix enum input

/-- `groupItemIdent` with a counter, `/repo/src/analyzer/indexer.rs:155-175` -/
def groupItemIdentC (ix : Indexer) (item : TableGroupItem) (input : Str) : Ct (Str × Str) :=
  match item.schema with
  | some s => charge 2 (.ok (s.to_string, item.ident_alias.to_string))
  | none => do
    tick (lookSteps ix.table_alias_map)
    match ix.resolveAlias item.ident_alias.to_string with
    | some ident => charge 2 (.ok ident)
    | none => do
      let found ← ix.containsTableC DEFAULT_SCHEMA item.ident_alias.to_string
      if found then charge 2 (.ok (DEFAULT_SCHEMA, item.ident_alias.to_string))
      else throwErrC .tableNotFound item.span_range input

/-- `indexGroupItems` with a counter, `/repo/src/analyzer/indexer.rs:153-180` -/
def indexGroupItemsC (ix : Indexer) (items : List TableGroupItem) (input : Str) :
    Ct (List (Str × Str)) :=
  items.foldlM (init := ([] : List (Str × Str))) fun indexed item => do
    let ident ← groupItemIdentC ix item input
    tick (2 * lookSteps indexed)
    if indexed.contains ident then
      throwErrC .duplicateTableGroupItem item.span_range input
    else pure (ident :: indexed)

/-- `indexTableGroup1` with a counter, `/repo/src/analyzer/indexer.rs:148-185` -/
def indexTableGroup1C (ix : Indexer) (group : TableGroupBlock) (input : Str) : Ct Indexer := do
  tick (lookSteps ix.table_group_map)
  if mapContains ix.table_group_map group.ident.to_string then
    throwErrC .duplicateTableGroupName group.ident.span_range input
  else do
    let items ← indexGroupItemsC ix group.items input
    tick (lookSteps ix.table_group_map)
    pure { ix with table_group_map := mapInsert ix.table_group_map group.ident.to_string items }

/-- `indexTableGroups` with a counter, `/repo/src/analyzer/indexer.rs:147-188` -/
def indexTableGroupsC (ix : Indexer) (groups : List TableGroupBlock) (input : Str) : Ct Indexer :=
  groups.foldlM (init := ix) fun ix group => indexTableGroup1C ix group input

/-- `lookupEnumValues` with a counter, `/repo/src/analyzer/indexer.rs:209-230` -/
def lookupEnumValuesC (ix : Indexer) (schema : Option Str) (enumName : Str) (values : List Str) :
    Ct (Bool × (Bool × List Bool)) := do
  tick (lookSteps ix.schema_map)
  match mapGet ix.schema_map (schema.getD DEFAULT_SCHEMA) with
  | some block => do
    tick (lookSteps block.enum_map)
    match mapGet block.enum_map enumName with
    | some valueSet => charge (values.length * lookSteps valueSet) (.ok (true, (true, values.map (valueSet.contains ·))))
    | none => charge values.length (.ok (true, (false, values.map fun _ => false)))
  | none => charge values.length (.ok (false, (false, values.map fun _ => false)))

/-- `lookupTableFields` with a counter, `/repo/src/analyzer/indexer.rs:233-267` -/
def lookupTableFieldsC (ix : Indexer) (schema : Option Ident) (table : Ident) (fields : List Ident)
    (input : Str) : Ct Unit := do
  tick (2 + lookSteps ix.schema_map)
  let schemaSpan := (schema.map (·.span_range)).getD .zero
  match mapGet ix.schema_map (schemaOrDefault schema) with
  | some block => do
    tick (lookSteps block.table_map)
    match mapGet block.table_map table.to_string with
    | some colSet => do
      tick (fields.length * lookSteps colSet)
      match (fields.filter fun v => !colSet.contains v.to_string).head? with
      | some first => throwErrC .columnNotFound first.span_range input
      | none => pure ()
    | none => throwErrC .tableNotFound table.span_range input
  | none => throwErrC .schemaNotFound schemaSpan input

/-- The steps of `resolveRefAlias`: a lookup, and a copy of the reference, `/repo/src/analyzer/indexer.rs:275-295` -/
def resolveSteps (ix : Indexer) (ident : RefIdent) : Nat := lookSteps ix.table_alias_map + 4 + ident.compositions.length

end Indexer

/-- The steps of `eqElements`, `/repo/src/analyzer/helper.rs:37-39`: building two sets and comparing them. -/
def eqSteps {α β : Type} (l : List α) (r : List β) : Nat := (l.length + r.length + 1) * (Nat.log2 (l.length + r.length + 1) + 1)

namespace IndexedRef

/-- `findRefTable` with a counter, `/repo/src/analyzer/indexer.rs:346-355` -/
def findRefTableC (tables : List TableBlock) (r : RefIdent) (input : Str) : Ct TableBlock := do
  tick (2 * tables.length)
  match tables.find? fun t =>
      decide (t.ident.schema.map (·.to_string) = r.schema.map (·.to_string)) &&
        decide (t.ident.name.to_string = r.table.to_string) with
  | some t => pure t
  | none => throwErrC .tableNotFound r.span_range input

/-- `findRefCol` with a counter, `/repo/src/analyzer/indexer.rs:356-363`: the column found is copied. -/
def findRefColC (col : Ident) (table : TableBlock) (input : Str) : Ct TableColumn := do
  tick table.cols.length
  match table.cols.find? fun c => decide (c.name.to_string = col.to_string) with
  | some c => charge (Size.column c) (.ok c)
  | none => throwErrC .columnNotFound col.span_range input

/-- The steps of `isValidComposite`, `/repo/src/analyzer/indexer.rs:364-383`: for every index, sets are compared. -/
def compositeSteps (compositions : List Ident) (indexes : Option IndexesBlock) : Nat :=
  match indexes with
  | some ixs => (ixs.defs.map fun d => d.cols.length + 2 + eqSteps compositions d.cols).sum
  | none => 1

/-- `throwKeyErr` with a counter, `/repo/src/analyzer/indexer.rs:424-426,457-459` -/
def throwKeyErrC (e : Option (InvalidForeignKeyErr × Span)) (input : Str) : Ct Unit :=
  match e with
  | some (err, span) => throwErrC (.invalidForeignKey err) span input
  | none => tick 1

/-- `checkFieldPair` with a counter, `/repo/src/analyzer/indexer.rs:391-427` -/
def checkFieldPairC (self : IndexedRef) (lhsTable rhsTable : TableBlock) (compositionLen : Nat)
    (l r : Ident) (input : Str) : Ct Unit := do
  let lCol ← findRefColC l lhsTable input
  let rCol ← findRefColC r rhsTable input
  tick (1 + lCol.type.args.length + lCol.type.arrays.length)
  if lCol.type.type_name ≠ rCol.type.type_name ∨ lCol.type.args ≠ rCol.type.args
      ∨ lCol.type.arrays ≠ rCol.type.arrays then
    throwErrC (.mismatchedForeignKeyType r.to_string l.to_string rCol.type.raw l.raw)
      self.span_range input
  else if compositionLen = 1 then
    throwKeyErrC (self.singleKeyErr (colIsKey lCol) (colIsKey rCol)) input
  else pure ()

/-- `checkFieldPairs` with a counter, `/repo/src/analyzer/indexer.rs:388-428` -/
def checkFieldPairsC (self : IndexedRef) (lhsTable rhsTable : TableBlock) (compositionLen : Nat)
    (input : Str) : List (Ident × Ident) → Ct Unit
  | [] => tick 1
  | (l, r) :: ps => do
    self.checkFieldPairC lhsTable rhsTable compositionLen l r input
    checkFieldPairsC self lhsTable rhsTable compositionLen input ps

/-- `validateRefType` with a counter, `/repo/src/analyzer/indexer.rs:334-465` -/
def validateRefTypeC (self : IndexedRef) (tables : List TableBlock) (ix : Indexer) (input : Str) :
    Ct Unit := do
  tick (ix.resolveSteps self.lhs + ix.resolveSteps self.rhs)
  let lhs := ix.resolveRefAlias self.lhs
  let rhs := ix.resolveRefAlias self.rhs
  let compositionLen := max lhs.compositions.length rhs.compositions.length
  if lhs.compositions.length ≠ rhs.compositions.length then
    throwErrC .mismatchedCompositeForeignKey self.span_range input
  else do
    ix.lookupTableFieldsC lhs.schema lhs.table lhs.compositions input
    ix.lookupTableFieldsC rhs.schema rhs.table rhs.compositions input
    let lhsTable ← findRefTableC tables lhs input
    let rhsTable ← findRefTableC tables rhs input
    self.checkFieldPairsC lhsTable rhsTable compositionLen input
      (lhs.compositions.zip rhs.compositions)
    if 2 ≤ compositionLen then do
      tick (compositeSteps self.lhs.compositions lhsTable.indexes + compositeSteps self.rhs.compositions rhsTable.indexes)
      throwKeyErrC
        (self.compositeKeyErr (isValidComposite self.lhs.compositions lhsTable.indexes)
          (isValidComposite self.rhs.compositions rhsTable.indexes)) input
    else pure ()

/-- The steps to resolve and compare two references, `/repo/src/analyzer/indexer.rs:470-477,483-486,505-508` -/
def sideSteps (ix : Indexer) (l r : RefIdent) : Nat :=
  ix.resolveSteps l + ix.resolveSteps r + 2 + eqSteps l.compositions r.compositions

/-- The steps of `occupySameColumn`, `/repo/src/analyzer/indexer.rs:469-514`: at most, all four pairs of sides are compared. -/
def occupySteps (self other : IndexedRef) (ix : Indexer) : Nat :=
  1 + (sideSteps ix self.lhs other.lhs + sideSteps ix self.lhs other.rhs + sideSteps ix self.rhs other.lhs +
    sideSteps ix self.rhs other.rhs)

end IndexedRef

/-- `checkProject` with a counter, `/repo/src/analyzer/mod.rs:79-87` -/
def checkProjectC (projects : List ProjectBlock) (span : Span) (input : Str) : Ct Unit := do
  tick 1
  if 1 < projects.length then throwErrC .duplicateProjectSetting span input
  else
    match projects.head? with
    | some p => checkPropDuplicateKeysC p.properties input
    | none => throwErrC .projectSettingNotFound span input

/-- `checkColumnPk` with a counter, `/repo/src/analyzer/mod.rs:105-117` -/
def checkColumnPkC (ti : TableIndexer) (col : TableColumn) (settings : ColumnSettings) (input : Str) :
    Ct TableIndexer := do
  tick 4
  if settings.is_pk then
    if !ti.pk_list.isEmpty then throwErrC .duplicatePrimaryKey col.span_range input
    else if settings.nullable = some .null then throwErrC .nullablePrimaryKey col.span_range input
    else if !col.type.arrays.isEmpty then throwErrC .arrayPrimaryKey col.span_range input
    else pure { ti with pk_list := ti.pk_list ++ [col.name.to_string] }
  else pure ti

/-- `checkColumn` with a counter, `/repo/src/analyzer/mod.rs:104-134`. (For `nullConflict` every attribute is compared with two
words and put into a set of at most two.) -/
def checkColumnC (ti : TableIndexer) (col : TableColumn) (input : Str) : Ct TableIndexer :=
  match col.settings with
  | none => charge 1 (.ok ti)
  | some settings => do
    let ti ← checkColumnPkC ti col settings input
    tick 2
    let ti : TableIndexer :=
      if settings.is_unique then { ti with unique_list := ti.unique_list ++ [[col.name.to_string]] }
      else ti
    tick (4 * settings.attributes.length)
    if nullConflict settings.attributes then
      throwErrC .conflictNullableSetting settings.span_range input
    else pure ti

/-- `checkIndexCols` with a counter, `/repo/src/analyzer/mod.rs:166-172` -/
def checkIndexColsC (cols : List TableColumn) (input : Str) : List IndexesColumnType → Ct Unit
  | [] => tick 1
  | .string name :: rest => do
    tick (1 + cols.length)
    if cols.any fun c => decide (c.name.to_string = name.to_string) then
      checkIndexColsC cols input rest
    else throwErrC .columnNotFound name.span_range input
  | .expr _ :: rest => do
    tick 1
    checkIndexColsC cols input rest

/-- `checkIndexKey` with a counter, `/repo/src/analyzer/mod.rs:186-206` -/
def checkIndexKeyC (ti : TableIndexer) (d : IndexesDef) (settings : IndexesSettings) (input : Str) :
    Ct TableIndexer := do
  tick (1 + d.cols.length)
  let names := IndexedRef.defNames d
  if settings.is_pk then
    if !ti.pk_list.isEmpty then throwErrC .duplicatePrimaryKey d.span_range input
    else pure { ti with pk_list := ti.pk_list ++ names }
  else if settings.is_unique then do
    tick ((ti.unique_list.map fun u => 1 + names.length * lookSteps u).sum)
    if ti.unique_list.any fun u => names.all fun n => u.contains n then
      throwErrC .duplicateUniqueKey d.span_range input
    else pure { ti with unique_list := ti.unique_list ++ [names] }
  else pure ti

/-- `checkIndexType` with a counter, `/repo/src/analyzer/mod.rs:208-220` -/
def checkIndexTypeC (ti : TableIndexer) (d : IndexesDef) (settings : IndexesSettings) (input : Str) :
    Ct TableIndexer := do
  tick 1
  let names := IndexedRef.defNames d
  if settings.type.isSome then do
    tick (ti.indexed_list.length * (names.length + 2))
    if ti.indexed_list.any fun e => decide (e.1 = names) && decide (e.2 = settings.type) then
      throwErrC .duplicateIndexKey d.span_range input
    else pure { ti with indexed_list := ti.indexed_list ++ [(names, settings.type)] }
  else pure ti

/-- `checkIndexDef` with a counter, `/repo/src/analyzer/mod.rs:149-232` -/
def checkIndexDefC (ti : TableIndexer) (cols : List TableColumn) (blockSpan : Span)
    (d : IndexesDef) (input : Str) : Ct TableIndexer :=
  if d.cols.isEmpty then throwErrC .emptyIndexesBlock blockSpan input
  else do
    tick (1 + d.cols.length)
    let names := IndexedRef.defNames d
    checkIndexColsC cols input d.cols
    match d.settings with
    | some settings => do
      checkAttrDuplicateKeysC settings.attributes input
      tick 3
      if 1 < ([settings.is_pk, settings.is_unique, settings.type.isSome].filter (·)).length then
        throwErrC .invalidIndexesSetting settings.span_range input
      else do
        let ti ← checkIndexKeyC ti d settings input
        checkIndexTypeC ti d settings input
    | none => do
      tick (ti.indexed_list.length * (names.length + 2))
      if ti.indexed_list.any fun e => decide (e.1 = names) then
        throwErrC .duplicateIndexKey d.span_range input
      else pure { ti with indexed_list := ti.indexed_list ++ [(names, none)] }

/-- `checkTable` with a counter, `/repo/src/analyzer/mod.rs:99-235` -/
def checkTableC (table : TableBlock) (input : Str) : Ct Unit := do
  let ti ← table.cols.foldlM (init := ({} : TableIndexer)) fun ti col => checkColumnC ti col input
  match table.indexes with
  | some block => do
    let _ ← block.defs.foldlM (init := ti) fun ti d =>
      checkIndexDefC ti table.cols block.span_range d input
    pure ()
  | none => tick 1

/-- `checkTypeArgs` with a counter, `/repo/src/analyzer/mod.rs:254-282` -/
def checkTypeArgsC (rawType : Str) (t : ColumnTypeName) (ty : ColumnType) (input : Str) : Ct Unit := do
  tick (2 + ty.args.length)
  if ty.args.isEmpty then pure ()
  else if ty.args.length ≠ typeArity t then
    throwErrC (.invalidDataTypeArguments rawType (typeArity t)) ty.span_range input
  else if ty.args.all fun | .integer _ => true | _ => false then pure ()
  else throwErrC .invalidArgumentValue ty.span_range input

/-- `defaultSpan` with a counter, `/repo/src/analyzer/mod.rs:297-302,323-328` -/
def defaultSpanC (attrs : List Attribute) : Ct Span := charge (1 + attrs.length) (defaultSpan attrs)

/-- `enumParts` with a counter, `/repo/src/analyzer/mod.rs:286-292`: the characters of the name are gone through. -/
def enumPartsC (rawType : Str) (span : Span) (input : Str) : Ct (Option Str × Str) := do
  tick (1 + rawType.length)
  match splitDot rawType with
  | [_] => pure (none, rawType)
  | [s, n] => pure (some s, n)
  | _ => throwErrC .invalidEnum span input

/-- `checkEnumDefault` with a counter, `/repo/src/analyzer/mod.rs:296-310` -/
def checkEnumDefaultC (ix : Indexer) (enumSchema : Option Str) (enumName : Str) (defaultValue : Value)
    (typeSpan defSpan : Span) (input : Str) : Ct Unit := do
  let found ← ix.lookupEnumValuesC enumSchema enumName [defaultValue.toStr]
  tick 2
  match found with
  | (false, (_, _)) => throwErrC .schemaNotFound typeSpan input
  | (true, (false, _)) => throwErrC .enumNotFound typeSpan input
  | (true, (true, f)) =>
    if f.any (· = false) then throwErrC .enumValueNotFound defSpan input
    else pure ()

/-- `resolveType` with a counter, `/repo/src/analyzer/mod.rs:247-319`. The raw name is compared with the names of the built-in
types, of which there are fewer than 60 (`/repo/src/ast/table.rs:117-162`). -/
def resolveTypeC (ix : Indexer) (col : TableColumn) (input : Str) : Ct ColumnTypeName := do
  tick 60
  match col.type.type_name with
  | .raw rawType =>
    match ColumnTypeName.fromStr rawType with
    | some t => do
      checkTypeArgsC rawType t col.type input
      pure t
    | none => do
      let p ← enumPartsC rawType col.type.span_range input
      match col.settings with
      | some { attributes, default := some defaultValue, .. } => do
        let span ← defaultSpanC attributes
        checkEnumDefaultC ix p.1 p.2 defaultValue col.type.span_range span input
        pure (.enum p.2)
      | _ => pure (.enum p.2)
  | _ => charge 1 (.panic .typeNameNotRaw)

/-- `checkColDefault` with a counter, `/repo/src/analyzer/mod.rs:321-388`: the check itself makes a few comparisons, and may
end with an error. -/
def checkColDefaultC (col : TableColumn) (typeName : ColumnTypeName) (input : Str) : Ct Unit :=
  match col.settings with
  | some settings =>
    match settings.default with
    | some value => do
      let span ← defaultSpanC settings.attributes
      charge (4 + (input.length + 1)) (checkDefault col settings typeName value span input)
    | none => tick 1
  | none => tick 1

/-- `typeColumn` with a counter, `/repo/src/analyzer/mod.rs:244-397` -/
def typeColumnC (ix : Indexer) (input : Str) (col : TableColumn) : Ct TableColumn := do
  let typeName ← resolveTypeC ix col input
  checkColDefaultC col typeName input
  pure { col with type := { col.type with type_name := typeName } }

/-- `typeTable` with a counter, `/repo/src/analyzer/mod.rs:240-401`: the columns are copied, then the table. -/
def typeTableC (ix : Indexer) (input : Str) (table : TableBlock) : Ct TableBlock := do
  tick (2 * Size.table table)
  let cols ← table.cols.mapM (typeColumnC ix input)
  pure { table with cols := cols }

/-- `checkRef` with a counter, `/repo/src/analyzer/mod.rs:406-419` -/
def checkRefC (tables : List TableBlock) (ix : Indexer) (indexedRefs : List IndexedRef) (input : Str)
    (r : IndexedRef) : Ct Unit := do
  checkSettingsC (r.settings.map (·.attributes)) input
  r.validateRefTypeC tables ix input
  tick ((indexedRefs.map fun o => r.occupySteps o ix).sum)
  if (indexedRefs.filter fun o => r.occupySameColumn o ix).length ≠ 1 then
    throwErrC .conflictRelation r.span_range input
  else pure ()

/-- `forEach` with a counter, `/repo/src/analyzer/mod.rs:99,405` -/
def forEachC {α : Type} (f : α → Ct Unit) : List α → Ct Unit
  | [] => pure ()
  | x :: xs => do
    f x
    forEachC f xs

/-- The steps to collect the inline refs of the columns, `/repo/src/analyzer/mod.rs:137-143`: the settings of every column are
copied, and every ref is given copies of the names of its table and column. -/
def inlineSteps (tables : List TableBlock) : Nat :=
  (tables.map fun t => (t.cols.map fun c =>
    1 + Size.opt Size.columnSettings c.settings + 4 * ((c.settings.map (·.refs)).getD []).length).sum).sum

/-- `analyze` with a counter, `/repo/src/analyzer/mod.rs:70-423`. The blocks are gone through five times by the accessors
(`/repo/src/ast/schema.rs:34-103`), and the ref blocks are copied. -/
def analyzeC (schema : SchemaBlock) : Ct AnalyzedIndexer := do
  let input := schema.input
  tick (5 * schema.blocks.length + Size.list Size.ref schema.refs)
  let tables := schema.tables
  checkProjectC schema.projects schema.span_range input
  let ix ← Indexer.indexTableC {} tables input
  let ix ← ix.indexEnumsC schema.enums input
  let ix ← ix.indexTableGroupsC schema.table_groups input
  forEachC (fun t => checkTableC t input) tables
  tick (inlineSteps tables)
  let indexedRefs := schema.refs.map IndexedRef.ofRefBlock ++ inlineRefs tables
  let typed ← tables.mapM (typeTableC ix input)
  forEachC (checkRefC typed ix indexedRefs input) indexedRefs
  pure { indexed_refs := indexedRefs, indexer := ix }

end Dbml
