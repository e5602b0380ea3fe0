import Verif.Model.Result

/-!
# The analyzer's helpers and indexer: `/repo/src/analyzer/{helper,indexer}.rs`

`BTreeSet<T>` is modelled as a list read up to membership (`insert` adds at the front if absent and
reports whether it was absent), `BTreeMap<K, V>` as an association list in which a newer entry
shadows an older one. Only `insert`, `get`, `contains` and set equality are ever used on them by
the code, and iteration order never is.
-/

namespace Dbml

/-- `DEFAULT_SCHEMA`, `/repo/src/lib.rs:28` -/
def DEFAULT_SCHEMA : Str := k!"public"

section Containers

variable {α β : Type} [DecidableEq α]

/-- `BTreeMap::insert`.
`/repo/src/analyzer/indexer.rs:79,84,134,184`. -/
def mapInsert (m : List (α × β)) (k : α) (v : β) : List (α × β) := (k, v) :: m
/-- `BTreeMap::get`.
`/repo/src/analyzer/indexer.rs:149,163,194,203,217,219,246,248,271`. -/
def mapGet (m : List (α × β)) (k : α) : Option β := m.lookup k
/-- `BTreeMap::contains_key`.
`/repo/src/analyzer/indexer.rs:165,196,205`. -/
def mapContains (m : List (α × β)) (k : α) : Bool := (mapGet m k).isSome

/-- `eq_elements`, `/repo/src/analyzer/helper.rs:37-39`: equality of the two `BTreeSet`s built from
the iterators. -/
def eqElements (l r : List α) : Bool := l.all (r.contains ·) && r.all (l.contains ·)

end Containers

/-- The elements dropped by `filter(|a| !acc.insert(key(a)))` being kept: those whose key was seen
before (`/repo/src/analyzer/helper.rs:6-11,22-27`). -/
def dupKeys {α : Type} (key : α → Str) : List Str → List α → List α
  | _, [] => []
  | seen, a :: as =>
    if seen.contains (key a) then a :: dupKeys key seen as else dupKeys key (key a :: seen) as

/-- `check_attr_duplicate_keys`, `/repo/src/analyzer/helper.rs:5-19` -/
def checkAttrDuplicateKeys (attrs : List Attribute) (input : Str) : Rs Unit :=
  match (dupKeys (·.key.to_string) [] attrs).head? with
  | some attr => throwErr .duplicateAttributeKey attr.span_range input
  | none => .ok ()

/-- `check_prop_duplicate_keys`, `/repo/src/analyzer/helper.rs:21-35` -/
def checkPropDuplicateKeys (props : List Property) (input : Str) : Rs Unit :=
  match (dupKeys (·.key.to_string) [] props).head? with
  | some prop => throwErr .duplicatePropertyKey prop.span_range input
  | none => .ok ()

/-- `if let Some(settings) = &x { check_attr_duplicate_keys(&settings.attributes, input)?; }`
`/repo/src/analyzer/indexer.rs:43-45,65-67,120-122`, `/repo/src/analyzer/mod.rs:175-177,406-408`. -/
def checkSettings (attrs : Option (List Attribute)) (input : Str) : Rs Unit :=
  match attrs with
  | some as => checkAttrDuplicateKeys as input
  | none => .ok ()

/-- `/repo/src/analyzer/indexer.rs:14-19` -/
structure IndexedSchemaBlock where
  table_map : List (Str × List Str) := []
  enum_map : List (Str × List Str) := []
deriving Repr

/-- `/repo/src/analyzer/indexer.rs:24-31` -/
structure Indexer where
  table_group_map : List (Str × List (Str × Str)) := []
  schema_map : List (Str × IndexedSchemaBlock) := []
  table_alias_map : List (Str × (Str × Str)) := []
deriving Repr

/-- `schema.as_ref().map(|s| s.to_string.clone()).unwrap_or_else(|| DEFAULT_SCHEMA.to_string())`
(`/repo/src/analyzer/indexer.rs:54-57,109-112,241-244`) -/
def schemaOrDefault (s : Option Ident) : Str :=
  match s with
  | some i => i.to_string
  | none => DEFAULT_SCHEMA

namespace Indexer

/-- `self.schema_map.entry(schema).or_insert_with(default)`, as a read of the current block.
`/repo/src/analyzer/indexer.rs:74-79,129-134`. -/
def schemaBlock (ix : Indexer) (schema : Str) : IndexedSchemaBlock :=
  (mapGet ix.schema_map schema).getD {}

/-- `contains_table`, `/repo/src/analyzer/indexer.rs:191-197` -/
def containsTable (ix : Indexer) (schema name : Str) : Bool :=
  match mapGet ix.schema_map schema with
  | some item => mapContains item.table_map name
  | none => false

/-- `contains_enum`, `/repo/src/analyzer/indexer.rs:200-206` -/
def containsEnum (ix : Indexer) (schema name : Str) : Bool :=
  match mapGet ix.schema_map schema with
  | some item => mapContains item.enum_map name
  | none => false

/-- The column loop of `index_table`, `/repo/src/analyzer/indexer.rs:63-72` -/
def indexCols (cols : List TableColumn) (input : Str) : Rs (List Str) :=
  cols.foldlM (init := ([] : List Str)) fun indexed col => do
    checkSettings (col.settings.map (·.attributes)) input
    if indexed.contains col.name.to_string then
      throwErr .duplicateColumnName col.span_range input
    else return col.name.to_string :: indexed

/-- One iteration of `index_table`, `/repo/src/analyzer/indexer.rs:42-89` -/
def indexTable1 (ix : Indexer) (table : TableBlock) (input : Str) : Rs Indexer := do
  checkSettings (table.settings.map (·.attributes)) input
  let schema := schemaOrDefault table.ident.schema
  let name := table.ident.name.to_string
  if ix.containsTable schema name then
    throwErr .duplicateTableName table.ident.span_range input
  else
    let indexedCols ← indexCols table.cols input
    let block := ix.schemaBlock schema
    let block := { block with table_map := mapInsert block.table_map name indexedCols }
    let ix := { ix with schema_map := mapInsert ix.schema_map schema block }
    match table.ident.alias with
    | some alias =>
      if mapContains ix.table_alias_map alias.to_string then
        throwErr .duplicateAlias alias.span_range input
      else
        return { ix with
          table_alias_map := mapInsert ix.table_alias_map alias.to_string (schema, name) }
    | none => return ix

/-- `index_table`, `/repo/src/analyzer/indexer.rs:41-92` -/
def indexTable (ix : Indexer) (tables : List TableBlock) (input : Str) : Rs Indexer :=
  tables.foldlM (init := ix) fun ix table => indexTable1 ix table input

/-- The value loop of `index_enums`, `/repo/src/analyzer/indexer.rs:118-127` -/
def indexEnumValues (values : List EnumValue) (input : Str) : Rs (List Str) :=
  values.foldlM (init := ([] : List Str)) fun indexed value => do
    checkSettings (value.settings.map (·.attributes)) input
    if indexed.contains value.value.to_string then
      throwErr .duplicateEnumValue value.span_range input
    else return value.value.to_string :: indexed

/-- One iteration of `index_enums`, `/repo/src/analyzer/indexer.rs:101-135` -/
def indexEnum1 (ix : Indexer) (enum : EnumBlock) (input : Str) : Rs Indexer := do
  let schema := schemaOrDefault enum.ident.schema
  let name := enum.ident.name.to_string
  if ix.containsEnum schema name then
    throwErr .duplicateEnumName enum.ident.span_range input
  else
    let valueSets ← indexEnumValues enum.values input
    let block := ix.schemaBlock schema
    let block := { block with enum_map := mapInsert block.enum_map name valueSets }
    return { ix with schema_map := mapInsert ix.schema_map schema block }

/-- `index_enums`, `/repo/src/analyzer/indexer.rs:100-138` -/
def indexEnums (ix : Indexer) (enums : List EnumBlock) (input : Str) : Rs Indexer :=
  enums.foldlM (init := ix) fun ix enum => indexEnum1 ix enum input

/-- `resolve_alias`, `/repo/src/analyzer/indexer.rs:270-272` -/
def resolveAlias (ix : Indexer) (alias : Str) : Option (Str × Str) := mapGet ix.table_alias_map alias

/-- The `(schema, table)` a table-group item stands for, `/repo/src/analyzer/indexer.rs:155-175` -/
def groupItemIdent (ix : Indexer) (item : TableGroupItem) (input : Str) : Rs (Str × Str) :=
  match item.schema with
  | some s => .ok (s.to_string, item.ident_alias.to_string)
  | none =>
    match ix.resolveAlias item.ident_alias.to_string with
    | some ident => .ok ident
    | none =>
      if ix.containsTable DEFAULT_SCHEMA item.ident_alias.to_string then
        .ok (DEFAULT_SCHEMA, item.ident_alias.to_string)
      else throwErr .tableNotFound item.span_range input

/-- The item loop of `index_table_groups`, `/repo/src/analyzer/indexer.rs:153-180` -/
def indexGroupItems (ix : Indexer) (items : List TableGroupItem) (input : Str) :
    Rs (List (Str × Str)) :=
  items.foldlM (init := ([] : List (Str × Str))) fun indexed item => do
    let ident ← groupItemIdent ix item input
    if indexed.contains ident then
      throwErr .duplicateTableGroupItem item.span_range input
    else return ident :: indexed

/-- One iteration of `index_table_groups`, `/repo/src/analyzer/indexer.rs:148-185` -/
def indexTableGroup1 (ix : Indexer) (group : TableGroupBlock) (input : Str) : Rs Indexer := do
  if mapContains ix.table_group_map group.ident.to_string then
    throwErr .duplicateTableGroupName group.ident.span_range input
  else
    let items ← indexGroupItems ix group.items input
    return { ix with table_group_map := mapInsert ix.table_group_map group.ident.to_string items }

/-- `index_table_groups`, `/repo/src/analyzer/indexer.rs:147-188` -/
def indexTableGroups (ix : Indexer) (groups : List TableGroupBlock) (input : Str) : Rs Indexer :=
  groups.foldlM (init := ix) fun ix group => indexTableGroup1 ix group input

/-- `lookup_enum_values`, `/repo/src/analyzer/indexer.rs:209-230` -/
def lookupEnumValues (ix : Indexer) (schema : Option Str) (enumName : Str) (values : List Str) :
    Bool × (Bool × List Bool) :=
  match mapGet ix.schema_map (schema.getD DEFAULT_SCHEMA) with
  | some block =>
    match mapGet block.enum_map enumName with
    | some valueSet => (true, (true, values.map (valueSet.contains ·)))
    | none => (true, (false, values.map fun _ => false))
  | none => (false, (false, values.map fun _ => false))

/-- `lookup_table_fields`, `/repo/src/analyzer/indexer.rs:233-267` -/
def lookupTableFields (ix : Indexer) (schema : Option Ident) (table : Ident) (fields : List Ident)
    (input : Str) : Rs Unit :=
  let schemaSpan := (schema.map (·.span_range)).getD .zero
  match mapGet ix.schema_map (schemaOrDefault schema) with
  | some block =>
    match mapGet block.table_map table.to_string with
    | some colSet =>
      match (fields.filter fun v => !colSet.contains v.to_string).head? with
      | some first => throwErr .columnNotFound first.span_range input
      | none => .ok ()
    | none => throwErr .tableNotFound table.span_range input
  | none => throwErr .schemaNotFound schemaSpan input

/-- `resolve_ref_alias`, `/repo/src/analyzer/indexer.rs:275-295` -/
def resolveRefAlias (ix : Indexer) (ident : RefIdent) : RefIdent :=
  match ix.resolveAlias ident.table.to_string with
  | some (schema, table) =>
    { span_range := ident.span_range
      schema := some { span_range := ident.span_range, raw := schema, to_string := schema }
      table := { span_range := ident.span_range, raw := table, to_string := table }
      compositions := ident.compositions }
  | none => ident

end Indexer

/-- `/repo/src/analyzer/indexer.rs:300-307` -/
structure IndexedRef where
  span_range : Span := .zero
  rel : Relation := .undef
  lhs : RefIdent := {}
  rhs : RefIdent := {}
  settings : Option RefSettings := none
deriving DecidableEq, Repr

namespace IndexedRef

/-- `impl From<RefBlock> for IndexedRef`, `/repo/src/analyzer/indexer.rs:517-527` -/
def ofRefBlock (b : RefBlock) : IndexedRef :=
  { span_range := b.span_range, rel := b.rel, lhs := b.lhs, rhs := b.rhs, settings := b.settings }

/-- `from_inline`, `/repo/src/analyzer/indexer.rs:310-332` -/
def fromInline (refBlocks : List RefInline) (tableIdent : TableIdent) (colName : Ident) :
    List IndexedRef :=
  refBlocks.map fun b =>
    { span_range := b.span_range
      rel := b.rel
      lhs :=
        { span_range := b.span_range, schema := tableIdent.schema, table := tableIdent.name,
          compositions := [colName] }
      rhs := b.rhs
      settings := none }

/-- `find_ref_table`, `/repo/src/analyzer/indexer.rs:346-355` -/
def findRefTable (tables : List TableBlock) (r : RefIdent) (input : Str) : Rs TableBlock :=
  match tables.find? fun t =>
      decide (t.ident.schema.map (·.to_string) = r.schema.map (·.to_string)) &&
        decide (t.ident.name.to_string = r.table.to_string) with
  | some t => .ok t
  | none => throwErr .tableNotFound r.span_range input

/-- `find_ref_col`, `/repo/src/analyzer/indexer.rs:356-363` -/
def findRefCol (col : Ident) (table : TableBlock) (input : Str) : Rs TableColumn :=
  match table.cols.find? fun c => decide (c.name.to_string = col.to_string) with
  | some c => .ok c
  | none => throwErr .columnNotFound col.span_range input

/-- The column names listed by an index definition (its expressions left out):
`filter_map(|s| match s { String(s) => Some(&s.to_string), _ => None })`.
`/repo/src/analyzer/indexer.rs:373-379`. -/
def defNames (d : IndexesDef) : List Str :=
  d.cols.filterMap fun | .string i => some i.to_string | .expr _ => none

/-- `is_valid_composite`, `/repo/src/analyzer/indexer.rs:364-383` -/
def isValidComposite (compositions : List Ident) (indexes : Option IndexesBlock) : Bool :=
  match indexes with
  | some ixs =>
    ixs.defs.any fun d =>
      decide (compositions.length = d.cols.length) &&
        (match d.settings with | some s => s.is_pk || s.is_unique | none => false) &&
        eqElements (compositions.map (·.to_string)) (defNames d)
  | none => false

/-- `col.settings.as_ref().is_some_and(|s| s.is_pk || s.is_unique)`
`/repo/src/analyzer/indexer.rs:410-411`. -/
def colIsKey (c : TableColumn) : Bool :=
  match c.settings with | some s => s.is_pk || s.is_unique | none => false

/-- The single-column key check, `/repo/src/analyzer/indexer.rs:408-422`: the offending kind and
span, if any. -/
def singleKeyErr (self : IndexedRef) (lKey rKey : Bool) : Option (InvalidForeignKeyErr × Span) :=
  match self.rel, lKey, rKey with
  | .one2one, false, false => some (.one2One, self.span_range)
  | .many2many, false, false => some (.many2Many, self.span_range)
  | .one2many, false, _ => some (.nitherUniqueKeyNorPrimaryKey, self.lhs.span_range)
  | .many2one, _, false => some (.nitherUniqueKeyNorPrimaryKey, self.rhs.span_range)
  | _, _, _ => none

/-- The composite key check, `/repo/src/analyzer/indexer.rs:435-455` -/
def compositeKeyErr (self : IndexedRef) (lValid rValid : Bool) :
    Option (InvalidForeignKeyErr × Span) :=
  match self.rel with
  | .one2one => if !lValid && !rValid then some (.one2OneComposite, self.span_range) else none
  | .many2many => if !lValid || !rValid then some (.many2ManyComposite, self.span_range) else none
  | .one2many =>
    if !lValid then some (.nitherUniqueKeyNorPrimaryKeyComposite, self.lhs.span_range) else none
  | .many2one =>
    if !rValid then some (.nitherUniqueKeyNorPrimaryKeyComposite, self.rhs.span_range) else none
  | .undef => none

/-- `if let Some((err, span_range)) = err { throw_err(InvalidForeignKey { err }, span_range)?; }`
`/repo/src/analyzer/indexer.rs:424-426,457-459`. -/
def throwKeyErr (e : Option (InvalidForeignKeyErr × Span)) (input : Str) : Rs Unit :=
  match e with
  | some (err, span) => throwErr (.invalidForeignKey err) span input
  | none => .ok ()

/-- The body of the field-pair loop, `/repo/src/analyzer/indexer.rs:391-427` -/
def checkFieldPair (self : IndexedRef) (lhsTable rhsTable : TableBlock) (compositionLen : Nat)
    (l r : Ident) (input : Str) : Rs Unit := do
  let lCol ← findRefCol l lhsTable input
  let rCol ← findRefCol r rhsTable input
  if lCol.type.type_name ≠ rCol.type.type_name ∨ lCol.type.args ≠ rCol.type.args
      ∨ lCol.type.arrays ≠ rCol.type.arrays then
    throwErr (.mismatchedForeignKeyType r.to_string l.to_string rCol.type.raw l.raw)
      self.span_range input
  else if compositionLen = 1 then
    throwKeyErr (self.singleKeyErr (colIsKey lCol) (colIsKey rCol)) input
  else return ()

/-- The field-pair loop, `/repo/src/analyzer/indexer.rs:388-428` -/
def checkFieldPairs (self : IndexedRef) (lhsTable rhsTable : TableBlock) (compositionLen : Nat)
    (input : Str) : List (Ident × Ident) → Rs Unit
  | [] => .ok ()
  | (l, r) :: ps => do
    self.checkFieldPair lhsTable rhsTable compositionLen l r input
    checkFieldPairs self lhsTable rhsTable compositionLen input ps

/-- `validate_ref_type`, `/repo/src/analyzer/indexer.rs:334-465` -/
def validateRefType (self : IndexedRef) (tables : List TableBlock) (ix : Indexer) (input : Str) :
    Rs Unit := do
  let lhs := ix.resolveRefAlias self.lhs
  let rhs := ix.resolveRefAlias self.rhs
  let compositionLen := max lhs.compositions.length rhs.compositions.length
  if lhs.compositions.length ≠ rhs.compositions.length then
    throwErr .mismatchedCompositeForeignKey self.span_range input
  else
    ix.lookupTableFields lhs.schema lhs.table lhs.compositions input
    ix.lookupTableFields rhs.schema rhs.table rhs.compositions input
    let lhsTable ← findRefTable tables lhs input
    let rhsTable ← findRefTable tables rhs input
    self.checkFieldPairs lhsTable rhsTable compositionLen input
      (lhs.compositions.zip rhs.compositions)
    if 2 ≤ compositionLen then
      throwKeyErr
        (self.compositeKeyErr (isValidComposite self.lhs.compositions lhsTable.indexes)
          (isValidComposite self.rhs.compositions rhsTable.indexes)) input
    else return ()

/-- `eq_ident` of `occupy_same_column`, `/repo/src/analyzer/indexer.rs:470-477` -/
def eqIdent (l r : RefIdent) : Bool :=
  decide (l.schema.map (·.to_string) = r.schema.map (·.to_string)) &&
    decide (l.table.to_string = r.table.to_string) &&
    eqElements (l.compositions.map (·.to_string)) (r.compositions.map (·.to_string))

/-- The side of a relation that holds the foreign key, `/repo/src/analyzer/indexer.rs:492-501` -/
def occupiedIdent (r : IndexedRef) : Option RefIdent :=
  match r.rel with
  | .many2one => some r.lhs
  | .one2many => some r.rhs
  | _ => none

/-- `occupy_same_column`, `/repo/src/analyzer/indexer.rs:469-514` -/
def occupySameColumn (self other : IndexedRef) (ix : Indexer) : Bool :=
  let symmetric : Bool :=
    [self.lhs, self.rhs].all fun s =>
      [other.lhs, other.rhs].any fun o => eqIdent (ix.resolveRefAlias s) (ix.resolveRefAlias o)
  match self.rel, other.rel with
  | .many2many, .many2many => symmetric
  | .one2one, .one2one => symmetric
  | _, _ =>
    match self.occupiedIdent, other.occupiedIdent with
    | some s, some o => eqIdent (ix.resolveRefAlias s) (ix.resolveRefAlias o)
    | _, _ => false

end IndexedRef

/-- `/repo/src/analyzer/indexer.rs:531-538` -/
structure TableIndexer where
  pk_list : List Str := []
  unique_list : List (List Str) := []
  indexed_list : List (List Str × Option IndexesType) := []
deriving Repr

end Dbml
