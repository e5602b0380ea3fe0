import Verif.Spec.Valid
import Verif.Model.Indexer

/-!
# What an error means

`Defect s e sp`: the schema `s` has a defect for which the error kind `e`, reported at the span `sp`, is
the right description. The span is that of the offending element. Nothing here refers to the
analyzer's algorithm.
-/

namespace Dbml.Spec

/-- `b` occurs in the list `xs` after an element with the same key. -/
def Again {α κ : Type} (key : α → κ) (xs : List α) (b : α) : Prop :=
  ∃ pre post, xs = pre ++ b :: post ∧ ∃ a ∈ pre, key a = key b

/-- The refs of a schema, as they are to be indexed: ref blocks in document order, then inline refs in
table and column order with their own column as left endpoint. -/
def refsInOrder (s : SchemaBlock) : List IndexedRef :=
  (s.refs.map fun b =>
    { span_range := b.span_range, rel := b.rel, lhs := b.lhs, rhs := b.rhs, settings := b.settings }) ++
  (s.tables.flatMap fun t => t.cols.flatMap fun c => (c.settings.toList.flatMap (·.refs)).map fun r =>
    { span_range := r.span_range, rel := r.rel, rhs := r.rhs, settings := none
      lhs := { span_range := r.span_range, schema := t.ident.schema, table := t.ident.name,
               compositions := [c.name] } })

/-- The reference, names only. -/
def linkOf (r : IndexedRef) : Link := { rel := r.rel, lhs := endOf r.lhs, rhs := endOf r.rhs }

/-- The first `default` attribute of the column has a value with this span. -/
def DefaultAt (c : TableColumn) (sp : Span) : Prop :=
  ∃ st a l, c.settings = some st ∧ st.attributes.find? (fun a => a.key.to_string = k!"default") = some a ∧
    a.value = some l ∧ l.span_range = sp

/-- A default value has a place: the column's first `default` attribute has a value. -/
def DefaultPlaced (c : TableColumn) : Prop := defaultOf c ≠ none → ∃ sp, DefaultAt c sp

/-- The column has the raw type name `n`. -/
def HasRaw (c : TableColumn) (n : Str) : Prop := c.type.type_name = .raw n

/-- The column makes the analyzer crash: a string default on a sized type that is written without its
size. -/
def ColumnPanics (c : TableColumn) : Prop :=
  ∃ n ty v, HasRaw c n ∧ ColumnTypeName.fromStr n = some ty ∧
    (ty = .bit ∨ ty = .char ∨ ty = .varbit ∨ ty = .varchar) ∧ c.type.args = [] ∧
    defaultOf c = some (.string v)

/-- Something is declared in the schema. -/
def SchemaDeclared (s : SchemaBlock) (n : Str) : Prop :=
  (∃ t ∈ s.tables, (tableKey t).1 = n) ∨ ∃ e ∈ s.enums, (enumKey e).1 = n

/-- The schema and name of the table an endpoint stands for, `public` if no schema is written. -/
def endKey (e : End) : Str × Str := (e.schema.getD k!"public", e.table)

/-- A span of the endpoint: the whole, its table, or its schema. -/
def EndSpan (e : RefIdent) (sp : Span) : Prop :=
  sp = e.span_range ∨ sp = e.table.span_range ∨ ∃ i, e.schema = some i ∧ sp = i.span_range

/-- The error kind for a missing key. -/
def keyKind (r : Relation) (composite : Bool) : InvalidForeignKeyErr :=
  match r, composite with
  | .one2one, false => .one2One
  | .one2one, true => .one2OneComposite
  | .many2many, false => .many2Many
  | .many2many, true => .many2ManyComposite
  | _, false => .nitherUniqueKeyNorPrimaryKey
  | _, true => .nitherUniqueKeyNorPrimaryKeyComposite

/-- The place where a missing key is reported: the side that should be a key; the whole reference if
either could be. -/
def keySpan (r : IndexedRef) : Span :=
  match r.rel with
  | .one2many => r.lhs.span_range
  | .many2one => r.rhs.span_range
  | _ => r.span_range

/-! ## Defects in the structure: everything except column types, defaults and references -/

/-- The attribute lists of a table and of its columns. -/
def tableAttrs (t : TableBlock) : List (List Attribute) :=
  t.settings.toList.map (·.attributes) ++ t.cols.flatMap fun c => c.settings.toList.map (·.attributes)
/-- The attribute lists of the values of an enum. -/
def enumAttrs (e : EnumBlock) : List (List Attribute) :=
  e.values.flatMap fun v => v.settings.toList.map (·.attributes)
/-- The attribute lists of the indexes of a table. -/
def indexAttrs (t : TableBlock) : List (List Attribute) :=
  (defsOf t).flatMap fun d => d.settings.toList.map (·.attributes)

/-- A defect about the project. -/
inductive ProjectDefect (s : SchemaBlock) : Err → Span → Prop
  /-- More than one project. -/
  | manyProjects : 1 < s.projects.length → ProjectDefect s .duplicateProjectSetting s.span_range
  /-- No project. -/
  | noProject : s.projects = [] → ProjectDefect s .projectSettingNotFound s.span_range
  /-- A property key is repeated. -/
  | property {p b} : s.projects = [p] → Again (·.key.to_string) p.properties b →
      ProjectDefect s .duplicatePropertyKey b.span_range

/-- A defect of the table `t`, which comes after the tables `pre`, about names and settings. -/
inductive TableDefect (pre : List TableBlock) (t : TableBlock) : Err → Span → Prop
  /-- An attribute key is repeated. -/
  | attr {as a} : as ∈ tableAttrs t → Again (·.key.to_string) as a →
      TableDefect pre t .duplicateAttributeKey a.span_range
  /-- The name is that of an earlier table of the same schema. -/
  | tableName {u} : u ∈ pre → tableKey u = tableKey t → TableDefect pre t .duplicateTableName t.ident.span_range
  /-- A column name is repeated. -/
  | columnName {c} : Again (·.name.to_string) t.cols c → TableDefect pre t .duplicateColumnName c.span_range
  /-- The alias is that of an earlier table. -/
  | alias {u a} : u ∈ pre → aliasOf u = some a.to_string → t.ident.alias = some a →
      TableDefect pre t .duplicateAlias a.span_range

/-- A defect of the enum `e`, which comes after the enums `pre`. -/
inductive EnumDefect (pre : List EnumBlock) (e : EnumBlock) : Err → Span → Prop
  /-- An attribute key is repeated. -/
  | attr {as a} : as ∈ enumAttrs e → Again (·.key.to_string) as a →
      EnumDefect pre e .duplicateAttributeKey a.span_range
  /-- The name is that of an earlier enum of the same schema. -/
  | enumName {u} : u ∈ pre → enumKey u = enumKey e → EnumDefect pre e .duplicateEnumName e.ident.span_range
  /-- A value is repeated. -/
  | enumValue {v} : Again (·.value.to_string) e.values v → EnumDefect pre e .duplicateEnumValue v.span_range

/-- A defect of the table group `g`, which comes after the groups `pre`. -/
inductive GroupDefect (s : SchemaBlock) (pre : List TableGroupBlock) (g : TableGroupBlock) : Err → Span → Prop
  /-- The name is that of an earlier group. -/
  | groupName {u} : u ∈ pre → u.ident.to_string = g.ident.to_string →
      GroupDefect s pre g .duplicateTableGroupName g.ident.span_range
  /-- An unqualified item stands for no table. -/
  | groupItemNotFound {i} : i ∈ g.items → i.schema = none →
      (∀ k, ¬ GroupTarget s i k) → GroupDefect s pre g .tableNotFound i.span_range
  /-- An item stands for the same table as an earlier one. -/
  | groupItem {p i q j k} : g.items = p ++ i :: q → j ∈ p → GroupTarget s j k → GroupTarget s i k →
      GroupDefect s pre g .duplicateTableGroupItem i.span_range

/-- A defect of the keys and indexes of the table `t`. -/
inductive KeyDefect (t : TableBlock) : Err → Span → Prop
  /-- An attribute key of an index is repeated. -/
  | attr {as a} : as ∈ indexAttrs t → Again (·.key.to_string) as a →
      KeyDefect t .duplicateAttributeKey a.span_range
  /-- A second primary-key column. -/
  | pkColumn {pre c post c'} : t.cols = pre ++ c :: post → c' ∈ pre → IsPkCol c' →
      IsPkCol c → KeyDefect t .duplicatePrimaryKey c.span_range
  /-- A primary-key index besides a primary-key column. -/
  | pkIndex {c d} : c ∈ t.cols → IsPkCol c → d ∈ defsOf t → IsPkIndex d →
      KeyDefect t .duplicatePrimaryKey d.span_range
  /-- A primary-key index after another one that names a column. -/
  | pkIndexes {pre d post d'} : defsOf t = pre ++ d :: post → d' ∈ pre → IsPkIndex d' →
      indexNames d' ≠ [] → IsPkIndex d → KeyDefect t .duplicatePrimaryKey d.span_range
  /-- A nullable primary key. -/
  | pkNull {c} : c ∈ t.cols → IsPkCol c → nullableOfCol c = some .null → KeyDefect t .nullablePrimaryKey c.span_range
  /-- An array as primary key. -/
  | pkArray {c} : c ∈ t.cols → IsPkCol c → c.type.arrays ≠ [] → KeyDefect t .arrayPrimaryKey c.span_range
  /-- A column that is both `null` and `not null`. -/
  | nullNotNull {c st a b} : c ∈ t.cols → c.settings = some st → a ∈ st.attributes →
      b ∈ st.attributes → a.key.to_string = k!"null" → b.key.to_string = k!"not null" →
      KeyDefect t .conflictNullableSetting st.span_range
  /-- An index definition without columns. -/
  | emptyIndex {b d} : t.indexes = some b → d ∈ b.defs → d.cols = [] → KeyDefect t .emptyIndexesBlock b.span_range
  /-- An index over a column that does not exist. -/
  | indexColumn {d i} : d ∈ defsOf t → IndexesColumnType.string i ∈ d.cols →
      i.to_string ∉ colNames t → KeyDefect t .columnNotFound i.span_range
  /-- Two of pk, unique and type on an index. -/
  | indexSetting {d st} : d ∈ defsOf t → d.settings = some st →
      (st.is_pk = true ∧ st.is_unique = true ∨ st.is_pk = true ∧ st.type ≠ none ∨
        st.is_unique = true ∧ st.type ≠ none) →
      KeyDefect t .invalidIndexesSetting st.span_range
  /-- A unique index over columns of a unique column. -/
  | uniqueColumn {c d} : c ∈ t.cols → IsUniqueCol c → d ∈ defsOf t → IsUniqueIndex d →
      indexNames d ⊆ [c.name.to_string] → KeyDefect t .duplicateUniqueKey d.span_range
  /-- A unique index over columns of an earlier unique index. -/
  | uniqueIndex {pre d post d'} : defsOf t = pre ++ d :: post → d' ∈ pre →
      IsUniqueIndex d' → IsUniqueIndex d → indexNames d ⊆ indexNames d' →
      KeyDefect t .duplicateUniqueKey d.span_range
  /-- An index that repeats an earlier one. -/
  | indexAgain {pre d post d' x y} : defsOf t = pre ++ d :: post → d' ∈ pre →
      plainIndex d' = some x → plainIndex d = some y → Repeats x y →
      KeyDefect t .duplicateIndexKey d.span_range

/-- A defect in the structure of the schema. -/
inductive StructDefect (s : SchemaBlock) (e : Err) (sp : Span) : Prop
  | project : ProjectDefect s e sp → StructDefect s e sp
  | table {pre t post} : s.tables = pre ++ t :: post → TableDefect pre t e sp → StructDefect s e sp
  | enum {pre d post} : s.enums = pre ++ d :: post → EnumDefect pre d e sp → StructDefect s e sp
  | group {pre g post} : s.table_groups = pre ++ g :: post → GroupDefect s pre g e sp → StructDefect s e sp
  | keys {t} : t ∈ s.tables → KeyDefect t e sp → StructDefect s e sp

/-- Names, aliases, column names and settings of these tables are in order. -/
structure TablesOk (ts : List TableBlock) : Prop where
  names : (ts.map tableKey).Nodup
  aliases : (ts.filterMap aliasOf).Nodup
  cols : ∀ t ∈ ts, (colNames t).Nodup
  settings : ∀ t ∈ ts, ∀ as ∈ tableAttrs t, DistinctKeys as

/-- Names, values and settings of these enums are in order. -/
structure EnumsOk (es : List EnumBlock) : Prop where
  names : (es.map enumKey).Nodup
  values : ∀ e ∈ es, (e.values.map (·.value.to_string)).Nodup
  settings : ∀ e ∈ es, ∀ as ∈ enumAttrs e, DistinctKeys as

/-- Names and items of these table groups of the schema are in order. -/
structure TableGroupsOk (s : SchemaBlock) (gs : List TableGroupBlock) : Prop where
  names : (gs.map (·.ident.to_string)).Nodup
  items : ∀ g ∈ gs, ∃ ks, GroupTargets s g.items ks ∧ ks.Nodup

/-- Keys, indexes and index settings of this table are in order. -/
structure KeysOk (t : TableBlock) : Prop where
  keys : TableOk t
  settings : ∀ as ∈ indexAttrs t, DistinctKeys as

/-- A defect in the type or default of the column `c`. -/
inductive ColumnDefect (s : SchemaBlock) (c : TableColumn) : Err → Span → Prop
  /-- Wrong number of arguments of a built-in type. -/
  | typeArgs {n ty} : HasRaw c n → ColumnTypeName.fromStr n = some ty →
      c.type.args ≠ [] → c.type.args.length ≠ arity ty →
      ColumnDefect s c (.invalidDataTypeArguments n (arity ty)) c.type.span_range
  /-- An argument of a built-in type that is not an integer. -/
  | typeArg {n ty v} : HasRaw c n → ColumnTypeName.fromStr n = some ty →
      v ∈ c.type.args → ¬ IsInt v → ColumnDefect s c .invalidArgumentValue c.type.span_range
  /-- A type name with more than one dot. -/
  | enumSyntax {n} : HasRaw c n → ColumnTypeName.fromStr n = none →
      (∀ k, ¬ EnumRef n k) → ColumnDefect s c .invalidEnum c.type.span_range
  /-- The schema of the type of a column with a default does not exist. -/
  | enumSchema {n k} : HasRaw c n → ColumnTypeName.fromStr n = none → EnumRef n k →
      defaultOf c ≠ none → ¬ SchemaDeclared s k.1 → ColumnDefect s c .schemaNotFound c.type.span_range
  /-- The type of a column with a default does not exist. -/
  | enumMissing {n k} : HasRaw c n → ColumnTypeName.fromStr n = none → EnumRef n k →
      defaultOf c ≠ none → SchemaDeclared s k.1 → (∀ e ∈ s.enums, enumKey e ≠ k) →
      ColumnDefect s c .enumNotFound c.type.span_range
  /-- The default is not a value of the enum. -/
  | enumDefault {n k v e sp} : HasRaw c n → ColumnTypeName.fromStr n = none →
      EnumRef n k → defaultOf c = some v → e ∈ s.enums → enumKey e = k →
      v.toStr ∉ e.values.map (·.value.to_string) → DefaultAt c sp → ColumnDefect s c .enumValueNotFound sp
  /-- A string default that is too long, or not of the fixed length. -/
  | stringDefault {n ty v sp} : HasRaw c n → Resolves n ty →
      defaultOf c = some (.string v) → ¬ StringFits ty c.type.args (blen v) → c.type.args ≠ [] →
      DefaultAt c sp → ColumnDefect s c (.invalidDefaultValue v c.type.raw) sp
  /-- A boolean default of another type. -/
  | boolDefault {n ty b sp} : HasRaw c n → Resolves n ty →
      defaultOf c = some (.bool b) → ty ≠ .bool → DefaultAt c sp →
      ColumnDefect s c (.invalidDefaultValue (Value.bool b).toStr c.type.raw) sp
  /-- An integer default out of range. -/
  | intDefault {n ty v sp} : HasRaw c n → Resolves n ty →
      defaultOf c = some (.integer v) → ¬ IntFits ty v → DefaultAt c sp →
      ColumnDefect s c (.dataTypeExceeded c.type.raw) sp
  /-- A null default of a column that is not declared nullable. -/
  | nullDefault {sp} : defaultOf c = some .null → nullableOfCol c ≠ some .null →
      DefaultAt c sp → ColumnDefect s c .defaultNullInNonNullable sp

/-- A defect of the reference `r`. -/
inductive RefDefect (s : SchemaBlock) (r : IndexedRef) : Err → Span → Prop
  /-- An attribute key is repeated. -/
  | refAttr {st a} : r.settings = some st → Again (·.key.to_string) st.attributes a →
      RefDefect s r .duplicateAttributeKey a.span_range
  /-- The sides of a reference have different numbers of columns. -/
  | refArity : r.lhs.compositions.length ≠ r.rhs.compositions.length →
      RefDefect s r .mismatchedCompositeForeignKey r.span_range
  /-- The schema of an endpoint does not exist (no position is reported if no schema is written). -/
  | refSchema {e e' sp} : e ∈ [r.lhs, r.rhs] → Unaliased s (endOf e) e' →
      ¬ SchemaDeclared s (endKey e').1 → (EndSpan e sp ∨ (e.schema = none ∧ sp = .zero)) →
      RefDefect s r .schemaNotFound sp
  /-- The table of an endpoint does not exist. -/
  | refTable {e e' sp} : e ∈ [r.lhs, r.rhs] → Unaliased s (endOf e) e' →
      (∀ t, ¬ Names s e' t) → EndSpan e sp → RefDefect s r .tableNotFound sp
  /-- A column of an endpoint does not exist. -/
  | refColumn {e e' t i} : e ∈ [r.lhs, r.rhs] → Unaliased s (endOf e) e' →
      t ∈ s.tables → tableKey t = endKey e' → i ∈ e.compositions → i.to_string ∉ colNames t →
      RefDefect s r .columnNotFound i.span_range
  /-- Two corresponding columns have different types. -/
  | refType {el er tl tr x y c d} : Unaliased s (endOf r.lhs) el →
      Unaliased s (endOf r.rhs) er → Names s el tl → Names s er tr →
      (x, y) ∈ r.lhs.compositions.zip r.rhs.compositions → IsColumn tl x.to_string c →
      IsColumn tr y.to_string d → ¬ SameType c d →
      RefDefect s r (.mismatchedForeignKeyType y.to_string x.to_string d.type.raw x.raw) r.span_range
  /-- The side that must be a key is none. -/
  | refKey {el er tl tr} : Unaliased s (endOf r.lhs) el →
      Unaliased s (endOf r.rhs) er → Names s el tl → Names s er tr → ¬ KeyOk r.rel tl tr el.cols er.cols →
      RefDefect s r (.invalidForeignKey (keyKind r.rel (decide (2 ≤ el.cols.length)))) (keySpan r)
  /-- Two references compete. -/
  | refConflict {pre post o} : refsInOrder s = pre ++ r :: post → o ∈ pre ++ post →
      Competes s (linkOf r) (linkOf o) → RefDefect s r .conflictRelation r.span_range
  /-- A reference without direction. -/
  | refUndef : r.rel = .undef → RefDefect s r .conflictRelation r.span_range


/-- The schema has a defect that is described by this error at this span. -/
def Defect (s : SchemaBlock) (e : Err) (sp : Span) : Prop :=
  StructDefect s e sp ∨ (∃ c ∈ columns s, ColumnDefect s c e sp) ∨
    ∃ r ∈ refsInOrder s, RefDefect s r e sp

/-- The defect that is reported. The checks come in stages: the project, the tables, the enums, the table groups, the
keys and indexes of the tables, the columns, the references. All stages before that of the defect are in order,
and within its stage so are the declarations before the one at fault. -/
inductive FirstDefect (s : SchemaBlock) : Err → Span → Prop
  | project {e sp} : ProjectDefect s e sp → FirstDefect s e sp
  | table {pre t post e sp} : ProjectOk s → s.tables = pre ++ t :: post → TablesOk pre → TableDefect pre t e sp →
      FirstDefect s e sp
  | enum {pre d post e sp} : ProjectOk s → TablesOk s.tables → s.enums = pre ++ d :: post → EnumsOk pre →
      EnumDefect pre d e sp → FirstDefect s e sp
  | group {pre g post e sp} : ProjectOk s → TablesOk s.tables → EnumsOk s.enums → s.table_groups = pre ++ g :: post →
      TableGroupsOk s pre → GroupDefect s pre g e sp → FirstDefect s e sp
  | keys {pre t post e sp} : ProjectOk s → TablesOk s.tables → EnumsOk s.enums → TableGroupsOk s s.table_groups →
      s.tables = pre ++ t :: post → (∀ u ∈ pre, KeysOk u) → KeyDefect t e sp → FirstDefect s e sp
  | column {pre c post e sp} : StructureOk s → columns s = pre ++ c :: post →
      (∀ d ∈ pre, ColumnOk s d) → ColumnDefect s c e sp → FirstDefect s e sp
  | ref {pre r post e sp} : StructureOk s → (∀ c ∈ columns s, ColumnOk s c) →
      refsInOrder s = pre ++ r :: post → (∀ o ∈ pre, ∀ e sp, ¬ RefDefect s o e sp) →
      RefDefect s r e sp → FirstDefect s e sp

end Dbml.Spec
