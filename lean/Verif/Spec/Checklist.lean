import Verif.Spec.Defects

/-!
# The checklist

What is checked of a schema, one after the other, and what is reported when a check fails. The report is that of the
first check that fails. The checks are stated in terms of the rules (`Spec/Valid.lean`), not of the analyzer.
-/

namespace Dbml.Spec

/-- What is reported. -/
inductive Verdict
  /-- An error, at a place. -/
  | error (e : Err) (sp : Span)
  /-- Nothing: the program crashes. -/
  | crash

/-- One check: what must not be, and what is reported if it is. -/
structure Check where
  bad : Prop
  verdict : Verdict

/-- None of these checks fails. -/
def Passes (l : List Check) : Prop := ∀ c ∈ l, ¬ c.bad

/-- The first check that fails has this verdict. -/
def Decides (l : List Check) (v : Verdict) : Prop :=
  ∃ pre c post, l = pre ++ c :: post ∧ Passes pre ∧ c.bad ∧ c.verdict = v

/-- The checks of the elements of a list in turn; the check of an element may depend on those before and after it. -/
def inTurn {α : Type} (f : List α → α → List α → List Check) : List α → List α → List Check
  | _, [] => []
  | before, x :: after => f before x after ++ inTurn f (before ++ [x]) after

/-- An error. -/
abbrev Check.err (bad : Prop) (e : Err) (sp : Span) : Check := ⟨bad, .error e sp⟩

/-! ## Project, tables, enums, groups -/

/-- No setting has the key of an earlier one. -/
def settingChecks (as : List Attribute) : List Check :=
  inTurn (fun before a _ =>
    [.err (∃ b ∈ before, b.key.to_string = a.key.to_string) .duplicateAttributeKey a.span_range]) [] as

/-- There is one project, and none of its properties has the key of an earlier one. -/
def projectChecks (s : SchemaBlock) : List Check :=
  [.err (2 ≤ s.projects.length) .duplicateProjectSetting s.span_range,
   .err (s.projects = []) .projectSettingNotFound s.span_range] ++
  s.projects.flatMap fun p => inTurn (fun before a _ =>
    [.err (∃ b ∈ before, b.key.to_string = a.key.to_string) .duplicatePropertyKey a.span_range]) [] p.properties

/-- A table: its settings, its name; of each column the settings and the name; the alias. -/
def tableChecks (before : List TableBlock) (t : TableBlock) : List Check :=
  t.settings.toList.flatMap (fun st => settingChecks st.attributes) ++
  [.err (∃ u ∈ before, tableKey u = tableKey t) .duplicateTableName t.ident.span_range] ++
  inTurn (fun cols c _ =>
    c.settings.toList.flatMap (fun st => settingChecks st.attributes) ++
    [.err (∃ d ∈ cols, d.name.to_string = c.name.to_string) .duplicateColumnName c.span_range]) [] t.cols ++
  t.ident.alias.toList.map fun a => .err (∃ u ∈ before, aliasOf u = some a.to_string) .duplicateAlias a.span_range

/-- An enum: its name; of each value the settings and the name. -/
def enumChecks (before : List EnumBlock) (e : EnumBlock) : List Check :=
  [.err (∃ u ∈ before, enumKey u = enumKey e) .duplicateEnumName e.ident.span_range] ++
  inTurn (fun vals v _ =>
    v.settings.toList.flatMap (fun st => settingChecks st.attributes) ++
    [.err (∃ w ∈ vals, w.value.to_string = v.value.to_string) .duplicateEnumValue v.span_range]) [] e.values

/-- A table group: its name; each item stands for a table, and not for that of an earlier item. -/
def groupChecks (s : SchemaBlock) (before : List TableGroupBlock) (g : TableGroupBlock) : List Check :=
  [.err (∃ u ∈ before, u.ident.to_string = g.ident.to_string) .duplicateTableGroupName g.ident.span_range] ++
  inTurn (fun items i _ =>
    [.err (∀ k, ¬ GroupTarget s i k) .tableNotFound i.span_range,
     .err (∃ j ∈ items, ∃ k, GroupTarget s j k ∧ GroupTarget s i k) .duplicateTableGroupItem i.span_range]) [] g.items

/-! ## Keys and indexes -/

/-- The settings of a column: a primary key is the first one, not nullable, and no array; not both `null` and
`not null`. -/
def columnKeyChecks (before : List TableColumn) (c : TableColumn) : List Check :=
  c.settings.toList.flatMap fun st =>
    [.err (IsPkCol c ∧ ∃ d ∈ before, IsPkCol d) .duplicatePrimaryKey c.span_range,
     .err (IsPkCol c ∧ st.nullable = some .null) .nullablePrimaryKey c.span_range,
     .err (IsPkCol c ∧ c.type.arrays ≠ []) .arrayPrimaryKey c.span_range,
     .err (k!"null" ∈ st.attributes.map (·.key.to_string) ∧ k!"not null" ∈ st.attributes.map (·.key.to_string))
       .conflictNullableSetting st.span_range]

/-- An index: it is not empty; it names columns of the table; its settings; as a primary key it is the first one; as
a unique key it is not within an earlier one; as any other index it is not an earlier one. -/
def indexChecks (t : TableBlock) (block : Span) (before : List IndexesDef) (d : IndexesDef) : List Check :=
  [.err (d.cols = []) .emptyIndexesBlock block] ++
  (d.cols.flatMap fun
    | .string i => [.err (i.to_string ∉ colNames t) .columnNotFound i.span_range]
    | .expr _ => []) ++
  (d.settings.toList.flatMap fun st =>
    settingChecks st.attributes ++
    [.err (st.is_pk = true ∧ st.is_unique = true ∨ st.is_pk = true ∧ st.type ≠ none ∨
        st.is_unique = true ∧ st.type ≠ none) .invalidIndexesSetting st.span_range,
     .err (IsPkIndex d ∧ ((∃ c ∈ t.cols, IsPkCol c) ∨ ∃ d' ∈ before, IsPkIndex d' ∧ indexNames d' ≠ []))
       .duplicatePrimaryKey d.span_range,
     .err (IsUniqueIndex d ∧ ((∃ c ∈ t.cols, IsUniqueCol c ∧ indexNames d ⊆ [c.name.to_string]) ∨
        ∃ d' ∈ before, IsUniqueIndex d' ∧ indexNames d ⊆ indexNames d'))
       .duplicateUniqueKey d.span_range]) ++
  [.err (∃ d' ∈ before, ∃ x y, plainIndex d' = some x ∧ plainIndex d = some y ∧ Repeats x y)
    .duplicateIndexKey d.span_range]

/-- The keys of a table: the settings of the columns, then the indexes. -/
def keyChecks (t : TableBlock) : List Check :=
  inTurn (fun before c _ => columnKeyChecks before c) [] t.cols ++
  t.indexes.toList.flatMap fun b => inTurn (fun before d _ => indexChecks t b.span_range before d) [] b.defs

/-! ## Types and defaults -/

/-- The place of the value of the first `default` setting. -/
def defaultPlace (c : TableColumn) : Span :=
  (((c.settings.toList.flatMap (·.attributes)).find? fun a => a.key.to_string = k!"default").bind
    fun a => a.value.map (·.span_range)).getD .zero

/-- The error for a default that does not fit. -/
def misfit (c : TableColumn) : Value → Err
  | .string v => .invalidDefaultValue v c.type.raw
  | .bool b => .invalidDefaultValue (Value.bool b).toStr c.type.raw
  | .integer _ => .dataTypeExceeded c.type.raw
  | _ => .defaultNullInNonNullable

/-- A column: the arguments of a built-in type; the form of another type name and, if there is a default, its schema,
its enum, and the value in it; then whether the default fits the type. -/
def columnChecks (s : SchemaBlock) (c : TableColumn) : List Check :=
  match c.type.type_name with
  | .raw n =>
    (match ColumnTypeName.fromStr n with
    | some ty =>
      [.err (c.type.args ≠ [] ∧ c.type.args.length ≠ arity ty) (.invalidDataTypeArguments n (arity ty))
         c.type.span_range,
       .err (∃ v ∈ c.type.args, ¬ IsInt v) .invalidArgumentValue c.type.span_range]
    | none =>
      [.err (∀ k, ¬ EnumRef n k) .invalidEnum c.type.span_range] ++
      (defaultOf c).toList.flatMap fun v =>
        [.err (∀ k, EnumRef n k → ¬ SchemaDeclared s k.1) .schemaNotFound c.type.span_range,
         .err (∀ k, EnumRef n k → ∀ e ∈ s.enums, enumKey e ≠ k) .enumNotFound c.type.span_range,
         .err (∀ k, EnumRef n k → ¬ HasEnumValue s k v.toStr) .enumValueNotFound (defaultPlace c)]) ++
    (defaultOf c).toList.flatMap fun v =>
      [⟨ColumnPanics c, .crash⟩,
       .err (∃ ty, Resolves n ty ∧ ¬ DefaultFits ty c.type.args (nullableOfCol c) v) (misfit c v) (defaultPlace c)]
  | _ => []

/-! ## References -/

/-- An end of a reference: its schema exists, its table (`public` if no schema is written), its columns. -/
def endChecks (s : SchemaBlock) (e : RefIdent) : List Check :=
  [.err (∃ e', Unaliased s (endOf e) e' ∧ ¬ SchemaDeclared s (endKey e').1) .schemaNotFound
     ((e.schema.map (·.span_range)).getD .zero),
   .err (∃ e', Unaliased s (endOf e) e' ∧ ∀ t ∈ s.tables, tableKey t ≠ endKey e') .tableNotFound e.table.span_range] ++
  e.compositions.map fun i =>
    .err (∃ e' t, Unaliased s (endOf e) e' ∧ t ∈ s.tables ∧ tableKey t = endKey e' ∧ i.to_string ∉ colNames t)
      .columnNotFound i.span_range

/-- The columns `x` and `y` at the two ends have different types, `d` being the column `y`. -/
def TypeClash (s : SchemaBlock) (r : IndexedRef) (x y : Ident) (d : TableColumn) : Prop :=
  ∃ el er tl tr c, Unaliased s (endOf r.lhs) el ∧ Unaliased s (endOf r.rhs) er ∧ Names s el tl ∧ Names s er tr ∧
    IsColumn tl x.to_string c ∧ IsColumn tr y.to_string d ∧ ¬ SameType c d

/-- A reference: its settings; as many columns on the left as on the right; its ends; each end names a table as that
table is declared; the types of the columns, pair by pair; the key; no competing reference. -/
def refChecks (s : SchemaBlock) (before : List IndexedRef) (r : IndexedRef) (after : List IndexedRef) : List Check :=
  r.settings.toList.flatMap (fun st => settingChecks st.attributes) ++
  [.err (r.lhs.compositions.length ≠ r.rhs.compositions.length) .mismatchedCompositeForeignKey r.span_range] ++
  endChecks s r.lhs ++ endChecks s r.rhs ++
  ([r.lhs, r.rhs].map fun e =>
    .err (∃ e', Unaliased s (endOf e) e' ∧ ∀ t, ¬ Names s e' t) .tableNotFound e.span_range) ++
  ((r.lhs.compositions.zip r.rhs.compositions).flatMap fun p => (columns s).map fun d =>
    .err (TypeClash s r p.1 p.2 d)
      (.mismatchedForeignKeyType p.2.to_string p.1.to_string d.type.raw p.1.raw) r.span_range) ++
  [.err (∃ el er tl tr, Unaliased s (endOf r.lhs) el ∧ Unaliased s (endOf r.rhs) er ∧ Names s el tl ∧ Names s er tr ∧
      ¬ KeyOk r.rel tl tr el.cols er.cols)
     (.invalidForeignKey (keyKind r.rel (decide (2 ≤ r.lhs.compositions.length)))) (keySpan r),
   .err (r.rel = .undef ∨ ∃ o ∈ before ++ after, Competes s (linkOf r) (linkOf o)) .conflictRelation r.span_range]

/-! ## The whole -/

/-- All checks, in order. -/
def checklist (s : SchemaBlock) : List Check :=
  projectChecks s ++
  inTurn (fun before t _ => tableChecks before t) [] s.tables ++
  inTurn (fun before e _ => enumChecks before e) [] s.enums ++
  inTurn (fun before g _ => groupChecks s before g) [] s.table_groups ++
  s.tables.flatMap keyChecks ++
  (columns s).flatMap (columnChecks s) ++
  inTurn (refChecks s) [] (refsInOrder s)

end Dbml.Spec
