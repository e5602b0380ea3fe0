import Verif.Spec.Nodes

/-!
# When is a schema valid?

The rules that `parse_dbml` enforces on an AST, as a declarative predicate. Nothing here refers to the
analyzer's algorithm, its index or its error values.
-/

namespace Dbml.Spec

/-! ## Names -/

/-- The schema a declaration belongs to; `public` if none is written. -/
def schemaOf : Option Ident → Str
  | some i => i.to_string
  | none => k!"public"

/-- Schema and name of a table. -/
def tableKey (t : TableBlock) : Str × Str := (schemaOf t.ident.schema, t.ident.name.to_string)
/-- Schema and name of an enum. -/
def enumKey (e : EnumBlock) : Str × Str := (schemaOf e.ident.schema, e.ident.name.to_string)
/-- The alias of a table. -/
def aliasOf (t : TableBlock) : Option Str := t.ident.alias.map (·.to_string)
/-- `a` is the alias of the table `t` of the schema. -/
def IsAlias (s : SchemaBlock) (a : Str) (t : TableBlock) : Prop := t ∈ s.tables ∧ aliasOf t = some a

/-- The names of the columns of a table. -/
def colNames (t : TableBlock) : List Str := t.cols.map (·.name.to_string)

/-! ## Settings, project, tables, enums, groups -/

/-- Keys occur at most once. -/
def DistinctKeys (as : List Attribute) : Prop := (as.map (·.key.to_string)).Nodup

/-- The attribute lists of tables, columns, enum values and index definitions. -/
def structSettings (s : SchemaBlock) : List (List Attribute) :=
  (tableSettings s).map (·.attributes) ++ (columnSettings s).map (·.attributes) ++
    (enumSettings s).map (·.attributes) ++ (indexSettings s).map (·.attributes)

/-- The attribute lists that are checked: those of tables, columns, enum values, index definitions and
ref blocks (not those of table groups). -/
def checkedSettings (s : SchemaBlock) : List (List Attribute) :=
  structSettings s ++ (refSettings s).map (·.attributes)

/-- Exactly one project, with distinct property keys. -/
def ProjectOk (s : SchemaBlock) : Prop :=
  ∃ p, s.projects = [p] ∧ (p.properties.map (·.key.to_string)).Nodup

/-- Table names, aliases, and column names are unique. -/
def TableNamesOk (s : SchemaBlock) : Prop :=
  (s.tables.map tableKey).Nodup ∧ (s.tables.filterMap aliasOf).Nodup ∧
  ∀ t ∈ s.tables, (colNames t).Nodup

/-- Enum names and values are unique. -/
def EnumNamesOk (s : SchemaBlock) : Prop :=
  (s.enums.map enumKey).Nodup ∧ ∀ e ∈ s.enums, (e.values.map (·.value.to_string)).Nodup

/-- The table (schema and name) that an item of a table group stands for: as written if qualified,
otherwise the table with that alias, otherwise the table of that name in `public`. -/
def GroupTarget (s : SchemaBlock) (i : TableGroupItem) (k : Str × Str) : Prop :=
  match i.schema with
  | some sc => k = (sc.to_string, i.ident_alias.to_string)
  | none =>
    (∃ t, IsAlias s i.ident_alias.to_string t ∧ k = tableKey t) ∨
    ((∀ t, ¬ IsAlias s i.ident_alias.to_string t) ∧ k = (k!"public", i.ident_alias.to_string) ∧
      ∃ t ∈ s.tables, tableKey t = k)

/-- The items stand, one by one, for the tables `ks`. -/
inductive GroupTargets (s : SchemaBlock) : List TableGroupItem → List (Str × Str) → Prop
  | nil : GroupTargets s [] []
  | cons {i k is ks} : GroupTarget s i k → GroupTargets s is ks → GroupTargets s (i :: is) (k :: ks)

/-- Group names are unique and each group lists existing, different tables. -/
def GroupsOk (s : SchemaBlock) : Prop :=
  (s.table_groups.map (·.ident.to_string)).Nodup ∧
  ∀ g ∈ s.table_groups, ∃ ks, GroupTargets s g.items ks ∧ ks.Nodup

/-! ## Keys and indexes of a table -/

/-- The column is declared as primary key. -/
def IsPkCol (c : TableColumn) : Prop := ∃ st, c.settings = some st ∧ st.is_pk = true
/-- The column is declared unique. -/
def IsUniqueCol (c : TableColumn) : Prop := ∃ st, c.settings = some st ∧ st.is_unique = true
/-- The index is declared as primary key. -/
def IsPkIndex (d : IndexesDef) : Prop := ∃ st, d.settings = some st ∧ st.is_pk = true
/-- The index is declared unique. -/
def IsUniqueIndex (d : IndexesDef) : Prop := ∃ st, d.settings = some st ∧ st.is_unique = true

instance : DecidablePred IsPkCol := fun c =>
  match h : c.settings with
  | none => isFalse (by rintro ⟨st, h', -⟩; simp [h] at h')
  | some st => decidable_of_iff (st.is_pk = true) (by simp [IsPkCol, h])
instance : DecidablePred IsUniqueCol := fun c =>
  match h : c.settings with
  | none => isFalse (by rintro ⟨st, h', -⟩; simp [h] at h')
  | some st => decidable_of_iff (st.is_unique = true) (by simp [IsUniqueCol, h])
instance : DecidablePred IsPkIndex := fun c =>
  match h : c.settings with
  | none => isFalse (by rintro ⟨st, h', -⟩; simp [h] at h')
  | some st => decidable_of_iff (st.is_pk = true) (by simp [IsPkIndex, h])
instance : DecidablePred IsUniqueIndex := fun c =>
  match h : c.settings with
  | none => isFalse (by rintro ⟨st, h', -⟩; simp [h] at h')
  | some st => decidable_of_iff (st.is_unique = true) (by simp [IsUniqueIndex, h])

/-- The index definitions of a table. -/
def defsOf (t : TableBlock) : List IndexesDef := (t.indexes.map (·.defs)).getD []

/-- The columns an index names, in order; expressions are left out. -/
def indexNames (d : IndexesDef) : List Str :=
  d.cols.filterMap fun | .string i => some i.to_string | .expr _ => none

/-- The primary key of a table: at most one primary-key column; if there is one, no primary-key index; and
a primary-key index that names a column is not followed by another primary-key index. -/
def PrimaryKeyOk (t : TableBlock) : Prop :=
  (t.cols.filter fun c => IsPkCol c).length ≤ 1 ∧
  (∀ c ∈ t.cols, ∀ d ∈ defsOf t, ¬ (IsPkCol c ∧ IsPkIndex d)) ∧
  ((defsOf t).filter fun d => IsPkIndex d).Pairwise fun d _ => indexNames d = []

/-- The settings of a column are coherent. -/
def ColumnSettingsOk (c : TableColumn) : Prop :=
  ∀ st, c.settings = some st →
    (st.is_pk = true → st.nullable ≠ some .null ∧ c.type.arrays = []) ∧
    ¬ (k!"null" ∈ st.attributes.map (·.key.to_string) ∧
       k!"not null" ∈ st.attributes.map (·.key.to_string))

/-- An index is not empty, names only columns of its table, and is at most one of primary key, unique and
typed. -/
def IndexOk (t : TableBlock) (d : IndexesDef) : Prop :=
  d.cols ≠ [] ∧ (∀ n ∈ indexNames d, n ∈ colNames t) ∧
  ∀ st, d.settings = some st →
    ¬ (st.is_pk = true ∧ st.is_unique = true) ∧ ¬ (st.is_pk = true ∧ st.type ≠ none) ∧
    ¬ (st.is_unique = true ∧ st.type ≠ none)

/-- The unique keys of a table: its unique columns, then its unique indexes. -/
def uniqueKeys (t : TableBlock) : List (List Str) :=
  (t.cols.filter fun c => IsUniqueCol c).map (fun c => [c.name.to_string]) ++
    ((defsOf t).filter fun d => IsUniqueIndex d).map indexNames

/-- The columns and type of an index that is plain (without settings: type `none`) or typed. -/
def plainIndex (d : IndexesDef) : Option (List Str × Option IndexesType) :=
  match d.settings with
  | none => some (indexNames d, none)
  | some st => st.type.map fun ty => (indexNames d, some ty)

/-- The plain and typed indexes of a table. -/
def plainIndexes (t : TableBlock) : List (List Str × Option IndexesType) :=
  (defsOf t).filterMap plainIndex

/-- The second of two indexes repeats the first: same columns and, unless it is untyped, same type. -/
def Repeats (a b : List Str × Option IndexesType) : Prop := a.1 = b.1 ∧ (b.2 = none ∨ a.2 = b.2)

/-- Keys and indexes of a table are well-formed: in addition to the rules above, no unique key consists of
columns of an earlier unique key, and no index repeats an earlier one. -/
def TableOk (t : TableBlock) : Prop :=
  PrimaryKeyOk t ∧ (∀ c ∈ t.cols, ColumnSettingsOk c) ∧ (∀ d ∈ defsOf t, IndexOk t d) ∧
  (uniqueKeys t).Pairwise (fun u v => ¬ v ⊆ u) ∧
  (plainIndexes t).Pairwise (fun a b => ¬ Repeats a b)

/-! ## Column types and defaults -/

/-- Number of arguments of a built-in type, when it is written with arguments. -/
def arity : ColumnTypeName → Nat
  | .varchar | .char | .time | .timestamp | .timetz | .timestamptz | .bit | .varbit => 1
  | .decimal => 2
  | _ => 0

/-- An integer value. -/
def IsInt (v : Value) : Prop := ∃ n, v = .integer n

/-- Arguments of a built-in type: none, or as many integers as the type takes. -/
def ArgsOk (ty : ColumnTypeName) (args : List Value) : Prop :=
  args = [] ∨ (args.length = arity ty ∧ ∀ v ∈ args, IsInt v)

/-- The schema and name in a type name that is not built in: `name` or `schema.name`. -/
def EnumRef (n : Str) (k : Str × Str) : Prop :=
  ('.' ∉ n ∧ k = (k!"public", n)) ∨
  ∃ a b, n = a ++ ('.' :: b) ∧ '.' ∉ a ∧ '.' ∉ b ∧ k = (a, b)

/-- A string default of byte length `len` fits the type. -/
def StringFits (ty : ColumnTypeName) (args : List Value) (len : Nat) : Prop :=
  match ty with
  | .bit | .char => ∃ n, args = [.integer n] ∧ (len : Int) = n
  | .varbit | .varchar => ∃ n, args = [.integer n] ∧ (len : Int) ≤ n
  | _ => True

/-- An integer default fits the type (for `bigint` the two extreme values are rejected). -/
def IntFits (ty : ColumnTypeName) (n : Int) : Prop :=
  match ty with
  | .smallInt => -32768 ≤ n ∧ n ≤ 32767
  | .integer => -2147483648 ≤ n ∧ n ≤ 2147483647
  | .bigInt => n ≠ -9223372036854775808 ∧ n ≠ 9223372036854775807
  | _ => True

/-- A default value fits the resolved type of its column. -/
def DefaultFits (ty : ColumnTypeName) (args : List Value) (nullable : Option Nullable) : Value → Prop
  | .string v => StringFits ty args (blen v)
  | .integer n => IntFits ty n
  | .bool _ => ty = .bool
  | .null => nullable = some .null
  | _ => True

/-- The type a column's type name resolves to: a built-in type, or an enum, known by its name without
schema. -/
def Resolves (n : Str) (ty : ColumnTypeName) : Prop :=
  ColumnTypeName.fromStr n = some ty ∨
  (ColumnTypeName.fromStr n = none ∧ ∃ k, EnumRef n k ∧ ty = .enum k.2)

/-- The schema has the enum `k` with the value `v`. -/
def HasEnumValue (s : SchemaBlock) (k : Str × Str) (v : Str) : Prop :=
  ∃ e ∈ s.enums, enumKey e = k ∧ v ∈ e.values.map (·.value.to_string)

/-- The default value of a column. -/
def defaultOf (c : TableColumn) : Option Value := c.settings.bind (·.default)
/-- The nullability of a column. -/
def nullableOfCol (c : TableColumn) : Option Nullable := c.settings.bind (·.nullable)

/-- The type and default of a column are valid. -/
def ColumnOk (s : SchemaBlock) (c : TableColumn) : Prop :=
  ∃ n ty, c.type.type_name = .raw n ∧ Resolves n ty ∧
    (ColumnTypeName.fromStr n = some ty → ArgsOk ty c.type.args) ∧
    ∀ v, defaultOf c = some v →
      DefaultFits ty c.type.args (nullableOfCol c) v ∧
      (ColumnTypeName.fromStr n = none → ∀ k, EnumRef n k → HasEnumValue s k v.toStr)

/-! ## References -/

/-- An endpoint of a reference, names only. -/
structure End where
  schema : Option Str
  table : Str
  cols : List Str
deriving DecidableEq

/-- A reference. -/
structure Link where
  rel : Relation
  lhs : End
  rhs : End

/-- The endpoint as written. -/
def endOf (r : RefIdent) : End :=
  { schema := r.schema.map (·.to_string), table := r.table.to_string,
    cols := r.compositions.map (·.to_string) }

/-- All references of a schema: ref blocks, then inline refs, whose left end is their own column. -/
def links (s : SchemaBlock) : List Link :=
  s.refs.map (fun r => { rel := r.rel, lhs := endOf r.lhs, rhs := endOf r.rhs }) ++
  s.tables.flatMap fun t => t.cols.flatMap fun c => (c.settings.toList.flatMap (·.refs)).map fun r =>
    { rel := r.rel, rhs := endOf r.rhs
      lhs := { schema := t.ident.schema.map (·.to_string), table := t.ident.name.to_string,
               cols := [c.name.to_string] } }

/-- Replacing an alias: the endpoint's table name, if it is an alias, stands for the schema (explicitly
`public` if none is written) and name of the table that has the alias. -/
def Unaliased (s : SchemaBlock) (e e' : End) : Prop :=
  (∃ t, IsAlias s e.table t ∧
    e' = { schema := some (tableKey t).1, table := (tableKey t).2, cols := e.cols }) ∨
  ((∀ t, ¬ IsAlias s e.table t) ∧ e' = e)

/-- The endpoint names the table `t`: same schema, as written, and same name. -/
def Names (s : SchemaBlock) (e : End) (t : TableBlock) : Prop :=
  t ∈ s.tables ∧ t.ident.schema.map (·.to_string) = e.schema ∧ t.ident.name.to_string = e.table

/-- Two columns have the same type: same resolved name, arguments and array dimensions. -/
def SameType (c d : TableColumn) : Prop :=
  c.type.args = d.type.args ∧ c.type.arrays = d.type.arrays ∧
  ∃ n m ty, c.type.type_name = .raw n ∧ d.type.type_name = .raw m ∧ Resolves n ty ∧ Resolves m ty

/-- Column `n` of table `t`. -/
def IsColumn (t : TableBlock) (n : Str) (c : TableColumn) : Prop := c ∈ t.cols ∧ c.name.to_string = n

/-- The single column `n` is a key of `t`: it is declared `pk` or `unique`. -/
def SingleKey (t : TableBlock) (n : Str) : Prop :=
  ∃ c, IsColumn t n c ∧ (IsPkCol c ∨ IsUniqueCol c)

/-- Several columns are a key of `t`: an index that is `pk` or `unique` consists of exactly these
columns. -/
def CompositeKey (t : TableBlock) (cols : List Str) : Prop :=
  ∃ d ∈ defsOf t, (IsPkIndex d ∨ IsUniqueIndex d) ∧ d.cols.length = cols.length ∧
    ∀ n, n ∈ cols ↔ n ∈ indexNames d

/-- The side that must be a key is one. -/
def KeyOk (rel : Relation) (tl tr : TableBlock) (lcols rcols : List Str) : Prop :=
  match lcols, rcols with
  | [], [] => True
  | [l], [r] =>
    match rel with
    | .one2many => SingleKey tl l
    | .many2one => SingleKey tr r
    | .one2one | .many2many => SingleKey tl l ∨ SingleKey tr r
    | .undef => True
  | _, _ =>
    match rel with
    | .one2many => CompositeKey tl lcols
    | .many2one => CompositeKey tr rcols
    | .one2one => CompositeKey tl lcols ∨ CompositeKey tr rcols
    | .many2many => CompositeKey tl lcols ∧ CompositeKey tr rcols
    | .undef => True

/-- A reference is valid by itself. -/
def LinkOk (s : SchemaBlock) (k : Link) : Prop :=
  k.rel ≠ .undef ∧ k.lhs.cols.length = k.rhs.cols.length ∧
  ∃ l r tl tr, Unaliased s k.lhs l ∧ Unaliased s k.rhs r ∧ Names s l tl ∧ Names s r tr ∧
    (∀ n ∈ l.cols, n ∈ colNames tl) ∧ (∀ n ∈ r.cols, n ∈ colNames tr) ∧
    (∀ p ∈ l.cols.zip r.cols, ∀ c d, IsColumn tl p.1 c → IsColumn tr p.2 d → SameType c d) ∧
    KeyOk k.rel tl tr l.cols r.cols

/-- The same endpoint, the columns in any order. -/
def SameEnd (a b : End) : Prop :=
  a.schema = b.schema ∧ a.table = b.table ∧ ∀ n, n ∈ a.cols ↔ n ∈ b.cols

/-- The side that holds the foreign key. -/
def fkSide (k : Link) : Option End :=
  match k.rel with
  | .many2one => some k.lhs
  | .one2many => some k.rhs
  | _ => none

/-- Two references compete: they put a foreign key on the same columns; or they are both one-to-one (or
both many-to-many) and each end of the first is an end of the second. -/
def Competes (s : SchemaBlock) (a b : Link) : Prop :=
  (∃ x y x' y', fkSide a = some x ∧ fkSide b = some y ∧ Unaliased s x x' ∧ Unaliased s y y' ∧
    SameEnd x' y') ∨
  (a.rel = b.rel ∧ (a.rel = .one2one ∨ a.rel = .many2many) ∧
    ∀ x ∈ [a.lhs, a.rhs], ∃ y ∈ [b.lhs, b.rhs], ∃ x' y', Unaliased s x x' ∧ Unaliased s y y' ∧
      SameEnd x' y')

/-- All references are valid and no two of them compete. -/
def RefsOk (s : SchemaBlock) : Prop :=
  (∀ k ∈ links s, LinkOk s k) ∧
  (links s).Pairwise fun a b => ¬ Competes s a b ∧ ¬ Competes s b a

/-! ## The whole schema -/

/-- Everything except column types, defaults and references is in order. -/
structure StructureOk (s : SchemaBlock) : Prop where
  project : ProjectOk s
  settings : ∀ as ∈ structSettings s, DistinctKeys as
  tableNames : TableNamesOk s
  enumNames : EnumNamesOk s
  groups : GroupsOk s
  tables : ∀ t ∈ s.tables, TableOk t

/-- The schema is valid. -/
structure Valid (s : SchemaBlock) : Prop where
  project : ProjectOk s
  settings : ∀ as ∈ checkedSettings s, DistinctKeys as
  tableNames : TableNamesOk s
  enumNames : EnumNamesOk s
  groups : GroupsOk s
  tables : ∀ t ∈ s.tables, TableOk t
  columns : ∀ c ∈ columns s, ColumnOk s c
  refs : RefsOk s

end Dbml.Spec
