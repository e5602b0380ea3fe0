import Verif.Spec.Valid

/-!
# Renaming enums

`renameEnums ε s` is the schema `s` with its enums, their schemas and their values renamed: in the declarations of the
enums, in the types of the columns, and in the defaults of the columns that have such a type.
-/

namespace Dbml.Spec

/-- New names for enums. -/
structure EnumRenaming where
  /-- of the schemas of enums -/
  schema : Str → Str := id
  /-- of enums -/
  name : Str → Str := id
  /-- of the values of the enum with the given schema and name -/
  value : Str × Str → Str → Str := fun _ => id
  /-- what is written as the type of a column -/
  type : Str → Str := id

/-- The new schema and name of an enum. -/
def EnumRenaming.key (ε : EnumRenaming) (k : Str × Str) : Str × Str := (ε.schema k.1, ε.name k.2)

/-- The value is a number, a truth value or null. -/
def IsPlain : Value → Prop
  | .integer _ | .decimal _ | .bool _ | .null => True
  | _ => False

/-- Different names stay different, `public` stays `public`, and the texts of numbers, truth values and null stay what
they are. As types, built-in ones are left alone, and the others stay other and mean the renamed enum. -/
structure EnumRenaming.Ok (ε : EnumRenaming) : Prop where
  schema : ∀ a b, ε.schema a = ε.schema b → a = b
  name : ∀ a b, ε.name a = ε.name b → a = b
  value : ∀ k a b, ε.value k a = ε.value k b → a = b
  pub : ε.schema k!"public" = k!"public"
  plain : ∀ k v, IsPlain v → ε.value k v.toStr = v.toStr
  builtin : ∀ n ty, ColumnTypeName.fromStr n = some ty → ε.type n = n
  other : ∀ n, ColumnTypeName.fromStr n = none → ColumnTypeName.fromStr (ε.type n) = none
  means : ∀ n k', ColumnTypeName.fromStr n = none → (EnumRef (ε.type n) k' ↔ ∃ k, EnumRef n k ∧ k' = ε.key k)

namespace EnumNames

/-- The schema and name before and after the first dot; `public` if there is none. -/
def typeKey (n : Str) : Str × Str :=
  if '.' ∈ n then (n.takeWhile (· ≠ '.'), (n.dropWhile (· ≠ '.')).drop 1) else (k!"public", n)

/-- A name, renamed. -/
def ident (f : Str → Str) (i : Ident) : Ident := { i with to_string := f i.to_string }

/-- A default, renamed. -/
def default (f : Str → Str) : Value → Value
  | .string v => .string (f v)
  | .enum v => .enum (f v)
  | .expr v => .expr (f v)
  | .hexColor v => .hexColor (f v)
  | v => v

/-- How the default of a column with the given type is renamed: not at all if the type is built in. -/
def defaultOfType (ε : EnumRenaming) (n : Str) (v : Value) : Value :=
  match ColumnTypeName.fromStr n with
  | some _ => v
  | none => default (ε.value (typeKey n)) v

/-- An enum, renamed. -/
def enum (ε : EnumRenaming) (e : EnumBlock) : EnumBlock :=
  { e with
    ident := { e.ident with schema := e.ident.schema.map (ident ε.schema), name := ident ε.name e.ident.name }
    values := e.values.map fun v => { v with value := ident (ε.value (enumKey e)) v.value } }

/-- A column, its type and default renamed. -/
def column (ε : EnumRenaming) (c : TableColumn) : TableColumn :=
  match c.type.type_name with
  | .raw n =>
    { c with
      type := { c.type with type_name := .raw (ε.type n) }
      settings := c.settings.map fun st => { st with default := st.default.map (defaultOfType ε n) } }
  | _ => c

/-- A table. -/
def table (ε : EnumRenaming) (t : TableBlock) : TableBlock := { t with cols := t.cols.map (column ε) }

/-- A declaration. -/
def block (ε : EnumRenaming) : TopLevelBlock → TopLevelBlock
  | .table t => .table (table ε t)
  | .enum e => .enum (enum ε e)
  | b => b

end EnumNames

/-- The schema with its enums renamed. -/
def renameEnums (ε : EnumRenaming) (s : SchemaBlock) : SchemaBlock :=
  { s with blocks := s.blocks.map (EnumNames.block ε) }

end Dbml.Spec
