import Verif.Spec.Valid
import Mathlib.Data.List.Perm.Basic

/-!
# Schemas that say the same

Two schemas are alike if they declare the same things, in any order, and their references are the same when a reference may be
written in a table or in a block of its own, from either end, with its pairs of columns in any order, and with the name or the
alias of a table. Positions, source texts, notes, and everything else the rules do not look at are free.

Only the definitions of an index block are compared in order (that order matters: an index may not be implied by an *earlier* one).
-/

namespace Dbml.Spec

/-- The elements of the two lists correspond to each other, in some order. -/
def Matched {α : Type} (R : α → α → Prop) (l l' : List α) : Prop := ∃ m, l.Perm m ∧ List.Forall₂ R m l'

/-! ## Declarations -/

/-- The keys of the settings. -/
def keysOf (as : List Attribute) : List Str := as.map (·.key.to_string)

/-- The keys of the settings of a table. -/
def tableKeys (t : TableBlock) : List Str := (t.settings.map fun st => keysOf st.attributes).getD []
/-- The keys of the settings of a column. -/
def colKeys (c : TableColumn) : List Str := (c.settings.map fun st => keysOf st.attributes).getD []
/-- The keys of the settings of an index. -/
def defKeys (d : IndexesDef) : List Str := (d.settings.map fun st => keysOf st.attributes).getD []
/-- The keys of the settings of an enum value. -/
def valueKeys (v : EnumValue) : List Str := (v.settings.map fun st => keysOf st.attributes).getD []
/-- The keys of the settings of a ref. -/
def refKeys (r : RefBlock) : List Str := (r.settings.map fun st => keysOf st.attributes).getD []

/-- The same column: same name, type, arguments and dimensions; it is a primary key or unique, nullable and has a default, or
not, alike; the same settings in any order. -/
structure SameColumn (c d : TableColumn) : Prop where
  name : c.name.to_string = d.name.to_string
  typeName : c.type.type_name = d.type.type_name
  args : c.type.args = d.type.args
  arrays : c.type.arrays = d.type.arrays
  pk : IsPkCol c ↔ IsPkCol d
  unique : IsUniqueCol c ↔ IsUniqueCol d
  nullable : nullableOfCol c = nullableOfCol d
  default : defaultOf c = defaultOf d
  keys : (colKeys c).Perm (colKeys d)

/-- The parts of an index: columns by name, and expressions. -/
def indexParts (d : IndexesDef) : List (Option Str) :=
  d.cols.map fun | .string i => some i.to_string | .expr _ => none

/-- The same index: same columns, same kind, the same settings in any order. Whether it has no settings at all makes a
difference: then it is a plain index (`plainIndex`). -/
structure SameIndex (d e : IndexesDef) : Prop where
  parts : indexParts d = indexParts e
  pk : IsPkIndex d ↔ IsPkIndex e
  unique : IsUniqueIndex d ↔ IsUniqueIndex e
  plain : d.settings = none ↔ e.settings = none
  type : d.settings.bind (·.type) = e.settings.bind (·.type)
  keys : (defKeys d).Perm (defKeys e)

/-- The same table: same schema, name and alias, the same columns in any order, the same indexes in the same order, the same
settings in any order. -/
structure SameTable (t u : TableBlock) : Prop where
  schema : t.ident.schema.map (·.to_string) = u.ident.schema.map (·.to_string)
  name : t.ident.name.to_string = u.ident.name.to_string
  «alias» : aliasOf t = aliasOf u
  cols : Matched SameColumn t.cols u.cols
  indexes : List.Forall₂ SameIndex (defsOf t) (defsOf u)
  keys : (tableKeys t).Perm (tableKeys u)

/-- The same enum value, the same settings in any order. -/
def SameValue (v w : EnumValue) : Prop := v.value.to_string = w.value.to_string ∧ (valueKeys v).Perm (valueKeys w)

/-- The same enum: same schema (`public` may be left out) and name, the same values in any order. -/
def SameEnum (d e : EnumBlock) : Prop := enumKey d = enumKey e ∧ Matched SameValue d.values e.values

/-- The same item of a group. -/
def SameItem (i j : TableGroupItem) : Prop :=
  i.schema.map (·.to_string) = j.schema.map (·.to_string) ∧ i.ident_alias.to_string = j.ident_alias.to_string

/-- The same group: same name, the same items in any order. -/
def SameGroup (g k : TableGroupBlock) : Prop :=
  g.ident.to_string = k.ident.to_string ∧ Matched SameItem g.items k.items

/-- Projects with the same properties in any order. -/
def SameProject (p q : ProjectBlock) : Prop :=
  (p.properties.map (·.key.to_string)).Perm (q.properties.map (·.key.to_string))

/-! ## References -/

/-- The relation, seen from the other end. -/
def turned : Relation → Relation
  | .one2many => .many2one
  | .many2one => .one2many
  | r => r

/-- The reference, written from the other end. -/
def Link.turn (k : Link) : Link := { rel := turned k.rel, lhs := k.rhs, rhs := k.lhs }

/-- The two ends name the same table, once aliases are replaced. -/
def SameName (s : SchemaBlock) (a b : End) : Prop :=
  ∃ a' b', Unaliased s a a' ∧ Unaliased s b b' ∧ a'.schema = b'.schema ∧ a'.table = b'.table

/-- The columns of the ends are the same, or the same pairs in another order. -/
def SamePairs (a b : Link) : Prop :=
  (a.lhs.cols = b.lhs.cols ∧ a.rhs.cols = b.rhs.cols) ∨
  ∃ ps qs : List (Str × Str), ps.Perm qs ∧ a.lhs.cols = ps.map Prod.fst ∧ a.rhs.cols = ps.map Prod.snd ∧
    b.lhs.cols = qs.map Prod.fst ∧ b.rhs.cols = qs.map Prod.snd

/-- The same reference, written from the same end. -/
def Aligned (s : SchemaBlock) (a b : Link) : Prop :=
  a.rel = b.rel ∧ SameName s a.lhs b.lhs ∧ SameName s a.rhs b.rhs ∧ SamePairs a b

/-- The same reference, written from either end. -/
def SameLink (s : SchemaBlock) (a b : Link) : Prop := Aligned s a b ∨ Aligned s a.turn b

/-! ## Schemas -/

/-- The schemas declare the same. -/
structure Alike (s u : SchemaBlock) : Prop where
  projects : Matched SameProject s.projects u.projects
  tables : Matched SameTable s.tables u.tables
  enums : Matched SameEnum s.enums u.enums
  groups : Matched SameGroup s.table_groups u.table_groups
  links : Matched (SameLink s) (links s) (links u)
  /-- The refs that have settings have the same setting keys; this is about the blocks only. -/
  refKeys : Matched List.Perm ((s.refs.map refKeys).filter (· ≠ [])) ((u.refs.map refKeys).filter (· ≠ []))

end Dbml.Spec
