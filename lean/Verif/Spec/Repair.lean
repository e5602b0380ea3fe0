import Verif.Spec.Kinds

/-!
# Adding declarations
-/

namespace Dbml.Spec

/-- `s'` is `s` with further declarations, anywhere between those of `s`; positions, notes and the like may differ (they
are not in the core), and no further table has an alias. -/
structure Adds (s s' : SchemaBlock) : Prop where
  blocks : (core {} s).blocks.Sublist (core {} s').blocks
  aliases : s'.tables.filterMap aliasOf = s.tables.filterMap aliasOf

/-- The errors that say that some declaration is missing. -/
inductive Missing : Err → Prop
  | project : Missing .projectSettingNotFound
  | schema : Missing .schemaNotFound
  | table : Missing .tableNotFound
  | enum : Missing .enumNotFound

end Dbml.Spec
