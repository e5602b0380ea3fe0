import Verif.Spec.Core
import Verif.Model.Result

/-!
# When two reports are the same

Errors quote source texts and names; two reports are the same if they differ only in these.
-/

namespace Dbml.Spec

/-- The error without the source texts and names that it quotes. -/
def plainErr : Err → Err
  | .invalidDefaultValue v _ => .invalidDefaultValue v []
  | .dataTypeExceeded _ => .dataTypeExceeded []
  | .mismatchedForeignKeyType _ _ _ _ => .mismatchedForeignKeyType [] [] [] []
  | e => e

/-- The error without what it quotes, and without saying what kind of declaration is missing: a schema, a table or an
enum. -/
def coarseErr (e : Err) : Err :=
  match plainErr e with
  | .schemaNotFound => .tableNotFound
  | .enumNotFound => .tableNotFound
  | e => e

/-- Names of schemas are not changed. -/
def Renaming.KeepsSchemas (ρ : Renaming) : Prop := ∀ n, ρ.schema n = n

/-- Both runs accept, or both report the same error up to `π`, or both crash at the same place. -/
inductive SameReport (π : Err → Err) : Rs SchemaBlock → Rs SchemaBlock → Prop
  | accepted (a b) : SameReport π (.ok a) (.ok b)
  | rejected (e sp e' sp') : π e = π e' → SameReport π (.err (.semantic e sp)) (.err (.semantic e' sp'))
  | crashed (p) : SameReport π (.panic p) (.panic p)

end Dbml.Spec
