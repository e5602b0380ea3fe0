import Verif.Spec.Stages

/-!
# Declarations that are appended after a mistake (C88)
-/

namespace Dbml.Spec
open Dbml

/-- The declaration is of a kind that is first looked at after this stage, or at this stage but after the declarations of the same
kind that precede it. -/
def Stage.Later : Stage → TopLevelBlock → Prop
  | .project, .project _ => False
  | .project, _ => True
  | .tables, .project _ => False
  | .tables, _ => True
  | .enums, .project _ | .enums, .table _ => False
  | .enums, _ => True
  | .groups, .project _ | .groups, .table _ | .groups, .enum _ => False
  | .groups, _ => True
  | .keys, .ref _ | .keys, .note _ => True
  | .keys, _ => False
  | .columns, .ref _ | .columns, .note _ => True
  | .columns, _ => False
  | .refs, .note _ => True
  | .refs, _ => False

end Dbml.Spec
