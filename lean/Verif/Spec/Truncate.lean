import Verif.Model.Ast

/-!
# What the last declaration of a truncated text may have been
-/

namespace Dbml.Spec

/-- What the last declaration of a text may become in a longer text: a one-line ref without settings keeps its name,
its left side and its relation; a note `''` is a note. -/
def Continues : TopLevelBlock → TopLevelBlock → Prop
  | .ref r, .ref r' => r.settings = none ∧ r'.name = r.name ∧ r'.lhs = r.lhs ∧ r'.rel = r.rel
  | .note n, .note _ => n.value.raw = k!"''"
  | _, _ => False

end Dbml.Spec
