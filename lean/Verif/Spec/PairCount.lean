import Verif.Model.Parser

/-!
# How many pairs there are (C86)
-/

namespace Dbml

mutual
/-- The number of pairs that a pair consists of: itself and, however deep, those inside it. -/
def Pair.count : Pair → Nat
  | .mk _ _ _ cs => 1 + Pair.counts cs
/-- The number of pairs that several pairs consist of. -/
def Pair.counts : List Pair → Nat
  | [] => 0
  | p :: ps => p.count + Pair.counts ps
end

end Dbml
