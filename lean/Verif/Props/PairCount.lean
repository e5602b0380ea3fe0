import Verif.Proofs.PairCount
import Verif.Props.Example

/-!
# C86: the tree that the recognizer builds has at most four times as many nodes as the text has characters
-/

namespace Dbml.Props

open Dbml

/-- **C86.** Whatever text the recognizer accepts, it gives at most four pairs, nested ones included, for every character of the
text, and two more. -/
theorem C86_pairs (t c r : Str) (ps : List Pair) (h : pestParse t = .ok c r ps) : Pair.counts ps ≤ 4 * t.length + 2 := by
  have e : G.schema.excess 1 4 .nonAtomic = some 2 := by decide +kernel
  have h1 := run_gain (by decide) _ _ _ _ _ _ _ _ e h
  have h2 : c.length ≤ t.length := by
    obtain ⟨rfl, -⟩ := run_sound gskip_sound _ _ _ _ _ _ _ h
    simp
  unfold gain at h1
  omega

/-- An enum whose members are `a` and the empty name, `n` times, without any space in between. -/
def dense (n : Nat) : Str := k!"Enum e{" ++ (List.replicate n k!"a\"\"").flatten ++ k!"}"

/-- The number of pairs for a text; none when it is not recognized. -/
def pairsOf (t : Str) : Option Nat :=
  match pestParse t with
  | .ok _ _ ps => some (Pair.counts ps)
  | _ => none

theorem pairsOf_some {t : Str} {n : Nat} (h : pairsOf t = some n) : ∃ c r ps, pestParse t = .ok c r ps ∧ Pair.counts ps = n := by
  unfold pairsOf at h
  split at h
  · cases h; exact ⟨_, _, _, ‹_›, rfl⟩
  · cases h

/-- The example has 615 characters and 247 pairs. -/
example : exText.length = 615 := by decide +kernel
example : ∃ c r ps, pestParse exText = .ok c r ps ∧ Pair.counts ps = 247 := pairsOf_some (by decide +kernel)

/-- A text can have more than twice as many pairs as characters. -/
example : (dense 40).length = 128 ∧ ∃ c r ps, pestParse (dense 40) = .ok c r ps ∧ Pair.counts ps = 287 :=
  ⟨by decide +kernel, pairsOf_some (by decide +kernel)⟩

end Dbml.Props
