import Verif.Proofs.Depth
import Verif.Props.Example

/-!
# C61: recursion is bounded
-/

namespace Dbml.Props

open Dbml

/-- **C61.** However long a text is and whatever it contains, accepted or not, the calls of the recognizer are nested
at most 70 deep. -/
theorem C61_call_depth (t : Str) : parseDepth t ≤ 70 := by
  have h := depth_le (skip := G.skip) (k := G.skipExpr.height 0) skipDepth_le G.schema .nonAtomic 0 t
  have e : G.schema.height (G.skipExpr.height 0) = 70 := by decide +kernel
  rwa [e] at h

/-- **C61.** The pairs that the recognizer gives are nested at most 12 deep, so that the functions that walk them are,
too. -/
theorem C61_pair_depth (t c r : Str) (ps : List Pair) (h : pestParse t = .ok c r ps) (p : Pair) (hp : p ∈ ps) :
    p.depth ≤ 12 := by
  have h := run_depths _ _ _ _ _ _ _ h
  have e : G.schema.rules = 12 := by decide +kernel
  rw [e] at h
  exact Nat.le_trans (mem_depths hp) h

/-- The depths on the example; the bound for pairs is reached. -/
example : parseDepth exText = 57 := by decide +kernel
example : ∃ c r ps, pestParse exText = .ok c r ps ∧ Pair.depths ps = 12 := by
  have h : (match pestParse exText with | .ok _ _ ps => Pair.depths ps | _ => 0) = 12 := by decide +kernel
  cases hp : pestParse exText with
  | ok c r ps => rw [hp] at h; exact ⟨c, r, ps, rfl, h⟩
  | fail => rw [hp] at h; cases h
  | diverge => rw [hp] at h; cases h

/-- Unclosed brackets do not nest. -/
example : parseDepth k!"Table t { id int [[[[[[[[[[[[[[[[[[[[[[[[[[[[[[[[[[[[[[[[[[[[[[[[[[[[[[[[" ≤ 40 := by decide +kernel

end Dbml.Props
