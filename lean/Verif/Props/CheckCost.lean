import Verif.Proofs.CheckCost4
import Verif.Props.Size
import Verif.Props.Example

/-!
# C83: checking a schema does not blow up
-/

namespace Dbml.Props

open Dbml

variable {input : Str} {s : SchemaBlock}

/-- **C83.** The counting analysis computes what the analysis computes. -/
theorem C83_same_result (s : SchemaBlock) : (analyzeC s).val = analyze s := analyzeC_val s

/-- **C83.** The analysis of any AST, parsed or built by hand, valid or not, takes at most `800 * n ^ 2 * (log2 n + 1)` steps, where
`n` is the size of the AST. -/
theorem C83_quadratic (s : SchemaBlock) : (analyzeC s).steps ≤ 800 * (Size.schema s) ^ 2 * (Nat.log2 (Size.schema s) + 1) := by
  have h := analyzeC_le s
  have e : 800 * (Size.schema s * (Size.schema s * (Nat.log2 (Size.schema s) + 1))) =
    800 * (Size.schema s) ^ 2 * (Nat.log2 (Size.schema s) + 1) := by ring
  rwa [e] at h

/-- A larger number has no smaller logarithm. -/
theorem log2_mono {a b : Nat} (h : a ≤ b) : Nat.log2 a ≤ Nat.log2 b := by
  by_cases ha : a = 0
  · subst ha; rw [Nat.log2_zero]; omega
  · have hb : b < 2 ^ (Nat.log2 b + 1) := Nat.lt_log2_self
    have := (Nat.log2_lt ha).2 (Nat.lt_of_le_of_lt h hb)
    omega

/-- **C83.** For a text that `parse_dbml_unchecked` reads, the same in terms of the number of characters of the text. -/
theorem C83_text (h : parseDbmlUnchecked input = .ok s) :
    (analyzeC s).steps ≤ 800 * (9 * input.length + 2) ^ 2 * (Nat.log2 (9 * input.length + 2) + 1) := by
  have h1 := C80_ast_size h
  refine Nat.le_trans (C83_quadratic s) (Nat.mul_le_mul (Nat.mul_le_mul_left _ (Nat.pow_le_pow_left h1 2)) ?_)
  have := log2_mono h1
  omega

/-- The counter does count: every block costs something, whatever the outcome. -/
theorem C83_at_least (s : SchemaBlock) : 5 * s.blocks.length ≤ (analyzeC s).steps := by
  unfold analyzeC
  rw [Ct.steps_bind]
  simp only [tick, charge]
  omega

/-- A witness: the steps of the analysis of the example document, whose AST has size 1656. -/
example : parseDbmlUnchecked exText = .ok exAst ∧ (analyzeC exAst).steps = 4886 := ⟨ex_reads, by decide +kernel⟩

/-- A witness: an analysis that ends with an error (a duplicate column) is counted too. -/
example : (match parseDbmlUnchecked k!"Project p {} Table t { a int\n a int }" with
    | .ok s => some ((analyzeC s).steps, (match analyze s with | .err _ => true | _ => false))
    | _ => none) = some (58, true) := by decide +kernel

end Dbml.Props
