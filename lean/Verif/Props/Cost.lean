import Verif.Proofs.Quadratic6
import Verif.Props.RoundTrip

/-!
# C56: recognition takes quadratically many steps
-/

namespace Dbml.Props

open Dbml Syntax Source

/-- **C56.** The instrumented recognizer computes what the recognizer computes. -/
theorem C56_same_result (t : Str) : (pestParseC t).1 = pestParse t := pestParseC_fst t

/-- **C56.** On a text of `n` characters, accepted or not, the recognizer takes at most `532050 * (n + 1) ^ 6` steps: a crude
bound with a small constant, computed from the grammar alone. -/
theorem C56_polynomial (t : Str) : (pestParseC t).2 ≤ 532050 * (t.length + 1) ^ 6 := by
  have h := pestParseC_le t
  have h1 : G.skipExpr.deg 0 .atomic = 2 := by decide +kernel
  have h2 : G.skipExpr.coef 0 .atomic = 223 := by decide +kernel
  have h3 : G.schema.deg 2 .nonAtomic = 6 := by decide +kernel
  have h4 : G.schema.coef 223 .nonAtomic = 532050 := by decide +kernel
  rwa [h1, h2, h3, h4] at h

/-- **C56.** On a text of `n` characters, accepted or not, the recognizer takes at most quadratically many steps: nothing that
was read is read again more than a constant number of times, except that every part may look ahead to the end of the text. -/
theorem C56_quadratic (t : Str) : (pestParseC t).2 ≤ 82977267590 * (t.length + 1) ^ 2 := by
  have h := Gn.pestParseC_quad t
  have h1 : Gn.schemaB.1 = 41488633795 := by decide +kernel
  rwa [h1] at h

/-- `n` quoted names that look like the beginning of a comment, and `}`. -/
def manyOpen : Nat → Str
  | 0 => k!"}"
  | n + 1 => k!"\"/*\"" ++ manyOpen n

/-- **C56.** Quadratic is the right degree: the text `Enum e{"/*""/*"..."/*"}` with `n` values has `4 * n + 8` characters, and on
it the recognizer takes at least `n * n` steps, because after each `"` it looks for the end of a comment. So no bound of lower
degree holds. -/
theorem C56_tight (n : Nat) : (k!"Enum e{" ++ manyOpen n).length = 4 * n + 8 ∧ n * n ≤ (pestParseC (k!"Enum e{" ++ manyOpen n)).2 := by
  have e : ∀ n, manyOpen n = Gn.opens n := by
    intro n
    induction n with
    | zero => rfl
    | succ n ih => simp only [manyOpen, Gn.opens, ih]
  rw [e]
  exact ⟨Gn.slow_length n, Gn.slow_cost n⟩

/-- **C56.** These texts are not errors: `parse_dbml_unchecked` accepts them. -/
theorem C56_tight_accepted (n : Nat) : ∃ s, parseDbmlUnchecked (k!"Enum e{" ++ manyOpen n) = .ok s := by
  have e : ∀ n, manyOpen n = Gn.opens n := by
    intro n
    induction n with
    | zero => rfl
    | succ n ih => simp only [manyOpen, Gn.opens, ih]
  let v : Source.EVal := ⟨.quoted (.of k!"/*"), none⟩
  have hv : v.Ok := by decide +kernel
  have hw : ∀ n, Written ((List.replicate n v).flatMap (·.toks) ++ [rbrace]) (manyOpen n) := by
    intro n
    induction n with
    | zero => exact ⟨[], [], rfl, .nil, trivial, .inl .nil⟩
    | succ n ih =>
      refine ⟨[], manyOpen n, rfl, .nil, ?_, ih⟩
      intro _ h
      rw [e] at h
      simp only [Quote.of, List.drop, List.nil_append, List.cons_append, List.infix_cons_iff] at h
      rcases h with h | h
      · simp at h
      · exact Gn.opens_closed n h
  obtain ⟨s, h, -⟩ := C44_written_is_read [.enum { kw := k!"Enum ", schema := none, name := .word k!"e", values := List.replicate n v }]
    (by
      intro b hb
      simp only [List.mem_singleton] at hb
      subst hb
      refine ⟨show Keyword k!"enum " k!"Enum " by decide +kernel, by simp, ⟨'e', [], rfl, by decide, by simp⟩, ?_⟩
      intro w hw
      rw [List.eq_of_mem_replicate hw]
      exact hv) (k!"Enum e{" ++ manyOpen n) (by
      have h2 := hw n
      simp only [Doc.toks, Block.toks, Enum.toks, qualToks, List.flatMap_cons, List.flatMap_nil, List.append_nil, List.cons_append, List.nil_append]
      exact ⟨[], k!"e{" ++ manyOpen n, rfl, .nil, trivial, [], k!"{" ++ manyOpen n, rfl, .nil, headP_cons (by decide),
        [], manyOpen n, rfl, .nil, trivial, h2⟩)
  exact ⟨s, h⟩

/-- **C56.** No linear bound holds. -/
theorem C56_not_linear (c : Nat) : ∃ t : Str, c * (t.length + 1) < (pestParseC t).2 := by
  refine ⟨k!"Enum e{" ++ manyOpen (4 * c + 10), ?_⟩
  obtain ⟨h1, h2⟩ := C56_tight (4 * c + 10)
  rw [h1]
  refine Nat.lt_of_lt_of_le ?_ h2
  ring_nf
  omega

/-- A witness: the number of steps on a small text. -/
example : (pestParseC k!"Project p {} Table t { a int [note: 007.50] }").2 = 1108 := by decide +kernel
end Dbml.Props
