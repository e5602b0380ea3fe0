import Verif.Props.Viable

/-!
# What a syntax error says was expected would fit there (C82)
-/

namespace Dbml.Props
open Syntax Spec Source

/-- The samples of `Spec.sample` are examples of the rules: each rule, in the mode in which the grammar uses it, matches
its whole sample. -/
theorem sample_ok (r : Rule) : ∃ mode ps, mode ≠ .atomic ∧ run G.skip (definition r) mode 0 (sample r) = .ok (sample r) [] ps := by
  have key : ∀ r ∈ Rule.inOrder, (match run G.skip (definition r) .nonAtomic 0 (sample r), run G.skip (definition r) .compound 0 (sample r) with
      | .ok _ [] _, _ => true | _, .ok _ [] _ => true | _, _ => false) = true := by decide +kernel
  have := key r (inOrder_complete r)
  have fin : ∀ mode c ps, mode ≠ .atomic → run G.skip (definition r) mode 0 (sample r) = .ok c [] ps →
      ∃ mode ps, mode ≠ .atomic ∧ run G.skip (definition r) mode 0 (sample r) = .ok (sample r) [] ps := by
    intro mode c ps hm h
    have hs := run_split h
    rw [List.append_nil] at hs
    exact ⟨mode, ps, hm, by rw [h, ← hs]⟩
  split at this
  · exact fin .nonAtomic _ _ (by decide) (by assumption)
  · exact fin .compound _ _ (by decide) (by assumption)
  · contradiction

/-- **C82.** Every rule that a syntax error names as expected would fit at the place of the error: the text before it,
continued with an example of the rule (where necessary on a new line) and something after it, has no syntax error. -/
theorem C82_fits (before after : Str) (h : parseDbmlUnchecked (before ++ after) = .err .syntax)
    (hp : syntaxErrorPos (before ++ after) = blen before) (r : Rule) (hr : r ∈ expectedRules (before ++ after)) :
    ∃ sep rest, (sep = [] ∨ sep = k!"\n") ∧ parseDbmlUnchecked (before ++ sep ++ sample r ++ rest) ≠ .err .syntax := by
  obtain ⟨z, ⟨t, hz⟩, hk⟩ := Vp.fits ((syntax_iff _).1 h) hp hr
  rcases hz with rfl | rfl
  · exact ⟨[], t, .inl rfl, fun h' => hk ((syntax_iff _).1 (by simpa using h'))⟩
  · exact ⟨k!"\n", t, .inr rfl, fun h' => hk ((syntax_iff _).1 (by simpa using h'))⟩

/-- **C82.** Where the end of the input is named as expected, the text may end, after a line feed. -/
theorem C82_end (before after : Str) (h : parseDbmlUnchecked (before ++ after) = .err .syntax)
    (hp : syntaxErrorPos (before ++ after) = blen before) (hr : .EOI ∈ expectedRules (before ++ after)) :
    parseDbmlUnchecked (before ++ k!"\n") ≠ .err .syntax :=
  fun h' => Vp.fits_end ((syntax_iff _).1 h) hp hr ((syntax_iff _).1 h')

/-- **C82.** A whole schema is only named as expected where the text begins. -/
theorem C82_schema (t : Str) (h : parseDbmlUnchecked t = .err .syntax) (hr : .schema ∈ expectedRules t) :
    syntaxErrorPos t = 0 := by
  obtain ⟨w, r, c, r1, ps, w1, x, xs, h1, h2, h3⟩ := pest_fail_shape ((syntax_iff _).1 h)
  rcases Vp.tried_final h1 h2 h3 (mem_expectedRules.1 hr) with ⟨-, h0⟩ | ⟨u, v, -, -, ht⟩ | ⟨h, -⟩
  · exact h0
  · exact absurd ht (Vp.tried_not (by decide))
  · cases h

/-! ## Concrete cases -/

/-- After a comma in the settings of a column. -/
example : parseDbmlUnchecked (k!"Table t { a int [pk, " ++ k!"} }") = .err .syntax ∧
    syntaxErrorPos (k!"Table t { a int [pk, " ++ k!"} }") = blen k!"Table t { a int [pk, " ∧
    expectedRules (k!"Table t { a int [pk, " ++ k!"} }") ≠ [] ∧
    (expectedRules (k!"Table t { a int [pk, " ++ k!"} }")).all (fun r =>
      match parseDbmlUnchecked (k!"Table t { a int [pk, " ++ sample r ++ k!"] }") with | .err .syntax => false | _ => true) = true := by
  refine ⟨?_, ?_, ?_, ?_⟩ <;> decide +kernel

/-- After a declaration the text may end, and where nothing was read a whole schema is named. -/
example : parseDbmlUnchecked (k!"Note: 'n' // c" ++ k!"\n?") = .err .syntax ∧
    syntaxErrorPos (k!"Note: 'n' // c\n" ++ k!"?") = blen k!"Note: 'n' // c\n" ∧
    .EOI ∈ expectedRules (k!"Note: 'n' // c\n" ++ k!"?") ∧ .schema ∉ expectedRules (k!"Note: 'n' // c\n" ++ k!"?") ∧
    parseDbmlUnchecked k!"?" = .err .syntax ∧ .schema ∈ expectedRules k!"?" := by
  refine ⟨?_, ?_, ?_, ?_, ?_, ?_⟩ <;> decide +kernel

/-- The line feed can be necessary: a word that would run into the one before it. -/
theorem C82_gap_needed : ∃ before after r rest, parseDbmlUnchecked (before ++ after) = .err .syntax ∧
    syntaxErrorPos (before ++ after) = blen before ∧ r ∈ expectedRules (before ++ after) ∧
    parseDbmlUnchecked (before ++ sample r ++ rest) = .err .syntax ∧
    parseDbmlUnchecked (before ++ k!"\n" ++ sample r ++ rest) ≠ .err .syntax :=
  ⟨k!"Table t", k!"?", .table_alias, k!" { }", by decide +kernel, by decide +kernel, by decide +kernel, by decide +kernel,
    by decide +kernel⟩

/-- Not everything that would fit is named: punctuation and key words have no rules of their own. -/
theorem C82_not_all : ∃ before after, parseDbmlUnchecked (before ++ after) = .err .syntax ∧
    syntaxErrorPos (before ++ after) = blen before ∧ (expectedRules (before ++ after)).all (fun r => (sample r).head? != some '}') = true ∧
    parseDbmlUnchecked (before ++ k!"}") ≠ .err .syntax :=
  ⟨k!"Table t {", k!"?", by decide +kernel, by decide +kernel, by decide +kernel, by decide +kernel⟩

end Dbml.Props
