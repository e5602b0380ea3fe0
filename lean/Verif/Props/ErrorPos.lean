import Verif.Proofs.ErrorPos
import Verif.Props.Language

/-!
# Where syntax errors are reported (C59)
-/

namespace Dbml.Props
open Syntax Spec Source

/-- The recognizer's failure is the syntax error of the API. -/
theorem syntax_iff (txt : Str) : parseDbmlUnchecked txt = .err .syntax ↔ pestParse txt = .fail := by
  constructor
  · intro h
    rcases read_cases txt with ⟨s', h', -⟩ | ⟨-, h'⟩ | ⟨e', h', hr⟩ | ⟨h', -⟩
    · rw [h] at h'; cases h'
    · exact h'
    · rw [h] at h'; cases h'; cases hr
    · rw [h] at h'; cases h'
  · intro h
    simp [parseDbmlUnchecked, h]

/-- **C59.** A syntax error is reported at a place of the text: between two characters, at most at its end. (pest
slices the text there to build the error, so reporting it cannot panic.) -/
theorem C59_position_in_text (txt : Str) (_h : parseDbmlUnchecked txt = .err .syntax) :
    ∃ before after, txt = before ++ after ∧ syntaxErrorPos txt = blen before :=
  syntaxErrorPos_split txt

/-- The position is a valid offset for Rust's string slicing. -/
theorem C59_position_valid (txt : Str) (h : parseDbmlUnchecked txt = .err .syntax) :
    syntaxErrorPos txt ≤ blen txt ∧ isBoundary txt (syntaxErrorPos txt) = true := by
  obtain ⟨u, v, h1, h2⟩ := C59_position_in_text txt h
  rw [h2, h1]
  exact ⟨by simp [blen_append], isBoundary_append u v⟩

/-- **C59.** What was read is not blamed: if a text is accepted and, with more text after a line break, it is not,
then the error is reported in the added text. (The condition on comments is that of `C58_join`.) -/
theorem C59_good_prefix_not_blamed (t g : Str) (s : SchemaBlock) (a : Char) (h : parseDbmlUnchecked t = .ok s)
    (hg : g.head? = some a) (ha : a.isAlpha = true) (hc : ¬ k!"/*" <:+: t ∨ ¬ k!"*/" <:+: g)
    (hf : parseDbmlUnchecked (t ++ '\n' :: g) = .err .syntax) :
    blen t + 1 ≤ syntaxErrorPos (t ++ '\n' :: g) := by
  obtain ⟨d, hd', hw⟩ := read_is_written h
  have hw2 : Written [{ txt := g, next := fun r => r = [] }] g := ⟨[], [], by simp, .nil, rfl, .inl .nil⟩
  have hw3 := written_join (breaks_doc d) hw hw2 hc
  have := errorPos_after hd' (t := t ++ k!"\n") hg ha (by simpa using hw3) (by simpa using (syntax_iff _).1 hf)
  rw [blen_append, show blen k!"\n" = 1 by decide] at this
  simpa using this

/-- **C59.** Blanks and comments in front of a rejected text move the error by their length. -/
theorem C59_leading_trivia (w t : Str) (hw : Blank w) (h : parseDbmlUnchecked t = .err .syntax) :
    syntaxErrorPos (w ++ t) = blen w + syntaxErrorPos t :=
  errorPos_prepend hw ((syntax_iff t).1 h)

/-! ## Concrete cases -/

/-- A table with a broken setting after a good project: the error is at the `}` where a setting should be. -/
example : parseDbmlUnchecked k!"Project p { }\nTable t { id int [pk, } }" = .err .syntax ∧
    syntaxErrorPos k!"Project p { }\nTable t { id int [pk, } }" = 36 := by decide +kernel

/-- The hypotheses of `C59_good_prefix_not_blamed` are met; here the error is exactly at the added text. -/
example : (∃ s, parseDbmlUnchecked k!"Project p { }" = .ok s) ∧ k!"Tabel t { }".head? = some 'T' ∧
    ¬ k!"/*" <:+: k!"Project p { }" ∧ parseDbmlUnchecked (k!"Project p { }" ++ '\n' :: k!"Tabel t { }") = .err .syntax ∧
    syntaxErrorPos (k!"Project p { }" ++ '\n' :: k!"Tabel t { }") = 14 := by
  refine ⟨⟨_, rfl⟩, rfl, ?_, ?_, ?_⟩ <;> decide +kernel

/-- Without the condition on comments the error may lie in the part that was accepted by itself. -/
theorem C59_comment_needed : ∃ t g s, parseDbmlUnchecked t = .ok s ∧ g.head? = some 'f' ∧
    parseDbmlUnchecked (t ++ '\n' :: g) = .err .syntax ∧ syntaxErrorPos (t ++ '\n' :: g) < blen t := by
  refine ⟨k!"Note: '/*'", k!"foo*/", _, rfl, rfl, ?_, ?_⟩ <;> decide +kernel

/-- Trivia in front. -/
example : Blank k!" /* é */\n" ∧ parseDbmlUnchecked k!"Table" = .err .syntax ∧ syntaxErrorPos k!"Table" = 0 ∧
    syntaxErrorPos (k!" /* é */\n" ++ k!"Table") = 10 := by
  refine ⟨.space (.inl rfl) (.block (body := k!" é ") (by decide) (.space (.inr (.inr (.inl rfl))) .nil)), ?_, ?_, ?_⟩ <;>
    decide +kernel

end Dbml.Props
