import Verif.Proofs.Viable13
import Verif.Props.ErrorPos

/-!
# Everything before a syntax error can be completed (C81)
-/

namespace Dbml.Props
open Syntax Spec Source

/-- **C81.** The text in front of the place where a syntax error is reported is the beginning of some text without
syntax error: nothing before that place has to be changed. -/
theorem C81_viable (before after : Str) (h : parseDbmlUnchecked (before ++ after) = .err .syntax)
    (hp : syntaxErrorPos (before ++ after) = blen before) :
    ∃ rest, parseDbmlUnchecked (before ++ rest) ≠ .err .syntax := by
  obtain ⟨z, hz⟩ := Vp.viable ((syntax_iff _).1 h) hp
  exact ⟨z, fun h' => hz ((syntax_iff _).1 h')⟩

/-- **C81.** The same for every beginning of the text that does not reach past that place. -/
theorem C81_viable_beginning (a b : Str) (h : parseDbmlUnchecked (a ++ b) = .err .syntax) (hp : blen a ≤ syntaxErrorPos (a ++ b)) :
    ∃ rest, parseDbmlUnchecked (a ++ rest) ≠ .err .syntax := by
  obtain ⟨u, v, e, hu⟩ := syntaxErrorPos_split (a ++ b)
  have hle : blen a ≤ blen u := hu ▸ hp
  have : ∃ k, u = a ++ k := by
    rcases List.append_eq_append_iff.1 e with ⟨k, h1, -⟩ | ⟨k, h1, -⟩
    · exact ⟨k, h1⟩
    · have hk : k = [] := by
        rw [h1, blen_append] at hle
        cases k with
        | nil => rfl
        | cons c k =>
          have := c.utf8Size_pos
          simp [blen] at hle
          omega
      exact ⟨[], by rw [h1, hk]; simp⟩
  obtain ⟨k, rfl⟩ := this
  rw [e] at h hu
  obtain ⟨z, hz⟩ := C81_viable _ _ h hu
  exact ⟨k ++ z, by rwa [← List.append_assoc]⟩

/-- **C81.** A text that no continuation can repair is blamed inside itself, however it goes on: an error is never
reported later than the first place at which the text is beyond repair. -/
theorem C81_dead_end (a : Str) (h : ∀ rest, parseDbmlUnchecked (a ++ rest) = .err .syntax) :
    ∀ b, syntaxErrorPos (a ++ b) < blen a := by
  intro b
  apply Classical.byContradiction
  intro hn
  obtain ⟨z, hz⟩ := C81_viable_beginning a b (h b) (Nat.le_of_not_lt hn)
  exact hz (h z)

/-- **C81.** An error reported at the end of the text means that the text is not finished, not that it is wrong. -/
theorem C81_unfinished (t : Str) (h : parseDbmlUnchecked t = .err .syntax) (hp : syntaxErrorPos t = blen t) :
    ∃ rest, parseDbmlUnchecked (t ++ rest) ≠ .err .syntax :=
  C81_viable t [] (by simpa using h) (by simpa using hp)

/-! ## Concrete cases -/

/-- A column type with an argument and settings, broken after a comma, with a comment before; what stands before the
error can be completed by `x] }`. -/
example : parseDbmlUnchecked (k!"Table t { /* a */ id s.num(3,2)[][pk, " ++ k!"} }") = .err .syntax ∧
    syntaxErrorPos (k!"Table t { /* a */ id s.num(3,2)[][pk, " ++ k!"} }") = blen k!"Table t { /* a */ id s.num(3,2)[][pk, " ∧
    parseDbmlUnchecked (k!"Table t { /* a */ id s.num(3,2)[][pk, " ++ k!"unique] }") ≠ .err .syntax := by
  refine ⟨?_, ?_, ?_⟩ <;> decide +kernel

/-- A text beyond repair, and where it is blamed. -/
theorem dead_example : ∀ rest, parseDbmlUnchecked (k!"?" ++ rest) = .err .syntax := by
  intro rest
  rw [syntax_iff]
  have hsk : G.skip ('?' :: rest) = .ok [] ('?' :: rest) [] := skip_solid (solid_cons (by decide) (by decide))
  have hf : ∀ pos, run G.skip G.top_decl .nonAtomic pos ('?' :: rest) = .fail :=
    Vp.fl_off (e := G.top_decl) (by decide) rfl (fun _ => solid_cons (by decide) (by decide)) (by
      intro c t e; injection e with e _; subst e; decide)
  have hst : run G.skip (.star G.top_decl) .nonAtomic 0 ('?' :: rest) = .ok [] ('?' :: rest) [] := by
    simp only [run, hf 0]
  have e0 : run G.skip .soi .nonAtomic 0 ('?' :: rest) = .ok [] ('?' :: rest) [] := by simp [run]
  have hfail : run G.skip (.soi ~~ .star G.top_decl ~~ .eoi) .nonAtomic 0 ('?' :: rest) = .fail := by
    rw [run, e0]
    simp only [seqRes, skipIf, hsk]
    rw [run, show 0 + blen [] + blen [] = 0 from rfl, hst]
    simp [seqRes, skipIf, hsk, run]
  show run G.skip (.rule .schema .normal (.soi ~~ .star G.top_decl ~~ .eoi)) .nonAtomic 0 ('?' :: rest) = .fail
  rw [run, show bodyAtomicity .normal .nonAtomic = .nonAtomic from rfl, hfail]

example (b : Str) : syntaxErrorPos (k!"?" ++ b) < 1 := C81_dead_end k!"?" dead_example b

/-- The other direction is false: a text may be blamed although it can be completed, for a key word that is cut off is
blamed where it begins. -/
theorem C81_not_latest : ∃ t rest s, parseDbmlUnchecked t = .err .syntax ∧ syntaxErrorPos t < blen t ∧ parseDbmlUnchecked (t ++ rest) = .ok s :=
  ⟨k!"Tab", k!"le t { }", _, by decide +kernel, by decide +kernel, rfl⟩

/-- A completed text may still be rejected for another reason: here a literal that was there already is too large. -/
example : parseDbmlUnchecked k!"Note: ''\nTable t { a int [x: 99999999999999999999999, " = .err .syntax ∧
    syntaxErrorPos k!"Note: ''\nTable t { a int [x: 99999999999999999999999, " = blen k!"Note: ''\nTable t { a int [x: 99999999999999999999999, " ∧
    parseDbmlUnchecked k!"Note: ''\nTable t { a int [x: 99999999999999999999999, y] }" ≠ .err .syntax ∧
    ¬ ∃ s, parseDbmlUnchecked k!"Note: ''\nTable t { a int [x: 99999999999999999999999, y] }" = .ok s := by
  refine ⟨by decide +kernel, by decide +kernel, by decide +kernel, ?_⟩
  rintro ⟨s, h⟩
  have := congrArg (fun x => x.get?.isSome) h
  change _ = true at this
  revert this
  decide +kernel

end Dbml.Props
