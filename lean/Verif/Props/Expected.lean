import Verif.Proofs.ExpectedText
import Verif.Props.ErrorPos
import Verif.Props.Messages
import Mathlib.Tactic.ByContra

/-!
# What syntax errors say was expected (C65)
-/

namespace Dbml.Props
open Syntax Spec Source

/-- **C65.** A syntax error names at least one thing that was expected; they are named in the order of the grammar, each
once; and none of them is there. -/
theorem C65_expected (txt : Str) (h : parseDbmlUnchecked txt = .err .syntax) :
    expectedRules txt ≠ [] ∧ (expectedRules txt).Sublist Rule.inOrder ∧ (expectedRules txt).Nodup ∧
    ∀ r ∈ expectedRules txt, NotAt txt (syntaxErrorPos txt) r := by
  refine ⟨expectedRules_some ((syntax_iff txt).1 h), List.filter_sublist,
    List.Pairwise.sublist List.filter_sublist (by decide : Rule.inOrder.Nodup), fun r hr => ?_⟩
  have := (finalAttempts_inv txt).notAt r (mem_expectedRules.1 hr)
  rwa [finalAttempts_pos] at this

/-- The names are listed in the order in which the grammar file defines them, the end of input first. -/
theorem C65_order (txt : Str) : ((expectedRules txt).map Rule.name).Sublist (k!"EOI" :: ruleNames) :=
  (List.Sublist.map _ List.filter_sublist).trans
    (List.isSublist_iff_sublist.1 (by decide +kernel : (Rule.inOrder.map Rule.name).isSublist (k!"EOI" :: ruleNames) = true))

/-- A rule that begins with a character of a class and may go on. -/
theorem first_class {p : Char → Bool} {e : PExpr} {a pos c cs} (hc : p c = true)
    (ha : a ≠ .nonAtomic) : run G.skip (.cls p ~~ .star e) a pos (c :: cs) ≠ .fail := by
  have hstar : ∀ q s, run G.skip (.star e) a q s ≠ .fail := by
    intro q s h
    rw [run] at h
    split at h
    · cases h
    · cases h
    · split at h
      · cases h
      · rename_i hl; exact repLoop_ne_fail _ _ _ hl
      · cases h
  intro h
  rw [run, show run G.skip (.cls p) a pos (c :: cs) = .ok [c] cs [] by simp [run, hc]] at h
  unfold seqRes at h
  dsimp only at h
  rw [show skipIf G.skip a cs = .ok [] cs [] by cases a <;> simp_all [skipIf]] at h
  dsimp only at h
  split at h
  · rename_i hl; exact hstar _ _ hl
  · cases h
  · cases h

/-- A text is split in one way at an offset. -/
theorem blen_split : ∀ {b b' s s' : Str}, b ++ s = b' ++ s' → blen b = blen b' → b = b' ∧ s = s'
  | [], [], _, _, h, _ => ⟨rfl, h⟩
  | [], y :: b', _, _, _, hl => by
    have := blen_pos (c := y :: b') (by simp)
    simp at hl; omega
  | x :: b, [], _, _, _, hl => by
    have := blen_pos (c := x :: b) (by simp)
    simp at hl; omega
  | x :: b, y :: b', s, s', h, hl => by
    simp only [List.cons_append, List.cons.injEq] at h
    obtain ⟨rfl, h⟩ := h
    have := blen_split h (by simp only [blen] at hl; omega)
    exact ⟨by rw [this.1], this.2⟩

/-- The text goes on with the character `c` at the offset `p`. -/
def NextIs (txt : Str) (p : Nat) (c : Char) : Prop := ∃ before after, txt = before ++ c :: after ∧ p = blen before

/-- Where a rule is not, something else is. -/
theorem notAt_next {txt : Str} {p : Nat} {r : Rule} {c : Char} (h : NotAt txt p r) (hn : NextIs txt p c) :
    ∃ mode cs, mode ≠ .atomic ∧ run G.skip (definition r) mode p (c :: cs) = .fail := by
  obtain ⟨b, s, m, e, hp, hm, hf⟩ := h
  obtain ⟨b', s', e', hp'⟩ := hn
  have : b = b' ∧ s = c :: s' := by
    rw [e] at e'
    exact blen_split e' (by omega)
  rw [this.2] at hf
  exact ⟨m, s', hm, hf⟩

/-- "Expected end of input" is only said of a place with text left. -/
theorem C65_end_of_input (txt : Str) (h : parseDbmlUnchecked txt = .err .syntax) (he : .EOI ∈ expectedRules txt) :
    ∃ c, NextIs txt (syntaxErrorPos txt) c := by
  obtain ⟨b, s, m, e, hp, hm, hf⟩ := (C65_expected txt h).2.2.2 _ he
  cases s with
  | nil => simp [definition, run] at hf
  | cons c s => exact ⟨c, b, s, e, hp⟩

/-- "Expected an identifier" (a bare name, a bare name with blanks) is never said of a place where a letter is. -/
theorem C65_identifier (txt : Str) (h : parseDbmlUnchecked txt = .err .syntax)
    (he : .ident ∈ expectedRules txt ∨ .var ∈ expectedRules txt ∨ .spaced_var ∈ expectedRules txt) (c : Char)
    (hc : NextIs txt (syntaxErrorPos txt) c) : G.isAlpha c = false := by
  have var : ∀ m p cs, run G.skip G.var m p (c :: cs) = .fail → G.isAlpha c = false := by
    intro m p cs hf
    by_contra hn
    refine first_class (p := G.isAlpha) (e := G.WORD) (a := .atomic) (pos := p) (cs := cs)
      (by simpa using hn) (by simp) ?_
    unfold G.var at hf
    rw [run] at hf
    split at hf
    · assumption
    · cases hf
    · cases hf
  rcases he with he | he | he
  · obtain ⟨m, cs, -, hf⟩ := notAt_next ((C65_expected txt h).2.2.2 _ he) hc
    unfold definition G.ident at hf
    rw [run] at hf
    split at hf
    · rename_i ha
      rw [run] at ha
      split at ha
      · rename_i hv; exact var _ _ _ hv
      · rename_i hv; exact absurd ha hv
    · cases hf
    · cases hf
  · obtain ⟨m, cs, -, hf⟩ := notAt_next ((C65_expected txt h).2.2.2 _ he) hc
    exact var _ _ _ hf
  · obtain ⟨m, cs, -, hf⟩ := notAt_next ((C65_expected txt h).2.2.2 _ he) hc
    by_contra hn
    refine first_class (p := G.isAlpha) (e := .opt (.str k!" ") ~~ G.WORD) (a := .atomic) (pos := syntaxErrorPos txt)
      (cs := cs) (by simpa using hn) (by simp) ?_
    unfold definition G.spaced_var at hf
    rw [run] at hf
    split at hf
    · assumption
    · cases hf
    · cases hf

/-- "Expected a relation" is never said of a place where a relation sign is. -/
theorem C65_relation (txt : Str) (h : parseDbmlUnchecked txt = .err .syntax) (he : .relation ∈ expectedRules txt)
    (c : Char) (hc : NextIs txt (syntaxErrorPos txt) c) : c ≠ '<' ∧ c ≠ '>' ∧ c ≠ '-' := by
  obtain ⟨m, cs, -, hf⟩ := notAt_next ((C65_expected txt h).2.2.2 _ he) hc
  unfold definition G.relation at hf
  refine ⟨?_, ?_, ?_⟩ <;> rintro rfl
  · cases cs with
    | nil => simp [run, stripPrefix] at hf
    | cons d cs =>
      by_cases hd : '>' = d
      · subst hd; simp [run, stripPrefix] at hf
      · simp [run, stripPrefix, hd] at hf
  · simp [run, stripPrefix] at hf
  · simp [run, stripPrefix] at hf

/-- "Expected an integer" is never said of a place where a digit is. -/
theorem C65_integer (txt : Str) (h : parseDbmlUnchecked txt = .err .syntax) (he : .integer ∈ expectedRules txt)
    (c : Char) (hc : NextIs txt (syntaxErrorPos txt) c) : G.isDigit c = false := by
  obtain ⟨m, cs, -, hf⟩ := notAt_next ((C65_expected txt h).2.2.2 _ he) hc
  by_contra hn
  refine first_class (p := G.isDigit) (e := G.ASCII_DIGIT) (a := .atomic) (pos := syntaxErrorPos txt)
    (cs := cs) (by simpa using hn) (by simp) ?_
  unfold definition G.integer at hf
  rw [run] at hf
  split at hf
  · assumption
  · cases hf
  · cases hf

/-- **C65.** After text that is accepted by itself, anything beginning with a letter that is refused right where it
begins is answered with everything that can stand there: the end of the text or any of the six declarations. (The
condition on comments is that of `C58_join`.) -/
theorem C65_unknown_declaration (t g : Str) (s : SchemaBlock) (a : Char) (h : parseDbmlUnchecked t = .ok s)
    (hg : g.head? = some a) (ha : a.isAlpha = true) (hc : ¬ k!"/*" <:+: t ∨ ¬ k!"*/" <:+: g)
    (hf : parseDbmlUnchecked (t ++ '\n' :: g) = .err .syntax) (hp : syntaxErrorPos (t ++ '\n' :: g) = blen t + 1) :
    ∀ r ∈ [Rule.EOI, .project_decl, .table_decl, .enum_decl, .ref_decl, .table_group_decl, .note_decl],
      r ∈ expectedRules (t ++ '\n' :: g) := by
  obtain ⟨d, hd', hw⟩ := read_is_written h
  have hw2 : Written [{ txt := g, next := fun r => r = [] }] g := ⟨[], [], by simp, .nil, rfl, .inl .nil⟩
  have hw3 := written_join (breaks_doc d) hw hw2 hc
  have hfail := (syntax_iff _).1 hf
  obtain ⟨w, r, c, r1, ps, w1, y, ys, h1, h2, h3⟩ := pest_fail_shape hfail
  have hle := stop_after hd' (t := t ++ k!"\n") hg ha (by simpa using hw3) (by simpa using h1) h2 h3
  rw [blen_append, show blen k!"\n" = 1 by decide] at hle
  have hge : blen w + blen c + blen w1 ≤ syntaxErrorPos (t ++ '\n' :: g) := by
    rw [attempt_schema h1 h2 h3]
    exact further_getD_right _ (some (blen w + blen c + blen w1))
  obtain ⟨base, hb⟩ := expected_stop h1 h2 h3 (by omega) (by omega)
  intro r hr
  rw [mem_expectedRules, hb]
  simp only [declRules, List.mem_append, List.mem_cons, List.not_mem_nil, or_false] at hr ⊢
  rcases hr with rfl | rfl | rfl | rfl | rfl | rfl | rfl <;> simp

/-- **C65.** The text of a syntax error says "expected" and the names of the rules. It determines them: syntax errors with
the same text expected the same things. -/
theorem C65_message (t t' : Str) (h : parseDbmlUnchecked t = .err .syntax) (h' : parseDbmlUnchecked t' = .err .syntax) :
    k!"expected " <+: PError.fullMessage t .syntax ∧
    (PError.fullMessage t .syntax = PError.fullMessage t' .syntax → expectedRules t = expectedRules t') := by
  have form : ∀ {t}, parseDbmlUnchecked t = .err .syntax → PError.fullMessage t .syntax =
      k!"expected " ++ enumerateRules ((expectedRules t).map Rule.name) := by
    intro t h
    have := (C65_expected t h).1
    unfold PError.fullMessage parsingErrorMessage
    cases he : expectedRules t with
    | nil => exact absurd he this
    | cons => rfl
  refine ⟨⟨_, (form h).symm⟩, fun e => ?_⟩
  rw [form h, form h'] at e
  exact enumerate_inj (List.append_cancel_left e)

/-- **C65.** The text of an error of `parse_dbml` tells a syntax error from the other errors, and the other errors by
their kind (C53). -/
theorem C65_all_messages {t t' : Str} {x x' : PError} (h : parseDbml t = .err x) (h' : parseDbml t' = .err x')
    (hm : x.fullMessage t = x'.fullMessage t') : SameSort x x' := by
  have key : ∀ {t : Str} {x : PError}, parseDbml t = .err x →
      (x = .syntax ∧ parseDbmlUnchecked t = .err .syntax) ∨
      (x.message = some (x.fullMessage t) ∧ ∀ c cs, x.fullMessage t = c :: cs → c ≠ 'e') := by
    intro t x h
    rcases C35_errors_truthful h with h | ⟨s, er, sp, -, rfl, -⟩
    · rcases C03_parse_errors h with rfl | hr
      · exact .inl ⟨rfl, h⟩
      · refine .inr ?_
        cases hr with
        | intTooLarge => exact ⟨rfl, by rintro _ _ ⟨⟩; decide⟩
        | arrayTooLarge => exact ⟨rfl, by rintro _ _ ⟨⟩; decide⟩
        | badAction => exact ⟨rfl, by rintro _ _ ⟨⟩; decide⟩
        | badIndexType => exact ⟨rfl, by rintro _ _ ⟨⟩; decide⟩
    · refine .inr ⟨rfl, ?_⟩
      intro c cs hc hne
      obtain ⟨d, ds, h1, h2⟩ := display_upper er
      have : d = c := by
        have := h1.symm.trans hc
        simpa using (List.cons.inj this).1
      subst this; subst hne
      exact absurd h2 (by decide)
  have hs : ∀ {t : Str}, parseDbmlUnchecked t = .err .syntax → ∃ cs, PError.fullMessage t .syntax = 'e' :: cs := by
    intro t h
    obtain ⟨cs, hcs⟩ := (C65_message t t h h).1
    exact ⟨_, hcs.symm⟩
  rcases key h with ⟨rfl, hu⟩ | ⟨hx, hl⟩ <;> rcases key h' with ⟨rfl, hu'⟩ | ⟨hx', hl'⟩
  · trivial
  · obtain ⟨cs, hcs⟩ := hs hu
    exact absurd rfl (hl' _ _ (hm.symm.trans hcs))
  · obtain ⟨cs, hcs⟩ := hs hu'
    exact absurd rfl (hl _ _ (hm.trans hcs))
  · exact C53_messages_identify_errors h h' (by rw [hx, hx', hm])

/-! ## Concrete cases -/

/-- The text as the user sees it. -/
example : PError.fullMessage k!"Table t { a int [default: 5 6] }" .syntax =
    k!"expected backquoted_quoted_string, string_value, decimal, or boolean_value" ∧
    PError.fullMessage k!"Enum e { a b 'c' }" .syntax = k!"expected ident or enum_settings" ∧
    PError.fullMessage k!"Ref: a.b b.c" .syntax = k!"expected relation" := by decide +kernel

/-- A setting missing after a comma. -/
example : parseDbmlUnchecked k!"Project p { }\nTable t { id int [pk, } }" = .err .syntax ∧
    expectedRules k!"Project p { }\nTable t { id int [pk, } }" = [.col_attribute] := by decide +kernel

/-- A type missing. -/
example : expectedRules k!"Project p { }\nTable t { id } " = [.col_type] := by decide +kernel

/-- A relation missing between two columns; the next character is `b`. -/
example : parseDbmlUnchecked k!"Ref: a.b b.c" = .err .syntax ∧ expectedRules k!"Ref: a.b b.c" = [.relation] ∧
    NextIs k!"Ref: a.b b.c" (syntaxErrorPos k!"Ref: a.b b.c") 'b' := by
  refine ⟨by decide +kernel, by decide +kernel, k!"Ref: a.b ", k!".c", rfl, by decide +kernel⟩

/-- Several things could come. -/
example : expectedRules k!"Enum e { a b 'c' }" = [.ident, .enum_settings] := by decide +kernel

example : expectedRules k!"Table t { a int [default: 5 6] }" =
    [.backquoted_quoted_string, .string_value, .decimal, .boolean_value] := by decide +kernel

/-- The hypotheses of `C65_unknown_declaration` are met. -/
example : (∃ s, parseDbmlUnchecked k!"Project p { }" = .ok s) ∧ k!"Tabel t { }".head? = some 'T' ∧
    ¬ k!"/*" <:+: k!"Project p { }" ∧ parseDbmlUnchecked (k!"Project p { }" ++ '\n' :: k!"Tabel t { }") = .err .syntax ∧
    syntaxErrorPos (k!"Project p { }" ++ '\n' :: k!"Tabel t { }") = blen k!"Project p { }" + 1 ∧
    expectedRules (k!"Project p { }" ++ '\n' :: k!"Tabel t { }") =
      [.EOI, .ref_decl, .note_decl, .enum_decl, .table_decl, .table_group_decl, .project_decl] := by
  refine ⟨⟨_, rfl⟩, rfl, ?_, ?_, ?_, ?_⟩ <;> decide +kernel

/-- **Finding.** At the very beginning of the text the same mistake is only reported as "expected schema": the attempts
of the parts are replaced by that of the rule that spans them all. -/
theorem C65_start_of_text : parseDbmlUnchecked k!"Tabel t { }" = .err .syntax ∧
    syntaxErrorPos k!"Tabel t { }" = 0 ∧ expectedRules k!"Tabel t { }" = [.schema] := by decide +kernel

end Dbml.Props
