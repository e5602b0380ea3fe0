import Verif.Proofs.ShiftWalk
import Verif.Proofs.TailWalk
import Verif.Proofs.MapSpanId
import Verif.Props.RoundTrip

/-!
# C42: white space and comments before the text, white space behind it

`Blank w` (`Verif/Spec/Syntax.lean`) says that `w` consists of white space and finished comments.
-/

namespace Dbml.Props

open Dbml Syntax Source

/-- **C42.** For every text and every run of white space and comments in front of it: the text is accepted with
them if and only if it is without; the AST is the same but for positions moved by the length of what was put in
front; an error is the same error, moved likewise. -/
theorem C42_leading_trivia (w t : Str) (hw : Blank w) :
    parseDbmlUnchecked (w ++ t) =
      (parseDbmlUnchecked t).relabel (Span.shift (blen w)) (fun s =>
        { span_range := ⟨0, blen (w ++ t)⟩, input := w ++ t,
          blocks := s.blocks.map (·.mapSpan (Span.shift (blen w))) }) := by
  rcases pest_prepend hw t with ⟨h1, h2⟩ | ⟨ps, qs, e, e', c, c', r, r', h, h1, h2⟩
  · simp only [parseDbmlUnchecked, h1, h2]; rfl
  · have := schema_e h.relabel (e := e) (e' := e') (sp := ⟨0, blen t⟩) (sp' := ⟨0, blen (w ++ t)⟩) (t := c) (t' := c') t (w ++ t)
    simp only [parseDbmlUnchecked, h1, h2]
    rw [rel_eq, F_moved] at this
    exact this

/-- **C42.** Acceptance does not depend on leading trivia. -/
theorem C42_leading_accept (w t : Str) (hw : Blank w) :
    (∃ s, parseDbmlUnchecked (w ++ t) = .ok s) ↔ ∃ s, parseDbmlUnchecked t = .ok s := by
  rw [C42_leading_trivia w t hw]
  cases parseDbmlUnchecked t <;> simp [Rs.relabel]

/-- A witness: two line comments and some space are blank, and the example text is accepted behind them. -/
example : Blank k!"  // one\n\t/* two */ " ∧ ∃ s, parseDbmlUnchecked (k!"  // one\n\t/* two */ " ++ exText) = .ok s := by
  have h : Blank k!"  // one\n\t/* two */ " :=
    .space (.inl rfl) (.space (.inl rfl) (.line (body := k!" one") (by decide) (.inl rfl)
      (.space (.inr (.inl rfl)) (.block (body := k!" two ") (by decide) (.space (.inl rfl) .nil)))))
  exact ⟨h, (C42_leading_accept _ _ h).2 ⟨_, ex_reads⟩⟩

theorem blank_spaces : ∀ {w : Str}, (∀ c ∈ w, IsSpace c) → Blank w
  | [], _ => .nil
  | _ :: _, h => .space (h _ (by simp)) (blank_spaces fun c hc => h c (by simp [hc]))

theorem F_id_eq : F id = id := funext F_id

theorem F_cut (n : Nat) : F (Span.cut n) = Span.cut n := by
  funext sp
  simp only [F]
  split
  · subst_vars; simp [Span.cut, Span.zero]
  · rfl

/-- **C42.** For every text and all white space behind it: the text is accepted with it if and only if it is
without; the AST is the same but for positions that reach into the white space, which end with the text; an error is
the same error, cut likewise. -/
theorem C42_trailing_space (t w : Str) (hw : ∀ c ∈ w, IsSpace c) :
    parseDbmlUnchecked t =
      (parseDbmlUnchecked (t ++ w)).relabel (Span.cut (blen t)) (fun s =>
        { span_range := ⟨0, blen t⟩, input := t, blocks := s.blocks.map (·.mapSpan (Span.cut (blen t))) }) := by
  rcases pest_append hw t with ⟨h1, h2⟩ | ⟨ps, qs, e, e', he, hf, hf', h1, h2⟩
  · simp only [parseDbmlUnchecked, h1, h2]; rfl
  · have k1 := schema_e hf.keep (e := e) (e' := e) (sp := ⟨0, blen t⟩) (sp' := ⟨0, blen t⟩) (t := t) (t' := t) t t
    have k2 := schema_e (hf'.cut (n := blen t)) (e := e') (e' := e) (sp := ⟨0, blen (t ++ w)⟩) (sp' := ⟨0, blen t⟩)
      (t := t ++ w) (t' := t) (t ++ w) t
    simp only [parseDbmlUnchecked, h1, h2]
    rw [he, k2, rel_eq, F_cut] at k1
    rw [rel_eq, F_id_eq] at k1
    show parseSchema _ t = Rs.relabel _ _ (parseSchema _ (t ++ w))
    rw [k1]
    have hb : ∀ bs : List TopLevelBlock, bs.map (·.mapSpan id) = bs := by
      intro bs; induction bs <;> simp_all [TopLevelBlock_mapSpan_id]
    have hsp := parseSchema_header (.mk .schema ⟨0, blen t⟩ t (ps ++ [.mk .EOI e [] []])) t
    generalize parseSchema (.mk .schema ⟨0, blen t⟩ t (ps ++ [.mk .EOI e [] []])) t = x at hsp
    cases x with
    | ok s => obtain ⟨h3, h4⟩ := hsp s rfl; cases s; simp_all [Rs.relabel, Pair.span]
    | err e => simp [Rs.relabel, PError_mapSpan_id]
    | panic _ => rfl
    | diverge => rfl

/-- **C42.** Acceptance does not depend on white space at the end. -/
theorem C42_trailing_accept (t w : Str) (hw : ∀ c ∈ w, IsSpace c) :
    (∃ s, parseDbmlUnchecked (t ++ w) = .ok s) ↔ ∃ s, parseDbmlUnchecked t = .ok s := by
  rw [C42_trailing_space t w hw]
  cases parseDbmlUnchecked (t ++ w) <;> simp [Rs.relabel]

/-- A witness: the example text with and without three characters of white space behind it. -/
example : (∀ c ∈ k!" \n\t", IsSpace c) ∧ ∃ s, parseDbmlUnchecked (exText ++ k!" \n\t") = .ok s :=
  ⟨by decide, (C42_trailing_accept _ _ (by decide)).2 ⟨_, ex_reads⟩⟩

end Dbml.Props
