import Verif.Proofs.Natural
import Verif.Props.Validity
import Verif.Props.Trivia

/-!
# C52: the checks ignore positions; C42 and C44 for `parse_dbml`
-/

namespace Dbml.Props

open Dbml Syntax Source

theorem isBoundary_after (w t : Str) : ∀ n, isBoundary t n = true → isBoundary (w ++ t) (n + blen w) = true := by
  induction w with
  | nil => simp [blen]
  | cons c w ih =>
    intro n h
    have hc : 0 < c.utf8Size := c.utf8Size_pos
    have e : n + blen (c :: w) = (n + blen w + c.utf8Size - 1) + 1 := by simp only [blen]; omega
    rw [e, List.cons_append, isBoundary, if_pos (by omega)]
    rw [show n + blen w + c.utf8Size - 1 + 1 - c.utf8Size = n + blen w by omega]
    exact ih n h

theorem valid_after (w t : Str) (sp : Span) (h : sp.valid t = true) : (Span.shift (blen w) sp).valid (w ++ t) = true := by
  unfold Span.shift
  split
  · simp [Span.valid, Span.zero, isBoundary]
  · simp only [Span.valid, Bool.and_eq_true, decide_eq_true_eq] at h ⊢
    exact ⟨⟨by omega, isBoundary_after w t _ h.1.2⟩, isBoundary_after w t _ h.2⟩

theorem valid_zero (i : Str) : Span.zero.valid i = true := by simp [Span.valid, Span.zero, isBoundary]

theorem isBoundary_blen (t : Str) : isBoundary t (blen t) = true := by
  have := isBoundary_append t []
  simpa using this

theorem valid_whole (i : Str) : Span.valid i ⟨0, blen i⟩ = true := by
  simp [Span.valid, isBoundary, isBoundary_blen]

theorem nt_verdict {g : PError → PError} {α : Type} {m : α → α} {x y : Rs α} (h : Nt g m x y)
    (hx : x ≠ .panic .spanUnwrap) (hg : ∀ e, (g e).mapSpan noPos = e.mapSpan noPos) : y.verdict = x.verdict := by
  rcases h with h | rfl
  · exact absurd h hx
  · cases x with
    | ok a => rfl
    | err e => exact congrArg Rs.err (hg e)
    | panic s => rfl
    | diverge => rfl

theorem mapSpan_noPos (f : Span → Span) (e : PError) : (e.mapSpan f).mapSpan noPos = e.mapSpan noPos := by
  cases e <;> rfl

theorem parse_verdict {t : Str} {s : SchemaBlock} (h : parseDbmlUnchecked t = .ok s) :
    (parseDbml t).verdict = (analyze s).verdict := by
  unfold parseDbml
  rw [h]
  change ((analyze s).bind fun _ => Rs.ok s).verdict = _
  cases analyze s <;> rfl

/-- The checks on an AST say the same as the checks on the AST without positions and text. -/
theorem verdict_noPos {s : SchemaBlock} (h : analyze s ≠ .panic .spanUnwrap) :
    (analyze s).verdict = (analyze { blocks := s.blocks.map (·.mapSpan noPos) }).verdict := by
  have hk : Keeps noPos (PError.mapSpan noPos) s.input [] :=
    ⟨rfl, fun _ _ => valid_zero _, fun _ _ _ _ => rfl⟩
  refine (nt_verdict (nt_analyze hk s rfl .zero ?_) h (mapSpan_noPos _)).symm
  intro e _
  unfold throwErr
  cases s.span_range.valid s.input with
  | false => exact .inl rfl
  | true => exact .inr (by rw [if_pos (valid_zero _)]; rfl)

theorem no_span_panic {t : Str} {s : SchemaBlock} (h : parseDbmlUnchecked t = .ok s) :
    analyze s ≠ .panic .spanUnwrap := by
  intro h'
  refine C49_no_span_panic t ?_
  unfold parseDbml
  rw [h]
  change ((analyze s).bind fun _ => Rs.ok s) = _
  rw [h']
  rfl

/-- **C52.** Texts whose ASTs agree up to positions get the same verdict from `parse_dbml`: both are accepted, or
both are rejected with the same error, or both panic at the same place. -/
theorem C52_checks_ignore_positions (t t' : Str) (s s' : SchemaBlock) (h : parseDbmlUnchecked t = .ok s)
    (h' : parseDbmlUnchecked t' = .ok s')
    (hs : s.blocks.map (·.mapSpan noPos) = s'.blocks.map (·.mapSpan noPos)) :
    (parseDbml t).verdict = (parseDbml t').verdict := by
  rw [parse_verdict h, parse_verdict h', verdict_noPos (no_span_panic h), verdict_noPos (no_span_panic h'), hs]

/-- **C52, C44.** The verdict on a document does not depend on its layout: it is the verdict on the AST the
document stands for. -/
theorem C52_verdict_of_document (d : Doc) (hd : d.Ok) (t : Str) (h : Written d.toks t) :
    (parseDbml t).verdict = (analyze { blocks := d.ast }).verdict := by
  obtain ⟨s, h1, h2, -⟩ := C44_written_is_read d hd t h
  rw [parse_verdict h1, verdict_noPos (no_span_panic h1), h2]

/-- **C52, C44.** Two layouts of a document get the same verdict. -/
theorem C52_layout_irrelevant (d : Doc) (hd : d.Ok) (t t' : Str) (h : Written d.toks t) (h' : Written d.toks t') :
    (parseDbml t).verdict = (parseDbml t').verdict := by
  rw [C52_verdict_of_document d hd t h, C52_verdict_of_document d hd t' h']

/-- The error at its position in `w ++ t`: the two errors about the number of projects are reported at the whole
text, all others at a position that moves. -/
def PError.after (w t : Str) : PError → PError
  | .semantic .duplicateProjectSetting _ => .semantic .duplicateProjectSetting ⟨0, blen (w ++ t)⟩
  | .semantic .projectSettingNotFound _ => .semantic .projectSettingNotFound ⟨0, blen (w ++ t)⟩
  | e => e.mapSpan (Span.shift (blen w))

/-- The outcome for `w ++ t`, given the outcome for `t`. -/
def outcomeAfter (w t : Str) : Rs SchemaBlock → Rs SchemaBlock
  | .ok s => .ok ⟨⟨0, blen (w ++ t)⟩, w ++ t, s.blocks.map (·.mapSpan (Span.shift (blen w)))⟩
  | .err e => .err (PError.after w t e)
  | .panic k => .panic k
  | .diverge => .diverge

/-- **C42.** What `parse_dbml` says about a text does not depend on white space and comments in front of it, but
for the positions. -/
theorem C42_leading_trivia_checked (w t : Str) (hw : Blank w) :
    parseDbml (w ++ t) = outcomeAfter w t (parseDbml t) := by
  have h1 := C42_leading_trivia w t hw
  have hnp := C49_no_span_panic t
  unfold parseDbml at hnp ⊢
  rw [h1]
  cases h : parseDbmlUnchecked t with
  | err e =>
    show Rs.err (e.mapSpan _) = Rs.err (PError.after w t e)
    have := (C03_no_internal_errors h).2.1
    cases e with
    | semantic er sp => exact absurd rfl (this er sp)
    | _ => rfl
  | panic k => rfl
  | diverge => rfl
  | ok s =>
    rw [h] at hnp
    have hp := no_span_panic h
    obtain ⟨hsp, hi, -⟩ := C08_blocks_in_order h
    have hk : Keeps (Span.shift (blen w)) (PError.after w t) s.input (w ++ t) := by
      refine ⟨by simp [Span.shift], fun sp hv => valid_after w t sp (hi ▸ hv), ?_⟩
      intro e sp h1 h2
      cases e <;> first | rfl | exact absurd rfl h1 | exact absurd rfl h2
    have := nt_analyze hk s rfl ⟨0, blen (w ++ t)⟩ (by
      intro e he
      unfold throwErr
      rw [hsp, hi, if_pos (valid_whole _), if_pos (valid_whole _)]
      rcases he with rfl | rfl <;> exact .inr rfl)
    rcases this with hpp | heq
    · exact absurd hpp hp
    · show (Rs.bind (analyze _) fun _ => Rs.ok _) = outcomeAfter w t (Rs.bind (analyze s) fun _ => Rs.ok s)
      rw [heq]
      cases analyze s <;> rfl

theorem isBoundary_before (w t : Str) : ∀ n, isBoundary (t ++ w) n = true → n ≤ blen t → isBoundary t n = true := by
  induction t with
  | nil => intro n _ h; simp only [blen] at h; obtain rfl := Nat.le_zero.1 h; rfl
  | cons c t ih =>
    intro n h hn
    cases n with
    | zero => rfl
    | succ n =>
      rw [List.cons_append, isBoundary] at h
      rw [isBoundary]
      split at h
      · rw [if_pos (by assumption)]
        simp only [blen] at hn
        exact ih _ h (by omega)
      · contradiction

theorem isBoundary_cut (w t : Str) (n : Nat) (h : isBoundary (t ++ w) n = true) : isBoundary t (min n (blen t)) = true := by
  by_cases hn : n ≤ blen t
  · rw [Nat.min_eq_left hn]; exact isBoundary_before w t n h hn
  · rw [Nat.min_eq_right (by omega)]; exact isBoundary_blen t

theorem valid_cut (w t : Str) (sp : Span) (h : sp.valid (t ++ w) = true) : (Span.cut (blen t) sp).valid t = true := by
  simp only [Span.valid, Span.cut, Bool.and_eq_true, decide_eq_true_eq] at h ⊢
  refine ⟨⟨?_, isBoundary_cut w t _ h.1.2⟩, isBoundary_cut w t _ h.2⟩
  have e : min sp.start (blen t) ≤ min sp.stop (blen t) := by have := h.1.1; omega
  exact decide_eq_true e

/-- **C42.** What `parse_dbml` says about a text does not depend on white space behind it, but for positions that
reach into the white space. -/
theorem C42_trailing_space_checked (t w : Str) (hw : ∀ c ∈ w, IsSpace c) :
    parseDbml t = (parseDbml (t ++ w)).relabel (Span.cut (blen t)) (fun s =>
      { span_range := ⟨0, blen t⟩, input := t, blocks := s.blocks.map (·.mapSpan (Span.cut (blen t))) }) := by
  have h1 := C42_trailing_space t w hw
  unfold parseDbml
  rw [h1]
  cases h : parseDbmlUnchecked (t ++ w) with
  | err e => rfl
  | panic k => rfl
  | diverge => rfl
  | ok s =>
    have hp := no_span_panic h
    obtain ⟨hsp, hi, -⟩ := C08_blocks_in_order h
    have hk : Keeps (Span.cut (blen t)) (PError.mapSpan (Span.cut (blen t))) s.input t :=
      ⟨by simp [Span.cut, Span.zero], fun sp hv => valid_cut w t sp (hi ▸ hv), fun _ _ _ _ => rfl⟩
    have := nt_analyze hk s rfl ⟨0, blen t⟩ (by
      intro e he
      unfold throwErr
      rw [hsp, hi, if_pos (valid_whole _), if_pos (valid_whole _)]
      refine .inr ?_
      simp [PError.mapSpan, Span.cut, blen_append])
    rcases this with hpp | heq
    · exact absurd hpp hp
    · show (Rs.bind (analyze _) fun _ => Rs.ok _) = Rs.relabel _ _ (Rs.bind (analyze s) fun _ => Rs.ok s)
      rw [heq]
      cases analyze s <;> rfl

/-- A witness: the positions of an error that do and do not reach into the white space. -/
example :
    parseDbml k!"Table a { id int }  " = .err (.semantic .projectSettingNotFound ⟨0, 20⟩) ∧
    parseDbml k!"Table a { id int }" = .err (.semantic .projectSettingNotFound ⟨0, 18⟩) := by
  have h1 : parseDbml (k!"Table a { id int }" ++ k!"  ") = .err (.semantic .projectSettingNotFound ⟨0, 20⟩) := by decide +kernel
  refine ⟨h1, ?_⟩
  rw [C42_trailing_space_checked k!"Table a { id int }" k!"  " (by decide), h1]; decide

/-- A witness of acceptance: the example text behind a comment. -/
example : ∃ s, parseDbml (k!"// c\n" ++ exText) = .ok s := by
  have h : Blank k!"// c\n" := .line (body := k!" c") (by decide) (.inl rfl) .nil
  rw [C42_leading_trivia_checked _ _ h, ex_accepted]
  exact ⟨_, rfl⟩

/-- A witness of rejection: a missing project is reported at the whole text, a duplicate column where it is. -/
example :
    parseDbml k!"Table a { id int }" = .err (.semantic .projectSettingNotFound ⟨0, 18⟩) ∧
    parseDbml (k!" " ++ k!"Table a { id int }") = .err (.semantic .projectSettingNotFound ⟨0, 19⟩) ∧
    parseDbml k!"Project p {} Table a { id int id int }" = .err (.semantic .duplicateColumnName ⟨30, 37⟩) ∧
    parseDbml (k!" " ++ k!"Project p {} Table a { id int id int }") = .err (.semantic .duplicateColumnName ⟨31, 38⟩) := by
  have h1 : parseDbml k!"Table a { id int }" = .err (.semantic .projectSettingNotFound ⟨0, 18⟩) := by decide +kernel
  have h2 : parseDbml k!"Project p {} Table a { id int id int }" =
    .err (.semantic .duplicateColumnName ⟨30, 37⟩) := by decide +kernel
  refine ⟨h1, ?_, h2, ?_⟩
  · rw [C42_leading_trivia_checked _ _ (.space (.inl rfl) .nil), h1]; decide
  · rw [C42_leading_trivia_checked _ _ (.space (.inl rfl) .nil), h2]; decide

/-- A witness for C52: the canonical text of the example document gets the verdict of its AST. -/
example : (parseDbml (render exDoc)).verdict = (analyze { blocks := exDoc.ast }).verdict :=
  C52_verdict_of_document exDoc exDoc_ok _ (render_written exDoc exDoc_printable)

end Dbml.Props
