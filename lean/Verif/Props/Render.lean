import Verif.Spec.Render
import Verif.Proofs.Render
import Verif.Props.LineCol
import Mathlib.Tactic.Tauto

/-!
# C76: the text of an error
-/

namespace Dbml.Props
open Dbml Spec

theorem shown_visible (l : Str) : shown true l = visualizeWhitespace l := rfl

theorem shown_plain (l : Str) : shown false l = stripLineBreaks l := by
  unfold shown stripLineBreaks
  simp only [Bool.false_eq_true, if_false]
  congr 1
  funext c
  by_cases h1 : c = '\r' <;> by_cases h2 : c = '\n' <;> simp [h1, h2]

theorem shown_eq (v : Bool) (l : Str) : (if v then visualizeWhitespace l else stripLineBreaks l) = shown v l := by
  cases v
  · rw [shown_plain]; rfl
  · rfl

theorem length_blanks (n : Nat) : (blanks n).length = n := List.length_replicate

theorem atLineStart_parts (u : Str) : ∃ a, u = a ++ lastLine u ∧ AtLineStart a ∧ '\n' ∉ lastLine u := lastLine_parts u

theorem restOfLine_first (v : Str) : RestOfLine (firstLine v) (afterLine v) := by
  rcases firstLine_form v with ⟨b, hb, e⟩ | ⟨hb, e⟩
  · exact .inl ⟨b, hb, e⟩
  · refine .inr ⟨by rwa [e], ?_⟩
    have := firstLine_after v
    rw [e] at this
    exact List.append_right_eq_self.1 this

theorem spacing_eq (q : Quote) : q.spacing = blanks q.spacing.length := by
  unfold Quote.spacing
  simp [blanks]

theorem natDigits_num (n : Nat) : F64.natDigits n = num n := rfl

theorem padNat_eq (w n : Nat) : padNat w n = numIn w n := rfl

theorem format_plain (q : Quote) (msg mark : Str) (h : q.underline = some mark) (hc : q.continued = none) :
    q.format msg = some (picture q.spacing.length q.start.1 q.start.2 q.line [] mark msg) := by
  have e : q.format msg = some (q.head ++ q.foot mark msg) := by
    unfold Quote.format
    rw [h, hc, Option.bind_some]
    cases q.stop <;> rfl
  rw [e]
  unfold picture
  rw [← spacing_eq q]
  unfold Quote.head Quote.foot
  rw [padNat_eq, natDigits_num]
  rw [natDigits_num]
  simp only [List.append_assoc]
  simp only [List.nil_append]

theorem format_more (q : Quote) (msg mark cont : Str) (e : Nat × Nat) (h : q.underline = some mark)
    (hs : q.stop = some e) (hc : q.continued = some cont) (hl : q.start.1 ≤ e.1) :
    q.format msg = some (picture q.spacing.length q.start.1 q.start.2 q.line
      (lastShown q.spacing.length q.start.1 e.1 cont) mark msg) := by
  have e1 : usizeSub e.1 q.start.1 = some (e.1 - q.start.1) := if_pos hl
  have e2 : (1 < e.1 - q.start.1) = (q.start.1 + 1 < e.1) := by rw [eq_iff_iff]; omega
  have e3 : q.format msg = some (q.head ++ (if 1 < e.1 - q.start.1 then q.spacing ++ k!" | ...\n" else []) ++
      padNat q.spacing.length e.1 ++ k!" | " ++ cont ++ k!"\n" ++ q.foot mark msg) := by
    unfold Quote.format
    rw [h, hc, hs, Option.bind_some]
    dsimp only
    rw [e1, Option.bind_some]
  rw [e3]
  unfold picture lastShown
  rw [← spacing_eq q]
  unfold Quote.head Quote.foot
  rw [padNat_eq, natDigits_num]
  rw [padNat_eq, natDigits_num]
  simp only [e2]
  simp only [List.append_assoc]

/-- **C76.** A syntax error shows the line `b ++ r` it is in and a marker after the text `b` of that line; line breaks are
seen only if the error is at one. -/
theorem C76_syntax (t : Str) (h : parseDbml t = .err .syntax) :
    ∃ a b r z l c brk, t = a ++ (b ++ (r ++ z)) ∧ syntaxErrorPos t = blen (a ++ b) ∧ AtLineStart a ∧ '\n' ∉ b ∧
      RestOfLine r z ∧ Place (a ++ b) l c ∧ (brk = true ↔ r.head? = some '\n' ∨ r.head? = some '\r') ∧
      PError.render t .syntax = some (picture (num l).length l c (shown brk (b ++ r)) []
        (under ((shown brk (b ++ r)).take b.length) ++ k!"^---") (PError.fullMessage t .syntax)) := by
  obtain ⟨u, v, l, c, h1, h2, h3, h4⟩ := C62_errors t _ h
  have h2 : syntaxErrorPos t = blen u := h2
  have h3 : lineCol t (syntaxErrorPos t) = some (l, c) := h3
  obtain ⟨a, ha, hs, hn⟩ := atLineStart_parts u
  have hc : c = 1 + (lastLine u).length := (place_unique h4).2
  have hhead : (firstLine v).head? = v.head? := by
    cases v with
    | nil => rfl
    | cons x v => unfold firstLine; split <;> rfl
  refine ⟨a, lastLine u, firstLine v, afterLine v, l, c, isLineBreak v.head?, ?_, ?_, hs, hn, restOfLine_first v, ?_, ?_, ?_⟩
  · rw [firstLine_after, ← List.append_assoc, ← ha, h1]
  · rw [← ha, h2]
  · rw [← ha]; exact h4
  · rw [hhead]; simp [isLineBreak]
  · unfold PError.render PError.quote
    simp only [PError.range, PError.start]
    unfold Quote.ofPos
    rw [h3, h2, h1]
    simp only [dropBytes_append, lineOf_eq, Option.bind_eq_bind, Option.bind_some, Option.pure_def, shown_eq]
    refine (format_plain _ _ (under ((shown (isLineBreak v.head?) (lastLine u ++ firstLine v)).take (lastLine u).length)
      ++ k!"^---") ?_ rfl).trans ?_
    · unfold Quote.underline
      have e1 : usizeSub c 1 = some (lastLine u).length := by
        unfold usizeSub
        rw [hc, if_pos (by omega), Nat.add_sub_cancel_left]
      simp only [e1, Option.bind_eq_bind, Option.bind_some, Option.pure_def]
      rfl
    · simp only [Quote.spacing, List.length_replicate]
      rfl

/-- `Quote.ofSpan` of a stretch of the text. -/
theorem quote_range (u m v : Str) (e : Nat × Nat) (hm : m ≠ [] ∨ u = [])
    (he : endLineCol (u ++ (m ++ v)) (blen u + blen m) = some e) :
    Quote.ofSpan (u ++ (m ++ v)) ⟨blen u, blen u + blen m⟩ = some
      { start := (1 + u.count '\n', 1 + (lastLine u).length), stop := some e,
        line := shown (decide (BreakAtEdge m)) ((textLines (lastLine u ++ (m ++ firstLine v))).headD []),
        continued := ((textLines (lastLine u ++ (m ++ firstLine v))).tail.getLast?).map fun l =>
          if BreakAtEdge m then l else shown true l } := by
  have hls := spanLines_eq ((u ++ (m ++ v)).length + 1) u m v (by simp only [List.length_append]; omega)
    (by rcases hm with hm | rfl
        · exact .inl (by simp [hm])
        · exact .inr rfl)
  have hsl : slice (u ++ (m ++ v)) ⟨blen u, blen u + blen m⟩ = m := by
    have := slice_mid u m v
    rwa [List.append_assoc, blen_append] at this
  have hv : (isLineBreak m.head? || isLineBreak m.tail.getLast?) = decide (BreakAtEdge m) := by
    rw [Bool.eq_iff_iff, decide_eq_true_iff]
    unfold BreakAtEdge isLineBreak
    cases m with
    | nil => simp
    | cons x m =>
      cases m with
      | nil => simp; tauto
      | cons y m =>
        simp only [Bool.or_eq_true, decide_eq_true_eq]
        simp only [List.head?_cons, List.tail_cons, List.getLast?_cons_cons]
        tauto
  unfold Quote.ofSpan
  rw [blen_append] at hls
  simp only [he, lineCol_append, hls, hsl, hv, Option.bind_eq_bind, Option.bind_some, Option.pure_def, shown_eq]
  congr 1
  simp only [Quote.mk.injEq, true_and]
  split
  · rename_i hb
    simp only [decide_eq_true_eq] at hb
    simp [hb]
  · rename_i hb
    simp only [decide_eq_true_eq] at hb
    simp only [hb, if_false]
    rfl

theorem hat_eq (n : Nat) : k!"^" ++ (if 1 < n then List.replicate (n - 2) '-' ++ k!"^" else []) = hat n := by
  unfold hat
  by_cases h : 1 < n
  · rw [if_pos h, if_neg (by omega)]; rfl
  · rw [if_neg h, if_pos (by omega)]; rfl

/-- The marker of a range from column `c` of the first line to column `c'` of the last one, under the first line as it is
shown. -/
def rangeMarker (line : Str) (c c' : Nat) : Str :=
  if c ≤ c' then under (line.take (c - 1)) ++ hat (c' - c) else under (line.take (c' - 2)) ++ hat (c + 2 - c')

theorem underline_range (q : Quote) (l' c' : Nat) (h : q.stop = some (l', c')) (h1 : 1 ≤ q.start.2) (h2 : 2 ≤ c') :
    q.underline = some (rangeMarker q.line q.start.2 c') := by
  unfold Quote.underline
  rw [h]
  simp only
  by_cases hc : c' < q.start.2
  · rw [if_pos hc]
    have e1 : usizeSub c' 1 = some (c' - 1) := if_pos (by omega)
    have e2 : usizeSub (c' - 1) 1 = some (c' - 2) := if_pos (by omega)
    have e3 : usizeSub (q.start.2 + 1) (c' - 1) = some (q.start.2 + 2 - c') := by
      unfold usizeSub; rw [if_pos (by omega)]; congr 1; omega
    simp only [e1, e2, e3, Option.bind_eq_bind, Option.bind_some, Option.pure_def]
    rw [rangeMarker, if_neg (show ¬ q.start.2 ≤ c' by omega), ← hat_eq, List.append_assoc]
    rfl
  · rw [if_neg hc]
    have e2 : usizeSub q.start.2 1 = some (q.start.2 - 1) := if_pos (by omega)
    have e3 : usizeSub c' q.start.2 = some (c' - q.start.2) := if_pos (by omega)
    simp only [e2, e3, Option.bind_eq_bind, Option.bind_some, Option.pure_def]
    rw [rangeMarker, if_pos (show q.start.2 ≤ c' by omega), ← hat_eq, List.append_assoc]
    rfl

/-- The general picture of an error with a range. -/
theorem render_range (t u m v : Str) (e : PError) (l' c' : Nat) (ht : t = u ++ (m ++ v))
    (hr : e.range = some ⟨blen u, blen u + blen m⟩) (hm : m ≠ [] ∨ u = [])
    (he : e.endLineCol t = some (l', c')) (hl : 1 + u.count '\n' ≤ l') (hc : 2 ≤ c') :
    ∃ brk : Bool, (brk = true ↔ BreakAtEdge m) ∧ e.render t = some (picture (num l').length (1 + u.count '\n')
      (1 + (lastLine u).length) (shown brk ((textLines (lastLine u ++ (m ++ firstLine v))).headD []))
      (match (textLines (lastLine u ++ (m ++ firstLine v))).tail.getLast? with
        | none => []
        | some last => lastShown (num l').length (1 + u.count '\n') l' (if brk then last else shown true last))
      (rangeMarker (shown brk ((textLines (lastLine u ++ (m ++ firstLine v))).headD [])) (1 + (lastLine u).length) c')
      (e.fullMessage t)) := by
  refine ⟨decide (BreakAtEdge m), by simp, ?_⟩
  have he' : endLineCol (u ++ (m ++ v)) (blen u + blen m) = some (l', c') := by
    unfold PError.endLineCol at he
    rw [hr, ht] at he
    exact he
  unfold PError.render PError.quote
  rw [hr]
  simp only
  rw [ht, quote_range u m v (l', c') hm he']
  simp only [Option.bind_eq_bind, Option.bind_some]
  have hsp : ∀ q : Quote, q.start.1 = 1 + u.count '\n' → q.stop = some (l', c') → q.spacing.length = (num l').length := by
    intro q h1 h2
    unfold Quote.spacing
    rw [h2, h1]
    simp only
    rw [Nat.max_eq_right hl, List.length_replicate]
    rfl
  cases hg : (textLines (lastLine u ++ (m ++ firstLine v))).tail.getLast? with
  | none =>
    rw [format_plain _ _ _ (underline_range _ l' c' rfl (show 1 ≤ 1 + _ by omega) hc) rfl, hsp _ rfl rfl]
  | some last =>
    rw [format_more _ _ _ _ (l', c') (underline_range _ l' c' rfl (show 1 ≤ 1 + _ by omega) hc) rfl rfl hl, hsp _ rfl rfl]
    simp only [decide_eq_true_eq]
/-- The range of an error and where it ends, for `render_range`. -/
theorem range_parts (t : Str) (e : PError) (h : parseDbml t = .err e) (he : e ≠ .syntax) :
    ∃ u m v l' c', t = u ++ (m ++ v) ∧ e.range = some ⟨blen u, blen u + blen m⟩ ∧ (m ≠ [] ∨ u = []) ∧
      e.endLineCol t = some (l', c') ∧ 1 + u.count '\n' ≤ l' ∧ 2 ≤ c' ∧
      ('\n' ∉ m → l' = 1 + u.count '\n' ∧ c' = (1 + (lastLine u).length) + max 1 m.length) := by
  rcases C62_end t e h he with ⟨u, m, x, v, l, c, h1, h2, h3, h4⟩ | ⟨h1, h2, h3⟩
  · obtain ⟨rfl, rfl⟩ := place_unique h3
    refine ⟨u, m ++ [x], v, _, _, by simpa using h1, h2, .inl (by simp), h4, ?_, by omega, ?_⟩
    · rw [List.count_append]; omega
    · intro hn
      have hn' : '\n' ∉ m := fun h => hn (by simp [h])
      rw [List.count_append, List.count_eq_zero.2 hn', lastLine_append_of_not_mem _ hn']
      refine ⟨rfl, ?_⟩
      simp only [List.length_append, List.length_cons, List.length_nil]
      omega
  · exact ⟨[], [], t, 1, 2, rfl, h1, .inr rfl, h3, by simp, by omega, fun _ => ⟨by simp, by simp [lastLine]⟩⟩

/-- **C76.** No error of `parse_dbml` crashes when it is displayed. -/
theorem C76_display_never_panics (t : Str) (e : PError) (h : parseDbml t = .err e) : ∃ out, e.render t = some out := by
  by_cases he : e = .syntax
  · subst he
    obtain ⟨a, b, r, z, l, c, brk, -, -, -, -, -, -, -, hr⟩ := C76_syntax t h
    exact ⟨_, hr⟩
  · obtain ⟨u, m, v, l', c', h1, h2, h3, h4, h5, h6, -⟩ := range_parts t e h he
    obtain ⟨brk, -, hr⟩ := render_range t u m v e l' c' h1 h2 h3 h4 h5 h6
    exact ⟨_, hr⟩

/-- **C76.** An error that points at a stretch `m` of one line, or at nothing (then it is at the beginning of the text),
shows that line, `b ++ m ++ r`, and a marker as wide as `m` after the text `b`; line breaks are seen only if the stretch
begins or ends with one. -/
theorem C76_one_line (t : Str) (e : PError) (h : parseDbml t = .err e) (he : e ≠ .syntax) (sp : Span)
    (hs : e.range = some sp) (hm : '\n' ∉ slice t sp) :
    ∃ a b m r z l c brk, t = a ++ (b ++ (m ++ (r ++ z))) ∧ sp = ⟨blen (a ++ b), blen (a ++ b ++ m)⟩ ∧
      AtLineStart a ∧ '\n' ∉ b ++ m ∧ RestOfLine r z ∧ Place (a ++ b) l c ∧ (m = [] → a ++ b = []) ∧
      (brk = true ↔ BreakAtEdge m) ∧
      e.render t = some (picture (num l).length l c (shown brk (b ++ (m ++ r))) []
        (under ((shown brk (b ++ (m ++ r))).take b.length) ++ hat m.length) (e.fullMessage t)) := by
  obtain ⟨u, m, v, l', c', h1, h2, h3, h4, h5, h6, h7⟩ := range_parts t e h he
  have hsp : sp = ⟨blen u, blen u + blen m⟩ := by rw [hs] at h2; injection h2
  have hsl : slice t sp = m := by
    have := slice_mid u m v
    rw [List.append_assoc, blen_append] at this
    rw [h1, hsp, this]
  rw [hsl] at hm
  obtain ⟨rfl, rfl⟩ := h7 hm
  obtain ⟨brk, hb, hr⟩ := render_range t u m v e _ _ h1 h2 h3 h4 h5 h6
  obtain ⟨a, ha, hst, hn⟩ := atLineStart_parts u
  have hl : (textLines (lastLine u ++ (m ++ firstLine v))).headD [] = lastLine u ++ (m ++ firstLine v) ∧
      (textLines (lastLine u ++ (m ++ firstLine v))).tail = [] := by
    by_cases h0 : lastLine u ++ (m ++ firstLine v) = []
    · rw [h0]; exact ⟨rfl, rfl⟩
    · rw [textLines_first h0, firstLine_append_of_not_mem _ hn, firstLine_append_of_not_mem _ hm,
        afterLine_append_of_not_mem _ hn, afterLine_append_of_not_mem _ hm, afterLine_firstLine, firstLine_idem]
      exact ⟨rfl, rfl⟩
  rw [hl.1, hl.2] at hr
  refine ⟨a, lastLine u, m, firstLine v, afterLine v, 1 + u.count '\n', 1 + (lastLine u).length, brk, ?_, ?_, hst, ?_,
    restOfLine_first v, ?_, ?_, hb, ?_⟩
  · rw [firstLine_after, ← List.append_assoc, ← ha, h1]
  · rw [← ha, hsp, blen_append]
  · simp only [List.mem_append, not_or]; exact ⟨hn, hm⟩
  · rw [← ha]; exact place_of u
  · intro h0
    rw [← ha]
    rcases h3 with h3 | h3
    · exact absurd h0 h3
    · exact h3
  · rw [hr]
    simp only [List.getLast?_nil]
    rw [rangeMarker, if_pos (by omega)]
    have e1 : 1 + (lastLine u).length - 1 = (lastLine u).length := by omega
    have e2 : 1 + (lastLine u).length + max 1 m.length - (1 + (lastLine u).length) = max 1 m.length := by omega
    have e3 : hat (max 1 m.length) = hat m.length := by
      by_cases h1 : m.length ≤ 1
      · rw [Nat.max_eq_left h1, hat, hat, if_pos (by omega), if_pos h1]
      · rw [Nat.max_eq_right (by omega)]
    rw [e1, e2, e3]

/-- **C76.** An error that points at a stretch `m` of several lines shows the line where it begins and the last of the
lines `first :: more` (if there are more), with dots for those between; the lines are those from the line of the beginning to the
line of the end of the stretch. The numbers are those of the line and column of its beginning and of the line of its
last character. -/
theorem C76_several_lines (t : Str) (e : PError) (h : parseDbml t = .err e) (he : e ≠ .syntax) (sp : Span)
    (hs : e.range = some sp) (hm : '\n' ∈ slice t sp) :
    ∃ a b m r z first more l c l' c' brk, t = a ++ (b ++ (m ++ (r ++ z))) ∧ sp = ⟨blen (a ++ b), blen (a ++ b ++ m)⟩ ∧
      AtLineStart a ∧ '\n' ∉ b ∧ RestOfLine r z ∧ (first :: more).flatten = b ++ (m ++ r) ∧
      (∀ line ∈ first :: more, IsLine line) ∧ (∃ x, first = x ++ k!"\n") ∧
      Place (a ++ b) l c ∧ e.endLineCol t = some (l', c') ∧ l ≤ l' ∧ (brk = true ↔ BreakAtEdge m) ∧
      e.render t = some (picture (num l').length l c (shown brk first)
        (match more.getLast? with
          | none => []
          | some last => lastShown (num l').length l l' (if brk then last else shown true last))
        (rangeMarker (shown brk first) c c') (e.fullMessage t)) := by
  obtain ⟨u, m, v, l', c', h1, h2, h3, h4, h5, h6, -⟩ := range_parts t e h he
  have hsp : sp = ⟨blen u, blen u + blen m⟩ := by rw [hs] at h2; injection h2
  have hsl : slice t sp = m := by
    have := slice_mid u m v
    rw [List.append_assoc, blen_append] at this
    rw [h1, hsp, this]
  rw [hsl] at hm
  obtain ⟨brk, hb, hr⟩ := render_range t u m v e _ _ h1 h2 h3 h4 h5 h6
  obtain ⟨a, ha, hst, hn⟩ := atLineStart_parts u
  have h0 : lastLine u ++ (m ++ firstLine v) ≠ [] := by
    intro h0
    simp only [List.append_eq_nil_iff] at h0
    rw [h0.2.1] at hm
    simp at hm
  have hf := textLines_flatten (lastLine u ++ (m ++ firstLine v))
  have hform := textLines_form (lastLine u ++ (m ++ firstLine v))
  rw [textLines_first h0] at hr hf hform
  simp only [List.headD_cons, List.tail_cons] at hr
  have hfirst : ∃ x, firstLine (lastLine u ++ (m ++ firstLine v)) = x ++ k!"\n" := by
    rcases firstLine_form (lastLine u ++ (m ++ firstLine v)) with ⟨b, -, e⟩ | ⟨hb, e⟩
    · exact ⟨b, e⟩
    · exact absurd (by simp [hm]) hb
  refine ⟨a, lastLine u, m, firstLine v, afterLine v, _, _, _, _, l', c', brk, ?_, ?_, hst, hn, restOfLine_first v, hf, hform,
    hfirst, ?_, h4, h5, hb, hr⟩
  · rw [firstLine_after, ← List.append_assoc, ← ha, h1]
  · rw [← ha, hsp, blen_append]
  · rw [← ha]; exact place_of u

/-- **C76.** The marker stands where it should: if line breaks are seen, or the line has no carriage return before it, the blank
space in front of the marker is that of the text `b` in front of the place. -/
theorem C76_marker_in_place (brk : Bool) (b r : Str) (hb : '\n' ∉ b) (h : brk = true ∨ '\r' ∉ b) :
    (under ((shown brk (b ++ r)).take b.length)) = under b := by
  cases brk with
  | false =>
    have hr : '\r' ∉ b := by simpa using h
    have e : shown false (b ++ r) = b ++ shown false r := by
      simp only [shown, Bool.false_eq_true, if_false, List.filter_append]
      congr 1
      rw [List.filter_eq_self]
      intro c hc
      have h1 : c ≠ '\r' := fun h => hr (h ▸ hc)
      have h2 : c ≠ '\n' := fun h => hb (h ▸ hc)
      simp [h1, h2]
    rw [e, List.take_left']
    rfl
  | true =>
    have e : shown true (b ++ r) = shown true b ++ shown true r := by
      simp [shown]
    have el : (shown true b).length = b.length := by simp [shown]
    rw [e, List.take_left' el]
    simp only [shown, if_true, under, List.map_map]
    apply List.map_congr_left
    intro c hc
    have h2 : c ≠ '\n' := fun h => hb (h ▸ hc)
    by_cases h1 : c = '\r'
    · subst h1; rfl
    · simp [h1, h2]

/-! ## Concrete cases -/

/-- The text of the error of a text that `parse_dbml` rejects. -/
def shownError (t : Str) : Option Str :=
  match parseDbml t with
  | .err e => e.render t
  | _ => none

example : shownError k!"Project p { }\nTable t ( a int )" = some
    k!" --> 2:9\n  |\n2 | Table t ( a int )\n  |         ^---\n  |\n  = expected block_settings, table_block, or table_alias" := by
  decide +kernel
example : shownError k!"Project p { } Table t { a int a int }" = some
    k!" --> 1:31\n  |\n1 | Project p { } Table t { a int a int }\n  |                               ^----^\n  |\n  = Duplicate column name" := by
  decide +kernel
/-- Nothing to point at. -/
example : shownError k!"Project p { }\nTable x.t { a int [pk, ref: - u.a] }" = some
    k!" --> 1:1\n  |\n1 | Project p { }\n  | ^\n  |\n  = Schema not found" := by decide +kernel
/-- Several lines. -/
example : shownError k!"Table t {\n a int\n\n}" = some
    k!" --> 1:1\n  |\n1 | Table t {\n  | ...\n4 | }\n  | ^\n  |\n  = Project setting not found" := by decide +kernel
/-- A stretch that ends with a line break: the line after it is shown too, under the number of the line before. -/
example : shownError k!"Project p { }\nTable t { a int\n\ta int\n}" = some
    k!" --> 3:2\n  |\n3 | \ta int␊\n3 | }\n  | \t^----^\n  |\n  = Duplicate column name" := by decide +kernel

end Dbml.Props
