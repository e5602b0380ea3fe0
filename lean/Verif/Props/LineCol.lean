import Verif.Proofs.LineCol
import Verif.Proofs.Extent
import Verif.Props.ErrorPos
import Verif.Props.Positions

/-!
# C62: line and column of errors
-/

namespace Dbml.Props
open Dbml Spec Source Syntax

/-- The place after the text `u`, as a reader counts: `u` consists of complete lines and the beginning `last` of one more
line; lines and columns are counted from 1, columns in characters. -/
def Place (u : Str) (l c : Nat) : Prop :=
  ∃ lines last, u = lines ++ last ∧ (lines = [] ∨ ∃ x, lines = x ++ k!"\n") ∧ '\n' ∉ last ∧
    l = 1 + lines.count '\n' ∧ c = 1 + last.length

theorem lastLine_split : ∀ u : Str, ∃ lines, u = lines ++ lastLine u ∧ (lines = [] ∨ ∃ x, lines = x ++ k!"\n") ∧
    '\n' ∉ lastLine u
  | [] => ⟨[], rfl, .inl rfl, by simp [lastLine]⟩
  | a :: u => by
    rw [lastLine_cons]
    by_cases h : '\n' ∈ u
    · rw [if_pos h]
      obtain ⟨ls, e, h1, h2⟩ := lastLine_split u
      refine ⟨a :: ls, by rw [List.cons_append, ← e], .inr ?_, h2⟩
      rcases h1 with rfl | ⟨x, rfl⟩
      · rw [List.nil_append] at e; rw [← e] at h2; exact absurd h h2
      · exact ⟨a :: x, rfl⟩
    · rw [if_neg h]
      by_cases ha : a = '\n'
      · subst ha; rw [if_pos rfl]; exact ⟨k!"\n", rfl, .inr ⟨[], rfl⟩, h⟩
      · rw [if_neg ha]; exact ⟨[], rfl, .inl rfl, by simp only [List.mem_cons, not_or]; exact ⟨Ne.symm ha, h⟩⟩

theorem place_of (u : Str) : Place u (1 + u.count '\n') (1 + (lastLine u).length) := by
  obtain ⟨ls, e, h1, h2⟩ := lastLine_split u
  refine ⟨ls, lastLine u, e, h1, h2, ?_, rfl⟩
  conv => lhs; rw [e]
  rw [List.count_append, List.count_eq_zero.2 h2]
  rfl

theorem lastLine_place {ls last : Str} (h : ls = [] ∨ ∃ x, ls = x ++ k!"\n") (h2 : '\n' ∉ last) :
    lastLine (ls ++ last) = last := by
  rw [lastLine_append_of_not_mem _ h2]
  rcases h with rfl | ⟨x, rfl⟩
  · rfl
  · rw [lastLine_append_of_mem x (by simp)]; rfl

theorem place_unique {u : Str} {l c : Nat} (h : Place u l c) : l = 1 + u.count '\n' ∧ c = 1 + (lastLine u).length := by
  obtain ⟨ls, last, rfl, h1, h2, rfl, rfl⟩ := h
  rw [lastLine_place h1 h2, List.count_append, List.count_eq_zero.2 h2]
  exact ⟨rfl, rfl⟩

/-- **C62.** At every offset of a text between two characters, the line and column are those of the place after the text
before it. -/
theorem C62_line_col (t : Str) (n : Nat) (h : isBoundary t n = true) :
    ∃ u v l c, t = u ++ v ∧ n = blen u ∧ lineCol t n = some (l, c) ∧ Place u l c := by
  obtain ⟨u, v, rfl, rfl⟩ := boundary_split h
  exact ⟨u, v, _, _, rfl, rfl, lineCol_append u v, place_of u⟩

/-- **C62.** Different places of a text have different lines or columns: the line and column tell the offset. -/
theorem C62_line_col_injective (t : Str) (m n l c : Nat) (hm : lineCol t m = some (l, c)) (hn : lineCol t n = some (l, c)) :
    m = n := by
  have hb : ∀ k, lineCol t k = some (l, c) → isBoundary t k = true := by
    intro k hk
    unfold lineCol at hk
    split at hk
    · assumption
    · cases hk
  have key : ∀ u w : Str, lineCol (u ++ w ++ []) (blen u) = lineCol (u ++ w ++ []) (blen (u ++ w)) → w = [] := by
    intro u w h
    rw [List.append_assoc, lineCol_append u, ← List.append_assoc, lineCol_append (u ++ w)] at h
    injection h with h
    have h1 : u.count '\n' = (u ++ w).count '\n' := by have := congrArg Prod.fst h; dsimp only at this; omega
    have h2 : (lastLine u).length = (lastLine (u ++ w)).length := by have := congrArg Prod.snd h; dsimp only at this; omega
    rw [List.count_append] at h1
    have h3 : '\n' ∉ w := List.count_eq_zero.1 (by omega)
    rw [lastLine_append_of_not_mem u h3, List.length_append] at h2
    exact List.length_eq_zero_iff.1 (by omega)
  obtain ⟨u, v, e, rfl⟩ := boundary_split (hb m hm)
  obtain ⟨u', v', e', rfl⟩ := boundary_split (hb n hn)
  have hmn := hm.trans hn.symm
  rcases List.append_eq_append_iff.1 (e.symm.trans e') with ⟨w, hw, hv⟩ | ⟨w, hw, hv⟩
  · subst hw
    rw [e, lineCol_append u, hv, ← List.append_assoc, lineCol_append (u ++ w)] at hmn
    have := key u w (by rw [List.append_assoc, lineCol_append u, ← List.append_assoc, lineCol_append (u ++ w)]; exact hmn)
    simp [this]
  · subst hw
    rw [e', lineCol_append u', hv, ← List.append_assoc, lineCol_append (u' ++ w)] at hmn
    have := key u' w
      (by rw [List.append_assoc, lineCol_append u', ← List.append_assoc, lineCol_append (u' ++ w)]; exact hmn.symm)
    simp [this]

/-- Every error of `parse_dbml` starts at an offset of the text. -/
theorem error_start {t : Str} {e : PError} (h : parseDbml t = .err e) : isBoundary t (e.start t) = true := by
  rcases C35_errors_truthful h with h | ⟨s, er, sp, -, rfl, -, hv⟩
  · rcases C03_parse_errors h with rfl | hr
    · exact (C59_position_valid t h).2
    · have key : ∀ {q : Piece}, Sub q ⟨0, t⟩ → isBoundary t q.span.start = true := by
        rintro q ⟨pre, post, e, hp⟩
        have e : t = pre ++ (q.txt ++ post) := e
        show isBoundary t q.pos = true
        rw [hp, e]
        show isBoundary _ (0 + blen pre) = true
        rw [Nat.zero_add]
        exact isBoundary_append _ _
      cases hr <;> exact key (by assumption)
  · simp only [Span.valid, Bool.and_eq_true] at hv
    exact hv.1.2

/-- **C62.** Every error of `parse_dbml` has a line and column, those of a place of the text. -/
theorem C62_errors (t : Str) (e : PError) (h : parseDbml t = .err e) :
    ∃ u v l c, t = u ++ v ∧ e.start t = blen u ∧ e.lineCol t = some (l, c) ∧ Place u l c :=
  C62_line_col t _ (error_start h)

/-- The error is about the number of projects, or has no place of its own (see `Span.shift`). -/
def PError.Placeless : PError → Prop
  | .semantic .duplicateProjectSetting _ | .semantic .projectSettingNotFound _ => True
  | .semantic _ sp | .msg _ sp | .rules _ sp => sp = .zero
  | .syntax => False

/-- **C62.** Lines of white space and comments in front of a text move its errors down by their number and leave the
columns as they are. -/
theorem C62_lines_in_front (w t : Str) (hw : Blank (w ++ k!"\n")) (e : PError) (l c : Nat) (h : parseDbml t = .err e)
    (hp : ¬ PError.Placeless e) (hl : e.lineCol t = some (l, c)) :
    ∃ e', parseDbml (w ++ k!"\n" ++ t) = .err e' ∧ e'.mapSpan noPos = e.mapSpan noPos ∧
      e'.lineCol (w ++ k!"\n" ++ t) = some (l + (w.count '\n' + 1), c) := by
  refine ⟨PError.after (w ++ k!"\n") t e, by rw [C42_leading_trivia_checked _ _ hw, h]; rfl, ?_, ?_⟩
  · cases e with
    | semantic e sp => cases e <;> first | rfl | exact absurd trivial hp
    | _ => rfl
  · obtain ⟨u, v, l', c', e1, e2, e3, e4⟩ := C62_errors t e h
    have hs : (PError.after (w ++ k!"\n") t e).start (w ++ k!"\n" ++ t) = blen (w ++ k!"\n") + e.start t := by
      have hz : ∀ sp : Span, sp ≠ .zero → (Span.shift (blen (w ++ k!"\n")) sp).start = blen (w ++ k!"\n") + sp.start := by
        intro sp hz
        simp [Span.shift, hz, Nat.add_comm]
      cases e with
      | semantic e sp =>
        cases e <;> first | exact absurd trivial hp | exact hz sp (fun h0 => hp h0)
      | msg m sp => exact hz sp (fun h0 => hp h0)
      | rules m sp => exact hz sp (fun h0 => hp h0)
      | «syntax» =>
        show syntaxErrorPos _ = _ + syntaxErrorPos t
        refine C59_leading_trivia _ t hw ?_
        rcases C35_errors_truthful h with h | ⟨s, er, sp, -, he, -⟩
        · exact h
        · cases he
    unfold PError.lineCol at hl e3 ⊢
    rw [hs, e2, ← blen_append]
    rw [e2] at hl e3
    rw [e1] at hl ⊢
    rw [← List.append_assoc, lineCol_append]
    rw [lineCol_append] at hl
    injection hl with hl
    obtain ⟨rfl, rfl⟩ := Prod.mk.inj hl
    have hla : (lastLine (w ++ k!"\n" ++ u)).length = (lastLine u).length := by
      by_cases hu : '\n' ∈ u
      · rw [lastLine_append_of_mem _ hu]
      · rw [lastLine_append_of_not_mem _ hu, lastLine_append_of_mem w (by simp), lastLine_of_not_mem hu]
        rfl
    rw [hla]
    congr 2
    simp [List.count_append]
    omega

/-! ## Where errors end -/

theorem lastLine_snoc (u : Str) (x : Char) : lastLine (u ++ [x]) = if x = '\n' then [] else lastLine u ++ [x] := by
  by_cases hx : x = '\n'
  · subst hx; rw [if_pos rfl, lastLine_append_of_mem u (by simp)]; rfl
  · rw [if_neg hx, lastLine_append_of_not_mem u (by simpa using Ne.symm hx)]

theorem endLineCol_snoc (u v : Str) (x : Char) : endLineCol (u ++ [x] ++ v) (blen (u ++ [x])) =
    some (1 + u.count '\n', 1 + (lastLine u).length + 1) := by
  unfold endLineCol
  rw [lineCol_append]
  have hs : skipBack (u ++ [x] ++ v) (blen (u ++ [x])) = blen u := by
    unfold skipBack
    rw [takeBytes_append, List.getLast?_append]
    simp [blen_append, blen]
  have h1 : lineCol (u ++ [x] ++ v) (blen u) = some (1 + u.count '\n', 1 + (lastLine u).length) := by
    rw [List.append_assoc]; exact lineCol_append u _
  rw [hs, h1, lastLine_snoc]
  by_cases hx : x = '\n'
  · subst hx; simp
  · rw [if_neg hx]
    simp [hx, List.count_append, Nat.add_assoc]

theorem endLineCol_zero (t : Str) : endLineCol t 0 = some (1, 2) := by
  have h : lineCol t 0 = some (1, 1) := by
    have := lineCol_append [] t
    simpa [blen, lastLine] using this
  have hs : skipBack t 0 = 0 := by
    unfold skipBack
    split <;> simp
  unfold endLineCol
  rw [h, hs]
  simp [h]

/-- The kinds of errors that point at the whole text. -/
def AboutProjects : PError → Prop
  | .semantic .duplicateProjectSetting _ | .semantic .projectSettingNotFound _ => True
  | _ => False

/-- **C62.** Every error of `parse_dbml` but a syntax error has a range, which is a stretch `m` of the text. It is
empty only for an error without a place of its own, at the beginning of the text. -/
theorem C62_range (t : Str) (e : PError) (h : parseDbml t = .err e) (he : e ≠ .syntax) :
    ∃ u m v, t = u ++ (m ++ v) ∧ e.range = some ⟨blen u, blen u + blen m⟩ ∧
      (m = [] → u = [] ∧ PError.Placeless e) ∧ (AboutProjects e → m = t) := by
  have key : ∀ {q : Piece}, Sub q ⟨0, t⟩ → q.txt ≠ [] → ∃ u m v, t = u ++ (m ++ v) ∧
      (some q.span : Option Span) = some ⟨blen u, blen u + blen m⟩ ∧ m ≠ [] := by
    intro q hq hn
    obtain ⟨u, m, v, h1, h2, h3⟩ := solid_of_sub hq hn
    exact ⟨u, m, v, h1, by rw [h2], h3⟩
  rcases C35_errors_truthful h with h | ⟨s, er, sp, hp, rfl, hd, hv⟩
  · rcases C03_parse_errors h with rfl | hr
    · exact absurd rfl he
    · cases hr with
      | intTooLarge hs hd =>
        obtain ⟨u, m, v, h1, h2, h3⟩ := key hs hd.1
        exact ⟨u, m, v, h1, h2, fun h => absurd h h3, False.elim⟩
      | arrayTooLarge hs hd =>
        obtain ⟨u, m, v, h1, h2, h3⟩ := key hs hd.1
        exact ⟨u, m, v, h1, h2, fun h => absurd h h3, False.elim⟩
      | badAction hs hd =>
        obtain ⟨u, m, v, h1, h2, h3⟩ := key hs (AttributeD.ne hd)
        exact ⟨u, m, v, h1, h2, fun h => absurd h h3, False.elim⟩
      | badIndexType hs hd =>
        obtain ⟨u, m, v, h1, h2, h3⟩ := key hs (AttributeD.ne hd)
        exact ⟨u, m, v, h1, h2, fun h => absurd h h3, False.elim⟩
  · by_cases hpr : er = .duplicateProjectSetting ∨ er = .projectSettingNotFound
    · have hsp : sp = ⟨0, blen t⟩ := by
        have hs := (C08_blocks_in_order hp).1
        rw [← hs]
        exact project_error_span hd.defect hpr
      subst hsp
      refine ⟨[], t, [], by simp, by simp [PError.range, blen], fun _ => ⟨rfl, ?_⟩, fun _ => rfl⟩
      rcases hpr with rfl | rfl <;> trivial
    · have hna : ¬ AboutProjects (.semantic er sp) := by
        intro ha
        cases er <;> first | exact ha | exact hpr (by simp)
      by_cases hz : sp = .zero
      · subst hz
        refine ⟨[], [], t, rfl, rfl, fun _ => ⟨rfl, ?_⟩, fun ha => absurd ha hna⟩
        cases er <;> first | trivial | rfl
      · rw [not_or] at hpr
        obtain ⟨u, m, v, h1, h2, h3⟩ := defect_solid (denotes hp) hd.defect hpr hz
        exact ⟨u, m, v, h1, by rw [PError.range, h2], fun h => absurd h h3, fun ha => absurd ha hna⟩

/-- **C62.** The end of the range of an error is reported just after its last character, on the line of that
character - also if the character is a line break. An error with an empty range is reported from line 1, column 1 to
line 1, column 2. -/
theorem C62_end (t : Str) (e : PError) (h : parseDbml t = .err e) (he : e ≠ .syntax) :
    (∃ u m x v l c, t = u ++ (m ++ (x :: v)) ∧ e.range = some ⟨blen u, blen u + blen (m ++ [x])⟩ ∧
      Place (u ++ m) l c ∧ e.endLineCol t = some (l, c + 1)) ∨
    (e.range = some ⟨0, 0⟩ ∧ e.lineCol t = some (1, 1) ∧ e.endLineCol t = some (1, 2)) := by
  obtain ⟨u, m, v, h1, h2, h3, -⟩ := C62_range t e h he
  rcases List.eq_nil_or_concat m with rfl | ⟨m, x, rfl⟩
  · obtain ⟨rfl, -⟩ := h3 rfl
    refine .inr ⟨h2, ?_, by rw [PError.endLineCol, h2]; exact endLineCol_zero t⟩
    have : e.start t = 0 := by
      cases e with
      | «syntax» => exact absurd rfl he
      | _ => injection h2 with h2; simp [PError.start, h2, blen]
    unfold PError.lineCol
    rw [this]
    have := lineCol_append [] t
    simpa [blen, lastLine] using this
  · refine .inl ⟨u, m, x, v, _, _, by simpa using h1, by simpa using h2, place_of _, ?_⟩
    rw [PError.endLineCol, h2]
    have := endLineCol_snoc (u ++ m) v x
    rw [h1]
    simpa [blen_append, Nat.add_assoc] using this

/-- **C62.** No error ends before it begins: the end is on a later line, or in a later column of the same line. -/
theorem C62_end_after_start (t : Str) (e : PError) (l c l' c' : Nat) (h : parseDbml t = .err e)
    (hs : e.lineCol t = some (l, c)) (he : e.endLineCol t = some (l', c')) : l < l' ∨ (l = l' ∧ c < c') := by
  by_cases hn : e = .syntax
  · subst hn; cases he
  obtain ⟨u1, v1, l1, c1, h1, h2, h3, h4⟩ := C62_errors t e h
  rcases C62_end t e h hn with ⟨u, m, x, v, l2, c2, h5, h6, h7, h8⟩ | ⟨h5, h6, h7⟩
  · have hu : u1 = u := by
      have hb : blen u1 = blen u := by
        rw [← h2]
        cases e with
        | «syntax» => exact absurd rfl hn
        | _ => injection h6 with h6; simp [PError.start, h6]
      have := takeBytes_append u1 v1
      rw [← h1, hb, h5, takeBytes_append] at this
      exact this.symm
    subst hu
    rw [hs] at h3
    rw [he] at h8
    injection h3 with h3
    injection h8 with h8
    obtain ⟨rfl, rfl⟩ := Prod.mk.inj h3
    obtain ⟨rfl, rfl⟩ := Prod.mk.inj h8
    obtain ⟨rfl, rfl⟩ := place_unique h4
    obtain ⟨rfl, rfl⟩ := place_unique h7
    by_cases hm : '\n' ∈ m
    · left
      rw [List.count_append]
      have := List.count_pos_iff.2 hm
      omega
    · right
      rw [List.count_append, List.count_eq_zero.2 hm, lastLine_append_of_not_mem _ hm, List.length_append]
      omega
  · rw [hs] at h6
    rw [he] at h7
    injection h6 with h6
    injection h7 with h7
    cases h6
    cases h7
    exact .inr ⟨rfl, by decide⟩

/-! ## Concrete cases -/

/-- The error message, line and column of a text that `parse_dbml` rejects. -/
def report (t : Str) : Option (Nat × Nat) :=
  match parseDbml t with
  | .err e => e.lineCol t
  | _ => none

/-- A semantic error in the second line, after a two-byte character and a Windows line break. -/
example : report k!"Project é { }\r\nTable t { a int a int }" = some (1, 9) := by decide +kernel
example : report k!"Project \"é\" { }\r\nTable t { a int a int }" = some (2, 17) := by decide +kernel
example : report k!"Project \"é\" { } Table t { a int a int }" = some (1, 33) := by decide +kernel
/-- A syntax error. -/
example : report k!"Project p { }\n\nTable t ( a int )" = some (3, 9) := by decide +kernel
/-- The hypotheses of `C62_lines_in_front` are met. -/
example : Blank (k!"// a comment\n" ++ k!"\n") ∧ ∃ e, parseDbml k!"Project p { } Table t { a int a int }" = .err e ∧
    ¬ PError.Placeless e ∧ e.lineCol k!"Project p { } Table t { a int a int }" = some (1, 31) := by
  refine ⟨.line (body := k!" a comment") (by decide) (.inl rfl) (.space (.inr (.inr (.inl rfl))) .nil),
    .semantic .duplicateColumnName ⟨30, 36⟩, by decide +kernel, ?_, by decide +kernel⟩
  rintro ⟨⟩

/-- An error without a place of its own is reported at the beginning of the text: here the schema of a ref that
names none. -/
example : parseDbml k!"Project p { }\nTable x.t { a int [pk, ref: - u.a] }" = .err (.semantic .schemaNotFound .zero) := by
  decide +kernel
example : report k!"Project p { }\nTable x.t { a int [pk, ref: - u.a] }" = some (1, 1) := by decide +kernel

/-- The line and column where the error of a text ends. -/
def reportEnd (t : Str) : Option (Nat × Nat) :=
  match parseDbml t with
  | .err e => e.endLineCol t
  | _ => none

/-- The end of a range on one line, of a name whose recorded range includes the line break after it, and of an error without a place. -/
example : reportEnd k!"Project \"é\" { }\r\nTable t { a int a int }" = some (2, 23) := by decide +kernel
example : report k!"Project p { } Table t { } Table t\n{ }" = some (1, 33) ∧
    reportEnd k!"Project p { } Table t { } Table t\n{ }" = some (1, 35) := by decide +kernel
example : report k!"" = some (1, 1) ∧ reportEnd k!"" = some (1, 2) := by decide +kernel
example : reportEnd k!"Project p { }\nTable x.t { a int [pk, ref: - u.a] }" = some (1, 2) := by decide +kernel

end Dbml.Props
