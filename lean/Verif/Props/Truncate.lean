import Verif.Props.Language
import Verif.Props.Editing
import Verif.Props.Core
import Verif.Proofs.Truncate

/-!
# C68: truncated texts

If a text is accepted and a beginning of it is accepted too (a truncated file, or a file before something was appended
to it), then both have the same declarations, as far as the shorter one goes - except that its last declaration may be
a one-line ref without settings, or the note `''`, whose end was cut off.
-/

namespace Dbml.Props

open Spec Source Syntax

/-- **C68.** The declarations of a truncated text are declarations of the text, in the same order and at the same
place; only the last one may be different, if it is a one-line ref without settings (its name, left side and relation
are still the same) or a note whose text is `''`. -/
theorem C68_truncated (p q : Str) (sp st : SchemaBlock) (hp : parseDbmlUnchecked p = .ok sp)
    (ht : parseDbmlUnchecked (p ++ q) = .ok st) (hc : ¬ k!"/*" <:+: p ∨ '/' ∉ q) :
    sp.blocks.map (·.mapSpan noPos) <+: st.blocks.map (·.mapSpan noPos) ∨
    ∃ init b b' rest, sp.blocks.map (·.mapSpan noPos) = init ++ [b] ∧
      st.blocks.map (·.mapSpan noPos) = init ++ b' :: rest ∧ Continues b b' := by
  obtain ⟨d, hd, hw, ha⟩ := (C57_ast p _).1 ⟨sp, hp, rfl⟩
  obtain ⟨dt, hdt, hwt, hat⟩ := (C57_ast (p ++ q) _).1 ⟨st, ht, rfl⟩
  rw [← ha, ← hat]
  rcases List.eq_nil_or_concat d with rfl | ⟨d0, b, rfl⟩
  · exact .inl (List.nil_prefix)
  · rw [List.concat_eq_append] at hd hw ⊢
    obtain ⟨dt1, b', dt2, rfl, h1, h2⟩ := truncated (fun x hx => hd x (by simp [hx])) (hd b (by simp)) hdt hw hwt hc
    have e1 : Doc.ast (d0 ++ [b]) = Doc.ast d0 ++ [b.ast] := by simp [Doc.ast]
    have e2 : Doc.ast (dt1 ++ b' :: dt2) = Doc.ast dt1 ++ b'.ast :: Doc.ast dt2 := by simp [Doc.ast]
    rw [e1, e2, h1]
    rcases h2 with h2 | h2
    · exact .inl ⟨Doc.ast dt2, by simp [h2]⟩
    · exact .inr ⟨_, _, _, _, rfl, rfl, h2⟩

/-- Selecting some kind of declaration other than refs and notes. -/
theorem kept {β : Type} (f : TopLevelBlock → Option β) (g : β → β)
    (hf : ∀ b, f (b.mapSpan noPos) = (f b).map g) (hr : ∀ r, f (.ref r) = none) (hn : ∀ n, f (.note n) = none)
    {bs bs' : List TopLevelBlock} (h : bs.map (·.mapSpan noPos) <+: bs'.map (·.mapSpan noPos) ∨
      ∃ init b b' rest, bs.map (·.mapSpan noPos) = init ++ [b] ∧
        bs'.map (·.mapSpan noPos) = init ++ b' :: rest ∧ Continues b b') :
    (bs.filterMap f).map g <+: (bs'.filterMap f).map g := by
  have key : ∀ bs : List TopLevelBlock, (bs.filterMap f).map g = (bs.map (·.mapSpan noPos)).filterMap f := by
    intro bs
    rw [List.map_filterMap, List.filterMap_map]
    congr 1
    funext b
    exact (hf b).symm
  rw [key, key]
  rcases h with ⟨t, h⟩ | ⟨init, b, b', rest, h1, h2, h3⟩
  · exact ⟨t.filterMap f, by rw [← h]; simp⟩
  · rw [h1, h2]
    have hb : f b = none := by
      cases b <;> first | exact hr _ | exact hn _ | exact h3.elim
    exact ⟨(b' :: rest).filterMap f, by simp [hb]⟩

/-- **C68.** In particular no table, enum, project or table group is lost or changed by appending something to an
accepted text, if the result is accepted. -/
theorem C68_declarations_kept (p q : Str) (sp st : SchemaBlock) (hp : parseDbmlUnchecked p = .ok sp)
    (ht : parseDbmlUnchecked (p ++ q) = .ok st) (hc : ¬ k!"/*" <:+: p ∨ '/' ∉ q) :
    sp.tables.map (·.mapSpan noPos) <+: st.tables.map (·.mapSpan noPos) ∧
    sp.enums.map (·.mapSpan noPos) <+: st.enums.map (·.mapSpan noPos) ∧
    sp.table_groups.map (·.mapSpan noPos) <+: st.table_groups.map (·.mapSpan noPos) ∧
    sp.projects.map (·.mapSpan noPos) <+: st.projects.map (·.mapSpan noPos) := by
  have h := C68_truncated p q sp st hp ht hc
  refine ⟨kept _ _ ?_ ?_ ?_ h, kept _ _ ?_ ?_ ?_ h, kept _ _ ?_ ?_ ?_ h, kept _ _ ?_ ?_ ?_ h⟩ <;>
    first
    | (intro b; cases b <;> rfl)
    | (intro _; rfl)

/-- **C68.** The same for accepted schemas. -/
theorem C68_truncated_checked (p q : Str) (sp st : SchemaBlock) (hp : parseDbml p = .ok sp)
    (ht : parseDbml (p ++ q) = .ok st) (hc : ¬ k!"/*" <:+: p ∨ '/' ∉ q) :
    sp.blocks.map (·.mapSpan noPos) <+: st.blocks.map (·.mapSpan noPos) ∨
    ∃ init b b' rest, sp.blocks.map (·.mapSpan noPos) = init ++ [b] ∧
      st.blocks.map (·.mapSpan noPos) = init ++ b' :: rest ∧ Continues b b' :=
  C68_truncated p q sp st ((C33_accepts_iff_valid p sp).1 hp).1 ((C33_accepts_iff_valid _ st).1 ht).1 hc

/-! ## Concrete cases -/

def cutText : Str :=
  k!"Project p {}\nTable a { id int [pk]\nid2 int [unique] }\nTable b { x int }\nRef r: b.x > a.id"

def cutHead : Str := k!"Project p {}\nTable a { id int [pk]\nid2 int [unique] }\n"

/-- Cut in the middle of a name, the ref is another one, and both texts are accepted by `parse_dbml`. -/
theorem C68_ref_may_change : ∃ sp st, parseDbml cutText = .ok sp ∧ parseDbml (cutText ++ k!"2") = .ok st ∧
    sp.refs.map (·.rhs.compositions.map (·.to_string)) = [[k!"id"]] ∧
    st.refs.map (·.rhs.compositions.map (·.to_string)) = [[k!"id2"]] ∧
    sp.refs.map (·.lhs.table.to_string) = st.refs.map (·.lhs.table.to_string) := by
  refine ⟨_, _, parsed_of (by decide +kernel), parsed_of (by decide +kernel), ?_, ?_, ?_⟩ <;> decide +kernel

/-- A note `''` may become another note. -/
theorem C68_note_may_change : ∃ sp st, parseDbmlUnchecked k!"Note: ''" = .ok sp ∧
    parseDbmlUnchecked (k!"Note: ''" ++ k!"'abc'''") = .ok st ∧ sp.blocks.length = 1 ∧ st.blocks.length = 1 ∧
    sp.blocks.map (·.mapSpan noPos) ≠ st.blocks.map (·.mapSpan noPos) :=
  ⟨_, _, rfl, rfl, by decide +kernel, by decide +kernel, by decide +kernel⟩

/-- The condition on comments is needed: here the text of a table's setting becomes a comment. -/
theorem C68_comment_may_change : ∃ sp st, parseDbmlUnchecked k!"Table t [note: '/*'] { id int }" = .ok sp ∧
    parseDbmlUnchecked (k!"Table t [note: '/*'] { id int }" ++ k!"\nNote: '*/'] { id int }") = .ok st ∧
    sp.tables.map (·.mapSpan noPos) ≠ st.tables.map (·.mapSpan noPos) ∧ sp.blocks.length = 1 ∧ st.blocks.length = 1 :=
  ⟨_, _, rfl, rfl, by decide +kernel, by decide +kernel, by decide +kernel⟩

/-- The hypotheses are met by a text and its first three lines. -/
example : ∃ q sp st, cutHead ++ q = cutText ∧ parseDbmlUnchecked cutHead = .ok sp ∧
    parseDbmlUnchecked (cutHead ++ q) = .ok st ∧ ¬ k!"/*" <:+: cutHead ∧ sp.blocks.length = 2 ∧ st.blocks.length = 4 := by
  refine ⟨k!"Table b { x int }\nRef r: b.x > a.id", _, _, by decide +kernel, unchecked_of (by decide +kernel),
    unchecked_of (by decide +kernel), ?_, ?_, ?_⟩ <;> decide +kernel

end Dbml.Props
