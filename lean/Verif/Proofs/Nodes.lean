import Verif.Proofs.Spans
import Verif.Spec.Nodes

/-!
# Every node of a parsed AST is denoted by a part of the text
-/

namespace Dbml
open Syntax Spec

/-- Some part of the piece denotes `x`. -/
def Has {α : Type} (p : Piece) (D : Piece → α → Prop) (x : α) : Prop := ∃ q, Sub q p ∧ D q x

theorem Has.self {α} {p} {D : Piece → α → Prop} {x} (h : D p x) : Has p D x := ⟨p, .refl p, h⟩
theorem Has.up {α} {q p} {D : Piece → α → Prop} {x} (hs : Sub q p) (h : Has q D x) : Has p D x := by
  obtain ⟨r, h1, h2⟩ := h
  exact ⟨r, h1.trans hs, h2⟩
theorem Has.bind {α β} {p} {D : Piece → α → Prop} {D' : Piece → β → Prop} {x y} (h : Has p D x)
    (hd : ∀ q, D q x → Has q D' y) : Has p D' y := by
  obtain ⟨q, h1, h2⟩ := h
  exact (hd q h2).up h1

theorem each_mem {α} {D : Piece → α → Prop} {ms xs} (h : Each D ms xs) : ∀ x ∈ xs, ∃ m ∈ ms, D m x := by
  induction h with
  | nil => simp
  | @cons m ms x xs h1 _ ih =>
    intro y hy
    rcases List.mem_cons.1 hy with rfl | hy
    · exact ⟨m, by simp, h1⟩
    · obtain ⟨m', h2, h3⟩ := ih y hy
      exact ⟨m', by simp [h2], h3⟩

theorem has_many {α g} {D : Piece → α → Prop} {p xs} (h : ManyD g D p xs) : ∀ x ∈ xs, Has p D x := by
  intro x hx
  obtain ⟨ms, hm, he⟩ := h
  obtain ⟨m, h1, h2⟩ := each_mem he x hx
  exact ⟨m, many_sub hm m h1, h2⟩

theorem has_comma {α g} {D : Piece → α → Prop} {p xs} (h : CommaD g D p xs) : ∀ x ∈ xs, Has p D x := by
  obtain ⟨first, more, x, xs', hp, hx, hm, rfl⟩ := h
  intro y hy
  rcases List.mem_cons.1 hy with rfl | hy
  · exact ⟨first, parts_sub hp first (by simp), hx⟩
  · refine .up (parts_sub hp more (by simp)) ((has_many hm y hy).bind ?_)
    rintro q ⟨c, i, hp, -, hi⟩
    exact ⟨i, parts_sub hp i (by simp), hi⟩

theorem has_list {α g op cl} {D : Piece → α → Prop} {p xs} (h : ListD g op cl D p xs) :
    ∀ x ∈ xs, Has p D x := by
  obtain ⟨l, mid, r, hp, -, -, ⟨-, rfl⟩ | hc⟩ := h
  · simp
  · intro x hx; exact (has_comma hc x hx).up (parts_sub hp mid (by simp))

theorem has_braced {α} {D : Piece → α → Prop} {p xs} (h : BracedD D p xs) : ∀ x ∈ xs, Has p D x := by
  obtain ⟨l, mid, r, hp, -, -, hc⟩ := h
  intro x hx; exact (has_many hc x hx).up (parts_sub hp mid (by simp))

theorem has_opt {α} {D : Piece → α → Prop} {p o} (h : OptD D p o) : ∀ x, o = some x → D p x := by
  rcases h with ⟨-, rfl⟩ | ⟨a, h, rfl⟩
  · simp
  · intro x hx; cases hx; exact h

variable {input : Str} {s : SchemaBlock}

theorem has_block (h : SchemaD input s) : ∀ b ∈ s.blocks, Has ⟨0, input⟩ BlockD b := by
  obtain ⟨st, de, sp, hp, -, -, hm, -, -⟩ := h
  intro b hb
  exact (has_many hm b hb).up (parts_sub hp de (by simp))

theorem has_project (h : SchemaD input s) : ∀ b ∈ s.projects, Has ⟨0, input⟩ ProjectD b := by
  intro b hb
  obtain ⟨t, ht, hb⟩ := List.mem_filterMap.1 hb
  cases t <;> simp at hb
  subst hb; exact has_block h _ ht

theorem has_table (h : SchemaD input s) : ∀ b ∈ s.tables, Has ⟨0, input⟩ TableD b := by
  intro b hb
  obtain ⟨t, ht, hb⟩ := List.mem_filterMap.1 hb
  cases t <;> simp at hb
  subst hb; exact has_block h _ ht

theorem has_group (h : SchemaD input s) : ∀ b ∈ s.table_groups, Has ⟨0, input⟩ GroupD b := by
  intro b hb
  obtain ⟨t, ht, hb⟩ := List.mem_filterMap.1 hb
  cases t <;> simp at hb
  subst hb; exact has_block h _ ht

theorem has_ref (h : SchemaD input s) : ∀ b ∈ s.refs, Has ⟨0, input⟩ RefD b := by
  intro b hb
  obtain ⟨t, ht, hb⟩ := List.mem_filterMap.1 hb
  cases t <;> simp at hb
  subst hb; exact has_block h _ ht

theorem has_enum (h : SchemaD input s) : ∀ b ∈ s.enums, Has ⟨0, input⟩ EnumD b := by
  intro b hb
  obtain ⟨t, ht, hb⟩ := List.mem_filterMap.1 hb
  cases t <;> simp at hb
  subst hb; exact has_block h _ ht

theorem has_topNote (h : SchemaD input s) : ∀ b ∈ topNotes s, Has ⟨0, input⟩ NoteD b := by
  intro b hb
  obtain ⟨t, ht, hb⟩ := List.mem_filterMap.1 hb
  cases t <;> simp at hb
  subst hb; exact has_block h _ ht

theorem has_declIdent {p sc n} (h : DeclIdentD p sc n) :
    Has p (IdentD .loose) n ∧ ∀ i, sc = some i → Has p (IdentD .loose) i := by
  obtain ⟨a, b, hp, ⟨-, rfl, hi⟩ | ⟨dot, n', s, hp2, -, hsi, rfl, hi⟩⟩ := h
  · exact ⟨⟨a, parts_sub hp a (by simp), hi⟩, by simp⟩
  · refine ⟨⟨n', (parts_sub hp2 n' (by simp)).trans (parts_sub hp b (by simp)), hi⟩, ?_⟩
    intro i hi; cases hi
    exact ⟨a, parts_sub hp a (by simp), hsi⟩

theorem has_column (h : SchemaD input s) : ∀ c ∈ columns s, Has ⟨0, input⟩ ColumnD c := by
  intro c hc
  obtain ⟨t, ht, hc⟩ := List.mem_flatMap.1 hc
  refine (has_table h t ht).bind ?_
  rintro q ⟨kw, name, al, st, blk, items, hp, -, -, -, -, -, hb, -, e, -, -⟩
  rw [e] at hc
  obtain ⟨it, hit, hc⟩ := List.mem_filterMap.1 hc
  cases it <;> simp [TableItem.col?] at hc
  subst hc
  exact (has_braced hb _ hit).up (parts_sub hp blk (by simp))

theorem has_colSettings (h : SchemaD input s) : ∀ c ∈ columnSettings s, Has ⟨0, input⟩ ColSettingsD c := by
  intro c hc
  obtain ⟨t, ht, hc⟩ := List.mem_filterMap.1 hc
  refine (has_column h t ht).bind ?_
  rintro q ⟨n, ty, st, hp, -, -, ho, -⟩
  exact (Has.self (has_opt ho c hc)).up (parts_sub hp st (by simp))

theorem has_colType (h : SchemaD input s) : ∀ c ∈ columns s, Has ⟨0, input⟩ ColTypeD c.type := by
  intro c hc
  refine (has_column h c hc).bind ?_
  rintro q ⟨n, ty, st, hp, -, ht, -, -⟩
  exact ⟨ty, parts_sub hp ty (by simp), ht⟩

theorem has_refInline (h : SchemaD input s) : ∀ r ∈ refInlines s, Has ⟨0, input⟩ RefInlineD r := by
  intro r hr
  obtain ⟨t, ht, hr⟩ := List.mem_flatMap.1 hr
  refine (has_colSettings h t ht).bind ?_
  rintro q ⟨items, hb, -, -, e, -⟩
  rw [e] at hr
  obtain ⟨it, hit, hc⟩ := List.mem_filterMap.1 hr
  cases it <;> simp [ColItem.ref?] at hc
  subst hc
  exact has_list hb _ hit

theorem has_indexDef (h : SchemaD input s) : ∀ d ∈ indexDefs s, Has ⟨0, input⟩ IndexDefD d := by
  intro d hd
  obtain ⟨ib, hib, hd⟩ := List.mem_flatMap.1 hd
  obtain ⟨t, ht, hib⟩ := List.mem_filterMap.1 hib
  refine (has_table h t ht).bind ?_
  rintro q ⟨kw, name, al, st, blk, items, hp, -, -, -, -, -, hb, -, -, -, e⟩
  rw [e] at hib
  have := List.mem_of_getLast? hib
  obtain ⟨it, hit, hc⟩ := List.mem_filterMap.1 this
  cases it <;> simp [TableItem.indexes?] at hc
  subst hc
  refine .up (parts_sub hp blk (by simp)) ((has_braced hb _ hit).bind ?_)
  rintro m ⟨kw, blk, hp, -, -, hb⟩
  exact (has_braced hb _ hd).up (parts_sub hp blk (by simp))

theorem has_indexCol {p d} (h : IndexDefD p d) : ∀ c ∈ d.cols, Has p IndexColD c := by
  obtain ⟨-, ⟨col, st, c, hp, hc, e, -⟩ | ⟨l, mid, r, st, hp, -, -, hc, -⟩⟩ := h
  · rw [e]; simp only [List.mem_singleton, forall_eq]
    exact ⟨col, parts_sub hp col (by simp), hc⟩
  · rcases hc with ⟨-, e⟩ | hc
    · simp [e]
    · intro c hm; exact (has_comma hc c hm).up (parts_sub hp mid (by simp))

theorem has_indexSettings (h : SchemaD input s) :
    ∀ d ∈ indexSettings s, Has ⟨0, input⟩ IndexSettingsD d := by
  intro c hc
  obtain ⟨t, ht, hc⟩ := List.mem_filterMap.1 hc
  refine (has_indexDef h t ht).bind ?_
  rintro q ⟨-, ⟨col, st, _, hp, -, -, ho⟩ | ⟨l, mid, r, st, hp, -, -, -, ho⟩⟩
  · exact (Has.self (has_opt ho c hc)).up (parts_sub hp st (by simp))
  · exact (Has.self (has_opt ho c hc)).up (parts_sub hp st (by simp))

theorem has_refStmt {p r} (h : RefD p r) : Has p RefStmtD r := by
  rcases h with ⟨kw, name, l, stmt, rr, hp, -, hn, -, -, hst⟩ | ⟨kw, name, colon, stmt, hp, -, hn, -, hst⟩
  · exact ⟨stmt, parts_sub hp stmt (by simp), hst⟩
  · exact ⟨stmt, parts_sub hp stmt (by simp), hst⟩

theorem has_refSettings (h : SchemaD input s) : ∀ d ∈ refSettings s, Has ⟨0, input⟩ RefSettingsD d := by
  intro c hc
  obtain ⟨t, ht, hc⟩ := List.mem_filterMap.1 hc
  refine ((has_ref h t ht).bind fun q hq => has_refStmt hq).bind ?_
  rintro q ⟨l, rel, rr, st, hp, -, -, -, ho, -⟩
  exact (Has.self (has_opt ho c hc)).up (parts_sub hp st (by simp))

theorem has_refIdent (h : SchemaD input s) : ∀ d ∈ refIdents s, Has ⟨0, input⟩ RefIdentD d := by
  intro d hd
  simp only [refIdents, List.mem_append, List.mem_map] at hd
  rcases hd with (⟨r, hr, rfl⟩ | ⟨r, hr, rfl⟩) | ⟨r, hr, rfl⟩
  · refine ((has_ref h r hr).bind fun q hq => has_refStmt hq).bind ?_
    rintro q ⟨l, rel, rr, st, hp, hl, -⟩
    exact ⟨l, parts_sub hp l (by simp), hl⟩
  · refine ((has_ref h r hr).bind fun q hq => has_refStmt hq).bind ?_
    rintro q ⟨l, rel, rr, st, hp, -, -, hr, -⟩
    exact ⟨rr, parts_sub hp rr (by simp), hr⟩
  · refine (has_refInline h r hr).bind ?_
    rintro q ⟨kw, colon, rel, rhs, hp, -, -, -, hr, -⟩
    exact ⟨rhs, parts_sub hp rhs (by simp), hr⟩

theorem has_enumValue (h : SchemaD input s) : ∀ d ∈ enumValues s, Has ⟨0, input⟩ EnumValueD d := by
  intro d hd
  obtain ⟨t, ht, hd⟩ := List.mem_flatMap.1 hd
  refine (has_enum h t ht).bind ?_
  rintro q ⟨kw, name, blk, hp, -, -, -, hb, -⟩
  exact (has_braced hb _ hd).up (parts_sub hp blk (by simp))

theorem has_enumSettings (h : SchemaD input s) : ∀ d ∈ enumSettings s, Has ⟨0, input⟩ EnumSettingsD d := by
  intro c hc
  obtain ⟨t, ht, hc⟩ := List.mem_filterMap.1 hc
  refine (has_enumValue h t ht).bind ?_
  rintro q ⟨n, st, hp, -, ho, -⟩
  exact (Has.self (has_opt ho c hc)).up (parts_sub hp st (by simp))

theorem has_tableSettings (h : SchemaD input s) :
    ∀ d ∈ tableSettings s, Has ⟨0, input⟩ TableSettingsD d := by
  intro c hc
  obtain ⟨t, ht, hc⟩ := List.mem_filterMap.1 hc
  refine (has_table h t ht).bind ?_
  rintro q ⟨kw, name, al, st, blk, items, hp, -, -, -, -, ho, -⟩
  exact (Has.self (has_opt ho c hc)).up (parts_sub hp st (by simp))

theorem has_groupSettings (h : SchemaD input s) :
    ∀ d ∈ groupSettings s, Has ⟨0, input⟩ GroupSettingsD d := by
  intro c hc
  obtain ⟨t, ht, hc⟩ := List.mem_filterMap.1 hc
  refine (has_group h t ht).bind ?_
  rintro q ⟨kw, name, st, blk, items, hp, -, -, ho, -⟩
  exact (Has.self (has_opt ho c hc)).up (parts_sub hp st (by simp))

theorem has_groupItem (h : SchemaD input s) : ∀ d ∈ groupItems s,
    Has ⟨0, input⟩ (fun p i => DeclIdentD p i.schema i.ident_alias ∧ i.span_range = p.span) d := by
  intro d hd
  obtain ⟨t, ht, hd⟩ := List.mem_flatMap.1 hd
  refine (has_group h t ht).bind ?_
  rintro q ⟨kw, name, st, blk, items, hp, -, -, -, hb, -, e, -⟩
  rw [e] at hd
  obtain ⟨it, hit, hc⟩ := List.mem_filterMap.1 hd
  cases it <;> simp [GroupItem.item?] at hc
  subst hc
  exact (has_braced hb _ hit).up (parts_sub hp blk (by simp))

theorem has_note (h : SchemaD input s) : ∀ d ∈ notes s, Has ⟨0, input⟩ NoteD d := by
  intro d hd
  simp only [notes, List.mem_append] at hd
  rcases hd with ((hd | hd) | hd) | hd
  · exact has_topNote h d hd
  · obtain ⟨t, ht, hd⟩ := List.mem_filterMap.1 hd
    refine (has_project h t ht).bind ?_
    rintro q ⟨kw, name, blk, items, hp, -, -, hb, -, -, e, -⟩
    rw [e] at hd
    obtain ⟨it, hit, hc⟩ := List.mem_filterMap.1 (List.mem_of_getLast? hd)
    cases it <;> simp [ProjectItem.note?] at hc
    subst hc
    exact (has_braced hb _ hit).up (parts_sub hp blk (by simp))
  · obtain ⟨t, ht, hd⟩ := List.mem_filterMap.1 hd
    refine (has_table h t ht).bind ?_
    rintro q ⟨kw, name, al, st, blk, items, hp, -, -, -, -, -, hb, -, -, e, -⟩
    rw [e] at hd
    obtain ⟨it, hit, hc⟩ := List.mem_filterMap.1 (List.mem_of_getLast? hd)
    cases it <;> simp [TableItem.note?] at hc
    subst hc
    exact (has_braced hb _ hit).up (parts_sub hp blk (by simp))
  · obtain ⟨t, ht, hd⟩ := List.mem_filterMap.1 hd
    refine (has_group h t ht).bind ?_
    rintro q ⟨kw, name, st, blk, items, hp, -, -, -, hb, -, -, e⟩
    rw [e] at hd
    obtain ⟨it, hit, hc⟩ := List.mem_filterMap.1 (List.mem_of_getLast? hd)
    cases it <;> simp [GroupItem.note?] at hc
    subst hc
    exact (has_braced hb _ hit).up (parts_sub hp blk (by simp))

theorem has_property (h : SchemaD input s) : ∀ d ∈ properties s, Has ⟨0, input⟩ PropertyD d := by
  intro d hd
  obtain ⟨t, ht, hd⟩ := List.mem_flatMap.1 hd
  refine (has_project h t ht).bind ?_
  rintro q ⟨kw, name, blk, items, hp, -, -, hb, -, e, -⟩
  rw [e] at hd
  obtain ⟨it, hit, hc⟩ := List.mem_filterMap.1 hd
  cases it <;> simp [ProjectItem.prop?] at hc
  subst hc
  exact (has_braced hb _ hit).up (parts_sub hp blk (by simp))

theorem has_attribute (h : SchemaD input s) : ∀ d ∈ attributes s, Has ⟨0, input⟩ AttributeD d := by
  intro d hd
  simp only [attributes, List.mem_append, List.mem_flatMap] at hd
  rcases hd with ((((⟨t, ht, hd⟩ | ⟨t, ht, hd⟩) | ⟨t, ht, hd⟩) | ⟨t, ht, hd⟩) | ⟨t, ht, hd⟩) | ⟨t, ht, hd⟩
  · exact (has_tableSettings h t ht).bind fun q hq => has_list hq.1 _ hd
  · refine (has_colSettings h t ht).bind ?_
    rintro q ⟨items, hb, -, e, -⟩
    rw [e] at hd
    obtain ⟨it, hit, hc⟩ := List.mem_filterMap.1 hd
    cases it <;> simp [ColItem.attr?] at hc
    subst hc
    exact has_list hb _ hit
  · exact (has_indexSettings h t ht).bind fun q hq => has_list hq.1 _ hd
  · exact (has_refSettings h t ht).bind fun q hq => has_list hq.1 _ hd
  · exact (has_enumSettings h t ht).bind fun q hq => has_list hq.1 _ hd
  · exact (has_groupSettings h t ht).bind fun q hq => has_list hq.1 _ hd

theorem has_composition {p cs} (h : CompositionD p cs) : ∀ c ∈ cs, Has p (IdentD .loose) c := by
  rcases h with ⟨c, hc, rfl⟩ | ⟨l, first, more, r, c, cs', hp, -, -, hc, hm, rfl⟩
  · simp only [List.mem_singleton, forall_eq]; exact .self hc
  · intro x hx
    rcases List.mem_cons.1 hx with rfl | hx
    · exact ⟨first, parts_sub hp first (by simp), hc⟩
    · refine .up (parts_sub hp more (by simp)) ((has_many hm x hx).bind ?_)
      rintro q ⟨c, i, hp, -, hi⟩
      exact ⟨i, parts_sub hp i (by simp), hi⟩

theorem composition_ne {p cs} (h : CompositionD p cs) : cs ≠ [] := by
  rcases h with ⟨c, hc, rfl⟩ | ⟨l, first, more, r, c, cs', hp, -, -, hc, hm, rfl⟩ <;> simp

theorem has_refIdent_parts {p r} (h : RefIdentD p r) :
    ∀ i ∈ r.schema.toList ++ (r.table :: r.compositions), Has p (IdentD .loose) i := by
  obtain ⟨a, dot, mid, comp, hp, -, -, hc, ⟨-, e, ha⟩ | ⟨n, dot', sc, hp2, -, ha, e, hn⟩⟩ := h
  all_goals
    intro i hi
    rw [e] at hi
    simp only [Option.toList, List.mem_append, List.mem_cons, List.not_mem_nil, false_or, or_false] at hi
  · rcases hi with rfl | hi
    · exact ⟨a, parts_sub hp a (by simp), ha⟩
    · exact (has_composition hc i hi).up (parts_sub hp comp (by simp))
  · rcases hi with rfl | rfl | hi
    · exact ⟨a, parts_sub hp a (by simp), ha⟩
    · exact ⟨n, (parts_sub hp2 n (by simp)).trans (parts_sub hp mid (by simp)), hn⟩
    · exact (has_composition hc i hi).up (parts_sub hp comp (by simp))

theorem has_ident (h : SchemaD input s) : ∀ d ∈ idents s, Has ⟨0, input⟩ (IdentD .loose) d := by
  intro d hd
  simp only [idents, List.mem_append, List.mem_map, List.mem_flatMap, List.mem_filterMap] at hd
  rcases hd with ((((((((⟨t, ht, rfl⟩ | ⟨t, ht, hd⟩) | ⟨t, ht, rfl⟩) | ⟨t, ht, hd⟩) | ⟨t, ht, hd⟩) |
    ⟨t, ht, rfl⟩) | ⟨t, ht, rfl⟩) | ⟨t, ht, hd⟩) | ⟨t, ht, hd⟩) | ⟨t, ht, hd⟩
  · refine (has_project h t ht).bind ?_
    rintro q ⟨kw, name, blk, items, hp, -, hn, -⟩
    exact ⟨name, parts_sub hp name (by simp), hn⟩
  · refine (has_table h t ht).bind ?_
    rintro q ⟨kw, name, al, st, blk, items, hp, -, hn, -, ho, -⟩
    simp only [Option.mem_toList, List.mem_cons] at hd
    rcases hd with hd | rfl | hd
    · exact ((has_declIdent hn).2 d hd).up (parts_sub hp name (by simp))
    · exact ((has_declIdent hn).1).up (parts_sub hp name (by simp))
    · obtain ⟨k, n, hp', -, hi⟩ := has_opt ho d hd
      exact ⟨n, (parts_sub hp' n (by simp)).trans (parts_sub hp al (by simp)), hi⟩
  · refine (has_column h t ht).bind ?_
    rintro q ⟨n, ty, st, hp, hn, -⟩
    exact ⟨n, parts_sub hp n (by simp), hn⟩
  · obtain ⟨c, hc, hd⟩ := hd
    refine ((has_indexDef h t ht).bind fun q hq => has_indexCol hq c hc).bind ?_
    intro q hq
    cases c <;> simp at hd
    subst hd; exact .self hq
  · refine (has_enum h t ht).bind ?_
    rintro q ⟨kw, name, blk, hp, -, hn, -⟩
    simp only [Option.mem_toList, List.mem_cons, List.not_mem_nil, or_false] at hd
    rcases hd with hd | rfl
    · exact ((has_declIdent hn).2 d hd).up (parts_sub hp name (by simp))
    · exact ((has_declIdent hn).1).up (parts_sub hp name (by simp))
  · refine (has_enumValue h t ht).bind ?_
    rintro q ⟨n, st, hp, hn, -⟩
    exact ⟨n, parts_sub hp n (by simp), hn⟩
  · refine (has_group h t ht).bind ?_
    rintro q ⟨kw, name, st, blk, items, hp, -, hn, -⟩
    exact ⟨name, parts_sub hp name (by simp), hn⟩
  · refine (has_groupItem h t ht).bind ?_
    rintro q ⟨hn, -⟩
    simp only [Option.mem_toList, List.mem_cons, List.not_mem_nil, or_false] at hd
    rcases hd with hd | rfl
    · exact (has_declIdent hn).2 d hd
    · exact (has_declIdent hn).1
  · refine (has_ref h t ht).bind ?_
    rintro q (⟨kw, name, l, stmt, rr, hp, -, hn, -⟩ | ⟨kw, name, colon, stmt, hp, -, hn, -⟩)
    · exact ⟨name, parts_sub hp name (by simp), has_opt hn d hd⟩
    · exact ⟨name, parts_sub hp name (by simp), has_opt hn d hd⟩
  · exact (has_refIdent h t ht).bind fun q hq => has_refIdent_parts hq d (List.mem_append.2 hd)

/-- What the value of a literal may be. -/
def AnyValueD (p : Piece) (v : Value) : Prop :=
  AttrValueD p v ∨ ∃ s, QuotedD .loose k!"`" p s ∧ v = .string s

theorem lit_mono {D D' : Piece → Value → Prop} {p l} (h : LitD D p l) (hd : ∀ v, D p v → D' p v) :
    LitD D' p l := ⟨h.1, h.2.1, hd _ h.2.2⟩

theorem has_literal (h : SchemaD input s) : ∀ d ∈ literals s, Has ⟨0, input⟩ (LitD AnyValueD) d := by
  intro d hd
  simp only [literals, List.mem_append, List.mem_map, List.mem_flatMap, List.mem_filterMap] at hd
  rcases hd with ((⟨t, ht, hd⟩ | ⟨t, ht, rfl⟩) | ⟨t, ht, rfl⟩) | ⟨t, ht, c, hc, hd⟩
  · refine (has_attribute h t ht).bind ?_
    rintro q ⟨key, tail, hp, -, -, ho⟩
    obtain ⟨colon, v, hp', -, hl⟩ := has_opt ho d hd
    exact ⟨v, (parts_sub hp' v (by simp)).trans (parts_sub hp tail (by simp)), lit_mono hl fun _ h => .inl h⟩
  · refine (has_property h t ht).bind ?_
    rintro q ⟨key, colon, v, hp, -, -, -, hl⟩
    exact ⟨v, parts_sub hp v (by simp), lit_mono hl fun _ h => .inl (h.imp_right .inl)⟩
  · refine (has_note h t ht).bind ?_
    rintro q ⟨-, ⟨kw, colon, v, hp, -, -, hl⟩ | ⟨kw, l, v, r, hp, -, -, -, hl⟩⟩
    · exact ⟨v, parts_sub hp v (by simp), lit_mono hl fun _ ⟨t, ht, e⟩ => .inl (.inl (e ▸ .string ht))⟩
    · exact ⟨v, parts_sub hp v (by simp), lit_mono hl fun _ ⟨t, ht, e⟩ => .inl (.inl (e ▸ .string ht))⟩
  · refine ((has_indexDef h t ht).bind fun q hq => has_indexCol hq c hc).bind ?_
    intro q hq
    cases c <;> simp at hd
    subst hd
    have hq : LitD (fun p v => ∃ s, QuotedD .loose k!"`" p s ∧ v = .string s) q _ := hq
    exact .self (lit_mono hq fun _ h => .inr h)

end Dbml
