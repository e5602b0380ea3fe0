import Verif.Proofs.Parsed

/-!
# No error is reported at an empty range

The constructs that errors point at have at least one character.
-/

namespace Dbml
open Syntax Spec

/-- The range of a part of the text with at least one character. -/
def Extent (input : Str) (sp : Span) : Prop :=
  ∃ pre m post, input = pre ++ (m ++ post) ∧ sp = ⟨blen pre, blen pre + blen m⟩ ∧ m ≠ []

theorem Sub.ne {p q : Piece} (h : Sub q p) (hq : q.txt ≠ []) : p.txt ≠ [] := by
  obtain ⟨pre, post, e, -⟩ := h
  rw [e]; simp [hq]

theorem Parts.ne {g p ms} (h : Parts g p ms) {m} (hm : m ∈ ms) (hq : m.txt ≠ []) : p.txt ≠ [] :=
  Sub.ne (parts_sub h m hm) hq

theorem txt_ne {p : Piece} {c : Char} {cs : Str} (h : p.txt = c :: cs) : p.txt ≠ [] := by rw [h]; simp

theorem Keyword.ne {c : Char} {cs s : Str} (h : Keyword (c :: cs) s) : s ≠ [] := by
  rintro rfl; cases h

theorem QuotedD.ne {g} {c : Char} {cs : Str} {p v} (h : QuotedD g (c :: cs) p v) : p.txt ≠ [] := by
  obtain ⟨t, e, -⟩ := h; rw [e]; simp

theorem IsVar.ne {s} (h : IsVar s) : s ≠ [] := by obtain ⟨c, cs, rfl, -⟩ := h; simp

theorem IsSpacedVar.ne {s} (h : IsSpacedVar s) : s ≠ [] := by obtain ⟨c, cs, rfl, -⟩ := h; simp

theorem IdentD.ne {g p i} (h : IdentD g p i) : p.txt ≠ [] := by
  obtain ⟨-, -, ⟨h, -⟩ | h⟩ := h
  · exact IsVar.ne h
  · exact QuotedD.ne h

theorem ValueD.ne {g p v} (h : ValueD g p v) : p.txt ≠ [] := by
  cases h with
  | string h => rcases h with h | h <;> exact QuotedD.ne h
  | expr h => exact QuotedD.ne h
  | true h => exact txt_ne h
  | false h => exact txt_ne h
  | null h => exact txt_ne h
  | integer h => exact h.1
  | decimal e h => rw [e]; simp
  | hex e => rw [e]; simp

theorem AttrValueD.ne {p v} (h : AttrValueD p v) : p.txt ≠ [] := by
  rcases h with h | ⟨h, -⟩ | ⟨s, h, -⟩
  · exact ValueD.ne h
  · exact IsSpacedVar.ne h
  · exact QuotedD.ne h

theorem ListD.ne {α g} {c d : Char} {D : Piece → α → Prop} {p xs} (h : ListD g [c] [d] D p xs) : p.txt ≠ [] := by
  obtain ⟨l, mid, r, hp, hl, -⟩ := h
  exact Parts.ne hp (m := l) (by simp) (by rw [hl]; simp)

theorem BracedD.ne {α} {D : Piece → α → Prop} {p xs} (h : BracedD D p xs) : p.txt ≠ [] := by
  obtain ⟨l, mid, r, hp, hl, -⟩ := h
  exact Parts.ne hp (m := l) (by simp) (by rw [hl]; simp)

theorem AttributeD.ne {p a} (h : AttributeD p a) : p.txt ≠ [] := by
  obtain ⟨key, tail, hp, -, hk, -⟩ := h
  exact Parts.ne hp (m := key) (by simp) (IsSpacedVar.ne hk.1)

theorem PropertyD.ne {p a} (h : PropertyD p a) : p.txt ≠ [] := by
  obtain ⟨key, _, _, hp, -, -, hk, -⟩ := h
  exact Parts.ne hp (m := key) (by simp) (IsSpacedVar.ne hk.1)

theorem DeclIdentD.ne {p s n} (h : DeclIdentD p s n) : p.txt ≠ [] := by
  obtain ⟨a, b, hp, ⟨-, -, h⟩ | ⟨_, _, _, -, -, h, -⟩⟩ := h <;>
    exact Parts.ne hp (m := a) (by simp) (IdentD.ne h)

theorem RefIdentD.ne {p r} (h : RefIdentD p r) : p.txt ≠ [] := by
  obtain ⟨a, dot, _, _, hp, hd, -⟩ := h
  exact Parts.ne hp (m := dot) (by simp) (txt_ne hd)

theorem RefInlineD.ne {p r} (h : RefInlineD p r) : p.txt ≠ [] := by
  obtain ⟨kw, _, _, _, hp, hk, -⟩ := h
  exact Parts.ne hp (m := kw) (by simp) (txt_ne hk)

theorem RefStmtD.ne {p r} (h : RefStmtD p r) : p.txt ≠ [] := by
  obtain ⟨l, _, _, _, hp, hl, -⟩ := h
  exact Parts.ne hp (m := l) (by simp) (RefIdentD.ne hl)

theorem IndexColD.ne {p c} (h : IndexColD p c) : p.txt ≠ [] := by
  cases c with
  | string i => exact IdentD.ne h
  | expr l => obtain ⟨-, -, s, h, -⟩ := h; exact QuotedD.ne h

theorem IndexDefD.ne {p d} (h : IndexDefD p d) : p.txt ≠ [] := by
  obtain ⟨-, ⟨col, _, _, hp, hc, -⟩ | ⟨l, _, _, _, hp, hl, -⟩⟩ := h
  · exact Parts.ne hp (m := col) (by simp) (IndexColD.ne hc)
  · exact Parts.ne hp (m := l) (by simp) (txt_ne hl)

theorem EnumValueD.ne {p v} (h : EnumValueD p v) : p.txt ≠ [] := by
  obtain ⟨n, _, hp, hn, -⟩ := h
  exact Parts.ne hp (m := n) (by simp) (IdentD.ne hn)

theorem BareTypeD.ne {p n a r} (h : BareTypeD p n a r) : p.txt ≠ [] := by
  rcases h with ⟨n, _, _, hp, hn, -⟩ | ⟨q, _, _, _, _, _, _, _, hp, hq, -⟩
  · exact Parts.ne hp (m := n) (by simp) (IsVar.ne hn)
  · exact Parts.ne hp (m := q) (by simp) (txt_ne hq)

theorem ColTypeD.ne {p t} (h : ColTypeD p t) : p.txt ≠ [] := by
  obtain ⟨_, body, _, hp, -, -, hb, -⟩ := h
  exact Parts.ne hp (m := body) (by simp) (BareTypeD.ne hb)

theorem ColumnD.ne {p c} (h : ColumnD p c) : p.txt ≠ [] := by
  obtain ⟨n, _, _, hp, hn, -⟩ := h
  exact Parts.ne hp (m := n) (by simp) (IdentD.ne hn)

section
variable {s : SchemaBlock} {input : Str}

theorem solid_of_sub {q : Piece} (h : Sub q ⟨0, input⟩) (hn : q.txt ≠ []) : Extent input q.span := by
  obtain ⟨pre, post, e, hp⟩ := h
  have hp : q.pos = blen pre := by simpa using hp
  exact ⟨pre, q.txt, post, e, by simp [Piece.span, hp], hn⟩

theorem solid_of_has {α : Type} {D : Piece → α → Prop} {x : α} {sp : Span} (h : Has ⟨0, input⟩ D x)
    (hsp : ∀ q, D q x → ∃ q', Sub q' q ∧ sp = q'.span ∧ q'.txt ≠ []) : Extent input sp := by
  obtain ⟨q, hq, hd⟩ := h
  obtain ⟨q', hq', rfl, hn⟩ := hsp q hd
  exact solid_of_sub (hq'.trans hq) hn

theorem column_solid (h : SchemaD input s) {c} (hc : c ∈ columns s) : Extent input c.span_range :=
  solid_of_has (has_column h c hc) fun q hq => ⟨q, .refl q, (let ⟨_, _, _, _, _, _, _, e⟩ := hq; e), ColumnD.ne hq⟩

theorem type_solid (h : SchemaD input s) {c} (hc : c ∈ columns s) : Extent input c.type.span_range :=
  solid_of_has (has_colType h c hc) fun q hq => ⟨q, .refl q, (let ⟨_, _, _, _, e, _⟩ := hq; e), ColTypeD.ne hq⟩

theorem attr_solid (h : SchemaD input s) {a} (ha : a ∈ attributes s) : Extent input a.span_range :=
  solid_of_has (has_attribute h a ha) fun q hq => ⟨q, .refl q, (let ⟨_, _, _, e, _⟩ := hq; e), AttributeD.ne hq⟩

theorem def_solid (h : SchemaD input s) {d} (hd : d ∈ indexDefs s) : Extent input d.span_range :=
  solid_of_has (has_indexDef h d hd) fun q hq => ⟨q, .refl q, hq.1, IndexDefD.ne hq⟩

theorem ident_solid (h : SchemaD input s) {i} (hi : i ∈ idents s) : Extent input i.span_range :=
  solid_of_has (has_ident h i hi) fun q hq => ⟨q, .refl q, hq.1, IdentD.ne hq⟩

theorem structDefect_solid (h : SchemaD input s) {e sp} (hd : StructDefect s e sp)
    (he : e ≠ .duplicateProjectSetting ∧ e ≠ .projectSettingNotFound) : Extent input sp := by
  have hattr : ∀ as ∈ structSettings s, ∀ a ∈ as, Extent input a.span_range := fun as has a ha =>
    attr_solid h (mem_attributes (List.mem_append_left _ has) ha)
  cases hd with
  | project hd =>
    cases hd with
    | manyProjects => exact absurd rfl he.1
    | noProject => exact absurd rfl he.2
    | property hp ha =>
      exact solid_of_has (has_property h _ (List.mem_flatMap.2 ⟨_, by simp [hp], ha.mem⟩))
        fun q hq => ⟨q, .refl q, (let ⟨_, _, _, _, _, e, _⟩ := hq; e), PropertyD.ne hq⟩
  | @table pre t post hs' hd =>
    have ht : t ∈ s.tables := by simp [hs']
    cases hd with
    | attr has ha => exact hattr _ (mem_structSettings.2 (.inl ⟨t, ht, has⟩)) _ ha.mem
    | tableName =>
      exact solid_of_has (has_table h _ ht) fun q ⟨_, name, _, _, _, _, hp, _, hd, e, _⟩ =>
        ⟨name, parts_sub hp name (by simp), e, DeclIdentD.ne hd⟩
    | columnName ha => exact column_solid h (mem_columns ht ha.mem)
    | @alias u a _ _ hta =>
      refine ident_solid h ?_
      simp only [idents, List.mem_append, List.mem_flatMap]
      refine .inl (.inl (.inl (.inl (.inl (.inl (.inl (.inl (.inr ⟨t, ht, ?_⟩))))))))
      simp [hta]
  | @enum pre d post hs' hd =>
    have ht : d ∈ s.enums := by simp [hs']
    cases hd with
    | attr has ha => exact hattr _ (mem_structSettings.2 (.inr (.inl ⟨d, ht, has⟩))) _ ha.mem
    | enumName =>
      exact solid_of_has (has_enum h _ ht) fun q ⟨_, name, _, hp, _, hd, e, _⟩ =>
        ⟨name, parts_sub hp name (by simp), e, DeclIdentD.ne hd⟩
    | enumValue ha =>
      exact solid_of_has (has_enumValue h _ (List.mem_flatMap.2 ⟨_, ht, ha.mem⟩))
        fun q hq => ⟨q, .refl q, (let ⟨_, _, _, _, _, e⟩ := hq; e), EnumValueD.ne hq⟩
  | @group pre g post hs' hd =>
    have ht : g ∈ s.table_groups := by simp [hs']
    cases hd with
    | groupName =>
      exact solid_of_has (has_group h _ ht) fun q ⟨_, name, _, _, _, hp, _, e, _⟩ =>
        ⟨name, parts_sub hp name (by simp), e.1, IdentD.ne e⟩
    | groupItemNotFound hi =>
      exact solid_of_has (has_groupItem h _ (List.mem_flatMap.2 ⟨_, ht, hi⟩)) fun q hq => ⟨q, .refl q, hq.2, DeclIdentD.ne hq.1⟩
    | groupItem hs' =>
      exact solid_of_has (has_groupItem h _ (List.mem_flatMap.2 ⟨_, ht, by simp [hs']⟩))
        fun q hq => ⟨q, .refl q, hq.2, DeclIdentD.ne hq.1⟩
  | @keys t ht hd =>
    cases hd with
    | attr has ha => exact hattr _ (mem_structSettings.2 (.inr (.inr ⟨t, ht, has⟩))) _ ha.mem
    | pkColumn hs' => exact column_solid h (mem_columns ht (by simp [hs']))
    | pkIndex _ _ hd => exact def_solid h (mem_indexDefs ht hd)
    | pkIndexes hs' => exact def_solid h (mem_indexDefs ht (by simp [hs']))
    | pkNull hc => exact column_solid h (mem_columns ht hc)
    | pkArray hc => exact column_solid h (mem_columns ht hc)
    | nullNotNull hc hst =>
      exact solid_of_has (has_colSettings h _ (List.mem_filterMap.2 ⟨_, mem_columns ht hc, hst⟩))
        fun q hq => ⟨q, .refl q, (let ⟨_, _, e, _⟩ := hq; e), (let ⟨_, hb, _⟩ := hq; ListD.ne hb)⟩
    | @emptyIndex b d hb =>
      refine solid_of_has (has_table h t ht) ?_
      rintro q ⟨kw, name, al, st, blk, items, hp, -, -, -, -, -, hbr, -, -, -, hi⟩
      rw [hb] at hi
      have hm : b ∈ items.filterMap TableItem.indexes? := List.mem_of_getLast? hi.symm
      obtain ⟨it, hit, he⟩ := List.mem_filterMap.1 hm
      cases it <;> simp [TableItem.indexes?] at he
      subst he
      obtain ⟨q', hq', kw', blk', hp', -, e, hbd⟩ := has_braced hbr _ hit
      exact ⟨blk', (parts_sub hp' blk' (by simp)).trans (hq'.trans (parts_sub hp blk (by simp))), e, BracedD.ne hbd⟩
    | indexColumn hd hi =>
      exact solid_of_has ((has_indexDef h _ (mem_indexDefs ht hd)).bind fun q hq => has_indexCol hq _ hi)
        fun q hq => ⟨q, .refl q, hq.1, IdentD.ne hq⟩
    | indexSetting hd hst =>
      exact solid_of_has (has_indexSettings h _ (List.mem_filterMap.2 ⟨_, mem_indexDefs ht hd, hst⟩))
        fun q hq => ⟨q, .refl q, hq.2.1, ListD.ne hq.1⟩
    | uniqueColumn _ _ hd => exact def_solid h (mem_indexDefs ht hd)
    | uniqueIndex hs' => exact def_solid h (mem_indexDefs ht (by simp [hs']))
    | indexAgain hs' => exact def_solid h (mem_indexDefs ht (by simp [hs']))

theorem defaultAt_solid (h : SchemaD input s) {c sp} (hc : c ∈ columns s) (hd : DefaultAt c sp) :
    Extent input sp := by
  obtain ⟨st, a, l, hst, ha, hl, rfl⟩ := hd
  have ha' : a ∈ attributes s := by
    refine mem_attributes (as := st.attributes) ?_ (List.mem_of_find?_eq_some ha)
    exact List.mem_append_left _ (mem_checked_col hc (by simp [hst]))
  refine solid_of_has (has_attribute h a ha') ?_
  rintro q ⟨key, tail, hp, -, -, ho⟩
  obtain ⟨colon, v, hp', -, e⟩ := has_opt ho l hl
  exact ⟨v, (parts_sub hp' v (by simp)).trans (parts_sub hp tail (by simp)), e.1, AttrValueD.ne e.2.2⟩

theorem columnDefect_solid (h : SchemaD input s) {c e sp} (hc : c ∈ columns s) (hd : ColumnDefect s c e sp) :
    Extent input sp := by
  cases hd with
  | typeArgs => exact type_solid h hc
  | typeArg => exact type_solid h hc
  | enumSyntax => exact type_solid h hc
  | enumSchema => exact type_solid h hc
  | enumMissing => exact type_solid h hc
  | enumDefault _ _ _ _ _ _ _ hd => exact defaultAt_solid h hc hd
  | stringDefault _ _ _ _ _ hd => exact defaultAt_solid h hc hd
  | boolDefault _ _ _ _ hd => exact defaultAt_solid h hc hd
  | intDefault _ _ _ _ hd => exact defaultAt_solid h hc hd
  | nullDefault _ _ hd => exact defaultAt_solid h hc hd

/-- An endpoint of an indexed ref: as written, or that of an inline ref's column. -/
theorem ref_end_solid (h : SchemaD input s) {r e} (hr : r ∈ refsInOrder s) (he : e ∈ [r.lhs, r.rhs]) :
    Extent input r.span_range ∧ Extent input e.span_range ∧
    ∀ i ∈ e.schema.toList ++ (e.table :: e.compositions), i ∈ idents s := by
  unfold refsInOrder at hr
  have hri : ∀ e ∈ refIdents s, Extent input e.span_range ∧
      ∀ i ∈ e.schema.toList ++ (e.table :: e.compositions), i ∈ idents s := by
    intro e he
    refine ⟨solid_of_has (has_refIdent h e he) fun q hq => ⟨q, .refl q, (let ⟨_, _, _, _, _, _, e', _⟩ := hq; e'), RefIdentD.ne hq⟩, ?_⟩
    intro i hi
    simp only [idents, List.mem_append (s := _ ++ _), List.mem_flatMap]
    exact .inr ⟨e, he, hi⟩
  rcases List.mem_append.1 hr with hr | hr
  · obtain ⟨b, hb, rfl⟩ := List.mem_map.1 hr
    have hsp : Extent input b.span_range :=
      solid_of_has ((has_ref h b hb).bind fun q hq => has_refStmt hq)
        fun q hq => ⟨q, .refl q, (let ⟨_, _, _, _, _, _, _, _, _, e'⟩ := hq; e'), RefStmtD.ne hq⟩
    simp only [List.mem_cons, List.not_mem_nil, or_false] at he
    refine ⟨hsp, hri e ?_⟩
    simp only [refIdents, List.mem_append, List.mem_map]
    rcases he with rfl | rfl
    · exact .inl (.inl ⟨b, hb, rfl⟩)
    · exact .inl (.inr ⟨b, hb, rfl⟩)
  · obtain ⟨t, ht, hr⟩ := List.mem_flatMap.1 hr
    obtain ⟨c, hc, hr⟩ := List.mem_flatMap.1 hr
    obtain ⟨i, hi, rfl⟩ := List.mem_map.1 hr
    have hi' : i ∈ refInlines s := by
      obtain ⟨st, hst, hi⟩ := List.mem_flatMap.1 hi
      refine List.mem_flatMap.2 ⟨st, List.mem_filterMap.2 ⟨c, mem_columns ht hc, ?_⟩, hi⟩
      simpa using hst
    have hsp : Extent input i.span_range :=
      solid_of_has (has_refInline h i hi') fun q hq => ⟨q, .refl q, (let ⟨_, _, _, _, _, _, _, _, _, e'⟩ := hq; e'), RefInlineD.ne hq⟩
    simp only [List.mem_cons, List.not_mem_nil, or_false] at he
    refine ⟨hsp, ?_⟩
    rcases he with rfl | rfl
    · refine ⟨hsp, ?_⟩
      intro j hj
      simp only [List.mem_append, List.mem_cons, List.not_mem_nil, or_false] at hj
      simp only [idents, List.mem_append, List.mem_flatMap, List.mem_map]
      rcases hj with hj | rfl | rfl
      · exact .inl (.inl (.inl (.inl (.inl (.inl (.inl (.inl (.inr ⟨t, ht, .inl hj⟩))))))))
      · exact .inl (.inl (.inl (.inl (.inl (.inl (.inl (.inl (.inr ⟨t, ht, .inr (by simp)⟩))))))))
      · exact .inl (.inl (.inl (.inl (.inl (.inl (.inl (.inr ⟨c, mem_columns ht hc, rfl⟩)))))))
    · refine hri _ ?_
      simp only [refIdents, List.mem_append, List.mem_map]
      exact .inr ⟨i, hi', rfl⟩

theorem endSpan_solid (h : SchemaD input s) {r e sp} (hr : r ∈ refsInOrder s) (he : e ∈ [r.lhs, r.rhs])
    (hsp : EndSpan e sp) : Extent input sp := by
  obtain ⟨-, h1, h2⟩ := ref_end_solid h hr he
  rcases hsp with rfl | rfl | ⟨i, hi, rfl⟩
  · exact h1
  · exact ident_solid h (h2 _ (by simp))
  · exact ident_solid h (h2 _ (by simp [hi]))

theorem refDefect_solid (h : SchemaD input s) {r e sp} (hr : r ∈ refsInOrder s) (hd : RefDefect s r e sp) (hz : sp ≠ .zero) :
    Extent input sp := by
  have hr0 := (ref_end_solid h hr (e := r.lhs) (by simp)).1
  cases hd with
  | @refAttr st a hst ha =>
    refine attr_solid h (mem_attributes (as := st.attributes) (List.mem_append_right _ ?_) ha.mem)
    unfold refsInOrder at hr
    rcases List.mem_append.1 hr with hr | hr
    · obtain ⟨b, hb, rfl⟩ := List.mem_map.1 hr
      exact List.mem_map.2 ⟨st, List.mem_filterMap.2 ⟨b, hb, hst⟩, rfl⟩
    · obtain ⟨t, -, hr⟩ := List.mem_flatMap.1 hr
      obtain ⟨c, -, hr⟩ := List.mem_flatMap.1 hr
      obtain ⟨i, -, rfl⟩ := List.mem_map.1 hr
      simp at hst
  | refArity => exact hr0
  | refSchema he _ _ hsp =>
    rcases hsp with hsp | ⟨-, rfl⟩
    · exact endSpan_solid h hr he hsp
    · exact absurd rfl hz
  | refTable he _ _ hsp => exact endSpan_solid h hr he hsp
  | refColumn he _ _ _ hi => exact ident_solid h ((ref_end_solid h hr he).2.2 _ (by simp [hi]))
  | refType => exact hr0
  | refKey =>
    unfold keySpan
    split
    · exact (ref_end_solid h hr (e := r.lhs) (by simp)).2.1
    · exact (ref_end_solid h hr (e := r.rhs) (by simp)).2.1
    · exact hr0
  | refConflict => exact hr0
  | refUndef => exact hr0

theorem defect_solid (h : SchemaD input s) {e sp} (hd : Defect s e sp)
    (he : e ≠ .duplicateProjectSetting ∧ e ≠ .projectSettingNotFound) (hz : sp ≠ .zero) : Extent input sp := by
  rcases hd with hd | ⟨c, hc, hd⟩ | ⟨r, hr, hd⟩
  · exact structDefect_solid h hd he
  · exact columnDefect_solid h hc hd
  · exact refDefect_solid h hr hd hz

/-- Errors about the number of projects point at the whole text. -/
theorem project_error_span {e sp} (hd : Defect s e sp) (he : e = .duplicateProjectSetting ∨ e = .projectSettingNotFound) :
    sp = s.span_range := by
  rcases hd with hd | ⟨c, hc, hd⟩ | ⟨r, hr, hd⟩
  · cases hd with
    | project hd => cases hd <;> first | rfl | (rcases he with h | h <;> cases h)
    | table _ hd => cases hd <;> rcases he with h | h <;> cases h
    | enum _ hd => cases hd <;> rcases he with h | h <;> cases h
    | group _ hd => cases hd <;> rcases he with h | h <;> cases h
    | keys _ hd => cases hd <;> rcases he with h | h <;> cases h
  · cases hd <;> rcases he with h | h <;> cases h
  · cases hd <;> rcases he with h | h <;> cases h

end
end Dbml
