import Verif.Proofs.Analyze
import Verif.Proofs.Slices

/-!
# Analysis of a parsed schema

What a schema that comes from a text has beyond an arbitrary AST: raw column types, `default` attributes
with values, and spans that are ranges of the text.
-/

namespace Dbml
open Syntax Spec

section
variable {s : SchemaBlock} {input : Str}

theorem valid_of_has {α : Type} {D : Piece → α → Prop} {x : α} {sp : Span} (h : Has ⟨0, input⟩ D x)
    (hsp : ∀ q, D q x → ∃ q', Sub q' q ∧ sp = q'.span) : sp.valid input = true := by
  obtain ⟨q, hq, hd⟩ := h
  obtain ⟨q', hq', rfl⟩ := hsp q hd
  exact (Sub.slice (hq'.trans hq)).valid

theorem zero_valid : Span.zero.valid input = true := by
  have : IsSlice input .zero [] := ⟨[], input, rfl, rfl, rfl⟩
  exact this.valid

theorem column_span (h : SchemaD input s) {c} (hc : c ∈ columns s) : c.span_range.valid input = true :=
  valid_of_has (has_column h c hc) fun q ⟨_, _, _, _, _, _, _, e⟩ => ⟨q, .refl q, e⟩

theorem type_span (h : SchemaD input s) {c} (hc : c ∈ columns s) : c.type.span_range.valid input = true :=
  valid_of_has (has_colType h c hc) fun q ⟨_, _, _, _, e, _⟩ => ⟨q, .refl q, e⟩

theorem attr_span (h : SchemaD input s) {a} (ha : a ∈ attributes s) : a.span_range.valid input = true :=
  valid_of_has (has_attribute h a ha) fun q ⟨_, _, _, e, _⟩ => ⟨q, .refl q, e⟩

theorem def_span (h : SchemaD input s) {d} (hd : d ∈ indexDefs s) : d.span_range.valid input = true :=
  valid_of_has (has_indexDef h d hd) fun q hq => ⟨q, .refl q, hq.1⟩

theorem ident_span (h : SchemaD input s) {i} (hi : i ∈ idents s) : i.span_range.valid input = true :=
  valid_of_has (has_ident h i hi) fun q hq => ⟨q, .refl q, hq.1⟩

theorem mem_attributes {as a} (h : as ∈ checkedSettings s) (ha : a ∈ as) : a ∈ attributes s := by
  simp only [checkedSettings, structSettings, List.mem_append, List.mem_map] at h
  simp only [attributes, List.mem_append, List.mem_flatMap]
  rcases h with (((⟨st, h, rfl⟩ | ⟨st, h, rfl⟩) | ⟨st, h, rfl⟩) | ⟨st, h, rfl⟩) | ⟨st, h, rfl⟩
  · exact .inl (.inl (.inl (.inl (.inl ⟨_, h, ha⟩))))
  · exact .inl (.inl (.inl (.inl (.inr ⟨_, h, ha⟩))))
  · exact .inl (.inr ⟨_, h, ha⟩)
  · exact .inl (.inl (.inl (.inr ⟨_, h, ha⟩)))
  · exact .inl (.inl (.inr ⟨_, h, ha⟩))

theorem Spec.Again.mem {α κ : Type} {key : α → κ} {xs : List α} {b : α} (h : Again key xs b) : b ∈ xs := by
  obtain ⟨pre, post, rfl, -⟩ := h; simp

theorem mem_indexDefs {t : TableBlock} (ht : t ∈ s.tables) {d} (hd : d ∈ defsOf t) : d ∈ indexDefs s := by
  unfold defsOf at hd
  cases hi : t.indexes with
  | none => simp [hi] at hd
  | some b =>
    rw [hi] at hd
    exact List.mem_flatMap.2 ⟨b, List.mem_filterMap.2 ⟨t, ht, hi⟩, hd⟩

theorem structDefect_span (h : SchemaD input s) {e sp} (hd : StructDefect s e sp) : sp.valid input = true := by
  have hs : s.span_range.valid input = true := by
    obtain ⟨_, _, _, _, _, _, _, e, _⟩ := h
    rw [e]
    have : IsSlice input ⟨0, blen input⟩ input := ⟨[], [], by simp, rfl, by simp [blen]⟩
    exact this.valid
  have hattr : ∀ as ∈ structSettings s, ∀ a ∈ as, a.span_range.valid input = true := fun as has a ha =>
    attr_span h (mem_attributes (List.mem_append_left _ has) ha)
  cases hd with
  | project hd =>
    cases hd with
    | manyProjects => exact hs
    | noProject => exact hs
    | property hp ha =>
      exact valid_of_has (has_property h _ (List.mem_flatMap.2 ⟨_, by simp [hp], ha.mem⟩))
        fun q ⟨_, _, _, _, _, e, _⟩ => ⟨q, .refl q, e⟩
  | @table pre t post hs' hd =>
    have ht : t ∈ s.tables := by simp [hs']
    cases hd with
    | attr has ha => exact hattr _ (mem_structSettings.2 (.inl ⟨t, ht, has⟩)) _ ha.mem
    | tableName =>
      exact valid_of_has (has_table h _ ht) fun q ⟨_, name, _, _, _, _, hp, _, _, e, _⟩ =>
        ⟨name, parts_sub hp name (by simp), e⟩
    | columnName ha => exact column_span h (mem_columns ht ha.mem)
    | @alias u a _ _ hta =>
      refine ident_span h ?_
      simp only [idents, List.mem_append, List.mem_flatMap]
      refine .inl (.inl (.inl (.inl (.inl (.inl (.inl (.inl (.inr ⟨t, ht, ?_⟩))))))))
      simp [hta]
  | @enum pre d post hs' hd =>
    have ht : d ∈ s.enums := by simp [hs']
    cases hd with
    | attr has ha => exact hattr _ (mem_structSettings.2 (.inr (.inl ⟨d, ht, has⟩))) _ ha.mem
    | enumName =>
      exact valid_of_has (has_enum h _ ht) fun q ⟨_, name, _, hp, _, _, e, _⟩ =>
        ⟨name, parts_sub hp name (by simp), e⟩
    | enumValue ha =>
      exact valid_of_has (has_enumValue h _ (List.mem_flatMap.2 ⟨_, ht, ha.mem⟩))
        fun q ⟨_, _, _, _, _, e⟩ => ⟨q, .refl q, e⟩
  | @group pre g post hs' hd =>
    have ht : g ∈ s.table_groups := by simp [hs']
    cases hd with
    | groupName =>
      exact valid_of_has (has_group h _ ht) fun q ⟨_, name, _, _, _, hp, _, e, _⟩ =>
        ⟨name, parts_sub hp name (by simp), e.1⟩
    | groupItemNotFound hi =>
      exact valid_of_has (has_groupItem h _ (List.mem_flatMap.2 ⟨_, ht, hi⟩)) fun q hq => ⟨q, .refl q, hq.2⟩
    | groupItem hs' =>
      exact valid_of_has (has_groupItem h _ (List.mem_flatMap.2 ⟨_, ht, by simp [hs']⟩))
        fun q hq => ⟨q, .refl q, hq.2⟩
  | @keys t ht hd =>
    cases hd with
    | attr has ha => exact hattr _ (mem_structSettings.2 (.inr (.inr ⟨t, ht, has⟩))) _ ha.mem
    | pkColumn hs' => exact column_span h (mem_columns ht (by simp [hs']))
    | pkIndex _ _ hd => exact def_span h (mem_indexDefs ht hd)
    | pkIndexes hs' => exact def_span h (mem_indexDefs ht (by simp [hs']))
    | pkNull hc => exact column_span h (mem_columns ht hc)
    | pkArray hc => exact column_span h (mem_columns ht hc)
    | nullNotNull hc hst =>
      exact valid_of_has (has_colSettings h _ (List.mem_filterMap.2 ⟨_, mem_columns ht hc, hst⟩))
        fun q ⟨_, _, e, _⟩ => ⟨q, .refl q, e⟩
    | @emptyIndex b d hb =>
      refine valid_of_has (has_table h t ht) ?_
      rintro q ⟨kw, name, al, st, blk, items, hp, -, -, -, -, -, hbr, -, -, -, hi⟩
      rw [hb] at hi
      have hm : b ∈ items.filterMap TableItem.indexes? := List.mem_of_getLast? hi.symm
      obtain ⟨it, hit, he⟩ := List.mem_filterMap.1 hm
      cases it <;> simp [TableItem.indexes?] at he
      subst he
      obtain ⟨q', hq', kw', blk', hp', -, e, -⟩ := has_braced hbr _ hit
      exact ⟨blk', (parts_sub hp' blk' (by simp)).trans (hq'.trans (parts_sub hp blk (by simp))), e⟩
    | indexColumn hd hi =>
      exact valid_of_has ((has_indexDef h _ (mem_indexDefs ht hd)).bind fun q hq => has_indexCol hq _ hi)
        fun q hq => ⟨q, .refl q, hq.1⟩
    | indexSetting hd hst =>
      exact valid_of_has (has_indexSettings h _ (List.mem_filterMap.2 ⟨_, mem_indexDefs ht hd, hst⟩))
        fun q hq => ⟨q, .refl q, hq.2.1⟩
    | uniqueColumn _ _ hd => exact def_span h (mem_indexDefs ht hd)
    | uniqueIndex hs' => exact def_span h (mem_indexDefs ht (by simp [hs']))
    | indexAgain hs' => exact def_span h (mem_indexDefs ht (by simp [hs']))

theorem defaultAt_span (h : SchemaD input s) {c sp} (hc : c ∈ columns s) (hd : DefaultAt c sp) :
    sp.valid input = true := by
  obtain ⟨st, a, l, hst, ha, hl, rfl⟩ := hd
  have ha' : a ∈ attributes s := by
    refine mem_attributes (as := st.attributes) ?_ (List.mem_of_find?_eq_some ha)
    exact List.mem_append_left _ (mem_checked_col hc (by simp [hst]))
  refine valid_of_has (has_attribute h a ha') ?_
  rintro q ⟨key, tail, hp, -, -, ho⟩
  obtain ⟨colon, v, hp', -, e⟩ := has_opt ho l hl
  exact ⟨v, (parts_sub hp' v (by simp)).trans (parts_sub hp tail (by simp)), e.1⟩

theorem columnDefect_span (h : SchemaD input s) {c e sp} (hc : c ∈ columns s) (hd : ColumnDefect s c e sp) :
    sp.valid input = true := by
  cases hd with
  | typeArgs => exact type_span h hc
  | typeArg => exact type_span h hc
  | enumSyntax => exact type_span h hc
  | enumSchema => exact type_span h hc
  | enumMissing => exact type_span h hc
  | enumDefault _ _ _ _ _ _ _ hd => exact defaultAt_span h hc hd
  | stringDefault _ _ _ _ _ hd => exact defaultAt_span h hc hd
  | boolDefault _ _ _ _ hd => exact defaultAt_span h hc hd
  | intDefault _ _ _ _ hd => exact defaultAt_span h hc hd
  | nullDefault _ _ hd => exact defaultAt_span h hc hd

/-- An endpoint of an indexed ref: as written, or that of an inline ref's column. -/
theorem ref_end (h : SchemaD input s) {r e} (hr : r ∈ refsInOrder s) (he : e ∈ [r.lhs, r.rhs]) :
    r.span_range.valid input = true ∧ e.span_range.valid input = true ∧
    ∀ i ∈ e.schema.toList ++ (e.table :: e.compositions), i ∈ idents s := by
  unfold refsInOrder at hr
  have hri : ∀ e ∈ refIdents s, e.span_range.valid input = true ∧
      ∀ i ∈ e.schema.toList ++ (e.table :: e.compositions), i ∈ idents s := by
    intro e he
    refine ⟨valid_of_has (has_refIdent h e he) fun q ⟨_, _, _, _, _, _, e', _⟩ => ⟨q, .refl q, e'⟩, ?_⟩
    intro i hi
    simp only [idents, List.mem_append (s := _ ++ _), List.mem_flatMap]
    exact .inr ⟨e, he, hi⟩
  rcases List.mem_append.1 hr with hr | hr
  · obtain ⟨b, hb, rfl⟩ := List.mem_map.1 hr
    have hsp : b.span_range.valid input = true :=
      valid_of_has ((has_ref h b hb).bind fun q hq => has_refStmt hq)
        fun q ⟨_, _, _, _, _, _, _, _, _, e'⟩ => ⟨q, .refl q, e'⟩
    simp only [List.mem_cons, List.not_mem_nil, or_false] at he
    refine ⟨hsp, hri e ?_⟩
    simp only [refIdents, List.mem_append, List.mem_map]
    rcases he with rfl | rfl
    · exact .inl (.inl ⟨b, hb, rfl⟩)
    · exact .inl (.inr ⟨b, hb, rfl⟩)
  · obtain ⟨t, ht, hr⟩ := List.mem_flatMap.1 hr
    obtain ⟨c, hc, hr⟩ := List.mem_flatMap.1 hr
    obtain ⟨i, hi, rfl⟩ := List.mem_map.1 hr
    have hi' : i ∈ refInlines s := by
      obtain ⟨st, hst, hi⟩ := List.mem_flatMap.1 hi
      refine List.mem_flatMap.2 ⟨st, List.mem_filterMap.2 ⟨c, mem_columns ht hc, ?_⟩, hi⟩
      simpa using hst
    have hsp : i.span_range.valid input = true :=
      valid_of_has (has_refInline h i hi') fun q ⟨_, _, _, _, _, _, _, _, _, e'⟩ => ⟨q, .refl q, e'⟩
    simp only [List.mem_cons, List.not_mem_nil, or_false] at he
    refine ⟨hsp, ?_⟩
    rcases he with rfl | rfl
    · refine ⟨hsp, ?_⟩
      intro j hj
      simp only [List.mem_append, List.mem_cons, List.not_mem_nil, or_false] at hj
      simp only [idents, List.mem_append, List.mem_flatMap, List.mem_map]
      rcases hj with hj | rfl | rfl
      · exact .inl (.inl (.inl (.inl (.inl (.inl (.inl (.inl (.inr ⟨t, ht, .inl hj⟩))))))))
      · exact .inl (.inl (.inl (.inl (.inl (.inl (.inl (.inl (.inr ⟨t, ht, .inr (by simp)⟩))))))))
      · exact .inl (.inl (.inl (.inl (.inl (.inl (.inl (.inr ⟨c, mem_columns ht hc, rfl⟩)))))))
    · refine hri _ ?_
      simp only [refIdents, List.mem_append, List.mem_map]
      exact .inr ⟨i, hi', rfl⟩

theorem endSpan_valid (h : SchemaD input s) {r e sp} (hr : r ∈ refsInOrder s) (he : e ∈ [r.lhs, r.rhs])
    (hsp : EndSpan e sp) : sp.valid input = true := by
  obtain ⟨-, h1, h2⟩ := ref_end h hr he
  rcases hsp with rfl | rfl | ⟨i, hi, rfl⟩
  · exact h1
  · exact ident_span h (h2 _ (by simp))
  · exact ident_span h (h2 _ (by simp [hi]))

theorem refDefect_span (h : SchemaD input s) {r e sp} (hr : r ∈ refsInOrder s) (hd : RefDefect s r e sp) :
    sp.valid input = true := by
  have hr0 := (ref_end h hr (e := r.lhs) (by simp)).1
  cases hd with
  | @refAttr st a hst ha =>
    refine attr_span h (mem_attributes (as := st.attributes) (List.mem_append_right _ ?_) ha.mem)
    unfold refsInOrder at hr
    rcases List.mem_append.1 hr with hr | hr
    · obtain ⟨b, hb, rfl⟩ := List.mem_map.1 hr
      exact List.mem_map.2 ⟨st, List.mem_filterMap.2 ⟨b, hb, hst⟩, rfl⟩
    · obtain ⟨t, -, hr⟩ := List.mem_flatMap.1 hr
      obtain ⟨c, -, hr⟩ := List.mem_flatMap.1 hr
      obtain ⟨i, -, rfl⟩ := List.mem_map.1 hr
      simp at hst
  | refArity => exact hr0
  | refSchema he _ _ hsp =>
    rcases hsp with hsp | ⟨-, rfl⟩
    · exact endSpan_valid h hr he hsp
    · exact zero_valid
  | refTable he _ _ hsp => exact endSpan_valid h hr he hsp
  | refColumn he _ _ _ hi => exact ident_span h ((ref_end h hr he).2.2 _ (by simp [hi]))
  | refType => exact hr0
  | refKey =>
    unfold keySpan
    split
    · exact (ref_end h hr (e := r.lhs) (by simp)).2.1
    · exact (ref_end h hr (e := r.rhs) (by simp)).2.1
    · exact hr0
  | refConflict => exact hr0
  | refUndef => exact hr0

theorem defect_span (h : SchemaD input s) {e sp} (hd : Defect s e sp) : sp.valid input = true := by
  rcases hd with hd | ⟨c, hc, hd⟩ | ⟨r, hr, hd⟩
  · exact structDefect_span h hd
  · exact columnDefect_span h hc hd
  · exact refDefect_span h hr hd

/-- Column types are raw names. -/
theorem parsed_raw (h : SchemaD input s) {c} (hc : c ∈ columns s) : ∃ n, HasRaw c n := by
  obtain ⟨q, hq, sc, body, name, -, -, -, hb, ⟨-, e⟩ | ⟨_, _, i, -, -, -, e⟩⟩ := has_colType h c hc
  · exact ⟨name, e⟩
  · exact ⟨_, e⟩

/-- With distinct keys, a default value comes from the first `default` attribute. -/
theorem parsed_default (h : SchemaD input s) {c} (hc : c ∈ columns s)
    (hk : ∀ st, c.settings = some st → DistinctKeys st.attributes) (hd : defaultOf c ≠ none) :
    ∃ sp, DefaultAt c sp := by
  cases hst : c.settings with
  | none => simp [defaultOf, hst] at hd
  | some st =>
    obtain ⟨q, hq, items, -, -, -, -, -, -, -, -, hdef, -⟩ :=
      has_colSettings h st (List.mem_filterMap.2 ⟨c, hc, hst⟩)
    have hk := hk st hst
    have hd : lastValue k!"default" st.attributes ≠ none := by
      intro h0
      simp [defaultOf, hst, hdef, h0] at hd
    unfold lastValue valuesOf at hd
    -- distinct keys: at most one attribute with the key
    have key : ∀ l : List Attribute, (l.map (·.key.to_string)).Nodup →
        (((l.filter fun a => a.key.to_string = k!"default").map (·.value)).getLast?).getD none =
          (l.find? fun a => a.key.to_string = k!"default").bind (·.value) := by
      intro l
      induction l with
      | nil => simp
      | cons a l ih =>
        intro hn
        simp only [List.map_cons, List.nodup_cons] at hn
        by_cases ha : a.key.to_string = k!"default"
        · have : l.filter (fun a => decide (a.key.to_string = k!"default")) = [] := by
            rw [List.filter_eq_nil_iff]
            intro b hb hbk
            refine hn.1 ?_
            rw [ha]
            exact List.mem_map.2 ⟨b, hb, by simpa using hbk⟩
          rw [List.filter_cons, if_pos (by simpa using ha), this, List.find?_cons_of_pos (by simpa using ha)]
          rfl
        · rw [List.filter_cons, if_neg (by simpa using ha), List.find?_cons_of_neg (by simpa using ha)]
          exact ih hn.2
    rw [key _ hk] at hd
    obtain ⟨l, hl⟩ := Option.ne_none_iff_exists'.1 hd
    obtain ⟨a, ha, hl⟩ := Option.bind_eq_some_iff.1 hl
    exact ⟨l.span_range, st, a, l, hst, ha, hl, rfl⟩

/-- A parsed schema can only make the analyzer panic through an out-of-bounds `args[0]`. -/
theorem parsed_panicAt (h : SchemaD input s) {k} (hp : PanicAt s k) :
    k = .argsIndex ∧ StructureOk s ∧ ∃ pre c post, columns s = pre ++ c :: post ∧
      (∀ d ∈ pre, ColumnOk s d) ∧ ColumnPanics c := by
  obtain ⟨hs, pre, c, post, h1, h2, h3⟩ := hp
  have hc : c ∈ columns s := by simp [h1]
  rcases h3 with ⟨rfl, h3⟩ | ⟨-, h3⟩ | ⟨-, h3, h4⟩
  · exact ⟨rfl, hs, pre, c, post, h1, h2, h3⟩
  · obtain ⟨n, hn⟩ := parsed_raw h hc
    exact absurd hn (h3 n)
  · obtain ⟨sp, hsp⟩ := parsed_default h hc (fun st hst =>
      hs.settings _ (mem_checked_col hc (by simp [hst]))) h3
    exact absurd hsp (h4 sp)

/-- **The outcome of the analysis of a parsed schema**: no panic but the one of `ColumnPanics`. -/
theorem analyze_parsed (h : SchemaD input s) :
    (∃ a, analyze s = .ok a ∧ Valid s ∧ Indexed s a.indexer ∧ GInv s s.table_groups a.indexer ∧
      a.indexed_refs = refsInOrder s) ∨
    (∃ e sp, analyze s = .err (.semantic e sp) ∧ FirstDefect s e sp) ∨
    (analyze s = .panic .argsIndex ∧ StructureOk s ∧ ∃ pre c post, columns s = pre ++ c :: post ∧
      (∀ d ∈ pre, ColumnOk s d) ∧ ColumnPanics c) := by
  have hi : s.input = input := by obtain ⟨_, _, _, _, _, _, _, _, e⟩ := h; exact e
  have ho := analyze_out s
  cases ha : analyze s with
  | ok a => rw [ha] at ho; exact .inl ⟨a, rfl, ho.1, ho.2.1, ho.2.2.1, ho.2.2.2.1⟩
  | err e =>
    rw [ha] at ho
    cases e with
    | semantic e sp => exact .inr (.inl ⟨e, sp, rfl, ho⟩)
    | _ => exact ho.elim
  | panic k =>
    rw [ha] at ho
    rcases ho with ho | ⟨-, e, sp, hd, hv⟩
    · obtain ⟨rfl, h1⟩ := parsed_panicAt h ho
      exact .inr (.inr ⟨rfl, h1⟩)
    · rw [hi, defect_span h hd.defect] at hv
      cases hv
  | diverge => rw [ha] at ho; exact ho.elim

end
end Dbml
