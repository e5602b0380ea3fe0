import Verif.Spec.Members
import Verif.Proofs.Trim
import Verif.Props.Shape
import Verif.Props.Grow
import Verif.Props.Example

/-!
# C78: members can be edited by their spans

The recorded span of a column, an index, an enum value or a member of a table group is the exact piece of the text that
declares it: the member can be taken out, replaced, or joined by others before or after it, by editing the text at the
span, and nothing else changes.
-/

namespace Dbml.Props

open Spec Source Syntax

variable {s : SchemaBlock} {txt u : Str} {bs1 bs2 : List TopLevelBlock}

/-- The text is read as these declarations, up to positions. -/
def ReadsAs (txt : Str) (bs : List TopLevelBlock) : Prop :=
  ∃ s', parseDbmlUnchecked txt = .ok s' ∧ s'.blocks.map (·.mapSpan noPos) = bs.map (·.mapSpan noPos)

/-- `parse_dbml` accepts such a text exactly when the declarations satisfy the rules. -/
theorem ReadsAs.checked {bs : List TopLevelBlock} (h : ReadsAs txt bs) :
    (∃ r, parseDbml txt = .ok r) ↔ Valid { blocks := bs } := by
  obtain ⟨s', p, a⟩ := h
  rw [accepted_iff_bare p, ← valid_bare { blocks := bs }]
  unfold bare
  rw [a]

/-! ## Texts of members -/

/-- **C78.** A text declares columns exactly when it does so between the braces of a table. -/
theorem C78_columns_between {cs : List TableColumn} : ColumnsText u cs ↔
    ∃ s' t', parseDbmlUnchecked (k!"Table t {" ++ (u ++ k!"\n}")) = .ok s' ∧ s'.blocks = [.table t'] ∧
      t'.cols.map (·.mapSpan noPos) = cs.map (·.mapSpan noPos) ∧ t'.note = none ∧ t'.indexes = none := by
  constructor
  · rintro ⟨xs, hok, hw, ha⟩
    obtain ⟨s', p, a, -⟩ := C44_written_is_read
      [.table { kw := k!"Table ", schema := none, name := .word k!"t", «alias» := none, settings := none, items := xs.map .col }]
      (by
        intro b hb
        cases List.mem_singleton.1 hb
        refine ⟨rfl, by simp, ⟨'t', [], rfl, by decide, by simp⟩, by simp, by simp, ?_⟩
        intro i hi
        obtain ⟨x, hx, rfl⟩ := List.mem_map.1 hi
        exact hok x hx) (k!"Table t {" ++ (u ++ k!"\n}")) (by
        refine ⟨[], k!"t {" ++ (u ++ k!"\n}"), rfl, .nil, trivial, ?_⟩
        refine ⟨[], k!" {" ++ (u ++ k!"\n}"), rfl, .nil, ?_, ?_⟩
        · rintro c t e
          cases e
          rintro (h | h) <;> revert h <;> decide
        refine ⟨k!" ", u ++ k!"\n}", rfl, .space (.inl rfl) .nil, trivial, ?_⟩
        have := written_join (t2 := k!"}") (ts2 := [rbrace]) (AllBreak.flatMap breaks_col) hw
          ⟨[], [], rfl, .nil, trivial, .inl .nil⟩ (.inr (by decide))
        simpa [flatMap_col] using this)
    have a : s'.blocks.map (·.mapSpan noPos) = [.table (Source.Table.ast _)] := a
    obtain ⟨b, hb, e⟩ : ∃ b, s'.blocks = [b] ∧ b.mapSpan noPos = _ := by
      rw [List.map_eq_singleton_iff] at a
      exact a
    cases b with
    | table t' =>
      have e := TopLevelBlock.table.inj (show TopLevelBlock.table (t'.mapSpan noPos) = .table _ from e)
      refine ⟨s', t', p, hb, ?_, ?_, ?_⟩
      · rw [← ha, ← cols_col]
        exact congrArg TableBlock.cols e
      · have := congrArg TableBlock.note e
        simp only [Source.Table.ast, cols_note] at this
        simpa [TableBlock.mapSpan] using this
      · have := congrArg TableBlock.indexes e
        simp only [Source.Table.ast, cols_indexes] at this
        simpa [TableBlock.mapSpan] using this
    | _ => cases e
  · rintro ⟨s', t', p, hb, hc, hn, hi⟩
    obtain ⟨d, hd, hw, ha⟩ := (C57_ast _ _).1 ⟨s', p, rfl⟩
    rw [hb] at ha
    obtain ⟨x, rfl, e⟩ : ∃ x, d = [x] ∧ x.ast = TopLevelBlock.mapSpan noPos (.table t') := by
      simpa [Doc.ast, List.map_eq_singleton_iff] using ha
    have hx := hd x (by simp)
    cases x with
    | table T =>
      have e : T.ast = t'.mapSpan noPos := by
        have : TopLevelBlock.table T.ast = .table (t'.mapSpan noPos) := e
        injection this
      have e1 := congrArg TableBlock.note e
      have e2 := congrArg TableBlock.indexes e
      have e3 := congrArg TableBlock.cols e
      obtain ⟨xs, hxs⟩ := items_cols (is := T.items) (getLast?_none (by simpa [Source.Table.ast, TableBlock.mapSpan, hn] using e1))
        (getLast?_none (by simpa [Source.Table.ast, TableBlock.mapSpan, hi] using e2))
      have hTok : T.Ok := hx
      have hxok : ∀ y ∈ xs, y.Ok := fun y hy => hTok.2.2.2.2.2 (.col y) (by rw [hxs]; simp [hy])
      have hw' := table_between hTok (by simpa [Doc.toks, Block.toks] using hw)
      rw [hxs, flatMap_col] at hw'
      refine ⟨xs, hxok, written_close (.flatMap breaks_col) (.flatMap fun y hy => trim_col (hxok y hy)) hw', ?_⟩
      rw [← hc]
      have : (T.items.filterMap (·.col?)) = t'.cols.map (·.mapSpan noPos) := e3
      rw [hxs, cols_col] at this
      exact this
    | _ => cases e

/-- **C78.** A text declares enum values exactly when it does so between the braces of an enum. -/
theorem C78_values_between {vs : List EnumValue} : ValuesText u vs ↔
    ∃ s' e', parseDbmlUnchecked (k!"Enum t {" ++ (u ++ k!"\n}")) = .ok s' ∧ s'.blocks = [.enum e'] ∧
      e'.values.map (·.mapSpan noPos) = vs.map (·.mapSpan noPos) := by
  constructor
  · rintro ⟨xs, hok, hw, ha⟩
    obtain ⟨s', p, a, -⟩ := C44_written_is_read
      [.enum { kw := k!"Enum ", schema := none, name := .word k!"t", values := xs }]
      (by
        intro b hb
        cases List.mem_singleton.1 hb
        exact ⟨rfl, by simp, ⟨'t', [], rfl, by decide, by simp⟩, hok⟩) (k!"Enum t {" ++ (u ++ k!"\n}")) (by
        refine ⟨[], k!"t {" ++ (u ++ k!"\n}"), rfl, .nil, trivial, ?_⟩
        refine ⟨[], k!" {" ++ (u ++ k!"\n}"), rfl, .nil, ?_, ?_⟩
        · rintro c t e
          cases e
          rintro (h | h) <;> revert h <;> decide
        refine ⟨k!" ", u ++ k!"\n}", rfl, .space (.inl rfl) .nil, trivial, ?_⟩
        have := written_join (t2 := k!"}") (ts2 := [rbrace]) (AllBreak.flatMap breaks_eval) hw
          ⟨[], [], rfl, .nil, trivial, .inl .nil⟩ (.inr (by decide))
        simpa using this)
    have a : s'.blocks.map (·.mapSpan noPos) = [.enum (Source.Enum.ast _)] := a
    obtain ⟨b, hb, e⟩ : ∃ b, s'.blocks = [b] ∧ b.mapSpan noPos = _ := by
      rw [List.map_eq_singleton_iff] at a
      exact a
    cases b with
    | enum e' =>
      have e := TopLevelBlock.enum.inj (show TopLevelBlock.enum (e'.mapSpan noPos) = .enum _ from e)
      exact ⟨s', e', p, hb, (congrArg EnumBlock.values e).trans ha⟩
    | _ => cases e
  · rintro ⟨s', e', p, hb, hc⟩
    obtain ⟨d, hd, hw, ha⟩ := (C57_ast _ _).1 ⟨s', p, rfl⟩
    rw [hb] at ha
    obtain ⟨x, rfl, e⟩ : ∃ x, d = [x] ∧ x.ast = TopLevelBlock.mapSpan noPos (.enum e') := by
      simpa [Doc.ast, List.map_eq_singleton_iff] using ha
    have hx := hd x (by simp)
    cases x with
    | enum E =>
      have e : E.ast = e'.mapSpan noPos := by
        have : TopLevelBlock.enum E.ast = .enum (e'.mapSpan noPos) := e
        injection this
      have hE : E.Ok := hx
      have hw' := enum_between hE (by simpa [Doc.toks, Block.toks] using hw)
      exact ⟨E.values, hE.2.2.2, written_close (.flatMap breaks_eval)
        (.flatMap fun y hy => trim_eval (hE.2.2.2 y hy)) hw', (congrArg EnumBlock.values e).trans hc⟩
    | _ => cases e

theorem itemsText_iff {is : List TableGroupItem} : ItemsText u is ↔
    ∃ xs : List (Option Name × Name), (∀ x ∈ xs, gnameOk x) ∧ Written (xs.flatMap gnameToks) u ∧ xs.map gnameAst = is.map (·.mapSpan noPos) := by
  have : ∀ xs : List (Option Name × Name), xs.filterMap (fun x => (GItem.item x.1 x.2).item?) = xs.map gnameAst := by
    intro xs
    induction xs with
    | nil => rfl
    | cons x xs ih => simp [GItem.item?, gnameAst]
  unfold ItemsText
  constructor
  · rintro ⟨xs, h1, h2, h3⟩
    exact ⟨xs, h1, h2, by rw [← this]; exact h3⟩
  · rintro ⟨xs, h1, h2, h3⟩
    exact ⟨xs, h1, h2, by rw [this]; exact h3⟩

/-- **C78.** A text lists members of a group exactly when it does so between the braces of a table group. -/
theorem C78_members_between {is : List TableGroupItem} : ItemsText u is ↔
    ∃ s' g', parseDbmlUnchecked (k!"TableGroup t {" ++ (u ++ k!"\n}")) = .ok s' ∧ s'.blocks = [.tableGroup g'] ∧
      g'.items.map (·.mapSpan noPos) = is.map (·.mapSpan noPos) ∧ g'.note = none := by
  rw [itemsText_iff]
  constructor
  · rintro ⟨xs, hok, hw, ha⟩
    obtain ⟨s', p, a, -⟩ := C44_written_is_read
      [.group { kw := k!"TableGroup ", name := .word k!"t", settings := none, items := xs.map gname }]
      (by
        intro b hb
        cases List.mem_singleton.1 hb
        refine ⟨rfl, ⟨'t', [], rfl, by decide, by simp⟩, by simp, ?_⟩
        intro i hi
        obtain ⟨x, hx, rfl⟩ := List.mem_map.1 hi
        exact hok x hx) (k!"TableGroup t {" ++ (u ++ k!"\n}")) (by
        refine ⟨[], k!"t {" ++ (u ++ k!"\n}"), rfl, .nil, trivial, ?_⟩
        refine ⟨[], k!" {" ++ (u ++ k!"\n}"), rfl, .nil, ?_, ?_⟩
        · rintro c t e
          cases e
          rintro (h | h) <;> revert h <;> decide
        refine ⟨k!" ", u ++ k!"\n}", rfl, .space (.inl rfl) .nil, trivial, ?_⟩
        have := written_join (t2 := k!"}") (ts2 := [rbrace]) (AllBreak.flatMap (f := gnameToks) fun x => breaks_qual x.1 x.2) hw
          ⟨[], [], rfl, .nil, trivial, .inl .nil⟩ (.inr (by decide))
        simpa [gnames_toks] using this)
    have a : s'.blocks.map (·.mapSpan noPos) = [.tableGroup (Source.Group.ast _)] := a
    obtain ⟨b, hb, e⟩ : ∃ b, s'.blocks = [b] ∧ b.mapSpan noPos = _ := by
      rw [List.map_eq_singleton_iff] at a
      exact a
    cases b with
    | tableGroup g' =>
      have e := TopLevelBlock.tableGroup.inj (show TopLevelBlock.tableGroup (g'.mapSpan noPos) = .tableGroup _ from e)
      refine ⟨s', g', p, hb, ?_, ?_⟩
      · rw [← ha, ← gnames_item]
        exact congrArg TableGroupBlock.items e
      · have := congrArg TableGroupBlock.note e
        simp only [Source.Group.ast, gnames_note] at this
        simpa [TableGroupBlock.mapSpan] using this
    | _ => cases e
  · rintro ⟨s', g', p, hb, hc, hn⟩
    obtain ⟨d, hd, hw, ha⟩ := (C57_ast _ _).1 ⟨s', p, rfl⟩
    rw [hb] at ha
    obtain ⟨x, rfl, e⟩ : ∃ x, d = [x] ∧ x.ast = TopLevelBlock.mapSpan noPos (.tableGroup g') := by
      simpa [Doc.ast, List.map_eq_singleton_iff] using ha
    have hx := hd x (by simp)
    cases x with
    | group Gr =>
      have e : Gr.ast = g'.mapSpan noPos := by
        have : TopLevelBlock.tableGroup Gr.ast = .tableGroup (g'.mapSpan noPos) := e
        injection this
      have e1 := congrArg TableGroupBlock.note e
      have e3 := congrArg TableGroupBlock.items e
      obtain ⟨xs, hxs⟩ := gitems_names (is := Gr.items) (getLast?_none (by simpa [Source.Group.ast, TableGroupBlock.mapSpan, hn] using e1))
      have hTok : Gr.Ok := hx
      have hxok : ∀ y ∈ xs, gnameOk y := fun y hy => hTok.2.2.2 (gname y) (by
        rw [hxs]; exact List.mem_map_of_mem hy)
      have hw' := group_between hTok (by simpa [Doc.toks, Block.toks] using hw)
      rw [hxs, gnames_toks] at hw'
      refine ⟨xs, hxok, written_close (.flatMap fun x : Option Name × Name => breaks_qual x.1 x.2)
        (.flatMap fun y hy => trim_qual (hxok y hy).1 (hxok y hy).2) hw', ?_⟩
      rw [← hc]
      have : (Gr.items.filterMap (·.item?)) = g'.items.map (·.mapSpan noPos) := e3
      rw [hxs, gnames_item] at this
      exact this
    | _ => cases e

/-- **C78.** A text that declares indexes does so between the braces of an `Indexes` block. -/
theorem C78_indexes_between {ds : List IndexesDef} (h : IndexesText u ds) :
    ∃ s' t' ib', parseDbmlUnchecked (k!"Table t { Indexes {" ++ (u ++ k!"\n} }")) = .ok s' ∧ s'.blocks = [.table t'] ∧
      t'.indexes = some ib' ∧ ib'.defs.map (·.mapSpan noPos) = ds.map (·.mapSpan noPos) := by
  obtain ⟨xs, hok, hw, ha⟩ := h
  obtain ⟨s', p, a, -⟩ := C44_written_is_read
    [.table { kw := k!"Table ", schema := none, name := .word k!"t", «alias» := none, settings := none,
              items := [.indexes { kw := k!"Indexes", defs := xs }] }]
    (by
      intro b hb
      cases List.mem_singleton.1 hb
      refine ⟨rfl, by simp, ⟨'t', [], rfl, by decide, by simp⟩, by simp, by simp, ?_⟩
      intro i hi
      cases List.mem_singleton.1 hi
      exact ⟨rfl, hok⟩) (k!"Table t { Indexes {" ++ (u ++ k!"\n} }")) (by
      refine ⟨[], k!"t { Indexes {" ++ (u ++ k!"\n} }"), rfl, .nil, trivial, ?_⟩
      refine ⟨[], k!" { Indexes {" ++ (u ++ k!"\n} }"), rfl, .nil, ?_, ?_⟩
      · rintro c t e
        cases e
        rintro (h | h) <;> revert h <;> decide
      refine ⟨k!" ", k!" Indexes {" ++ (u ++ k!"\n} }"), rfl, .space (.inl rfl) .nil, trivial, ?_⟩
      refine ⟨k!" ", k!" {" ++ (u ++ k!"\n} }"), rfl, .space (.inl rfl) .nil, trivial, ?_⟩
      refine ⟨k!" ", u ++ k!"\n} }", rfl, .space (.inl rfl) .nil, trivial, ?_⟩
      have := written_join (t2 := k!"} }") (ts2 := [rbrace, rbrace]) (AllBreak.flatMap breaks_idef) hw
        ⟨[], k!" }", rfl, .nil, trivial, k!" ", [], rfl, .space (.inl rfl) .nil, trivial, .inl .nil⟩ (.inr (by decide))
      simpa using this)
  have a : s'.blocks.map (·.mapSpan noPos) = [.table (Source.Table.ast _)] := a
  obtain ⟨b, hb, e⟩ : ∃ b, s'.blocks = [b] ∧ b.mapSpan noPos = _ := by
    rw [List.map_eq_singleton_iff] at a
    exact a
  cases b with
  | table t' =>
    have e := TopLevelBlock.table.inj (show TopLevelBlock.table (t'.mapSpan noPos) = .table _ from e)
    have e1 := congrArg TableBlock.indexes e
    cases hi : t'.indexes with
    | none => simp [Source.Table.ast, TableBlock.mapSpan, hi, TItem.indexes?] at e1
    | some ib' =>
      refine ⟨s', t', ib', p, hb, hi, ?_⟩
      simp only [Source.Table.ast, TableBlock.mapSpan, hi, Option.map_some, List.filterMap_cons, indexes?_indexes,
        List.filterMap_nil, List.getLast?_singleton, Option.some.injEq] at e1
      exact (congrArg IndexesBlock.defs e1).trans ha
  | _ => cases e

/-! ## Columns -/

section
variable {t : TableBlock} {c : TableColumn} {cs1 cs2 cs : List TableColumn}

/-- **C78.** The text at the span of a column declares that column. -/
theorem C78_column_text (h : parseDbmlUnchecked txt = .ok s) (hs : s.blocks = bs1 ++ .table t :: bs2) (hc : t.cols = cs1 ++ c :: cs2) :
    ColumnsText (slice txt c.span_range) [c] := by
  obtain ⟨put, he, -⟩ := column_editable h hs hc
  obtain ⟨x, hx, hw, e⟩ := he.text
  exact ⟨[x], by simpa using hx, by simpa using hw, by simp [e]⟩

/-- **C78.** Taking out the text at the span of a column takes out the column, and changes nothing else. -/
theorem C78_column_delete (h : parseDbmlUnchecked txt = .ok s) (hs : s.blocks = bs1 ++ .table t :: bs2) (hc : t.cols = cs1 ++ c :: cs2) :
    ReadsAs (without txt c.span_range) (bs1 ++ .table { t with cols := cs1 ++ cs2 } :: bs2) := by
  obtain ⟨put, he, hp⟩ := column_editable h hs hc
  obtain ⟨s', p, a⟩ := he.delete
  exact ⟨s', p, by rw [a]; simpa using hp []⟩

/-- **C78.** Replacing the text at the span of a column by a text that declares `cs`, on lines of its own, replaces the
column by `cs`, and changes nothing else. -/
theorem C78_column_replace (h : parseDbmlUnchecked txt = .ok s) (hs : s.blocks = bs1 ++ .table t :: bs2) (hc : t.cols = cs1 ++ c :: cs2)
    (hu : ColumnsText u cs) (hf : FitsAt txt c.span_range u) :
    ReadsAs (splice txt c.span_range u) (bs1 ++ .table { t with cols := cs1 ++ cs ++ cs2 } :: bs2) := by
  obtain ⟨put, he, hp⟩ := column_editable h hs hc
  obtain ⟨xs, hx, hw, e⟩ := hu
  obtain ⟨s', p, a⟩ := he.splice hx hw hf.1 hf.2
  exact ⟨s', p, by rw [a, e]; exact hp _⟩

/-- **C78.** Such a text can also be inserted directly before a column, or directly after it. -/
theorem C78_column_insert (h : parseDbmlUnchecked txt = .ok s) (hs : s.blocks = bs1 ++ .table t :: bs2) (hc : t.cols = cs1 ++ c :: cs2)
    (hu : ColumnsText u cs) :
    (FitsAt txt (atStart c.span_range) u → ReadsAs (splice txt (atStart c.span_range) u)
      (bs1 ++ .table { t with cols := cs1 ++ cs ++ c :: cs2 } :: bs2)) ∧
    (FitsAt txt (atStop c.span_range) u → ReadsAs (splice txt (atStop c.span_range) u)
      (bs1 ++ .table { t with cols := cs1 ++ c :: cs ++ cs2 } :: bs2)) := by
  obtain ⟨put, he, hp⟩ := column_editable h hs hc
  obtain ⟨xs, hx, hw, e⟩ := hu
  refine ⟨fun hf => ?_, fun hf => ?_⟩
  · obtain ⟨s', p, a⟩ := he.insertBefore hx hw hf.1 hf.2
    exact ⟨s', p, by rw [a, e]; simpa using hp (cs ++ [c])⟩
  · obtain ⟨s', p, a⟩ := he.insertAfter hx hw hf.1 hf.2
    exact ⟨s', p, by rw [a, e]; simpa using hp (c :: cs)⟩

end

/-! ## Indexs -/

section
variable {t : TableBlock} {ib : IndexesBlock} {d : IndexesDef} {ds1 ds2 ds : List IndexesDef}

/-- **C78.** The text at the span of an index declares that index. -/
theorem C78_index_text (h : parseDbmlUnchecked txt = .ok s) (hs : s.blocks = bs1 ++ .table t :: bs2) (hi : t.indexes = some ib)
    (hc : ib.defs = ds1 ++ d :: ds2) :
    IndexesText (slice txt d.span_range) [d] := by
  obtain ⟨put, he, -⟩ := index_editable h hs hi hc
  obtain ⟨x, hx, hw, e⟩ := he.text
  exact ⟨[x], by simpa using hx, by simpa using hw, by simp [e]⟩

/-- **C78.** Taking out the text at the span of an index takes out the index, and changes nothing else. -/
theorem C78_index_delete (h : parseDbmlUnchecked txt = .ok s) (hs : s.blocks = bs1 ++ .table t :: bs2) (hi : t.indexes = some ib)
    (hc : ib.defs = ds1 ++ d :: ds2) :
    ReadsAs (without txt d.span_range) (bs1 ++ .table { t with indexes := some { ib with defs := ds1 ++ ds2 } } :: bs2) := by
  obtain ⟨put, he, hp⟩ := index_editable h hs hi hc
  obtain ⟨s', p, a⟩ := he.delete
  exact ⟨s', p, by rw [a]; simpa using hp []⟩

/-- **C78.** Replacing the text at the span of an index by a text that declares `ds`, on lines of its own, replaces the
index by `ds`, and changes nothing else. -/
theorem C78_index_replace (h : parseDbmlUnchecked txt = .ok s) (hs : s.blocks = bs1 ++ .table t :: bs2) (hi : t.indexes = some ib)
    (hc : ib.defs = ds1 ++ d :: ds2)
    (hu : IndexesText u ds) (hf : FitsAt txt d.span_range u) :
    ReadsAs (splice txt d.span_range u) (bs1 ++ .table { t with indexes := some { ib with defs := ds1 ++ ds ++ ds2 } } :: bs2) := by
  obtain ⟨put, he, hp⟩ := index_editable h hs hi hc
  obtain ⟨xs, hx, hw, e⟩ := hu
  obtain ⟨s', p, a⟩ := he.splice hx hw hf.1 hf.2
  exact ⟨s', p, by rw [a, e]; exact hp _⟩

/-- **C78.** Such a text can also be inserted directly before an index, or directly after it. -/
theorem C78_index_insert (h : parseDbmlUnchecked txt = .ok s) (hs : s.blocks = bs1 ++ .table t :: bs2) (hi : t.indexes = some ib)
    (hc : ib.defs = ds1 ++ d :: ds2)
    (hu : IndexesText u ds) :
    (FitsAt txt (atStart d.span_range) u → ReadsAs (splice txt (atStart d.span_range) u)
      (bs1 ++ .table { t with indexes := some { ib with defs := ds1 ++ ds ++ d :: ds2 } } :: bs2)) ∧
    (FitsAt txt (atStop d.span_range) u → ReadsAs (splice txt (atStop d.span_range) u)
      (bs1 ++ .table { t with indexes := some { ib with defs := ds1 ++ d :: ds ++ ds2 } } :: bs2)) := by
  obtain ⟨put, he, hp⟩ := index_editable h hs hi hc
  obtain ⟨xs, hx, hw, e⟩ := hu
  refine ⟨fun hf => ?_, fun hf => ?_⟩
  · obtain ⟨s', p, a⟩ := he.insertBefore hx hw hf.1 hf.2
    exact ⟨s', p, by rw [a, e]; simpa using hp (ds ++ [d])⟩
  · obtain ⟨s', p, a⟩ := he.insertAfter hx hw hf.1 hf.2
    exact ⟨s', p, by rw [a, e]; simpa using hp (d :: ds)⟩

end

/-! ## Values -/

section
variable {e : EnumBlock} {v : EnumValue} {vs1 vs2 vs : List EnumValue}

/-- **C78.** The text at the span of a value declares that value. -/
theorem C78_value_text (h : parseDbmlUnchecked txt = .ok s) (hs : s.blocks = bs1 ++ .enum e :: bs2) (hc : e.values = vs1 ++ v :: vs2) :
    ValuesText (slice txt v.span_range) [v] := by
  obtain ⟨put, he, -⟩ := value_editable h hs hc
  obtain ⟨x, hx, hw, e⟩ := he.text
  exact ⟨[x], by simpa using hx, by simpa using hw, by simp [e]⟩

/-- **C78.** Taking out the text at the span of a value takes out the value, and changes nothing else. -/
theorem C78_value_delete (h : parseDbmlUnchecked txt = .ok s) (hs : s.blocks = bs1 ++ .enum e :: bs2) (hc : e.values = vs1 ++ v :: vs2) :
    ReadsAs (without txt v.span_range) (bs1 ++ .enum { e with values := vs1 ++ vs2 } :: bs2) := by
  obtain ⟨put, he, hp⟩ := value_editable h hs hc
  obtain ⟨s', p, a⟩ := he.delete
  exact ⟨s', p, by rw [a]; simpa using hp []⟩

/-- **C78.** Replacing the text at the span of a value by a text that declares `vs`, on lines of its own, replaces the
value by `vs`, and changes nothing else. -/
theorem C78_value_replace (h : parseDbmlUnchecked txt = .ok s) (hs : s.blocks = bs1 ++ .enum e :: bs2) (hc : e.values = vs1 ++ v :: vs2)
    (hu : ValuesText u vs) (hf : FitsAt txt v.span_range u) :
    ReadsAs (splice txt v.span_range u) (bs1 ++ .enum { e with values := vs1 ++ vs ++ vs2 } :: bs2) := by
  obtain ⟨put, he, hp⟩ := value_editable h hs hc
  obtain ⟨xs, hx, hw, e⟩ := hu
  obtain ⟨s', p, a⟩ := he.splice hx hw hf.1 hf.2
  exact ⟨s', p, by rw [a, e]; exact hp _⟩

/-- **C78.** Such a text can also be inserted directly before a value, or directly after it. -/
theorem C78_value_insert (h : parseDbmlUnchecked txt = .ok s) (hs : s.blocks = bs1 ++ .enum e :: bs2) (hc : e.values = vs1 ++ v :: vs2)
    (hu : ValuesText u vs) :
    (FitsAt txt (atStart v.span_range) u → ReadsAs (splice txt (atStart v.span_range) u)
      (bs1 ++ .enum { e with values := vs1 ++ vs ++ v :: vs2 } :: bs2)) ∧
    (FitsAt txt (atStop v.span_range) u → ReadsAs (splice txt (atStop v.span_range) u)
      (bs1 ++ .enum { e with values := vs1 ++ v :: vs ++ vs2 } :: bs2)) := by
  obtain ⟨put, he, hp⟩ := value_editable h hs hc
  obtain ⟨xs, hx, hw, e⟩ := hu
  refine ⟨fun hf => ?_, fun hf => ?_⟩
  · obtain ⟨s', p, a⟩ := he.insertBefore hx hw hf.1 hf.2
    exact ⟨s', p, by rw [a, e]; simpa using hp (vs ++ [v])⟩
  · obtain ⟨s', p, a⟩ := he.insertAfter hx hw hf.1 hf.2
    exact ⟨s', p, by rw [a, e]; simpa using hp (v :: vs)⟩

end

/-! ## Members -/

section
variable {g : TableGroupBlock} {i : TableGroupItem} {is1 is2 is : List TableGroupItem}

/-- **C78.** The text at the span of a member declares that member. -/
theorem C78_member_text (h : parseDbmlUnchecked txt = .ok s) (hs : s.blocks = bs1 ++ .tableGroup g :: bs2) (hc : g.items = is1 ++ i :: is2) :
    ItemsText (slice txt i.span_range) [i] := by
  obtain ⟨put, he, -⟩ := member_editable h hs hc
  obtain ⟨x, hx, hw, e⟩ := he.text
  exact itemsText_iff.2 ⟨[x], by simpa using hx, by simpa using hw, by simp [e]⟩

/-- **C78.** Taking out the text at the span of a member takes out the member, and changes nothing else. -/
theorem C78_member_delete (h : parseDbmlUnchecked txt = .ok s) (hs : s.blocks = bs1 ++ .tableGroup g :: bs2) (hc : g.items = is1 ++ i :: is2) :
    ReadsAs (without txt i.span_range) (bs1 ++ .tableGroup { g with items := is1 ++ is2 } :: bs2) := by
  obtain ⟨put, he, hp⟩ := member_editable h hs hc
  obtain ⟨s', p, a⟩ := he.delete
  exact ⟨s', p, by rw [a]; simpa using hp []⟩

/-- **C78.** Replacing the text at the span of a member by a text that declares `is`, on lines of its own, replaces the
member by `is`, and changes nothing else. -/
theorem C78_member_replace (h : parseDbmlUnchecked txt = .ok s) (hs : s.blocks = bs1 ++ .tableGroup g :: bs2) (hc : g.items = is1 ++ i :: is2)
    (hu : ItemsText u is) (hf : FitsAt txt i.span_range u) :
    ReadsAs (splice txt i.span_range u) (bs1 ++ .tableGroup { g with items := is1 ++ is ++ is2 } :: bs2) := by
  obtain ⟨put, he, hp⟩ := member_editable h hs hc
  obtain ⟨xs, hx, hw, e⟩ := itemsText_iff.1 hu
  obtain ⟨s', p, a⟩ := he.splice hx hw hf.1 hf.2
  exact ⟨s', p, by rw [a, e]; exact hp _⟩

/-- **C78.** Such a text can also be inserted directly before a member, or directly after it. -/
theorem C78_member_insert (h : parseDbmlUnchecked txt = .ok s) (hs : s.blocks = bs1 ++ .tableGroup g :: bs2) (hc : g.items = is1 ++ i :: is2)
    (hu : ItemsText u is) :
    (FitsAt txt (atStart i.span_range) u → ReadsAs (splice txt (atStart i.span_range) u)
      (bs1 ++ .tableGroup { g with items := is1 ++ is ++ i :: is2 } :: bs2)) ∧
    (FitsAt txt (atStop i.span_range) u → ReadsAs (splice txt (atStop i.span_range) u)
      (bs1 ++ .tableGroup { g with items := is1 ++ i :: is ++ is2 } :: bs2)) := by
  obtain ⟨put, he, hp⟩ := member_editable h hs hc
  obtain ⟨xs, hx, hw, e⟩ := itemsText_iff.1 hu
  refine ⟨fun hf => ?_, fun hf => ?_⟩
  · obtain ⟨s', p, a⟩ := he.insertBefore hx hw hf.1 hf.2
    exact ⟨s', p, by rw [a, e]; simpa using hp (is ++ [i])⟩
  · obtain ⟨s', p, a⟩ := he.insertAfter hx hw hf.1 hf.2
    exact ⟨s', p, by rw [a, e]; simpa using hp (i :: is)⟩

end

theorem checked_parts (h : parseDbml txt = .ok s) : parseDbmlUnchecked txt = .ok s ∧ Valid s := by
  have h0 := ((C33_accepts_iff_valid txt s).1 h).1
  exact ⟨h0, (valid_bare s).1 ((accepted_iff_bare h0).1 ⟨s, h⟩)⟩

/-! ## What `parse_dbml` says of the edited text -/

/-- **C78.** A column can be taken out of the text of a valid schema exactly when no index and no reference uses it
(`C66_drop_column`). -/
theorem C78_drop_column {t : TableBlock} {c : TableColumn} {cs1 cs2 : List TableColumn} (h : parseDbml txt = .ok s)
    (hs : s.blocks = bs1 ++ .table t :: bs2) (hc : t.cols = cs1 ++ c :: cs2) :
    (∃ r, parseDbml (without txt c.span_range) = .ok r) ↔
      (∀ d ∈ defsOf t, c.name.to_string ∉ indexNames d) ∧
      ∀ k ∈ links { blocks := bs1 ++ .table { t with cols := cs1 ++ cs2 } :: bs2 }, ∀ e ∈ [k.lhs, k.rhs],
        EndMeans s e t → c.name.to_string ∉ e.cols := by
  obtain ⟨hu, hv⟩ := checked_parts h
  rw [(C78_column_delete hu hs hc).checked]
  exact C66_drop_column (S := s) (T := t) (t := { t with cols := cs1 ++ cs2 }) ⟨⟨bs1, bs2, hs, rfl⟩, rfl, rfl, rfl⟩
    ⟨cs1, cs2, rfl, hc⟩ hv

/-- **C78.** The text at the span of an enum value of a valid schema can be replaced by a text that declares `vs` exactly
when the values are then different and include the default values in use (`C66_enum_values`). -/
theorem C78_replace_value {e : EnumBlock} {v : EnumValue} {vs1 vs2 vs : List EnumValue} (h : parseDbml txt = .ok s)
    (hs : s.blocks = bs1 ++ .enum e :: bs2) (hc : e.values = vs1 ++ v :: vs2) (hu : ValuesText u vs)
    (hf : FitsAt txt v.span_range u) :
    (∃ r, parseDbml (splice txt v.span_range u) = .ok r) ↔
      ((vs1 ++ vs ++ vs2).map (·.value.to_string)).Nodup ∧
      (∀ x ∈ vs1 ++ vs ++ vs2, ∀ st, x.settings = some st → DistinctKeys st.attributes) ∧
      ∀ c ∈ columns s, DefaultsTo c (enumKey e) → ∀ x, defaultOf c = some x →
        x.toStr ∈ (vs1 ++ vs ++ vs2).map (·.value.to_string) := by
  obtain ⟨hu', hv⟩ := checked_parts h
  rw [(C78_value_replace hu' hs hc hu hf).checked]
  exact C66_enum_values (E := { e with values := vs1 ++ vs ++ vs2 }) ⟨⟨bs1, bs2, hs, rfl⟩, rfl⟩ hv

/-! ## Concrete cases -/

/-- The first table of a list of declarations. -/
def headTable : List TopLevelBlock → TableBlock
  | .table t :: _ => t
  | _ => {}

/-- The table `core.users` of the example and its column `st`. -/
def exUsers : TableBlock := headTable (exAst.blocks.drop 2)
def exSt : TableColumn := exUsers.cols.getD 1 {}

theorem ex_users : exAst.blocks = exAst.blocks.take 2 ++ .table exUsers :: exAst.blocks.drop 3 := by decide +kernel
theorem ex_cols : exUsers.cols = exUsers.cols.take 1 ++ exSt :: exUsers.cols.drop 2 := by decide +kernel

example : slice exText exSt.span_range = k!"st core.status [default: active]" := by decide +kernel

/-- The column is taken out. -/
example : ReadsAs (without exText exSt.span_range) (exAst.blocks.take 2 ++
    .table { exUsers with cols := exUsers.cols.take 1 ++ exUsers.cols.drop 2 } :: exAst.blocks.drop 3) :=
  C78_column_delete ex_reads ex_users ex_cols

/-- A text with two columns and a comment. -/
def exPair : Str := k!"a int [note: 'n'] // and
  \"b\" core.status"

def exPairCols : List TableColumn := (headTable (astOf (k!"Table t {" ++ (exPair ++ k!"\n}"))).blocks).cols

theorem ex_pair : ColumnsText exPair exPairCols :=
  C78_columns_between.2 ⟨astOf (k!"Table t {" ++ (exPair ++ k!"\n}")), headTable (astOf (k!"Table t {" ++ (exPair ++ k!"\n}"))).blocks,
    unchecked_ast (by decide +kernel), by decide +kernel, rfl, by decide +kernel, by decide +kernel⟩

example : exPairCols.map (·.name.to_string) = [k!"a", k!"b"] := by decide +kernel

/-- The column is replaced by them, or joined by them. -/
example : ReadsAs (splice exText exSt.span_range exPair) (exAst.blocks.take 2 ++
      .table { exUsers with cols := exUsers.cols.take 1 ++ exPairCols ++ exUsers.cols.drop 2 } :: exAst.blocks.drop 3) ∧
    ReadsAs (splice exText (atStop exSt.span_range) exPair) (exAst.blocks.take 2 ++
      .table { exUsers with cols := exUsers.cols.take 1 ++ exSt :: exPairCols ++ exUsers.cols.drop 2 } :: exAst.blocks.drop 3) :=
  ⟨C78_column_replace ex_reads ex_users ex_cols ex_pair (by decide +kernel),
    (C78_column_insert ex_reads ex_users ex_cols ex_pair).2 (by decide +kernel)⟩

/-- Another text. -/
def exOther : Str := k!"Table z { id int }"

/-- The column is copied from the example to the other text. -/
example : ReadsAs (splice exOther (atStart ((headTable (astOf exOther).blocks).cols.getD 0 {}).span_range) (slice exText exSt.span_range))
    [.table { headTable (astOf exOther).blocks with cols := [exSt, (headTable (astOf exOther).blocks).cols.getD 0 {}] }] :=
  (C78_column_insert (bs1 := []) (bs2 := []) (cs1 := []) (cs2 := []) (t := headTable (astOf exOther).blocks)
    (c := (headTable (astOf exOther).blocks).cols.getD 0 {}) (unchecked_ast (by decide +kernel)) (by decide +kernel)
    (by decide +kernel) (C78_column_text ex_reads ex_users ex_cols)).1 (by decide +kernel)

/-- The enum `core.status` has the value `active`, which is the default of a column: it cannot be replaced by another. -/
example : ¬ ∃ r, parseDbml (splice exText (match exAst.blocks.drop 1 with
    | .enum e :: _ => (e.values.getD 0 {}).span_range | _ => .zero) k!"other") = .ok r := by
  rintro ⟨r, h⟩
  have := congrArg (fun x => x.get?.isSome) h
  change _ = true at this
  revert this
  decide +kernel

/-- Why no `/*` may meet a `*/`: the column `b` becomes a part of a comment. -/
example : (headTable (astOf k!"Table t { a int [default: '/*'] b int }").blocks).cols.length = 2 ∧
    (headTable (astOf k!"Table t { a int [default: '/*'] b int [note: '*/'] }").blocks).cols.length = 1 := by
  decide +kernel

end Dbml.Props
