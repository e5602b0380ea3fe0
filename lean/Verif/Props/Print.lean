import Verif.Proofs.Print
import Verif.Props.Editing

/-!
# C74: an AST can be printed and read back

`Print.schema` (`Spec/Print.lean`) writes down an AST from its public fields. For what the parser returns, reading the
printed text gives the same AST back (up to positions).
-/

namespace Dbml.Props

open Spec Source Syntax

/-! ## Printing does not look at positions -/

section
variable (f : Span → Span)

theorem sep_map {α : Type} {g : α → List Str} {m : α → α} (h : ∀ x, g (m x) = g x) (xs : List α) :
    Print.sep g (xs.map m) = Print.sep g xs := by
  cases xs with
  | nil => rfl
  | cons x xs =>
    have : ((xs.map m).flatMap fun y => k!"," :: g y) = xs.flatMap fun y => k!"," :: g y := by
      rw [List.flatMap_map]
      exact congrArg (List.flatMap · xs) (funext fun y => by rw [h])
    simp only [List.map_cons, Print.sep, h, this]

theorem brackets_map {α : Type} {g : α → List Str} {m : α → α} (h : ∀ x, g (m x) = g x) (xs : List α) :
    Print.brackets g (xs.map m) = Print.brackets g xs := by
  rw [Print.brackets, sep_map h]
  rfl

theorem flatMap_same {α : Type} {g : α → List Str} {m : α → α} (h : ∀ x, g (m x) = g x) (xs : List α) :
    (xs.map m).flatMap g = xs.flatMap g := by
  rw [List.flatMap_map]
  exact congrArg (List.flatMap · xs) (funext h)

theorem print_attr (a : Attribute) : Print.attr (a.mapSpan f) = Print.attr a := by
  obtain ⟨s, k, _ | v⟩ := a <;> rfl

theorem print_attrs (o : Option (List Attribute)) : Print.attrs (o.map fun as => as.map (·.mapSpan f)) = Print.attrs o := by
  cases o with
  | none => rfl
  | some as => exact brackets_map (print_attr f) as

theorem print_noteOpt (o : Option NoteBlock) : Print.noteOpt (o.map (·.mapSpan f)) = Print.noteOpt o := by
  cases o <;> rfl

theorem print_qual (o : Option Ident) (n : Ident) : Print.qual (o.map (·.mapSpan f)) (n.mapSpan f) = Print.qual o n := by
  cases o <;> rfl

theorem print_endpoint (r : RefIdent) : Print.endpoint (r.mapSpan f) = Print.endpoint r := by
  obtain ⟨sp, s, t, cs⟩ := r
  show Print.qual (s.map (·.mapSpan f)) (t.mapSpan f) ++ _ = _
  rw [print_qual]
  unfold Print.endpoint
  congr 2
  show (match cs.map (·.mapSpan f) with
    | [c] => [c.raw]
    | cs => k!"(" :: (Print.sep Print.ident cs ++ [k!")"])) = _
  rcases cs with _ | ⟨c, _ | ⟨c', cs⟩⟩
  · rfl
  · rfl
  · have := sep_map (g := Print.ident) (m := (·.mapSpan f)) (fun _ => rfl) (c :: c' :: cs)
    simp only [List.map_cons] at this ⊢
    rw [this]

theorem print_inlineRef (r : RefInline) : Print.inlineRef (r.mapSpan f) = Print.inlineRef r := by
  unfold Print.inlineRef
  rw [← print_endpoint f r.rhs]
  rfl

theorem print_indexCol (c : IndexesColumnType) : Print.indexCol (c.mapSpan f) = Print.indexCol c := by
  cases c <;> rfl

theorem print_ref (r : RefBlock) : Print.ref (r.mapSpan f) = Print.ref r := by
  obtain ⟨sp, n, rel, l, rr, st⟩ := r
  unfold Print.ref
  rw [← print_endpoint f l, ← print_endpoint f rr]
  have h1 : ((n.map (·.mapSpan f)).toList.flatMap Print.ident) = n.toList.flatMap Print.ident := by cases n <;> rfl
  have h2 : Print.attrs ((st.map (·.mapSpan f)).map (·.attributes)) = Print.attrs (st.map (·.attributes)) := by
    rw [← print_attrs f (st.map _)]; cases st <;> rfl
  simp only [RefBlock.mapSpan, h1, h2]

theorem print_index (d : IndexesDef) : Print.index (d.mapSpan f) = Print.index d := by
  obtain ⟨sp, cs, st⟩ := d
  have h2 : Print.attrs ((st.map (·.mapSpan f)).map (·.attributes)) = Print.attrs (st.map (·.attributes)) := by
    rw [← print_attrs f (st.map _)]; cases st <;> rfl
  unfold Print.index
  simp only [IndexesDef.mapSpan, h2]
  congr 1
  rcases cs with _ | ⟨c, _ | ⟨c', cs⟩⟩
  · rfl
  · exact print_indexCol f c
  · have := sep_map (g := Print.indexCol) (m := (·.mapSpan f)) (print_indexCol f) (c :: c' :: cs)
    simp only [List.map_cons] at this ⊢
    rw [this]

theorem print_indexes (o : Option IndexesBlock) : Print.indexes (o.map (·.mapSpan f)) = Print.indexes o := by
  cases o with
  | none => rfl
  | some b =>
    have := flatMap_same (print_index f) b.defs
    simp only [Print.indexes, Option.map_some, IndexesBlock.mapSpan, this]

theorem print_enumValue (v : EnumValue) : Print.enumValue (v.mapSpan f) = Print.enumValue v := by
  have h2 : Print.attrs ((v.settings.map (·.mapSpan f)).map (·.attributes)) =
      Print.attrs (v.settings.map (·.attributes)) := by
    rw [← print_attrs f (v.settings.map _)]; cases v.settings <;> rfl
  unfold Print.enumValue
  rw [← h2]
  rfl

theorem print_enum (e : EnumBlock) : Print.enum (e.mapSpan f) = Print.enum e := by
  have h1 := print_qual f e.ident.schema e.ident.name
  have h2 := flatMap_same (print_enumValue f) e.values
  unfold Print.enum
  rw [← h1, ← h2]
  rfl

theorem print_column (c : TableColumn) : Print.column (c.mapSpan f) = Print.column c := by
  obtain ⟨sp, n, t, st⟩ := c
  have h : Print.colSettings (st.map (·.mapSpan f)) = Print.colSettings st := by
    cases st with
    | none => rfl
    | some s =>
      have h1 : (s.attributes.map (·.mapSpan f)).map Print.attr = s.attributes.map Print.attr := by
        rw [List.map_map]; exact List.map_congr_left fun a _ => print_attr f a
      have h2 : (s.refs.map (·.mapSpan f)).map Print.inlineRef = s.refs.map Print.inlineRef := by
        rw [List.map_map]; exact List.map_congr_left fun a _ => print_inlineRef f a
      simp only [Print.colSettings, Option.map_some, ColumnSettings.mapSpan, h1, h2]
  unfold Print.column
  rw [← h]
  rfl

theorem print_table (t : TableBlock) : Print.table (t.mapSpan f) = Print.table t := by
  obtain ⟨sp, cs, ⟨isp, n, s, a⟩, nt, ix, st⟩ := t
  have h1 := print_qual f s n
  have h2 := flatMap_same (print_column f) cs
  have h3 := print_noteOpt f nt
  have h4 := print_indexes f ix
  have h5 : Print.attrs ((st.map (·.mapSpan f)).map (·.attributes)) = Print.attrs (st.map (·.attributes)) := by
    rw [← print_attrs f (st.map _)]; cases st <;> rfl
  have h6 : (a.map (·.mapSpan f)).toList.flatMap (fun a => [k!"as ", a.raw]) =
      a.toList.flatMap (fun a => [k!"as ", a.raw]) := by cases a <;> rfl
  simp only [Print.table, TableBlock.mapSpan, TableIdent.mapSpan, h1, h2, h3, h4, h5, h6]

theorem print_group (g : TableGroupBlock) : Print.group (g.mapSpan f) = Print.group g := by
  obtain ⟨sp, n, nt, is, st⟩ := g
  have h2 := flatMap_same (g := Print.groupItem) (m := (·.mapSpan f)) (fun i => print_qual f i.schema i.ident_alias) is
  have h3 := print_noteOpt f nt
  have h5 : Print.attrs ((st.map (·.mapSpan f)).map (·.attributes)) = Print.attrs (st.map (·.attributes)) := by
    rw [← print_attrs f (st.map _)]; cases st <;> rfl
  simp only [Print.group, TableGroupBlock.mapSpan, h2, h3, h5]
  rfl

theorem print_project (b : ProjectBlock) : Print.project (b.mapSpan f) = Print.project b := by
  have h2 := flatMap_same (g := Print.prop) (m := (·.mapSpan f)) (fun _ => rfl) b.properties
  have h3 := print_noteOpt f b.note
  unfold Print.project
  rw [← h2, ← h3]
  rfl

theorem print_block (b : TopLevelBlock) : Print.block (b.mapSpan f) = Print.block b := by
  cases b with
  | project => exact print_project f _
  | table => exact print_table f _
  | tableGroup => exact print_group f _
  | note => rfl
  | ref => exact print_ref f _
  | enum => exact print_enum f _

end

theorem print_bare {s s' : SchemaBlock} (h : s.blocks.map (·.mapSpan noPos) = s'.blocks.map (·.mapSpan noPos)) :
    Print.tokens s = Print.tokens s' := by
  unfold Print.tokens
  rw [← flatMap_same (print_block noPos) s.blocks, h, flatMap_same (print_block noPos)]

/-! ## The property -/

/-- No token of the printed AST contains `/*`. -/
def Clean (s : SchemaBlock) : Prop := ∀ t ∈ Print.tokens s, ¬ k!"/*" <:+: t

instance (s : SchemaBlock) : Decidable (Clean s) := by unfold Clean; infer_instance

variable {txt txt' : Str} {s s' : SchemaBlock}

theorem print_canon (h : parseDbmlUnchecked txt = .ok s) : ∃ d : Doc, d.Ok ∧
    d.ast = s.blocks.map (·.mapSpan noPos) ∧ txts d.toks = Print.tokens s := by
  obtain ⟨d, hd, -, ha⟩ := (C57_ast txt _).1 ⟨s, h, rfl⟩
  refine ⟨canon d, canon_ok hd, (canon_ast d).trans ha, ?_⟩
  rw [canon_toks, ha, flatMap_same (print_block noPos)]
  rfl

/-- **C74.** The AST of an accepted text, printed from its fields, is read back as the same AST (up to positions). -/
theorem C74_print_reads (h : parseDbmlUnchecked txt = .ok s) (hc : Clean s) :
    ∃ s', parseDbmlUnchecked (Print.schema s) = .ok s' ∧
      s'.blocks.map (·.mapSpan noPos) = s.blocks.map (·.mapSpan noPos) := by
  obtain ⟨d, hd, ha, ht⟩ := print_canon h
  have hp : Printable d := fun t hm => hc _ (ht ▸ List.mem_map_of_mem hm)
  have e : render d = Print.schema s := by
    rw [Print.schema, ← ht, txts, List.flatMap_map]
    rfl
  obtain ⟨s', h1, h2, -⟩ := C44_print_parse d hd hp
  exact ⟨s', e ▸ h1, h2.trans ha⟩

/-- **C74.** The printed text is accepted by `parse_dbml` exactly when the original one is. -/
theorem C74_checked (h : parseDbmlUnchecked txt = .ok s) (hc : Clean s) :
    (∃ r, parseDbml (Print.schema s) = .ok r) ↔ ∃ r, parseDbml txt = .ok r := by
  obtain ⟨s', h1, h2⟩ := C74_print_reads h hc
  rw [accepted_iff_bare h1, accepted_iff_bare h, bare, h2]
  rfl

/-- **C74.** Printing what was read back gives the same text: printing is stable after one round. -/
theorem C74_idempotent (h : parseDbmlUnchecked txt = .ok s) (hc : Clean s) :
    ∃ s', parseDbmlUnchecked (Print.schema s) = .ok s' ∧ Print.schema s' = Print.schema s := by
  obtain ⟨s', h1, h2⟩ := C74_print_reads h hc
  exact ⟨s', h1, by rw [Print.schema, print_bare h2]; rfl⟩

/-- **C74.** Two ASTs of accepted texts print to the same text exactly when they are equal up to positions: the text
loses nothing of an AST but positions. -/
theorem C74_same_print (h : parseDbmlUnchecked txt = .ok s) (hc : Clean s) (h' : parseDbmlUnchecked txt' = .ok s')
    (hc' : Clean s') :
    Print.schema s = Print.schema s' ↔ s.blocks.map (·.mapSpan noPos) = s'.blocks.map (·.mapSpan noPos) := by
  constructor
  · intro e
    obtain ⟨r, h1, h2⟩ := C74_print_reads h hc
    obtain ⟨r', h3, h4⟩ := C74_print_reads h' hc'
    rw [e, h3] at h1
    cases h1
    rw [← h2, h4]
  · intro e
    rw [Print.schema, print_bare e]
    rfl

/-- The text does not contain `/*`. -/
def Fine (ts : List Tok) : Prop := ∀ t ∈ ts, ¬ k!"/*" <:+: t.txt

@[simp] theorem fine_nil : Fine [] := by simp [Fine]
@[simp] theorem fine_cons {t ts} : Fine (t :: ts) ↔ (¬ k!"/*" <:+: t.txt) ∧ Fine ts := by simp [Fine]
@[simp] theorem fine_append {a b} : Fine (a ++ b) ↔ Fine a ∧ Fine b := by
  simp only [Fine, List.mem_append, or_imp, forall_and]
theorem fine_flatMap {α : Type} {f : α → List Tok} {xs : List α} : Fine (xs.flatMap f) ↔ ∀ x ∈ xs, Fine (f x) := by
  simp only [Fine, List.mem_flatMap]
  exact ⟨fun h x hx t ht => h t ⟨x, hx, ht⟩, fun h t ⟨x, hx, ht⟩ => h x hx t ht⟩
theorem fine_commaSep {α : Type} {f : α → List Tok} {xs : List α} : Fine (commaSep f xs) ↔ ∀ x ∈ xs, Fine (f x) := by
  cases xs with
  | nil => simp [commaSep]
  | cons x xs =>
    have : ¬ k!"/*" <:+: comma.txt := by decide
    simp [commaSep, fine_flatMap, this]

theorem fine_brackets {α : Type} {f : α → List Tok} {xs : List α} :
    Fine (Source.brackets f xs) ↔ ∀ x ∈ xs, Fine (f x) := by
  have h1 : ¬ k!"/*" <:+: lbrack.txt := by decide
  have h2 : ¬ k!"/*" <:+: rbrack.txt := by decide
  simp [Source.brackets, fine_commaSep, h1, h2]

theorem fine_note {n : Source.Note} (h : Fine n.toks) : Fine (canonNote n).toks := by
  obtain ⟨k, b, t⟩ := n
  have : ¬ k!"/*" <:+: t.tok.txt := by cases b <;> simp [Note.toks] at h <;> simp_all
  simp only [canonNote, Note.toks, fine_cons, Bool.false_eq_true, if_false, fine_nil, and_true]
  exact ⟨by decide, by decide, this⟩

theorem fine_project {p : Source.Project} (h : Fine p.toks) : Fine (canonProject p).toks := by
  obtain ⟨k, n, is⟩ := p
  simp only [canonProject, Project.toks, fine_cons, fine_append, fine_flatMap] at h ⊢
  refine ⟨by decide, h.2.1, h.2.2.1, ?_, h.2.2.2.2⟩
  intro i hi
  rcases List.mem_append.1 hi with hi | hi
  · exact h.2.2.2.1 i (List.mem_filter.1 hi).1
  · obtain ⟨n, hn, rfl⟩ := List.mem_map.1 hi
    obtain ⟨j, hj, e⟩ := List.mem_filterMap.1 (getLast?_toList_mem hn)
    cases j <;> simp [ProjItem.srcNote] at e
    subst e
    exact fine_note (h.2.2.2.1 _ hj)

theorem fine_end {r : REnd} (h : Fine r.toks) : Fine (canonEnd r).toks := by
  obtain ⟨s, t, c⟩ := r
  simp only [canonEnd, REnd.toks, fine_cons, fine_append] at h ⊢
  refine ⟨h.1, h.2.1, ?_⟩
  rcases c with n | ⟨n, _ | ⟨m, ns⟩⟩
  · exact h.2.2
  · have := h.2.2
    simp [Comp.toks, commaSep] at this
    simp only [canonComp, Comp.names, Comp.toks, fine_cons, fine_nil, and_true]
    exact this.2.1
  · exact h.2.2

theorem fine_ref {r : Source.Ref} (h : Fine r.toks) : Fine (canonRef r).toks := by
  obtain ⟨kw, n, b, l, rel, rr, st⟩ := r
  have h1 : ¬ k!"/*" <:+: colon.txt := by decide
  simp only [canonRef, Ref.toks, fine_cons, fine_append, Bool.false_eq_true, if_false, Ref.stmtToks] at h ⊢
  cases b with
  | true =>
    simp only [if_true, fine_cons, fine_append] at h
    exact ⟨by decide, h.2.1, h1, fine_end h.2.2.2.1.1, h.2.2.2.1.2.1, fine_end h.2.2.2.1.2.2.1, h.2.2.2.1.2.2.2⟩
  | false =>
    simp only [Bool.false_eq_true, if_false, fine_cons, fine_append] at h
    exact ⟨by decide, h.2.1, h1, fine_end h.2.2.2.1, h.2.2.2.2.1, fine_end h.2.2.2.2.2.1, h.2.2.2.2.2.2⟩

theorem fine_idef {d : IDef} (h : Fine d.toks) : Fine (canonIDef d).toks := by
  rcases d with ⟨c, s⟩ | ⟨_ | ⟨c, _ | ⟨c', cs⟩⟩, s⟩
  · exact h
  · exact h
  · simp only [IDef.toks, fine_cons, fine_append, commaSep] at h
    simp only [canonIDef, IDef.cols, IDef.settings, IDef.toks, fine_cons]
    exact ⟨h.2.1.1.1, h.2.2.2⟩
  · exact h

theorem fine_idxs {i : Idxs} (h : Fine i.toks) : Fine (canonIdxs i).toks := by
  simp only [canonIdxs, Idxs.toks, fine_cons, fine_append, fine_flatMap] at h ⊢
  refine ⟨by decide, h.2.1, ?_, h.2.2.2⟩
  intro x hx
  obtain ⟨y, hy, rfl⟩ := List.mem_map.1 hx
  exact fine_idef (h.2.2.1 y hy)

theorem fine_col {c : Col} (h : Fine c.toks) : Fine (canonCol c).toks := by
  obtain ⟨n, t, _ | is⟩ := c
  · exact h
  · simp only [canonCol, Col.toks, Option.map_some, optBrackets, fine_cons, fine_brackets] at h ⊢
    refine ⟨h.1, h.2.1, ?_⟩
    intro i hi
    rcases List.mem_append.1 hi with hi | hi
    · obtain ⟨a, ha, rfl⟩ := List.mem_map.1 hi
      obtain ⟨j, hj, e⟩ := List.mem_filterMap.1 ha
      cases j <;> simp [ColSet.srcAttr] at e
      subst e
      exact h.2.2 _ hj
    · obtain ⟨a, ha, rfl⟩ := List.mem_map.1 hi
      obtain ⟨j, hj, e⟩ := List.mem_filterMap.1 ha
      cases j <;> simp [ColSet.srcRef] at e
      subst e
      have := h.2.2 _ hj
      simp only [ColSet.toks, InlineRef.toks, fine_cons, canonInline] at this ⊢
      exact ⟨this.1, this.2.1, this.2.2.1, fine_end this.2.2.2⟩

theorem fine_table {t : Source.Table} (h : Fine t.toks) : Fine (canonTable t).toks := by
  obtain ⟨kw, s, n, a, st, is⟩ := t
  simp only [canonTable, Table.toks, fine_cons, fine_append, fine_flatMap] at h ⊢
  refine ⟨by decide, h.2.1, ?_, h.2.2.2.1, h.2.2.2.2.1, ?_, h.2.2.2.2.2.2⟩
  · have := h.2.2.1
    cases a with
    | none => simp [Table.aliasToks]
    | some a =>
      simp only [Table.aliasToks, Option.map_some, fine_cons, canonAlias, fine_nil, and_true] at this ⊢
      exact ⟨by decide, this.2⟩
  · have h6 := h.2.2.2.2.2.1
    intro i hi
    simp only [canonItems] at hi
    rcases List.mem_append.1 hi with hi | hi
    · obtain ⟨c, hc, rfl⟩ := List.mem_map.1 hi
      obtain ⟨j, hj, e⟩ := List.mem_filterMap.1 hc
      cases j <;> simp [TItem.srcCol] at e
      subst e
      exact fine_col (h6 _ hj)
    rcases List.mem_append.1 hi with hi | hi
    · obtain ⟨c, hc, rfl⟩ := List.mem_map.1 hi
      obtain ⟨j, hj, e⟩ := List.mem_filterMap.1 (getLast?_toList_mem hc)
      cases j <;> simp [TItem.srcNote] at e
      subst e
      exact fine_note (h6 _ hj)
    · obtain ⟨c, hc, rfl⟩ := List.mem_map.1 hi
      obtain ⟨j, hj, e⟩ := List.mem_filterMap.1 (getLast?_toList_mem hc)
      cases j <;> simp [TItem.srcIdx] at e
      subst e
      exact fine_idxs (h6 _ hj)

theorem fine_group {g : Group} (h : Fine g.toks) : Fine (canonGroup g).toks := by
  obtain ⟨kw, n, st, is⟩ := g
  simp only [canonGroup, Group.toks, fine_cons, fine_append, fine_flatMap] at h ⊢
  refine ⟨by decide, h.2.1, h.2.2.1, h.2.2.2.1, ?_, h.2.2.2.2.2⟩
  intro i hi
  rcases List.mem_append.1 hi with hi | hi
  · exact h.2.2.2.2.1 i (List.mem_filter.1 hi).1
  · obtain ⟨n, hn, rfl⟩ := List.mem_map.1 hi
    obtain ⟨j, hj, e⟩ := List.mem_filterMap.1 (getLast?_toList_mem hn)
    cases j <;> simp [GItem.srcNote] at e
    subst e
    exact fine_note (h.2.2.2.2.1 _ hj)

theorem fine_block {b : Block} (h : Fine b.toks) : Fine (canonBlock b).toks := by
  cases b with
  | project => exact fine_project h
  | table => exact fine_table h
  | group => exact fine_group h
  | note => exact fine_note h
  | ref => exact fine_ref h
  | enum e =>
    simp only [canonBlock, canonEnum, Block.toks, Enum.toks, fine_cons] at h ⊢
    exact ⟨by decide, h.2⟩

theorem fine_canon {d : Doc} (h : Fine d.toks) : Fine (Doc.toks (canon d)) := by
  simp only [Doc.toks, fine_flatMap, canon] at h ⊢
  intro b hb
  obtain ⟨c, hc, rfl⟩ := List.mem_map.1 hb
  exact fine_block (h c hc)

/-- **C74.** The AST of a text without `/*` is clean. -/
theorem C74_clean_of_text (h : parseDbmlUnchecked txt = .ok s) (hc : ¬ k!"/*" <:+: txt) : Clean s := by
  obtain ⟨d, hd, hw, ha⟩ := (C57_ast txt _).1 ⟨s, h, rfl⟩
  have hf := fine_canon (d := d) fun t ht hi => hc (hi.trans (written_infix hw t ht))
  have e : txts (Doc.toks (canon d)) = Print.tokens s := by
    rw [canon_toks, ha, flatMap_same (print_block noPos)]
    rfl
  intro t ht
  rw [← e] at ht
  obtain ⟨k, hk, rfl⟩ := List.mem_map.1 ht
  exact hf k hk

/-! ## Concrete cases -/

example : Clean exAst := by decide +kernel

example : ∃ s', parseDbmlUnchecked (Print.schema exAst) = .ok s' ∧
    s'.blocks.map (·.mapSpan noPos) = exAst.blocks.map (·.mapSpan noPos) := C74_print_reads ex_reads (by decide +kernel)

/-- What is printed for a small table. -/
example : (parseDbmlUnchecked k!"table T { note { 'n' } a \"int[]\" [ref: - x.(y) , pk] Indexes{(a)[unique]} }").get?.map Print.schema =
    some k!"Table \nT\n{\na\n\"int[]\"\n[\npk\n,\nref\n:\n-\nx\n.\ny\n]\nNote\n:\n'n'\nIndexes\n{\na\n[\nunique\n]\n}\n}\n" := by
  decide +kernel

/-- The printed example satisfies the rules. -/
example : ∃ r, parseDbml (Print.schema exAst) = .ok r :=
  (C74_checked ex_reads (by decide +kernel)).2 ⟨_, ex_accepted⟩

/-- Why the AST must be clean: columns are printed before the note, so that the quoted `/*` comes before the quoted
`*/`, and what is between becomes a comment. -/
def unclean : Str := k!"Table t { Note: 'x */ y' a int [default: '/* z'] }"

example : ∃ s, parseDbmlUnchecked unclean = .ok s ∧ ¬ Clean s ∧ parseDbmlUnchecked (Print.schema s) = .err .syntax := by
  have h : (parseDbmlUnchecked unclean).get?.isSome = true := by decide +kernel
  obtain ⟨a, ha⟩ := Option.isSome_iff_exists.1 h
  have e : a = (parseDbmlUnchecked unclean).get?.getD {} := by rw [ha]; rfl
  exact ⟨a, Rs.eq_ok_of_get? ha, by subst e; decide +kernel, by subst e; decide +kernel⟩

end Dbml.Props
