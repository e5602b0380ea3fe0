import Verif.Proofs.Shape
import Verif.Props.Print
import Verif.Props.Core

/-!
# C75: the ASTs that can be written, exactly

`Spec/Shape.lean` says which ASTs are well-formed. The parser returns only well-formed ASTs, and every well-formed AST
(without `/*` in its texts) can be written: printed from its fields it is read back.
-/

namespace Dbml.Props

open Spec Source Syntax

/-! ## The rules do not look at positions -/

section
variable (f : Span → Span) (ρ : Renaming)

theorem map_same {α β : Type} {g : α → β} {m : α → α} (h : ∀ x, g (m x) = g x) (xs : List α) :
    (xs.map m).map g = xs.map g := by
  rw [List.map_map]
  exact List.map_congr_left fun x _ => h x

theorem opt_same {α β : Type} {g : α → β} {m : α → α} (h : ∀ x, g (m x) = g x) (o : Option α) :
    (o.map m).map g = o.map g := by
  cases o with
  | none => rfl
  | some x => exact congrArg some (h x)

theorem core_attrs (as : List Attribute) : (as.map (·.mapSpan f)).map Core.attr = as.map Core.attr :=
  map_same (g := Core.attr) (m := (·.mapSpan f)) (fun _ => rfl) as

theorem core_ident (g : Str → Str) (o : Option Ident) : (o.map (·.mapSpan f)).map (Core.ident g) = o.map (Core.ident g) :=
  opt_same (g := Core.ident g) (m := (·.mapSpan f)) (fun _ => rfl) o

theorem core_idents (g : Str → Str) (o : List Ident) : (o.map (·.mapSpan f)).map (Core.ident g) = o.map (Core.ident g) :=
  map_same (g := Core.ident g) (m := (·.mapSpan f)) (fun _ => rfl) o

theorem core_refIdent (r : RefIdent) : Core.refIdent ρ (r.mapSpan f) = Core.refIdent ρ r := by
  simp only [Core.refIdent, RefIdent.mapSpan, core_ident, core_idents]
  rfl

theorem core_ref (r : RefBlock) : Core.ref ρ (r.mapSpan f) = Core.ref ρ r := by
  obtain ⟨sp, n, rel, l, rr, st⟩ := r
  simp only [Core.ref, RefBlock.mapSpan, core_refIdent]
  cases st with
  | none => rfl
  | some st => simp only [Option.map_some, RefSettings.mapSpan, core_attrs]

theorem core_indexCol (c : IndexesColumnType) : Core.indexCol ρ (c.mapSpan f) = Core.indexCol ρ c := by
  cases c <;> rfl

theorem core_indexDef (d : IndexesDef) : Core.indexDef ρ (d.mapSpan f) = Core.indexDef ρ d := by
  obtain ⟨sp, cs, st⟩ := d
  have h1 := map_same (core_indexCol f ρ) cs
  simp only [Core.indexDef, IndexesDef.mapSpan, h1]
  cases st with
  | none => rfl
  | some st => simp only [Option.map_some, Core.indexSettings, IndexesSettings.mapSpan, core_attrs]

theorem core_indexes (b : IndexesBlock) : Core.indexes ρ (b.mapSpan f) = Core.indexes ρ b := by
  have h1 := map_same (core_indexDef f ρ) b.defs
  simp only [Core.indexes, IndexesBlock.mapSpan, h1]

theorem core_enumValue (v : EnumValue) : Core.enumValue (v.mapSpan f) = Core.enumValue v := by
  obtain ⟨sp, i, st⟩ := v
  cases st with
  | none => rfl
  | some st =>
    simp only [Core.enumValue, EnumValue.mapSpan, Option.map_some, EnumValueSettings.mapSpan, core_attrs]
    rfl

theorem core_enum (e : EnumBlock) : Core.enum (e.mapSpan f) = Core.enum e := by
  obtain ⟨sp, ⟨sp', s, n⟩, vs⟩ := e
  have h1 := map_same (core_enumValue f) vs
  simp only [Core.enum, EnumBlock.mapSpan, EnumIdent.mapSpan, h1, core_ident]
  rfl

theorem core_refInline (r : RefInline) : Core.refInline ρ (r.mapSpan f) = Core.refInline ρ r := by
  simp only [Core.refInline, RefInline.mapSpan, core_refIdent]

theorem core_column (c : TableColumn) : Core.column ρ (c.mapSpan f) = Core.column ρ c := by
  obtain ⟨sp, n, t, st⟩ := c
  cases st with
  | none => rfl
  | some st =>
    have h1 := map_same (core_refInline f ρ) st.refs
    simp only [Core.column, TableColumn.mapSpan, Option.map_some, Core.colSettings, ColumnSettings.mapSpan, core_attrs, h1]
    rfl

theorem core_table (t : TableBlock) : Core.table ρ (t.mapSpan f) = Core.table ρ t := by
  obtain ⟨sp, cs, ⟨sp', n, s, a⟩, nt, ix, st⟩ := t
  have h1 := map_same (core_column f ρ) cs
  have h2 := opt_same (core_indexes f ρ) ix
  have h3 : ((st.map (·.mapSpan f)).map fun st => ({ attributes := st.attributes.map Core.attr } : TableSettings)) =
      st.map fun st => { attributes := st.attributes.map Core.attr } := by
    cases st with
    | none => rfl
    | some st => simp only [Option.map_some, TableSettings.mapSpan, core_attrs]
  simp only [Core.table, TableBlock.mapSpan, TableIdent.mapSpan, h1, h2, h3, core_ident]
  rfl

theorem core_group (g : TableGroupBlock) : Core.group ρ (g.mapSpan f) = Core.group ρ g := by
  have h1 := map_same (g := Core.groupItem ρ) (m := (·.mapSpan f)) (fun i => by
    simp only [Core.groupItem, TableGroupItem.mapSpan, core_ident]; rfl) g.items
  simp only [Core.group, TableGroupBlock.mapSpan, h1]
  rfl

theorem core_block (b : TopLevelBlock) : Core.block ρ (b.mapSpan f) = Core.block ρ b := by
  cases b with
  | project b =>
    have h1 := map_same (g := Core.prop) (m := (·.mapSpan f)) (fun _ => rfl) b.properties
    simp only [TopLevelBlock.mapSpan, Core.block, Core.project, ProjectBlock.mapSpan, h1]
  | table b => simp only [TopLevelBlock.mapSpan, Core.block, core_table]
  | tableGroup b => simp only [TopLevelBlock.mapSpan, Core.block, core_group]
  | note b => rfl
  | ref b => simp only [TopLevelBlock.mapSpan, Core.block, core_ref]
  | enum b => simp only [TopLevelBlock.mapSpan, Core.block, core_enum]

end

/-- The rules do not look at positions. -/
theorem valid_bare (s : SchemaBlock) : Valid (bare s) ↔ Valid s := by
  have h : ({} : Renaming).Ok := ⟨fun _ _ h => h, fun _ _ h => h, fun _ _ h => h, fun _ _ h => h, rfl⟩
  rw [← C63_valid h, ← C63_valid h s]
  have : core {} (bare s) = core {} s := by
    simp only [core, bare, List.filterMap_map]
    congr 1
    exact congrArg (List.filterMap · s.blocks) (funext fun b => core_block _ _ b)
  rw [this]

/-! ## The property -/

variable {txt : Str} {s s' : SchemaBlock}

/-- **C75.** Whatever the text, the AST that `parse_dbml_unchecked` returns is well-formed: texts and values of names
and literals agree, and every derived field agrees with what it is derived from. -/
theorem C75_wellformed (h : parseDbmlUnchecked txt = .ok s) : Shape.SchemaOk s := by
  obtain ⟨d, hd, -, ha⟩ := (C57_ast txt _).1 ⟨s, h, rfl⟩
  exact (schema_rep s).2 ⟨d, hd, ha⟩

/-- **C75.** A well-formed AST - built by hand, say, or by changing another one - is read back from its printed
text. -/
theorem C75_read_back (h : Shape.SchemaOk s) (hc : Clean s) :
    ∃ s', parseDbmlUnchecked (Print.schema s) = .ok s' ∧
      s'.blocks.map (·.mapSpan noPos) = s.blocks.map (·.mapSpan noPos) := by
  obtain ⟨d, hd, ha⟩ := (schema_rep s).1 h
  have ht : txts (Doc.toks (canon d)) = Print.tokens s := by
    rw [canon_toks, ha, flatMap_same (print_block noPos)]
    rfl
  have hp : Printable (canon d) := fun t hm => hc _ (ht ▸ List.mem_map_of_mem hm)
  have e : render (canon d) = Print.schema s := by
    rw [Print.schema, ← ht, txts, List.flatMap_map]
    rfl
  obtain ⟨s', h1, h2, -⟩ := C44_print_parse _ (canon_ok hd) hp
  exact ⟨s', e ▸ h1, h2.trans ((canon_ast d).trans ha)⟩

/-- **C75.** So the well-formed ASTs are exactly those that some text has, up to positions. -/
theorem C75_exact (hc : Clean s) : Shape.SchemaOk s ↔
    ∃ txt s', parseDbmlUnchecked txt = .ok s' ∧ s'.blocks.map (·.mapSpan noPos) = s.blocks.map (·.mapSpan noPos) := by
  constructor
  · intro h
    obtain ⟨s', h1, h2⟩ := C75_read_back h hc
    exact ⟨_, s', h1, h2⟩
  · rintro ⟨txt, s', h1, h2⟩
    obtain ⟨d, hd, -, ha⟩ := (C57_ast txt _).1 ⟨s', h1, rfl⟩
    exact (schema_rep s).2 ⟨d, hd, ha.trans h2⟩

/-- **C75.** The printed text of a well-formed AST is accepted by `parse_dbml` exactly if the AST satisfies the rules. -/
theorem C75_checked (h : Shape.SchemaOk s) (hc : Clean s) :
    (∃ r, parseDbml (Print.schema s) = .ok r) ↔ Valid s := by
  obtain ⟨s', h1, h2⟩ := C75_read_back h hc
  rw [accepted_iff_bare h1, bare, h2, ← valid_bare s]
  rfl

/-- **C75.** Two well-formed ASTs with the same printed text are equal up to positions. -/
theorem C75_print_injective (h : Shape.SchemaOk s) (hc : Clean s) (h' : Shape.SchemaOk s') (hc' : Clean s')
    (e : Print.schema s = Print.schema s') : s.blocks.map (·.mapSpan noPos) = s'.blocks.map (·.mapSpan noPos) := by
  obtain ⟨r, h1, h2⟩ := C75_read_back h hc
  obtain ⟨r', h3, h4⟩ := C75_read_back h' hc'
  rw [e, h3] at h1
  cases h1
  rw [← h2, h4]

/-! ## Concrete cases -/

example : Shape.SchemaOk exAst := C75_wellformed ex_reads

/-- A name written as a plain word. -/
def word (w : Str) : Ident := { raw := w, to_string := w }

/-- A table built by hand: one column, primary key if `pk`. -/
def handTable (pk : Bool) : SchemaBlock :=
  { blocks := [.table { ident := { name := word k!"t" }, cols := [
      { name := { raw := k!"\"a b\"", to_string := k!"a b" }
        type := { raw := k!"int[3]", type_name := .raw k!"int", arrays := [some 3] }
        settings := some { attributes := [{ key := word k!"pk" }], is_pk := pk } }] }] }

/-- The table as a document. -/
def handDoc : Doc := [.table ⟨k!"Table ", none, .word k!"t", none, none, [.col ⟨.quoted ⟨[], k!"a b"⟩,
  ⟨none, .plain k!"int" none [some k!"3"]⟩, some [.attr ⟨k!"pk", none⟩]⟩]⟩]

theorem hand_ok : Shape.SchemaOk (handTable true) := (schema_rep _).2 ⟨handDoc, by decide +kernel, by decide +kernel⟩

example : ∃ s', parseDbmlUnchecked k!"Table \nt\n{\n\"a b\"\nint[3]\n[\npk\n]\n}\n" = .ok s' ∧
    s'.blocks.map (·.mapSpan noPos) = (handTable true).blocks := C75_read_back hand_ok (by decide +kernel)

/-- With the attribute `pk`, but without the flag, the AST is not well-formed: no text has it. -/
example : ¬ Shape.SchemaOk (handTable false) := by
  intro h
  have h1 : Shape.TableOk _ := h _ (List.mem_singleton.2 rfl)
  have h2 := (h1.2.2.2.2.1 _ (List.mem_singleton.2 rfl)).2.2 _ rfl
  exact absurd h2.2.2.1 (by decide)

end Dbml.Props
