import Verif.Model.Ast
import Verif.Model.Result

/-!
# ASTs with other positions

`x.mapSpan f` is `x` with every span `sp` replaced by `f sp`; nothing else changes (in particular not the
source texts `raw`).
-/

namespace Dbml

def Ident.mapSpan (f : Span → Span) (i : Ident) : Ident := { i with span_range := f i.span_range }
def Literal.mapSpan (f : Span → Span) (l : Literal) : Literal := { l with span_range := f l.span_range }
def Attribute.mapSpan (f : Span → Span) (a : Attribute) : Attribute :=
  { span_range := f a.span_range, key := a.key.mapSpan f, value := a.value.map (·.mapSpan f) }
def Property.mapSpan (f : Span → Span) (a : Property) : Property :=
  { span_range := f a.span_range, key := a.key.mapSpan f, value := a.value.mapSpan f }
def NoteBlock.mapSpan (f : Span → Span) (n : NoteBlock) : NoteBlock := { span_range := f n.span_range, value := n.value.mapSpan f }
def ProjectBlock.mapSpan (f : Span → Span) (b : ProjectBlock) : ProjectBlock :=
  { span_range := f b.span_range, properties := b.properties.map (·.mapSpan f), ident := b.ident.mapSpan f
    database_type := b.database_type, note := b.note.map (·.mapSpan f) }
def RefIdent.mapSpan (f : Span → Span) (r : RefIdent) : RefIdent :=
  { span_range := f r.span_range, schema := r.schema.map (·.mapSpan f), table := r.table.mapSpan f
    compositions := r.compositions.map (·.mapSpan f) }
def RefInline.mapSpan (f : Span → Span) (r : RefInline) : RefInline := { span_range := f r.span_range, rel := r.rel, rhs := r.rhs.mapSpan f }
def RefSettings.mapSpan (f : Span → Span) (r : RefSettings) : RefSettings :=
  { r with span_range := f r.span_range, attributes := r.attributes.map (·.mapSpan f) }
def RefBlock.mapSpan (f : Span → Span) (r : RefBlock) : RefBlock :=
  { span_range := f r.span_range, name := r.name.map (·.mapSpan f), rel := r.rel, lhs := r.lhs.mapSpan f
    rhs := r.rhs.mapSpan f, settings := r.settings.map (·.mapSpan f) }
def IndexesColumnType.mapSpan (f : Span → Span) : IndexesColumnType → IndexesColumnType
  | .string i => .string (i.mapSpan f)
  | .expr l => .expr (l.mapSpan f)
def IndexesSettings.mapSpan (f : Span → Span) (s : IndexesSettings) : IndexesSettings :=
  { s with span_range := f s.span_range, attributes := s.attributes.map (·.mapSpan f) }
def IndexesDef.mapSpan (f : Span → Span) (d : IndexesDef) : IndexesDef :=
  { span_range := f d.span_range, cols := d.cols.map (·.mapSpan f), settings := d.settings.map (·.mapSpan f) }
def IndexesBlock.mapSpan (f : Span → Span) (b : IndexesBlock) : IndexesBlock :=
  { span_range := f b.span_range, defs := b.defs.map (·.mapSpan f) }
def EnumValueSettings.mapSpan (f : Span → Span) (s : EnumValueSettings) : EnumValueSettings :=
  { s with span_range := f s.span_range, attributes := s.attributes.map (·.mapSpan f) }
def EnumValue.mapSpan (f : Span → Span) (v : EnumValue) : EnumValue :=
  { span_range := f v.span_range, value := v.value.mapSpan f, settings := v.settings.map (·.mapSpan f) }
def EnumIdent.mapSpan (f : Span → Span) (i : EnumIdent) : EnumIdent :=
  { span_range := f i.span_range, schema := i.schema.map (·.mapSpan f), name := i.name.mapSpan f }
def EnumBlock.mapSpan (f : Span → Span) (e : EnumBlock) : EnumBlock :=
  { span_range := f e.span_range, ident := e.ident.mapSpan f, values := e.values.map (·.mapSpan f) }
def ColumnType.mapSpan (f : Span → Span) (t : ColumnType) : ColumnType := { t with span_range := f t.span_range }
def ColumnSettings.mapSpan (f : Span → Span) (s : ColumnSettings) : ColumnSettings :=
  { s with span_range := f s.span_range, attributes := s.attributes.map (·.mapSpan f), refs := s.refs.map (·.mapSpan f) }
def TableColumn.mapSpan (f : Span → Span) (c : TableColumn) : TableColumn :=
  { span_range := f c.span_range, name := c.name.mapSpan f, type := c.type.mapSpan f, settings := c.settings.map (·.mapSpan f) }
def TableIdent.mapSpan (f : Span → Span) (i : TableIdent) : TableIdent :=
  { span_range := f i.span_range, name := i.name.mapSpan f, schema := i.schema.map (·.mapSpan f)
    alias := i.alias.map (·.mapSpan f) }
def TableSettings.mapSpan (f : Span → Span) (s : TableSettings) : TableSettings :=
  { span_range := f s.span_range, attributes := s.attributes.map (·.mapSpan f) }
def TableBlock.mapSpan (f : Span → Span) (t : TableBlock) : TableBlock :=
  { span_range := f t.span_range, cols := t.cols.map (·.mapSpan f), ident := t.ident.mapSpan f
    note := t.note.map (·.mapSpan f), indexes := t.indexes.map (·.mapSpan f)
    settings := t.settings.map (·.mapSpan f) }
def TableGroupItem.mapSpan (f : Span → Span) (i : TableGroupItem) : TableGroupItem :=
  { span_range := f i.span_range, schema := i.schema.map (·.mapSpan f), ident_alias := i.ident_alias.mapSpan f }
def TableGroupSettings.mapSpan (f : Span → Span) (s : TableGroupSettings) : TableGroupSettings :=
  { span_range := f s.span_range, attributes := s.attributes.map (·.mapSpan f) }
def TableGroupBlock.mapSpan (f : Span → Span) (g : TableGroupBlock) : TableGroupBlock :=
  { span_range := f g.span_range, ident := g.ident.mapSpan f, note := g.note.map (·.mapSpan f)
    items := g.items.map (·.mapSpan f), settings := g.settings.map (·.mapSpan f) }
def TopLevelBlock.mapSpan (f : Span → Span) : TopLevelBlock → TopLevelBlock
  | .project b => .project (b.mapSpan f)
  | .table b => .table (b.mapSpan f)
  | .tableGroup b => .tableGroup (b.mapSpan f)
  | .note b => .note (b.mapSpan f)
  | .ref b => .ref (b.mapSpan f)
  | .enum b => .enum (b.mapSpan f)

/-- The same error at another position. -/
def PError.mapSpan (f : Span → Span) : PError → PError
  | .syntax => .syntax
  | .rules rs s => .rules rs (f s)
  | .msg m s => .msg m (f s)
  | .semantic e s => .semantic e (f s)

/-- The position moved `n` bytes to the right; `0..0`, which stands for "no position", stays. -/
def Span.shift (n : Nat) (s : Span) : Span := if s = .zero then .zero else ⟨s.start + n, s.stop + n⟩

/-- The position cut off at byte offset `n`. -/
def Span.cut (n : Nat) (s : Span) : Span := ⟨min s.start n, min s.stop n⟩

/-- The same outcome at other positions: values are relabelled with `m`, errors with `f`. -/
def Rs.relabel {α : Type} (f : Span → Span) (m : α → α) : Rs α → Rs α
  | .ok a => .ok (m a)
  | .err e => .err (e.mapSpan f)
  | .panic s => .panic s
  | .diverge => .diverge

/-- What an outcome says, without the value and without positions. -/
def Rs.verdict {α : Type} : Rs α → Rs Unit
  | .ok _ => .ok ()
  | .err e => .err (e.mapSpan fun _ => .zero)
  | .panic s => .panic s
  | .diverge => .diverge

/-- Forgetting all positions: every span becomes `0..0`. -/
abbrev noPos : Span → Span := fun _ => .zero

end Dbml
