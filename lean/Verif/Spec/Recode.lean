import Verif.Spec.MapSpan

/-!
# Other line endings, other letters

`recode e σ t` is the text `t` in which every line end (`\r\n`, `\n` or a lone `\r`) is written `e`, and every other
character `c` is replaced by `σ c`. `x.mapText f` is the AST `x` with `f` applied to all texts in it.

Nothing here refers to the grammar model, the interpreter or the tree walkers.
-/

namespace Dbml

/-- The line ends replaced by `e`, the other characters by `σ`: a carriage return before a line feed belongs to the line
end that the line feed stands for. -/
def recode (e : Str) (σ : Char → Char) : Str → Str
  | [] => []
  | c :: s =>
    (if c = '\r' then (if s.head? = some '\n' then [] else e) else if c = '\n' then e else [σ c]) ++ recode e σ s

/-- The three ways to end a line. -/
def IsEol (e : Str) : Prop := e = ['\n'] ∨ e = ['\r', '\n'] ∨ e = ['\r']

/-- A substitution of letters that leaves ASCII alone. -/
def KeepsAscii (σ : Char → Char) : Prop := ∀ c, if c.toNat < 128 then σ c = c else 128 ≤ (σ c).toNat

def Value.mapText (f : Str → Str) : Value → Value
  | .enum s => .enum (f s)
  | .string s => .string (f s)
  | .hexColor s => .hexColor (f s)
  | .expr s => .expr (f s)
  | .integer n => .integer n
  | .decimal x => .decimal x
  | .bool b => .bool b
  | .null => .null
def Ident.mapText (f : Str → Str) (i : Ident) : Ident := { i with raw := f i.raw, to_string := f i.to_string }
def Literal.mapText (f : Str → Str) (l : Literal) : Literal := { l with raw := f l.raw, value := l.value.mapText f }
def Attribute.mapText (f : Str → Str) (a : Attribute) : Attribute :=
  { a with key := a.key.mapText f, value := a.value.map (·.mapText f) }
def Property.mapText (f : Str → Str) (a : Property) : Property :=
  { a with key := a.key.mapText f, value := a.value.mapText f }
def NoteBlock.mapText (f : Str → Str) (n : NoteBlock) : NoteBlock := { n with value := n.value.mapText f }
def DatabaseType.mapText (f : Str → Str) : DatabaseType → DatabaseType
  | .postgreSQL => .postgreSQL
  | .unknown s => .unknown (f s)
def ProjectBlock.mapText (f : Str → Str) (b : ProjectBlock) : ProjectBlock :=
  { b with properties := b.properties.map (·.mapText f), ident := b.ident.mapText f
           database_type := b.database_type.map (·.mapText f), note := b.note.map (·.mapText f) }
def RefIdent.mapText (f : Str → Str) (r : RefIdent) : RefIdent :=
  { r with schema := r.schema.map (·.mapText f), table := r.table.mapText f
           compositions := r.compositions.map (·.mapText f) }
def RefInline.mapText (f : Str → Str) (r : RefInline) : RefInline := { r with rhs := r.rhs.mapText f }
def RefSettings.mapText (f : Str → Str) (r : RefSettings) : RefSettings :=
  { r with attributes := r.attributes.map (·.mapText f) }
def RefBlock.mapText (f : Str → Str) (r : RefBlock) : RefBlock :=
  { r with name := r.name.map (·.mapText f), lhs := r.lhs.mapText f, rhs := r.rhs.mapText f
           settings := r.settings.map (·.mapText f) }
def IndexesColumnType.mapText (f : Str → Str) : IndexesColumnType → IndexesColumnType
  | .string i => .string (i.mapText f)
  | .expr l => .expr (l.mapText f)
def IndexesSettings.mapText (f : Str → Str) (s : IndexesSettings) : IndexesSettings :=
  { s with attributes := s.attributes.map (·.mapText f), note := s.note.map f, name := s.name.map f }
def IndexesDef.mapText (f : Str → Str) (d : IndexesDef) : IndexesDef :=
  { d with cols := d.cols.map (·.mapText f), settings := d.settings.map (·.mapText f) }
def IndexesBlock.mapText (f : Str → Str) (b : IndexesBlock) : IndexesBlock := { b with defs := b.defs.map (·.mapText f) }
def EnumValueSettings.mapText (f : Str → Str) (s : EnumValueSettings) : EnumValueSettings :=
  { s with attributes := s.attributes.map (·.mapText f), note := s.note.map f }
def EnumValue.mapText (f : Str → Str) (v : EnumValue) : EnumValue :=
  { v with value := v.value.mapText f, settings := v.settings.map (·.mapText f) }
def EnumIdent.mapText (f : Str → Str) (i : EnumIdent) : EnumIdent :=
  { i with schema := i.schema.map (·.mapText f), name := i.name.mapText f }
def EnumBlock.mapText (f : Str → Str) (e : EnumBlock) : EnumBlock :=
  { e with ident := e.ident.mapText f, values := e.values.map (·.mapText f) }
def ColumnTypeName.mapText (f : Str → Str) : ColumnTypeName → ColumnTypeName
  | .raw s => .raw (f s)
  | .enum s => .enum (f s)
  | t => t
def ColumnType.mapText (f : Str → Str) (t : ColumnType) : ColumnType :=
  { t with raw := f t.raw, type_name := t.type_name.mapText f, args := t.args.map (·.mapText f) }
def ColumnSettings.mapText (f : Str → Str) (s : ColumnSettings) : ColumnSettings :=
  { s with attributes := s.attributes.map (·.mapText f), note := s.note.map f, default := s.default.map (·.mapText f)
           refs := s.refs.map (·.mapText f) }
def TableColumn.mapText (f : Str → Str) (c : TableColumn) : TableColumn :=
  { c with name := c.name.mapText f, type := c.type.mapText f, settings := c.settings.map (·.mapText f) }
def TableIdent.mapText (f : Str → Str) (i : TableIdent) : TableIdent :=
  { i with name := i.name.mapText f, schema := i.schema.map (·.mapText f), alias := i.alias.map (·.mapText f) }
def TableSettings.mapText (f : Str → Str) (s : TableSettings) : TableSettings :=
  { s with attributes := s.attributes.map (·.mapText f) }
def TableBlock.mapText (f : Str → Str) (t : TableBlock) : TableBlock :=
  { t with cols := t.cols.map (·.mapText f), ident := t.ident.mapText f, note := t.note.map (·.mapText f)
           indexes := t.indexes.map (·.mapText f), settings := t.settings.map (·.mapText f) }
def TableGroupItem.mapText (f : Str → Str) (i : TableGroupItem) : TableGroupItem :=
  { i with schema := i.schema.map (·.mapText f), ident_alias := i.ident_alias.mapText f }
def TableGroupSettings.mapText (f : Str → Str) (s : TableGroupSettings) : TableGroupSettings :=
  { s with attributes := s.attributes.map (·.mapText f) }
def TableGroupBlock.mapText (f : Str → Str) (g : TableGroupBlock) : TableGroupBlock :=
  { g with ident := g.ident.mapText f, note := g.note.map (·.mapText f), items := g.items.map (·.mapText f)
           settings := g.settings.map (·.mapText f) }
def TopLevelBlock.mapText (f : Str → Str) : TopLevelBlock → TopLevelBlock
  | .project b => .project (b.mapText f)
  | .table b => .table (b.mapText f)
  | .tableGroup b => .tableGroup (b.mapText f)
  | .note b => .note (b.mapText f)
  | .ref b => .ref (b.mapText f)
  | .enum b => .enum (b.mapText f)

end Dbml
