import Verif.Spec.Source

/-!
# Well-formed ASTs

What every AST that the parser returns satisfies, whatever the text: the texts of names and literals are of the
right form and agree with their values, lists that cannot be empty are not, and every field that is derived from others
(flags, notes, actions, the database type) agrees with them. Positions do not matter. `Props/Shape.lean` proves that
these are exactly the ASTs that can be written.
-/

namespace Dbml.Spec.Shape

open Syntax Source

/-- A name: a plain word, or a quoted text of which `to_string` is the inside. -/
def IdentOk (i : Ident) : Prop := ∃ n : Name, n.Ok ∧ i.raw = n.text ∧ i.to_string = n.value

/-- The key of an attribute or property: words with single blanks between. -/
def KeyOk (i : Ident) : Prop := IsSpacedVar i.raw ∧ i.to_string = i.raw

/-- A literal, a bare word, or a text in double quotes; the value agrees with the text. -/
def LitOk (l : Literal) : Prop := ∃ v : AVal, v.Ok ∧ l.raw = v.text ∧ l.value = v.value

/-- A text in single or triple single quotes. -/
def TextOk (l : Literal) : Prop := ∃ v : StrLit, v.Ok ∧ l.raw = v.text ∧ l.value = .string v.value

def AttrOk (a : Attribute) : Prop := KeyOk a.key ∧ ∀ l ∈ a.value, LitOk l

def AttrsOk (as : List Attribute) : Prop := ∀ a ∈ as, AttrOk a

def NoteOk (n : NoteBlock) : Prop := TextOk n.value

/-- A property: its value is not in double quotes; and if it is named `note`, not a text. -/
def PropOk (p : Property) : Prop :=
  KeyOk p.key ∧ LitOk p.value ∧ p.value.raw.head? ≠ some '"' ∧
    ¬ (Keyword k!"note" p.key.raw ∧ ∃ t, p.value.value = .string t)

def ProjectOk (b : ProjectBlock) : Prop :=
  IdentOk b.ident ∧ (∀ p ∈ b.properties, PropOk p) ∧ (∀ n ∈ b.note, NoteOk n) ∧
    b.database_type = (b.properties.filterMap dbTypeOf).getLast?

/-- An endpoint: it names at least one column. -/
def EndpointOk (r : RefIdent) : Prop :=
  (∀ s ∈ r.schema, IdentOk s) ∧ IdentOk r.table ∧ r.compositions ≠ [] ∧ ∀ c ∈ r.compositions, IdentOk c

/-- Settings of a ref: a bare word after `update` or `delete` is an action; the last one counts. -/
def RefSettingsOk (s : RefSettings) : Prop :=
  AttrsOk s.attributes ∧
  (∀ a ∈ s.attributes, (a.key.raw = k!"update" ∨ a.key.raw = k!"delete") →
    ∀ l ∈ a.value, ∀ w, l.value = .enum w → ∃ x, (w, x) ∈ actions) ∧
  s.on_update = actionOf k!"update" s.attributes ∧ s.on_delete = actionOf k!"delete" s.attributes

def RefBlockOk (r : RefBlock) : Prop :=
  (∀ n ∈ r.name, IdentOk n) ∧ EndpointOk r.lhs ∧ r.rel ≠ .undef ∧ EndpointOk r.rhs ∧ ∀ s ∈ r.settings, RefSettingsOk s

def InlineOk (r : RefInline) : Prop := r.rel ≠ .undef ∧ EndpointOk r.rhs

/-- A column name, or an expression in backquotes. -/
def IndexColOk : IndexesColumnType → Prop
  | .string i => IdentOk i
  | .expr l => ∃ x : Quote, x.Ok k!"`" ∧ l.raw = x.text k!"`" ∧ l.value = .string x.val

/-- Settings of an index: a value after `type` is an index method. -/
def IndexSettingsOk (s : IndexesSettings) : Prop :=
  AttrsOk s.attributes ∧
  (∀ a ∈ s.attributes, a.key.raw = k!"type" → ∀ l ∈ a.value, ∃ t, (l.value.toStr, t) ∈ indexTypes) ∧
  s.type = ((lastValue k!"type" s.attributes).bind fun l => indexTypes.lookup l.value.toStr) ∧
  s.is_unique = has k!"unique" s.attributes ∧ s.is_pk = has k!"pk" s.attributes ∧
  s.note = (lastValue k!"note" s.attributes).map (·.value.toStr) ∧
  s.name = (lastValue k!"name" s.attributes).map (·.value.toStr)

def IndexOk (d : IndexesDef) : Prop := (∀ c ∈ d.cols, IndexColOk c) ∧ ∀ s ∈ d.settings, IndexSettingsOk s

def IndexesOk (b : IndexesBlock) : Prop := ∀ d ∈ b.defs, IndexOk d

def EnumValueOk (v : EnumValue) : Prop :=
  IdentOk v.value ∧ ∀ s ∈ v.settings, AttrsOk s.attributes ∧
    s.note = (lastValue k!"note" s.attributes).map (·.value.toStr)

def EnumOk (e : EnumBlock) : Prop :=
  (∀ s ∈ e.ident.schema, IdentOk s) ∧ IdentOk e.ident.name ∧ ∀ v ∈ e.values, EnumValueOk v

/-- A column type; name, arguments and array sizes agree with its text. -/
def ColumnTypeOk (c : ColumnType) : Prop :=
  ∃ t : Ty, t.Ok ∧ c.raw = t.text ∧ c.type_name = t.ast.type_name ∧ c.args = t.ast.args ∧ c.arrays = t.ast.arrays

/-- Settings of a column. -/
def ColSettingsOk (s : ColumnSettings) : Prop :=
  AttrsOk s.attributes ∧ (∀ r ∈ s.refs, InlineOk r) ∧
  s.is_pk = (has k!"pk" s.attributes || has k!"primary key" s.attributes) ∧
  s.is_unique = has k!"unique" s.attributes ∧
  s.nullable = (s.attributes.filterMap nullableOf).getLast? ∧
  s.is_incremental = has k!"increment" s.attributes ∧
  s.note = (lastValue k!"note" s.attributes).map (·.value.toStr) ∧
  s.default = (lastValue k!"default" s.attributes).map (·.value)

def ColumnOk (c : TableColumn) : Prop := IdentOk c.name ∧ ColumnTypeOk c.type ∧ ∀ s ∈ c.settings, ColSettingsOk s

def TableOk (t : TableBlock) : Prop :=
  (∀ s ∈ t.ident.schema, IdentOk s) ∧ IdentOk t.ident.name ∧ (∀ a ∈ t.ident.alias, IdentOk a) ∧
  (∀ s ∈ t.settings, AttrsOk s.attributes) ∧ (∀ c ∈ t.cols, ColumnOk c) ∧ (∀ n ∈ t.note, NoteOk n) ∧
  ∀ i ∈ t.indexes, IndexesOk i

def GroupOk (g : TableGroupBlock) : Prop :=
  IdentOk g.ident ∧ (∀ s ∈ g.settings, AttrsOk s.attributes) ∧ (∀ n ∈ g.note, NoteOk n) ∧
  ∀ i ∈ g.items, (∀ s ∈ i.schema, IdentOk s) ∧ IdentOk i.ident_alias

def BlockOk : TopLevelBlock → Prop
  | .project b => ProjectOk b
  | .table b => TableOk b
  | .tableGroup b => GroupOk b
  | .note b => NoteOk b
  | .ref b => RefBlockOk b
  | .enum b => EnumOk b

/-- A well-formed AST. -/
def SchemaOk (s : SchemaBlock) : Prop := ∀ b ∈ s.blocks, BlockOk b

end Dbml.Spec.Shape
