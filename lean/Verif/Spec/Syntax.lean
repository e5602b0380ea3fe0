import Verif.Model.Ast
import Verif.Model.Result

/-!
# Concrete syntax of DBML, declaratively

An independent description of what text denotes what AST. It does not refer to the grammar model,
the interpreter or the tree walkers; only to the AST types and to text.

A `Piece` is a stretch of text together with its byte offset in the whole input. `XxxD p x` reads:
"the piece `p` denotes the AST node `x`".
-/

namespace Dbml.Syntax

/-- A stretch of text and the byte offset at which it starts. -/
structure Piece where
  pos : Nat
  txt : Str

/-- The byte range of a piece. -/
def Piece.span (p : Piece) : Span := ⟨p.pos, p.pos + blen p.txt⟩

/-- `q` is a part of `p`. -/
def Sub (q p : Piece) : Prop := ∃ pre post, p.txt = pre ++ (q.txt ++ post) ∧ q.pos = p.pos + blen pre

/-- White space characters. -/
def IsSpace (c : Char) : Prop := c = ' ' ∨ c = '\t' ∨ c = '\n' ∨ c = '\r'

/-- White space and comments: blanks, `// ...` up to the end of the line, and `/* ... */` up to the
first `*/`. -/
inductive Trivia : Str → Prop
  | nil : Trivia []
  | space {c t} : IsSpace c → Trivia t → Trivia (c :: t)
  | line {body t} : (∀ x ∈ body, x ≠ '\n' ∧ x ≠ '\r') → Trivia t →
      Trivia (k!"//" ++ (body ++ t))
  | block {body t} : ¬ k!"*/" <:+: body → Trivia t → Trivia (k!"/*" ++ (body ++ (k!"*/" ++ t)))

/-- What may stand between two parts of a construct: trivia (`.loose`) or nothing (`.tight`; inside
column types). -/
inductive Gap where
  | loose | tight

def Gap.Ok : Gap → Str → Prop
  | .loose, t => Trivia t
  | .tight, t => t = []

/-- `p` is the sequence of the pieces `ps`, in order, with gaps in between. -/
inductive Parts (g : Gap) : Piece → List Piece → Prop
  | one {p} : Parts g p [p]
  | cons {pos c t c' ps} : g.Ok t → Parts g ⟨pos + blen c + blen t, c'⟩ ps →
      Parts g ⟨pos, c ++ (t ++ c')⟩ (⟨pos, c⟩ :: ps)

/-- Zero or more pieces. -/
def Many (g : Gap) (p : Piece) (ps : List Piece) : Prop := (p.txt = [] ∧ ps = []) ∨ Parts g p ps

/-- The pieces denote, one by one, the elements of the list. -/
inductive Each {α : Type} (D : Piece → α → Prop) : List Piece → List α → Prop
  | nil : Each D [] []
  | cons {p ps x xs} : D p x → Each D ps xs → Each D (p :: ps) (x :: xs)

/-- Zero or more occurrences of a construct. -/
def ManyD {α : Type} (g : Gap) (D : Piece → α → Prop) (p : Piece) (xs : List α) : Prop :=
  ∃ ps, Many g p ps ∧ Each D ps xs

/-- An optional construct. -/
def OptD {α : Type} (D : Piece → α → Prop) (p : Piece) (x : Option α) : Prop :=
  (p.txt = [] ∧ x = none) ∨ ∃ a, D p a ∧ x = some a

/-- `item ("," item)*` -/
def CommaD {α : Type} (g : Gap) (D : Piece → α → Prop) (p : Piece) (xs : List α) : Prop :=
  ∃ first more x xs', Parts g p [first, more] ∧ D first x ∧
    ManyD g (fun q y => ∃ comma item, Parts g q [comma, item] ∧ comma.txt = k!"," ∧ D item y) more xs' ∧
    xs = x :: xs'

/-- A possibly empty comma separated list between brackets. -/
def ListD {α : Type} (g : Gap) (op cl : Str) (D : Piece → α → Prop) (p : Piece) (xs : List α) : Prop :=
  ∃ l mid r, Parts g p [l, mid, r] ∧ l.txt = op ∧ r.txt = cl ∧
    ((mid.txt = [] ∧ xs = []) ∨ CommaD g D mid xs)

/-- `"[" item, item, ... "]"` -/
def BracketedD {α : Type} (D : Piece → α → Prop) (p : Piece) (xs : List α) : Prop :=
  ListD .loose k!"[" k!"]" D p xs

/-- `"{" item item ... "}"` -/
def BracedD {α : Type} (D : Piece → α → Prop) (p : Piece) (xs : List α) : Prop :=
  ∃ l mid r, Parts .loose p [l, mid, r] ∧ l.txt = k!"{" ∧ r.txt = k!"}" ∧ ManyD .loose D mid xs

/-- ASCII lower case of a letter. -/
def lowerC (c : Char) : Char :=
  if 65 ≤ c.toNat ∧ c.toNat ≤ 90 then Char.ofNat (c.toNat + 32) else c

/-- The keyword `k` in any ASCII letter case. -/
def Keyword (k s : Str) : Prop := s.map lowerC = k.map lowerC

/-- Letters, digits and the underscore. -/
def IsWord (c : Char) : Prop := c.isAlphanum = true ∨ c = '_'

/-- An unquoted name: a letter followed by word characters. -/
def IsVar (s : Str) : Prop := ∃ c cs, s = c :: cs ∧ c.isAlpha = true ∧ ∀ x ∈ cs, IsWord x

/-- The tail of a spaced name: word characters, each possibly preceded by one blank. -/
inductive SpacedTail : Str → Prop
  | nil : SpacedTail []
  | word {c t} : IsWord c → SpacedTail t → SpacedTail (c :: t)
  | blank {c t} : IsWord c → SpacedTail t → SpacedTail (' ' :: c :: t)

/-- Names with single blanks inside, such as `not null` or `primary key`. -/
def IsSpacedVar (s : Str) : Prop := ∃ c cs, s = c :: cs ∧ c.isAlpha = true ∧ SpacedTail cs

/-- A quoted text `v`: opening delimiter, gap, `v`, closing delimiter. The closing delimiter is the
first occurrence of the delimiter after the gap, and `v` does not start with white space when gaps may be
non-empty. -/
def QuotedD (g : Gap) (q : Str) (p : Piece) (v : Str) : Prop :=
  ∃ t, p.txt = q ++ (t ++ (v ++ q)) ∧ g.Ok t ∧ (∀ i < v.length, ¬ q <+: (v ++ q).drop i) ∧
    (g = .loose → ∀ c cs, v = c :: cs → ¬ IsSpace c)

/-- An identifier. -/
def IdentD (g : Gap) (p : Piece) (i : Ident) : Prop :=
  i.span_range = p.span ∧ i.raw = p.txt ∧
    ((IsVar p.txt ∧ i.to_string = p.txt) ∨ QuotedD g k!"\"" p i.to_string)

/-- A non-empty sequence of decimal digits. -/
def IsDigits (s : Str) : Prop := s ≠ [] ∧ ∀ c ∈ s, c.isDigit = true

/-- The number a digit sequence denotes. -/
def digitsNat (s : Str) : Nat := s.foldl (fun n c => 10 * n + (c.toNat - 48)) 0

/-- A hexadecimal digit. -/
def IsHexDigit (c : Char) : Prop :=
  c.isDigit = true ∨ (97 ≤ c.toNat ∧ c.toNat ≤ 102) ∨ (65 ≤ c.toNat ∧ c.toNat ≤ 70)

/-- A string literal: `'...'` or `'''...'''`. -/
def StringD (g : Gap) (p : Piece) (s : Str) : Prop := QuotedD g k!"'''" p s ∨ QuotedD g k!"'" p s

/-- A literal value. -/
inductive ValueD (g : Gap) (p : Piece) : Value → Prop
  | string {s} : StringD g p s → ValueD g p (.string s)
  | expr {s} : QuotedD g k!"`" p s → ValueD g p (.expr s)
  | true : p.txt = k!"true" → ValueD g p (.bool true)
  | false : p.txt = k!"false" → ValueD g p (.bool false)
  | null : p.txt = k!"null" → ValueD g p .null
  | integer : IsDigits p.txt → digitsNat p.txt < 2 ^ 63 → ValueD g p (.integer (digitsNat p.txt))
  | decimal {a b} : p.txt = a ++ ('.' :: b) → IsDigits a → (∀ c ∈ b, c.isDigit = Bool.true) →
      ValueD g p (.decimal (F64.parse p.txt))
  | hex {h} : p.txt = '#' :: h → (∀ c ∈ h, IsHexDigit c) → (h.length = 3 ∨ h.length = 6) →
      ValueD g p (.hexColor p.txt)

/-- The literal node of a value. -/
def LitD (D : Piece → Value → Prop) (p : Piece) (l : Literal) : Prop :=
  l.span_range = p.span ∧ l.raw = p.txt ∧ D p l.value

/-- The text begins with one of the words `true`, `false` and `null`. -/
def LikeLiteral (s : Str) : Prop := k!"true" <+: s ∨ k!"false" <+: s ∨ k!"null" <+: s

/-- A bare word used as value. It cannot begin like a literal. -/
def BareD (p : Piece) (v : Value) : Prop := IsSpacedVar p.txt ∧ ¬ LikeLiteral p.txt ∧ v = .enum p.txt

/-- The key of an attribute or property. -/
def KeyD (p : Piece) (k : Ident) : Prop :=
  IsSpacedVar p.txt ∧ k = { span_range := p.span, raw := p.txt, to_string := p.txt }

/-- What may follow the colon of an attribute: a value, a bare word or a double quoted string. -/
def AttrValueD (p : Piece) (v : Value) : Prop :=
  ValueD .loose p v ∨ BareD p v ∨ ∃ s, QuotedD .loose k!"\"" p s ∧ v = .string s

/-- `key` or `key: value` in a settings list. -/
def AttributeD (p : Piece) (a : Attribute) : Prop :=
  ∃ key tail, Parts .loose p [key, tail] ∧ a.span_range = p.span ∧ KeyD key a.key ∧
    OptD (fun q l => ∃ colon v, Parts .loose q [colon, v] ∧ colon.txt = k!":" ∧ LitD AttrValueD v l)
      tail a.value

/-- `key: value` in a project block. -/
def PropertyD (p : Piece) (a : Property) : Prop :=
  ∃ key colon v, Parts .loose p [key, colon, v] ∧ colon.txt = k!":" ∧ a.span_range = p.span ∧
    KeyD key a.key ∧ LitD (fun p v => ValueD .loose p v ∨ BareD p v) v a.value

/-- `[schema .] name` -/
def DeclIdentD (p : Piece) (schema : Option Ident) (name : Ident) : Prop :=
  ∃ a b, Parts .loose p [a, b] ∧
    ((b.txt = [] ∧ schema = none ∧ IdentD .loose a name) ∨
     ∃ dot n s, Parts .loose b [dot, n] ∧ dot.txt = k!"." ∧ IdentD .loose a s ∧ schema = some s ∧
       IdentD .loose n name)

/-- `Note: 'text'` or `Note { 'text' }` -/
def NoteD (p : Piece) (n : NoteBlock) : Prop :=
  n.span_range = p.span ∧
  ((∃ kw colon s, Parts .loose p [kw, colon, s] ∧ Keyword k!"note" kw.txt ∧ colon.txt = k!":" ∧
      LitD (fun p v => ∃ t, StringD .loose p t ∧ v = .string t) s n.value) ∨
   (∃ kw l s r, Parts .loose p [kw, l, s, r] ∧ Keyword k!"note" kw.txt ∧ l.txt = k!"{" ∧
      r.txt = k!"}" ∧ LitD (fun p v => ∃ t, StringD .loose p t ∧ v = .string t) s n.value))

/-- The database type named by a property, if it is one. -/
def dbTypeOf (p : Property) : Option DatabaseType :=
  match p.value.value with
  | .string s =>
    if p.key.to_string = k!"database_type" then
      some (if s = k!"PostgreSQL" then .postgreSQL else .unknown s)
    else none
  | _ => none

/-- An item of a project block. -/
inductive ProjectItem where
  | note (n : NoteBlock) | prop (p : Property)

def ProjectItemD (p : Piece) : ProjectItem → Prop
  | .note n => NoteD p n
  | .prop a => PropertyD p a

def ProjectItem.prop? : ProjectItem → Option Property | .prop p => some p | _ => none
def ProjectItem.note? : ProjectItem → Option NoteBlock | .note p => some p | _ => none

/-- `Project name { ... }` -/
def ProjectD (p : Piece) (b : ProjectBlock) : Prop :=
  ∃ kw name blk items, Parts .loose p [kw, name, blk] ∧ Keyword k!"project " kw.txt ∧
    IdentD .loose name b.ident ∧ BracedD ProjectItemD blk items ∧ b.span_range = p.span ∧
    b.properties = items.filterMap ProjectItem.prop? ∧
    b.note = (items.filterMap ProjectItem.note?).getLast? ∧
    b.database_type = (b.properties.filterMap dbTypeOf).getLast?

/-- The relation symbols. -/
def RelationD (p : Piece) (r : Relation) : Prop :=
  (p.txt = k!"<" ∧ r = .one2many) ∨ (p.txt = k!">" ∧ r = .many2one) ∨
  (p.txt = k!"-" ∧ r = .one2one) ∨ (p.txt = k!"<>" ∧ r = .many2many)

/-- The column part of a ref endpoint: `col` or `(col, col, ...)`. -/
def CompositionD (p : Piece) (cs : List Ident) : Prop :=
  (∃ c, IdentD .loose p c ∧ cs = [c]) ∨
  ∃ l first more r c cs', Parts .loose p [l, first, more, r] ∧ l.txt = k!"(" ∧ r.txt = k!")" ∧
    IdentD .loose first c ∧
    ManyD .loose (fun q y => ∃ comma item, Parts .loose q [comma, item] ∧ comma.txt = k!"," ∧
      IdentD .loose item y) more cs' ∧ cs = c :: cs'

/-- `[schema .] table . columns` -/
def RefIdentD (p : Piece) (r : RefIdent) : Prop :=
  ∃ a dot mid comp, Parts .loose p [a, dot, mid, comp] ∧ dot.txt = k!"." ∧ r.span_range = p.span ∧
    CompositionD comp r.compositions ∧
    ((mid.txt = [] ∧ r.schema = none ∧ IdentD .loose a r.table) ∨
     ∃ n dot' s, Parts .loose mid [n, dot'] ∧ dot'.txt = k!"." ∧ IdentD .loose a s ∧
       r.schema = some s ∧ IdentD .loose n r.table)

/-- `ref: > table.col` inside column settings -/
def RefInlineD (p : Piece) (r : RefInline) : Prop :=
  ∃ kw colon rel rhs, Parts .loose p [kw, colon, rel, rhs] ∧ kw.txt = k!"ref" ∧ colon.txt = k!":" ∧
    RelationD rel r.rel ∧ RefIdentD rhs r.rhs ∧ r.span_range = p.span

/-- The values of the attributes named `key`, in order (`none` for an attribute without value). -/
def valuesOf (key : Str) (as : List Attribute) : List (Option Literal) :=
  (as.filter fun a => a.key.to_string = key).map (·.value)

/-- The value of the last attribute named `key`. -/
def lastValue (key : Str) (as : List Attribute) : Option Literal :=
  ((valuesOf key as).getLast?).getD none

/-- Some attribute is named `key`. -/
def HasKey (key : Str) (as : List Attribute) : Prop := ∃ a ∈ as, a.key.to_string = key

/-- The referential actions and their spelling. -/
def actions : List (Str × ReferentialAction) :=
  [(k!"no action", .noAction), (k!"cascade", .cascade), (k!"restrict", .restrict),
   (k!"set null", .setNull), (k!"set default", .setDefault)]

/-- The action named by the last attribute `key`: an action if that is a bare word, which must then
be one of the five actions; none otherwise. -/
def ActionIs (key : Str) (as : List Attribute) (o : Option ReferentialAction) : Prop :=
  match lastValue key as with
  | some { value := .enum w, .. } => ∃ a, (w, a) ∈ actions ∧ o = some a
  | _ => o = none

/-- `[update: cascade, delete: set null, ...]` -/
def RefSettingsD (p : Piece) (s : RefSettings) : Prop :=
  BracketedD AttributeD p s.attributes ∧ s.span_range = p.span ∧
    ActionIs k!"update" s.attributes s.on_update ∧ ActionIs k!"delete" s.attributes s.on_delete

/-- `a.x > b.y [settings]`; the name is not part of it. -/
def RefStmtD (p : Piece) (r : RefBlock) : Prop :=
  ∃ l rel rr st, Parts .loose p [l, rel, rr, st] ∧ RefIdentD l r.lhs ∧ RelationD rel r.rel ∧
    RefIdentD rr r.rhs ∧ OptD RefSettingsD st r.settings ∧ r.span_range = p.span

/-- `Ref [name] { stmt }` or `Ref [name]: stmt` -/
def RefD (p : Piece) (r : RefBlock) : Prop :=
  (∃ kw name l stmt rr, Parts .loose p [kw, name, l, stmt, rr] ∧ Keyword k!"ref" kw.txt ∧
    OptD (IdentD .loose) name r.name ∧ l.txt = k!"{" ∧ rr.txt = k!"}" ∧ RefStmtD stmt r) ∨
  (∃ kw name colon stmt, Parts .loose p [kw, name, colon, stmt] ∧ Keyword k!"ref" kw.txt ∧
    OptD (IdentD .loose) name r.name ∧ colon.txt = k!":" ∧ RefStmtD stmt r)

/-- The index methods and their spelling. -/
def indexTypes : List (Str × IndexesType) :=
  [(k!"btree", .btree), (k!"gin", .gin), (k!"gist", .gist), (k!"hash", .hash)]

/-- `[pk, unique, type: btree, name: 'x', note: 'y']` of an index. -/
def IndexSettingsD (p : Piece) (s : IndexesSettings) : Prop :=
  BracketedD AttributeD p s.attributes ∧ s.span_range = p.span ∧
    (s.is_pk = true ↔ HasKey k!"pk" s.attributes) ∧
    (s.is_unique = true ↔ HasKey k!"unique" s.attributes) ∧
    (match lastValue k!"type" s.attributes with
      | some l => ∃ t, (l.value.toStr, t) ∈ indexTypes ∧ s.type = some t
      | none => s.type = none) ∧
    s.name = (lastValue k!"name" s.attributes).map (·.value.toStr) ∧
    s.note = (lastValue k!"note" s.attributes).map (·.value.toStr)

/-- A column name or a back-quoted expression. -/
def IndexColD (p : Piece) : IndexesColumnType → Prop
  | .string i => IdentD .loose p i
  | .expr l => LitD (fun p v => ∃ s, QuotedD .loose k!"`" p s ∧ v = .string s) p l

/-- One index: `col [settings]` or `(col, ...) [settings]`. -/
def IndexDefD (p : Piece) (d : IndexesDef) : Prop :=
  d.span_range = p.span ∧
  ((∃ col st c, Parts .loose p [col, st] ∧ IndexColD col c ∧ d.cols = [c] ∧
      OptD IndexSettingsD st d.settings) ∨
   (∃ l mid r st, Parts .loose p [l, mid, r, st] ∧ l.txt = k!"(" ∧ r.txt = k!")" ∧
      ((mid.txt = [] ∧ d.cols = []) ∨ CommaD .loose IndexColD mid d.cols) ∧
      OptD IndexSettingsD st d.settings))

/-- `Indexes { ... }`; the recorded span is that of the braces. -/
def IndexesD (p : Piece) (b : IndexesBlock) : Prop :=
  ∃ kw blk, Parts .loose p [kw, blk] ∧ Keyword k!"indexes" kw.txt ∧ b.span_range = blk.span ∧
    BracedD IndexDefD blk b.defs

/-- Settings of an enum value. -/
def EnumSettingsD (p : Piece) (s : EnumValueSettings) : Prop :=
  BracketedD AttributeD p s.attributes ∧ s.span_range = p.span ∧
    s.note = (lastValue k!"note" s.attributes).map (·.value.toStr)

/-- `value [settings]` of an enum. -/
def EnumValueD (p : Piece) (v : EnumValue) : Prop :=
  ∃ n st, Parts .loose p [n, st] ∧ IdentD .loose n v.value ∧ OptD EnumSettingsD st v.settings ∧
    v.span_range = p.span

/-- `Enum [schema.]name { ... }` -/
def EnumD (p : Piece) (e : EnumBlock) : Prop :=
  ∃ kw name blk, Parts .loose p [kw, name, blk] ∧ Keyword k!"enum " kw.txt ∧
    DeclIdentD name e.ident.schema e.ident.name ∧ e.ident.span_range = name.span ∧
    BracedD EnumValueD blk e.values ∧ e.span_range = p.span

/-- An item of a column's settings. -/
inductive ColItem where
  | attr (a : Attribute) | ref (r : RefInline)

def ColItemD (p : Piece) : ColItem → Prop
  | .attr a => AttributeD p a
  | .ref r => RefInlineD p r

def ColItem.attr? : ColItem → Option Attribute | .attr a => some a | _ => none
def ColItem.ref? : ColItem → Option RefInline | .ref r => some r | _ => none

/-- Whether an attribute is `null` or `not null`. -/
def nullableOf (a : Attribute) : Option Nullable :=
  if a.key.to_string = k!"null" then some .null
  else if a.key.to_string = k!"not null" then some .notNull
  else none

/-- Settings of a column. -/
def ColSettingsD (p : Piece) (s : ColumnSettings) : Prop :=
  ∃ items, BracketedD ColItemD p items ∧ s.span_range = p.span ∧
    s.attributes = items.filterMap ColItem.attr? ∧ s.refs = items.filterMap ColItem.ref? ∧
    (s.is_pk = true ↔ HasKey k!"pk" s.attributes ∨ HasKey k!"primary key" s.attributes) ∧
    (s.is_unique = true ↔ HasKey k!"unique" s.attributes) ∧
    (s.is_incremental = true ↔ HasKey k!"increment" s.attributes) ∧
    s.nullable = (s.attributes.filterMap nullableOf).getLast? ∧
    s.default = (lastValue k!"default" s.attributes).map (·.value) ∧
    s.note = (lastValue k!"note" s.attributes).map (·.value.toStr)

/-- `[]` or `[n]` after a type name. -/
def ArrayD (p : Piece) (o : Option Nat) : Prop :=
  ∃ l mid r, Parts .tight p [l, mid, r] ∧ l.txt = k!"[" ∧ r.txt = k!"]" ∧
    OptD (fun q n => IsDigits q.txt ∧ n = digitsNat q.txt ∧ n < 2 ^ 32) mid o

/-- `(v, ...)` after a type name (no blanks allowed). -/
def TypeArgsD (p : Piece) (vs : List Value) : Prop := ListD .tight k!"(" k!")" (ValueD .tight) p vs

/-- The type name, arguments and array sizes of a column type without schema:
`name(args)[][n]` or `"name(args)[]"[n]`. -/
def BareTypeD (p : Piece) (name : Str) (args : List Value) (arrays : List (Option Nat)) : Prop :=
  (∃ n a r, Parts .tight p [n, a, r] ∧ IsVar n.txt ∧ name = n.txt ∧
    ((a.txt = [] ∧ args = []) ∨ TypeArgsD a args) ∧ ManyD .tight ArrayD r arrays) ∨
  (∃ q n a r q' r' xs ys, Parts .tight p [q, n, a, r, q', r'] ∧ q.txt = k!"\"" ∧ q'.txt = k!"\"" ∧
    IsSpacedVar n.txt ∧ name = n.txt ∧ ((a.txt = [] ∧ args = []) ∨ TypeArgsD a args) ∧
    ManyD .tight ArrayD r xs ∧ ManyD .tight ArrayD r' ys ∧ arrays = xs ++ ys)

/-- `[schema.]type`. -/
def ColTypeD (p : Piece) (t : ColumnType) : Prop :=
  ∃ sc body name, Parts .tight p [sc, body] ∧ t.span_range = p.span ∧ t.raw = p.txt ∧
    BareTypeD body name t.args t.arrays ∧
    ((sc.txt = [] ∧ t.type_name = .raw name) ∨
     ∃ s dot i, Parts .tight sc [s, dot] ∧ dot.txt = k!"." ∧ IdentD .tight s i ∧
       t.type_name = .raw (i.to_string ++ (k!"." ++ name)))

/-- `name type [settings]` -/
def ColumnD (p : Piece) (c : TableColumn) : Prop :=
  ∃ n ty st, Parts .loose p [n, ty, st] ∧ IdentD .loose n c.name ∧ ColTypeD ty c.type ∧
    OptD ColSettingsD st c.settings ∧ c.span_range = p.span

/-- An item of a table block. -/
inductive TableItem where
  | col (c : TableColumn) | note (n : NoteBlock) | indexes (i : IndexesBlock)

def TableItemD (p : Piece) : TableItem → Prop
  | .col c => ColumnD p c
  | .note n => NoteD p n
  | .indexes i => IndexesD p i

def TableItem.col? : TableItem → Option TableColumn | .col c => some c | _ => none
def TableItem.note? : TableItem → Option NoteBlock | .note c => some c | _ => none
def TableItem.indexes? : TableItem → Option IndexesBlock | .indexes c => some c | _ => none

/-- `as alias` -/
def AliasD (p : Piece) (i : Ident) : Prop :=
  ∃ kw n, Parts .loose p [kw, n] ∧ Keyword k!"as " kw.txt ∧ IdentD .loose n i

/-- Settings of a table. -/
def TableSettingsD (p : Piece) (s : TableSettings) : Prop :=
  BracketedD AttributeD p s.attributes ∧ s.span_range = p.span

/-- `Table [schema.]name [as alias] [settings] { ... }` -/
def TableD (p : Piece) (t : TableBlock) : Prop :=
  ∃ kw name al st blk items, Parts .loose p [kw, name, al, st, blk] ∧ Keyword k!"table " kw.txt ∧
    DeclIdentD name t.ident.schema t.ident.name ∧ t.ident.span_range = name.span ∧
    OptD AliasD al t.ident.alias ∧ OptD TableSettingsD st t.settings ∧
    BracedD TableItemD blk items ∧ t.span_range = p.span ∧
    t.cols = items.filterMap TableItem.col? ∧
    t.note = (items.filterMap TableItem.note?).getLast? ∧
    t.indexes = (items.filterMap TableItem.indexes?).getLast?

/-- An item of a table group. -/
inductive GroupItem where
  | note (n : NoteBlock) | item (i : TableGroupItem)

def GroupItemD (p : Piece) : GroupItem → Prop
  | .note n => NoteD p n
  | .item i => DeclIdentD p i.schema i.ident_alias ∧ i.span_range = p.span

def GroupItem.note? : GroupItem → Option NoteBlock | .note c => some c | _ => none
def GroupItem.item? : GroupItem → Option TableGroupItem | .item c => some c | _ => none

/-- Settings of a table group. -/
def GroupSettingsD (p : Piece) (s : TableGroupSettings) : Prop :=
  BracketedD AttributeD p s.attributes ∧ s.span_range = p.span

/-- `TableGroup name [settings] { ... }` -/
def GroupD (p : Piece) (g : TableGroupBlock) : Prop :=
  ∃ kw name st blk items, Parts .loose p [kw, name, st, blk] ∧ Keyword k!"tablegroup " kw.txt ∧
    IdentD .loose name g.ident ∧ OptD GroupSettingsD st g.settings ∧
    BracedD GroupItemD blk items ∧ g.span_range = p.span ∧
    g.items = items.filterMap GroupItem.item? ∧
    g.note = (items.filterMap GroupItem.note?).getLast?

/-- A top-level declaration. -/
def BlockD (p : Piece) : TopLevelBlock → Prop
  | .project b => ProjectD p b
  | .table b => TableD p b
  | .tableGroup b => GroupD p b
  | .note b => NoteD p b
  | .ref b => RefD p b
  | .enum b => EnumD p b

/-- A whole document: declarations with trivia before, between and after them. -/
def SchemaD (input : Str) (s : SchemaBlock) : Prop :=
  ∃ start decls stop, Parts .loose ⟨0, input⟩ [start, decls, stop] ∧ start.txt = [] ∧ stop.txt = [] ∧
    ManyD .loose BlockD decls s.blocks ∧ s.span_range = ⟨0, blen input⟩ ∧ s.input = input

/-- The only errors that reading a document's syntax tree may give, each with the piece at fault:
an integer literal that does not fit, an unknown referential action, an unknown index type. -/
inductive ReadErr (p : Piece) : PError → Prop
  | intTooLarge {q} : Sub q p → IsDigits q.txt → 2 ^ 63 ≤ digitsNat q.txt →
      ReadErr p (.msg k!"number too large to fit in target type" q.span)
  | arrayTooLarge {q} : Sub q p → IsDigits q.txt → 2 ^ 32 ≤ digitsNat q.txt →
      ReadErr p (.msg k!"number too large to fit in target type" q.span)
  | badAction {q a l w} : Sub q p → AttributeD q a →
      (a.key.to_string = k!"update" ∨ a.key.to_string = k!"delete") → a.value = some l →
      l.value = .enum w → (∀ x, (w, x) ∉ actions) →
      ReadErr p (.msg k!"invalid referential action" q.span)
  | badIndexType {q a l} : Sub q p → AttributeD q a → a.key.to_string = k!"type" →
      a.value = some l → (∀ t, (l.value.toStr, t) ∉ indexTypes) →
      ReadErr p (.msg (k!"'" ++ l.value.toStr ++ k!"' type is not supported!") q.span)

end Dbml.Syntax
