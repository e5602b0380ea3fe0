import Verif.Spec.Syntax
import Verif.Spec.MapSpan

/-!
# Documents as written

A `Doc` describes a DBML document construct by construct, in every spelling the language offers (quoted or
plain names, one-line or braced notes and refs, keywords in any letter case, ...). `Doc.toks` lists its
tokens, `Written` says what it means to write these tokens with white space and comments between them, and
`Doc.ast` is the AST that the document stands for, without positions. `Doc.Ok` is the well-formedness of
names, literals and settings.

Nothing here refers to the grammar model, the interpreter or the tree walkers.
-/

namespace Dbml.Source

open Syntax

/-! ## Tokens and layout -/

/-- What the text directly after a token must satisfy, for the token to end there. -/
abbrev Next := Str → Prop

/-- Anything may follow. -/
def Next.any : Next := fun _ => True
/-- No letter, digit or underscore follows. -/
def Next.word : Next := fun r => ∀ c t, r = c :: t → ¬ IsWord c
/-- For words that may contain single blanks: no letter, digit or underscore follows, not even after a blank. -/
def Next.spaced : Next := fun r => (∀ c t, r = c :: t → ¬ IsWord c) ∧ ∀ c t, r = ' ' :: c :: t → ¬ IsWord c

/-- A token: its text, and what may follow it. -/
structure Tok where
  txt : Str
  next : Next := .any

/-- White space and complete comments. -/
inductive Blank : Str → Prop
  | nil : Blank []
  | space {c t} : IsSpace c → Blank t → Blank (c :: t)
  | line {body nl t} : (∀ x ∈ body, x ≠ '\n' ∧ x ≠ '\r') → (nl = '\n' ∨ nl = '\r') → Blank t →
      Blank (k!"//" ++ (body ++ (nl :: t)))
  | block {body t} : ¬ k!"*/" <:+: body → Blank t → Blank (k!"/*" ++ (body ++ (k!"*/" ++ t)))

/-- What may follow the last token: white space and comments; the last line comment may lack a newline. -/
def BlankEnd (s : Str) : Prop :=
  Blank s ∨ ∃ w body, s = w ++ (k!"//" ++ body) ∧ Blank w ∧ ∀ x ∈ body, x ≠ '\n' ∧ x ≠ '\r'

/-- The text consists of the tokens, with white space and comments before, between and after them; each token
is followed by what may follow it. -/
def Written : List Tok → Str → Prop
  | [], s => BlankEnd s
  | t :: ts, s => ∃ w r, s = w ++ (t.txt ++ r) ∧ Blank w ∧ t.next r ∧ Written ts r

/-! ## Names and literals -/

/-- The delimiter `q` does not occur in `v ++ q` before the end. -/
def Closed (q v : Str) : Prop := ∀ i < v.length, ¬ q <+: (v ++ q).drop i

/-- What stands between two delimiters: white space and comments, which are dropped, and the value. -/
structure Quote where
  pad : Str
  val : Str

namespace Quote
def text (q : Str) (x : Quote) : Str := q ++ (x.pad ++ (x.val ++ q))
/-- The value does not begin with a blank or `//`: these would be dropped. -/
def Ok (q : Str) (x : Quote) : Prop :=
  Blank x.pad ∧ Closed q x.val ∧ (∀ c cs, x.val = c :: cs → ¬ IsSpace c) ∧ ¬ k!"//" <+: x.val
/-- Inside column types nothing is dropped. -/
def Tight (q : Str) (x : Quote) : Prop := x.pad = [] ∧ Closed q x.val
/-- If the value begins with `/*`, then this is not a comment: the rest of the text has no `*/`. -/
def next (q : Str) (x : Quote) : Next := fun r =>
  k!"/*" <+: x.val → ¬ k!"*/" <:+: x.val.drop 2 ++ (q ++ r)
/-- The value `s`, with nothing dropped. -/
def of (s : Str) : Quote := ⟨[], s⟩
end Quote

/-- An identifier. -/
inductive Name where
  | word (s : Str) | quoted (x : Quote)

namespace Name
def text : Name → Str
  | word s => s
  | quoted x => x.text k!"\""
def value : Name → Str
  | word s => s
  | quoted x => x.val
def Ok : Name → Prop
  | word s => IsVar s
  | quoted x => x.Ok k!"\""
/-- Well-formed inside a column type. -/
def Tight : Name → Prop
  | word s => IsVar s
  | quoted x => x.Tight k!"\""
def next : Name → Next
  | word _ => .word
  | quoted x => x.next k!"\""
def tok (n : Name) : Tok := { txt := n.text, next := n.next }
def ast (n : Name) : Ident := { raw := n.text, to_string := n.value }
end Name

/-- A string literal. -/
inductive StrLit where
  | single (x : Quote) | triple (x : Quote)

namespace StrLit
def text : StrLit → Str
  | single x => x.text k!"'"
  | triple x => x.text k!"'''"
def value : StrLit → Str
  | single x => x.val
  | triple x => x.val
def Ok : StrLit → Prop
  | single x => x.Ok k!"'"
  | triple x => x.Ok k!"'''"
def Tight : StrLit → Prop
  | single x => x.Tight k!"'"
  | triple x => x.Tight k!"'''"
def next : StrLit → Next
  | single x => x.next k!"'"
  | triple x => x.next k!"'''"
def tok (l : StrLit) : Tok := { txt := l.text, next := l.next }
def ast (l : StrLit) : Literal := { span_range := .zero, raw := l.text, value := .string l.value }
end StrLit

/-- A literal value. -/
inductive Lit where
  | str (l : StrLit) | expr (x : Quote) | tru | fls | null | int (ds : Str) | dec (a b : Str) | hex (h : Str)

namespace Lit
def text : Lit → Str
  | str l => l.text
  | expr x => x.text k!"`"
  | tru => k!"true"
  | fls => k!"false"
  | null => k!"null"
  | int ds => ds
  | dec a b => a ++ ('.' :: b)
  | hex h => '#' :: h
def value : Lit → Value
  | str l => .string l.value
  | expr x => .expr x.val
  | tru => .bool true
  | fls => .bool false
  | null => .null
  | int ds => .integer (digitsNat ds)
  | dec a b => .decimal (F64.parse (a ++ ('.' :: b)))
  | hex h => .hexColor ('#' :: h)
/-- The numbers and colors. -/
def NumOk : Lit → Prop
  | int ds => IsDigits ds ∧ digitsNat ds < 2 ^ 63
  | dec a b => IsDigits a ∧ ∀ c ∈ b, c.isDigit = true
  | hex h => (∀ c ∈ h, IsHexDigit c) ∧ (h.length = 3 ∨ h.length = 6)
  | _ => True
def Ok : Lit → Prop
  | str l => l.Ok
  | expr x => x.Ok k!"`"
  | l => l.NumOk
/-- Well-formed inside a column type. -/
def Tight : Lit → Prop
  | str l => l.Tight
  | expr x => x.Tight k!"`"
  | l => l.NumOk
/-- After a color with three digits there are no three more digits. -/
def next : Lit → Next
  | str l => l.next
  | expr x => x.next k!"`"
  | hex [_, _, _] => fun r => ¬ ∃ a b c t, r = a :: b :: c :: t ∧ IsHexDigit a ∧ IsHexDigit b ∧ IsHexDigit c
  | _ => .any
end Lit

/-! ## Settings -/

/-- The value of an attribute or property: a literal, a bare word or a double quoted string. -/
inductive AVal where
  | lit (l : Lit) | word (s : Str) | dq (x : Quote)

namespace AVal
def text : AVal → Str
  | lit l => l.text
  | word s => s
  | dq x => x.text k!"\""
def value : AVal → Value
  | lit l => l.value
  | word s => .enum s
  | dq x => .string x.val
/-- A bare word does not begin with `true`, `false` or `null`. -/
def Ok : AVal → Prop
  | lit l => l.Ok
  | word s => IsSpacedVar s ∧ ¬ k!"true" <+: s ∧ ¬ k!"false" <+: s ∧ ¬ k!"null" <+: s
  | dq x => x.Ok k!"\""
def next : AVal → Next
  | lit l => l.next
  | word _ => .spaced
  | dq x => x.next k!"\""
def tok (v : AVal) : Tok := { txt := v.text, next := v.next }
def ast (v : AVal) : Literal := { span_range := .zero, raw := v.text, value := v.value }
end AVal

def colon : Tok := { txt := k!":" }
def comma : Tok := { txt := k!"," }
def dot : Tok := { txt := k!"." }
def lbrace : Tok := { txt := k!"{" }
def rbrace : Tok := { txt := k!"}" }
def lbrack : Tok := { txt := k!"[" }
def rbrack : Tok := { txt := k!"]" }
def lparen : Tok := { txt := k!"(" }
def rparen : Tok := { txt := k!")" }

/-- The key of an attribute or property. -/
def keyTok (k : Str) : Tok := { txt := k, next := .spaced }
def keyAst (k : Str) : Ident := { raw := k, to_string := k }

/-- `key` or `key: value`. -/
structure Attr where
  key : Str
  value : Option AVal

namespace Attr
def Ok (a : Attr) : Prop := IsSpacedVar a.key ∧ ∀ v, a.value = some v → v.Ok
def toks (a : Attr) : List Tok :=
  keyTok a.key :: match a.value with
    | none => []
    | some v => [colon, v.tok]
def ast (a : Attr) : Attribute := { key := keyAst a.key, value := a.value.map (·.ast) }
end Attr

/-- `x, x, ...` -/
def commaSep {α : Type} (f : α → List Tok) : List α → List Tok
  | [] => []
  | x :: xs => f x ++ xs.flatMap fun y => comma :: f y

/-- `[x, x, ...]` -/
def brackets {α : Type} (f : α → List Tok) (xs : List α) : List Tok :=
  lbrack :: (commaSep f xs ++ [rbrack])

/-- `[x, x, ...]` or nothing. -/
def optBrackets {α : Type} (f : α → List Tok) : Option (List α) → List Tok
  | none => []
  | some xs => brackets f xs

def attrsAst (as : List Attr) : List Attribute := as.map (·.ast)

/-- Is there an attribute named `k`? -/
def has (k : Str) (as : List Attribute) : Bool := as.any fun a => a.key.to_string = k

/-! ## Notes and projects -/

/-- `Note: 'text'`, or `Note { 'text' }` if `braced`. -/
structure Note where
  kw : Str
  braced : Bool
  text : StrLit

namespace Note
def Ok (n : Note) : Prop := Keyword k!"note" n.kw ∧ n.text.Ok
def toks (n : Note) : List Tok :=
  { txt := n.kw } :: if n.braced then [lbrace, n.text.tok, rbrace] else [colon, n.text.tok]
def ast (n : Note) : NoteBlock := { span_range := .zero, value := n.text.ast }
end Note

/-- An item of a project. -/
inductive ProjItem where
  | note (n : Note) | prop (key : Str) (value : AVal)

namespace ProjItem
/-- A property value is not double quoted, and a property named `note` is not a string (it would be a
note). -/
def Ok : ProjItem → Prop
  | note n => n.Ok
  | prop k v => IsSpacedVar k ∧ v.Ok ∧ (∀ x, v ≠ .dq x) ∧ ¬ (Keyword k!"note" k ∧ ∃ l, v = .lit (.str l))
def toks : ProjItem → List Tok
  | note n => n.toks
  | prop k v => [keyTok k, colon, v.tok]
def prop? : ProjItem → Option Property
  | prop k v => some { span_range := .zero, key := keyAst k, value := v.ast }
  | note _ => none
def note? : ProjItem → Option NoteBlock
  | note n => some n.ast
  | prop _ _ => none
end ProjItem

/-- `Project name { ... }` -/
structure Project where
  kw : Str
  name : Name
  items : List ProjItem

namespace Project
def Ok (p : Project) : Prop := Keyword k!"project " p.kw ∧ p.name.Ok ∧ ∀ i ∈ p.items, i.Ok
def toks (p : Project) : List Tok :=
  { txt := p.kw } :: p.name.tok :: lbrace :: (p.items.flatMap (·.toks) ++ [rbrace])
def ast (p : Project) : ProjectBlock :=
  { properties := p.items.filterMap (·.prop?), ident := p.name.ast
    database_type := ((p.items.filterMap (·.prop?)).filterMap dbTypeOf).getLast?
    note := (p.items.filterMap (·.note?)).getLast? }
end Project

/-! ## References -/

/-- The column part of an endpoint: `col` or `(col, ...)`. -/
inductive Comp where
  | one (n : Name) | many (n : Name) (ns : List Name)

namespace Comp
def names : Comp → List Name
  | one n => [n]
  | many n ns => n :: ns
def toks : Comp → List Tok
  | one n => [n.tok]
  | many n ns => lparen :: (commaSep (fun m => [m.tok]) (n :: ns) ++ [rparen])
end Comp

/-- `[schema.]name`, as tokens. -/
def qualToks (schema : Option Name) (name : Name) : List Tok :=
  match schema with
  | none => [name.tok]
  | some s => [s.tok, dot, name.tok]

/-- `[schema.]table.columns` -/
structure REnd where
  schema : Option Name
  table : Name
  cols : Comp

namespace REnd
def Ok (r : REnd) : Prop := (∀ s, r.schema = some s → s.Ok) ∧ r.table.Ok ∧ ∀ n ∈ r.cols.names, n.Ok
def toks (r : REnd) : List Tok := qualToks r.schema r.table ++ (dot :: r.cols.toks)
def ast (r : REnd) : RefIdent :=
  { schema := r.schema.map (·.ast), table := r.table.ast, compositions := r.cols.names.map (·.ast) }
end REnd

/-- The symbol of a relation. -/
def relText : Relation → Str
  | .one2many => k!"<"
  | .many2one => k!">"
  | .one2one => k!"-"
  | .many2many => k!"<>"
  | .undef => []

def relTok (r : Relation) : Tok := { txt := relText r }

/-- `ref: > table.col` in column settings. -/
structure InlineRef where
  rel : Relation
  rhs : REnd

namespace InlineRef
def Ok (r : InlineRef) : Prop := r.rel ≠ .undef ∧ r.rhs.Ok
def toks (r : InlineRef) : List Tok := { txt := k!"ref" } :: colon :: relTok r.rel :: r.rhs.toks
def ast (r : InlineRef) : RefInline := { rel := r.rel, rhs := r.rhs.ast }
end InlineRef

/-- The action named by the last attribute `k`, if that is a bare word. -/
def actionOf (k : Str) (as : List Attribute) : Option ReferentialAction :=
  match lastValue k as with
  | some { value := .enum w, .. } => actions.lookup w
  | _ => none

/-- The attributes of a ref: a bare word after `update` or `delete` is an action. -/
def RefAttrsOk (as : List Attr) : Prop :=
  (∀ a ∈ as, a.Ok) ∧
  ∀ a ∈ as, (a.key = k!"update" ∨ a.key = k!"delete") → ∀ w, a.value = some (.word w) →
    ∃ x, (w, x) ∈ actions

def refSettingsAst (as : List Attr) : RefSettings :=
  { attributes := attrsAst as, on_update := actionOf k!"update" (attrsAst as)
    on_delete := actionOf k!"delete" (attrsAst as) }

/-- `Ref name: a.x > b.y [settings]`, or `Ref name { a.x > b.y [settings] }` if `braced`. -/
structure Ref where
  kw : Str
  name : Option Name
  braced : Bool
  lhs : REnd
  rel : Relation
  rhs : REnd
  settings : Option (List Attr)

namespace Ref
def Ok (r : Ref) : Prop :=
  Keyword k!"ref" r.kw ∧ (∀ n, r.name = some n → n.Ok) ∧ r.lhs.Ok ∧ r.rel ≠ .undef ∧ r.rhs.Ok ∧
  ∀ as, r.settings = some as → RefAttrsOk as
def stmtToks (r : Ref) : List Tok :=
  r.lhs.toks ++ (relTok r.rel :: (r.rhs.toks ++ optBrackets Attr.toks r.settings))
def toks (r : Ref) : List Tok :=
  { txt := r.kw } :: ((r.name.toList.map (·.tok)) ++
    if r.braced then lbrace :: (r.stmtToks ++ [rbrace]) else colon :: r.stmtToks)
def ast (r : Ref) : RefBlock :=
  { name := r.name.map (·.ast), rel := r.rel, lhs := r.lhs.ast, rhs := r.rhs.ast
    settings := r.settings.map refSettingsAst }
end Ref

/-! ## Indexes -/

/-- A column or expression of an index. -/
inductive ICol where
  | name (n : Name) | expr (x : Quote)

namespace ICol
def Ok : ICol → Prop
  | name n => n.Ok
  | expr x => x.Ok k!"`"
def tok : ICol → Tok
  | name n => n.tok
  | expr x => { txt := x.text k!"`", next := x.next k!"`" }
def ast : ICol → IndexesColumnType
  | name n => .string n.ast
  | expr x => .expr { span_range := .zero, raw := x.text k!"`", value := .string x.val }
end ICol

/-- The attributes of an index: a value after `type` is an index method. -/
def IndexAttrsOk (as : List Attr) : Prop :=
  (∀ a ∈ as, a.Ok) ∧
  ∀ a ∈ as, a.key = k!"type" → ∀ v, a.value = some v → ∃ t, (v.value.toStr, t) ∈ indexTypes

def indexSettingsAst (as : List Attr) : IndexesSettings :=
  { attributes := attrsAst as
    type := (lastValue k!"type" (attrsAst as)).bind fun l => indexTypes.lookup l.value.toStr
    is_unique := has k!"unique" (attrsAst as), is_pk := has k!"pk" (attrsAst as)
    note := (lastValue k!"note" (attrsAst as)).map (·.value.toStr)
    name := (lastValue k!"name" (attrsAst as)).map (·.value.toStr) }

/-- `col [settings]` or `(col, ...) [settings]` -/
inductive IDef where
  | single (c : ICol) (settings : Option (List Attr))
  | multi (cs : List ICol) (settings : Option (List Attr))

namespace IDef
def cols : IDef → List ICol
  | single c _ => [c]
  | multi cs _ => cs
def settings : IDef → Option (List Attr)
  | single _ s => s
  | multi _ s => s
def Ok (d : IDef) : Prop := (∀ c ∈ d.cols, c.Ok) ∧ ∀ as, d.settings = some as → IndexAttrsOk as
def toks : IDef → List Tok
  | single c s => c.tok :: optBrackets Attr.toks s
  | multi cs s => lparen :: (commaSep (fun c => [c.tok]) cs ++ (rparen :: optBrackets Attr.toks s))
def ast (d : IDef) : IndexesDef := { cols := d.cols.map (·.ast), settings := d.settings.map indexSettingsAst }
end IDef

/-- `Indexes { ... }` -/
structure Idxs where
  kw : Str
  defs : List IDef

namespace Idxs
def Ok (i : Idxs) : Prop := Keyword k!"indexes" i.kw ∧ ∀ d ∈ i.defs, d.Ok
def toks (i : Idxs) : List Tok := { txt := i.kw } :: lbrace :: (i.defs.flatMap (·.toks) ++ [rbrace])
def ast (i : Idxs) : IndexesBlock := { defs := i.defs.map (·.ast) }
end Idxs

/-! ## Enums -/

/-- `value [settings]` -/
structure EVal where
  name : Name
  settings : Option (List Attr)

def enumSettingsAst (as : List Attr) : EnumValueSettings :=
  { attributes := attrsAst as, note := (lastValue k!"note" (attrsAst as)).map (·.value.toStr) }

namespace EVal
def Ok (v : EVal) : Prop := v.name.Ok ∧ ∀ as, v.settings = some as → ∀ a ∈ as, a.Ok
def toks (v : EVal) : List Tok := v.name.tok :: optBrackets Attr.toks v.settings
def ast (v : EVal) : EnumValue := { value := v.name.ast, settings := v.settings.map enumSettingsAst }
end EVal

/-- `Enum [schema.]name { ... }` -/
structure Enum where
  kw : Str
  schema : Option Name
  name : Name
  values : List EVal

namespace Enum
def Ok (e : Enum) : Prop :=
  Keyword k!"enum " e.kw ∧ (∀ s, e.schema = some s → s.Ok) ∧ e.name.Ok ∧ ∀ v ∈ e.values, v.Ok
def toks (e : Enum) : List Tok :=
  { txt := e.kw } :: (qualToks e.schema e.name ++ (lbrace :: (e.values.flatMap (·.toks) ++ [rbrace])))
def ast (e : Enum) : EnumBlock :=
  { ident := { schema := e.schema.map (·.ast), name := e.name.ast }, values := e.values.map (·.ast) }
end Enum

/-! ## Column types: a single token, without blanks -/

/-- `(v, ...)` -/
def argsText : Option (List Lit) → Str
  | none => []
  | some [] => k!"()"
  | some (v :: vs) => k!"(" ++ (v.text ++ (vs.flatMap (fun v => ',' :: v.text) ++ k!")"))

/-- `[n]` or `[]` -/
def arrayText (ds : Option Str) : Str := '[' :: (ds.getD [] ++ k!"]")

/-- A type without schema: `name(args)[n]...` or `"name(args)[n]..."[n]...`. -/
inductive TBody where
  | plain (name : Str) (args : Option (List Lit)) (arrays : List (Option Str))
  | quoted (name : Str) (args : Option (List Lit)) (inner outer : List (Option Str))

namespace TBody
def name : TBody → Str
  | plain n _ _ => n
  | quoted n _ _ _ => n
def args : TBody → Option (List Lit)
  | plain _ a _ => a
  | quoted _ a _ _ => a
def arrays : TBody → List (Option Str)
  | plain _ _ r => r
  | quoted _ _ r r' => r ++ r'
def text : TBody → Str
  | plain n a r => n ++ (argsText a ++ r.flatMap arrayText)
  | quoted n a r r' =>
    k!"\"" ++ (n ++ (argsText a ++ (r.flatMap arrayText ++ (k!"\"" ++ r'.flatMap arrayText))))
/-- Array sizes fit `u32`. -/
def Ok (b : TBody) : Prop :=
  (match b with
    | plain n _ _ => IsVar n
    | quoted n _ _ _ => IsSpacedVar n) ∧
  (∀ l ∈ b.args.getD [], l.Tight) ∧ ∀ r ∈ b.arrays, ∀ ds, r = some ds → IsDigits ds ∧ digitsNat ds < 2 ^ 32
end TBody

/-- `[schema.]type` -/
structure Ty where
  schema : Option Name
  body : TBody

/-- The second `"` of a quoted type without schema is not followed by a dot: else the text up to it would be
a schema name. (There is a `"` before the last one only if an argument contains it.) -/
def TBody.NoDot : TBody → Prop
  | .plain _ _ _ => True
  | .quoted n a r _ =>
    (((n ++ (argsText a ++ (r.flatMap arrayText ++ k!"\""))).dropWhile (· ≠ '"')).drop 1).head? ≠ some '.'

namespace Ty
def Ok (t : Ty) : Prop := (∀ s, t.schema = some s → s.Tight) ∧ t.body.Ok ∧ (t.schema = none → t.body.NoDot)
def text (t : Ty) : Str :=
  match t.schema with
  | none => t.body.text
  | some s => s.text ++ ('.' :: t.body.text)
/-- If a type ends with a word, then no word follows; and `[]` after it would be a part of it. -/
def next (t : Ty) : Next := fun r =>
  ((∃ cs c, t.text = cs ++ [c] ∧ IsWord c) → Next.word r) ∧ ¬ k!"[]" <+: r
def tok (t : Ty) : Tok := { txt := t.text, next := t.next }
def ast (t : Ty) : ColumnType :=
  { raw := t.text
    type_name := .raw (match t.schema with
      | none => t.body.name
      | some s => s.value ++ ('.' :: t.body.name))
    args := (t.body.args.getD []).map (·.value)
    arrays := t.body.arrays.map fun ds => ds.map digitsNat }
end Ty

/-! ## Tables -/

/-- An item of column settings. -/
inductive ColSet where
  | attr (a : Attr) | ref (r : InlineRef)

namespace ColSet
def Ok : ColSet → Prop
  | attr a => a.Ok
  | ref r => r.Ok
def toks : ColSet → List Tok
  | attr a => a.toks
  | ref r => r.toks
def attr? : ColSet → Option Attribute
  | attr a => some a.ast
  | ref _ => none
def ref? : ColSet → Option RefInline
  | attr _ => none
  | ref r => some r.ast
end ColSet

def colSettingsAst (is : List ColSet) : ColumnSettings :=
  let as := is.filterMap (·.attr?)
  { attributes := as, refs := is.filterMap (·.ref?)
    is_pk := has k!"pk" as || has k!"primary key" as
    is_unique := has k!"unique" as
    nullable := (as.filterMap nullableOf).getLast?
    is_incremental := has k!"increment" as
    note := (lastValue k!"note" as).map (·.value.toStr)
    default := (lastValue k!"default" as).map (·.value) }

/-- `name type [settings]` -/
structure Col where
  name : Name
  type : Ty
  settings : Option (List ColSet)

namespace Col
def Ok (c : Col) : Prop := c.name.Ok ∧ c.type.Ok ∧ ∀ is, c.settings = some is → ∀ i ∈ is, i.Ok
def toks (c : Col) : List Tok := c.name.tok :: c.type.tok :: optBrackets ColSet.toks c.settings
def ast (c : Col) : TableColumn :=
  { name := c.name.ast, type := c.type.ast, settings := c.settings.map colSettingsAst }
end Col

/-- An item of a table. -/
inductive TItem where
  | col (c : Col) | note (n : Note) | indexes (i : Idxs)

namespace TItem
def Ok : TItem → Prop
  | col c => c.Ok
  | note n => n.Ok
  | indexes i => i.Ok
def toks : TItem → List Tok
  | col c => c.toks
  | note n => n.toks
  | indexes i => i.toks
def col? : TItem → Option TableColumn
  | col c => some c.ast
  | _ => none
def note? : TItem → Option NoteBlock
  | note n => some n.ast
  | _ => none
def indexes? : TItem → Option IndexesBlock
  | indexes i => some i.ast
  | _ => none
end TItem

/-- `as name` -/
structure Alias where
  kw : Str
  name : Name

/-- `Table [schema.]name [as alias] [settings] { ... }` -/
structure Table where
  kw : Str
  schema : Option Name
  name : Name
  alias : Option Alias
  settings : Option (List Attr)
  items : List TItem

namespace Table
def Ok (t : Table) : Prop :=
  Keyword k!"table " t.kw ∧ (∀ s, t.schema = some s → s.Ok) ∧ t.name.Ok ∧
  (∀ a, t.alias = some a → Keyword k!"as " a.kw ∧ a.name.Ok) ∧
  (∀ as, t.settings = some as → ∀ a ∈ as, a.Ok) ∧ ∀ i ∈ t.items, i.Ok
def aliasToks (t : Table) : List Tok :=
  match t.alias with
  | none => []
  | some a => [{ txt := a.kw }, a.name.tok]
def toks (t : Table) : List Tok :=
  { txt := t.kw } :: (qualToks t.schema t.name ++ (t.aliasToks ++ (optBrackets Attr.toks t.settings ++
    (lbrace :: (t.items.flatMap (·.toks) ++ [rbrace])))))
def ast (t : Table) : TableBlock :=
  { cols := t.items.filterMap (·.col?)
    ident := { name := t.name.ast, schema := t.schema.map (·.ast), alias := t.alias.map (·.name.ast) }
    note := (t.items.filterMap (·.note?)).getLast?
    indexes := (t.items.filterMap (·.indexes?)).getLast?
    settings := t.settings.map fun as => { attributes := attrsAst as } }
end Table

/-! ## Table groups -/

/-- An item of a table group. -/
inductive GItem where
  | note (n : Note) | item (schema : Option Name) (name : Name)

namespace GItem
def Ok : GItem → Prop
  | note n => n.Ok
  | item s n => (∀ x, s = some x → x.Ok) ∧ n.Ok
def toks : GItem → List Tok
  | note n => n.toks
  | item s n => qualToks s n
def note? : GItem → Option NoteBlock
  | note n => some n.ast
  | item _ _ => none
def item? : GItem → Option TableGroupItem
  | note _ => none
  | item s n => some { schema := s.map (·.ast), ident_alias := n.ast }
end GItem

/-- `TableGroup name [settings] { ... }` -/
structure Group where
  kw : Str
  name : Name
  settings : Option (List Attr)
  items : List GItem

namespace Group
def Ok (g : Group) : Prop :=
  Keyword k!"tablegroup " g.kw ∧ g.name.Ok ∧ (∀ as, g.settings = some as → ∀ a ∈ as, a.Ok) ∧
  ∀ i ∈ g.items, i.Ok
def toks (g : Group) : List Tok :=
  { txt := g.kw } :: g.name.tok :: (optBrackets Attr.toks g.settings ++
    (lbrace :: (g.items.flatMap (·.toks) ++ [rbrace])))
def ast (g : Group) : TableGroupBlock :=
  { ident := g.name.ast, note := (g.items.filterMap (·.note?)).getLast?
    items := g.items.filterMap (·.item?)
    settings := g.settings.map fun as => { attributes := attrsAst as } }
end Group

/-! ## Documents -/

/-- A top-level declaration. -/
inductive Block where
  | project (p : Project) | table (t : Table) | group (g : Group) | note (n : Note) | ref (r : Ref)
  | enum (e : Enum)

namespace Block
def Ok : Block → Prop
  | project p => p.Ok
  | table t => t.Ok
  | group g => g.Ok
  | note n => n.Ok
  | ref r => r.Ok
  | enum e => e.Ok
def toks : Block → List Tok
  | project p => p.toks
  | table t => t.toks
  | group g => g.toks
  | note n => n.toks
  | ref r => r.toks
  | enum e => e.toks
def ast : Block → TopLevelBlock
  | project p => .project p.ast
  | table t => .table t.ast
  | group g => .tableGroup g.ast
  | note n => .note n.ast
  | ref r => .ref r.ast
  | enum e => .enum e.ast
end Block

/-- A document. -/
abbrev Doc := List Block

namespace Doc
def Ok (d : Doc) : Prop := ∀ b ∈ d, b.Ok
def toks (d : Doc) : List Tok := d.flatMap (·.toks)
def ast (d : Doc) : List TopLevelBlock := d.map (·.ast)
end Doc

end Dbml.Source
