import Verif.Spec.Source
import Mathlib.Logic.Relation

/-!
# Other ways to write the same schema

`Rewrite d d'`: the document `d'` is obtained from `d` by one step that does not change what the schema means.
-/

namespace Dbml.Source

open Syntax

/-- The relation, seen from the other end. -/
def otherWay : Relation → Relation
  | .one2many => .many2one
  | .many2one => .one2many
  | r => r

/-- The same settings in another order; `[]` and no settings are the same. -/
inductive SetsPerm {α : Type} : Option (List α) → Option (List α) → Prop
  | perm {is js} : is.Perm js → SetsPerm (some is) (some js)
  | drop : SetsPerm (some []) none
  | add : SetsPerm none (some [])

/-- Rewriting an index definition: settings in another order. (An index without settings is not the same as one with `[]`.) -/
inductive RewriteDef : IDef → IDef → Prop
  | single {c as bs} : as.Perm bs → RewriteDef (.single c (some as)) (.single c (some bs))
  | multi {cs as bs} : as.Perm bs → RewriteDef (.multi cs (some as)) (.multi cs (some bs))
  /-- `(c)` and `c` are the same. -/
  | paren {c as} : RewriteDef (.single c as) (.multi [c] as)
  | unparen {c as} : RewriteDef (.multi [c] as) (.single c as)

/-- Rewriting an item of a table. -/
inductive RewriteItem : TItem → TItem → Prop
  /-- The settings of a column in another order. -/
  | col {n ty is js} : SetsPerm is js → RewriteItem (.col ⟨n, ty, is⟩) (.col ⟨n, ty, js⟩)
  /-- An index definition rewritten. -/
  | index {kw l1 d d' l2} : RewriteDef d d' → RewriteItem (.indexes ⟨kw, l1 ++ d :: l2⟩) (.indexes ⟨kw, l1 ++ d' :: l2⟩)

/-- Rewriting a ref. -/
inductive RewriteRef : Ref → Ref → Prop
  /-- Another name, or none; one line or braces. -/
  | form {kw n b lhs rel rhs st n' b'} : (∀ x, n' = some x → x.Ok) →
      RewriteRef ⟨kw, n, b, lhs, rel, rhs, st⟩ ⟨kw, n', b', lhs, rel, rhs, st⟩
  /-- Written from the other end. -/
  | turn {kw n b lhs rel rhs st} : RewriteRef ⟨kw, n, b, lhs, rel, rhs, st⟩ ⟨kw, n, b, rhs, otherWay rel, lhs, st⟩
  /-- The pairs of columns in another order. -/
  | pairs {kw n b sl tl sr tr l r l' r' rel st} (ps qs : List (Name × Name)) : ps.Perm qs →
      l.names = ps.map Prod.fst → r.names = ps.map Prod.snd → l'.names = qs.map Prod.fst → r'.names = qs.map Prod.snd →
      RewriteRef ⟨kw, n, b, ⟨sl, tl, l⟩, rel, ⟨sr, tr, r⟩, st⟩ ⟨kw, n, b, ⟨sl, tl, l'⟩, rel, ⟨sr, tr, r'⟩, st⟩
  /-- The settings in another order. -/
  | settings {kw n b lhs rel rhs st st'} : SetsPerm st st' →
      RewriteRef ⟨kw, n, b, lhs, rel, rhs, st⟩ ⟨kw, n, b, lhs, rel, rhs, st'⟩

/-- Rewriting a declaration. -/
inductive RewriteBlock : Block → Block → Prop
  /-- The items of a project in another order. -/
  | project {kw n is js} : is.Perm js → RewriteBlock (.project ⟨kw, n, is⟩) (.project ⟨kw, n, js⟩)
  /-- The settings of a table in another order. -/
  | tableSettings {kw s n a as bs is} : SetsPerm as bs →
      RewriteBlock (.table ⟨kw, s, n, a, as, is⟩) (.table ⟨kw, s, n, a, bs, is⟩)
  /-- The columns, notes and index blocks of a table in another order, but not the index blocks among themselves. -/
  | tableItems {kw s n a as is js} : is.Perm js → is.filterMap (·.indexes?) = js.filterMap (·.indexes?) →
      RewriteBlock (.table ⟨kw, s, n, a, as, is⟩) (.table ⟨kw, s, n, a, as, js⟩)
  /-- One item of a table rewritten. -/
  | tableItem {kw s n a as l1 i j l2} : RewriteItem i j →
      RewriteBlock (.table ⟨kw, s, n, a, as, l1 ++ i :: l2⟩) (.table ⟨kw, s, n, a, as, l1 ++ j :: l2⟩)
  /-- The values of an enum in another order. -/
  | enumValues {kw s n vs ws} : vs.Perm ws → RewriteBlock (.enum ⟨kw, s, n, vs⟩) (.enum ⟨kw, s, n, ws⟩)
  /-- The settings of a value in another order. -/
  | enumSettings {kw s n l1 v as bs l2} : SetsPerm as bs →
      RewriteBlock (.enum ⟨kw, s, n, l1 ++ ⟨v, as⟩ :: l2⟩) (.enum ⟨kw, s, n, l1 ++ ⟨v, bs⟩ :: l2⟩)
  /-- The items of a table group in another order. -/
  | groupItems {kw n as is js} : is.Perm js → RewriteBlock (.group ⟨kw, n, as, is⟩) (.group ⟨kw, n, as, js⟩)
  /-- Other settings of a table group. -/
  | groupSettings {kw n as bs is} : (∀ cs, bs = some cs → ∀ a ∈ cs, a.Ok) →
      RewriteBlock (.group ⟨kw, n, as, is⟩) (.group ⟨kw, n, bs, is⟩)
  | ref {r r'} : RewriteRef r r' → RewriteBlock (.ref r) (.ref r')

/-- The table has the alias `a`. -/
def Table.HasAlias (t : Table) (a : Str) : Prop := ∃ x, t.alias = some x ∧ x.name.value = a

/-- The end `e` names a table by its alias, and `e'` by its schema and name, which is nobody's alias. -/
def ByAlias (d : Doc) (e e' : REnd) : Prop :=
  ∃ t sc, Block.table t ∈ d ∧ t.HasAlias e.table.value ∧ t.schema = some sc ∧
    e' = { schema := some sc, table := t.name, cols := e.cols } ∧ ∀ u, Block.table u ∈ d → ¬ u.HasAlias t.name.value

/-- One step of rewriting a document. -/
inductive Rewrite : Doc → Doc → Prop
  /-- The declarations in another order. -/
  | order {d d'} : d.Perm d' → Rewrite d d'
  /-- One declaration rewritten. -/
  | block {d1 b b' d2} : RewriteBlock b b' → Rewrite (d1 ++ b :: d2) (d1 ++ b' :: d2)
  /-- A top-level note added. -/
  | note {d1 n d2} : n.Ok → Rewrite (d1 ++ d2) (d1 ++ .note n :: d2)
  /-- A reference written in a column moved to a block of its own. -/
  | inline {d1 d2 kw s n a as i1 i2 c ty l1 l2 r kw'} : Keyword k!"ref" kw' →
      Rewrite (d1 ++ .table ⟨kw, s, n, a, as, i1 ++ .col ⟨c, ty, some (l1 ++ .ref r :: l2)⟩ :: i2⟩ :: d2)
        (d1 ++ .table ⟨kw, s, n, a, as, i1 ++ .col ⟨c, ty, some (l1 ++ l2)⟩ :: i2⟩ ::
          .ref ⟨kw', none, false, ⟨s, n, .one c⟩, r.rel, r.rhs, none⟩ :: d2)
  /-- The first end of a ref written with the name of the table instead of its alias. (For the other end, turn it.) -/
  | alias {d1 d2 kw n b lhs lhs' rel rhs st} :
      ByAlias (d1 ++ .ref ⟨kw, n, b, lhs, rel, rhs, st⟩ :: d2) lhs lhs' →
      Rewrite (d1 ++ .ref ⟨kw, n, b, lhs, rel, rhs, st⟩ :: d2) (d1 ++ .ref ⟨kw, n, b, lhs', rel, rhs, st⟩ :: d2)

/-- Two documents that can be rewritten into each other. -/
def SameMeaning : Doc → Doc → Prop := Relation.EqvGen Rewrite

end Dbml.Source
