import Verif.Model.Ast

/-!
# The spans of an AST

The tree of all nodes of an AST that carry a `span_range` (and, if they have one, a `raw` text), used
to state what "every span of the AST" means.
-/

namespace Dbml.Spec

/-- A node: its span, its raw text if the AST records one, and its children, in groups; the members of
a group are listed in source order. -/
inductive SNode where
  | mk (span : Span) (raw : Option Str) (groups : List (List SNode))

def SNode.span : SNode → Span | .mk s _ _ => s
def SNode.raw : SNode → Option Str | .mk _ r _ => r
def SNode.groups : SNode → List (List SNode) | .mk _ _ g => g

/-- `s` is the byte range of the part `txt` of `input`. -/
def IsSlice (input : Str) (s : Span) (txt : Str) : Prop :=
  ∃ pre post, input = pre ++ (txt ++ post) ∧ s.start = blen pre ∧ s.stop = blen pre + blen txt

/-- `n` is a node of the tree `root`. -/
inductive SNode.In : SNode → SNode → Prop
  | self {n} : SNode.In n n
  | child {n k m : SNode} {g : List SNode} : g ∈ m.groups → k ∈ g → SNode.In n k → SNode.In n m

def identTree (i : Ident) : SNode := .mk i.span_range (some i.raw) []
def litTree (l : Literal) : SNode := .mk l.span_range (some l.raw) []
def attrTree (a : Attribute) : SNode :=
  .mk a.span_range none [identTree a.key :: a.value.toList.map litTree]
def propTree (a : Property) : SNode := .mk a.span_range none [[identTree a.key, litTree a.value]]
def noteTree (n : NoteBlock) : SNode := .mk n.span_range none [[litTree n.value]]
def projectTree (b : ProjectBlock) : SNode :=
  .mk b.span_range none
    [identTree b.ident :: b.properties.map propTree, identTree b.ident :: b.note.toList.map noteTree]
def refIdentTree (r : RefIdent) : SNode :=
  .mk r.span_range none [r.schema.toList.map identTree ++ (identTree r.table :: r.compositions.map identTree)]
def refInlineTree (r : RefInline) : SNode := .mk r.span_range none [[refIdentTree r.rhs]]
def refSettingsTree (s : RefSettings) : SNode := .mk s.span_range none [s.attributes.map attrTree]
/-- The span of a ref is that of its statement; its name lies outside. -/
def refTree (r : RefBlock) : SNode :=
  .mk r.span_range none [refIdentTree r.lhs :: refIdentTree r.rhs :: r.settings.toList.map refSettingsTree]
def indexColTree : IndexesColumnType → SNode
  | .string i => identTree i
  | .expr l => litTree l
def indexSettingsTree (s : IndexesSettings) : SNode := .mk s.span_range none [s.attributes.map attrTree]
def indexDefTree (d : IndexesDef) : SNode :=
  .mk d.span_range none [d.cols.map indexColTree ++ d.settings.toList.map indexSettingsTree]
def indexesTree (b : IndexesBlock) : SNode := .mk b.span_range none [b.defs.map indexDefTree]
def enumSettingsTree (s : EnumValueSettings) : SNode := .mk s.span_range none [s.attributes.map attrTree]
def enumValueTree (v : EnumValue) : SNode :=
  .mk v.span_range none [identTree v.value :: v.settings.toList.map enumSettingsTree]
def enumIdentTree (i : EnumIdent) : SNode :=
  .mk i.span_range none [i.schema.toList.map identTree ++ [identTree i.name]]
def enumTree (e : EnumBlock) : SNode :=
  .mk e.span_range none [enumIdentTree e.ident :: e.values.map enumValueTree]
def colTypeTree (t : ColumnType) : SNode := .mk t.span_range (some t.raw) []
def colSettingsTree (s : ColumnSettings) : SNode :=
  .mk s.span_range none [s.attributes.map attrTree, s.refs.map refInlineTree]
def colTree (c : TableColumn) : SNode :=
  .mk c.span_range none [identTree c.name :: colTypeTree c.type :: c.settings.toList.map colSettingsTree]
def tableSettingsTree (s : TableSettings) : SNode := .mk s.span_range none [s.attributes.map attrTree]
/-- The identifier of a table spans `[schema.]name`; the alias lies outside. -/
def tableIdentTree (i : TableIdent) : SNode :=
  .mk i.span_range none [i.schema.toList.map identTree ++ [identTree i.name]]
def tableHead (t : TableBlock) : List SNode :=
  tableIdentTree t.ident :: (t.ident.alias.toList.map identTree ++ t.settings.toList.map tableSettingsTree)
def tableTree (t : TableBlock) : SNode :=
  .mk t.span_range none
    [tableHead t ++ t.cols.map colTree, tableHead t ++ t.note.toList.map noteTree,
     tableHead t ++ t.indexes.toList.map indexesTree]
def groupItemTree (i : TableGroupItem) : SNode :=
  .mk i.span_range none [i.schema.toList.map identTree ++ [identTree i.ident_alias]]
def groupSettingsTree (s : TableGroupSettings) : SNode := .mk s.span_range none [s.attributes.map attrTree]
def groupHead (g : TableGroupBlock) : List SNode :=
  identTree g.ident :: g.settings.toList.map groupSettingsTree
def groupTree (g : TableGroupBlock) : SNode :=
  .mk g.span_range none
    [groupHead g ++ g.items.map groupItemTree, groupHead g ++ g.note.toList.map noteTree]
def blockTree : TopLevelBlock → SNode
  | .project b => projectTree b
  | .table b => tableTree b
  | .tableGroup b => groupTree b
  | .note b => noteTree b
  | .ref b => refTree b
  | .enum b => enumTree b
/-- The name of a ref. -/
def refName : TopLevelBlock → Option Ident
  | .ref b => b.name
  | _ => none
/-- All nodes of a schema. -/
def schemaTree (s : SchemaBlock) : SNode :=
  .mk s.span_range (some s.input) [s.blocks.map blockTree, (s.blocks.filterMap refName).map identTree]

end Dbml.Spec
