import Verif.Spec.Source

/-!
# Texts that declare members

`ColumnsText u cs`: the text `u` writes the columns `cs`, one after another, with white space and comments before,
between and after them - as between the braces of a table. The same for the definitions of an `Indexes` block, the values
of an enum and the members of a table group.
-/

namespace Dbml.Spec

open Source

def ColumnsText (u : Str) (cs : List TableColumn) : Prop :=
  ∃ xs : List Col, (∀ x ∈ xs, x.Ok) ∧ Written (xs.flatMap (·.toks)) u ∧ xs.map (·.ast) = cs.map (·.mapSpan noPos)

def IndexesText (u : Str) (ds : List IndexesDef) : Prop :=
  ∃ xs : List IDef, (∀ x ∈ xs, x.Ok) ∧ Written (xs.flatMap (·.toks)) u ∧ xs.map (·.ast) = ds.map (·.mapSpan noPos)

def ValuesText (u : Str) (vs : List EnumValue) : Prop :=
  ∃ xs : List EVal, (∀ x ∈ xs, x.Ok) ∧ Written (xs.flatMap (·.toks)) u ∧ xs.map (·.ast) = vs.map (·.mapSpan noPos)

/-- The members of a group are names, with or without a schema. -/
def ItemsText (u : Str) (is : List TableGroupItem) : Prop :=
  ∃ xs : List (Option Name × Name), (∀ x ∈ xs, (GItem.item x.1 x.2).Ok) ∧
    Written (xs.flatMap fun x => (GItem.item x.1 x.2).toks) u ∧
    xs.filterMap (fun x => (GItem.item x.1 x.2).item?) = is.map (·.mapSpan noPos)

end Dbml.Spec
