import Verif.Model.Analyzer

/-!
# A concrete document

Used beside the property theorems to show that their hypotheses are met by a non-trivial case. These are
evaluations of the model on one text: tests, not proofs of the properties.
-/

namespace Dbml

/-- The value, if there is one. -/
def Rs.get? {α : Type} : Rs α → Option α
  | .ok a => some a
  | _ => none

theorem Rs.eq_ok_of_get? {α : Type} {x : Rs α} {a : α} (h : x.get? = some a) : x = .ok a := by
  cases x <;> simp_all [Rs.get?]

/-- Two tables, an enum, a project, a ref, inline refs, indexes, a group, notes, comments and a two-byte
character. -/
def exText : Str := k!"Project shop { database_type: 'PostgreSQL' Note: 'é demo' }
Enum core.status { active [note: 'on'] \"not active\" }
Table core.users as U [headercolor: #fff] {
  id int [pk, increment]
  st core.status [default: active]
  name varchar(20) [not null, default: 'bob']
  \"a b\" int[2] [null]
  Note: 'users'
  Indexes { (id, name) [unique, name: 'x'] `lower(name)` [type: hash] }
}
// comment
Table posts {
  id int [primary key] uid int [ref: > core.users.id] score decimal(5,2) [default: 1.5]
  own int }
Ref own: posts.own > core.users.id [update: cascade, delete: set null]
TableGroup g { core.users posts }
Note: 'x'"

/-- Its AST. -/
def exAst : SchemaBlock := (parseDbmlUnchecked exText).get?.getD {}

theorem ex_reads : parseDbmlUnchecked exText = .ok exAst := by
  apply Rs.eq_ok_of_get?
  have h : (parseDbmlUnchecked exText).get?.isSome = true := by decide +kernel
  obtain ⟨a, ha⟩ := Option.isSome_iff_exists.1 h
  rw [exAst, ha]; rfl

theorem parseDbml_ok {t : Str} {a : SchemaBlock} (h : parseDbml t = .ok a) :
    parseDbmlUnchecked t = .ok a := by
  unfold parseDbml at h
  cases h1 : parseDbmlUnchecked t with
  | ok b =>
    rw [h1] at h
    change ((analyze b).bind fun _ => Rs.ok b) = _ at h
    cases h2 : analyze b with
    | ok c => rw [h2] at h; exact h
    | err e => rw [h2] at h; cases h
    | panic s => rw [h2] at h; cases h
    | diverge => rw [h2] at h; cases h
  | err e => rw [h1] at h; cases h
  | panic s => rw [h1] at h; cases h
  | diverge => rw [h1] at h; cases h

theorem ex_accepted : parseDbml exText = .ok exAst := by
  have h : (parseDbml exText).get?.isSome = true := by decide +kernel
  obtain ⟨a, ha⟩ := Option.isSome_iff_exists.1 h
  have ha := Rs.eq_ok_of_get? ha
  have := (parseDbml_ok ha).symm.trans ex_reads
  rw [ha, this]

end Dbml
