import Verif.Props.Core
import Verif.Props.Report
import Verif.Proofs.Kinds

/-!
# C84: which mistake is reported depends on the core only

C63 says that acceptance depends on the core of a schema only. So does the report: two texts with the same core, each
after a renaming, are both accepted, or both rejected with the same error, or both make the program crash. "The same
error" means up to the source texts and names that the error quotes; and, if schemas are renamed, up to whether it is a
schema, a table or an enum that is missing (a schema that holds only enums is not renamed along with the tables).
-/

namespace Dbml.Props
open Dbml Spec

variable {ρ ρ' : Renaming} {t t' : Str} {s s' : SchemaBlock}

theorem plain_blind : Blind plainErr := fun _ _ h => h
theorem coarse_blind : Blind coarseErr := fun e e' h => by unfold coarseErr; rw [h]
theorem coarse_merges : Merges coarseErr := ⟨rfl, rfl⟩

/-- The report of a parsed text is that of its checklist. -/
theorem report_rep (π : Err → Err) (h : parseDbmlUnchecked t = .ok s) :
    (parseDbml t = .ok s ∧ rep π (checklist s) = none) ∨
    (∃ e sp, parseDbml t = .err (.semantic e sp) ∧ rep π (checklist s) = some (some (π e))) ∨
    (parseDbml t = .panic .argsIndex ∧ rep π (checklist s) = some none) := by
  rcases parsed_outcome h with ⟨h1, h2⟩ | ⟨e, sp, h1, h2⟩ | ⟨h1, h2⟩
  · exact .inl ⟨h1, (rep_passes _).2 h2⟩
  · exact .inr (.inl ⟨e, sp, h1, rep_decides h2⟩)
  · exact .inr (.inr ⟨h1, rep_decides h2⟩)

theorem same_of_rep {π : Err → Err} (h : parseDbmlUnchecked t = .ok s) (h' : parseDbmlUnchecked t' = .ok s')
    (hr : rep π (checklist s) = rep π (checklist s')) : SameReport π (parseDbml t) (parseDbml t') := by
  rcases report_rep π h with ⟨h1, h2⟩ | ⟨e, sp, h1, h2⟩ | ⟨h1, h2⟩ <;>
    rcases report_rep π h' with ⟨h3, h4⟩ | ⟨e', sp', h3, h4⟩ | ⟨h3, h4⟩ <;>
    rw [h1, h3] <;> rw [h2, h4] at hr <;> simp at hr
  · exact .accepted _ _
  · exact .rejected _ _ _ _ hr
  · exact .crashed _

/-- **C84**: texts with the same core, their tables, columns and groups renamed, get the same report. -/
theorem C84_same_report (hρ : ρ.Ok) (hρ' : ρ'.Ok) (hk : ρ.KeepsSchemas) (hk' : ρ'.KeepsSchemas)
    (h : parseDbmlUnchecked t = .ok s) (h' : parseDbmlUnchecked t' = .ok s') (hc : core ρ s = core ρ' s') :
    SameReport plainErr (parseDbml t) (parseDbml t') :=
  same_of_rep h h' (by
    rw [← rep_core hρ plain_blind (.inl hk), hc, rep_core hρ' plain_blind (.inl hk')])

/-- **C84**: if schemas are renamed too, the same holds up to what kind of declaration is missing. -/
theorem C84_schemas (hρ : ρ.Ok) (hρ' : ρ'.Ok) (h : parseDbmlUnchecked t = .ok s) (h' : parseDbmlUnchecked t' = .ok s')
    (hc : core ρ s = core ρ' s') : SameReport coarseErr (parseDbml t) (parseDbml t') :=
  same_of_rep h h' (by
    rw [← rep_core hρ coarse_blind (.inr coarse_merges), hc, rep_core hρ' coarse_blind (.inr coarse_merges)])

/-! ## Examples -/

/-- Two mistakes: the ref to a column of another type, and one to a table that is none. -/
def exBad : Str := k!"Project shop { Note: 'the shop' }
Table users as U { id int [pk, note: 'key'] name varchar }
Table orders { id int [pk] user int [ref: > U.name, note: 'x'] } // a comment
Ref: orders.id > nothing.id"

/-- The same core, renamed and written differently. -/
def exBad' : Str := k!"Project q {  }
Table people as \"U\" { \"key\" int [pk, note: ''] name varchar }
Table orders { key int [pk] user int [ref: > U.name, note: 'y'] }
Ref again: orders.key > nothing.key"

/-- The renaming from one to the other. -/
def badRenaming : Renaming := ⟨id, swapNames k!"users" k!"people", swapNames k!"id" k!"key", id⟩

theorem badRenaming_ok : badRenaming.Ok :=
  ⟨fun _ _ h => h, swapNames_inj _ _, swapNames_inj _ _, fun _ _ h => h, rfl⟩

theorem bad_core :
    core badRenaming ((parseDbmlUnchecked exBad).get?.getD {}) = core {} ((parseDbmlUnchecked exBad').get?.getD {}) := by
  decide +kernel

theorem bad_parsed : parseDbmlUnchecked exBad = .ok ((parseDbmlUnchecked exBad).get?.getD {}) :=
  unchecked_of (by decide +kernel)
theorem bad_parsed' : parseDbmlUnchecked exBad' = .ok ((parseDbmlUnchecked exBad').get?.getD {}) :=
  unchecked_of (by decide +kernel)

example : SameReport plainErr (parseDbml exBad) (parseDbml exBad') :=
  C84_same_report badRenaming_ok ok_id (fun _ => rfl) (fun _ => rfl) bad_parsed bad_parsed' bad_core

/-- What is reported: that there is no table, at different places. -/
example : parseDbml exBad = .err (.semantic .tableNotFound ⟨188, 195⟩) := by decide +kernel
example : parseDbml exBad' = .err (.semantic .tableNotFound ⟨167, 174⟩) := by decide +kernel

/-- A schema that holds an enum only is not renamed, so that renaming schemas changes what is missing. -/
example :
    parseDbml k!"Project p {} Enum kinds.e { a } Table t { id int [ref: - kinds.u.id] }" =
      .err (.semantic .tableNotFound ⟨63, 64⟩) ∧
    parseDbml k!"Project p {} Enum kinds.e { a } Table t { id int [ref: - other.u.id] }" =
      .err (.semantic .schemaNotFound ⟨57, 62⟩) := by decide +kernel

end Dbml.Props
