import Verif.Props.Kinds
import Verif.Proofs.Repair

/-!
# C85: adding declarations repairs only what is missing

If a text is rejected, and further declarations (without aliases) make it acceptable, then what was reported is that
something is missing: the project, a schema, a table or an enum. Put the other way round: any other mistake - a name,
a setting or a key that is taken, an index or a default that is wrong, columns of different types, competing refs - is
not repaired by writing more, whatever it is and wherever it is put; what is there has to be changed.
-/

namespace Dbml.Props
open Dbml Spec

variable {t t' : Str} {s s' : SchemaBlock}

/-- **C85**: a text to which declarations can be added so that it is accepted is accepted itself, or something is
missing. -/
theorem C85_only_missing (h : parseDbmlUnchecked t = .ok s) (h' : parseDbml t' = .ok s') (ha : Adds s s') :
    parseDbml t = .ok s ∨ ∃ e sp, parseDbml t = .err (.semantic e sp) ∧ Missing e := by
  have hp' : parseDbmlUnchecked t' = .ok s' := ((C33_accepts_iff_valid t' s').1 h').1
  have e1 : rep plainErr (checklist (core {} s')) = none := by
    rw [rep_core ok_id plain_blind (.inl fun _ => rfl), rep_passes]
    exact (C67_accepted hp').1 h'
  have e2 := rep_core (s := s) ok_id plain_blind (.inl fun _ => rfl)
  have key : ∀ v, rep plainErr (checklist (core {} s)) = some v → ∃ e, v = some (plainErr e) ∧ Missing e := by
    intro v hv
    rcases (rep_decides_iff _ _).1 hv with ⟨w, hw, rfl⟩
    obtain ⟨e, sp, rfl, hm⟩ := more_decides ha.more ((rep_passes _).1 e1) hw
    exact ⟨e, rfl, hm⟩
  rcases report_rep plainErr h with ⟨h1, -⟩ | ⟨e, sp, h1, h2⟩ | ⟨h1, h2⟩
  · exact .inl h1
  · obtain ⟨e', he, hm⟩ := key _ (e2.trans h2)
    refine .inr ⟨e, sp, h1, ?_⟩
    have he := Option.some.inj he
    cases hm <;> cases e <;> simp [plainErr] at he <;> constructor
  · obtain ⟨e', he, hm⟩ := key _ (e2.trans h2)
    cases he

/-- **C85**: a text that is rejected for another reason is not made acceptable by adding declarations. -/
theorem C85_no_repair {e : Err} {sp : Span} (h : parseDbmlUnchecked t = .ok s) (hr : parseDbml t = .err (.semantic e sp))
    (hm : ¬ Missing e) (hp' : parseDbmlUnchecked t' = .ok s') (ha : Adds s s') : ∀ r, parseDbml t' ≠ .ok r := by
  intro r h'
  have : r = s' := by
    have := ((C33_accepts_iff_valid t' r).1 h').1
    rw [hp'] at this; cases this; rfl
  subst this
  rcases C85_only_missing h h' ha with h1 | ⟨e', sp', h1, hm'⟩
  · rw [hr] at h1; cases h1
  · rw [hr] at h1; cases h1; exact hm hm'

/-- **C85**: nor is one that makes the program crash. -/
theorem C85_no_crash_repair {k : PanicSite} (h : parseDbmlUnchecked t = .ok s) (hr : parseDbml t = .panic k)
    (hp' : parseDbmlUnchecked t' = .ok s') (ha : Adds s s') : ∀ r, parseDbml t' ≠ .ok r := by
  intro r h'
  have : r = s' := by
    have := ((C33_accepts_iff_valid t' r).1 h').1
    rw [hp'] at this; cases this; rfl
  subst this
  rcases C85_only_missing h h' ha with h1 | ⟨e', sp', h1, -⟩ <;> rw [hr] at h1 <;> cases h1

/-! ## Examples -/

/-- A mistake that is none of a missing declaration. -/
def exTaken : Str := k!"Project p {} Table t { id int [pk] } Table t { a int }"
/-- The same with more around it. -/
def exTakenMore : Str := k!"Enum e { a } Project p {} // more
Table u { id int [ref: > t.id] }
Table t { \"id\" int [pk] } Table public.v { b e [default: 'a'] } Table \"t\" { a int } Ref: u.id < v.b"

theorem taken_adds : Adds ((parseDbmlUnchecked exTaken).get?.getD {}) ((parseDbmlUnchecked exTakenMore).get?.getD {}) where
  blocks := List.isSublist_iff_sublist.1 (by decide +kernel)
  aliases := by decide +kernel

example : ∀ r, parseDbml exTakenMore ≠ .ok r :=
  C85_no_repair (e := .duplicateTableName) (sp := ⟨43, 45⟩) (unchecked_of (t := exTaken) (by decide +kernel)) (by decide +kernel)
    (by rintro ⟨⟩) (unchecked_of (by decide +kernel)) taken_adds

/-- Each of the four can be repaired: a project, a schema with its table, a table, an enum. -/
example :
    parseDbml k!"Table t { id int }" = .err (.semantic .projectSettingNotFound ⟨0, 18⟩) ∧
    (parseDbml k!"Table t { id int } Project p {}").get?.isSome = true ∧
    parseDbml k!"Project p {} Table t { id int [ref: > s.u.id] }" = .err (.semantic .schemaNotFound ⟨38, 39⟩) ∧
    (parseDbml k!"Project p {} Table t { id int [ref: > s.u.id] } Table s.u { id int [pk] }").get?.isSome = true ∧
    parseDbml k!"Project p {} Table t { id int [ref: > u.id] }" = .err (.semantic .tableNotFound ⟨38, 39⟩) ∧
    (parseDbml k!"Project p {} Table t { id int [ref: > u.id] } Table u { id int [pk] }").get?.isSome = true ∧
    parseDbml k!"Project p {} Table t { id e [default: 'a'] }" = .err (.semantic .enumNotFound ⟨26, 27⟩) ∧
    (parseDbml k!"Project p {} Table t { id e [default: 'a'] } Enum e { a }").get?.isSome = true := by decide +kernel

/-- With an alias, a mistake of another kind can be repaired by adding a table: the alias takes over the name. -/
example :
    parseDbml k!"Project p {} Table s.t { id int [ref: > u.id] } Table u { id varchar [pk] }" =
      .err (.semantic (.mismatchedForeignKeyType k!"id" k!"id" k!"varchar" k!"id") ⟨33, 44⟩) ∧
    (parseDbml k!"Project p {} Table s.t { id int [ref: > u.id] } Table u { id varchar [pk] } Table s.v as u { id int [pk] }").get?.isSome
      = true := by decide +kernel

end Dbml.Props
