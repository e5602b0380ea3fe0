import Verif.Props.Editing
import Verif.Proofs.Core

/-!
# C63: acceptance depends on the core only

The rules look at the core of a schema (`Spec.core`), and at the names in it only as far as they are equal or
different. What the core leaves out can be edited freely, and tables, columns, schemas and table groups can be
renamed consistently.
-/

namespace Dbml.Props

open Dbml Spec

/-- Renaming a schema and forgetting what is not in its core does not change whether it is valid. -/
theorem C63_valid {ρ : Renaming} (h : ρ.Ok) (s : SchemaBlock) : Valid (core ρ s) ↔ Valid s := core_valid h

/-- Two texts with the same core, each after a renaming, are both accepted or both rejected. -/
theorem C63_text {ρ ρ' : Renaming} (hρ : ρ.Ok) (hρ' : ρ'.Ok) {t t' : Str} {s s' : SchemaBlock}
    (h : parseDbmlUnchecked t = .ok s) (h' : parseDbmlUnchecked t' = .ok s') (hc : core ρ s = core ρ' s') :
    (∃ r, parseDbml t = .ok r) ↔ ∃ r, parseDbml t' = .ok r := by
  have key : ∀ {u : Str} {r : SchemaBlock}, parseDbmlUnchecked u = .ok r → ((∃ x, parseDbml u = .ok x) ↔ Valid r) := by
    intro u r hu
    constructor
    · rintro ⟨x, hx⟩
      obtain ⟨h1, h2⟩ := (C33_accepts_iff_valid u x).1 hx
      rw [hu] at h1; cases h1; exact h2
    · intro hv; exact ⟨r, (C33_accepts_iff_valid u r).2 ⟨hu, hv⟩⟩
  rw [key h, key h', ← core_valid hρ, hc, core_valid hρ']

/-! ## Example -/

/-- Exchanges two names. -/
def swapNames (a b n : Str) : Str := if n = a then b else if n = b then a else n

theorem swapNames_inj (a b x y : Str) (h : swapNames a b x = swapNames a b y) : x = y := by
  unfold swapNames at h
  split at h <;> split at h <;> (try split at h) <;> (try split at h) <;> simp_all

theorem ok_id : ({} : Renaming).Ok := ⟨fun _ _ h => h, fun _ _ h => h, fun _ _ h => h, fun _ _ h => h, rfl⟩

theorem ok_swap {a b c d e f g k : Str} (ha : a ≠ k!"public") (hb : b ≠ k!"public") :
    (⟨swapNames a b, swapNames c d, swapNames e f, swapNames g k⟩ : Renaming).Ok :=
  ⟨swapNames_inj _ _, swapNames_inj _ _, swapNames_inj _ _, swapNames_inj _ _, by simp [swapNames, ha.symm, hb.symm]⟩

theorem unchecked_of {t : Str} (h : (parseDbmlUnchecked t).get?.isSome = true) :
    parseDbmlUnchecked t = .ok ((parseDbmlUnchecked t).get?.getD {}) := by
  obtain ⟨a, ha⟩ := Option.isSome_iff_exists.1 h
  rw [Rs.eq_ok_of_get? ha]; rfl

/-- A schema with notes, a comment, indexes and a named ref with actions. -/
def exNoted : Str := k!"Project shop { database_type: 'PostgreSQL' Note: 'the shop' }
// customers
Table core.users as U [headercolor: #fff] { id int [pk, note: 'key'] name int mail varchar(20) [default: 'x']
  indexes { (id, name) [unique, name: 'both'] (`id*2`) } Note: 'who' }
Table orders { id int [pk] user int [ref: > U.id] }
Note { 'everything' }
Ref named: orders.(id, user) - core.users.(id, name)
Ref other: orders.id > core.users.id [delete: cascade]
TableGroup g [note: 'x'] { U orders }"

/-- The same core: quoted, renamed, other notes, other expression, other action. -/
def exPlain : Str := k!"Project q { database_type: `MySQL` Note { '''shop''' } }
Table \"app\".people as \"U\" [headercolor: #000] { \"key\" int [pk, note: ''] name int mail varchar(20) [default: 'x']
  indexes { (key, name) [unique, name: 'b'] (`lower(name)`) } }
Table orders { key int [pk] user int [ref: > U.key] }
Ref: orders.(key, user) - \"app\".people.(key, name)
Ref: orders.key > \"app\".people.key [delete: set null]
TableGroup things { U orders }"

/-- The renaming from one to the other. -/
def exRenaming : Renaming :=
  ⟨swapNames k!"core" k!"app", swapNames k!"users" k!"people", swapNames k!"id" k!"key", swapNames k!"g" k!"things"⟩

example : (∃ r, parseDbml exNoted = .ok r) ↔ ∃ r, parseDbml exPlain = .ok r :=
  C63_text (ok_swap (by decide) (by decide)) ok_id (unchecked_of (by decide +kernel)) (unchecked_of (by decide +kernel))
    (show core exRenaming _ = core {} _ by decide +kernel)

end Dbml.Props
