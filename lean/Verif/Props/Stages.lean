import Verif.Spec.Stages
import Verif.Props.Core

/-!
# C64: errors come in stages

The error of a text with several mistakes is one of the first stage that is not in order (`Spec/Stages.lean`).
-/

namespace Dbml.Props
open Spec

variable {input : Str} {s : SchemaBlock}

/-- **C64**: a schema is valid iff all stages are in order. -/
theorem C64_all_stages (s : SchemaBlock) : Valid s ↔ ∀ n : Stage, n.Ok s := by
  constructor
  · intro h
    obtain ⟨hp, ht, he, hg, hk⟩ := structureOk_iff.1 h.structureOk
    intro n
    cases n with
    | project => exact hp
    | tables => exact ht
    | enums => exact he
    | groups => exact hg
    | keys => exact hk
    | columns => exact h.columns
    | refs =>
      exact ⟨h.refs, fun st hst => h.settings _ (List.mem_append_right _ (List.mem_map_of_mem hst))⟩
  · intro h
    have hp := structureOk_iff.2 ⟨h .project, h .tables, h .enums, h .groups, h .keys⟩
    refine ⟨hp.project, ?_, hp.tableNames, hp.enumNames, hp.groups, hp.tables, h .columns, (h .refs).1⟩
    intro as has
    rcases List.mem_append.1 has with has | has
    · exact hp.settings as has
    · obtain ⟨st, hst, rfl⟩ := List.mem_map.1 has
      exact (h .refs).2 st hst

/-- The stage of a reported defect: it is not in order, all before are, and the kind is one of its kinds. -/
theorem firstDefect_stage {e sp} (h : FirstDefect s e sp) :
    ∃ n : Stage, ¬ n.Ok s ∧ (∀ m : Stage, m.number < n.number → m.Ok s) ∧ n.Reports e := by
  cases h with
  | project h =>
    refine ⟨.project, projectDefect_not_ok h, fun m hm => by cases m <;> simp [Stage.number] at hm, ?_⟩
    cases h <;> simp [Stage.Reports]
  | table hp hs _ h =>
    refine ⟨.tables, fun hk => tableDefect_not_ok h (Eq.mp (congrArg TablesOk hs) hk), fun m hm => ?_, ?_⟩
    · cases m <;> simp [Stage.number] at hm; exact hp
    · cases h <;> simp [Stage.Reports]
  | enum hp ht hs _ h =>
    refine ⟨.enums, fun hk => enumDefect_not_ok h (Eq.mp (congrArg EnumsOk hs) hk), fun m hm => ?_, ?_⟩
    · cases m <;> simp [Stage.number] at hm
      · exact hp
      · exact ht
    · cases h <;> simp [Stage.Reports]
  | group hp ht he hs _ h =>
    refine ⟨.groups, fun hk => groupDefect_not_ok ht.aliases h (Eq.mp (congrArg (TableGroupsOk s) hs) hk), fun m hm => ?_, ?_⟩
    · cases m <;> simp [Stage.number] at hm
      · exact hp
      · exact ht
      · exact he
    · cases h <;> simp [Stage.Reports]
  | keys hp ht he hg hs _ h =>
    refine ⟨.keys, fun hk => keyDefect_not_ok h (hk _ (by simp [hs])), fun m hm => ?_, ?_⟩
    · cases m <;> simp [Stage.number] at hm
      · exact hp
      · exact ht
      · exact he
      · exact hg
    · cases h <;> simp [Stage.Reports]
  | column hst hs _ h =>
    obtain ⟨hp, ht, he, hg, hk⟩ := structureOk_iff.1 hst
    refine ⟨.columns, fun hc => columnDefect_not_ok he.names h (hc _ (by simp [hs])), fun m hm => ?_, ?_⟩
    · cases m <;> simp [Stage.number] at hm
      · exact hp
      · exact ht
      · exact he
      · exact hg
      · exact hk
    · cases h <;> simp [Stage.Reports]
  | ref hst hc hs _ h =>
    obtain ⟨hp, ht, he, hg, hk⟩ := structureOk_iff.1 hst
    refine ⟨.refs, fun hr => ?_, fun m hm => ?_, ?_⟩
    · have hv : Valid s := (C64_all_stages s).2 fun n => by
        cases n with
        | project => exact hp
        | tables => exact ht
        | enums => exact he
        | groups => exact hg
        | keys => exact hk
        | columns => exact hc
        | refs => exact hr
      exact defect_not_valid (.inr (.inr ⟨_, by simp [hs], h⟩)) hv
    · cases m <;> simp [Stage.number] at hm
      · exact hp
      · exact ht
      · exact he
      · exact hg
      · exact hk
      · exact hc
    · cases h <;> simp [Stage.Reports]

theorem stage_unique {n m : Stage} (hn : ¬ n.Ok s) (hn' : ∀ k : Stage, k.number < n.number → k.Ok s)
    (hm : ¬ m.Ok s) (hm' : ∀ k : Stage, k.number < m.number → k.Ok s) : n = m := by
  have h1 : ¬ n.number < m.number := fun h => hn (hm' n h)
  have h2 : ¬ m.number < n.number := fun h => hm (hn' m h)
  cases n <;> cases m <;> simp [Stage.number] at h1 h2 ⊢

/-- **C64**: if `n` is the first stage that is not in order, the error is one of the kinds of `n`, whatever else is
wrong in later stages; only in the stage of the columns it can be a panic instead. -/
theorem C64_first_stage (hp : parseDbmlUnchecked input = .ok s) {n : Stage} (hn : ¬ n.Ok s)
    (hn' : ∀ m : Stage, m.number < n.number → m.Ok s) :
    (∃ e sp, parseDbml input = .err (.semantic e sp) ∧ n.Reports e) ∨
    (n = .columns ∧ parseDbml input = .panic .argsIndex) := by
  have hv : ¬ Valid s := fun h => hn ((C64_all_stages s).1 h n)
  rcases C35_invalid_reported hp hv with ⟨e, sp, h, hf⟩ | h
  · obtain ⟨m, h1, h2, h3⟩ := firstDefect_stage hf
    rw [stage_unique hn hn' h1 h2]
    exact .inl ⟨e, sp, h, h3⟩
  · refine .inr ⟨?_, h⟩
    obtain ⟨s', hp', hst, pre, c, post, hc, -, hpan⟩ := (C04_panics_iff input).1 ⟨_, h⟩
    rw [hp] at hp'; cases hp'
    obtain ⟨h1, h2, h3, h4, h5⟩ := structureOk_iff.1 hst
    refine stage_unique hn hn' (m := .columns)
      (fun hcs => columnPanics_not_ok hpan (hcs c (by simp [hc]))) fun m hm => ?_
    cases m <;> simp [Stage.number] at hm
    · exact h1
    · exact h2
    · exact h3
    · exact h4
    · exact h5

/-- **C64**: an error says which stages are in order: there is a stage with errors of this kind that is not in order,
and all stages before are. -/
theorem C64_error_tells (hp : parseDbmlUnchecked input = .ok s) {e : Err} {sp : Span}
    (h : parseDbml input = .err (.semantic e sp)) :
    ∃ n : Stage, n.Reports e ∧ ¬ n.Ok s ∧ ∀ m : Stage, m.number < n.number → m.Ok s := by
  rcases C35_errors_truthful h with h' | ⟨s', e', sp', hp', he, hf, -⟩
  · rw [hp] at h'; cases h'
  · rw [hp] at hp'; cases hp'; cases he
    obtain ⟨n, h1, h2, h3⟩ := firstDefect_stage hf
    exact ⟨n, h3, h1, h2⟩

/-- **C64**: errors that only references have mean that everything else is in order. -/
theorem C64_only_refs_left (hp : parseDbmlUnchecked input = .ok s) {e : Err} {sp : Span}
    (h : parseDbml input = .err (.semantic e sp))
    (he : e = .mismatchedCompositeForeignKey ∨ e = .conflictRelation ∨
      (∃ a b c d, e = .mismatchedForeignKeyType a b c d) ∨ ∃ k, e = .invalidForeignKey k) :
    ∀ m : Stage, m ≠ .refs → m.Ok s := by
  obtain ⟨n, h1, -, h3⟩ := C64_error_tells hp h
  have hn : n = .refs := by
    rcases he with rfl | rfl | ⟨a, b, c, d, rfl⟩ | ⟨k, rfl⟩ <;> cases n <;> simp [Stage.Reports] at h1 ⊢
  subst hn
  intro m hm
  refine h3 m ?_
  cases m <;> simp [Stage.number] at hm ⊢

/-- A witness: mistakes in the enums, the keys and the references; the enum is reported. -/
example : parseDbml k!"Project p {} Table t { a int [pk] b int [pk, ref: > no.x] } Enum e { x x }" =
    .err (.semantic .duplicateEnumValue ⟨71, 73⟩) := by decide +kernel
/-- With the enum repaired, the keys are reported. -/
example : parseDbml k!"Project p {} Table t { a int [pk] b int [pk, ref: > no.x] } Enum e { x y }" =
    .err (.semantic .duplicatePrimaryKey ⟨34, 57⟩) := by decide +kernel
/-- With the keys repaired, the reference is reported. -/
example : parseDbml k!"Project p {} Table t { a int [pk] b int [ref: > no.x] } Enum e { x y }" =
    .err (.semantic .tableNotFound ⟨48, 50⟩) := by decide +kernel

/-- The hypotheses of `C64_first_stage` can be met: a schema whose enums are the first stage not in order. -/
example : ∃ s, parseDbmlUnchecked k!"Project p {} Table t { a int [pk] b int [pk] } Enum e { x x }" = .ok s ∧
    ¬ Stage.enums.Ok s ∧ ∀ m : Stage, m.number < Stage.enums.number → m.Ok s := by
  refine ⟨_, unchecked_of (by decide +kernel), ?_⟩
  have hs := unchecked_of (t := k!"Project p {} Table t { a int [pk] b int [pk] } Enum e { x x }") (by decide +kernel)
  obtain ⟨n, h1, h2, h3⟩ := C64_error_tells hs (e := .duplicateEnumValue) (sp := ⟨58, 60⟩) (by decide +kernel)
  have : n = .enums := by cases n <;> simp [Stage.Reports] at h1 ⊢
  subst this
  exact ⟨h2, h3⟩

end Dbml.Props
