import Verif.Proofs.Report3
import Verif.Props.Stages

/-!
# C67: the report, exactly

The outcome of `parse_dbml` on a text that parses is that of the checklist (`Spec/Checklist.lean`): the first check
that fails is reported, with the error and the place that go with that check.
-/

namespace Dbml.Props
open Spec

variable {input : Str} {s : SchemaBlock}

/-- The analysis of a parsed text runs through the checklist. -/
theorem parsed_tells (hp : parseDbmlUnchecked input = .ok s) : Tells input (checklist s) (analyze s) := by
  have hd := denotes hp
  have hi : s.input = input := by obtain ⟨_, _, _, _, _, _, _, _, e⟩ := hd; exact e
  have := analyze_tells (s := s) (fun c hc => parsed_raw hd hc) fun hs c hc hdef =>
    parsed_default hd hc (fun st hst => hs.settings _ (mem_checked_col hc (by simp [hst]))) hdef
  rwa [hi] at this

/-- The three outcomes, with the place of an error inside the text. -/
theorem parsed_outcome (hp : parseDbmlUnchecked input = .ok s) :
    (parseDbml input = .ok s ∧ Passes (checklist s)) ∨
    (∃ e sp, parseDbml input = .err (.semantic e sp) ∧ Decides (checklist s) (.error e sp)) ∨
    (parseDbml input = .panic .argsIndex ∧ Decides (checklist s) .crash) := by
  unfold parseDbml
  rw [hp, Rs.ok_bind']
  rcases parsed_tells hp with ⟨a, ha, h⟩ | ⟨v, hv, ha⟩
  · exact .inl ⟨by rw [ha]; rfl, h⟩
  · cases v with
    | crash => exact .inr (.inr ⟨by rw [ha]; rfl, hv⟩)
    | error e sp =>
      have ha : analyze s = throwErr e sp input := ha
      refine .inr (.inl ⟨e, sp, ?_, hv⟩)
      unfold throwErr at ha
      by_cases hsp : sp.valid input = true
      · rw [if_pos hsp] at ha
        rw [ha]; rfl
      · rw [if_neg hsp] at ha
        rcases analyze_parsed (denotes hp) with ⟨a, h, -⟩ | ⟨e, sp, h, -⟩ | ⟨h, -⟩ <;> rw [ha] at h <;> cases h

/-- **C67**: a text that parses is accepted iff all checks pass. -/
theorem C67_accepted (hp : parseDbmlUnchecked input = .ok s) :
    parseDbml input = .ok s ↔ Passes (checklist s) := by
  rcases parsed_outcome hp with ⟨h, hc⟩ | ⟨e, sp, h, hd⟩ | ⟨h, hd⟩
  · exact ⟨fun _ => hc, fun _ => h⟩
  · exact ⟨fun h' => (by rw [h] at h'; cases h'), fun h' => absurd h' hd.not_passes⟩
  · exact ⟨fun h' => (by rw [h] at h'; cases h'), fun h' => absurd h' hd.not_passes⟩

/-- **C67**: the error `e` at `sp` is reported iff it is that of the first check that fails. -/
theorem C67_error (hp : parseDbmlUnchecked input = .ok s) (e : Err) (sp : Span) :
    parseDbml input = .err (.semantic e sp) ↔ Decides (checklist s) (.error e sp) := by
  rcases parsed_outcome hp with ⟨h, hc⟩ | ⟨e', sp', h, hd⟩ | ⟨h, hd⟩
  · exact ⟨fun h' => (by rw [h] at h'; cases h'), fun h' => absurd hc h'.not_passes⟩
  · refine ⟨fun h' => ?_, fun h' => ?_⟩
    · rw [h] at h'; cases h'; exact hd
    · cases hd.unique h'; exact h
  · exact ⟨fun h' => (by rw [h] at h'; cases h'), fun h' => by cases hd.unique h'⟩

/-- **C67**: the analysis crashes iff the first check that fails is the one for a size that is missing. -/
theorem C67_crash (hp : parseDbmlUnchecked input = .ok s) :
    parseDbml input = .panic .argsIndex ↔ Decides (checklist s) .crash := by
  rcases parsed_outcome hp with ⟨h, hc⟩ | ⟨e', sp', h, hd⟩ | ⟨h, hd⟩
  · exact ⟨fun h' => (by rw [h] at h'; cases h'), fun h' => absurd hc h'.not_passes⟩
  · exact ⟨fun h' => (by rw [h] at h'; cases h'), fun h' => by cases hd.unique h'⟩
  · exact ⟨fun _ => hd, fun _ => h⟩

/-- **C67**: the checklist is complete: it passes iff the schema is valid. -/
theorem C67_valid (hp : parseDbmlUnchecked input = .ok s) : Passes (checklist s) ↔ Valid s := by
  rw [← C67_accepted hp]
  constructor
  · intro h; exact accepted h
  · intro hv
    rcases parsed_outcome hp with ⟨h, -⟩ | ⟨e, sp, h, -⟩ | ⟨h, -⟩
    · exact h
    · rcases C35_errors_truthful h with h' | ⟨s', e', sp', hp', -, hf, -⟩
      · rw [hp] at h'; cases h'
      · rw [hp] at hp'; cases hp'
        exact absurd hv (defect_not_valid hf.defect)
    · obtain ⟨s', hp', hst, pre, c, post, hc, -, hpan⟩ := (C04_panics_iff input).1 ⟨_, h⟩
      rw [hp] at hp'; cases hp'
      exact absurd (hv.columns c (by simp [hc])) (columnPanics_not_ok hpan)

/-! ## Examples -/

/-- Two mistakes in one column, a name and a setting that are taken: the setting comes first. -/
example : parseDbml k!"Project p {} Table t { a int a int [pk, pk] }" =
    .err (.semantic .duplicateAttributeKey ⟨40, 42⟩) := by decide +kernel
/-- A table whose name and whose alias are taken: the name comes first. -/
example : parseDbml k!"Project p {} Table t as T { a int } Table t as T { a int }" =
    .err (.semantic .duplicateTableName ⟨42, 44⟩) := by decide +kernel
/-- A repeated primary key that is nullable: the repetition comes first. -/
example : parseDbml k!"Project p {} Table t { a int [pk] b int [pk, null] }" =
    .err (.semantic .duplicatePrimaryKey ⟨34, 50⟩) := by decide +kernel

/-- The first check that fails of the first example. -/
example : ∃ s, parseDbmlUnchecked k!"Project p {} Table t { a int a int [pk, pk] }" = .ok s ∧
    Decides (checklist s) (.error .duplicateAttributeKey ⟨40, 42⟩) := by
  have hs := unchecked_of (t := k!"Project p {} Table t { a int a int [pk, pk] }") (by decide +kernel)
  exact ⟨_, hs, (C67_error hs _ _).1 (by decide +kernel)⟩

end Dbml.Props
