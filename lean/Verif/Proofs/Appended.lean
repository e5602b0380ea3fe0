import Verif.Spec.Appended
import Verif.Proofs.Kinds
import Verif.Proofs.Report3
import Verif.Proofs.Columns

/-!
# The checks of a stage, and what is appended
-/

namespace Dbml.Spec

/-- The checks of a stage. -/
def Stage.checks (s : SchemaBlock) : Stage → List Check
  | .project => projectChecks s
  | .tables => inTurn (fun before t _ => tableChecks before t) [] s.tables
  | .enums => inTurn (fun before e _ => enumChecks before e) [] s.enums
  | .groups => inTurn (fun before g _ => groupChecks s before g) [] s.table_groups
  | .keys => s.tables.flatMap keyChecks
  | .columns => (Spec.columns s).flatMap (columnChecks s)
  | .refs => inTurn (refChecks s) [] (refsInOrder s)

/-- The stages before this one. -/
def Stage.before : Stage → List Stage
  | .project => []
  | .tables => [.project]
  | .enums => [.project, .tables]
  | .groups => [.project, .tables, .enums]
  | .keys => [.project, .tables, .enums, .groups]
  | .columns => [.project, .tables, .enums, .groups, .keys]
  | .refs => [.project, .tables, .enums, .groups, .keys, .columns]

theorem Stage.mem_before {m n : Stage} : m ∈ n.before ↔ m.number < n.number := by
  cases m <;> cases n <;> decide

theorem Stage.checklist (n : Stage) (s : SchemaBlock) :
    ∃ post, Spec.checklist s = n.before.flatMap (Stage.checks s) ++ (n.checks s ++ post) := by
  cases n <;> simp only [Spec.checklist, Stage.before, Stage.checks, List.flatMap_cons, List.flatMap_nil, List.append_assoc, List.nil_append,
    List.append_nil, List.append_cancel_left_eq, exists_eq'] <;> first | exact ⟨_, rfl⟩ | exact ⟨[], by simp⟩

theorem passes_flatMap {α} {l : List α} {f : α → List Check} (h : ∀ x ∈ l, Passes (f x)) : Passes (l.flatMap f) := by
  intro c hc
  obtain ⟨x, hx, hc⟩ := List.mem_flatMap.1 hc
  exact h x hx c hc

/-- The first stage that does not pass decides. -/
theorem Stage.decides {n : Stage} {s : SchemaBlock} {v : Verdict} (hp : ∀ m : Stage, m.number < n.number → Passes (m.checks s))
    (h : Decides (n.checks s) v) : Decides (Spec.checklist s) v := by
  obtain ⟨post, e⟩ := n.checklist s
  rw [e]
  exact .right (passes_flatMap fun m hm => hp m (mem_before.1 hm)) (.left h)

theorem inTurn_append {α} (f : List α → α → List α → List Check) (hf : ∀ b x a a', f b x a = f b x a') :
    ∀ (l l' b : List α), inTurn f b (l ++ l') = inTurn f b l ++ inTurn f (b ++ l) l'
  | [], l', b => by simp [inTurn]
  | x :: l, l', b => by
    simp only [List.cons_append, inTurn, inTurn_append f hf l l' (b ++ [x]), List.append_assoc, List.nil_append]
    rw [hf b x (l ++ l') l]

section
variable {s s' : SchemaBlock} {more : List TopLevelBlock}

theorem groupChecks_same (h : s'.tables = s.tables) : groupChecks s' = groupChecks s := by
  funext b g
  have : GroupTarget s' = GroupTarget s := by
    funext i k
    unfold GroupTarget IsAlias; rw [h]
  unfold groupChecks; rw [this]

theorem columnChecks_same (h : s'.tables = s.tables) (he : s'.enums = s.enums) : columnChecks s' = columnChecks s := by
  funext c
  have h1 : SchemaDeclared s' = SchemaDeclared s := by funext n; unfold SchemaDeclared; rw [h, he]
  have h2 : HasEnumValue s' = HasEnumValue s := by funext n k; unfold HasEnumValue; rw [he]
  unfold columnChecks
  rw [h1, h2, he]

theorem refChecks_same (h : s'.tables = s.tables) (he : s'.enums = s.enums) : refChecks s' = refChecks s := by
  funext b r a
  have h1 : SchemaDeclared s' = SchemaDeclared s := by funext n; unfold SchemaDeclared; rw [h, he]
  have h2 : Unaliased s' = Unaliased s := by funext a b; unfold Unaliased IsAlias; rw [h]
  have h3 : Names s' = Names s := by funext a b; unfold Names; rw [h]
  have h4 : Competes s' = Competes s := by funext x y; unfold Competes; rw [h2]
  have h5 : columns s' = columns s := by unfold columns; rw [h]
  have h6 : TypeClash s' = TypeClash s := by funext r x y d; unfold TypeClash; rw [h2, h3]
  have h7 : endChecks s' = endChecks s := by funext x; unfold endChecks; rw [h1, h2, h]
  unfold refChecks
  rw [h2, h3, h4, h5, h6, h7]

/-- What is declared besides is of kinds that do not count before a stage. -/
theorem later_kinds (hb : s'.blocks = s.blocks ++ more) (n : Stage) (hm : ∀ b ∈ more, n.Later b) :
    s'.projects = s.projects ∧ (1 < n.number → s'.tables = s.tables) ∧ (2 < n.number → s'.enums = s.enums) ∧
    (3 < n.number → s'.table_groups = s.table_groups) ∧ (5 < n.number → s'.refs = s.refs) ∧
    (∃ l, s'.tables = s.tables ++ l) ∧ (∃ l, s'.enums = s.enums ++ l) ∧ (∃ l, s'.table_groups = s.table_groups ++ l) := by
  unfold SchemaBlock.projects SchemaBlock.tables SchemaBlock.enums SchemaBlock.table_groups SchemaBlock.refs
  rw [hb]
  simp only [List.filterMap_append]
  refine ⟨?_, ?_, ?_, ?_, ?_, ⟨_, rfl⟩, ⟨_, rfl⟩, ⟨_, rfl⟩⟩
  · refine (congrArg _ (List.filterMap_eq_nil_iff.2 ?_)).trans (List.append_nil _)
    intro b h; have := hm b h
    cases b <;> first | rfl | (cases n <;> exact this.elim)
  all_goals
    intro hn
    refine (congrArg _ (List.filterMap_eq_nil_iff.2 ?_)).trans (List.append_nil _)
    intro b h; have := hm b h
    cases b <;> first | rfl | (cases n <;> first | exact this.elim | (simp [Stage.number] at hn))

variable {π : Err → Err}

theorem project_later (h : s'.projects = s.projects) : rep π (projectChecks s') = rep π (projectChecks s) := by
  unfold projectChecks
  rw [h]
  exact rep_append' (rep_err Iff.rfl (fun _ => rfl) (rep_err1 Iff.rfl)) rfl

/-- Before the stage nothing changes. -/
theorem before_later (hb : s'.blocks = s.blocks ++ more) {n : Stage} (hm : ∀ b ∈ more, n.Later b) {m : Stage} (hmn : m.number < n.number)
    (hp : Passes (m.checks s)) : Passes (m.checks s') := by
  obtain ⟨h0, h1, h2, h3, -⟩ := later_kinds hb n hm
  cases m with
  | project => exact (rep_passes (π := id) _).1 ((project_later h0).trans ((rep_passes _).2 hp))
  | tables => simp only [Stage.checks, h1 hmn] at hp ⊢; exact hp
  | enums => simp only [Stage.checks, h2 hmn] at hp ⊢; exact hp
  | groups =>
    have ht := h1 (Nat.lt_trans (by decide) hmn)
    simp only [Stage.checks, h3 hmn, groupChecks_same ht] at hp ⊢; exact hp
  | keys =>
    have ht := h1 (Nat.lt_trans (by decide) hmn)
    simp only [Stage.checks, ht] at hp ⊢; exact hp
  | columns =>
    have ht := h1 (Nat.lt_trans (by decide) hmn)
    have he := h2 (Nat.lt_trans (by decide) hmn)
    have hc : columns s' = columns s := by unfold columns; rw [ht]
    simp only [Stage.checks, hc, columnChecks_same ht he] at hp ⊢; exact hp
  | refs => cases n <;> simp [Stage.number] at hmn

/-- The checks of the stage are followed by others. -/
theorem stage_later (hb : s'.blocks = s.blocks ++ more) {n : Stage} (hm : ∀ b ∈ more, n.Later b) (hn : n ≠ .project) :
    ∃ l, n.checks s' = n.checks s ++ l := by
  obtain ⟨h0, h1, h2, h3, h5, ⟨lt, ht⟩, ⟨le, he⟩, ⟨lg, hg⟩⟩ := later_kinds hb n hm
  cases n with
  | project => exact absurd rfl hn
  | tables => simp only [Stage.checks, ht]; exact ⟨_, inTurn_append _ (fun _ _ _ _ => rfl) _ _ _⟩
  | enums => simp only [Stage.checks, he]; exact ⟨_, inTurn_append _ (fun _ _ _ _ => rfl) _ _ _⟩
  | groups =>
    simp only [Stage.checks, hg, groupChecks_same (h1 (by decide))]
    exact ⟨_, inTurn_append _ (fun _ _ _ _ => rfl) _ _ _⟩
  | keys => exact ⟨[], by simp only [Stage.checks, h1 (by decide : 1 < Stage.number .keys), List.append_nil]⟩
  | columns =>
    have ht := h1 (by decide)
    have hc : columns s' = columns s := by unfold columns; rw [ht]
    exact ⟨[], by simp only [Stage.checks, hc, columnChecks_same ht (h2 (by decide)), List.append_nil]⟩
  | refs =>
    have ht := h1 (by decide)
    have hc : refsInOrder s' = refsInOrder s := by unfold refsInOrder; rw [ht, h5 (by decide)]
    exact ⟨[], by simp only [Stage.checks, hc, refChecks_same ht (h2 (by decide)), List.append_nil]⟩

/-- The verdict of the stage stays. -/
theorem decides_later (hb : s'.blocks = s.blocks ++ more) {n : Stage} (hm : ∀ b ∈ more, n.Later b) (hn : n ≠ .project) {v : Verdict}
    (hp : ∀ m : Stage, m.number < n.number → Passes (m.checks s)) (h : Decides (n.checks s) v) :
    Decides (Spec.checklist s) v ∧ Decides (Spec.checklist s') v := by
  refine ⟨n.decides hp h, n.decides (fun m hmn => before_later hb hm hmn (hp m hmn)) ?_⟩
  obtain ⟨l, e⟩ := stage_later hb hm hn
  rw [e]
  exact h.left

theorem rep_later (hb : s'.blocks = s.blocks ++ more) {n : Stage} (hm : ∀ b ∈ more, n.Later b)
    (hp : ∀ m : Stage, m.number < n.number → Passes (m.checks s)) (h : ¬ Passes (n.checks s)) :
    rep π (Spec.checklist s') = rep π (Spec.checklist s) := by
  by_cases hn : n = .project
  · subst hn
    obtain ⟨p, e⟩ := Stage.project.checklist s
    obtain ⟨p', e'⟩ := Stage.project.checklist s'
    have h1 := project_later (π := π) (later_kinds hb _ hm).1
    rw [e, e']
    simp only [Stage.before, List.flatMap_nil, List.nil_append, rep_append, Stage.checks, h1]
    cases hr : rep π (projectChecks s) with
    | none => exact absurd ((rep_passes _).1 hr) h
    | some v => rfl
  · obtain ⟨v, hv⟩ := (passes_or_decides (n.checks s)).resolve_left h
    obtain ⟨h1, h2⟩ := decides_later hb hm hn hp hv
    rw [(rep_decides_iff _ _).2 ⟨v, h1, rfl⟩, (rep_decides_iff _ _).2 ⟨v, h2, rfl⟩]

/-! ## The core -/

variable {ρ : Renaming}

theorem rep_stage (h : ρ.Ok) (hπ : Blind π) (hs : ρ.KeepsSchemas ∨ Merges π) (n : Stage) :
    rep π (n.checks (core ρ s)) = rep π (n.checks s) := by
  cases n <;> simp only [Stage.checks, core_inOrder, core_columns, core_groups, core_enums, core_tables]
  · exact rep_project
  · exact rep_inTurn (fun b x _ => rep_table h b x) [] _
  · exact rep_inTurn (fun b x _ => rep_enum b x) [] _
  · exact rep_inTurn (fun b x _ => rep_group h b x) [] _
  · exact rep_flatMap _ fun t _ => rep_keys h t
  · exact rep_flatMap _ fun c _ => rep_column h hπ hs c
  · exact rep_inTurn (fun b x a => rep_ref h hπ hs b x a) [] _

end
end Dbml.Spec

/-! ## Stages and their checks -/

namespace Dbml
open Spec

theorem passes_iff {α} {input : Str} {l : List Check} {m : Rs α} {Q : α → Prop} {D : Err → Span → Prop} {K : PanicSite → Prop} {P : Prop}
    (ht : Tells input l m) (ho : Outcome input Q D K m) (hq : ∀ a, Q a → P) (hd : ∀ e sp, D e sp → ¬ P) (hk : ∀ k, K k → ¬ P) :
    Passes l ↔ P := by
  rcases ht with ⟨a, rfl, hl⟩ | ⟨v, hv, rfl⟩
  · exact ⟨fun _ => hq a ho, fun _ => hl⟩
  · refine ⟨fun h => absurd h hv.not_passes, fun h => absurd h ?_⟩
    generalize hr : (v.raise input : Rs α) = r at ho
    cases r with
    | ok a => cases v <;> simp only [Verdict.raise, throwErr] at hr <;> first | cases hr | (split at hr <;> cases hr)
    | err e =>
      cases e with
      | semantic e sp => exact hd e sp ho
      | _ => exact absurd ho (by simp [Outcome])
    | panic k =>
      rcases ho with ho | ⟨-, e, sp, ho, -⟩
      · exact hk k ho
      · exact hd e sp ho
    | diverge => exact absurd ho (by simp [Outcome])

end Dbml
