import Verif.Props.Validity
import Verif.Props.Simple

/-!
# C34: the order of top-level blocks does not matter
-/

namespace Dbml.Props

open Dbml Spec

variable {s s' : SchemaBlock}

theorem perm_tables (h : s.blocks.Perm s'.blocks) : s.tables.Perm s'.tables := h.filterMap _
theorem perm_enums (h : s.blocks.Perm s'.blocks) : s.enums.Perm s'.enums := h.filterMap _
theorem perm_refs (h : s.blocks.Perm s'.blocks) : s.refs.Perm s'.refs := h.filterMap _
theorem perm_groups (h : s.blocks.Perm s'.blocks) : s.table_groups.Perm s'.table_groups := h.filterMap _
theorem perm_projects (h : s.blocks.Perm s'.blocks) : s.projects.Perm s'.projects := h.filterMap _

theorem perm_links (h : s.blocks.Perm s'.blocks) : (links s).Perm (links s') :=
  ((perm_refs h).map _).append ((perm_tables h).flatMap_right _)

theorem perm_columns (h : s.blocks.Perm s'.blocks) : (columns s).Perm (columns s') :=
  (perm_tables h).flatMap_right _

theorem perm_settings (h : s.blocks.Perm s'.blocks) : (checkedSettings s).Perm (checkedSettings s') := by
  unfold checkedSettings structSettings
  refine List.Perm.append (List.Perm.append (List.Perm.append (List.Perm.append ?_ ?_) ?_) ?_) ?_
  · exact ((perm_tables h).filterMap _).map _
  · exact ((perm_columns h).filterMap _).map _
  · refine List.Perm.map _ ?_
    unfold enumSettings
    first
      | exact ((perm_enums h).flatMap_right _).filterMap _
      | exact ((perm_enums h).flatMap_right _)
  · refine List.Perm.map _ ?_
    exact (((perm_tables h).filterMap _).flatMap_right _).filterMap _
  · exact ((perm_refs h).filterMap _).map _

theorem perm_isAlias (h : s.blocks.Perm s'.blocks) (a : Str) (t : TableBlock) :
    IsAlias s a t ↔ IsAlias s' a t := by
  unfold IsAlias; rw [(perm_tables h).mem_iff]

theorem perm_unaliased (h : s.blocks.Perm s'.blocks) (a b : End) :
    Unaliased s a b ↔ Unaliased s' a b := by
  unfold Unaliased; simp only [perm_isAlias h]

theorem perm_names (h : s.blocks.Perm s'.blocks) (a : End) (t : TableBlock) :
    Names s a t ↔ Names s' a t := by
  unfold Names; rw [(perm_tables h).mem_iff]

theorem perm_linkOk (h : s.blocks.Perm s'.blocks) (k : Link) : LinkOk s k ↔ LinkOk s' k := by
  unfold LinkOk; simp only [perm_unaliased h, perm_names h]

theorem perm_competes (h : s.blocks.Perm s'.blocks) (a b : Link) : Competes s a b ↔ Competes s' a b := by
  unfold Competes; simp only [perm_unaliased h]

theorem perm_columnOk (h : s.blocks.Perm s'.blocks) (c : TableColumn) : ColumnOk s c ↔ ColumnOk s' c := by
  unfold ColumnOk HasEnumValue; simp only [(perm_enums h).mem_iff]

theorem perm_groupTarget (h : s.blocks.Perm s'.blocks) (i : TableGroupItem) (k : Str × Str) :
    GroupTarget s i k ↔ GroupTarget s' i k := by
  unfold GroupTarget; simp only [perm_isAlias h, (perm_tables h).mem_iff]

theorem perm_groupTargets (h : s.blocks.Perm s'.blocks) {is ks} (hg : GroupTargets s is ks) :
    GroupTargets s' is ks := by
  induction hg with
  | nil => exact .nil
  | cons h1 _ ih => exact .cons ((perm_groupTarget h _ _).1 h1) ih

theorem valid_perm (h : s.blocks.Perm s'.blocks) (hv : Valid s) : Valid s' where
  project := by
    obtain ⟨p, hp, hn⟩ := hv.project
    exact ⟨p, List.perm_singleton.1 (hp ▸ (perm_projects h)).symm, hn⟩
  settings := fun as ha => hv.settings as ((perm_settings h).mem_iff.2 ha)
  tableNames := by
    obtain ⟨h1, h2, h3⟩ := hv.tableNames
    exact ⟨((perm_tables h).map _).nodup_iff.1 h1, ((perm_tables h).filterMap _).nodup_iff.1 h2,
      fun t ht => h3 t ((perm_tables h).mem_iff.2 ht)⟩
  enumNames := ⟨((perm_enums h).map _).nodup_iff.1 hv.enumNames.1,
      fun t ht => hv.enumNames.2 t ((perm_enums h).mem_iff.2 ht)⟩
  groups := ⟨((perm_groups h).map _).nodup_iff.1 hv.groups.1, fun g hg => by
    obtain ⟨ks, h1, h2⟩ := hv.groups.2 g ((perm_groups h).mem_iff.2 hg)
    exact ⟨ks, perm_groupTargets h h1, h2⟩⟩
  tables := fun t ht => hv.tables t ((perm_tables h).mem_iff.2 ht)
  columns := fun c hc => (perm_columnOk h c).1 (hv.columns c ((perm_columns h).mem_iff.2 hc))
  refs := by
    refine ⟨fun k hk => (perm_linkOk h k).1 (hv.refs.1 k ((perm_links h).mem_iff.2 hk)), ?_⟩
    have := ((perm_links h).pairwise_iff (R := fun a b => ¬ Competes s a b ∧ ¬ Competes s b a)
      (fun h => ⟨h.2, h.1⟩)).1 hv.refs.2
    simpa only [perm_competes h] using this

/-- **C34**: permuting the top-level blocks changes neither validity nor whether the analysis accepts. -/
theorem C34_order_irrelevant (h : s.blocks.Perm s'.blocks) :
    (Valid s ↔ Valid s') ∧ ((∃ a, analyze s = .ok a) ↔ ∃ a, analyze s' = .ok a) := by
  have hv : Valid s ↔ Valid s' := ⟨valid_perm h, valid_perm h.symm⟩
  refine ⟨hv, ?_⟩
  rw [C33_analyze_iff_valid, C33_analyze_iff_valid, hv]
  simp only [(perm_columns h).mem_iff]

/-- For instance, reversing the blocks of an accepted schema. -/
theorem C34_reversed (s : SchemaBlock) (h : ∃ a, analyze s = .ok a) :
    ∃ a, analyze { s with blocks := s.blocks.reverse } = .ok a :=
  (C34_order_irrelevant (s' := { s with blocks := s.blocks.reverse }) s.blocks.reverse_perm.symm).2.1 h

example : ∃ a, analyze { exAst with blocks := exAst.blocks.reverse } = .ok a :=
  C34_reversed exAst ((C05_checked_is_unchecked exText exAst).1 ex_accepted).2

end Dbml.Props
