import Verif.Props.Evolve

/-!
# C72: adding and removing tables, enums, table groups and indexes
-/

namespace Dbml.Props

open Dbml Spec Source

variable {s S : SchemaBlock}

/-- `S` is `s` with the block `b` inserted somewhere. -/
def Inserted (b : TopLevelBlock) (s S : SchemaBlock) : Prop :=
  ∃ b1 b2, s.blocks = b1 ++ b2 ∧ S.blocks = b1 ++ b :: b2

/-- The attribute lists that are checked, with the reason. -/
theorem mem_checked {as : List Attribute} : as ∈ checkedSettings s ↔
    (∃ t ∈ s.tables, (∃ st, t.settings = some st ∧ st.attributes = as) ∨
      (∃ c ∈ t.cols, ∃ st, c.settings = some st ∧ st.attributes = as) ∨
      ∃ d ∈ defsOf t, ∃ st, d.settings = some st ∧ st.attributes = as) ∨
    (∃ e ∈ s.enums, ∃ v ∈ e.values, ∃ st, v.settings = some st ∧ st.attributes = as) ∨
    ∃ r ∈ s.refs, ∃ st, r.settings = some st ∧ st.attributes = as := by
  simp only [checkedSettings, structSettings, List.mem_append, List.mem_map, tableSettings, columnSettings, columns,
    enumSettings, enumValues, indexSettings, indexDefs, refSettings, List.mem_filterMap, List.mem_flatMap]
  constructor
  · rintro ((((⟨x, ⟨t, ht, hx⟩, rfl⟩ | ⟨x, ⟨c, ⟨t, ht, hc⟩, hx⟩, rfl⟩) | ⟨x, ⟨v, ⟨e, he, hv⟩, hx⟩, rfl⟩) |
      ⟨x, ⟨d, ⟨ib, ⟨t, ht, hib⟩, hd⟩, hx⟩, rfl⟩) | ⟨x, ⟨r, hr, hx⟩, rfl⟩)
    · exact .inl ⟨t, ht, .inl ⟨x, hx, rfl⟩⟩
    · exact .inl ⟨t, ht, .inr (.inl ⟨c, hc, x, hx, rfl⟩)⟩
    · exact .inr (.inl ⟨e, he, v, hv, x, hx, rfl⟩)
    · exact .inl ⟨t, ht, .inr (.inr ⟨d, by simpa [defsOf, hib] using hd, x, hx, rfl⟩)⟩
    · exact .inr (.inr ⟨r, hr, x, hx, rfl⟩)
  · rintro (⟨t, ht, ⟨x, hx, rfl⟩ | ⟨c, hc, x, hx, rfl⟩ | ⟨d, hd, x, hx, rfl⟩⟩ | ⟨e, he, v, hv, x, hx, rfl⟩ | ⟨r, hr, x, hx, rfl⟩)
    · exact .inl (.inl (.inl (.inl ⟨x, ⟨t, ht, hx⟩, rfl⟩)))
    · exact .inl (.inl (.inl (.inr ⟨x, ⟨c, ⟨t, ht, hc⟩, hx⟩, rfl⟩)))
    · cases hi : t.indexes with
      | none => simp [defsOf, hi] at hd
      | some ib => exact .inl (.inr ⟨x, ⟨d, ⟨ib, ⟨t, ht, hi⟩, by simpa [defsOf, hi] using hd⟩, hx⟩, rfl⟩)
    · exact .inl (.inl (.inr ⟨x, ⟨v, ⟨e, he, hv⟩, hx⟩, rfl⟩))
    · exact .inr ⟨x, ⟨r, hr, hx⟩, rfl⟩

/-! ## Enums -/

/-- **C72.** An enum can be added to a valid schema, anywhere, exactly if its name is new and its values have different
names and setting keys. -/
theorem C72_add_enum {e : EnumBlock} (h : Inserted (.enum e) s S) (hv : Valid s) :
    Valid S ↔ (∀ x ∈ s.enums, enumKey x ≠ enumKey e) ∧ (e.values.map (·.value.to_string)).Nodup ∧
      ∀ v ∈ e.values, ∀ st, v.settings = some st → DistinctKeys st.attributes := by
  obtain ⟨b1, b2, h1, h2⟩ := h
  have ht : S.tables = s.tables := by
    unfold SchemaBlock.tables; rw [h1, h2, List.filterMap_append, List.filterMap_append]; rfl
  have hg : S.table_groups = s.table_groups := by
    unfold SchemaBlock.table_groups; rw [h1, h2, List.filterMap_append, List.filterMap_append]; rfl
  have hr : S.refs = s.refs := by
    unfold SchemaBlock.refs; rw [h1, h2, List.filterMap_append, List.filterMap_append]; rfl
  have hp : S.projects = s.projects := by
    unfold SchemaBlock.projects; rw [h1, h2, List.filterMap_append, List.filterMap_append]; rfl
  have he : S.enums.Perm (e :: s.enums) := by
    unfold SchemaBlock.enums
    rw [h1, h2, List.filterMap_append, List.filterMap_append]
    exact List.perm_middle
  have hcols : columns S = columns s := by unfold columns; rw [ht]
  have hlinks : links S = links s := by unfold links; rw [hr, ht]
  have hunal : ∀ a b, Unaliased S a b ↔ Unaliased s a b := fun a b => by unfold Unaliased IsAlias; rw [ht]
  have hname : (S.enums.map enumKey).Nodup ↔ ∀ x ∈ s.enums, enumKey x ≠ enumKey e := by
    rw [(he.map enumKey).nodup_iff, List.map_cons, List.nodup_cons]
    have := hv.enumNames.1
    simp [this]
  have hmem : ∀ x, x ∈ S.enums ↔ x = e ∨ x ∈ s.enums := fun x => by rw [he.mem_iff, List.mem_cons]
  constructor
  · intro hS
    refine ⟨hname.1 hS.enumNames.1, hS.enumNames.2 e ((hmem e).2 (.inl rfl)), fun v hv' st hst => hS.settings _ ?_⟩
    exact mem_checked.2 (.inr (.inl ⟨e, (hmem e).2 (.inl rfl), v, hv', st, hst, rfl⟩))
  · rintro ⟨k1, k2, k3⟩
    refine ⟨?_, ?_, ?_, ⟨hname.2 k1, ?_⟩, ⟨?_, ?_⟩, ?_, ?_, ?_, ?_⟩
    · unfold ProjectOk; rw [hp]; exact hv.project
    · intro as ha
      rcases mem_checked.1 ha with ha | ⟨x, hx, v, hv', st, hst, rfl⟩ | ha
      · exact hv.settings as (mem_checked.2 (.inl (ht ▸ ha)))
      · rcases (hmem x).1 hx with rfl | hx
        · exact k3 v hv' st hst
        · exact hv.settings _ (mem_checked.2 (.inr (.inl ⟨x, hx, v, hv', st, hst, rfl⟩)))
      · exact hv.settings as (mem_checked.2 (.inr (.inr (hr ▸ ha))))
    · unfold TableNamesOk; rw [ht]; exact hv.tableNames
    · intro x hx
      rcases (hmem x).1 hx with rfl | hx
      · exact k2
      · exact hv.enumNames.2 x hx
    · rw [hg]; exact hv.groups.1
    · rw [hg]
      intro g hg'
      obtain ⟨ks, h3, h4⟩ := hv.groups.2 g hg'
      refine ⟨ks, groupTargets_of (fun i _ k hk => ?_) h3, h4⟩
      unfold GroupTarget IsAlias at hk ⊢
      rwa [ht]
    · rw [ht]; exact hv.tables
    · rw [hcols]
      intro c hc
      obtain ⟨n, ty, g1, g2, g3, g4⟩ := hv.columns c hc
      refine ⟨n, ty, g1, g2, g3, fun v hd => ⟨(g4 v hd).1, fun hn k hk => ?_⟩⟩
      obtain ⟨x, hx, hxk⟩ := (g4 v hd).2 hn k hk
      exact ⟨x, (hmem x).2 (.inr hx), hxk⟩
    · rw [hlinks]
      intro k hk
      have := hv.refs.1 k hk
      unfold LinkOk Names at this ⊢
      simpa only [hunal, ht] using this
    · rw [hlinks]
      have hcomp : ∀ a b, Competes S a b ↔ Competes s a b := fun a b => by unfold Competes; simp only [hunal]
      simpa only [hcomp] using hv.refs.2

/-- **C72.** An enum can be dropped from a valid schema exactly if no column with a default value has it as its type. -/
theorem C72_drop_enum {e : EnumBlock} (h : Inserted (.enum e) s S) (hv : Valid S) :
    Valid s ↔ ∀ c ∈ columns s, ¬ DefaultsTo c (enumKey e) := by
  obtain ⟨b1, b2, h1, h2⟩ := h
  have he : S.enums.Perm (e :: s.enums) := by
    unfold SchemaBlock.enums
    rw [h1, h2, List.filterMap_append, List.filterMap_append]
    exact List.perm_middle
  have ht : S.tables = s.tables := by
    unfold SchemaBlock.tables; rw [h1, h2, List.filterMap_append, List.filterMap_append]; rfl
  have hnew : ∀ x ∈ s.enums, enumKey x ≠ enumKey e := by
    have := hv.enumNames.1
    rw [(he.map enumKey).nodup_iff, List.map_cons, List.nodup_cons] at this
    simpa using this.1
  constructor
  · rintro hs c hc ⟨hd, n, hn, hf, hr⟩
    obtain ⟨v, hd⟩ := Option.ne_none_iff_exists'.1 hd
    obtain ⟨n', ty, g1, g2, g3, g4⟩ := hs.columns c hc
    rw [hn] at g1
    cases g1
    obtain ⟨x, hx, hxk, -⟩ := (g4 v hd).2 hf _ hr
    exact hnew x hx hxk
  · intro hc
    refine C60_drop ⟨?_, ?_, ?_, ?_⟩ hv
    · rw [h1, h2]; exact (List.Sublist.refl _).append (List.sublist_cons_self _ _)
    · unfold SchemaBlock.projects; rw [h1, h2, List.filterMap_append, List.filterMap_append]; rfl
    · intro t h3 h4; exact absurd (ht ▸ h3) h4
    · intro x h3 h4 c hc'
      have : x = e := by
        rw [he.mem_iff, List.mem_cons] at h3
        tauto
      exact this ▸ hc c hc'

/-! ## Table groups -/

/-- **C72.** A table group can be added to a valid schema, anywhere, exactly if its name is new and its items stand for
existing, different tables. (By `C60_drop` it can always be dropped.) -/
theorem C72_add_group {g : TableGroupBlock} (h : Inserted (.tableGroup g) s S) (hv : Valid s) :
    Valid S ↔ (∀ x ∈ s.table_groups, x.ident.to_string ≠ g.ident.to_string) ∧
      ∃ ks, GroupTargets s g.items ks ∧ ks.Nodup := by
  obtain ⟨b1, b2, h1, h2⟩ := h
  have ht : S.tables = s.tables := by
    unfold SchemaBlock.tables; rw [h1, h2, List.filterMap_append, List.filterMap_append]; rfl
  have he : S.enums = s.enums := by
    unfold SchemaBlock.enums; rw [h1, h2, List.filterMap_append, List.filterMap_append]; rfl
  have hr : S.refs = s.refs := by
    unfold SchemaBlock.refs; rw [h1, h2, List.filterMap_append, List.filterMap_append]; rfl
  have hp : S.projects = s.projects := by
    unfold SchemaBlock.projects; rw [h1, h2, List.filterMap_append, List.filterMap_append]; rfl
  have hg : S.table_groups.Perm (g :: s.table_groups) := by
    unfold SchemaBlock.table_groups
    rw [h1, h2, List.filterMap_append, List.filterMap_append]
    exact List.perm_middle
  have hcols : columns S = columns s := by unfold columns; rw [ht]
  have hlinks : links S = links s := by unfold links; rw [hr, ht]
  have hunal : ∀ a b, Unaliased S a b ↔ Unaliased s a b := fun a b => by unfold Unaliased IsAlias; rw [ht]
  have hname : (S.table_groups.map (·.ident.to_string)).Nodup ↔
      ∀ x ∈ s.table_groups, x.ident.to_string ≠ g.ident.to_string := by
    rw [(hg.map _).nodup_iff, List.map_cons, List.nodup_cons]
    have := hv.groups.1
    simp [this]
  have htarget : ∀ i k, GroupTarget S i k ↔ GroupTarget s i k := fun i k => by
    unfold GroupTarget IsAlias; rw [ht]
  have htargets : ∀ is ks, GroupTargets S is ks ↔ GroupTargets s is ks := fun is ks =>
    ⟨groupTargets_of fun i _ k => (htarget i k).1, groupTargets_of fun i _ k => (htarget i k).2⟩
  have hgroups : GroupsOk S ↔ (∀ x ∈ s.table_groups, x.ident.to_string ≠ g.ident.to_string) ∧
      ∃ ks, GroupTargets s g.items ks ∧ ks.Nodup := by
    unfold GroupsOk
    simp only [htargets, hname, hg.mem_iff]
    refine and_congr_right fun _ => ⟨fun h => h g (by simp), fun h x hx => ?_⟩
    simp only [List.mem_cons] at hx
    rcases hx with rfl | hx
    · exact h
    · exact hv.groups.2 x hx
  refine ⟨fun hS => hgroups.1 hS.groups, fun hk => ?_⟩
  refine ⟨?_, ?_, ?_, ?_, hgroups.2 hk, ?_, ?_, ?_, ?_⟩
  · unfold ProjectOk; rw [hp]; exact hv.project
  · intro as ha
    refine hv.settings as (mem_checked.2 ?_)
    have := mem_checked.1 ha
    rwa [ht, he, hr] at this
  · unfold TableNamesOk; rw [ht]; exact hv.tableNames
  · unfold EnumNamesOk; rw [he]; exact hv.enumNames
  · rw [ht]; exact hv.tables
  · rw [hcols]; exact fun c hc => columnOk_enums he (hv.columns c hc)
  · rw [hlinks]
    intro k hk
    have := hv.refs.1 k hk
    unfold LinkOk Names at this ⊢
    simpa only [hunal, ht] using this
  · rw [hlinks]
    have hcomp : ∀ a b, Competes S a b ↔ Competes s a b := fun a b => by unfold Competes; simp only [hunal]
    simpa only [hcomp] using hv.refs.2

/-! ## Tables -/

/-- A table that can be added to the schema `s`, giving `S`: its schema and name are new, and so is its alias; it is in
order by itself, and so are its columns; setting keys are different; the refs written in its columns are valid in the
schema with the new table and compete neither with each other nor with the refs that are there. -/
structure TableFits (s S : SchemaBlock) (T : TableBlock) : Prop where
  name : ∀ t ∈ s.tables, tableKey t ≠ tableKey T
  alias_new : ∀ a, aliasOf T = some a → ∀ t, ¬ IsAlias s a t
  columns : (colNames T).Nodup
  table : TableOk T
  types : ∀ c ∈ T.cols, ColumnOk s c
  settings : ∀ st, T.settings = some st → DistinctKeys st.attributes
  colSettings : ∀ c ∈ T.cols, ∀ st, c.settings = some st → DistinctKeys st.attributes
  idxSettings : ∀ d ∈ defsOf T, ∀ st, d.settings = some st → DistinctKeys st.attributes
  refs : ∀ k ∈ tableLinks T, LinkOk S k
  apart : (tableLinks T).Pairwise fun a b => ¬ Competes S a b ∧ ¬ Competes S b a
  apartOld : ∀ a ∈ tableLinks T, ∀ b ∈ links s, ¬ Competes S a b ∧ ¬ Competes S b a

/-- **C72.** A table whose alias, if any, is not used as a table name in a ref or group can be added to a valid schema,
anywhere, exactly if it fits. -/
theorem C72_add_table {T : TableBlock} (h : Inserted (.table T) s S)
    (hu : ∀ a, aliasOf T = some a → a ∉ refTables s ++ groupNames s) (hv : Valid s) : Valid S ↔ TableFits s S T := by
  obtain ⟨b1, b2, h1, h2⟩ := h
  have hg : S.table_groups = s.table_groups := by
    unfold SchemaBlock.table_groups; rw [h1, h2, List.filterMap_append, List.filterMap_append]; rfl
  have he : S.enums = s.enums := by
    unfold SchemaBlock.enums; rw [h1, h2, List.filterMap_append, List.filterMap_append]; rfl
  have hr : S.refs = s.refs := by
    unfold SchemaBlock.refs; rw [h1, h2, List.filterMap_append, List.filterMap_append]; rfl
  have hp : S.projects = s.projects := by
    unfold SchemaBlock.projects; rw [h1, h2, List.filterMap_append, List.filterMap_append]; rfl
  have ht : S.tables.Perm (T :: s.tables) := by
    unfold SchemaBlock.tables
    rw [h1, h2, List.filterMap_append, List.filterMap_append]
    exact List.perm_middle
  have hmem : ∀ x, x ∈ S.tables ↔ x = T ∨ x ∈ s.tables := fun x => by rw [ht.mem_iff, List.mem_cons]
  have hT : T ∈ S.tables := (hmem T).2 (.inl rfl)
  have hlinks : (links S).Perm (tableLinks T ++ links s) := by
    have e : ∀ s : SchemaBlock, links s = s.refs.map linkOf ++ s.tables.flatMap tableLinks := fun _ => rfl
    rw [e, e, hr]
    refine ((List.Perm.refl _).append (List.Perm.flatMap_right _ ht)).trans ?_
    rw [List.flatMap_cons, ← List.append_assoc, ← List.append_assoc]
    exact List.perm_append_comm.append_right _
  have halias : ∀ n ∈ refTables s ++ groupNames s, ∀ t, IsAlias s n t ↔ IsAlias S n t := by
    intro n hn t
    unfold IsAlias
    rw [hmem]
    constructor
    · exact fun h => ⟨.inr h.1, h.2⟩
    · rintro ⟨rfl | h3, h4⟩
      · exact absurd hn (hu n h4)
      · exact ⟨h3, h4⟩
  have hold : ∀ {k e}, k ∈ links s → e ∈ [k.lhs, k.rhs] → ∀ t, IsAlias s e.table t ↔ IsAlias S e.table t :=
    fun hk he => halias _ (List.mem_append_left _ (refTables_mem hk he))
  have hkeys : (S.tables.map tableKey).Nodup ↔ ∀ t ∈ s.tables, tableKey t ≠ tableKey T := by
    rw [(ht.map tableKey).nodup_iff, List.map_cons, List.nodup_cons]
    have := hv.tableNames.1
    simp [this]
  have haliases : (S.tables.filterMap aliasOf).Nodup ↔ ∀ a, aliasOf T = some a → ∀ t, ¬ IsAlias s a t := by
    rw [(ht.filterMap aliasOf).nodup_iff]
    have := hv.tableNames.2.1
    cases ha : aliasOf T with
    | none => simp [List.filterMap_cons, ha, this]
    | some a => simp [ha, this, IsAlias, not_and]
  constructor
  · intro hS
    refine ⟨hkeys.1 hS.tableNames.1, haliases.1 hS.tableNames.2.1, hS.tableNames.2.2 T hT, hS.tables T hT, ?_, ?_, ?_, ?_,
      ?_, ?_, ?_⟩
    · exact fun c hc => columnOk_enums he.symm (hS.columns c (List.mem_flatMap.2 ⟨T, hT, hc⟩))
    · exact fun st hst => hS.settings _ (mem_checked.2 (.inl ⟨T, hT, .inl ⟨st, hst, rfl⟩⟩))
    · exact fun c hc st hst => hS.settings _ (mem_checked.2 (.inl ⟨T, hT, .inr (.inl ⟨c, hc, st, hst, rfl⟩)⟩))
    · exact fun c hc st hst => hS.settings _ (mem_checked.2 (.inl ⟨T, hT, .inr (.inr ⟨c, hc, st, hst, rfl⟩)⟩))
    · exact fun k hk => hS.refs.1 k (hlinks.mem_iff.2 (List.mem_append_left _ hk))
    · have := (hlinks.pairwise_iff (fun h => h.symm)).1 hS.refs.2
      exact (List.pairwise_append.1 this).1
    · have := (hlinks.pairwise_iff (fun h => h.symm)).1 hS.refs.2
      exact (List.pairwise_append.1 this).2.2
  · intro hk
    refine ⟨?_, ?_, ⟨hkeys.2 hk.name, haliases.2 hk.alias_new, ?_⟩, ?_, ⟨?_, ?_⟩, ?_, ?_, ?_, ?_⟩
    · unfold ProjectOk; rw [hp]; exact hv.project
    · intro as ha
      rcases mem_checked.1 ha with ⟨t, h3, h4⟩ | h3 | h3
      · rcases (hmem t).1 h3 with rfl | h3
        · rcases h4 with ⟨st, hst, rfl⟩ | ⟨c, hc, st, hst, rfl⟩ | ⟨d, hd, st, hst, rfl⟩
          · exact hk.settings st hst
          · exact hk.colSettings c hc st hst
          · exact hk.idxSettings d hd st hst
        · exact hv.settings as (mem_checked.2 (.inl ⟨t, h3, h4⟩))
      · exact hv.settings as (mem_checked.2 (.inr (.inl (he ▸ h3))))
      · exact hv.settings as (mem_checked.2 (.inr (.inr (hr ▸ h3))))
    · intro t h3
      rcases (hmem t).1 h3 with rfl | h3
      · exact hk.columns
      · exact hv.tableNames.2.2 t h3
    · unfold EnumNamesOk; rw [he]; exact hv.enumNames
    · rw [hg]; exact hv.groups.1
    · rw [hg]
      intro g hg'
      obtain ⟨ks, h3, h4⟩ := hv.groups.2 g hg'
      refine ⟨ks, groupTargets_of (fun i hi k hk => groupTarget_of (fun hs => ?_) hk) h3, h4⟩
      exact ⟨halias _ (List.mem_append_right _ (groupNames_mem hg' hi hs)), fun t h5 _ => (hmem t).2 (.inr h5)⟩
    · intro t h3
      rcases (hmem t).1 h3 with rfl | h3
      · exact hk.table
      · exact hv.tables t h3
    · intro c hc
      obtain ⟨t, h3, h4⟩ := List.mem_flatMap.1 hc
      refine columnOk_enums he ?_
      rcases (hmem t).1 h3 with rfl | h3
      · exact hk.types c h4
      · exact hv.columns c (List.mem_flatMap.2 ⟨t, h3, h4⟩)
    · intro k h3
      rcases List.mem_append.1 (hlinks.mem_iff.1 h3) with h3 | h3
      · exact hk.refs k h3
      · exact linkOk_of (fun e he => ⟨hold h3 he, fun e' t _ h4 => (hmem t).2 (.inr h4.1)⟩) (hv.refs.1 k h3)
    · refine (hlinks.pairwise_iff (fun h => h.symm)).2 (List.pairwise_append.2 ⟨hk.apart, ?_, hk.apartOld⟩)
      refine hv.refs.2.imp_of_mem fun {a b} ha hb hab => ?_
      have key : ∀ {a b : Link}, a ∈ links s → b ∈ links s → Competes S a b → Competes s a b := by
        intro a b ha hb
        refine competes_of fun e he t => ?_
        simp only [List.mem_cons, List.not_mem_nil, or_false] at he
        rcases he with rfl | rfl | rfl | rfl
        · exact (hold ha (by simp) t).symm
        · exact (hold ha (by simp) t).symm
        · exact (hold hb (by simp) t).symm
        · exact (hold hb (by simp) t).symm
      exact ⟨fun h => hab.1 (key ha hb h), fun h => hab.2 (key hb ha h)⟩

/-- **C72.** A table whose alias, if any, is not used as a table name in a remaining ref or group can be dropped from a
valid schema exactly if no remaining ref and no remaining unqualified group item means it. (Items with a schema are never
looked up: finding 5.) -/
theorem C72_drop_table {T : TableBlock} (h : Inserted (.table T) s S)
    (hu : ∀ a, aliasOf T = some a → a ∉ refTables s ++ groupNames s) (hv : Valid S) :
    Valid s ↔ (∀ k ∈ links s, ∀ e ∈ [k.lhs, k.rhs], ¬ EndMeans S e T) ∧
      ∀ i ∈ groupItems s, i.schema = none → ¬ GroupTarget S i (tableKey T) := by
  obtain ⟨b1, b2, h1, h2⟩ := h
  have hg : S.table_groups = s.table_groups := by
    unfold SchemaBlock.table_groups; rw [h1, h2, List.filterMap_append, List.filterMap_append]; rfl
  have he : S.enums = s.enums := by
    unfold SchemaBlock.enums; rw [h1, h2, List.filterMap_append, List.filterMap_append]; rfl
  have hr : S.refs = s.refs := by
    unfold SchemaBlock.refs; rw [h1, h2, List.filterMap_append, List.filterMap_append]; rfl
  have hp : S.projects = s.projects := by
    unfold SchemaBlock.projects; rw [h1, h2, List.filterMap_append, List.filterMap_append]; rfl
  have ht : S.tables.Perm (T :: s.tables) := by
    unfold SchemaBlock.tables
    rw [h1, h2, List.filterMap_append, List.filterMap_append]
    exact List.perm_middle
  have hmem : ∀ x, x ∈ S.tables ↔ x = T ∨ x ∈ s.tables := fun x => by rw [ht.mem_iff, List.mem_cons]
  have hT : T ∈ S.tables := (hmem T).2 (.inl rfl)
  have hlinks : (links S).Perm (tableLinks T ++ links s) := by
    have e : ∀ s : SchemaBlock, links s = s.refs.map linkOf ++ s.tables.flatMap tableLinks := fun _ => rfl
    rw [e, e, hr]
    refine ((List.Perm.refl _).append (List.Perm.flatMap_right _ ht)).trans ?_
    rw [List.flatMap_cons, ← List.append_assoc, ← List.append_assoc]
    exact List.perm_append_comm.append_right _
  have halias : ∀ n ∈ refTables s ++ groupNames s, ∀ t, IsAlias S n t ↔ IsAlias s n t := by
    intro n hn t
    unfold IsAlias
    rw [hmem]
    constructor
    · rintro ⟨rfl | h3, h4⟩
      · exact absurd hn (hu n h4)
      · exact ⟨h3, h4⟩
    · exact fun h => ⟨.inr h.1, h.2⟩
  have hold : ∀ {k e}, k ∈ links s → e ∈ [k.lhs, k.rhs] → ∀ t, IsAlias S e.table t ↔ IsAlias s e.table t :=
    fun hk he => halias _ (List.mem_append_left _ (refTables_mem hk he))
  have hnew : ∀ t ∈ s.tables, tableKey t ≠ tableKey T := by
    have := hv.tableNames.1
    rw [(ht.map tableKey).nodup_iff, List.map_cons, List.nodup_cons] at this
    simpa using this.1
  have hitem : ∀ i ∈ groupItems s, i.schema = none → i.ident_alias.to_string ∈ refTables s ++ groupNames s := by
    intro i hi hs
    obtain ⟨g, hg, hi⟩ := List.mem_flatMap.1 hi
    exact List.mem_append_right _ (groupNames_mem hg hi hs)
  constructor
  · intro hs
    refine ⟨?_, ?_⟩
    · rintro k hk e he ⟨e', hu', hna⟩
      have hu2 := unaliased_of (hold hk he) hu'
      obtain ⟨-, -, l, r, tl, tr, ul, ur, nl, nr, -⟩ := hs.refs.1 k hk
      have uniq : ∀ {a b b' : End}, Unaliased s a b → Unaliased s a b' → b = b' := by
        rintro a b b' (⟨x, hx, rfl⟩ | ⟨hx, rfl⟩) (⟨y, hy, rfl⟩ | ⟨hy, rfl⟩)
        · have : x = y := nodup_filterMap_inj hs.tableNames.2.1 hx.1 hy.1 hx.2 hy.2
          rw [this]
        · exact absurd hx (hy x)
        · exact absurd hy (hx y)
        · rfl
      simp only [List.mem_cons, List.not_mem_nil, or_false] at he
      rcases he with rfl | rfl
      · rw [uniq ul hu2] at nl
        exact hnew tl nl.1 ((names_key nl).trans (names_key hna).symm)
      · rw [uniq ur hu2] at nr
        exact hnew tr nr.1 ((names_key nr).trans (names_key hna).symm)
    · intro i hi hsch htgt
      have hal := halias _ (hitem i hi hsch)
      have hex : ∃ k, GroupTarget s i k := by
        obtain ⟨g, hg', hi'⟩ := List.mem_flatMap.1 hi
        obtain ⟨ks, h3, -⟩ := hs.groups.2 g hg'
        clear h1 h2
        generalize g.items = is at h3 hi'
        induction h3 with
        | nil => simp at hi'
        | cons h4 _ ih =>
          simp only [List.mem_cons] at hi'
          rcases hi' with rfl | hi'
          · exact ⟨_, h4⟩
          · exact ih hi'
      obtain ⟨k, hk⟩ := hex
      unfold GroupTarget at hk htgt
      simp only [hsch, hal] at hk htgt
      rcases htgt with ⟨t, h3, h4⟩ | ⟨h3, h4, -⟩
      · exact hnew t h3.1 h4.symm
      · rcases hk with ⟨t, h5, -⟩ | ⟨-, h6, t, h7, h8⟩
        · exact h3 t h5
        · exact hnew t h7 (h8.trans (h6.trans h4.symm))
  · rintro ⟨k1, k2⟩
    have hsub : ∀ t ∈ S.tables, t ≠ T → t ∈ s.tables := fun t h3 h4 => ((hmem t).1 h3).resolve_left h4
    refine ⟨?_, ?_, ⟨?_, ?_, ?_⟩, ?_, ⟨?_, ?_⟩, ?_, ?_, ?_, ?_⟩
    · unfold ProjectOk; rw [← hp]; exact hv.project
    · intro as ha
      refine hv.settings as (mem_checked.2 ?_)
      rcases mem_checked.1 ha with ⟨t, h3, h4⟩ | h3 | h3
      · exact .inl ⟨t, (hmem t).2 (.inr h3), h4⟩
      · exact .inr (.inl (he ▸ h3))
      · exact .inr (.inr (hr ▸ h3))
    · have := hv.tableNames.1
      rw [(ht.map tableKey).nodup_iff, List.map_cons, List.nodup_cons] at this
      exact this.2
    · have := hv.tableNames.2.1
      rw [(ht.filterMap aliasOf).nodup_iff, List.filterMap_cons] at this
      split at this
      · exact this
      · exact (List.nodup_cons.1 this).2
    · exact fun t h3 => hv.tableNames.2.2 t ((hmem t).2 (.inr h3))
    · unfold EnumNamesOk; rw [← he]; exact hv.enumNames
    · rw [← hg]; exact hv.groups.1
    · intro g hg'
      obtain ⟨ks, h3, h4⟩ := hv.groups.2 g (hg ▸ hg')
      refine ⟨ks, groupTargets_of (fun i hi k hk => ?_) h3, h4⟩
      have hi2 : i ∈ groupItems s := List.mem_flatMap.2 ⟨g, hg', hi⟩
      unfold GroupTarget at hk ⊢
      cases hsch : i.schema with
      | some sc => simpa [hsch] using hk
      | none =>
        have hal := halias _ (hitem i hi2 hsch)
        have hno := k2 i hi2 hsch
        simp only [hsch, hal] at hk ⊢
        rcases hk with hk | ⟨h5, h6, t, h7, h8⟩
        · exact .inl hk
        · refine .inr ⟨h5, h6, t, hsub t h7 ?_, h8⟩
          rintro rfl
          refine hno ?_
          unfold GroupTarget
          simp only [hsch, hal]
          exact .inr ⟨h5, h8.trans h6, t, h7, rfl⟩
    · exact fun t h3 => hv.tables t ((hmem t).2 (.inr h3))
    · intro c hc
      obtain ⟨t, h3, h4⟩ := List.mem_flatMap.1 hc
      exact columnOk_enums he.symm (hv.columns c (List.mem_flatMap.2 ⟨t, (hmem t).2 (.inr h3), h4⟩))
    · intro k h3
      refine linkOk_of (fun e he => ⟨hold h3 he, fun e' t h4 h5 => hsub t h5.1 ?_⟩)
        (hv.refs.1 k (hlinks.mem_iff.2 (List.mem_append_right _ h3)))
      rintro rfl
      exact k1 k h3 e he ⟨e', h4, h5⟩
    · have h3 := (List.pairwise_append.1 ((hlinks.pairwise_iff (fun h => h.symm)).1 hv.refs.2)).2.1
      refine h3.imp_of_mem fun {a b} ha hb hab => ?_
      have key : ∀ {a b : Link}, a ∈ links s → b ∈ links s → Competes s a b → Competes S a b := by
        intro a b ha hb
        refine competes_of fun e he t => ?_
        simp only [List.mem_cons, List.not_mem_nil, or_false] at he
        rcases he with rfl | rfl | rfl | rfl
        · exact (hold ha (by simp) t).symm
        · exact (hold ha (by simp) t).symm
        · exact (hold hb (by simp) t).symm
        · exact (hold hb (by simp) t).symm
      exact ⟨fun h => hab.1 (key ha hb h), fun h => hab.2 (key hb ha h)⟩

/-! ## Indexes -/

/-- `S` is `s` with the table `t` replaced by `T`, which may differ in its indexes and note only. -/
structure SwapIndexes (s S : SchemaBlock) (t T : TableBlock) : Prop where
  blocks : ∃ b1 b2, s.blocks = b1 ++ .table t :: b2 ∧ S.blocks = b1 ++ .table T :: b2
  ident : T.ident = t.ident
  settings : T.settings = t.settings
  cols : T.cols = t.cols

namespace SwapIndexes
variable {t T : TableBlock}

theorem symm (h : SwapIndexes s S t T) : SwapIndexes S s T t :=
  ⟨by obtain ⟨b1, b2, h1, h2⟩ := h.blocks; exact ⟨b1, b2, h2, h1⟩, h.ident.symm, h.settings.symm, h.cols.symm⟩

theorem tables (h : SwapIndexes s S t T) : ∃ l1 l2, s.tables = l1 ++ t :: l2 ∧ S.tables = l1 ++ T :: l2 := by
  obtain ⟨b1, b2, h1, h2⟩ := h.blocks
  refine ⟨({ blocks := b1 } : SchemaBlock).tables, ({ blocks := b2 } : SchemaBlock).tables, ?_, ?_⟩
  · unfold SchemaBlock.tables; rw [h1, List.filterMap_append]; rfl
  · unfold SchemaBlock.tables; rw [h2, List.filterMap_append]; rfl

theorem projects (h : SwapIndexes s S t T) : S.projects = s.projects := by
  obtain ⟨b1, b2, h1, h2⟩ := h.blocks
  unfold SchemaBlock.projects; rw [h1, h2, List.filterMap_append, List.filterMap_append]; rfl

theorem enums (h : SwapIndexes s S t T) : S.enums = s.enums := by
  obtain ⟨b1, b2, h1, h2⟩ := h.blocks
  unfold SchemaBlock.enums; rw [h1, h2, List.filterMap_append, List.filterMap_append]; rfl

theorem groups (h : SwapIndexes s S t T) : S.table_groups = s.table_groups := by
  obtain ⟨b1, b2, h1, h2⟩ := h.blocks
  unfold SchemaBlock.table_groups; rw [h1, h2, List.filterMap_append, List.filterMap_append]; rfl

theorem refs (h : SwapIndexes s S t T) : S.refs = s.refs := by
  obtain ⟨b1, b2, h1, h2⟩ := h.blocks
  unfold SchemaBlock.refs; rw [h1, h2, List.filterMap_append, List.filterMap_append]; rfl

theorem key (h : SwapIndexes s S t T) : tableKey T = tableKey t := by unfold tableKey; rw [h.ident]
theorem aliasEq (h : SwapIndexes s S t T) : aliasOf T = aliasOf t := by unfold aliasOf; rw [h.ident]
theorem names (h : SwapIndexes s S t T) : colNames T = colNames t := by unfold colNames; rw [h.cols]

theorem columns (h : SwapIndexes s S t T) : Spec.columns S = Spec.columns s := by
  obtain ⟨l1, l2, h1, h2⟩ := h.tables
  unfold Spec.columns
  rw [h1, h2, List.flatMap_append, List.flatMap_append, List.flatMap_cons, List.flatMap_cons, h.cols]

theorem links (h : SwapIndexes s S t T) : Spec.links S = Spec.links s := by
  obtain ⟨l1, l2, h1, h2⟩ := h.tables
  have e : ∀ s : SchemaBlock, Spec.links s = s.refs.map linkOf ++ s.tables.flatMap tableLinks := fun _ => rfl
  rw [e, e, h.refs, h1, h2, List.flatMap_append, List.flatMap_append, List.flatMap_cons, List.flatMap_cons]
  unfold tableLinks
  rw [h.cols, h.ident]

theorem table (h : SwapIndexes s S t T) {x : TableBlock} (hx : x ∈ s.tables) :
    ∃ y ∈ S.tables, y = x ∨ (x = t ∧ y = T) := by
  obtain ⟨l1, l2, h1, h2⟩ := h.tables
  rw [h1] at hx
  rw [h2]
  simp only [List.mem_append, List.mem_cons] at hx ⊢
  rcases hx with hx | rfl | hx
  · exact ⟨x, .inl hx, .inl rfl⟩
  · exact ⟨T, .inr (.inl rfl), .inr ⟨rfl, rfl⟩⟩
  · exact ⟨x, .inr (.inr hx), .inl rfl⟩

theorem old (h : SwapIndexes s S t T) {x : TableBlock} (hx : x ∈ S.tables) : x = T ∨ x ∈ s.tables := by
  obtain ⟨l1, l2, h1, h2⟩ := h.tables
  rw [h2] at hx; rw [h1]
  simp only [List.mem_append, List.mem_cons] at hx ⊢
  tauto

theorem mem_left (h : SwapIndexes s S t T) : t ∈ s.tables := by
  obtain ⟨l1, l2, h1, -⟩ := h.tables
  rw [h1]; simp

theorem isAlias (h : SwapIndexes s S t T) {a : Str} {x : TableBlock} (hx : IsAlias s a x) :
    ∃ y, IsAlias S a y ∧ tableKey y = tableKey x := by
  obtain ⟨y, hy, rfl | ⟨rfl, rfl⟩⟩ := h.table hx.1
  · exact ⟨y, ⟨hy, hx.2⟩, rfl⟩
  · exact ⟨y, ⟨hy, h.aliasEq.trans hx.2⟩, h.key⟩

theorem unaliased (h : SwapIndexes s S t T) {e e' : End} (hu : Unaliased s e e') : Unaliased S e e' := by
  rcases hu with ⟨x, hx, rfl⟩ | ⟨hn, rfl⟩
  · obtain ⟨y, hy, hk⟩ := h.isAlias hx
    exact .inl ⟨y, hy, by rw [hk]⟩
  · refine .inr ⟨fun y hy => ?_, rfl⟩
    obtain ⟨x, hx, -⟩ := h.symm.isAlias hy
    exact hn x hx

theorem groupTarget (h : SwapIndexes s S t T) {i : TableGroupItem} {k : Str × Str} (hg : GroupTarget s i k) :
    GroupTarget S i k := by
  unfold GroupTarget at hg ⊢
  cases hi : i.schema with
  | some sc => simpa [hi] using hg
  | none =>
    simp only [hi] at hg ⊢
    rcases hg with ⟨x, hx, rfl⟩ | ⟨hn, hk, x, hx, hxk⟩
    · obtain ⟨y, hy, hk⟩ := h.isAlias hx
      exact .inl ⟨y, hy, hk.symm⟩
    · refine .inr ⟨fun y hy => ?_, hk, ?_⟩
      · obtain ⟨x, hx, -⟩ := h.symm.isAlias hy
        exact hn x hx
      · obtain ⟨y, hy, rfl | ⟨rfl, rfl⟩⟩ := h.table hx
        · exact ⟨y, hy, hxk⟩
        · exact ⟨y, hy, h.key.trans hxk⟩

theorem competes (h : SwapIndexes s S t T) {a b : Link} (hc : Competes s a b) : Competes S a b := by
  rcases hc with ⟨x, y, x', y', hx, hy, h1, h2, h3⟩ | ⟨h1, h2, h3⟩
  · exact .inl ⟨x, y, x', y', hx, hy, h.unaliased h1, h.unaliased h2, h3⟩
  · refine .inr ⟨h1, h2, fun x hx => ?_⟩
    obtain ⟨y, hy, x', y', h4, h5, h6⟩ := h3 x hx
    exact ⟨y, hy, x', y', h.unaliased h4, h.unaliased h5, h6⟩

theorem namesTable (h : SwapIndexes s S t T) {e : End} {x : TableBlock} (hn : Names s e x) :
    ∃ y, Names S e y ∧ (y = x ∨ (x = t ∧ y = T)) := by
  obtain ⟨y, hy, hxy⟩ := h.table hn.1
  refine ⟨y, ⟨hy, ?_⟩, hxy⟩
  rcases hxy with rfl | ⟨rfl, rfl⟩
  · exact hn.2
  · rw [h.ident]; exact hn.2

/-- Replacing the indexes of a table. -/
theorem valid_iff (h : SwapIndexes s S t T) (hv : Valid s) : Valid S ↔ TableOk T ∧
    (∀ d ∈ defsOf T, ∀ st, d.settings = some st → DistinctKeys st.attributes) ∧
    ∀ k ∈ Spec.links s, ∀ l r tl tr, Unaliased S k.lhs l → Unaliased S k.rhs r → Names S l tl → Names S r tr →
      KeyOk k.rel tl tr l.cols r.cols := by
  have keys : (S.tables.map tableKey).Nodup := by
    obtain ⟨l1, l2, h1, h2⟩ := h.tables
    have := hv.tableNames.1
    rw [h1] at this; rw [h2]
    simpa [h.key] using this
  have aliases : (S.tables.filterMap aliasOf).Nodup := by
    obtain ⟨l1, l2, h1, h2⟩ := h.tables
    have := hv.tableNames.2.1
    rw [h1] at this; rw [h2]
    simpa [List.filterMap_cons, h.aliasEq] using this
  have names : TableNamesOk S := by
    refine ⟨keys, aliases, fun x hx => ?_⟩
    rcases h.old hx with rfl | hx
    · rw [h.names]; exact hv.tableNames.2.2 t h.mem_left
    · exact hv.tableNames.2.2 x hx
  have uniq : ∀ {a b b' : End}, Unaliased S a b → Unaliased S a b' → b = b' := by
    rintro a b b' (⟨x, hx, rfl⟩ | ⟨hx, rfl⟩) (⟨y, hy, rfl⟩ | ⟨hy, rfl⟩)
    · have : x = y := nodup_filterMap_inj aliases hx.1 hy.1 hx.2 hy.2
      rw [this]
    · exact absurd hx (hy x)
    · exact absurd hy (hx y)
    · rfl
  have tab : ∀ {e : End} {x y : TableBlock}, Names S e x → Names S e y → x = y := fun hx hy =>
    table_of_key names hx.1 hy.1 ((names_key hx).trans (names_key hy).symm)
  constructor
  · intro hS
    refine ⟨hS.tables T h.symm.mem_left, fun d hd st hst => hS.settings _ (mem_checked.2
      (.inl ⟨T, h.symm.mem_left, .inr (.inr ⟨d, hd, st, hst, rfl⟩)⟩)), ?_⟩
    intro k hk l r tl tr ul ur nl nr
    obtain ⟨-, -, l', r', tl', tr', ul', ur', nl', nr', -, -, -, ko⟩ := hS.refs.1 k (h.links ▸ hk)
    cases uniq ul ul'
    cases uniq ur ur'
    cases tab nl nl'
    cases tab nr nr'
    exact ko
  · rintro ⟨k1, k2, k3⟩
    refine ⟨?_, ?_, names, ?_, ⟨?_, ?_⟩, ?_, ?_, ?_, ?_⟩
    · unfold ProjectOk; rw [h.projects]; exact hv.project
    · intro as ha
      rcases mem_checked.1 ha with ⟨x, h3, h4⟩ | h3 | h3
      · rcases h.old h3 with rfl | h3
        · rcases h4 with h4 | h4 | ⟨d, hd, st, hst, rfl⟩
          · exact hv.settings as (mem_checked.2 (.inl ⟨t, h.mem_left, .inl (h.settings ▸ h4)⟩))
          · exact hv.settings as (mem_checked.2 (.inl ⟨t, h.mem_left, .inr (.inl (h.cols ▸ h4))⟩))
          · exact k2 d hd st hst
        · exact hv.settings as (mem_checked.2 (.inl ⟨x, h3, h4⟩))
      · exact hv.settings as (mem_checked.2 (.inr (.inl (h.enums ▸ h3))))
      · exact hv.settings as (mem_checked.2 (.inr (.inr (h.refs ▸ h3))))
    · unfold EnumNamesOk; rw [h.enums]; exact hv.enumNames
    · rw [h.groups]; exact hv.groups.1
    · rw [h.groups]
      intro g hg
      obtain ⟨ks, h3, h4⟩ := hv.groups.2 g hg
      exact ⟨ks, groupTargets_of (fun i _ k hk => h.groupTarget hk) h3, h4⟩
    · intro x hx
      rcases h.old hx with rfl | hx
      · exact k1
      · exact hv.tables x hx
    · rw [h.columns]; exact fun c hc => columnOk_enums h.enums (hv.columns c hc)
    · rw [h.links]
      intro k hk
      obtain ⟨h1, h2, l, r, tl, tr, ul, ur, nl, nr, cl, cr, st, -⟩ := hv.refs.1 k hk
      obtain ⟨yl, ml, xl⟩ := h.namesTable nl
      obtain ⟨yr, mr, xr⟩ := h.namesTable nr
      have el : yl.cols = tl.cols := by
        rcases xl with rfl | ⟨rfl, rfl⟩
        · rfl
        · exact h.cols
      have er : yr.cols = tr.cols := by
        rcases xr with rfl | ⟨rfl, rfl⟩
        · rfl
        · exact h.cols
      refine ⟨h1, h2, l, r, yl, yr, h.unaliased ul, h.unaliased ur, ml, mr, ?_, ?_, ?_,
        k3 k hk l r yl yr (h.unaliased ul) (h.unaliased ur) ml mr⟩
      · unfold colNames; rw [el]; exact cl
      · unfold colNames; rw [er]; exact cr
      · intro p hp c d h3 h4
        unfold IsColumn at h3 h4
        rw [el] at h3
        rw [er] at h4
        exact st p hp c d h3 h4
    · rw [h.links]
      refine List.Pairwise.imp ?_ hv.refs.2
      exact fun {a b} h3 => ⟨fun h4 => h3.1 (h.symm.competes h4), fun h4 => h3.2 (h.symm.competes h4)⟩

end SwapIndexes

/-- An index that can be added to the table `t` between its indexes `d1` and `d2`: it is not empty, names columns of the
table, is at most one of primary key, unique and typed, and its setting keys are different. If it is a primary key, the
table has no primary-key column, no earlier primary-key index names a column, and there is no later primary-key index
unless it names no column itself. If it is unique, its columns are not all among those of a unique column or an earlier
unique index, nor those of a later one among its columns. If it is plain or typed, it repeats no earlier index and no later
one repeats it. -/
structure IndexFits (t : TableBlock) (d1 d2 : List IndexesDef) (d : IndexesDef) : Prop where
  index : IndexOk t d
  settings : ∀ st, d.settings = some st → DistinctKeys st.attributes
  pk : IsPkIndex d → (∀ c ∈ t.cols, ¬ IsPkCol c) ∧ (∀ x ∈ d1, IsPkIndex x → indexNames x = []) ∧
    (indexNames d = [] ∨ ∀ x ∈ d2, ¬ IsPkIndex x)
  unique : IsUniqueIndex d → (∀ c ∈ t.cols, IsUniqueCol c → ¬ indexNames d ⊆ [c.name.to_string]) ∧
    (∀ x ∈ d1, IsUniqueIndex x → ¬ indexNames d ⊆ indexNames x) ∧
    ∀ x ∈ d2, IsUniqueIndex x → ¬ indexNames x ⊆ indexNames d
  plain : ∀ p, plainIndex d = some p → (∀ x ∈ d1, ∀ q, plainIndex x = some q → ¬ Repeats q p) ∧
    ∀ x ∈ d2, ∀ q, plainIndex x = some q → ¬ Repeats p q

theorem pairwise_insert {α : Type} {R : α → α → Prop} {l1 l2 : List α} {a : α} :
    (l1 ++ a :: l2).Pairwise R ↔ (l1 ++ l2).Pairwise R ∧ (∀ x ∈ l1, R x a) ∧ ∀ x ∈ l2, R a x := by
  simp only [List.pairwise_append, List.pairwise_cons, List.mem_cons]
  constructor
  · rintro ⟨h1, ⟨h2, h3⟩, h4⟩
    exact ⟨⟨h1, h3, fun x hx y hy => h4 x hx y (.inr hy)⟩, fun x hx => h4 x hx a (.inl rfl), h2⟩
  · rintro ⟨⟨h1, h2, h3⟩, h4, h5⟩
    refine ⟨h1, ⟨h5, h2⟩, ?_⟩
    rintro x hx y (rfl | hy)
    · exact h4 x hx
    · exact h3 x hx y hy

theorem tableOk_index {t T : TableBlock} {d1 d2 : List IndexesDef} {d : IndexesDef} (hc : T.cols = t.cols)
    (h1 : defsOf t = d1 ++ d2) (h2 : defsOf T = d1 ++ d :: d2) (ht : TableOk t) :
    TableOk T ∧ (∀ st, d.settings = some st → DistinctKeys st.attributes) ↔ IndexFits t d1 d2 d := by
  have hix : ∀ x, IndexOk T x ↔ IndexOk t x := fun x => by unfold IndexOk colNames; rw [hc]
  have hpk : PrimaryKeyOk T ↔ (IsPkIndex d → (∀ c ∈ t.cols, ¬ IsPkCol c) ∧
      (∀ x ∈ d1, IsPkIndex x → indexNames x = []) ∧ (indexNames d = [] ∨ ∀ x ∈ d2, ¬ IsPkIndex x)) := by
    obtain ⟨g1, g2, g3⟩ := ht.1
    unfold PrimaryKeyOk
    rw [hc, h2]
    rw [h1] at g2 g3
    rw [List.filter_append] at g3
    by_cases hd : IsPkIndex d
    · rw [List.filter_append, List.filter_cons, if_pos (by simpa using hd), pairwise_insert]
      simp only [hd, g1, g3, true_and, true_imp_iff, List.mem_append, List.mem_cons, List.mem_filter, decide_eq_true_eq]
      constructor
      · rintro ⟨k1, k2, k3⟩
        refine ⟨fun c hc' hp => k1 c hc' d (.inr (.inl rfl)) ⟨hp, hd⟩, fun x hx hp => k2 x ⟨hx, hp⟩, ?_⟩
        by_cases he : indexNames d = []
        · exact .inl he
        · exact .inr fun x hx hp => he (k3 x ⟨hx, hp⟩)
      · rintro ⟨k1, k2, k3⟩
        refine ⟨fun c hc' x _ hx => k1 c hc' hx.1, fun x hx => k2 x hx.1 hx.2, fun x hx => ?_⟩
        rcases k3 with k3 | k3
        · exact k3
        · exact absurd hx.2 (k3 x hx.1)
    · rw [List.filter_append, List.filter_cons, if_neg (by simpa using hd)]
      simp only [hd, g1, g3, true_and, and_true, false_imp_iff, iff_true]
      intro c hc' x hx
      simp only [List.mem_append, List.mem_cons] at hx
      rcases hx with hx | rfl | hx
      · exact g2 c hc' x (by simp [hx])
      · exact fun h => hd h.2
      · exact g2 c hc' x (by simp [hx])
  have huq : (uniqueKeys T).Pairwise (fun u v => ¬ v ⊆ u) ↔ (IsUniqueIndex d →
      (∀ c ∈ t.cols, IsUniqueCol c → ¬ indexNames d ⊆ [c.name.to_string]) ∧
      (∀ x ∈ d1, IsUniqueIndex x → ¬ indexNames d ⊆ indexNames x) ∧
      ∀ x ∈ d2, IsUniqueIndex x → ¬ indexNames x ⊆ indexNames d) := by
    have g := ht.2.2.2.1
    unfold uniqueKeys at g ⊢
    rw [hc, h2]
    rw [h1, List.filter_append, List.map_append, ← List.append_assoc] at g
    by_cases hd : IsUniqueIndex d
    · rw [List.filter_append, List.filter_cons, if_pos (by simpa using hd), List.map_append, List.map_cons,
        ← List.append_assoc, pairwise_insert]
      simp only [hd, true_imp_iff, List.mem_append, List.mem_map, List.mem_filter, decide_eq_true_eq]
      constructor
      · rintro ⟨-, k1, k2⟩
        exact ⟨fun c hc' hp => k1 _ (.inl ⟨c, ⟨hc', hp⟩, rfl⟩), fun x hx hp => k1 _ (.inr ⟨x, ⟨hx, hp⟩, rfl⟩),
          fun x hx hp => k2 _ ⟨x, ⟨hx, hp⟩, rfl⟩⟩
      · rintro ⟨k1, k2, k3⟩
        refine ⟨g, ?_, ?_⟩
        · rintro _ (⟨c, hc', rfl⟩ | ⟨x, hx, rfl⟩)
          · exact k1 c hc'.1 hc'.2
          · exact k2 x hx.1 hx.2
        · rintro _ ⟨x, hx, rfl⟩
          exact k3 x hx.1 hx.2
    · rw [List.filter_append, List.filter_cons, if_neg (by simpa using hd), List.map_append, ← List.append_assoc]
      simp only [hd, g, false_imp_iff]
  have hpl : (plainIndexes T).Pairwise (fun a b => ¬ Repeats a b) ↔ (∀ p, plainIndex d = some p →
      (∀ x ∈ d1, ∀ q, plainIndex x = some q → ¬ Repeats q p) ∧
      ∀ x ∈ d2, ∀ q, plainIndex x = some q → ¬ Repeats p q) := by
    have g := ht.2.2.2.2
    unfold plainIndexes at g ⊢
    rw [h2]
    rw [h1, List.filterMap_append] at g
    rw [List.filterMap_append, List.filterMap_cons]
    cases hd : plainIndex d with
    | none => simpa using g
    | some p =>
      simp only [pairwise_insert, List.mem_filterMap]
      constructor
      · rintro ⟨-, k1, k2⟩ p' hp
        cases hp
        exact ⟨fun x hx q hq => k1 q ⟨x, hx, hq⟩, fun x hx q hq => k2 q ⟨x, hx, hq⟩⟩
      · intro k
        obtain ⟨k1, k2⟩ := k p rfl
        exact ⟨g, fun q ⟨x, hx, hq⟩ => k1 x hx q hq, fun q ⟨x, hx, hq⟩ => k2 x hx q hq⟩
  have hall : (∀ x ∈ defsOf T, IndexOk T x) ↔ IndexOk t d := by
    have g := ht.2.2.1
    simp only [hix]
    rw [h2]; rw [h1] at g
    constructor
    · exact fun h => h d (by simp)
    · intro h x hx
      simp only [List.mem_append, List.mem_cons] at hx
      rcases hx with hx | rfl | hx
      · exact g x (by simp [hx])
      · exact h
      · exact g x (by simp [hx])
  unfold TableOk
  rw [hpk, huq, hpl, hall, hc]
  constructor
  · rintro ⟨⟨a, -, b, c, e⟩, f⟩
    exact ⟨b, f, a, c, e⟩
  · rintro ⟨b, f, a, c, e⟩
    exact ⟨⟨a, ht.2.1, b, c, e⟩, f⟩

theorem keyOk_mono {rel : Relation} {tl tr tl' tr' : TableBlock} {lc rc : List Str}
    (hl : ∀ n, SingleKey tl n → SingleKey tl' n) (hr : ∀ n, SingleKey tr n → SingleKey tr' n)
    (dl : CompositeKey tl lc → CompositeKey tl' lc) (dr : CompositeKey tr rc → CompositeKey tr' rc)
    (h : KeyOk rel tl tr lc rc) : KeyOk rel tl' tr' lc rc := by
  rcases lc with _ | ⟨l, _ | ⟨l', ls⟩⟩ <;> rcases rc with _ | ⟨r, _ | ⟨r', rs⟩⟩ <;> cases rel <;>
    simp only [KeyOk] at h ⊢ <;>
    first
      | exact h
      | exact hl _ h
      | exact hr _ h
      | exact dl h
      | exact dr h
      | exact h.imp (hl _) (hr _)
      | exact h.imp dl dr

/-- **C72.** An index can be added to a table of a valid schema exactly if it fits there. -/
theorem C72_add_index {t T : TableBlock} {d1 d2 : List IndexesDef} {d : IndexesDef} (h : SwapIndexes s S t T)
    (h1 : defsOf t = d1 ++ d2) (h2 : defsOf T = d1 ++ d :: d2) (hv : Valid s) : Valid S ↔ IndexFits t d1 d2 d := by
  rw [h.valid_iff hv, ← tableOk_index h.cols h1 h2 (hv.tables t h.mem_left)]
  constructor
  · exact fun ⟨k1, k2, _⟩ => ⟨k1, k2 d (by rw [h2]; simp)⟩
  · rintro ⟨k1, k2⟩
    refine ⟨k1, ?_, ?_⟩
    · intro x hx st hst
      rw [h2] at hx
      simp only [List.mem_append, List.mem_cons] at hx
      have : x = d ∨ x ∈ defsOf t := by rw [h1, List.mem_append]; tauto
      rcases this with rfl | hx
      · exact k2 st hst
      · exact hv.settings _ (mem_checked.2 (.inl ⟨t, h.mem_left, .inr (.inr ⟨x, hx, st, hst, rfl⟩)⟩))
    · intro k hk l r tl tr ul ur nl nr
      obtain ⟨-, -, l', r', tl', tr', ul', ur', nl', nr', -, -, -, ko⟩ := hv.refs.1 k hk
      have uniq : ∀ {a b b' : End}, Unaliased s a b → Unaliased s a b' → b = b' := by
        rintro a b b' (⟨x, hx, rfl⟩ | ⟨hx, rfl⟩) (⟨y, hy, rfl⟩ | ⟨hy, rfl⟩)
        · have : x = y := nodup_filterMap_inj hv.tableNames.2.1 hx.1 hy.1 hx.2 hy.2
          rw [this]
        · exact absurd hx (hy x)
        · exact absurd hy (hx y)
        · rfl
      have tab : ∀ {e : End} {x y : TableBlock}, Names s e x → Names s e y → x = y := fun hx hy =>
        table_of_key hv.tableNames hx.1 hy.1 ((names_key hx).trans (names_key hy).symm)
      obtain ⟨yl, ml, xl⟩ := h.symm.namesTable nl
      obtain ⟨yr, mr, xr⟩ := h.symm.namesTable nr
      cases uniq ul' (h.symm.unaliased ul)
      cases uniq ur' (h.symm.unaliased ur)
      cases tab nl' ml
      cases tab nr' mr
      have grow : ∀ {x y : TableBlock}, x = y ∨ (y = T ∧ x = t) → (∀ n, SingleKey x n → SingleKey y n) ∧
          ∀ cols, CompositeKey x cols → CompositeKey y cols := by
        rintro x y (rfl | ⟨rfl, rfl⟩)
        · exact ⟨fun _ h => h, fun _ h => h⟩
        · refine ⟨fun n => ?_, fun cols => ?_⟩
          · unfold SingleKey IsColumn; rw [h.cols]; exact id
          · rintro ⟨x, hx, hx'⟩
            refine ⟨x, ?_, hx'⟩
            rw [h2]; rw [h1] at hx
            simp only [List.mem_append, List.mem_cons] at hx ⊢
            tauto
      exact keyOk_mono (grow xl).1 (grow xr).1 ((grow xl).2 _) ((grow xr).2 _) ko

/-- **C72.** An index can be dropped from a table of a valid schema exactly if every reference still has the key it
needs. -/
theorem C72_drop_index {t T : TableBlock} {d1 d2 : List IndexesDef} {d : IndexesDef} (h : SwapIndexes S s T t)
    (h1 : defsOf t = d1 ++ d2) (h2 : defsOf T = d1 ++ d :: d2) (hv : Valid S) : Valid s ↔
      ∀ k ∈ links S, ∀ l r tl tr, Unaliased s k.lhs l → Unaliased s k.rhs r → Names s l tl → Names s r tr →
        KeyOk k.rel tl tr l.cols r.cols := by
  rw [h.valid_iff hv]
  have hsub : (defsOf t).Sublist (defsOf T) := by
    rw [h1, h2]; exact (List.Sublist.refl _).append (List.sublist_cons_self _ _)
  have hok := hv.tables T h.mem_left
  refine ⟨fun h => h.2.2, fun k => ⟨⟨⟨?_, ?_, ?_⟩, ?_, ?_, ?_, ?_⟩, ?_, k⟩⟩
  · rw [h.cols]; exact hok.1.1
  · rw [h.cols]; exact fun c hc x hx => hok.1.2.1 c hc x (hsub.subset hx)
  · exact hok.1.2.2.sublist (hsub.filter _)
  · rw [h.cols]; exact hok.2.1
  · intro x hx
    have := hok.2.2.1 x (hsub.subset hx)
    unfold IndexOk at this ⊢
    rwa [h.names]
  · refine hok.2.2.2.1.sublist ?_
    unfold uniqueKeys
    rw [h.cols]
    exact (List.Sublist.refl _).append ((hsub.filter _).map _)
  · exact hok.2.2.2.2.sublist (hsub.filterMap _)
  · exact fun x hx st hst => hv.settings _ (mem_checked.2
      (.inl ⟨T, h.mem_left, .inr (.inr ⟨x, hsub.subset hx, st, hst, rfl⟩)⟩))

/-- **C72.** In particular an index can be dropped if it is neither primary key nor unique, or if no reference has exactly
its columns on one side. -/
theorem C72_drop_index_unused {t T : TableBlock} {d1 d2 : List IndexesDef} {d : IndexesDef} (h : SwapIndexes S s T t)
    (h1 : defsOf t = d1 ++ d2) (h2 : defsOf T = d1 ++ d :: d2) (hv : Valid S)
    (hd : (¬ IsPkIndex d ∧ ¬ IsUniqueIndex d) ∨
      ∀ k ∈ links S, ∀ e ∈ [k.lhs, k.rhs], ¬ ∀ n, n ∈ e.cols ↔ n ∈ indexNames d) : Valid s := by
  refine (C72_drop_index h h1 h2 hv).2 fun k hk l r tl tr ul ur nl nr => ?_
  obtain ⟨-, -, l', r', tl', tr', ul', ur', nl', nr', -, -, -, ko⟩ := hv.refs.1 k hk
  have uniq : ∀ {a b b' : End}, Unaliased S a b → Unaliased S a b' → b = b' := by
    rintro a b b' (⟨x, hx, rfl⟩ | ⟨hx, rfl⟩) (⟨y, hy, rfl⟩ | ⟨hy, rfl⟩)
    · have : x = y := nodup_filterMap_inj hv.tableNames.2.1 hx.1 hy.1 hx.2 hy.2
      rw [this]
    · exact absurd hx (hy x)
    · exact absurd hy (hx y)
    · rfl
  have tab : ∀ {e : End} {x y : TableBlock}, Names S e x → Names S e y → x = y := fun hx hy =>
    table_of_key hv.tableNames hx.1 hy.1 ((names_key hx).trans (names_key hy).symm)
  obtain ⟨yl, ml, xl⟩ := h.symm.namesTable nl
  obtain ⟨yr, mr, xr⟩ := h.symm.namesTable nr
  cases uniq ul' (h.symm.unaliased ul)
  cases uniq ur' (h.symm.unaliased ur)
  cases tab nl' ml
  cases tab nr' mr
  have same : ∀ {e e' : End}, Unaliased s e e' → e'.cols = e.cols := by
    rintro e e' (⟨x, -, rfl⟩ | ⟨-, rfl⟩) <;> rfl
  have keep : ∀ {e e' : End}, e ∈ [k.lhs, k.rhs] → Unaliased s e e' → ∀ {x y : TableBlock}, x = y ∨ (y = t ∧ x = T) →
      (∀ n, SingleKey x n → SingleKey y n) ∧ (CompositeKey x e'.cols → CompositeKey y e'.cols) := by
    rintro e e' he hu x y (rfl | ⟨rfl, rfl⟩)
    · exact ⟨fun _ h => h, fun h => h⟩
    · refine ⟨fun n => ?_, ?_⟩
      · unfold SingleKey IsColumn; rw [h.cols]; exact id
      · rintro ⟨x, hx, hk1, hk2⟩
        refine ⟨x, ?_, hk1, hk2⟩
        rw [h2] at hx; rw [h1]
        simp only [List.mem_append, List.mem_cons] at hx ⊢
        have : x ≠ d := by
          rintro rfl
          rcases hd with hd | hd
          · tauto
          · exact hd k hk e he (by rw [← same hu]; exact hk2.2)
        tauto
  exact keyOk_mono (keep (by simp) ul xl).1 (keep (by simp) ur xr).1 (keep (by simp) ul xl).2 (keep (by simp) ur xr).2 ko

/-! ## In terms of texts, and concrete cases -/

/-- **C72** for texts: if the first text is accepted, the second is accepted exactly under the conditions `P` under which
its schema, read without positions, stays valid (the theorems above). -/
theorem C72_texts {P : Prop} {txt txt' : Str} (h : parseDbml txt = .ok s) (h' : parseDbmlUnchecked txt' = .ok S)
    (hP : Valid (bare s) → (Valid (bare S) ↔ P)) : parseDbml txt' = .ok S ↔ P := C66_texts h h' hP

/-- Two tables with a composite key, an enum, a group. -/
def growBase : Str := k!"Project p { }
Enum e { a b }
Table one { x int y int indexes { (x, y) [unique] x } }
Table two { x int y int kind e }
Ref: two.(x, y) > one.(x, y)
TableGroup g { one }"

/-- `t` with another line. -/
def withLine (t l : Str) : Str := t ++ '\n' :: l

/-- The schema of a text without positions. -/
abbrev bareOf (t : Str) : SchemaBlock := bare (astOf t)

theorem grow_ok : parseDbml growBase = .ok (astOf growBase) := checked_ast (by decide +kernel)

theorem valid_of_checked {t : Str} (h : parseDbml t = .ok (astOf t)) : Valid (bareOf t) :=
  (accepted_iff_bare ((C33_accepts_iff_valid t _).1 h).1).1 ⟨_, h⟩

/-- A table with an inline ref, an alias and indexes. -/
def growTable : Str := withLine growBase k!"Table s.three as t { id int [pk] z int [ref: - two.x] w e [default: 'a'] indexes { (z, w) [type: hash] } }"

/-- The table is in order (its columns, keys and settings), but the refs need a key: hence it does not fit. -/
example : ¬ TableFits (bareOf growBase) (bareOf growTable) ((bareOf growTable).tables.getD 2 {}) := by
  rw [← C72_texts grow_ok (unchecked_ast (t := growTable) (by decide +kernel))
    (C72_add_table (T := (bareOf growTable).tables.getD 2 {})
      ⟨(bareOf growBase).blocks, [], by decide +kernel, by decide +kernel⟩ (by decide +kernel))]
  intro h
  have : (parseDbml growTable).get?.isSome = false := by decide +kernel
  rw [h] at this
  cases this

/-- With the ref to its own key it fits. -/
def growTable2 : Str := withLine growBase k!"Table s.three as t { id int [pk] z int [ref: > s.three.id] w e [default: 'a'] indexes { (z, w) [type: hash] } }"

example : TableFits (bareOf growBase) (bareOf growTable2) ((bareOf growTable2).tables.getD 2 {}) := by
  rw [← C72_texts grow_ok (unchecked_ast (t := growTable2) (by decide +kernel))
    (C72_add_table (T := (bareOf growTable2).tables.getD 2 {})
      ⟨(bareOf growBase).blocks, [], by decide +kernel, by decide +kernel⟩ (by decide +kernel))]
  exact checked_ast (by decide +kernel)

/-- And it can be dropped again, though it is in use by itself. -/
example : parseDbml growBase = .ok (astOf growBase) := by
  refine (C72_texts (checked_ast (t := growTable2) (by decide +kernel)) (unchecked_ast (by decide +kernel))
    (C72_drop_table (T := (bareOf growTable2).tables.getD 2 {})
      ⟨(bareOf growBase).blocks, [], by decide +kernel, by decide +kernel⟩ (by decide +kernel))).2 ⟨?_, ?_⟩
  · intro k hk e he hm
    have hm := endMeans_mentions (valid_of_checked (checked_ast (t := growTable2) (by decide +kernel))).tableNames hm
    have key : ∀ k ∈ links (bareOf growBase), ∀ e ∈ [k.lhs, k.rhs], e.table = k!"one" ∨ e.table = k!"two" := by
      decide +kernel
    rcases key k hk e he with h | h <;> rw [h] at hm <;> revert hm <;> unfold Mentions <;> decide +kernel
  · intro i hi _ ht
    have key : ∀ i ∈ groupItems (bareOf growBase), i.schema = none ∧ i.ident_alias.to_string = k!"one" := by decide +kernel
    obtain ⟨h1, h2⟩ := key i hi
    unfold GroupTarget at ht
    simp only [h1, h2] at ht
    rcases ht with ⟨t, ⟨h3, h4⟩, -⟩ | ⟨-, h3, -⟩
    · have key : ∀ t ∈ (bareOf growTable2).tables, aliasOf t ≠ some k!"one" := by decide +kernel
      exact key t h3 h4
    · revert h3; decide +kernel

/-- An enum with a new name. -/
def growEnum : Str := withLine growBase k!"Enum s.e { c [note: 'x'] d }"

example : parseDbml growEnum = .ok (astOf growEnum) := by
  refine (C72_texts grow_ok (unchecked_ast (by decide +kernel)) (C72_add_enum (e := (bareOf growEnum).enums.getD 1 {})
    ⟨(bareOf growBase).blocks, [], by decide +kernel, by decide +kernel⟩)).2
    ⟨by decide +kernel, by decide +kernel, by unfold DistinctKeys; decide +kernel⟩

/-- Hence the enum was not needed. -/
example : parseDbml growBase = .ok (astOf growBase) := by
  refine (C72_texts (checked_ast (t := growEnum) (by decide +kernel)) (unchecked_ast (by decide +kernel))
    (C72_drop_enum (e := (bareOf growEnum).enums.getD 1 {})
      ⟨(bareOf growBase).blocks, [], by decide +kernel, by decide +kernel⟩)).2 ?_
  rintro c hc ⟨hd, -⟩
  have key : ∀ c ∈ columns (bareOf growBase), defaultOf c = none := by decide +kernel
  exact hd (key c hc)

/-- A second group. -/
def growGroup : Str := withLine growBase k!"TableGroup h { two one }"

example : ∃ ks, GroupTargets (bareOf growBase) ((bareOf growGroup).table_groups.getD 1 {}).items ks ∧ ks.Nodup :=
  ((C72_texts grow_ok (unchecked_ast (t := growGroup) (by decide +kernel))
    (C72_add_group (g := (bareOf growGroup).table_groups.getD 1 {})
      ⟨(bareOf growBase).blocks, [], by decide +kernel, by decide +kernel⟩)).1 (checked_ast (by decide +kernel))).2

/-- An index more between the two. -/
def growIndex : Str := k!"Project p { }
Enum e { a b }
Table one { x int y int indexes { (x, y) [unique] y [type: btree, name: 'i'] x } }
Table two { x int y int kind e }
Ref: two.(x, y) > one.(x, y)
TableGroup g { one }"

theorem grow_swap : SwapIndexes (bareOf growBase) (bareOf growIndex) ((bareOf growBase).tables.headD {})
    ((bareOf growIndex).tables.headD {}) := by
  refine ⟨⟨(bareOf growBase).blocks.take 2, (bareOf growBase).blocks.drop 3, ?_, ?_⟩, ?_, ?_, ?_⟩ <;> decide +kernel

/-- The second index of the first table of `growIndex`. -/
def grown : IndexesDef := (defsOf ((bareOf growIndex).tables.headD {})).getD 1 {}

example : IndexFits ((bareOf growBase).tables.headD {}) ((defsOf ((bareOf growBase).tables.headD {})).take 1)
    ((defsOf ((bareOf growBase).tables.headD {})).drop 1) grown := by
  rw [← C72_texts grow_ok (unchecked_ast (t := growIndex) (by decide +kernel))
    (C72_add_index grow_swap (by decide +kernel) (by decide +kernel))]
  exact checked_ast (by decide +kernel)

example : parseDbml growBase = .ok (astOf growBase) := by
  refine (C72_texts (P := True) (checked_ast (t := growIndex) (by decide +kernel)) (unchecked_ast (by decide +kernel))
    fun hv => iff_true_intro (C72_drop_index_unused grow_swap.symm (d := grown)
      (d1 := (defsOf ((bareOf growBase).tables.headD {})).take 1)
      (d2 := (defsOf ((bareOf growBase).tables.headD {})).drop 1) (by decide +kernel) (by decide +kernel) hv
      (.inl (by decide +kernel)))).2 trivial

/-- Without the unique index the ref has no key. -/
def growNoIndex : Str := k!"Project p { }
Enum e { a b }
Table one { x int y int indexes { x } }
Table two { x int y int kind e }
Ref: two.(x, y) > one.(x, y)
TableGroup g { one }"

example : ¬ ∀ k ∈ links (bareOf growBase), ∀ l r tl tr, Unaliased (bareOf growNoIndex) k.lhs l →
    Unaliased (bareOf growNoIndex) k.rhs r → Names (bareOf growNoIndex) l tl → Names (bareOf growNoIndex) r tr →
    KeyOk k.rel tl tr l.cols r.cols := by
  rw [← C72_texts grow_ok (unchecked_ast (t := growNoIndex) (by decide +kernel))
    (C72_drop_index (T := (bareOf growBase).tables.headD {}) (t := (bareOf growNoIndex).tables.headD {}) (d1 := [])
      (d := (defsOf ((bareOf growBase).tables.headD {})).headD {})
      (d2 := (defsOf ((bareOf growBase).tables.headD {})).drop 1)
      ⟨⟨(bareOf growBase).blocks.take 2, (bareOf growBase).blocks.drop 3, by decide +kernel, by decide +kernel⟩,
        by decide +kernel, by decide +kernel, by decide +kernel⟩ (by decide +kernel) (by decide +kernel))]
  intro h
  have : (parseDbml growNoIndex).get?.isSome = false := by decide +kernel
  rw [h] at this
  cases this

end Dbml.Props
