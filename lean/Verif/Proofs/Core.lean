import Verif.Spec.Core
import Mathlib.Data.List.Nodup
import Mathlib.Data.List.Basic

/-!
# Validity depends on the core only, and not on the names
-/

namespace Dbml.Spec
open Dbml

variable {ρ : Renaming} {s : SchemaBlock}

/-! ## Accessors -/

theorem core_tables : (core ρ s).tables = s.tables.map (Core.table ρ) := by
  simp only [SchemaBlock.tables, core, List.filterMap_filterMap, List.map_filterMap]
  congr 1; funext b; cases b <;> rfl
theorem core_enums : (core ρ s).enums = s.enums.map Core.enum := by
  simp only [SchemaBlock.enums, core, List.filterMap_filterMap, List.map_filterMap]
  congr 1; funext b; cases b <;> rfl
theorem core_refs : (core ρ s).refs = s.refs.map (Core.ref ρ) := by
  simp only [SchemaBlock.refs, core, List.filterMap_filterMap, List.map_filterMap]
  congr 1; funext b; cases b <;> rfl
theorem core_groups : (core ρ s).table_groups = s.table_groups.map (Core.group ρ) := by
  simp only [SchemaBlock.table_groups, core, List.filterMap_filterMap, List.map_filterMap]
  congr 1; funext b; cases b <;> rfl
theorem core_projects : (core ρ s).projects = s.projects.map Core.project := by
  simp only [SchemaBlock.projects, core, List.filterMap_filterMap, List.map_filterMap]
  congr 1; funext b; cases b <;> rfl
theorem core_columns : columns (core ρ s) = (columns s).map (Core.column ρ) := by
  simp only [columns, core_tables, List.flatMap_map, List.map_flatMap]; rfl

/-! ## Names -/

/-- Renaming of a schema and table name. -/
def Renaming.key (ρ : Renaming) (k : Str × Str) : Str × Str := (ρ.schema k.1, ρ.table k.2)

theorem Renaming.Ok.key (h : ρ.Ok) (a b : Str × Str) (e : ρ.key a = ρ.key b) : a = b := by
  obtain ⟨h1, h2⟩ := Prod.mk.inj e
  exact Prod.ext (h.schema _ _ h1) (h.table _ _ h2)

theorem core_tableKey (h : ρ.Ok) (t : TableBlock) : tableKey (Core.table ρ t) = ρ.key (tableKey t) := by
  unfold tableKey schemaOf Renaming.key Core.table
  cases t.ident.schema with
  | none => simp [h.pub, Core.ident, Core.name]
  | some i => simp [Core.ident, Core.name]

theorem core_enumKey (e : EnumBlock) : enumKey (Core.enum e) = enumKey e := by
  unfold enumKey schemaOf Core.enum
  cases e.ident.schema <;> simp [Core.ident, Core.name]

theorem core_aliasOf (t : TableBlock) : aliasOf (Core.table ρ t) = (aliasOf t).map ρ.table := by
  unfold aliasOf Core.table
  cases t.ident.alias <;> rfl

theorem core_colNames (t : TableBlock) : colNames (Core.table ρ t) = (colNames t).map ρ.col := by
  simp [colNames, Core.table, Core.column, Core.ident, Core.name]

theorem core_isAlias (h : ρ.Ok) (a : Str) (t' : TableBlock) :
    IsAlias (core ρ s) (ρ.table a) t' ↔ ∃ t, IsAlias s a t ∧ t' = Core.table ρ t := by
  unfold IsAlias
  rw [core_tables, List.mem_map]
  constructor
  · rintro ⟨⟨t, ht, rfl⟩, ha⟩
    rw [core_aliasOf] at ha
    obtain ⟨b, hb, e⟩ := Option.map_eq_some_iff.1 ha
    exact ⟨t, ⟨ht, by rw [hb, h.table _ _ e]⟩, rfl⟩
  · rintro ⟨t, ⟨ht, ha⟩, rfl⟩
    exact ⟨⟨t, ht, rfl⟩, by rw [core_aliasOf, ha]; rfl⟩

theorem core_isAlias_none (h : ρ.Ok) (a : Str) :
    (∀ t', ¬ IsAlias (core ρ s) (ρ.table a) t') ↔ ∀ t, ¬ IsAlias s a t := by
  simp only [core_isAlias h]
  constructor
  · intro h1 t ht; exact h1 _ ⟨t, ht, rfl⟩
  · rintro h1 t' ⟨t, ht, -⟩; exact h1 t ht

/-! ## Settings, project, enums, groups -/

theorem distinct_core (as : List Attribute) : DistinctKeys (as.map Core.attr) ↔ DistinctKeys as := by
  simp [DistinctKeys, Core.attr, Core.name, Function.comp_def]


theorem core_settings : checkedSettings (core ρ s) = (checkedSettings s).map (List.map Core.attr) := by
  have e1 : (tableSettings (core ρ s)).map (·.attributes) = ((tableSettings s).map (·.attributes)).map (List.map Core.attr) := by
    unfold tableSettings
    rw [core_tables]
    simp only [List.filterMap_map, List.map_filterMap]
    congr 1; funext t; cases h : t.settings <;> simp [Core.table, h]
  have e2 : (columnSettings (core ρ s)).map (·.attributes) = ((columnSettings s).map (·.attributes)).map (List.map Core.attr) := by
    unfold columnSettings
    rw [core_columns]
    simp only [List.filterMap_map, List.map_filterMap]
    congr 1; funext t; cases h : t.settings <;> simp [Core.column, Core.colSettings, h]
  have e3 : (enumSettings (core ρ s)).map (·.attributes) = ((enumSettings s).map (·.attributes)).map (List.map Core.attr) := by
    have : enumValues (core ρ s) = (enumValues s).map Core.enumValue := by
      unfold enumValues
      rw [core_enums, List.flatMap_map, List.map_flatMap]; rfl
    unfold enumSettings
    rw [this]
    simp only [List.filterMap_map, List.map_filterMap]
    congr 1; funext t; cases h : t.settings <;> simp [Core.enumValue, h]
  have e4 : (indexSettings (core ρ s)).map (·.attributes) = ((indexSettings s).map (·.attributes)).map (List.map Core.attr) := by
    have hd : indexDefs (core ρ s) = (indexDefs s).map (Core.indexDef ρ) := by
      unfold indexDefs
      rw [core_tables]
      have : List.filterMap (fun x : TableBlock => x.indexes) (s.tables.map (Core.table ρ)) =
          (s.tables.filterMap (·.indexes)).map (Core.indexes ρ) := by
        rw [List.filterMap_map, List.map_filterMap]; rfl
      rw [this, List.flatMap_map, List.map_flatMap]; rfl
    unfold indexSettings
    rw [hd]
    simp only [List.filterMap_map, List.map_filterMap]
    congr 1; funext t; cases h : t.settings <;> simp [Core.indexDef, Core.indexSettings, h]
  have e5 : (refSettings (core ρ s)).map (·.attributes) = ((refSettings s).map (·.attributes)).map (List.map Core.attr) := by
    unfold refSettings
    rw [core_refs]
    simp only [List.filterMap_map, List.map_filterMap]
    congr 1; funext t; cases h : t.settings <;> simp [Core.ref, h]
  unfold checkedSettings structSettings
  rw [e1, e2, e3, e4, e5]
  simp only [List.map_append]

theorem core_settingsOk : (∀ as ∈ checkedSettings (core ρ s), DistinctKeys as) ↔ ∀ as ∈ checkedSettings s, DistinctKeys as := by
  rw [core_settings]
  simp only [List.forall_mem_map, distinct_core]

theorem core_projectOk : ProjectOk (core ρ s) ↔ ProjectOk s := by
  have key : ∀ p, (Core.project p).properties.map (·.key.to_string) = p.properties.map (·.key.to_string) := by
    intro p; simp [Core.project, Core.prop, Core.name]
  unfold ProjectOk
  rw [core_projects]
  constructor
  · rintro ⟨p, hp, hn⟩
    obtain ⟨a, ha, rfl⟩ := List.map_eq_singleton_iff.1 hp
    exact ⟨a, ha, by rw [← key]; exact hn⟩
  · rintro ⟨p, hp, hn⟩
    exact ⟨Core.project p, by rw [hp]; rfl, by rw [key]; exact hn⟩

theorem exists_map {α β : Type} {f : α → β} {p : β → Prop} {l : List α} : (∃ b ∈ l.map f, p b) ↔ ∃ a ∈ l, p (f a) := by
  simp only [List.mem_map, exists_exists_and_eq_and]

theorem nodup_map_iff' {α β : Type} {f : α → β} (hf : ∀ a b, f a = f b → a = b) (l : List α) : (l.map f).Nodup ↔ l.Nodup :=
  List.nodup_map_iff (f := f) (fun a b e => hf a b e)

theorem core_tableNamesOk (h : ρ.Ok) : TableNamesOk (core ρ s) ↔ TableNamesOk s := by
  unfold TableNamesOk
  have e1 : ((core ρ s).tables.map tableKey) = (s.tables.map tableKey).map ρ.key := by
    rw [core_tables, List.map_map, List.map_map]
    exact List.map_congr_left fun t _ => core_tableKey h t
  have e2 : ((core ρ s).tables.filterMap aliasOf) = (s.tables.filterMap aliasOf).map ρ.table := by
    rw [core_tables, List.filterMap_map, List.map_filterMap]
    congr 1; funext t; exact core_aliasOf t
  rw [e1, e2, nodup_map_iff' h.key, nodup_map_iff' h.table, core_tables]
  simp only [List.forall_mem_map, core_colNames, nodup_map_iff' h.col]

theorem core_enumValues (e : EnumBlock) :
    (Core.enum e).values.map (·.value.to_string) = e.values.map (·.value.to_string) := by
  simp [Core.enum, Core.enumValue, Core.name]

theorem core_enumNamesOk : EnumNamesOk (core ρ s) ↔ EnumNamesOk s := by
  unfold EnumNamesOk
  have e1 : ((core ρ s).enums.map enumKey) = s.enums.map enumKey := by
    rw [core_enums, List.map_map]
    exact List.map_congr_left fun t _ => core_enumKey t
  rw [e1, core_enums]
  simp only [List.forall_mem_map, core_enumValues]

theorem core_groupTarget (h : ρ.Ok) (i : TableGroupItem) (k' : Str × Str) :
    GroupTarget (core ρ s) (Core.groupItem ρ i) k' ↔ ∃ k, GroupTarget s i k ∧ k' = ρ.key k := by
  unfold GroupTarget
  cases hs : i.schema with
  | some sc => simp [Core.groupItem, hs, Core.ident, Core.name, Renaming.key]
  | none =>
    simp only [Core.groupItem, hs, Core.ident, Core.name, Option.map_none, core_isAlias h]
    have hnone := core_isAlias_none (s := s) h i.ident_alias.to_string
    simp only [core_isAlias h] at hnone
    rw [hnone]
    constructor
    · rintro (⟨_, ⟨t, ht, rfl⟩, rfl⟩ | ⟨hn, rfl, t', ht', hk⟩)
      · exact ⟨_, .inl ⟨t, ht, rfl⟩, core_tableKey h t⟩
      · rw [core_tables] at ht'
        obtain ⟨t, ht, rfl⟩ := List.mem_map.1 ht'
        have hp : ((k!"public", ρ.table i.ident_alias.to_string) : Str × Str) = ρ.key (k!"public", i.ident_alias.to_string) := by
          simp [Renaming.key, h.pub]
        rw [core_tableKey h, hp] at hk
        exact ⟨_, .inr ⟨hn, rfl, t, ht, h.key _ _ hk⟩, hp⟩
    · rintro ⟨k, (⟨t, ht, rfl⟩ | ⟨hn, rfl, t, ht, hk⟩), rfl⟩
      · exact .inl ⟨_, ⟨t, ht, rfl⟩, (core_tableKey h t).symm⟩
      · refine .inr ⟨hn, by simp [Renaming.key, h.pub], Core.table ρ t, by rw [core_tables]; exact List.mem_map_of_mem ht, ?_⟩
        rw [core_tableKey h, hk]

theorem core_groupTargets (h : ρ.Ok) (is : List TableGroupItem) (ks' : List (Str × Str)) :
    GroupTargets (core ρ s) (is.map (Core.groupItem ρ)) ks' ↔ ∃ ks, GroupTargets s is ks ∧ ks' = ks.map ρ.key := by
  induction is generalizing ks' with
  | nil =>
    constructor
    · intro g; cases g; exact ⟨[], .nil, rfl⟩
    · rintro ⟨ks, g, rfl⟩; cases g; exact .nil
  | cons i is ih =>
    constructor
    · intro g
      cases g with
      | cons g1 g2 =>
        obtain ⟨k, hk, rfl⟩ := (core_groupTarget h i _).1 g1
        obtain ⟨ks, hks, rfl⟩ := (ih _).1 g2
        exact ⟨k :: ks, .cons hk hks, rfl⟩
    · rintro ⟨ks, g, rfl⟩
      cases g with
      | cons g1 g2 => exact .cons ((core_groupTarget h i _).2 ⟨_, g1, rfl⟩) ((ih _).2 ⟨_, g2, rfl⟩)

theorem core_groupsOk (h : ρ.Ok) : GroupsOk (core ρ s) ↔ GroupsOk s := by
  unfold GroupsOk
  have e1 : ((core ρ s).table_groups.map (·.ident.to_string)) = (s.table_groups.map (·.ident.to_string)).map ρ.group := by
    rw [core_groups, List.map_map, List.map_map]; rfl
  rw [e1, nodup_map_iff' h.group, core_groups]
  simp only [List.forall_mem_map]
  refine and_congr_right fun _ => forall_congr' fun g => imp_congr_right fun _ => ?_
  show (∃ ks, GroupTargets (core ρ s) (g.items.map (Core.groupItem ρ)) ks ∧ ks.Nodup) ↔ _
  constructor
  · rintro ⟨ks', g1, hn⟩
    obtain ⟨ks, hks, rfl⟩ := (core_groupTargets h _ _).1 g1
    exact ⟨ks, hks, (nodup_map_iff' h.key _).1 hn⟩
  · rintro ⟨ks, g1, hn⟩
    exact ⟨_, (core_groupTargets h _ _).2 ⟨ks, g1, rfl⟩, (nodup_map_iff' h.key _).2 hn⟩

/-! ## Keys and indexes -/

theorem core_isPkCol (c : TableColumn) : IsPkCol (Core.column ρ c) ↔ IsPkCol c := by
  unfold IsPkCol; cases h : c.settings <;> simp [Core.column, Core.colSettings, h]
theorem core_isUniqueCol (c : TableColumn) : IsUniqueCol (Core.column ρ c) ↔ IsUniqueCol c := by
  unfold IsUniqueCol; cases h : c.settings <;> simp [Core.column, Core.colSettings, h]
theorem core_isPkIndex (d : IndexesDef) : IsPkIndex (Core.indexDef ρ d) ↔ IsPkIndex d := by
  unfold IsPkIndex; cases h : d.settings <;> simp [Core.indexDef, Core.indexSettings, h]
theorem core_isUniqueIndex (d : IndexesDef) : IsUniqueIndex (Core.indexDef ρ d) ↔ IsUniqueIndex d := by
  unfold IsUniqueIndex; cases h : d.settings <;> simp [Core.indexDef, Core.indexSettings, h]
theorem core_defsOf (t : TableBlock) : defsOf (Core.table ρ t) = (defsOf t).map (Core.indexDef ρ) := by
  unfold defsOf; cases h : t.indexes <;> simp [Core.table, Core.indexes, h]
theorem core_cols (t : TableBlock) : (Core.table ρ t).cols = t.cols.map (Core.column ρ) := rfl
theorem core_indexNames (d : IndexesDef) : indexNames (Core.indexDef ρ d) = (indexNames d).map ρ.col := by
  unfold indexNames
  simp only [Core.indexDef, List.filterMap_map, List.map_filterMap]
  congr 1; funext c; cases c <;> rfl

theorem filter_map' {α β : Type} (f : α → β) (p : β → Prop) (q : α → Prop) [DecidablePred p] [DecidablePred q]
    (h : ∀ a, p (f a) ↔ q a) (l : List α) : (l.map f).filter (fun b => p b) = (l.filter (fun a => q a)).map f := by
  rw [List.filter_map]
  congr 1
  exact List.filter_congr fun a _ => by simp [h a]

theorem core_primaryKeyOk (t : TableBlock) : PrimaryKeyOk (Core.table ρ t) ↔ PrimaryKeyOk t := by
  unfold PrimaryKeyOk
  rw [core_defsOf, core_cols, filter_map' _ _ _ core_isPkCol, filter_map' _ _ _ core_isPkIndex, List.length_map, List.pairwise_map]
  simp only [List.forall_mem_map, core_isPkCol, core_isPkIndex, core_indexNames, List.map_eq_nil_iff]

theorem core_attrKeys (as : List Attribute) : (as.map Core.attr).map (·.key.to_string) = as.map (·.key.to_string) := by
  simp [Core.attr, Core.name]

theorem core_columnSettingsOk (c : TableColumn) : ColumnSettingsOk (Core.column ρ c) ↔ ColumnSettingsOk c := by
  unfold ColumnSettingsOk
  cases h : c.settings with
  | none => simp [Core.column, h]
  | some st =>
    have e : (Core.column ρ c).settings = some (Core.colSettings ρ st) := by simp [Core.column, h]
    have k : (Core.colSettings ρ st).attributes.map (·.key.to_string) = st.attributes.map (·.key.to_string) := core_attrKeys _
    simp only [e, Option.some.injEq, forall_eq']
    rw [k]; rfl

theorem core_indexOk (h : ρ.Ok) (t : TableBlock) (d : IndexesDef) : IndexOk (Core.table ρ t) (Core.indexDef ρ d) ↔ IndexOk t d := by
  unfold IndexOk
  rw [core_indexNames, core_colNames]
  have e1 : (Core.indexDef ρ d).cols ≠ [] ↔ d.cols ≠ [] := by simp [Core.indexDef]
  have e2 : (∀ n ∈ (indexNames d).map ρ.col, n ∈ (colNames t).map ρ.col) ↔ ∀ n ∈ indexNames d, n ∈ colNames t := by
    simp only [List.forall_mem_map]
    exact forall_congr' fun n => imp_congr_right fun _ => List.mem_map_of_injective (fun a b => h.col a b)
  rw [e1, e2]
  refine and_congr_right fun _ => and_congr_right fun _ => ?_
  cases hs : d.settings with
  | none => simp [Core.indexDef, hs]
  | some st => simp [Core.indexDef, Core.indexSettings, hs]

theorem map_inj_iff {α β : Type} {f : α → β} (hf : ∀ a b, f a = f b → a = b) (l m : List α) : l.map f = m.map f ↔ l = m :=
  ⟨fun e => List.map_injective_iff.2 (fun a b e => hf a b e) e, fun e => by rw [e]⟩

theorem core_uniqueKeys (t : TableBlock) : uniqueKeys (Core.table ρ t) = (uniqueKeys t).map (List.map ρ.col) := by
  unfold uniqueKeys
  rw [core_defsOf, core_cols, filter_map' _ _ _ core_isUniqueCol, filter_map' _ _ _ core_isUniqueIndex]
  simp only [List.map_append, List.map_map]
  congr 1
  exact List.map_congr_left fun d _ => core_indexNames d

theorem core_plainIndexes (t : TableBlock) :
    plainIndexes (Core.table ρ t) = (plainIndexes t).map (fun p => (p.1.map ρ.col, p.2)) := by
  unfold plainIndexes
  rw [core_defsOf, List.filterMap_map, List.map_filterMap]
  congr 1; funext d
  show plainIndex (Core.indexDef ρ d) = _
  unfold plainIndex
  rw [core_indexNames]
  cases hs : d.settings with
  | none => simp [Core.indexDef, hs]
  | some st => cases ht : st.type <;> simp [Core.indexDef, Core.indexSettings, hs, ht]

theorem core_tableOk (h : ρ.Ok) (t : TableBlock) : TableOk (Core.table ρ t) ↔ TableOk t := by
  unfold TableOk
  rw [core_primaryKeyOk, core_uniqueKeys, core_plainIndexes, core_defsOf, core_cols, List.pairwise_map, List.pairwise_map]
  simp only [List.forall_mem_map, core_columnSettingsOk, core_indexOk h]
  refine and_congr_right fun _ => and_congr_right fun _ => and_congr_right fun _ => and_congr ?_ ?_
  · refine List.Pairwise.iff fun u v => not_congr ?_
    constructor
    · intro hs x hx
      obtain ⟨y, hy, e⟩ := List.mem_map.1 (hs (List.mem_map_of_mem hx))
      rw [← h.col _ _ e]; exact hy
    · exact fun hs => List.map_subset _ hs
  · refine List.Pairwise.iff fun u v => not_congr ?_
    unfold Repeats
    simp only [map_inj_iff h.col]

/-! ## Columns -/

theorem core_hasEnumValue (k : Str × Str) (v : Str) : HasEnumValue (core ρ s) k v ↔ HasEnumValue s k v := by
  unfold HasEnumValue
  rw [core_enums]
  simp only [exists_map, core_enumKey, core_enumValues]

theorem core_columnOk (c : TableColumn) : ColumnOk (core ρ s) (Core.column ρ c) ↔ ColumnOk s c := by
  unfold ColumnOk
  have e1 : (Core.column ρ c).type.type_name = c.type.type_name := rfl
  have e2 : (Core.column ρ c).type.args = c.type.args := rfl
  have e3 : defaultOf (Core.column ρ c) = defaultOf c := by
    unfold defaultOf; cases h : c.settings <;> simp [Core.column, Core.colSettings, h]
  have e4 : nullableOfCol (Core.column ρ c) = nullableOfCol c := by
    unfold nullableOfCol; cases h : c.settings <;> simp [Core.column, Core.colSettings, h]
  simp only [e1, e2, e3, e4, core_hasEnumValue]

/-! ## References -/

/-- An end of a reference, renamed. -/
def Renaming.endp (ρ : Renaming) (e : End) : End :=
  { schema := e.schema.map ρ.schema, table := ρ.table e.table, cols := e.cols.map ρ.col }
/-- A reference, renamed. -/
def Renaming.link (ρ : Renaming) (k : Link) : Link := { rel := k.rel, lhs := ρ.endp k.lhs, rhs := ρ.endp k.rhs }

theorem core_endOf (r : RefIdent) : endOf (Core.refIdent ρ r) = ρ.endp (endOf r) := by
  cases hs : r.schema <;> simp [endOf, Core.refIdent, Renaming.endp, Core.ident, Core.name, hs]

theorem core_links : links (core ρ s) = (links s).map ρ.link := by
  unfold links
  rw [core_refs, core_tables]
  simp only [List.map_append, List.map_map, List.flatMap_map, List.map_flatMap, core_cols]
  congr 1
  · refine List.map_congr_left fun r _ => ?_
    simp [Core.ref, Renaming.link, core_endOf]
  · congr 1; funext t; congr 1; funext c
    cases hc : c.settings with
    | none => simp [Core.column, hc]
    | some st =>
      simp only [Core.column, hc, Option.map_some, Option.toList_some, List.flatMap_cons, List.flatMap_nil, List.append_nil,
        Core.colSettings, List.map_map]
      refine List.map_congr_left fun r _ => ?_
      cases hs : t.ident.schema <;>
        simp [Core.table, Core.refInline, Renaming.link, core_endOf, Renaming.endp, Core.ident, Core.name, hs]

theorem Renaming.Ok.endp (h : ρ.Ok) (a b : End) (e : ρ.endp a = ρ.endp b) : a = b := by
  obtain ⟨as, at', ac⟩ := a
  obtain ⟨bs, bt, bc⟩ := b
  simp only [Renaming.endp, End.mk.injEq] at e
  obtain ⟨e1, e2, e3⟩ := e
  rw [Option.map_injective (fun a b => h.schema a b) e1, h.table _ _ e2, (map_inj_iff h.col _ _).1 e3]

theorem core_unaliased (h : ρ.Ok) (e e' : End) :
    Unaliased (core ρ s) (ρ.endp e) e' ↔ ∃ x, Unaliased s e x ∧ e' = ρ.endp x := by
  unfold Unaliased
  have hn := core_isAlias_none (s := s) h e.table
  have ht : (ρ.endp e).table = ρ.table e.table := rfl
  have hc : (ρ.endp e).cols = e.cols.map ρ.col := rfl
  simp only [ht, hc, hn]
  simp only [core_isAlias h]
  constructor
  · rintro (⟨_, ⟨t, ha, rfl⟩, rfl⟩ | ⟨hno, rfl⟩)
    · refine ⟨_, .inl ⟨t, ha, rfl⟩, ?_⟩
      rw [core_tableKey h]; rfl
    · exact ⟨e, .inr ⟨hno, rfl⟩, rfl⟩
  · rintro ⟨x, (⟨t, ha, rfl⟩ | ⟨hno, rfl⟩), rfl⟩
    · refine .inl ⟨_, ⟨t, ha, rfl⟩, ?_⟩
      rw [core_tableKey h]; rfl
    · exact .inr ⟨hno, rfl⟩

theorem core_names (h : ρ.Ok) (e : End) (t' : TableBlock) :
    Names (core ρ s) (ρ.endp e) t' ↔ ∃ t, Names s e t ∧ t' = Core.table ρ t := by
  unfold Names
  rw [core_tables, List.mem_map]
  have k : ∀ t : TableBlock, ((Core.table ρ t).ident.schema.map (·.to_string) = (ρ.endp e).schema ∧
      (Core.table ρ t).ident.name.to_string = (ρ.endp e).table) ↔
      (t.ident.schema.map (·.to_string) = e.schema ∧ t.ident.name.to_string = e.table) := by
    intro t
    have e1 : (Core.table ρ t).ident.schema.map (·.to_string) = (t.ident.schema.map (·.to_string)).map ρ.schema := by
      cases hs : t.ident.schema <;> simp [Core.table, Core.ident, Core.name, hs]
    rw [e1]
    refine and_congr ?_ ?_
    · exact ⟨fun x => Option.map_injective (fun a b => h.schema a b) x, fun x => by rw [x]; rfl⟩
    · exact ⟨fun x => h.table _ _ x, fun x => congrArg ρ.table x⟩
  constructor
  · rintro ⟨⟨t, ht, rfl⟩, hk⟩
    exact ⟨t, ⟨ht, (k t).1 hk⟩, rfl⟩
  · rintro ⟨t, ⟨ht, hk⟩, rfl⟩
    exact ⟨⟨t, ht, rfl⟩, (k t).2 hk⟩

theorem core_isColumn (h : ρ.Ok) (t : TableBlock) (n : Str) (c' : TableColumn) :
    IsColumn (Core.table ρ t) (ρ.col n) c' ↔ ∃ c, IsColumn t n c ∧ c' = Core.column ρ c := by
  unfold IsColumn
  rw [core_cols, List.mem_map]
  constructor
  · rintro ⟨⟨c, hc, rfl⟩, e⟩; exact ⟨c, ⟨hc, h.col _ _ e⟩, rfl⟩
  · rintro ⟨c, ⟨hc, rfl⟩, rfl⟩; exact ⟨⟨c, hc, rfl⟩, rfl⟩

theorem core_sameType (c d : TableColumn) : SameType (Core.column ρ c) (Core.column ρ d) ↔ SameType c d := Iff.rfl

theorem core_singleKey (h : ρ.Ok) (t : TableBlock) (n : Str) : SingleKey (Core.table ρ t) (ρ.col n) ↔ SingleKey t n := by
  unfold SingleKey
  constructor
  · rintro ⟨c', hc, hk⟩
    obtain ⟨c, hc', rfl⟩ := (core_isColumn h _ _ _).1 hc
    exact ⟨c, hc', by rwa [core_isPkCol, core_isUniqueCol] at hk⟩
  · rintro ⟨c, hc, hk⟩
    exact ⟨_, (core_isColumn h _ _ _).2 ⟨c, hc, rfl⟩, by rwa [core_isPkCol, core_isUniqueCol]⟩

theorem mem_iff_map (h : ρ.Ok) (l m : List Str) : (∀ n, n ∈ l.map ρ.col ↔ n ∈ m.map ρ.col) ↔ ∀ n, n ∈ l ↔ n ∈ m := by
  constructor
  · intro k n
    have := k (ρ.col n)
    rwa [List.mem_map_of_injective (fun a b => h.col a b), List.mem_map_of_injective (fun a b => h.col a b)] at this
  · intro k n
    simp only [List.mem_map, k]

theorem core_compositeKey (h : ρ.Ok) (t : TableBlock) (cols : List Str) :
    CompositeKey (Core.table ρ t) (cols.map ρ.col) ↔ CompositeKey t cols := by
  unfold CompositeKey
  rw [core_defsOf]
  simp only [exists_map, core_isPkIndex, core_isUniqueIndex, core_indexNames, mem_iff_map h, List.length_map]
  simp only [Core.indexDef, List.length_map]

theorem core_keyOk (h : ρ.Ok) (rel : Relation) (tl tr : TableBlock) (l r : List Str) :
    KeyOk rel (Core.table ρ tl) (Core.table ρ tr) (l.map ρ.col) (r.map ρ.col) ↔ KeyOk rel tl tr l r := by
  match l, r with
  | [], [] => exact Iff.rfl
  | [a], [b] => cases rel <;> simp [KeyOk, core_singleKey h]
  | [], b :: bs =>
    have e1 := core_compositeKey h tl []
    have e2 := core_compositeKey h tr (b :: bs)
    simp only [List.map_nil, List.map_cons] at e1 e2 ⊢
    cases rel <;> simp [KeyOk, e1, e2]
  | a :: as, [] =>
    have e1 := core_compositeKey h tl (a :: as)
    have e2 := core_compositeKey h tr []
    simp only [List.map_nil, List.map_cons] at e1 e2 ⊢
    cases rel <;> simp [KeyOk, e1, e2]
  | a :: a' :: as, b :: bs =>
    have e1 := core_compositeKey h tl (a :: a' :: as)
    have e2 := core_compositeKey h tr (b :: bs)
    simp only [List.map_cons] at e1 e2 ⊢
    cases rel <;> simp [KeyOk, e1, e2]
  | [a], b :: b' :: bs =>
    have e1 := core_compositeKey h tl [a]
    have e2 := core_compositeKey h tr (b :: b' :: bs)
    simp only [List.map_cons, List.map_nil] at e1 e2 ⊢
    cases rel <;> simp [KeyOk, e1, e2]

theorem core_subNames (h : ρ.Ok) (l : List Str) (t : TableBlock) :
    (∀ n ∈ l.map ρ.col, n ∈ colNames (Core.table ρ t)) ↔ ∀ n ∈ l, n ∈ colNames t := by
  rw [core_colNames]
  simp only [List.forall_mem_map]
  exact forall_congr' fun n => imp_congr_right fun _ => List.mem_map_of_injective (fun a b => h.col a b)

theorem core_sameTypes (h : ρ.Ok) (l r : List Str) (tl tr : TableBlock) :
    (∀ p ∈ (l.map ρ.col).zip (r.map ρ.col), ∀ c d, IsColumn (Core.table ρ tl) p.1 c → IsColumn (Core.table ρ tr) p.2 d → SameType c d) ↔
    (∀ p ∈ l.zip r, ∀ c d, IsColumn tl p.1 c → IsColumn tr p.2 d → SameType c d) := by
  rw [List.zip_map]
  simp only [List.forall_mem_map, Prod.map]
  refine forall_congr' fun p => imp_congr_right fun _ => ?_
  constructor
  · intro k c d hc hd
    exact (core_sameType c d).1 (k _ _ ((core_isColumn h _ _ _).2 ⟨c, hc, rfl⟩) ((core_isColumn h _ _ _).2 ⟨d, hd, rfl⟩))
  · intro k c' d' hc hd
    obtain ⟨c, hc', rfl⟩ := (core_isColumn h _ _ _).1 hc
    obtain ⟨d, hd', rfl⟩ := (core_isColumn h _ _ _).1 hd
    exact (core_sameType c d).2 (k c d hc' hd')

theorem core_linkOk (h : ρ.Ok) (k : Link) : LinkOk (core ρ s) (ρ.link k) ↔ LinkOk s k := by
  unfold LinkOk
  refine and_congr_right fun _ => and_congr (by simp [Renaming.link, Renaming.endp]) ?_
  constructor
  · rintro ⟨l', r', tl', tr', hl, hr, nl, nr, h1, h2, h3, h4⟩
    obtain ⟨l, hl', rfl⟩ := (core_unaliased h _ _).1 hl
    obtain ⟨r, hr', rfl⟩ := (core_unaliased h _ _).1 hr
    obtain ⟨tl, nl', rfl⟩ := (core_names h _ _).1 nl
    obtain ⟨tr, nr', rfl⟩ := (core_names h _ _).1 nr
    exact ⟨l, r, tl, tr, hl', hr', nl', nr', (core_subNames h _ _).1 h1, (core_subNames h _ _).1 h2, (core_sameTypes h _ _ _ _).1 h3,
      (core_keyOk h _ _ _ _ _).1 h4⟩
  · rintro ⟨l, r, tl, tr, hl, hr, nl, nr, h1, h2, h3, h4⟩
    exact ⟨_, _, _, _, (core_unaliased h _ _).2 ⟨l, hl, rfl⟩, (core_unaliased h _ _).2 ⟨r, hr, rfl⟩, (core_names h _ _).2 ⟨tl, nl, rfl⟩,
      (core_names h _ _).2 ⟨tr, nr, rfl⟩, (core_subNames h _ _).2 h1, (core_subNames h _ _).2 h2, (core_sameTypes h _ _ _ _).2 h3,
      (core_keyOk h _ _ _ _ _).2 h4⟩

theorem core_sameEnd (h : ρ.Ok) (a b : End) : SameEnd (ρ.endp a) (ρ.endp b) ↔ SameEnd a b := by
  unfold SameEnd
  refine and_congr ?_ (and_congr ⟨fun e => h.table _ _ e, fun e => congrArg ρ.table e⟩ (mem_iff_map h _ _))
  exact ⟨fun x => Option.map_injective (fun a b => h.schema a b) x, fun x => congrArg (Option.map ρ.schema) x⟩

theorem core_same (h : ρ.Ok) (x y : End) :
    (∃ x' y', Unaliased (core ρ s) (ρ.endp x) x' ∧ Unaliased (core ρ s) (ρ.endp y) y' ∧ SameEnd x' y') ↔
    ∃ x' y', Unaliased s x x' ∧ Unaliased s y y' ∧ SameEnd x' y' := by
  constructor
  · rintro ⟨x', y', h1, h2, h3⟩
    obtain ⟨a, h1', rfl⟩ := (core_unaliased h _ _).1 h1
    obtain ⟨b, h2', rfl⟩ := (core_unaliased h _ _).1 h2
    exact ⟨a, b, h1', h2', (core_sameEnd h _ _).1 h3⟩
  · rintro ⟨a, b, h1, h2, h3⟩
    exact ⟨_, _, (core_unaliased h _ _).2 ⟨a, h1, rfl⟩, (core_unaliased h _ _).2 ⟨b, h2, rfl⟩, (core_sameEnd h _ _).2 h3⟩

theorem core_fkSide (k : Link) : fkSide (ρ.link k) = (fkSide k).map ρ.endp := by
  unfold fkSide Renaming.link; cases k.rel <;> rfl

theorem core_competes (h : ρ.Ok) (a b : Link) : Competes (core ρ s) (ρ.link a) (ρ.link b) ↔ Competes s a b := by
  unfold Competes
  refine or_congr ?_ (and_congr_right fun _ => and_congr_right fun _ => ?_)
  · rw [core_fkSide, core_fkSide]
    constructor
    · rintro ⟨x, y, x', y', hx, hy, hr⟩
      obtain ⟨x0, hx0, rfl⟩ := Option.map_eq_some_iff.1 hx
      obtain ⟨y0, hy0, rfl⟩ := Option.map_eq_some_iff.1 hy
      obtain ⟨u, v, hu⟩ := (core_same h x0 y0).1 ⟨x', y', hr⟩
      exact ⟨x0, y0, u, v, hx0, hy0, hu⟩
    · rintro ⟨x0, y0, x', y', hx, hy, hr⟩
      obtain ⟨u, v, hu⟩ := (core_same h x0 y0).2 ⟨x', y', hr⟩
      exact ⟨_, _, u, v, by rw [hx]; rfl, by rw [hy]; rfl, hu⟩
  · have e : ∀ k : Link, [(ρ.link k).lhs, (ρ.link k).rhs] = [k.lhs, k.rhs].map ρ.endp := fun _ => rfl
    rw [e, e]
    simp only [List.forall_mem_map, exists_map, core_same h]

theorem core_refsOk (h : ρ.Ok) : RefsOk (core ρ s) ↔ RefsOk s := by
  unfold RefsOk
  rw [core_links, List.pairwise_map]
  simp only [List.forall_mem_map, core_linkOk h, core_competes h]

theorem core_valid (h : ρ.Ok) : Valid (core ρ s) ↔ Valid s := by
  have ht : (∀ t ∈ (core ρ s).tables, TableOk t) ↔ ∀ t ∈ s.tables, TableOk t := by
    rw [core_tables]; simp only [List.forall_mem_map, core_tableOk h]
  have hc : (∀ c ∈ columns (core ρ s), ColumnOk (core ρ s) c) ↔ ∀ c ∈ columns s, ColumnOk s c := by
    rw [core_columns]; simp only [List.forall_mem_map, core_columnOk]
  constructor
  · intro v
    exact ⟨core_projectOk.1 v.project, core_settingsOk.1 v.settings, (core_tableNamesOk h).1 v.tableNames, core_enumNamesOk.1 v.enumNames,
      (core_groupsOk h).1 v.groups, ht.1 v.tables, hc.1 v.columns, (core_refsOk h).1 v.refs⟩
  · intro v
    exact ⟨core_projectOk.2 v.project, core_settingsOk.2 v.settings, (core_tableNamesOk h).2 v.tableNames, core_enumNamesOk.2 v.enumNames,
      (core_groupsOk h).2 v.groups, ht.2 v.tables, hc.2 v.columns, (core_refsOk h).2 v.refs⟩

end Dbml.Spec
