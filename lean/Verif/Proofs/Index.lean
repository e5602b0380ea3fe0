import Verif.Proofs.Outcome

/-!
# The indexing phase of the analyzer
-/

namespace Dbml
open Spec

section
variable {α : Type} [DecidableEq α] {β : Type}

theorem mapGet_insert (m : List (α × β)) (k k' : α) (v : β) :
    mapGet (mapInsert m k v) k' = if k' = k then some v else mapGet m k' := by
  unfold mapGet mapInsert
  rw [List.lookup_cons]
  by_cases h : k' = k
  · simp [h]
  · simp [h, beq_false_of_ne h]

@[simp] theorem mapGet_nil (k : α) : mapGet ([] : List (α × β)) k = none := rfl

end

theorem schemaOrDefault_eq (o : Option Ident) : schemaOrDefault o = schemaOf o := by
  cases o <;> rfl

theorem List.nodup_append_singleton {α : Type} {xs : List α} {a : α} :
    (xs ++ [a]).Nodup ↔ xs.Nodup ∧ a ∉ xs := by
  rw [List.nodup_append]
  simp only [List.mem_singleton]
  constructor
  · rintro ⟨h1, -, h2⟩
    exact ⟨h1, fun h => h2 a h a rfl rfl⟩
  · rintro ⟨h1, h2⟩
    refine ⟨h1, by simp, ?_⟩
    rintro x hx y rfl rfl
    exact h2 hx

/-- The table entry of the index. -/
def Indexer.table? (ix : Indexer) (k : Str × Str) : Option (List Str) :=
  (mapGet ix.schema_map k.1).bind fun b => mapGet b.table_map k.2
/-- The enum entry of the index. -/
def Indexer.enum? (ix : Indexer) (k : Str × Str) : Option (List Str) :=
  (mapGet ix.schema_map k.1).bind fun b => mapGet b.enum_map k.2

/-- What the index knows after the tables `ts` and the enums `es`. -/
structure Knows (ts : List TableBlock) (es : List EnumBlock) (ix : Indexer) : Prop where
  table_some : ∀ k cs, ix.table? k = some cs → ∃ t ∈ ts, tableKey t = k ∧ ∀ n, n ∈ cs ↔ n ∈ colNames t
  table_none : ∀ k, ix.table? k = none → ∀ t ∈ ts, tableKey t ≠ k
  enum_some : ∀ k vs, ix.enum? k = some vs →
    ∃ e ∈ es, enumKey e = k ∧ ∀ n, n ∈ vs ↔ n ∈ e.values.map (·.value.to_string)
  enum_none : ∀ k, ix.enum? k = none → ∀ e ∈ es, enumKey e ≠ k
  schema : ∀ n, (mapGet ix.schema_map n).isSome = true ↔
    (∃ t ∈ ts, (tableKey t).1 = n) ∨ ∃ e ∈ es, (enumKey e).1 = n
  alias_some : ∀ a k, mapGet ix.table_alias_map a = some k → ∃ t ∈ ts, aliasOf t = some a ∧ tableKey t = k
  alias_none : ∀ a, mapGet ix.table_alias_map a = none → ∀ t ∈ ts, aliasOf t ≠ some a

theorem Knows.empty : Knows [] [] {} := by
  constructor <;> intros <;> simp_all [Indexer.table?, Indexer.enum?]

theorem containsTable_eq (ix : Indexer) (sc n : Str) : ix.containsTable sc n = (ix.table? (sc, n)).isSome := by
  unfold Indexer.containsTable Indexer.table? mapContains
  cases mapGet ix.schema_map sc <;> rfl
theorem containsEnum_eq (ix : Indexer) (sc n : Str) : ix.containsEnum sc n = (ix.enum? (sc, n)).isSome := by
  unfold Indexer.containsEnum Indexer.enum? mapContains
  cases mapGet ix.schema_map sc <;> rfl

section
variable {s : SchemaBlock} {input : Str} {K : PanicSite → Prop}

theorem mem_tableAttrs {t : TableBlock} {as} (h : t.settings.map (·.attributes) = some as) : as ∈ tableAttrs t := by
  obtain ⟨st, h1, h2⟩ := Option.map_eq_some_iff.1 h
  simp [tableAttrs, h1, h2]
theorem mem_tableAttrs_col {t : TableBlock} {c} (hc : c ∈ t.cols) {as} (h : c.settings.map (·.attributes) = some as) :
    as ∈ tableAttrs t := by
  obtain ⟨st, h1, h2⟩ := Option.map_eq_some_iff.1 h
  refine List.mem_append_right _ (List.mem_flatMap.2 ⟨c, hc, ?_⟩)
  simp [h1, h2]
theorem mem_enumAttrs {e : EnumBlock} {v} (hv : v ∈ e.values) {as} (h : v.settings.map (·.attributes) = some as) :
    as ∈ enumAttrs e := by
  obtain ⟨st, h1, h2⟩ := Option.map_eq_some_iff.1 h
  exact List.mem_flatMap.2 ⟨v, hv, by simp [h1, h2]⟩
theorem mem_indexAttrs {t : TableBlock} {d} (hd : d ∈ defsOf t) {st} (h : d.settings = some st) :
    st.attributes ∈ indexAttrs t :=
  List.mem_flatMap.2 ⟨d, hd, by simp [h]⟩

theorem mem_checked_table {t : TableBlock} (ht : t ∈ s.tables) {as}
    (h : t.settings.map (·.attributes) = some as) : as ∈ structSettings s := by
  obtain ⟨st, h1, h2⟩ := Option.map_eq_some_iff.1 h
  simp only [structSettings, List.mem_append, List.mem_map, tableSettings, List.mem_filterMap]
  exact Or.inl (Or.inl (Or.inl ⟨st, ⟨t, ht, h1⟩, h2⟩))

theorem mem_columns {t : TableBlock} (ht : t ∈ s.tables) {c} (hc : c ∈ t.cols) : c ∈ columns s :=
  List.mem_flatMap.2 ⟨t, ht, hc⟩

theorem mem_checked_col {c : TableColumn} (hc : c ∈ columns s) {as}
    (h : c.settings.map (·.attributes) = some as) : as ∈ structSettings s := by
  obtain ⟨st, h1, h2⟩ := Option.map_eq_some_iff.1 h
  simp only [structSettings, List.mem_append, List.mem_map, columnSettings, List.mem_filterMap]
  exact Or.inl (Or.inl (Or.inr ⟨st, ⟨c, hc, h1⟩, h2⟩))

theorem mem_checked_enum {e : EnumBlock} (he : e ∈ s.enums) {v} (hv : v ∈ e.values) {as}
    (h : v.settings.map (·.attributes) = some as) : as ∈ structSettings s := by
  obtain ⟨st, h1, h2⟩ := Option.map_eq_some_iff.1 h
  simp only [structSettings, List.mem_append, List.mem_map, enumSettings, List.mem_filterMap, enumValues]
  exact Or.inl (Or.inr ⟨st, ⟨v, List.mem_flatMap.2 ⟨e, he, hv⟩, h1⟩, h2⟩)

theorem mem_checked_index {d : IndexesDef} (hd : d ∈ indexDefs s) {st} (h : d.settings = some st) :
    st.attributes ∈ structSettings s := by
  simp only [structSettings, List.mem_append, List.mem_map, indexSettings, List.mem_filterMap]
  exact Or.inr ⟨st, ⟨d, hd, h⟩, rfl⟩

/-- Settings of a column have distinct keys. -/
def ColKeysOk (c : TableColumn) : Prop := ∀ as, c.settings.map (·.attributes) = some as → DistinctKeys as

theorem indexCols_out {before : List TableBlock} {t : TableBlock} :
    Outcome input (fun idx => (∀ n, n ∈ idx ↔ n ∈ colNames t) ∧ (colNames t).Nodup ∧ ∀ c ∈ t.cols, ColKeysOk c)
      (TableDefect before t) K (Indexer.indexCols t.cols input) := by
  unfold Indexer.indexCols
  refine (Outcome.foldlM
    (Inv := fun pre idx => (∀ n, n ∈ idx ↔ n ∈ pre.map (·.name.to_string)) ∧
      (pre.map (·.name.to_string)).Nodup ∧ ∀ c ∈ pre, ColKeysOk c)
    t.cols [] (by simp) ?_)
  rintro pre c post idx hs ⟨h1, h2, h3⟩
  have hc : c ∈ t.cols := by simp [hs]
  refine (checkSettings_out fun as a h4 h5 =>
    .attr (mem_tableAttrs_col hc h4) h5).bind fun _ hk => ?_
  refine Outcome.ite (fun h => ?_) fun h => ?_
  · rw [List.contains_iff_mem, h1] at h
    obtain ⟨c', hc', he⟩ := List.mem_map.1 h
    exact Outcome.throw (.columnName ⟨pre, post, hs, c', hc', he⟩)
  · rw [List.contains_iff_mem, h1] at h
    refine ⟨fun n => ?_, ?_, ?_⟩
    · simp [h1, or_comm]
    · rw [List.map_append]; exact List.nodup_append_singleton.2 ⟨h2, h⟩
    · simp only [List.mem_append, List.mem_singleton]
      rintro x (hx | rfl)
      · exact h3 x hx
      · exact hk

/-- Distinct setting keys of a table and of its columns. -/
def TableKeysOk (t : TableBlock) : Prop :=
  (∀ as, t.settings.map (·.attributes) = some as → DistinctKeys as) ∧ ∀ c ∈ t.cols, ColKeysOk c

/-- What holds after the tables `ts`. -/
structure TInv (ts : List TableBlock) (ix : Indexer) : Prop where
  knows : Knows ts [] ix
  names : (ts.map tableKey).Nodup
  aliases : (ts.filterMap aliasOf).Nodup
  cols : ∀ t ∈ ts, (colNames t).Nodup
  keys : ∀ t ∈ ts, TableKeysOk t
  groups : ix.table_group_map = []

theorem table?_insert (ix : Indexer) (sc n : Str) (cs : List Str) (k : Str × Str)
    (ix' : Indexer) (h : ix'.schema_map = mapInsert ix.schema_map sc
      { ix.schemaBlock sc with table_map := mapInsert (ix.schemaBlock sc).table_map n cs }) :
    ix'.table? k = if k = (sc, n) then some cs else ix.table? k := by
  unfold Indexer.table?
  rw [h, mapGet_insert]
  obtain ⟨k1, k2⟩ := k
  simp only [Prod.mk.injEq]
  by_cases h1 : k1 = sc
  · subst h1
    simp only [if_true, Option.bind_some, mapGet_insert, true_and]
    by_cases h2 : k2 = n
    · simp [h2]
    · simp only [h2, if_false, Indexer.schemaBlock]
      cases mapGet ix.schema_map k1 <;> rfl
  · simp [h1]

theorem table?_insert_enum (ix : Indexer) (sc n : Str) (cs : List Str) (k : Str × Str)
    (ix' : Indexer) (h : ix'.schema_map = mapInsert ix.schema_map sc
      { ix.schemaBlock sc with enum_map := mapInsert (ix.schemaBlock sc).enum_map n cs }) :
    ix'.table? k = ix.table? k := by
  unfold Indexer.table?
  rw [h, mapGet_insert]
  obtain ⟨k1, k2⟩ := k
  by_cases h1 : k1 = sc
  · subst h1
    simp only [if_true, Option.bind_some, Indexer.schemaBlock]
    cases mapGet ix.schema_map k1 <;> rfl
  · simp [h1]

theorem enum?_insert (ix : Indexer) (sc n : Str) (cs : List Str) (k : Str × Str)
    (ix' : Indexer) (h : ix'.schema_map = mapInsert ix.schema_map sc
      { ix.schemaBlock sc with enum_map := mapInsert (ix.schemaBlock sc).enum_map n cs }) :
    ix'.enum? k = if k = (sc, n) then some cs else ix.enum? k := by
  unfold Indexer.enum?
  rw [h, mapGet_insert]
  obtain ⟨k1, k2⟩ := k
  simp only [Prod.mk.injEq]
  by_cases h1 : k1 = sc
  · subst h1
    simp only [if_true, Option.bind_some, mapGet_insert, true_and]
    by_cases h2 : k2 = n
    · simp [h2]
    · simp only [h2, if_false, Indexer.schemaBlock]
      cases mapGet ix.schema_map k1 <;> rfl
  · simp [h1]

theorem enum?_insert_table (ix : Indexer) (sc n : Str) (cs : List Str) (k : Str × Str)
    (ix' : Indexer) (h : ix'.schema_map = mapInsert ix.schema_map sc
      { ix.schemaBlock sc with table_map := mapInsert (ix.schemaBlock sc).table_map n cs }) :
    ix'.enum? k = ix.enum? k := by
  unfold Indexer.enum?
  rw [h, mapGet_insert]
  obtain ⟨k1, k2⟩ := k
  by_cases h1 : k1 = sc
  · subst h1
    simp only [if_true, Option.bind_some, Indexer.schemaBlock]
    cases mapGet ix.schema_map k1 <;> rfl
  · simp [h1]

/-- Adding a table. -/
theorem Knows.addTable {ts es ix} (hk : Knows ts es ix) {t : TableBlock} {cs : List Str} {ix' : Indexer}
    (hcs : ∀ n, n ∈ cs ↔ n ∈ colNames t)
    (h1 : ix'.schema_map = mapInsert ix.schema_map (tableKey t).1
      { ix.schemaBlock (tableKey t).1 with
        table_map := mapInsert (ix.schemaBlock (tableKey t).1).table_map (tableKey t).2 cs })
    (h2 : ∀ a, mapGet ix'.table_alias_map a =
      if aliasOf t = some a then some (tableKey t) else mapGet ix.table_alias_map a) :
    Knows (ts ++ [t]) es ix' where
  table_some := by
    intro k cs' h
    rw [table?_insert _ _ _ _ _ _ h1] at h
    split at h
    · rename_i hk'
      cases h
      exact ⟨t, by simp, hk'.symm, hcs⟩
    · obtain ⟨t', ht', h3⟩ := hk.table_some _ _ h
      exact ⟨t', by simp [ht'], h3⟩
  table_none := by
    intro k h
    rw [table?_insert _ _ _ _ _ _ h1] at h
    split at h
    · cases h
    · rename_i hk'
      simp only [List.mem_append, List.mem_singleton]
      rintro t' (ht' | rfl)
      · exact hk.table_none _ h _ ht'
      · exact fun he => hk' he.symm
  enum_some := by
    intro k vs h
    rw [enum?_insert_table _ _ _ _ _ _ h1] at h
    exact hk.enum_some _ _ h
  enum_none := by
    intro k h
    rw [enum?_insert_table _ _ _ _ _ _ h1] at h
    exact hk.enum_none _ h
  schema := by
    intro n
    rw [h1, mapGet_insert]
    simp only [List.mem_append, List.mem_singleton]
    split
    · rename_i hn
      simp only [Option.isSome_some, true_iff]
      exact Or.inl ⟨t, by simp, hn.symm⟩
    · rename_i hn
      rw [hk.schema]
      constructor
      · rintro (⟨x, hx, h⟩ | h)
        · exact Or.inl ⟨x, by simp [hx], h⟩
        · exact Or.inr h
      · rintro (⟨x, hx | rfl, h⟩ | h)
        · exact Or.inl ⟨x, hx, h⟩
        · exact absurd h.symm hn
        · exact Or.inr h
  alias_some := by
    intro a k h
    rw [h2] at h
    split at h
    · rename_i ha
      cases h
      exact ⟨t, by simp, ha, rfl⟩
    · obtain ⟨t', ht', h3⟩ := hk.alias_some _ _ h
      exact ⟨t', by simp [ht'], h3⟩
  alias_none := by
    intro a h
    rw [h2] at h
    split at h
    · cases h
    · rename_i ha
      simp only [List.mem_append, List.mem_singleton]
      rintro t' (ht' | rfl)
      · exact hk.alias_none _ h _ ht'
      · exact ha

theorem indexTable1_out {pre : List TableBlock} {t : TableBlock} {ix : Indexer} (hi : TInv pre ix) :
    Outcome input (TInv (pre ++ [t])) (TableDefect pre t) K (ix.indexTable1 t input) := by
  unfold Indexer.indexTable1
  refine (checkSettings_out fun as a h4 h5 => .attr (mem_tableAttrs h4) h5).bind fun _ hst => ?_
  refine Outcome.ite (fun h => ?_) fun h => ?_
  · rw [containsTable_eq, schemaOrDefault_eq] at h
    obtain ⟨cs, hcs⟩ := Option.isSome_iff_exists.1 h
    obtain ⟨t', ht', he, -⟩ := hi.knows.table_some _ _ hcs
    exact Outcome.throw (.tableName ht' he)
  rw [containsTable_eq, schemaOrDefault_eq, Bool.not_eq_true, Option.isSome_eq_false_iff, Option.isNone_iff_eq_none] at h
  refine indexCols_out.bind fun cs hcs => ?_
  obtain ⟨hc1, hc2, hc3⟩ := hcs
  have hname : ((pre ++ [t]).map tableKey).Nodup := by
    rw [List.map_append]
    refine List.nodup_append_singleton.2 ⟨hi.names, ?_⟩
    intro hm
    obtain ⟨t', ht', he⟩ := List.mem_map.1 hm
    exact hi.knows.table_none _ h _ ht' he
  have hcols : ∀ x ∈ pre ++ [t], (colNames x).Nodup := by
    simp only [List.mem_append, List.mem_singleton]
    rintro x (hx | rfl)
    · exact hi.cols x hx
    · exact hc2
  have hkeys : ∀ x ∈ pre ++ [t], TableKeysOk x := by
    simp only [List.mem_append, List.mem_singleton]
    rintro x (hx | rfl)
    · exact hi.keys x hx
    · exact ⟨hst, hc3⟩
  simp only [schemaOrDefault_eq]
  split
  · rename_i al hal
    have haliasOf : aliasOf t = some al.to_string := by simp [aliasOf, hal]
    refine Outcome.ite (fun ha => ?_) fun ha => ?_
    · unfold mapContains at ha
      obtain ⟨k, hk⟩ := Option.isSome_iff_exists.1 ha
      obtain ⟨t', ht', he, -⟩ := hi.knows.alias_some _ _ hk
      exact Outcome.throw (.alias ht' he hal)
    · unfold mapContains at ha
      rw [Bool.not_eq_true, Option.isSome_eq_false_iff, Option.isNone_iff_eq_none] at ha
      refine ⟨hi.knows.addTable hc1 rfl ?_, hname, ?_, hcols, hkeys, hi.groups⟩
      · intro a
        rw [mapGet_insert, haliasOf]
        by_cases h' : a = al.to_string
        · subst h'; simp; rfl
        · rw [if_neg h', if_neg (fun h => h' (Option.some.inj h).symm)]
      · rw [List.filterMap_append]
        have : List.filterMap aliasOf [t] = [al.to_string] := by simp [haliasOf]
        rw [this]
        refine List.nodup_append_singleton.2 ⟨hi.aliases, ?_⟩
        intro hm
        obtain ⟨t', ht', he⟩ := List.mem_filterMap.1 hm
        exact hi.knows.alias_none _ ha _ ht' he
  · rename_i hal
    have haliasOf : aliasOf t = none := by simp [aliasOf, hal]
    refine ⟨hi.knows.addTable hc1 rfl ?_, hname, ?_, hcols, hkeys, hi.groups⟩
    · intro a
      simp [haliasOf]
    · rw [List.filterMap_append]
      have : List.filterMap aliasOf [t] = [] := by simp [haliasOf]
      rw [this, List.append_nil]
      exact hi.aliases

theorem TInv.ok {ts ix} (h : TInv ts ix) : TablesOk ts := by
  refine ⟨h.names, h.aliases, h.cols, fun t ht as has => ?_⟩
  rcases List.mem_append.1 has with has | has
  · obtain ⟨st, hst, rfl⟩ := List.mem_map.1 has
    exact (h.keys t ht).1 _ (by rw [Option.mem_toList.1 hst]; rfl)
  · obtain ⟨c, hc, has⟩ := List.mem_flatMap.1 has
    obtain ⟨st, hst, rfl⟩ := List.mem_map.1 has
    exact (h.keys t ht).2 c hc _ (by rw [Option.mem_toList.1 hst]; rfl)

theorem indexTable_out : Outcome input (TInv s.tables)
    (fun e sp => ∃ pre t post, s.tables = pre ++ t :: post ∧ TablesOk pre ∧ TableDefect pre t e sp) K
    (Indexer.indexTable {} s.tables input) :=
  (Outcome.foldlM_first (Inv := TInv) (E := TableDefect) s.tables {}
    ⟨Knows.empty, by simp, by simp, by simp, by simp, rfl⟩ fun _ _ _ _ _ hi => indexTable1_out hi).mono (fun _ h => h)
    (fun _ _ ⟨pre, t, post, h1, ⟨_, h2⟩, h3⟩ => ⟨pre, t, post, h1, h2.ok, h3⟩) fun _ h => h

/-! ## Enums -/

/-- Distinct setting keys of the values of an enum. -/
def EnumKeysOk (e : EnumBlock) : Prop :=
  ∀ v ∈ e.values, ∀ as, v.settings.map (·.attributes) = some as → DistinctKeys as

theorem indexEnumValues_out {before : List EnumBlock} {e : EnumBlock} :
    Outcome input (fun idx => (∀ n, n ∈ idx ↔ n ∈ e.values.map (·.value.to_string)) ∧
        (e.values.map (·.value.to_string)).Nodup ∧ EnumKeysOk e)
      (EnumDefect before e) K (Indexer.indexEnumValues e.values input) := by
  unfold Indexer.indexEnumValues
  refine (Outcome.foldlM
    (Inv := fun pre idx => (∀ n, n ∈ idx ↔ n ∈ pre.map (·.value.to_string)) ∧
      (pre.map (·.value.to_string)).Nodup ∧
      ∀ v ∈ pre, ∀ as, v.settings.map (·.attributes) = some as → DistinctKeys as)
    e.values [] (by simp) ?_)
  rintro pre v post idx hs ⟨h1, h2, h3⟩
  have hv : v ∈ e.values := by simp [hs]
  refine (checkSettings_out fun as a h4 h5 => .attr (mem_enumAttrs hv h4) h5).bind fun _ hk => ?_
  refine Outcome.ite (fun h => ?_) fun h => ?_
  · rw [List.contains_iff_mem, h1] at h
    obtain ⟨c', hc', he'⟩ := List.mem_map.1 h
    exact Outcome.throw (.enumValue ⟨pre, post, hs, c', hc', he'⟩)
  · rw [List.contains_iff_mem, h1] at h
    refine ⟨fun n => ?_, ?_, ?_⟩
    · simp [h1, or_comm]
    · rw [List.map_append]; exact List.nodup_append_singleton.2 ⟨h2, h⟩
    · simp only [List.mem_append, List.mem_singleton]
      rintro x (hx | rfl)
      · exact h3 x hx
      · exact hk

/-- What holds after all tables and the enums `es`. -/
structure EInv (ts : List TableBlock) (es : List EnumBlock) (ix : Indexer) : Prop where
  knows : Knows ts es ix
  names : (es.map enumKey).Nodup
  values : ∀ e ∈ es, (e.values.map (·.value.to_string)).Nodup
  keys : ∀ e ∈ es, EnumKeysOk e
  groups : ix.table_group_map = []

theorem Knows.addEnum {ts es ix} (hk : Knows ts es ix) {e : EnumBlock} {cs : List Str} {ix' : Indexer}
    (hcs : ∀ n, n ∈ cs ↔ n ∈ e.values.map (·.value.to_string))
    (h1 : ix'.schema_map = mapInsert ix.schema_map (enumKey e).1
      { ix.schemaBlock (enumKey e).1 with
        enum_map := mapInsert (ix.schemaBlock (enumKey e).1).enum_map (enumKey e).2 cs })
    (h2 : ix'.table_alias_map = ix.table_alias_map) :
    Knows ts (es ++ [e]) ix' where
  enum_some := by
    intro k cs' h
    rw [enum?_insert _ _ _ _ _ _ h1] at h
    split at h
    · rename_i hk'
      cases h
      exact ⟨e, by simp, hk'.symm, hcs⟩
    · obtain ⟨t', ht', h3⟩ := hk.enum_some _ _ h
      exact ⟨t', by simp [ht'], h3⟩
  enum_none := by
    intro k h
    rw [enum?_insert _ _ _ _ _ _ h1] at h
    split at h
    · cases h
    · rename_i hk'
      simp only [List.mem_append, List.mem_singleton]
      rintro t' (ht' | rfl)
      · exact hk.enum_none _ h _ ht'
      · exact fun he => hk' he.symm
  table_some := by
    intro k vs h
    rw [table?_insert_enum _ _ _ _ _ _ h1] at h
    exact hk.table_some _ _ h
  table_none := by
    intro k h
    rw [table?_insert_enum _ _ _ _ _ _ h1] at h
    exact hk.table_none _ h
  schema := by
    intro n
    rw [h1, mapGet_insert]
    simp only [List.mem_append, List.mem_singleton]
    split
    · rename_i hn
      simp only [Option.isSome_some, true_iff]
      exact Or.inr ⟨e, by simp, hn.symm⟩
    · rename_i hn
      rw [hk.schema]
      constructor
      · rintro (h | ⟨x, hx, h⟩)
        · exact Or.inl h
        · exact Or.inr ⟨x, by simp [hx], h⟩
      · rintro (h | ⟨x, hx | rfl, h⟩)
        · exact Or.inl h
        · exact Or.inr ⟨x, hx, h⟩
        · exact absurd h.symm hn
  alias_some := by rw [h2]; exact hk.alias_some
  alias_none := by rw [h2]; exact hk.alias_none

theorem indexEnum1_out {ts} {pre : List EnumBlock} {e : EnumBlock} {ix : Indexer} (hi : EInv ts pre ix) :
    Outcome input (EInv ts (pre ++ [e])) (EnumDefect pre e) K (ix.indexEnum1 e input) := by
  unfold Indexer.indexEnum1
  refine Outcome.ite (fun h => ?_) fun h => ?_
  · rw [containsEnum_eq, schemaOrDefault_eq] at h
    obtain ⟨cs, hcs⟩ := Option.isSome_iff_exists.1 h
    obtain ⟨t', ht', he', -⟩ := hi.knows.enum_some _ _ hcs
    exact Outcome.throw (.enumName ht' he')
  rw [containsEnum_eq, schemaOrDefault_eq, Bool.not_eq_true, Option.isSome_eq_false_iff, Option.isNone_iff_eq_none] at h
  refine indexEnumValues_out.bind fun cs hcs => ?_
  obtain ⟨hc1, hc2, hc3⟩ := hcs
  simp only [schemaOrDefault_eq]
  refine ⟨hi.knows.addEnum hc1 rfl rfl, ?_, ?_, ?_, hi.groups⟩
  · rw [List.map_append]
    refine List.nodup_append_singleton.2 ⟨hi.names, ?_⟩
    intro hm
    obtain ⟨t', ht', he⟩ := List.mem_map.1 hm
    exact hi.knows.enum_none _ h _ ht' he
  · simp only [List.mem_append, List.mem_singleton]
    rintro x (hx | rfl)
    · exact hi.values x hx
    · exact hc2
  · simp only [List.mem_append, List.mem_singleton]
    rintro x (hx | rfl)
    · exact hi.keys x hx
    · exact hc3

theorem EInv.ok {ts es ix} (h : EInv ts es ix) : EnumsOk es := by
  refine ⟨h.names, h.values, fun e he as has => ?_⟩
  obtain ⟨v, hv, has⟩ := List.mem_flatMap.1 has
  obtain ⟨st, hst, rfl⟩ := List.mem_map.1 has
  exact h.keys e he v hv _ (by rw [Option.mem_toList.1 hst]; rfl)

theorem indexEnums_out {ts ix} (hk : Knows ts [] ix) (hg : ix.table_group_map = []) :
    Outcome input (EInv ts s.enums)
      (fun e sp => ∃ pre d post, s.enums = pre ++ d :: post ∧ EnumsOk pre ∧ EnumDefect pre d e sp) K
      (ix.indexEnums s.enums input) :=
  (Outcome.foldlM_first (Inv := EInv ts) (E := EnumDefect) s.enums ix
    ⟨hk, by simp, by simp, by simp, hg⟩ fun _ _ _ _ _ hi => indexEnum1_out hi).mono (fun _ h => h)
    (fun _ _ ⟨pre, t, post, h1, ⟨_, h2⟩, h3⟩ => ⟨pre, t, post, h1, h2.ok, h3⟩) fun _ h => h

/-! ## Table groups -/

/-- The index has everything that the schema declares. -/
abbrev Indexed (s : SchemaBlock) (ix : Indexer) : Prop := Knows s.tables s.enums ix

theorem groupItem_out {ix} (hk : Indexed s ix) {before} {g : TableGroupBlock}
    {i : TableGroupItem} (hi : i ∈ g.items) :
    Outcome input (GroupTarget s i) (GroupDefect s before g) K (ix.groupItemIdent i input) := by
  unfold Indexer.groupItemIdent
  split
  · rename_i sc hsc
    simp [Outcome, GroupTarget, hsc]
  · rename_i hsc
    split
    · rename_i k hr
      unfold Indexer.resolveAlias at hr
      obtain ⟨t, ht, h1, h2⟩ := hk.alias_some _ _ hr
      simp only [Outcome, GroupTarget, hsc]
      exact Or.inl ⟨t, ⟨ht, h1⟩, h2.symm⟩
    · rename_i hr
      have hna : ∀ t, ¬ IsAlias s i.ident_alias.to_string t := fun t h => hk.alias_none _ hr t h.1 h.2
      refine Outcome.ite (fun h => ?_) fun h => ?_
      · rw [containsTable_eq] at h
        obtain ⟨cs, hcs⟩ := Option.isSome_iff_exists.1 h
        obtain ⟨t', ht', he, -⟩ := hk.table_some _ _ hcs
        simp only [Outcome, GroupTarget, hsc]
        exact Or.inr ⟨hna, rfl, t', ht', he⟩
      · rw [containsTable_eq, Bool.not_eq_true, Option.isSome_eq_false_iff, Option.isNone_iff_eq_none] at h
        refine Outcome.throw (.groupItemNotFound hi hsc ?_)
        intro k hkt
        simp only [GroupTarget, hsc] at hkt
        rcases hkt with ⟨t, h1, -⟩ | ⟨-, rfl, t, h1, h2⟩
        · exact hna t h1
        · exact hk.table_none _ h t h1 h2

theorem Spec.GroupTargets.append {s : SchemaBlock} {is ks is' ks'} (h : GroupTargets s is ks) (h' : GroupTargets s is' ks') :
    GroupTargets s (is ++ is') (ks ++ ks') := by
  induction h with
  | nil => exact h'
  | cons h1 _ ih => exact .cons h1 ih

theorem Spec.GroupTargets.mem {s : SchemaBlock} {is ks} (h : GroupTargets s is ks) {k} (hk : k ∈ ks) :
    ∃ i ∈ is, GroupTarget s i k := by
  induction h with
  | nil => simp at hk
  | cons h1 _ ih =>
    rcases List.mem_cons.1 hk with rfl | hk
    · exact ⟨_, by simp, h1⟩
    · obtain ⟨i, hi, h2⟩ := ih hk
      exact ⟨i, by simp [hi], h2⟩

theorem indexGroupItems_out {ix} (hk : Indexed s ix) {before} {g : TableGroupBlock} :
    Outcome input (fun _ => ∃ ks, GroupTargets s g.items ks ∧ ks.Nodup) (GroupDefect s before g) K
      (ix.indexGroupItems g.items input) := by
  unfold Indexer.indexGroupItems
  refine (Outcome.foldlM
    (Inv := fun pre idx => ∃ ks, GroupTargets s pre ks ∧ ks.Nodup ∧ ∀ k, k ∈ idx ↔ k ∈ ks) g.items []
    ⟨[], .nil, by simp, by simp⟩ ?_).mono (fun _ ⟨ks, h1, h2, _⟩ => ⟨ks, h1, h2⟩) (fun _ _ h => h) fun _ h => h
  rintro pre i post idx hs ⟨ks, h1, h2, h3⟩
  refine (groupItem_out hk (by simp [hs])).bind fun k hkt => ?_
  refine Outcome.ite (fun h => ?_) fun h => ?_
  · rw [List.contains_iff_mem, h3] at h
    obtain ⟨j, hj, hjt⟩ := GroupTargets.mem h1 h
    exact Outcome.throw (.groupItem hs hj hjt hkt)
  · rw [List.contains_iff_mem, h3] at h
    refine ⟨ks ++ [k], GroupTargets.append h1 (.cons hkt .nil), List.nodup_append_singleton.2 ⟨h2, h⟩, ?_⟩
    intro x
    simp [h3, or_comm]

/-- What holds after the groups `gs`. -/
structure GInv (s : SchemaBlock) (gs : List TableGroupBlock) (ix : Indexer) : Prop where
  knows : Indexed s ix
  names : (gs.map (·.ident.to_string)).Nodup
  items : ∀ g ∈ gs, ∃ ks, GroupTargets s g.items ks ∧ ks.Nodup
  map : ∀ n, (mapGet ix.table_group_map n).isSome = true ↔ n ∈ gs.map (·.ident.to_string)

theorem indexGroup1_out {pre : List TableGroupBlock} {g : TableGroupBlock} {ix : Indexer} (hi : GInv s pre ix) :
    Outcome input (GInv s (pre ++ [g])) (GroupDefect s pre g) K (ix.indexTableGroup1 g input) := by
  unfold Indexer.indexTableGroup1
  refine Outcome.ite (fun h => ?_) fun h => ?_
  · unfold mapContains at h
    rw [hi.map] at h
    obtain ⟨c', hc', he'⟩ := List.mem_map.1 h
    exact Outcome.throw (.groupName hc' he')
  · unfold mapContains at h
    rw [hi.map] at h
    refine (indexGroupItems_out hi.knows).bind fun items hit => ?_
    have hk := hi.knows
    refine ⟨⟨hk.table_some, hk.table_none, hk.enum_some, hk.enum_none, hk.schema, hk.alias_some, hk.alias_none⟩,
      ?_, ?_, ?_⟩
    · rw [List.map_append]; exact List.nodup_append_singleton.2 ⟨hi.names, h⟩
    · simp only [List.mem_append, List.mem_singleton]
      rintro x (hx | rfl)
      · exact hi.items x hx
      · exact hit
    · intro n
      rw [mapGet_insert]
      split
      · rename_i hn; simp [hn]
      · rename_i hn
        rw [hi.map]
        simp [hn]

theorem indexGroups_out {ix} (hk : Indexed s ix) (hg : ix.table_group_map = []) :
    Outcome input (GInv s s.table_groups)
      (fun e sp => ∃ pre g post, s.table_groups = pre ++ g :: post ∧ TableGroupsOk s pre ∧ GroupDefect s pre g e sp) K
      (ix.indexTableGroups s.table_groups input) :=
  (Outcome.foldlM_first (Inv := GInv s) (E := GroupDefect s) s.table_groups ix
    ⟨hk, by simp, by simp, by simp [hg]⟩ fun _ _ _ _ _ hi => indexGroup1_out hi).mono (fun _ h => h)
    (fun _ _ ⟨pre, t, post, h1, ⟨_, h2⟩, h3⟩ => ⟨pre, t, post, h1, ⟨h2.names, h2.items⟩, h3⟩) fun _ h => h

end

end Dbml
