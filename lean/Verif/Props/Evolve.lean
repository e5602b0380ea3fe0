import Verif.Props.Editing

/-!
# C66: changing the columns of a table and the values of an enum
-/

namespace Dbml.Props

open Dbml Spec Source

variable {s S : SchemaBlock}

/-! ## One table changed -/

/-- `S` is `s` with the table `t` replaced by `T`, which has the same name, alias, settings and indexes; columns and
note may differ. -/
structure SwapTable (s S : SchemaBlock) (t T : TableBlock) : Prop where
  blocks : ∃ b1 b2, s.blocks = b1 ++ .table t :: b2 ∧ S.blocks = b1 ++ .table T :: b2
  ident : T.ident = t.ident
  settings : T.settings = t.settings
  indexes : T.indexes = t.indexes

/-- The references written in the columns of a table. -/
def tableLinks (t : TableBlock) : List Link :=
  t.cols.flatMap fun c => (c.settings.toList.flatMap (·.refs)).map fun r =>
    { rel := r.rel, rhs := endOf r.rhs
      lhs := { schema := t.ident.schema.map (·.to_string), table := t.ident.name.to_string,
               cols := [c.name.to_string] } }

namespace SwapTable
variable {t T : TableBlock}

theorem symm (h : SwapTable s S t T) : SwapTable S s T t :=
  ⟨by obtain ⟨b1, b2, h1, h2⟩ := h.blocks; exact ⟨b1, b2, h2, h1⟩, h.ident.symm, h.settings.symm, h.indexes.symm⟩

theorem tables (h : SwapTable s S t T) : ∃ l1 l2, s.tables = l1 ++ t :: l2 ∧ S.tables = l1 ++ T :: l2 := by
  obtain ⟨b1, b2, h1, h2⟩ := h.blocks
  refine ⟨({ blocks := b1 } : SchemaBlock).tables, ({ blocks := b2 } : SchemaBlock).tables, ?_, ?_⟩
  · unfold SchemaBlock.tables; rw [h1, List.filterMap_append]; rfl
  · unfold SchemaBlock.tables; rw [h2, List.filterMap_append]; rfl

theorem projects (h : SwapTable s S t T) : S.projects = s.projects := by
  obtain ⟨b1, b2, h1, h2⟩ := h.blocks
  unfold SchemaBlock.projects; rw [h1, h2, List.filterMap_append, List.filterMap_append]; rfl

theorem enums (h : SwapTable s S t T) : S.enums = s.enums := by
  obtain ⟨b1, b2, h1, h2⟩ := h.blocks
  unfold SchemaBlock.enums; rw [h1, h2, List.filterMap_append, List.filterMap_append]; rfl

theorem groups (h : SwapTable s S t T) : S.table_groups = s.table_groups := by
  obtain ⟨b1, b2, h1, h2⟩ := h.blocks
  unfold SchemaBlock.table_groups; rw [h1, h2, List.filterMap_append, List.filterMap_append]; rfl

theorem refs (h : SwapTable s S t T) : S.refs = s.refs := by
  obtain ⟨b1, b2, h1, h2⟩ := h.blocks
  unfold SchemaBlock.refs; rw [h1, h2, List.filterMap_append, List.filterMap_append]; rfl

theorem key (h : SwapTable s S t T) : tableKey T = tableKey t := by unfold tableKey; rw [h.ident]
theorem aliasEq (h : SwapTable s S t T) : aliasOf T = aliasOf t := by unfold aliasOf; rw [h.ident]
theorem defs (h : SwapTable s S t T) : defsOf T = defsOf t := by unfold defsOf; rw [h.indexes]

/-- A table before, and what it is after. -/
theorem table (h : SwapTable s S t T) {x : TableBlock} (hx : x ∈ s.tables) :
    ∃ y ∈ S.tables, y = x ∨ (x = t ∧ y = T) := by
  obtain ⟨l1, l2, h1, h2⟩ := h.tables
  rw [h1] at hx
  rw [h2]
  simp only [List.mem_append, List.mem_cons] at hx ⊢
  rcases hx with hx | rfl | hx
  · exact ⟨x, .inl hx, .inl rfl⟩
  · exact ⟨T, .inr (.inl rfl), .inr ⟨rfl, rfl⟩⟩
  · exact ⟨x, .inr (.inr hx), .inl rfl⟩

theorem mem_left (h : SwapTable s S t T) : t ∈ s.tables := by
  obtain ⟨l1, l2, h1, -⟩ := h.tables
  rw [h1]; simp

theorem isAlias (h : SwapTable s S t T) {a : Str} {x : TableBlock} (hx : IsAlias s a x) :
    ∃ y, IsAlias S a y ∧ tableKey y = tableKey x := by
  obtain ⟨y, hy, rfl | ⟨rfl, rfl⟩⟩ := h.table hx.1
  · exact ⟨y, ⟨hy, hx.2⟩, rfl⟩
  · exact ⟨y, ⟨hy, h.aliasEq.trans hx.2⟩, h.key⟩

theorem unaliased (h : SwapTable s S t T) {e e' : End} (hu : Unaliased s e e') : Unaliased S e e' := by
  rcases hu with ⟨x, hx, rfl⟩ | ⟨hn, rfl⟩
  · obtain ⟨y, hy, hk⟩ := h.isAlias hx
    exact .inl ⟨y, hy, by rw [hk]⟩
  · refine .inr ⟨fun y hy => ?_, rfl⟩
    obtain ⟨x, hx, -⟩ := h.symm.isAlias hy
    exact hn x hx

theorem groupTarget (h : SwapTable s S t T) {i : TableGroupItem} {k : Str × Str} (hg : GroupTarget s i k) :
    GroupTarget S i k := by
  unfold GroupTarget at hg ⊢
  cases hi : i.schema with
  | some sc => simpa [hi] using hg
  | none =>
    simp only [hi] at hg ⊢
    rcases hg with ⟨x, hx, rfl⟩ | ⟨hn, hk, x, hx, hxk⟩
    · obtain ⟨y, hy, hk⟩ := h.isAlias hx
      exact .inl ⟨y, hy, hk.symm⟩
    · refine .inr ⟨fun y hy => ?_, hk, ?_⟩
      · obtain ⟨x, hx, -⟩ := h.symm.isAlias hy
        exact hn x hx
      · obtain ⟨y, hy, rfl | ⟨rfl, rfl⟩⟩ := h.table hx
        · exact ⟨y, hy, hxk⟩
        · exact ⟨y, hy, h.key.trans hxk⟩

theorem competes (h : SwapTable s S t T) {a b : Link} (hc : Competes s a b) : Competes S a b := by
  rcases hc with ⟨x, y, x', y', hx, hy, h1, h2, h3⟩ | ⟨h1, h2, h3⟩
  · exact .inl ⟨x, y, x', y', hx, hy, h.unaliased h1, h.unaliased h2, h3⟩
  · refine .inr ⟨h1, h2, fun x hx => ?_⟩
    obtain ⟨y, hy, x', y', h4, h5, h6⟩ := h3 x hx
    exact ⟨y, hy, x', y', h.unaliased h4, h.unaliased h5, h6⟩

theorem names (h : SwapTable s S t T) {e : End} {x : TableBlock} (hn : Names s e x) :
    ∃ y, Names S e y ∧ (y = x ∨ (x = t ∧ y = T)) := by
  obtain ⟨y, hy, hxy⟩ := h.table hn.1
  refine ⟨y, ⟨hy, ?_⟩, hxy⟩
  rcases hxy with rfl | ⟨rfl, rfl⟩
  · exact hn.2
  · rw [h.ident]; exact hn.2

end SwapTable

theorem colNames_iff {t : TableBlock} {n : Str} : n ∈ colNames t ↔ ∃ c, IsColumn t n c := by
  simp [colNames, IsColumn]

theorem keyOk_of {rel : Relation} {tl tr tl' tr' : TableBlock} {lc rc : List Str}
    (hl : ∀ n ∈ lc, SingleKey tl n → SingleKey tl' n) (hr : ∀ n ∈ rc, SingleKey tr n → SingleKey tr' n)
    (dl : defsOf tl' = defsOf tl) (dr : defsOf tr' = defsOf tr) (h : KeyOk rel tl tr lc rc) :
    KeyOk rel tl' tr' lc rc := by
  have cl : ∀ cols, CompositeKey tl' cols ↔ CompositeKey tl cols := fun cols => by unfold CompositeKey; rw [dl]
  have cr : ∀ cols, CompositeKey tr' cols ↔ CompositeKey tr cols := fun cols => by unfold CompositeKey; rw [dr]
  rcases lc with _ | ⟨l, _ | ⟨l', ls⟩⟩ <;> rcases rc with _ | ⟨r, _ | ⟨r', rs⟩⟩ <;> cases rel <;>
    simp only [KeyOk, cl, cr] at h ⊢ <;>
    first
      | exact h
      | exact hl _ (by simp) h
      | exact hr _ (by simp) h
      | exact h.imp (hl _ (by simp)) (hr _ (by simp))

/-- A reference stays valid if the columns it names stay. -/
theorem SwapTable.linkOk {t T : TableBlock} (h : SwapTable s S t T) {k : Link}
    (hc : ∀ e ∈ [k.lhs, k.rhs], ∀ e', Unaliased s e e' → Names s e' t → ∀ n ∈ e.cols, ∀ c,
      IsColumn T n c ↔ IsColumn t n c) (hk : LinkOk s k) : LinkOk S k := by
  obtain ⟨h1, h2, l, r, tl, tr, ul, ur, nl, nr, cl, cr, st, ko⟩ := hk
  obtain ⟨yl, ml, xl⟩ := h.names nl
  obtain ⟨yr, mr, xr⟩ := h.names nr
  have same : ∀ {e e' : End}, Unaliased s e e' → e'.cols = e.cols := by
    rintro e e' (⟨x, -, rfl⟩ | ⟨-, rfl⟩) <;> rfl
  have hl : ∀ n ∈ l.cols, ∀ c, IsColumn yl n c ↔ IsColumn tl n c := by
    rcases xl with rfl | ⟨rfl, rfl⟩
    · exact fun _ _ _ => Iff.rfl
    · exact fun n hn => hc k.lhs (by simp) l ul nl n (same ul ▸ hn)
  have hr : ∀ n ∈ r.cols, ∀ c, IsColumn yr n c ↔ IsColumn tr n c := by
    rcases xr with rfl | ⟨rfl, rfl⟩
    · exact fun _ _ _ => Iff.rfl
    · exact fun n hn => hc k.rhs (by simp) r ur nr n (same ur ▸ hn)
  refine ⟨h1, h2, l, r, yl, yr, h.unaliased ul, h.unaliased ur, ml, mr, ?_, ?_, ?_, ?_⟩
  · intro n hn
    obtain ⟨c, hc⟩ := colNames_iff.1 (cl n hn)
    exact colNames_iff.2 ⟨c, (hl n hn c).2 hc⟩
  · intro n hn
    obtain ⟨c, hc⟩ := colNames_iff.1 (cr n hn)
    exact colNames_iff.2 ⟨c, (hr n hn c).2 hc⟩
  · intro p hp c d h3 h4
    have hm := List.of_mem_zip hp
    exact st p hp c d ((hl _ hm.1 c).1 h3) ((hr _ hm.2 d).1 h4)
  · refine keyOk_of (fun n hn hs => ?_) (fun n hn hs => ?_) ?_ ?_ ko
    · obtain ⟨c, hc, hk⟩ := hs; exact ⟨c, (hl n hn c).2 hc, hk⟩
    · obtain ⟨c, hc, hk⟩ := hs; exact ⟨c, (hr n hn c).2 hc, hk⟩
    · rcases xl with rfl | ⟨rfl, rfl⟩
      · rfl
      · exact h.defs
    · rcases xr with rfl | ⟨rfl, rfl⟩
      · rfl
      · exact h.defs

/-- Some of the references, in another order. -/
def Among {α : Type} (l' l : List α) : Prop := ∃ m, l'.Perm m ∧ m.Sublist l

theorem Among.mem {α : Type} {l' l : List α} (h : Among l' l) {a : α} (ha : a ∈ l') : a ∈ l := by
  obtain ⟨m, h1, h2⟩ := h
  exact h2.subset (h1.subset ha)

theorem Among.pairwise {α : Type} {R : α → α → Prop} (hR : ∀ {a b}, R a b → R b a) {l' l : List α} (h : Among l' l)
    (hp : l.Pairwise R) : l'.Pairwise R := by
  obtain ⟨m, h1, h2⟩ := h
  exact (h1.pairwise_iff hR).2 (hp.sublist h2)

theorem SwapTable.links {t T : TableBlock} (h : SwapTable s S t T) (hl : Among (tableLinks T) (tableLinks t)) :
    Among (Spec.links S) (Spec.links s) := by
  obtain ⟨l1, l2, h1, h2⟩ := h.tables
  obtain ⟨m, h3, h4⟩ := hl
  have e : ∀ s : SchemaBlock, Spec.links s = s.refs.map (fun r => { rel := r.rel, lhs := endOf r.lhs, rhs := endOf r.rhs }) ++
      s.tables.flatMap tableLinks := fun _ => rfl
  refine ⟨s.refs.map (fun r => { rel := r.rel, lhs := endOf r.lhs, rhs := endOf r.rhs }) ++
    (l1.flatMap tableLinks ++ (m ++ l2.flatMap tableLinks)), ?_, ?_⟩
  · rw [e, h.refs, h2, List.flatMap_append, List.flatMap_cons]
    exact (List.Perm.refl _).append ((List.Perm.refl _).append (h3.append (List.Perm.refl _)))
  · rw [e, h1, List.flatMap_append, List.flatMap_cons]
    exact (List.Sublist.refl _).append ((List.Sublist.refl _).append (h4.append (List.Sublist.refl _)))

theorem columnOk_enums {c : TableColumn} (h : S.enums = s.enums) (hc : ColumnOk s c) : ColumnOk S c := by
  unfold ColumnOk HasEnumValue at hc ⊢
  rw [h]
  exact hc

/-- Changing one table of a valid schema gives a valid schema, if the table is in order by itself and keeps the columns
that references name. -/
theorem SwapTable.valid {t T : TableBlock} (h : SwapTable s S t T) (hv : Valid s) (hn : (colNames T).Nodup)
    (ht : TableOk T) (hc : ∀ c ∈ T.cols, ColumnOk s c ∧ ∀ st, c.settings = some st → DistinctKeys st.attributes)
    (hl : Among (tableLinks T) (tableLinks t))
    (hk : ∀ k ∈ Spec.links S, ∀ e ∈ [k.lhs, k.rhs], ∀ e', Unaliased s e e' → Names s e' t → ∀ n ∈ e.cols, ∀ c,
      IsColumn T n c ↔ IsColumn t n c) : Valid S := by
  obtain ⟨l1, l2, h1, h2⟩ := h.tables
  have old : ∀ x ∈ S.tables, x = T ∨ x ∈ s.tables := by
    intro x hx
    rw [h2] at hx; rw [h1]
    simp only [List.mem_append, List.mem_cons] at hx ⊢
    tauto
  have cols : ∀ c ∈ columns S, c ∈ T.cols ∨ c ∈ columns s := by
    intro c hc
    obtain ⟨x, hx, hcx⟩ := List.mem_flatMap.1 hc
    rcases old x hx with rfl | hx
    · exact .inl hcx
    · exact .inr (List.mem_flatMap.2 ⟨x, hx, hcx⟩)
  refine ⟨?_, ?_, ⟨?_, ?_, ?_⟩, ?_, ⟨?_, ?_⟩, ?_, ?_, ?_, ?_⟩
  · obtain ⟨p, hp, hpn⟩ := hv.project
    exact ⟨p, h.projects.trans hp, hpn⟩
  · intro as ha
    simp only [checkedSettings, structSettings, List.mem_append, List.mem_map] at ha
    rcases ha with (((⟨x, hx, rfl⟩ | ⟨x, hx, rfl⟩) | ⟨x, hx, rfl⟩) | ⟨x, hx, rfl⟩) | ⟨x, hx, rfl⟩
    · refine hv.settings _ ?_
      obtain ⟨y, hy, hyx⟩ := List.mem_filterMap.1 hx
      have : x ∈ tableSettings s := by
        rcases old y hy with rfl | hy
        · exact List.mem_filterMap.2 ⟨t, h.mem_left, h.settings ▸ hyx⟩
        · exact List.mem_filterMap.2 ⟨y, hy, hyx⟩
      simp only [checkedSettings, structSettings, List.mem_append, List.mem_map]
      exact .inl (.inl (.inl (.inl ⟨x, this, rfl⟩)))
    · obtain ⟨c, hc', hcx⟩ := List.mem_filterMap.1 hx
      rcases cols c hc' with hT | hs
      · exact (hc c hT).2 x hcx
      · refine hv.settings _ ?_
        simp only [checkedSettings, structSettings, List.mem_append, List.mem_map]
        exact .inl (.inl (.inl (.inr ⟨x, List.mem_filterMap.2 ⟨c, hs, hcx⟩, rfl⟩)))
    · refine hv.settings _ ?_
      have : x ∈ enumSettings s := by unfold enumSettings enumValues at hx ⊢; rwa [h.enums] at hx
      simp only [checkedSettings, structSettings, List.mem_append, List.mem_map]
      exact .inl (.inl (.inr ⟨x, this, rfl⟩))
    · refine hv.settings _ ?_
      have : x ∈ indexSettings s := by
        obtain ⟨d, hd, hdx⟩ := List.mem_filterMap.1 hx
        obtain ⟨ib, hib, hd⟩ := List.mem_flatMap.1 hd
        obtain ⟨y, hy, hyi⟩ := List.mem_filterMap.1 hib
        refine List.mem_filterMap.2 ⟨d, List.mem_flatMap.2 ⟨ib, ?_, hd⟩, hdx⟩
        rcases old y hy with rfl | hy
        · exact List.mem_filterMap.2 ⟨t, h.mem_left, h.indexes ▸ hyi⟩
        · exact List.mem_filterMap.2 ⟨y, hy, hyi⟩
      simp only [checkedSettings, structSettings, List.mem_append, List.mem_map]
      exact .inl (.inr ⟨x, this, rfl⟩)
    · refine hv.settings _ ?_
      have : x ∈ refSettings s := by unfold refSettings at hx ⊢; rwa [h.refs] at hx
      simp only [checkedSettings, structSettings, List.mem_append, List.mem_map]
      exact .inr ⟨x, this, rfl⟩
  · have := hv.tableNames.1
    rw [h1] at this; rw [h2]
    simpa [h.key] using this
  · have := hv.tableNames.2.1
    rw [h1] at this; rw [h2]
    simpa [List.filterMap_cons, h.aliasEq] using this
  · intro x hx
    rcases old x hx with rfl | hx
    · exact hn
    · exact hv.tableNames.2.2 x hx
  · unfold EnumNamesOk; rw [h.enums]; exact hv.enumNames
  · rw [h.groups]; exact hv.groups.1
  · rw [h.groups]
    intro g hg
    obtain ⟨ks, h3, h4⟩ := hv.groups.2 g hg
    exact ⟨ks, groupTargets_of (fun i _ k hk => h.groupTarget hk) h3, h4⟩
  · intro x hx
    rcases old x hx with rfl | hx
    · exact ht
    · exact hv.tables x hx
  · intro c hc'
    refine columnOk_enums h.enums ?_
    rcases cols c hc' with hT | hs
    · exact (hc c hT).1
    · exact hv.columns c hs
  · intro k hk'
    exact h.linkOk (hk k hk') (hv.refs.1 k ((h.links hl).mem hk'))
  · refine List.Pairwise.imp ?_ ((h.links hl).pairwise (fun h => h.symm) hv.refs.2)
    exact fun {a b} h3 => ⟨fun h4 => h3.1 (h.symm.competes h4), fun h4 => h3.2 (h.symm.competes h4)⟩

/-- Keys and indexes stay in order. -/
theorem tableOk_of {t T : TableBlock} (h : TableOk t) (hd : defsOf T = defsOf t) (hn : (colNames T).Nodup)
    (hi : ∀ d ∈ defsOf t, ∀ n ∈ indexNames d, n ∈ colNames T) (hp : PrimaryKeyOk T)
    (hc : ∀ c ∈ T.cols, ColumnSettingsOk c)
    (hu : ∀ c ∈ T.cols, IsUniqueCol c → ∀ d ∈ defsOf t, IsUniqueIndex d → ¬ indexNames d ⊆ [c.name.to_string]) :
    TableOk T := by
  refine ⟨hp, hc, fun d hd' => ?_, ?_, ?_⟩
  · rw [hd] at hd'
    obtain ⟨h1, -, h3⟩ := h.2.2.1 d hd'
    exact ⟨h1, hi d hd', h3⟩
  · have h4 := h.2.2.2.1
    unfold uniqueKeys at h4 ⊢
    rw [hd]
    rw [List.pairwise_append] at h4 ⊢
    refine ⟨?_, h4.2.1, ?_⟩
    · rw [List.pairwise_map]
      refine List.Pairwise.filter _ ?_
      unfold colNames List.Nodup at hn
      rw [List.pairwise_map] at hn
      exact hn.imp fun {a b} h5 h6 => h5 (List.mem_singleton.1 (h6 (List.mem_singleton_self b.name.to_string))).symm
    · intro u hu' v hv
      obtain ⟨c, hcm, rfl⟩ := List.mem_map.1 hu'
      obtain ⟨d, hdm, rfl⟩ := List.mem_map.1 hv
      simp only [List.mem_filter, decide_eq_true_eq] at hcm hdm
      exact hu c hcm.1 hcm.2 d hdm.1 hdm.2
  · have h5 := h.2.2.2.2
    unfold plainIndexes at h5 ⊢
    rwa [hd]

/-- A unique index is not made of the columns of a unique column alone. -/
theorem unique_cross {t : TableBlock} (h : TableOk t) {c : TableColumn} (hc : c ∈ t.cols) (hu : IsUniqueCol c)
    {d : IndexesDef} (hd : d ∈ defsOf t) (hi : IsUniqueIndex d) : ¬ indexNames d ⊆ [c.name.to_string] := by
  have h4 := h.2.2.2.1
  unfold uniqueKeys at h4
  rw [List.pairwise_append] at h4
  exact h4.2.2 _ (List.mem_map.2 ⟨c, by simp [hc, hu], rfl⟩) _ (List.mem_map.2 ⟨d, by simp [hd, hi], rfl⟩)

theorem swap_settings {t T : TableBlock} (h : SwapTable s S t T) (hv : Valid s) {c : TableColumn} (hc : c ∈ t.cols) :
    ColumnOk s c ∧ ∀ st, c.settings = some st → DistinctKeys st.attributes := by
  have hm : c ∈ columns s := List.mem_flatMap.2 ⟨t, h.mem_left, hc⟩
  refine ⟨hv.columns c hm, fun st hst => hv.settings _ ?_⟩
  simp only [checkedSettings, structSettings, List.mem_append, List.mem_map]
  exact .inl (.inl (.inl (.inr ⟨st, List.mem_filterMap.2 ⟨c, hm, hst⟩, rfl⟩)))

/-! ## Columns -/

/-- A column that can be added to the table `t` of the schema `s`: its name is new, its type, default and settings are
in order; if it is a primary key the table has none; and if it is unique, no unique index of the
table consists of expressions only (see finding 7). -/
structure Addable (s : SchemaBlock) (t : TableBlock) (c : TableColumn) : Prop where
  name : c.name.to_string ∉ colNames t
  type : ColumnOk s c
  settings : ColumnSettingsOk c
  keys : ∀ st, c.settings = some st → DistinctKeys st.attributes
  pk : IsPkCol c → (∀ x ∈ t.cols, ¬ IsPkCol x) ∧ ∀ d ∈ defsOf t, ¬ IsPkIndex d
  unique : IsUniqueCol c → ∀ d ∈ defsOf t, IsUniqueIndex d → indexNames d ≠ []

/-- `T` is `t` with the column `c` added somewhere. -/
def AddColumn (c : TableColumn) (t T : TableBlock) : Prop :=
  ∃ c1 c2, t.cols = c1 ++ c2 ∧ T.cols = c1 ++ c :: c2

theorem AddColumn.mem {c x : TableColumn} {t T : TableBlock} (h : AddColumn c t T) : x ∈ T.cols ↔ x = c ∨ x ∈ t.cols := by
  obtain ⟨c1, c2, h1, h2⟩ := h
  rw [h1, h2]
  simp only [List.mem_append, List.mem_cons]
  tauto

theorem AddColumn.names {c : TableColumn} {t T : TableBlock} (h : AddColumn c t T) :
    (colNames T).Perm (c.name.to_string :: colNames t) := by
  obtain ⟨c1, c2, h1, h2⟩ := h
  unfold colNames
  rw [h1, h2, List.map_append, List.map_cons, List.map_append]
  exact List.perm_middle

theorem AddColumn.isColumn {c : TableColumn} {t T : TableBlock} (h : AddColumn c t T) {n : Str}
    (hn : n ≠ c.name.to_string) (x : TableColumn) : IsColumn T n x ↔ IsColumn t n x := by
  unfold IsColumn
  rw [h.mem]
  constructor
  · rintro ⟨rfl | hx, h2⟩
    · exact absurd h2.symm hn
    · exact ⟨hx, h2⟩
  · rintro ⟨hx, h2⟩
    exact ⟨.inr hx, h2⟩

/-- The references of a valid schema name columns of the tables they mean. -/
theorem link_names (hv : Valid s) {k : Link} (hk : k ∈ links s) {e e' : End} (he : e ∈ [k.lhs, k.rhs])
    (hu : Unaliased s e e') {t : TableBlock} (hna : Names s e' t) : ∀ n ∈ e.cols, n ∈ colNames t := by
  obtain ⟨-, -, l, r, tl, tr, ul, ur, nl, nr, cl, cr, -⟩ := hv.refs.1 k hk
  have uniq : ∀ {a b b' : End}, Unaliased s a b → Unaliased s a b' → b = b' := by
    rintro a b b' (⟨x, hx, rfl⟩ | ⟨hx, rfl⟩) (⟨y, hy, rfl⟩ | ⟨hy, rfl⟩)
    · have : x = y := nodup_filterMap_inj hv.tableNames.2.1 hx.1 hy.1 hx.2 hy.2
      rw [this]
    · exact absurd hx (hy x)
    · exact absurd hy (hx y)
    · rfl
  have same : ∀ {e e' : End}, Unaliased s e e' → e'.cols = e.cols := by
    rintro e e' (⟨x, -, rfl⟩ | ⟨-, rfl⟩) <;> rfl
  have tab : ∀ {e : End} {x y : TableBlock}, Names s e x → Names s e y → x = y := fun hx hy =>
    table_of_key hv.tableNames hx.1 hy.1 ((names_key hx).trans (names_key hy).symm)
  intro n hne
  simp only [List.mem_cons, List.not_mem_nil, or_false] at he
  rcases he with rfl | rfl
  · rw [uniq ul hu] at nl
    rw [tab nl hna] at cl
    exact cl n (by rw [same ul]; exact hne)
  · rw [uniq ur hu] at nr
    rw [tab nr hna] at cr
    exact cr n (by rw [same ur]; exact hne)

/-- **C66.** A column without inline refs can be added to a table of a valid schema, anywhere among its columns, exactly
if it is `Addable`. -/
theorem C66_add_column {t T : TableBlock} {c : TableColumn} (h : SwapTable s S t T) (ha : AddColumn c t T)
    (hrefs : ∀ st, c.settings = some st → st.refs = []) (hv : Valid s) : Valid S ↔ Addable s t c := by
  refine ⟨fun hS => ?_, fun hc => ?_⟩
  · have hok := hS.tables T h.symm.mem_left
    have hcT : c ∈ T.cols := ha.mem.2 (.inl rfl)
    refine ⟨?_, ?_, hok.2.1 c hcT, ?_, ?_, ?_⟩
    · exact (List.nodup_cons.1 (ha.names.nodup_iff.1 (hS.tableNames.2.2 T h.symm.mem_left))).1
    · exact columnOk_enums h.enums.symm (hS.columns c (List.mem_flatMap.2 ⟨T, h.symm.mem_left, hcT⟩))
    · exact (swap_settings h.symm hS hcT).2
    · intro hp
      refine ⟨fun x hx hxp => ?_, fun d hd hdp => hok.1.2.1 c hcT d (by rw [h.defs]; exact hd) ⟨hp, hdp⟩⟩
      have h1 := hok.1.1
      obtain ⟨c1, c2, e1, e2⟩ := ha
      rw [e2, List.filter_append, List.filter_cons, if_pos (by simpa using hp), List.length_append,
        List.length_cons] at h1
      have h2 : x ∈ c1.filter (fun c => IsPkCol c) ++ c2.filter (fun c => IsPkCol c) := by
        rw [← List.filter_append, ← e1]; simp [hx, hxp]
      have := List.length_pos_of_mem h2
      rw [List.length_append] at this
      omega
    · intro hu d hd hi he
      exact unique_cross hok hcT hu (by rw [h.defs]; exact hd) hi (by rw [he]; simp)
  have hnt := hv.tableNames.2.2 t h.mem_left
  have hok := hv.tables t h.mem_left
  have hn : (colNames T).Nodup := ha.names.nodup_iff.2 (List.nodup_cons.2 ⟨hc.name, hnt⟩)
  have sub : ∀ n ∈ colNames t, n ∈ colNames T := fun n hn => ha.names.mem_iff.2 (List.mem_cons_of_mem _ hn)
  have hl : tableLinks T = tableLinks t := by
    obtain ⟨c1, c2, h1, h2⟩ := ha
    unfold tableLinks
    rw [h1, h2, List.flatMap_append, List.flatMap_cons, List.flatMap_append, h.ident]
    have : c.settings.toList.flatMap (·.refs) = [] := by
      cases hs : c.settings with
      | none => rfl
      | some st => simp [hrefs st hs]
    simp [this]
  refine h.valid hv hn (tableOk_of hok h.defs hn ?_ ?_ ?_ ?_) ?_ (hl ▸ ⟨_, .refl _, .refl _⟩) ?_
  · exact fun d hd n hm => sub n ((hok.2.2.1 d hd).2.1 n hm)
  · have hpk := hok.1
    obtain ⟨c1, c2, h1, h2⟩ := ha
    have hf : (T.cols.filter fun c => IsPkCol c).length ≤ 1 := by
      rw [h2, List.filter_append, List.filter_cons]
      by_cases hp : IsPkCol c
      · have := (hc.pk hp).1
        rw [h1] at this
        have e1 : c1.filter (fun c => IsPkCol c) = [] := List.filter_eq_nil_iff.2 fun x hx => by simp [this x (by simp [hx])]
        have e2 : c2.filter (fun c => IsPkCol c) = [] := List.filter_eq_nil_iff.2 fun x hx => by simp [this x (by simp [hx])]
        simp [e1, e2, hp]
      · have := hpk.1
        rw [h1, List.filter_append] at this
        simpa [hp] using this
    refine ⟨hf, ?_, by rw [h.defs]; exact hpk.2.2⟩
    intro x hx d hd
    rw [h.defs] at hd
    rw [h2] at hx
    simp only [List.mem_append, List.mem_cons] at hx
    rintro ⟨h3, h4⟩
    rcases hx with hx | rfl | hx
    · exact hpk.2.1 x (by rw [h1]; simp [hx]) d hd ⟨h3, h4⟩
    · exact (hc.pk h3).2 d hd h4
    · exact hpk.2.1 x (by rw [h1]; simp [hx]) d hd ⟨h3, h4⟩
  · intro x hx
    rcases ha.mem.1 hx with rfl | hx
    · exact hc.settings
    · exact hok.2.1 x hx
  · intro x hx hu d hd hi
    rcases ha.mem.1 hx with rfl | hx
    · intro hsub
      cases he : indexNames d with
      | nil => exact hc.unique hu d hd hi he
      | cons n ns =>
        have h3 : n ∈ indexNames d := by simp [he]
        have h4 := hsub h3
        simp only [List.mem_singleton] at h4
        exact hc.name (h4 ▸ (hok.2.2.1 d hd).2.1 n h3)
    · exact unique_cross hok hx hu hd hi
  · intro x hx
    rcases ha.mem.1 hx with rfl | hx
    · exact ⟨hc.type, hc.keys⟩
    · exact swap_settings h hv hx
  · intro k hk e he e' hu hna n hne x
    refine ha.isColumn (fun hnc => hc.name ?_) x
    -- the reference is one of `s`, so it names a column of `t`
    exact hnc ▸ link_names hv ((h.links (hl ▸ ⟨_, .refl _, .refl _⟩)).mem hk) he hu hna n hne

/-- The reference end `e` means the table `T` of the schema. -/
def EndMeans (S : SchemaBlock) (e : End) (T : TableBlock) : Prop := ∃ e', Unaliased S e e' ∧ Names S e' T

/-- **C66.** A column (with its own references) can be dropped from a table of a valid schema exactly if no index of the
table and no remaining reference names it. -/
theorem C66_drop_column {t T : TableBlock} {c : TableColumn} (h : SwapTable S s T t) (ha : AddColumn c t T)
    (hv : Valid S) : Valid s ↔ (∀ d ∈ defsOf T, c.name.to_string ∉ indexNames d) ∧
      ∀ k ∈ links s, ∀ e ∈ [k.lhs, k.rhs], EndMeans S e T → c.name.to_string ∉ e.cols := by
  refine ⟨fun hs => ⟨fun d hd hm => ?_, ?_⟩, ?_⟩
  · have h3 := ((hs.tables t h.symm.mem_left).2.2.1 d (by rw [h.defs]; exact hd)).2.1 _ hm
    exact (List.nodup_cons.1 (ha.names.nodup_iff.1 (hv.tableNames.2.2 T h.mem_left))).1 h3
  · rintro k hk e he ⟨e', hu, hna⟩ hm
    refine (List.nodup_cons.1 (ha.names.nodup_iff.1 (hv.tableNames.2.2 T h.mem_left))).1 ?_
    have hna' : Names s e' t := ⟨h.symm.mem_left, by rw [h.ident]; exact hna.2⟩
    exact link_names hs hk he (h.unaliased hu) hna' _ hm
  rintro ⟨hi, hr⟩
  have hnT := hv.tableNames.2.2 T h.mem_left
  have hok := hv.tables T h.mem_left
  have hn : (colNames t).Nodup := (List.nodup_cons.1 (ha.names.nodup_iff.1 hnT)).2
  have hsub : t.cols.Sublist T.cols := by
    obtain ⟨c1, c2, h1, h2⟩ := ha
    rw [h1, h2]
    exact (List.Sublist.refl _).append (List.sublist_cons_self _ _)
  refine h.valid hv hn (tableOk_of hok h.defs hn ?_ ?_ ?_ ?_) ?_ ?_ ?_
  · intro d hd n hm
    have h3 := ha.names.mem_iff.1 ((hok.2.2.1 d hd).2.1 n hm)
    simp only [List.mem_cons] at h3
    rcases h3 with rfl | h3
    · exact absurd hm (hi d hd)
    · exact h3
  · have hpk := hok.1
    refine ⟨Nat.le_trans ((hsub.filter _).length_le) hpk.1, ?_, by rw [h.defs]; exact hpk.2.2⟩
    intro x hx d hd
    rw [h.defs] at hd
    exact hpk.2.1 x (hsub.subset hx) d hd
  · exact fun x hx => hok.2.1 x (hsub.subset hx)
  · exact fun x hx hu d hd hi => unique_cross hok (hsub.subset hx) hu hd hi
  · exact fun x hx => swap_settings h hv (hsub.subset hx)
  · refine ⟨_, .refl _, ?_⟩
    unfold tableLinks
    rw [h.ident]
    exact sublist_flatMap _ hsub
  · intro k hk e he e' hu hna n hne x
    refine (ha.isColumn (fun hnc => ?_) x).symm
    exact hr k hk e he ⟨e', hu, hna⟩ (hnc ▸ hne)

/-- A reference can only mean a table whose name or alias it mentions. -/
theorem endMeans_mentions {T : TableBlock} (hv : TableNamesOk S) {e : End} (h : EndMeans S e T) : Mentions e.table T := by
  obtain ⟨e', hu, hna⟩ := h
  rcases hu with ⟨y, hy, rfl⟩ | ⟨-, rfl⟩
  · have hk0 : tableKey T = tableKey y := by rw [names_key hna]; rfl
    rw [table_of_key hv hna.1 hy.1 hk0]
    exact .inr hy.2
  · exact .inl hna.2.2.symm

/-- **C66.** The order of the columns of a table does not matter. -/
theorem C66_column_order {t T : TableBlock} (h : SwapTable s S t T) (hp : T.cols.Perm t.cols) : Valid S ↔ Valid s := by
  have key : ∀ {s S : SchemaBlock} {t T : TableBlock}, SwapTable s S t T → T.cols.Perm t.cols → Valid s → Valid S := by
    intro s S t T h hp hv
    have hok := hv.tables t h.mem_left
    have hnames : (colNames T).Perm (colNames t) := hp.map _
    have hn : (colNames T).Nodup := hnames.nodup_iff.2 (hv.tableNames.2.2 t h.mem_left)
    refine h.valid hv hn (tableOk_of hok h.defs hn ?_ ?_ ?_ ?_) ?_ ?_ ?_
    · exact fun d hd n hm => hnames.mem_iff.2 ((hok.2.2.1 d hd).2.1 n hm)
    · have hpk := hok.1
      refine ⟨by rw [(hp.filter _).length_eq]; exact hpk.1, ?_, by rw [h.defs]; exact hpk.2.2⟩
      intro x hx d hd
      rw [h.defs] at hd
      exact hpk.2.1 x (hp.subset hx) d hd
    · exact fun x hx => hok.2.1 x (hp.subset hx)
    · exact fun x hx hu d hd hi => unique_cross hok (hp.subset hx) hu hd hi
    · exact fun x hx => swap_settings h hv (hp.subset hx)
    · refine ⟨tableLinks t, ?_, .refl _⟩
      unfold tableLinks
      rw [h.ident]
      exact List.Perm.flatMap_right _ hp
    · intro k _ e _ e' _ _ n _ x
      unfold IsColumn
      rw [hp.mem_iff]
  exact ⟨key h.symm hp.symm, key h hp⟩

/-! ## Enum values -/

/-- `S` is `s` with the enum `e` replaced by `E`, which has the same name; the values may differ. -/
structure SwapEnum (s S : SchemaBlock) (e E : EnumBlock) : Prop where
  blocks : ∃ b1 b2, s.blocks = b1 ++ .enum e :: b2 ∧ S.blocks = b1 ++ .enum E :: b2
  ident : E.ident = e.ident

/-- **C66.** The values of an enum of a valid schema can be replaced by others exactly if these have different names and
setting keys and include every default value of the columns that have the enum as their type. -/
theorem C66_enum_values {e E : EnumBlock} (h : SwapEnum s S e E) (hv : Valid s) :
    Valid S ↔ (E.values.map (·.value.to_string)).Nodup ∧
      (∀ v ∈ E.values, ∀ st, v.settings = some st → DistinctKeys st.attributes) ∧
      ∀ c ∈ columns s, DefaultsTo c (enumKey e) → ∀ v, defaultOf c = some v →
        v.toStr ∈ E.values.map (·.value.to_string) := by
  obtain ⟨b1, b2, h1, h2⟩ := h.blocks
  have ht : S.tables = s.tables := by
    unfold SchemaBlock.tables; rw [h1, h2, List.filterMap_append, List.filterMap_append]; rfl
  have hg : S.table_groups = s.table_groups := by
    unfold SchemaBlock.table_groups; rw [h1, h2, List.filterMap_append, List.filterMap_append]; rfl
  have hr : S.refs = s.refs := by
    unfold SchemaBlock.refs; rw [h1, h2, List.filterMap_append, List.filterMap_append]; rfl
  have hp : S.projects = s.projects := by
    unfold SchemaBlock.projects; rw [h1, h2, List.filterMap_append, List.filterMap_append]; rfl
  obtain ⟨l1, l2, he, hE⟩ : ∃ l1 l2, s.enums = l1 ++ e :: l2 ∧ S.enums = l1 ++ E :: l2 := by
    refine ⟨({ blocks := b1 } : SchemaBlock).enums, ({ blocks := b2 } : SchemaBlock).enums, ?_, ?_⟩
    · unfold SchemaBlock.enums; rw [h1, List.filterMap_append]; rfl
    · unfold SchemaBlock.enums; rw [h2, List.filterMap_append]; rfl
  have hkey : enumKey E = enumKey e := by unfold enumKey; rw [h.ident]
  have hcols : columns S = columns s := by unfold columns; rw [ht]
  have hE' : E ∈ S.enums := by rw [hE]; simp
  have other : ∀ x ∈ S.enums, x = E ∨ x ∈ s.enums := by
    intro x hx
    rw [hE] at hx; rw [he]
    simp only [List.mem_append, List.mem_cons] at hx ⊢
    tauto
  have ukeys : (S.enums.map enumKey).Nodup := by
    have := hv.enumNames.1
    rw [he] at this; rw [hE]
    simpa [hkey] using this
  have hlinks : links S = links s := by unfold links; rw [hr, ht]
  have hunal : ∀ a b, Unaliased S a b ↔ Unaliased s a b := fun a b => by unfold Unaliased IsAlias; rw [ht]
  constructor
  · intro hS
    refine ⟨hS.enumNames.2 E hE', fun v hv' st hst => hS.settings _ ?_, ?_⟩
    · simp only [checkedSettings, structSettings, List.mem_append, List.mem_map]
      exact .inl (.inl (.inr ⟨st, List.mem_filterMap.2 ⟨v, List.mem_flatMap.2 ⟨E, hE', hv'⟩, hst⟩, rfl⟩))
    · rintro c hc ⟨-, n, hn, hf, hr⟩ v hd
      obtain ⟨n', ty, g1, g2, g3, g4⟩ := hS.columns c (hcols ▸ hc)
      rw [hn] at g1
      cases g1
      obtain ⟨x, hx, hxk, hxv⟩ := (g4 v hd).2 hf _ hr
      have : x = E := nodup_map_inj ukeys hx hE' (hxk.trans hkey.symm)
      exact this ▸ hxv
  · rintro ⟨k1, k2, k3⟩
    refine ⟨?_, ?_, ?_, ⟨ukeys, ?_⟩, ⟨?_, ?_⟩, ?_, ?_, ?_, ?_⟩
    · obtain ⟨p, hp', hpn⟩ := hv.project
      exact ⟨p, hp.trans hp', hpn⟩
    · intro as ha
      simp only [checkedSettings, structSettings, List.mem_append, List.mem_map] at ha
      have old := hv.settings as
      simp only [checkedSettings, structSettings, List.mem_append, List.mem_map] at old
      rcases ha with (((⟨x, hx, rfl⟩ | ⟨x, hx, rfl⟩) | ⟨x, hx, rfl⟩) | ⟨x, hx, rfl⟩) | ⟨x, hx, rfl⟩
      · exact old (.inl (.inl (.inl (.inl ⟨x, by unfold tableSettings at hx ⊢; rwa [ht] at hx, rfl⟩))))
      · exact old (.inl (.inl (.inl (.inr ⟨x, by unfold columnSettings at hx ⊢; rwa [hcols] at hx, rfl⟩))))
      · obtain ⟨v, hv', hvx⟩ := List.mem_filterMap.1 hx
        obtain ⟨y, hy, hvy⟩ := List.mem_flatMap.1 hv'
        rcases other y hy with rfl | hy
        · exact k2 v hvy x hvx
        · exact old (.inl (.inl (.inr ⟨x, List.mem_filterMap.2 ⟨v, List.mem_flatMap.2 ⟨y, hy, hvy⟩, hvx⟩, rfl⟩)))
      · exact old (.inl (.inr ⟨x, by unfold indexSettings indexDefs at hx ⊢; rwa [ht] at hx, rfl⟩))
      · exact old (.inr ⟨x, by unfold refSettings at hx ⊢; rwa [hr] at hx, rfl⟩)
    · unfold TableNamesOk; rw [ht]; exact hv.tableNames
    · intro x hx
      rcases other x hx with rfl | hx
      · exact k1
      · exact hv.enumNames.2 x hx
    · rw [hg]; exact hv.groups.1
    · rw [hg]
      intro g hg'
      obtain ⟨ks, h3, h4⟩ := hv.groups.2 g hg'
      refine ⟨ks, groupTargets_of (fun i _ k hk => ?_) h3, h4⟩
      unfold GroupTarget IsAlias at hk ⊢
      rwa [ht]
    · rw [ht]; exact hv.tables
    · rw [hcols]
      intro c hc
      obtain ⟨n, ty, g1, g2, g3, g4⟩ := hv.columns c hc
      refine ⟨n, ty, g1, g2, g3, fun v hd => ⟨(g4 v hd).1, fun hn k hk => ?_⟩⟩
      obtain ⟨x, hx, hxk, hxv⟩ := (g4 v hd).2 hn k hk
      by_cases hxe : x = e
      · subst hxe
        exact ⟨E, hE', hkey.trans hxk, k3 c hc ⟨by simp [hd], n, g1, hn, hxk ▸ hk⟩ v hd⟩
      · refine ⟨x, ?_, hxk, hxv⟩
        rw [he] at hx; rw [hE]
        simp only [List.mem_append, List.mem_cons] at hx ⊢
        tauto
    · rw [hlinks]
      intro k hk
      have := hv.refs.1 k hk
      unfold LinkOk Names at this ⊢
      simpa only [hunal, ht] using this
    · rw [hlinks]
      have hcomp : ∀ a b, Competes S a b ↔ Competes s a b := fun a b => by unfold Competes; simp only [hunal]
      simpa only [hcomp] using hv.refs.2

/-! ## References -/

/-- The reference a ref block stands for. -/
def linkOf (r : RefBlock) : Link := { rel := r.rel, lhs := endOf r.lhs, rhs := endOf r.rhs }

/-- **C66.** A ref block can be added to a valid schema exactly if it is valid by itself, its setting keys are different,
and it competes with no reference of the schema. -/
theorem C66_add_ref {r : RefBlock} (h : ∃ b1 b2, s.blocks = b1 ++ b2 ∧ S.blocks = b1 ++ .ref r :: b2) (hv : Valid s) :
    Valid S ↔ LinkOk s (linkOf r) ∧ (∀ st, r.settings = some st → DistinctKeys st.attributes) ∧
      ∀ k ∈ links s, ¬ Competes s k (linkOf r) ∧ ¬ Competes s (linkOf r) k := by
  obtain ⟨b1, b2, h1, h2⟩ := h
  have ht : S.tables = s.tables := by
    unfold SchemaBlock.tables; rw [h1, h2, List.filterMap_append, List.filterMap_append]; rfl
  have hg : S.table_groups = s.table_groups := by
    unfold SchemaBlock.table_groups; rw [h1, h2, List.filterMap_append, List.filterMap_append]; rfl
  have he : S.enums = s.enums := by
    unfold SchemaBlock.enums; rw [h1, h2, List.filterMap_append, List.filterMap_append]; rfl
  have hp : S.projects = s.projects := by
    unfold SchemaBlock.projects; rw [h1, h2, List.filterMap_append, List.filterMap_append]; rfl
  obtain ⟨r1, r2, hr, hR⟩ : ∃ r1 r2, s.refs = r1 ++ r2 ∧ S.refs = r1 ++ r :: r2 := by
    refine ⟨({ blocks := b1 } : SchemaBlock).refs, ({ blocks := b2 } : SchemaBlock).refs, ?_, ?_⟩
    · unfold SchemaBlock.refs; rw [h1, List.filterMap_append]
    · unfold SchemaBlock.refs; rw [h2, List.filterMap_append]; rfl
  have hcols : columns S = columns s := by unfold columns; rw [ht]
  have hlinks : (links S).Perm (linkOf r :: links s) := by
    unfold links
    rw [hr, hR, ht, List.map_append, List.map_cons, List.map_append]
    refine (List.Perm.append_right _ List.perm_middle).trans ?_
    exact List.Perm.refl _
  have hunal : ∀ a b, Unaliased S a b ↔ Unaliased s a b := fun a b => by unfold Unaliased IsAlias; rw [ht]
  have hcomp : ∀ a b, Competes S a b ↔ Competes s a b := fun a b => by unfold Competes; simp only [hunal]
  have hlink : ∀ k, LinkOk S k ↔ LinkOk s k := fun k => by
    unfold LinkOk Names; simp only [hunal, ht]
  have hrefs : RefsOk S ↔ (∀ k ∈ linkOf r :: links s, LinkOk s k) ∧
      (linkOf r :: links s).Pairwise fun a b => ¬ Competes s a b ∧ ¬ Competes s b a := by
    unfold RefsOk
    simp only [hlink, hcomp]
    rw [hlinks.pairwise_iff (fun h => h.symm)]
    simp only [hlinks.mem_iff]
  constructor
  · intro hS
    obtain ⟨g1, g2⟩ := hrefs.1 hS.refs
    rw [List.pairwise_cons] at g2
    refine ⟨g1 _ (by simp), fun st hst => hS.settings _ ?_, fun k hk => (g2.1 k hk).symm⟩
    simp only [checkedSettings, structSettings, List.mem_append, List.mem_map]
    exact .inr ⟨st, List.mem_filterMap.2 ⟨r, by rw [hR]; simp, hst⟩, rfl⟩
  · rintro ⟨k1, k2, k3⟩
    refine ⟨?_, ?_, ?_, ?_, ⟨?_, ?_⟩, ?_, ?_, hrefs.2 ⟨?_, ?_⟩⟩
    · obtain ⟨p, hp', hpn⟩ := hv.project
      exact ⟨p, hp.trans hp', hpn⟩
    · intro as ha
      simp only [checkedSettings, structSettings, List.mem_append, List.mem_map] at ha
      have old := hv.settings as
      simp only [checkedSettings, structSettings, List.mem_append, List.mem_map] at old
      rcases ha with (((⟨x, hx, rfl⟩ | ⟨x, hx, rfl⟩) | ⟨x, hx, rfl⟩) | ⟨x, hx, rfl⟩) | ⟨x, hx, rfl⟩
      · exact old (.inl (.inl (.inl (.inl ⟨x, by unfold tableSettings at hx ⊢; rwa [ht] at hx, rfl⟩))))
      · exact old (.inl (.inl (.inl (.inr ⟨x, by unfold columnSettings at hx ⊢; rwa [hcols] at hx, rfl⟩))))
      · exact old (.inl (.inl (.inr ⟨x, by unfold enumSettings enumValues at hx ⊢; rwa [he] at hx, rfl⟩)))
      · exact old (.inl (.inr ⟨x, by unfold indexSettings indexDefs at hx ⊢; rwa [ht] at hx, rfl⟩))
      · obtain ⟨y, hy, hyx⟩ := List.mem_filterMap.1 hx
        rw [hR] at hy
        simp only [List.mem_append, List.mem_cons] at hy
        have hm : y = r ∨ y ∈ s.refs := by rw [hr, List.mem_append]; tauto
        rcases hm with rfl | hm
        · exact k2 x hyx
        · exact old (.inr ⟨x, List.mem_filterMap.2 ⟨y, hm, hyx⟩, rfl⟩)
    · unfold TableNamesOk; rw [ht]; exact hv.tableNames
    · unfold EnumNamesOk; rw [he]; exact hv.enumNames
    · rw [hg]; exact hv.groups.1
    · rw [hg]
      intro g hg'
      obtain ⟨ks, h3, h4⟩ := hv.groups.2 g hg'
      refine ⟨ks, groupTargets_of (fun i _ k hk => ?_) h3, h4⟩
      unfold GroupTarget IsAlias at hk ⊢
      rwa [ht]
    · rw [ht]; exact hv.tables
    · rw [hcols]; exact fun c hc => columnOk_enums he (hv.columns c hc)
    · intro k hk
      simp only [List.mem_cons] at hk
      rcases hk with rfl | hk
      · exact k1
      · exact hv.refs.1 k hk
    · rw [List.pairwise_cons]
      exact ⟨fun k hk => (k3 k hk).symm, hv.refs.2⟩

/-! ## In terms of texts -/

/-- **C66** for texts: if the first text is accepted, the second is accepted exactly under the conditions `P` under which
its schema, read without positions, stays valid (`C66_add_column`, `C66_drop_column`, `C66_column_order`,
`C66_enum_values`, `C66_add_ref`). -/
theorem C66_texts {P : Prop} {txt txt' : Str} (h : parseDbml txt = .ok s) (h' : parseDbmlUnchecked txt' = .ok S)
    (hP : Valid (bare s) → (Valid (bare S) ↔ P)) : parseDbml txt' = .ok S ↔ P := by
  have h0 := ((C33_accepts_iff_valid txt s).1 h).1
  rw [← hP ((accepted_iff_bare h0).1 ⟨s, h⟩), ← accepted_iff_bare h']
  constructor
  · exact fun h => ⟨S, h⟩
  · rintro ⟨r, hr⟩
    have := ((C33_accepts_iff_valid txt' r).1 hr).1
    rw [h'] at this
    cases this
    exact hr

/-! ## Concrete cases -/

/-- The AST of a text. -/
def astOf (t : Str) : SchemaBlock := (parseDbmlUnchecked t).get?.getD {}

theorem unchecked_ast {t : Str} (h : (parseDbmlUnchecked t).get?.isSome = true) : parseDbmlUnchecked t = .ok (astOf t) := by
  obtain ⟨a, ha⟩ := Option.isSome_iff_exists.1 h
  unfold astOf
  rw [Rs.eq_ok_of_get? ha]; rfl

theorem checked_ast {t : Str} (h : (parseDbml t).get?.isSome = true) : parseDbml t = .ok (astOf t) := by
  obtain ⟨a, ha⟩ := Option.isSome_iff_exists.1 h
  have h1 := Rs.eq_ok_of_get? ha
  have h2 := parseDbml_ok h1
  unfold astOf
  rw [h1, h2]; rfl

/-- Two tables, an enum and references. -/
def evBase : Str := k!"Project p { }
Enum e { a b }
Table one { id int [pk] kind e [default: 'a'] }
Table two { id int [ref: > one.id] x int }"

/-- A unique column added between the two columns of the first table. -/
def evMore : Str := k!"Project p { }
Enum e { a b }
Table one { id int [pk] n varchar(3) [default: 'abc', unique] kind e [default: 'a'] }
Table two { id int [ref: > one.id] x int }"

/-- The first table of a text. -/
def firstTable (t : Str) : TableBlock := (bare (astOf t)).tables.headD {}

/-- The hypotheses of `C66_add_column` and `C66_drop_column` are met, and so are their conditions. -/
theorem ev_swap : SwapTable (bare (astOf evBase)) (bare (astOf evMore)) (firstTable evBase) (firstTable evMore) ∧
    AddColumn ((firstTable evMore).cols.getD 1 {}) (firstTable evBase) (firstTable evMore) := by
  refine ⟨⟨⟨(bare (astOf evBase)).blocks.take 2, (bare (astOf evBase)).blocks.drop 3, ?_, ?_⟩, ?_, ?_, ?_⟩,
    (firstTable evBase).cols.take 1, (firstTable evBase).cols.drop 1, ?_, ?_⟩ <;> decide +kernel

example : Addable (bare (astOf evBase)) (firstTable evBase) ((firstTable evMore).cols.getD 1 {}) :=
  (C66_texts (checked_ast (by decide +kernel)) (unchecked_ast (by decide +kernel))
    (C66_add_column ev_swap.1 ev_swap.2 (by decide +kernel))).1 (checked_ast (by decide +kernel))

example : parseDbml evBase = .ok (astOf evBase) := by
  refine (C66_texts (checked_ast (t := evMore) (by decide +kernel)) (unchecked_ast (by decide +kernel))
    (C66_drop_column ev_swap.1.symm ev_swap.2)).2 ⟨by decide +kernel, fun k hk e he hm => ?_⟩
  have key : ∀ k ∈ links (bare (astOf evBase)), ∀ e ∈ [k.lhs, k.rhs],
      ((firstTable evMore).cols.getD 1 {}).name.to_string ∉ e.cols := by decide +kernel
  exact key k hk e he

/-- A second primary key cannot be added. -/
def evTwoKeys : Str := k!"Project p { }
Enum e { a b }
Table one { id int [pk] n int [pk] kind e [default: 'a'] }
Table two { id int [ref: > one.id] x int }"

example : ¬ Addable (bare (astOf evBase)) (firstTable evBase) ((firstTable evTwoKeys).cols.getD 1 {}) := by
  have hsw : SwapTable (bare (astOf evBase)) (bare (astOf evTwoKeys)) (firstTable evBase) (firstTable evTwoKeys) ∧
      AddColumn ((firstTable evTwoKeys).cols.getD 1 {}) (firstTable evBase) (firstTable evTwoKeys) := by
    refine ⟨⟨⟨(bare (astOf evBase)).blocks.take 2, (bare (astOf evBase)).blocks.drop 3, ?_, ?_⟩, ?_, ?_, ?_⟩,
      (firstTable evBase).cols.take 1, (firstTable evBase).cols.drop 1, ?_, ?_⟩ <;> decide +kernel
  rw [← C66_texts (checked_ast (t := evBase) (by decide +kernel)) (unchecked_ast (t := evTwoKeys) (by decide +kernel))
    (C66_add_column hsw.1 hsw.2 (by decide +kernel))]
  intro h
  have : (parseDbml evTwoKeys).get?.isSome = false := by decide +kernel
  rw [h] at this
  cases this

/-- The columns of the first table the other way round. -/
def evTurned : Str := k!"Project p { }
Enum e { a b }
Table one { kind e [default: 'a'] id int [pk] }
Table two { id int [ref: > one.id] x int }"

example : parseDbml evTurned = .ok (astOf evTurned) := by
  refine (C66_texts (P := True) (checked_ast (t := evBase) (by decide +kernel)) (unchecked_ast (by decide +kernel))
    fun hv => iff_true_intro ((C66_column_order (t := firstTable evBase) (T := firstTable evTurned) ?_ ?_).2 hv)).2 trivial
  · refine ⟨⟨(bare (astOf evBase)).blocks.take 2, (bare (astOf evBase)).blocks.drop 3, ?_, ?_⟩, ?_, ?_, ?_⟩ <;>
      decide +kernel
  · decide +kernel

/-- The enum with other values, the default `a` among them. -/
def evValues : Str := k!"Project p { }
Enum e { c [note: 'new'] a }
Table one { id int [pk] kind e [default: 'a'] }
Table two { id int [ref: > one.id] x int }"

example : parseDbml evValues = .ok (astOf evValues) := by
  have hsw : SwapEnum (bare (astOf evBase)) (bare (astOf evValues)) ((bare (astOf evBase)).enums.headD {})
      ((bare (astOf evValues)).enums.headD {}) := by
    refine ⟨⟨(bare (astOf evBase)).blocks.take 1, (bare (astOf evBase)).blocks.drop 2, ?_, ?_⟩, ?_⟩ <;> decide +kernel
  refine (C66_texts (checked_ast (t := evBase) (by decide +kernel)) (unchecked_ast (by decide +kernel))
    (C66_enum_values hsw)).2 ⟨by decide +kernel, by unfold DistinctKeys; decide +kernel, ?_⟩
  intro c hc _ v hd
  have key : ∀ c ∈ columns (bare (astOf evBase)), ∀ v ∈ defaultOf c,
      v.toStr ∈ ((bare (astOf evValues)).enums.headD {}).values.map (·.value.to_string) := by decide +kernel
  exact key c hc v hd

/-- A ref added at the end. -/
def evRef : Str := evBase ++ k!"
Ref: two.x - one.id"

/-- The ref is accepted; hence it is valid by itself and competes with no other. -/
example : LinkOk (bare (astOf evBase)) (linkOf ((bare (astOf evRef)).refs.headD {})) :=
  ((C66_texts (checked_ast (t := evBase) (by decide +kernel)) (unchecked_ast (t := evRef) (by decide +kernel))
    (C66_add_ref (r := (bare (astOf evRef)).refs.headD {})
      ⟨(bare (astOf evBase)).blocks, [], by decide +kernel, by decide +kernel⟩)).1
      (checked_ast (by decide +kernel))).1

end Dbml.Props
