import Verif.Proofs.Tells
import Verif.Proofs.Analyze

/-!
# The checklist of names, groups and keys is what the analyzer runs through
-/

namespace Dbml
open Spec

section
variable {s : SchemaBlock} {input : Str}

theorem mem_map_iff {α : Type} {key : α → Str} {pre : List α} {x : α} {idx : List Str}
    (h : ∀ n, n ∈ idx ↔ n ∈ pre.map key) : (idx.contains (key x) = true ↔ ∃ d ∈ pre, key d = key x) := by
  rw [List.contains_iff_mem, h, List.mem_map]

theorem indexCols_tells (t : TableBlock) :
    Tells input (inTurn (fun cols c _ =>
      c.settings.toList.flatMap (fun st => settingChecks st.attributes) ++
      [.err (∃ d ∈ cols, d.name.to_string = c.name.to_string) .duplicateColumnName c.span_range]) [] t.cols)
      (Indexer.indexCols t.cols input) := by
  unfold Indexer.indexCols
  refine Tells.foldlM (Inv := fun pre idx => ∀ n, n ∈ idx ↔ n ∈ pre.map (·.name.to_string)) t.cols [] (by simp) ?_ ?_
  · intro pre c post idx idx' _ hi h
    obtain ⟨_, _, h⟩ := Rs.bind_eq_ok.1 h
    split at h
    · unfold throwErr at h; split at h <;> cases h
    · cases h
      intro n
      simp [hi, or_comm]
  · intro pre c post idx _ hi
    refine (checkSettings_tells c.settings (·.attributes)).bind fun _ _ _ => ?_
    exact Tells.ite (mem_map_iff hi) fun _ => .ok .nil

theorem contains_iff {ts es ix} (hk : Knows ts es ix) (t : TableBlock) :
    ix.containsTable (schemaOrDefault t.ident.schema) t.ident.name.to_string = true ↔
      ∃ u ∈ ts, tableKey u = tableKey t := by
  rw [containsTable_eq, schemaOrDefault_eq]
  constructor
  · intro h
    obtain ⟨cs, hcs⟩ := Option.isSome_iff_exists.1 h
    obtain ⟨t', ht', he, -⟩ := hk.table_some _ _ hcs
    exact ⟨t', ht', he⟩
  · rintro ⟨u, hu, he⟩
    cases h : ix.table? (schemaOf t.ident.schema, t.ident.name.to_string) with
    | some _ => rfl
    | none => exact absurd he (hk.table_none _ h u hu)

theorem containsEnum_iff {ts es ix} (hk : Knows ts es ix) (e : EnumBlock) :
    ix.containsEnum (schemaOrDefault e.ident.schema) e.ident.name.to_string = true ↔
      ∃ u ∈ es, enumKey u = enumKey e := by
  rw [containsEnum_eq, schemaOrDefault_eq]
  constructor
  · intro h
    obtain ⟨cs, hcs⟩ := Option.isSome_iff_exists.1 h
    obtain ⟨t', ht', he, -⟩ := hk.enum_some _ _ hcs
    exact ⟨t', ht', he⟩
  · rintro ⟨u, hu, he⟩
    cases h : ix.enum? (schemaOf e.ident.schema, e.ident.name.to_string) with
    | some _ => rfl
    | none => exact absurd he (hk.enum_none _ h u hu)

theorem containsAlias_iff {ts es ix} (hk : Knows ts es ix) (a : Str) :
    mapContains ix.table_alias_map a = true ↔ ∃ u ∈ ts, aliasOf u = some a := by
  unfold mapContains
  constructor
  · intro h
    obtain ⟨k, hk'⟩ := Option.isSome_iff_exists.1 h
    obtain ⟨t', ht', he, -⟩ := hk.alias_some _ _ hk'
    exact ⟨t', ht', he⟩
  · rintro ⟨u, hu, he⟩
    cases h : mapGet ix.table_alias_map a with
    | some _ => rfl
    | none => exact absurd he (hk.alias_none _ h u hu)

theorem indexTable1_tells {pre : List TableBlock} {t : TableBlock} {ix : Indexer} (hi : TInv pre ix) :
    Tells input (tableChecks pre t) (ix.indexTable1 t input) := by
  unfold tableChecks Indexer.indexTable1
  simp only [List.append_assoc]
  refine (checkSettings_tells t.settings (·.attributes)).bind fun _ _ _ => ?_
  refine Tells.ite (contains_iff hi.knows t) fun _ => ?_
  refine (indexCols_tells t).bind fun cs _ _ => ?_
  cases ha : t.ident.alias with
  | none => exact .ok .nil
  | some a => exact Tells.ite (containsAlias_iff hi.knows a.to_string) fun _ => .ok .nil

theorem indexTable_tells : Tells input (inTurn (fun before t _ => tableChecks before t) [] s.tables)
    (Indexer.indexTable {} s.tables input) :=
  Tells.foldlM (Inv := TInv) s.tables {} ⟨Knows.empty, by simp, by simp, by simp, by simp, rfl⟩
    (fun _ _ _ _ _ _ hi h => (indexTable1_out (input := input) (K := NoK) hi).of_ok h) fun _ _ _ _ _ hi => indexTable1_tells hi

theorem indexEnumValues_tells (e : EnumBlock) :
    Tells input (inTurn (fun vals v _ =>
      v.settings.toList.flatMap (fun st => settingChecks st.attributes) ++
      [.err (∃ w ∈ vals, w.value.to_string = v.value.to_string) .duplicateEnumValue v.span_range]) [] e.values)
      (Indexer.indexEnumValues e.values input) := by
  unfold Indexer.indexEnumValues
  refine Tells.foldlM (Inv := fun pre idx => ∀ n, n ∈ idx ↔ n ∈ pre.map (·.value.to_string)) e.values [] (by simp) ?_ ?_
  · intro pre c post idx idx' _ hi h
    obtain ⟨_, _, h⟩ := Rs.bind_eq_ok.1 h
    split at h
    · unfold throwErr at h; split at h <;> cases h
    · cases h
      intro n
      simp [hi, or_comm]
  · intro pre v post idx _ hi
    refine (checkSettings_tells v.settings (·.attributes)).bind fun _ _ _ => ?_
    exact Tells.ite (mem_map_iff hi) fun _ => .ok .nil

theorem indexEnum1_tells {ts} {pre : List EnumBlock} {e : EnumBlock} {ix : Indexer} (hi : EInv ts pre ix) :
    Tells input (enumChecks pre e) (ix.indexEnum1 e input) := by
  unfold enumChecks Indexer.indexEnum1
  refine Tells.ite (containsEnum_iff hi.knows e) fun _ => ?_
  exact (indexEnumValues_tells e).bind_ok fun cs _ => ⟨_, rfl⟩

theorem indexEnums_tells {ts ix} (hk : Knows ts [] ix) (hg : ix.table_group_map = []) :
    Tells input (inTurn (fun before e _ => enumChecks before e) [] s.enums) (ix.indexEnums s.enums input) :=
  Tells.foldlM (Inv := EInv ts) s.enums ix ⟨hk, by simp, by simp, by simp, hg⟩
    (fun _ _ _ _ _ _ hi h => (indexEnum1_out (input := input) (K := NoK) hi).of_ok h) fun _ _ _ _ _ hi => indexEnum1_tells hi

theorem groupItem_tells {ix} (hk : Indexed s ix) (i : TableGroupItem) :
    Tells input [.err (∀ k, ¬ GroupTarget s i k) .tableNotFound i.span_range] (ix.groupItemIdent i input) := by
  have hout := groupItem_out (input := input) (K := NoK) (before := []) hk (g := { items := [i] }) (i := i) (by simp)
  have hok : ∀ k, ix.groupItemIdent i input = .ok k →
      Tells input [.err (∀ k, ¬ GroupTarget s i k) .tableNotFound i.span_range] (ix.groupItemIdent i input) := by
    intro k h
    rw [h]
    exact .ok (passes_cons.2 ⟨fun hb => hb k (hout.of_ok h), .nil⟩)
  unfold Indexer.groupItemIdent at hout hok ⊢
  cases hsc : i.schema with
  | some sc => simp only [hsc] at hok; exact hok _ rfl
  | none =>
    simp only [hsc] at hok hout ⊢
    cases hr : ix.resolveAlias i.ident_alias.to_string with
    | some k => simp only [hr] at hok; exact hok _ rfl
    | none =>
      simp only [hr] at hok hout ⊢
      by_cases h : ix.containsTable DEFAULT_SCHEMA i.ident_alias.to_string = true
      · rw [if_pos h] at hok ⊢
        exact hok _ rfl
      · rw [if_neg h]
        refine .throw ?_
        rw [containsTable_eq, Bool.not_eq_true, Option.isSome_eq_false_iff, Option.isNone_iff_eq_none] at h
        intro k hkt
        simp only [GroupTarget, hsc] at hkt
        rcases hkt with ⟨t, h1, -⟩ | ⟨-, rfl, t, h1, h2⟩
        · exact hk.alias_none _ hr t h1.1 h1.2
        · exact hk.table_none _ h t h1 h2

theorem indexGroupItems_tells {ix} (hk : Indexed s ix) (hal : (s.tables.filterMap aliasOf).Nodup) (g : TableGroupBlock) :
    Tells input (inTurn (fun items i _ =>
      [.err (∀ k, ¬ GroupTarget s i k) .tableNotFound i.span_range,
       .err (∃ j ∈ items, ∃ k, GroupTarget s j k ∧ GroupTarget s i k) .duplicateTableGroupItem i.span_range]) [] g.items)
      (ix.indexGroupItems g.items input) := by
  unfold Indexer.indexGroupItems
  refine Tells.foldlM (Inv := fun pre idx => ∃ ks, GroupTargets s pre ks ∧ ∀ k, k ∈ idx ↔ k ∈ ks) g.items []
    ⟨[], .nil, by simp⟩ ?_ ?_
  · rintro pre i post idx idx' hs ⟨ks, h1, h2⟩ h
    obtain ⟨k, hkt, h⟩ := Rs.bind_eq_ok.1 h
    have hkt := (groupItem_out (input := input) (K := NoK) (before := []) hk (g := g) (i := i) (by simp [hs])).of_ok hkt
    split at h
    · unfold throwErr at h; split at h <;> cases h
    · cases h
      refine ⟨ks ++ [k], GroupTargets.append h1 (.cons hkt .nil), fun x => by simp [h2, or_comm]⟩
  · rintro pre i post idx hs ⟨ks, h1, h2⟩
    refine Tells.bind (l := [_]) (groupItem_tells hk i) fun k hkt _ => ?_
    have hkt := (groupItem_out (input := input) (K := NoK) (before := []) hk (g := g) (i := i) (by simp [hs])).of_ok hkt
    refine Tells.ite ?_ fun _ => .ok .nil
    rw [List.contains_iff_mem, h2]
    constructor
    · intro h
      obtain ⟨j, hj, hjt⟩ := GroupTargets.mem h1 h
      exact ⟨j, hj, k, hjt, hkt⟩
    · rintro ⟨j, hj, k', hj', hi'⟩
      obtain ⟨k'', hk'', hj''⟩ := GroupTargets.mem_left h1 hj
      rw [groupTarget_unique hal hkt hi', groupTarget_unique hal hj' hj'']
      exact hk''

theorem indexGroup1_tells (hal : (s.tables.filterMap aliasOf).Nodup) {pre : List TableGroupBlock} {g : TableGroupBlock}
    {ix : Indexer} (hi : GInv s pre ix) : Tells input (groupChecks s pre g) (ix.indexTableGroup1 g input) := by
  unfold groupChecks Indexer.indexTableGroup1
  refine Tells.ite ?_ fun _ => ?_
  · unfold mapContains
    rw [hi.map, List.mem_map]
  · exact (indexGroupItems_tells hi.knows hal g).bind_ok fun _ _ => ⟨_, rfl⟩

theorem indexGroups_tells {ix} (hk : Indexed s ix) (hal : (s.tables.filterMap aliasOf).Nodup)
    (hg : ix.table_group_map = []) :
    Tells input (inTurn (fun before g _ => groupChecks s before g) [] s.table_groups)
      (ix.indexTableGroups s.table_groups input) :=
  Tells.foldlM (Inv := GInv s) s.table_groups ix ⟨hk, by simp, by simp, by simp [hg]⟩
    (fun _ _ _ _ _ _ hi h => (indexGroup1_out (input := input) (K := NoK) hi).of_ok h)
    fun _ _ _ _ _ hi => indexGroup1_tells hal hi

/-! ## Keys -/

theorem sel_ne_nil {α : Type} {P : α → Prop} [DecidablePred P] {xs : List α} :
    sel P xs ≠ [] ↔ ∃ x ∈ xs, P x := by
  simp [sel]

theorem checkColumn_tells {pre : List TableColumn} {c : TableColumn} {ti} (hi : CInv pre ti) :
    Tells input (columnKeyChecks pre c) (checkColumn ti c input) := by
  unfold columnKeyChecks checkColumn
  cases hst : c.settings with
  | none => exact .ok .nil
  | some st =>
    have hpk := isPkCol_some hst
    simp only [Option.toList_some, List.flatMap_cons, List.flatMap_nil, List.append_nil]
    refine Tells.bind (l := [_, _, _]) (l' := [_]) ?_ fun ti' _ _ => ?_
    · unfold checkColumnPk
      by_cases h : st.is_pk = true
      · rw [if_pos h]
        refine Tells.ite ?_ fun _ => Tells.ite ?_ fun _ => Tells.ite ?_ fun _ => .ok .nil
        · rw [hpk, ← sel_ne_nil, hi.pk]
          simp [h, sel]
        · simp [hpk, h]
        · simp [hpk, h]
      · rw [if_neg h]
        have h : ¬ IsPkCol c := fun h' => h (hpk.1 h')
        exact .skip (fun h' => h h'.1) (.skip (fun h' => h h'.1) (.skip (fun h' => h h'.1) (.ok .nil)))
    · refine Tells.ite ?_ fun _ => .ok .nil
      simp only [nullConflict, Bool.and_eq_true, List.contains_iff_mem]
      exact and_comm

theorem checkIndexCols_tells (t : TableBlock) (l : List IndexesColumnType) :
    Tells input (l.flatMap fun
      | .string i => [.err (i.to_string ∉ colNames t) .columnNotFound i.span_range]
      | .expr _ => []) (checkIndexCols t.cols input l) := by
  induction l with
  | nil => exact .ok .nil
  | cons x l ih =>
    rw [List.flatMap_cons]
    cases x with
    | expr e => exact ih
    | string i =>
      unfold checkIndexCols
      have : (t.cols.any fun c => decide (c.name.to_string = i.to_string)) = true ↔ i.to_string ∈ colNames t := by
        simp [colNames]
      by_cases h : i.to_string ∈ colNames t
      · rw [if_pos (this.2 h)]
        exact .skip (fun h' => h' h) ih
      · rw [if_neg fun h' => h (this.1 h')]
        exact .throw h

theorem checkIndexDef_tells {t : TableBlock} {sp : Span} {pre d ti} (hi : DInv t pre ti) :
    Tells input (indexChecks t sp pre d) (checkIndexDef ti t.cols sp d input) := by
  unfold indexChecks checkIndexDef
  simp only [List.append_assoc]
  refine Tells.ite (by simp) fun _ => ?_
  refine (checkIndexCols_tells t d.cols).bind fun _ _ _ => ?_
  cases hst : d.settings with
  | none =>
    refine Tells.ite ?_ fun _ => .ok .nil
    have hplain : plainIndex d = some (indexNames d, none) := by simp [plainIndex, hst]
    simp only [hi.indexed, List.any_eq_true, List.mem_filterMap, defNames_eq, hplain, Repeats]
    constructor
    · rintro ⟨e, ⟨d', hd', he⟩, h5⟩
      exact ⟨d', hd', e, _, he, rfl, of_decide_eq_true h5, .inl rfl⟩
    · rintro ⟨d', hd', e, _, he, h, h5, -⟩
      cases h
      exact ⟨e, ⟨d', hd', he⟩, decide_eq_true h5⟩
  | some st =>
    have hpk := isPkIndex_some hst
    have hun := isUniqueIndex_some hst
    simp only [Option.toList_some, List.flatMap_cons, List.flatMap_nil, List.append_nil, List.append_assoc]
    refine (checkAttr_tells st.attributes).bind fun _ _ _ => ?_
    refine Tells.ite ?_ fun h2 => ?_
    · rw [count2]
      simp [Option.isSome_iff_ne_none]
    simp only [not_or] at h2
    refine Tells.bind (l := [_, _]) (l' := [_]) ?_ fun ti' hti' _ => ?_
    · unfold checkIndexKey
      by_cases hp : st.is_pk = true
      · rw [if_pos hp]
        have hnu : ¬ IsUniqueIndex d := fun h' => h2.1 ⟨hp, hun.1 h'⟩
        refine Tells.ite ?_ fun _ => .skip (fun h => hnu h.1) (.ok .nil)
        rw [hi.pk, hpk, ← sel_ne_nil]
        simp only [hp, true_and, Bool.not_eq_true', List.isEmpty_eq_false_iff, ne_eq, List.append_eq_nil_iff,
          List.map_eq_nil_iff, List.flatMap_eq_nil_iff, Decidable.not_and_iff_or_not]
        refine or_congr Iff.rfl ?_
        simp only [Classical.not_forall, sel, List.mem_filter, decide_eq_true_eq]
        constructor
        · rintro ⟨x, ⟨h1, h2⟩, h3⟩; exact ⟨x, h1, h2, h3⟩
        · rintro ⟨x, h1, h2, h3⟩; exact ⟨x, ⟨h1, h2⟩, h3⟩
      · rw [if_neg hp]
        refine .skip (fun h => hp (hpk.1 h.1)) ?_
        by_cases hu : st.is_unique = true
        · rw [if_pos hu]
          refine Tells.ite ?_ fun _ => .ok .nil
          simp only [hun, hu, true_and, List.any_eq_true, List.all_eq_true, List.contains_iff_mem, defNames_eq, hi.unique,
            List.mem_append, List.mem_map, sel, List.mem_filter, decide_eq_true_eq]
          constructor
          · rintro ⟨u, ⟨c, ⟨hc, hu'⟩, rfl⟩ | ⟨d', ⟨hd', hu'⟩, rfl⟩, h⟩
            · exact .inl ⟨c, hc, hu', h⟩
            · exact .inr ⟨d', hd', hu', h⟩
          · rintro (⟨c, hc, hu', h⟩ | ⟨d', hd', hu', h⟩)
            · exact ⟨_, .inl ⟨c, ⟨hc, hu'⟩, rfl⟩, h⟩
            · exact ⟨_, .inr ⟨d', ⟨hd', hu'⟩, rfl⟩, h⟩
        · rw [if_neg hu]
          exact .skip (fun h => hu (hun.1 h.1)) (.ok .nil)
    · have hidx : ti'.indexed_list = ti.indexed_list := by
        unfold checkIndexKey throwErr at hti'
        dsimp only at hti'
        repeat' split at hti'
        all_goals first | cases hti'; rfl | cases hti'
      unfold checkIndexType
      cases hty : st.type with
      | none =>
        have hplain : plainIndex d = none := by simp [plainIndex, hst, hty]
        refine .skip ?_ (.ok .nil)
        rintro ⟨d', -, x, y, -, h, -⟩
        rw [hplain] at h; cases h
      | some ty =>
        have hplain : plainIndex d = some (indexNames d, some ty) := by simp [plainIndex, hst, hty]
        simp only [Option.isSome_some, if_true]
        refine Tells.ite ?_ fun _ => .ok .nil
        simp only [hidx, hi.indexed, List.any_eq_true, Bool.and_eq_true, decide_eq_true_eq, List.mem_filterMap, defNames_eq,
          hplain, Repeats]
        constructor
        · rintro ⟨e, ⟨d', hd', he⟩, h5, h6⟩
          exact ⟨d', hd', e, _, he, rfl, of_decide_eq_true h5, .inr h6⟩
        · rintro ⟨d', hd', e, _, he, h, h5, h6⟩
          cases h
          rcases h6 with h6 | h6
          · cases h6
          · exact ⟨e, ⟨d', hd', he⟩, decide_eq_true h5, h6⟩

theorem checkTable_tells {t : TableBlock} (hn : (colNames t).Nodup) :
    Tells input (keyChecks t) (checkTable t input) := by
  unfold keyChecks checkTable
  refine Tells.bind (Tells.foldlM (Inv := CInv) t.cols {} ⟨rfl, by simp, rfl, rfl, by simp⟩
    (fun _ _ _ _ _ hs hi h => (checkColumn_out (input := input) (K := NoK) hs hi).of_ok h)
    fun _ _ _ _ _ hi => checkColumn_tells hi) fun ti hti _ => ?_
  have hc := (checkColumns_out (input := input) (K := NoK)).of_ok hti
  have h0 : DInv t [] ti := by
    refine ⟨by simp [hc.pk, sel], by simp, by simp [sel], by simp [hc.unique, sel], ?_, by simp [hc.indexed], by simp,
      by simp, by simp⟩
    rw [hc.unique]
    exact uniqueCols_pairwise hn
  cases hb : t.indexes with
  | none => exact .ok .nil
  | some b =>
    simp only [Option.toList_some, List.flatMap_cons, List.flatMap_nil, List.append_nil]
    refine Tells.bind_ok (Tells.foldlM (Inv := DInv t) b.defs ti h0
      (fun _ _ _ _ _ hs hi h => (checkIndexDef_out (input := input) (K := NoK) hb hs hi).of_ok h)
      fun _ _ _ _ _ hi => checkIndexDef_tells hi) fun _ _ => ⟨_, rfl⟩

end
end Dbml
