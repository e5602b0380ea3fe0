import Verif.Proofs.Index

/-!
# The key and index checks of a table
-/

namespace Dbml
open Spec

theorem isPkCol_some {c : TableColumn} {st} (h : c.settings = some st) : IsPkCol c ↔ st.is_pk = true := by
  simp [IsPkCol, h]
theorem isUniqueCol_some {c : TableColumn} {st} (h : c.settings = some st) : IsUniqueCol c ↔ st.is_unique = true := by
  simp [IsUniqueCol, h]
theorem isPkIndex_some {c : IndexesDef} {st} (h : c.settings = some st) : IsPkIndex c ↔ st.is_pk = true := by
  simp [IsPkIndex, h]
theorem isUniqueIndex_some {c : IndexesDef} {st} (h : c.settings = some st) : IsUniqueIndex c ↔ st.is_unique = true := by
  simp [IsUniqueIndex, h]

/-- Filtering by a decidable predicate. -/
abbrev sel {α : Type} (P : α → Prop) [DecidablePred P] (xs : List α) : List α := xs.filter fun x => P x

theorem sel_snoc_pos {α : Type} {P : α → Prop} [DecidablePred P] {xs : List α} {x : α} (h : P x) :
    sel P (xs ++ [x]) = sel P xs ++ [x] := by
  simp [sel, h]
theorem sel_snoc_neg {α : Type} {P : α → Prop} [DecidablePred P] {xs : List α} {x : α} (h : ¬ P x) :
    sel P (xs ++ [x]) = sel P xs := by
  simp [sel, h]

/-- After the columns `cs`. -/
structure CInv (cs : List TableColumn) (ti : TableIndexer) : Prop where
  pk : ti.pk_list = (sel IsPkCol cs).map (·.name.to_string)
  pk1 : (sel IsPkCol cs).length ≤ 1
  unique : ti.unique_list = (sel IsUniqueCol cs).map fun c => [c.name.to_string]
  indexed : ti.indexed_list = []
  ok : ∀ c ∈ cs, ColumnSettingsOk c

section
variable {s : SchemaBlock} {input : Str} {K : PanicSite → Prop}

theorem snoc_forall {α : Type} {P : α → Prop} {xs : List α} {x : α} (h : ∀ y ∈ xs, P y) (hx : P x) :
    ∀ y ∈ xs ++ [x], P y := by
  simp only [List.mem_append, List.mem_singleton]
  rintro y (hy | rfl)
  · exact h y hy
  · exact hx

theorem checkColumn_out {t : TableBlock} {pre c post ti} (hs : t.cols = pre ++ c :: post)
    (hi : CInv pre ti) : Outcome input (CInv (pre ++ [c])) (KeyDefect t) K (checkColumn ti c input) := by
  have hc : c ∈ t.cols := by simp [hs]
  unfold checkColumn
  split
  · rename_i hst
    have h1 : ¬ IsPkCol c := by simp [IsPkCol, hst]
    have h2 : ¬ IsUniqueCol c := by simp [IsUniqueCol, hst]
    refine ⟨?_, ?_, ?_, hi.indexed, snoc_forall hi.ok (by simp [ColumnSettingsOk, hst])⟩
    · rw [sel_snoc_neg h1]; exact hi.pk
    · rw [sel_snoc_neg h1]; exact hi.pk1
    · rw [sel_snoc_neg h2]; exact hi.unique
  · rename_i st hst
    refine Outcome.bind (P := fun ti' => ti'.pk_list = (sel IsPkCol (pre ++ [c])).map (·.name.to_string) ∧
      (sel IsPkCol (pre ++ [c])).length ≤ 1 ∧ ti'.unique_list = ti.unique_list ∧
      ti'.indexed_list = [] ∧ (st.is_pk = true → st.nullable ≠ some .null ∧ c.type.arrays = [])) ?_ ?_
    · unfold checkColumnPk
      refine Outcome.ite (fun h => ?_) fun h => ?_
      · have hpk := (isPkCol_some hst).2 h
        refine Outcome.ite (fun h1 => ?_) fun h1 => Outcome.ite (fun h2 => ?_) fun h2 =>
          Outcome.ite (fun h3 => ?_) fun h3 => ?_
        · rw [hi.pk] at h1
          have : sel IsPkCol pre ≠ [] := by
            intro h'; rw [h'] at h1; simp at h1
          obtain ⟨c', hc'⟩ := List.exists_mem_of_ne_nil _ this
          have hc' := List.mem_filter.1 hc'
          exact Outcome.throw (.pkColumn hs hc'.1 (by simpa using hc'.2) hpk)
        · exact Outcome.throw (.pkNull hc hpk (by simp [nullableOfCol, hst, h2]))
        · exact Outcome.throw (.pkArray hc hpk (by simpa using h3))
        · have h4 : sel IsPkCol pre = [] := by
            have : ti.pk_list = [] := by simpa using h1
            rw [hi.pk] at this
            simpa using this
          refine ⟨?_, ?_, rfl, hi.indexed, fun _ => ⟨h2, by simpa using h3⟩⟩
          · rw [sel_snoc_pos hpk, hi.pk]; simp
          · rw [sel_snoc_pos hpk, h4]; simp
      · have hpk : ¬ IsPkCol c := fun h' => h ((isPkCol_some hst).1 h')
        refine ⟨?_, ?_, rfl, hi.indexed, fun h' => absurd h' h⟩
        · rw [sel_snoc_neg hpk]; exact hi.pk
        · rw [sel_snoc_neg hpk]; exact hi.pk1
    · rintro ti' ⟨h1, h2, h3, h4, h5⟩
      refine Outcome.ite (fun h => ?_) fun h => ?_
      · simp only [nullConflict, Bool.and_eq_true, List.contains_iff_mem, List.mem_map] at h
        obtain ⟨⟨b, hb, hb'⟩, ⟨a, ha, ha'⟩⟩ := h
        exact Outcome.throw (.nullNotNull hc hst ha hb ha' hb')
      · simp only [nullConflict, Bool.and_eq_true, List.contains_iff_mem, not_and] at h
        have hok : ColumnSettingsOk c := by
          intro st' hst'
          rw [hst] at hst'
          cases hst'
          exact ⟨h5, fun h' => h h'.2 h'.1⟩
        by_cases hu : st.is_unique = true
        · have hu' := (isUniqueCol_some hst).2 hu
          rw [if_pos hu]
          refine ⟨h1, h2, ?_, h4, snoc_forall hi.ok hok⟩
          show ti'.unique_list ++ _ = _
          rw [sel_snoc_pos hu', h3, hi.unique]; simp
        · have hu' : ¬ IsUniqueCol c := fun h' => hu ((isUniqueCol_some hst).1 h')
          rw [if_neg hu]
          refine ⟨h1, h2, ?_, h4, snoc_forall hi.ok hok⟩
          rw [sel_snoc_neg hu', h3, hi.unique]

theorem checkColumns_out {t : TableBlock} :
    Outcome input (CInv t.cols) (KeyDefect t) K
      (t.cols.foldlM (init := ({} : TableIndexer)) fun ti col => checkColumn ti col input) :=
  Outcome.foldlM (Inv := CInv) t.cols {} ⟨rfl, by simp, rfl, rfl, by simp⟩
    fun _ _ _ _ hs hi => checkColumn_out hs hi

theorem checkIndexCols_out {t : TableBlock} {d} (hd : d ∈ defsOf t) {l}
    (hl : ∀ x ∈ l, x ∈ d.cols) :
    Outcome input (fun _ => ∀ i, IndexesColumnType.string i ∈ l → i.to_string ∈ colNames t) (KeyDefect t) K
      (checkIndexCols t.cols input l) := by
  induction l with
  | nil => simp [checkIndexCols, Outcome]
  | cons x l ih =>
    have ih := ih fun y hy => hl y (by simp [hy])
    cases x with
    | string i =>
      unfold checkIndexCols
      refine Outcome.ite (fun h => ?_) fun h => ?_
      · refine ih.mono ?_ (fun _ _ h => h) fun _ h => h
        intro _ h1 j hj
        rcases List.mem_cons.1 hj with h2 | h2
        · cases h2
          simp only [List.any_eq_true, decide_eq_true_eq] at h
          obtain ⟨c, hc, he⟩ := h
          exact List.mem_map.2 ⟨c, hc, he⟩
        · exact h1 j h2
      · refine Outcome.throw (.indexColumn hd (hl _ (by simp)) ?_)
        intro hm
        obtain ⟨c, hc, he⟩ := List.mem_map.1 hm
        apply h
        simp only [List.any_eq_true, decide_eq_true_eq]
        exact ⟨c, hc, he⟩
    | expr e =>
      unfold checkIndexCols
      refine ih.mono ?_ (fun _ _ h => h) fun _ h => h
      intro _ h1 j hj
      rcases List.mem_cons.1 hj with h2 | h2
      · cases h2
      · exact h1 j h2

theorem defNames_eq (d : IndexesDef) : IndexedRef.defNames d = indexNames d := rfl

theorem mem_indexNames {d : IndexesDef} {n : Str} :
    n ∈ indexNames d ↔ ∃ i, IndexesColumnType.string i ∈ d.cols ∧ i.to_string = n := by
  simp only [indexNames, List.mem_filterMap]
  constructor
  · rintro ⟨x, hx, h⟩
    cases x with
    | string i => simp at h; exact ⟨i, hx, h⟩
    | expr _ => simp at h
  · rintro ⟨i, hi, rfl⟩
    exact ⟨_, hi, rfl⟩

theorem count2 (a b c : Bool) :
    1 < ([a, b, c].filter (·)).length ↔ (a = true ∧ b = true ∨ a = true ∧ c = true ∨ b = true ∧ c = true) := by
  cases a <;> cases b <;> cases c <;> decide

/-- After the index definitions `ds`. -/
structure DInv (t : TableBlock) (ds : List IndexesDef) (ti : TableIndexer) : Prop where
  pk : ti.pk_list = (sel IsPkCol t.cols).map (·.name.to_string) ++ (sel IsPkIndex ds).flatMap indexNames
  pkCol : ∀ c ∈ t.cols, ∀ d ∈ ds, ¬ (IsPkCol c ∧ IsPkIndex d)
  pkIdx : (sel IsPkIndex ds).Pairwise fun d _ => indexNames d = []
  unique : ti.unique_list = (sel IsUniqueCol t.cols).map (fun c => [c.name.to_string]) ++
    (sel IsUniqueIndex ds).map indexNames
  uniqueP : ti.unique_list.Pairwise fun u v => ¬ v ⊆ u
  indexed : ti.indexed_list = ds.filterMap plainIndex
  indexedP : (ds.filterMap plainIndex).Pairwise fun a b => ¬ Repeats a b
  ok : ∀ d ∈ ds, IndexOk t d
  keys : ∀ d ∈ ds, ∀ st, d.settings = some st → DistinctKeys st.attributes

theorem pairwise_snoc {α : Type} {R : α → α → Prop} {xs : List α} {x : α} :
    (xs ++ [x]).Pairwise R ↔ xs.Pairwise R ∧ ∀ y ∈ xs, R y x := by
  rw [List.pairwise_append]
  simp

theorem pkIdx_snoc {t : TableBlock} {ds d ti} (hi : DInv t ds ti) (h : ti.pk_list = []) :
    (∀ c ∈ t.cols, ∀ d' ∈ ds ++ [d], ¬ (IsPkCol c ∧ IsPkIndex d')) ∧
    (sel IsPkIndex (ds ++ [d])).Pairwise fun d _ => indexNames d = [] := by
  have h' := h
  rw [hi.pk, List.append_eq_nil_iff] at h'
  obtain ⟨h1, h2⟩ := h'
  have h1 : sel IsPkCol t.cols = [] := by simpa using h1
  rw [List.flatMap_eq_nil_iff] at h2
  refine ⟨?_, ?_⟩
  · rintro c hc d' - ⟨hp, -⟩
    have : c ∈ sel IsPkCol t.cols := List.mem_filter.2 ⟨hc, by simpa using hp⟩
    simp [h1] at this
  · by_cases hd : IsPkIndex d
    · rw [sel_snoc_pos hd]
      exact pairwise_snoc.2 ⟨hi.pkIdx, h2⟩
    · rw [sel_snoc_neg hd]; exact hi.pkIdx

theorem checkIndexDef_out {t : TableBlock} {b : IndexesBlock} (hb : t.indexes = some b)
    {pre d post ti} (hs : b.defs = pre ++ d :: post) (hi : DInv t pre ti) :
    Outcome input (DInv t (pre ++ [d])) (KeyDefect t) K (checkIndexDef ti t.cols b.span_range d input) := by
  have hdefs : defsOf t = b.defs := by simp [defsOf, hb]
  have hdef : defsOf t = pre ++ d :: post := hdefs.trans hs
  have hd : d ∈ defsOf t := by simp [hdef]
  unfold checkIndexDef
  refine Outcome.ite (fun h => ?_) fun h => ?_
  · exact Outcome.throw (.emptyIndex (d := d) hb (by simp [hs]) (by simpa using h))
  refine (checkIndexCols_out hd (fun _ h => h)).bind fun _ hcols => ?_
  have hnames : ∀ n ∈ indexNames d, n ∈ colNames t := by
    intro n hn
    obtain ⟨i, h1, rfl⟩ := mem_indexNames.1 hn
    exact hcols i h1
  have hne : d.cols ≠ [] := by simpa using h
  split
  · rename_i st hst
    refine (checkAttr_out fun a ha => .attr (mem_indexAttrs hd hst) ha).bind fun _ hkeys => ?_
    have hkeys' : ∀ st', d.settings = some st' → DistinctKeys st'.attributes := by
      intro st' h'; rw [hst] at h'; cases h'; exact hkeys
    refine Outcome.ite (fun h2 => ?_) fun h2 => ?_ <;> rw [count2] at h2
    · refine Outcome.throw (.indexSetting hd hst ?_)
      simpa [Option.isSome_iff_ne_none] using h2
    simp only [Option.isSome_iff_ne_none, not_or] at h2
    have hok : IndexOk t d := by
      refine ⟨hne, hnames, ?_⟩
      intro st' h'; rw [hst] at h'; cases h'; exact h2
    have hPk : ∀ {b'}, st.is_pk = b' → (IsPkIndex d ↔ b' = true) := fun h' => by
      rw [isPkIndex_some hst, h']
    refine Outcome.bind (P := fun ti' =>
      (ti'.pk_list = (sel IsPkCol t.cols).map (·.name.to_string) ++ (sel IsPkIndex (pre ++ [d])).flatMap indexNames) ∧
      (∀ c ∈ t.cols, ∀ d' ∈ pre ++ [d], ¬ (IsPkCol c ∧ IsPkIndex d')) ∧
      ((sel IsPkIndex (pre ++ [d])).Pairwise fun d _ => indexNames d = []) ∧
      (ti'.unique_list = (sel IsUniqueCol t.cols).map (fun c => [c.name.to_string]) ++
        (sel IsUniqueIndex (pre ++ [d])).map indexNames) ∧
      (ti'.unique_list.Pairwise fun u v => ¬ v ⊆ u) ∧
      ti'.indexed_list = ti.indexed_list) ?_ ?_
    · unfold checkIndexKey
      refine Outcome.ite (fun hp => ?_) fun hp => ?_
      · have hpk := (isPkIndex_some hst).2 hp
        have hnu : ¬ IsUniqueIndex d := fun h' => h2.1 ⟨hp, (isUniqueIndex_some hst).1 h'⟩
        refine Outcome.ite (fun h3 => ?_) fun h3 => ?_
        · rw [hi.pk] at h3
          have h3 : (sel IsPkCol t.cols).map (·.name.to_string) ++ (sel IsPkIndex pre).flatMap indexNames ≠ [] := by
            intro h'; rw [h'] at h3; simp at h3
          by_cases h4 : sel IsPkCol t.cols = []
          · rw [h4] at h3
            simp only [List.map_nil, List.nil_append, ne_eq, List.flatMap_eq_nil_iff, Classical.not_forall] at h3
            obtain ⟨d', hd', h5⟩ := h3
            obtain ⟨h6, h7⟩ := List.mem_filter.1 hd'
            exact Outcome.throw (.pkIndexes hdef h6 (by simpa using h7) h5 hpk)
          · obtain ⟨c, hc⟩ := List.exists_mem_of_ne_nil _ h4
            obtain ⟨h6, h7⟩ := List.mem_filter.1 hc
            exact Outcome.throw (.pkIndex h6 (by simpa using h7) hd hpk)
        · have h4 : ti.pk_list = [] := by simpa using h3
          obtain ⟨h5, h6⟩ := pkIdx_snoc (d := d) hi h4
          refine ⟨?_, h5, h6, ?_, hi.uniqueP, rfl⟩
          · show ti.pk_list ++ _ = _
            rw [sel_snoc_pos hpk, hi.pk, defNames_eq]; simp
          · rw [sel_snoc_neg hnu]; exact hi.unique
      · have hnp : ¬ IsPkIndex d := fun h' => hp ((isPkIndex_some hst).1 h')
        have hA : ∀ c ∈ t.cols, ∀ d' ∈ pre ++ [d], ¬ (IsPkCol c ∧ IsPkIndex d') := by
          intro c hc
          exact snoc_forall (hi.pkCol c hc) (fun h' => hnp h'.2)
        refine Outcome.ite (fun hu => ?_) fun hu => ?_
        · have hu' := (isUniqueIndex_some hst).2 hu
          refine Outcome.ite (fun h3 => ?_) fun h3 => ?_
          · simp only [List.any_eq_true, List.all_eq_true, List.contains_iff_mem, defNames_eq] at h3
            obtain ⟨u, hu1, hu2⟩ := h3
            rw [hi.unique, List.mem_append] at hu1
            rcases hu1 with hu1 | hu1
            · obtain ⟨c, hc, rfl⟩ := List.mem_map.1 hu1
              obtain ⟨h6, h7⟩ := List.mem_filter.1 hc
              exact Outcome.throw (.uniqueColumn h6 (by simpa using h7) hd hu' hu2)
            · obtain ⟨d', hd', rfl⟩ := List.mem_map.1 hu1
              obtain ⟨h6, h7⟩ := List.mem_filter.1 hd'
              exact Outcome.throw (.uniqueIndex hdef h6 (by simpa using h7) hu' hu2)
          · simp only [List.any_eq_true, List.all_eq_true, List.contains_iff_mem, defNames_eq, not_exists,
              not_and] at h3
            refine ⟨?_, hA, ?_, ?_, ?_, rfl⟩
            · rw [sel_snoc_neg hnp]; exact hi.pk
            · rw [sel_snoc_neg hnp]; exact hi.pkIdx
            · show ti.unique_list ++ _ = _
              rw [sel_snoc_pos hu', hi.unique, defNames_eq]; simp
            · exact pairwise_snoc.2 ⟨hi.uniqueP, fun u hu' hsub => h3 u hu' fun n hn => hsub hn⟩
        · have hnu : ¬ IsUniqueIndex d := fun h' => hu ((isUniqueIndex_some hst).1 h')
          refine ⟨?_, hA, ?_, ?_, hi.uniqueP, rfl⟩
          · rw [sel_snoc_neg hnp]; exact hi.pk
          · rw [sel_snoc_neg hnp]; exact hi.pkIdx
          · rw [sel_snoc_neg hnu]; exact hi.unique
    · rintro ti' ⟨g1, g2, g3, g4, g5, g6⟩
      unfold checkIndexType
      refine Outcome.ite (fun h3 => ?_) fun h3 => ?_
      · obtain ⟨ty, hty⟩ := Option.isSome_iff_exists.1 h3
        have hplain : plainIndex d = some (indexNames d, some ty) := by simp [plainIndex, hst, hty]
        refine Outcome.ite (fun h4 => ?_) fun h4 => ?_
        · simp only [g6, hi.indexed, List.any_eq_true, Bool.and_eq_true, decide_eq_true_eq,
            List.mem_filterMap] at h4
          simp only [defNames_eq] at h4
          obtain ⟨e, ⟨d', hd', he⟩, h5, h6⟩ := h4
          exact Outcome.throw (.indexAgain hdef hd' he hplain ⟨h5, Or.inr (h6.trans hty)⟩)
        · simp only [g6, hi.indexed, List.any_eq_true, Bool.and_eq_true, decide_eq_true_eq,
            not_exists, not_and] at h4
          simp only [defNames_eq] at h4
          have hfm : (pre ++ [d]).filterMap plainIndex = pre.filterMap plainIndex ++ [(indexNames d, some ty)] := by
            rw [List.filterMap_append]; simp [hplain]
          refine ⟨g1, g2, g3, g4, g5, ?_, ?_, snoc_forall hi.ok hok, snoc_forall hi.keys hkeys'⟩
          · show ti'.indexed_list ++ _ = _
            rw [hfm, g6, hi.indexed, hty, defNames_eq]
          · rw [hfm]
            refine pairwise_snoc.2 ⟨hi.indexedP, ?_⟩
            rintro e he ⟨h5, h6⟩
            rcases h6 with h6 | h6
            · simp at h6
            · exact h4 e he h5 (h6.trans hty.symm)
      · have hty : st.type = none := by simpa using h3
        have hplain : plainIndex d = none := by simp [plainIndex, hst, hty]
        have hfm : (pre ++ [d]).filterMap plainIndex = pre.filterMap plainIndex := by
          rw [List.filterMap_append]; simp [hplain]
        refine ⟨g1, g2, g3, g4, g5, ?_, ?_, snoc_forall hi.ok hok, snoc_forall hi.keys hkeys'⟩
        · rw [hfm, g6, hi.indexed]
        · rw [hfm]; exact hi.indexedP
  · rename_i hst
    have hplain : plainIndex d = some (indexNames d, none) := by simp [plainIndex, hst]
    have hnp : ¬ IsPkIndex d := by simp [IsPkIndex, hst]
    have hnu : ¬ IsUniqueIndex d := by simp [IsUniqueIndex, hst]
    refine Outcome.ite (fun h4 => ?_) fun h4 => ?_
    · simp only [hi.indexed, List.any_eq_true, decide_eq_true_eq, List.mem_filterMap] at h4
      simp only [defNames_eq] at h4
      obtain ⟨e, ⟨d', hd', he⟩, h5⟩ := h4
      exact Outcome.throw (.indexAgain hdef hd' he hplain ⟨h5, Or.inl rfl⟩)
    · simp only [hi.indexed, List.any_eq_true, decide_eq_true_eq, not_exists, not_and] at h4
      simp only [defNames_eq] at h4
      have hfm : (pre ++ [d]).filterMap plainIndex = pre.filterMap plainIndex ++ [(indexNames d, none)] := by
        rw [List.filterMap_append]; simp [hplain]
      refine ⟨?_, ?_, ?_, ?_, hi.uniqueP, ?_, ?_, snoc_forall hi.ok ⟨hne, hnames, by simp [hst]⟩,
        snoc_forall hi.keys (by simp [hst])⟩
      · rw [sel_snoc_neg hnp]; exact hi.pk
      · intro c hc
        exact snoc_forall (hi.pkCol c hc) (fun h' => hnp h'.2)
      · rw [sel_snoc_neg hnp]; exact hi.pkIdx
      · rw [sel_snoc_neg hnu]; exact hi.unique
      · show ti.indexed_list ++ _ = _
        rw [hfm, hi.indexed, defNames_eq]
      · rw [hfm]
        exact pairwise_snoc.2 ⟨hi.indexedP, fun e he h5 => h4 e he h5.1⟩

/-- The part of a table's validity that `checkTable` establishes, with the distinct keys of index settings. -/
def TableChecked (t : TableBlock) : Prop :=
  TableOk t ∧ ∀ d ∈ defsOf t, ∀ st, d.settings = some st → DistinctKeys st.attributes

theorem uniqueCols_pairwise {cs : List TableColumn} (h : (cs.map (·.name.to_string)).Nodup) :
    ((sel IsUniqueCol cs).map fun c => [c.name.to_string]).Pairwise fun u v => ¬ v ⊆ u := by
  rw [List.pairwise_map]
  have h1 : cs.Pairwise fun a b => a.name.to_string ≠ b.name.to_string := List.pairwise_map.1 h
  refine (h1.filter _).imp ?_
  intro a b hab hsub
  have := hsub (List.mem_singleton.2 rfl)
  exact hab (List.mem_singleton.1 this).symm

theorem checkTable_out {t : TableBlock} (hn : (colNames t).Nodup) :
    Outcome input (fun _ => TableChecked t) (KeyDefect t) K (checkTable t input) := by
  unfold checkTable
  refine checkColumns_out.bind fun ti hc => ?_
  have h0 : DInv t [] ti := by
    refine ⟨by simp [hc.pk, sel], by simp, by simp [sel], by simp [hc.unique, sel], ?_, by simp [hc.indexed], by simp,
      by simp, by simp⟩
    rw [hc.unique]
    exact uniqueCols_pairwise hn
  have hfin : ∀ ti, DInv t (defsOf t) ti → TableChecked t := by
    intro ti hi
    refine ⟨⟨⟨hc.pk1, hi.pkCol, hi.pkIdx⟩, hc.ok, hi.ok, ?_, hi.indexedP⟩, hi.keys⟩
    have := hi.uniqueP
    rw [hi.unique] at this
    exact this
  split
  · rename_i b hb
    have hdefs : defsOf t = b.defs := by simp [defsOf, hb]
    refine (Outcome.foldlM (Inv := DInv t) b.defs ti h0
      fun _ _ _ _ hs hi => checkIndexDef_out hb hs hi).bind fun ti' hi => ?_
    exact hfin ti' (hdefs ▸ hi)
  · rename_i hb
    have hdefs : defsOf t = [] := by simp [defsOf, hb]
    exact hfin ti (hdefs ▸ h0)

end
end Dbml
