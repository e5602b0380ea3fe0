import Verif.Proofs.Refs

/-!
# The whole analysis
-/

namespace Dbml
open Spec

section
variable {s : SchemaBlock} {input : Str}

/-- The part of `analyze` before columns are typed. -/
def analyzePre (s : SchemaBlock) : Rs Indexer := do
  checkProject s.projects s.span_range s.input
  let ix ← Indexer.indexTable {} s.tables s.input
  let ix ← ix.indexEnums s.enums s.input
  let ix ← ix.indexTableGroups s.table_groups s.input
  forEach (fun t => checkTable t s.input) s.tables
  return ix

/-- The rest. -/
def analyzePost (s : SchemaBlock) (ix : Indexer) : Rs AnalyzedIndexer := do
  let typed ← s.tables.mapM (typeTable ix s.input)
  forEach (checkRef typed ix (refsInOrder s) s.input) (refsInOrder s)
  return { indexed_refs := refsInOrder s, indexer := ix }

theorem inlineRefs_eq (s : SchemaBlock) :
    s.refs.map IndexedRef.ofRefBlock ++ inlineRefs s.tables = refsInOrder s := by
  unfold refsInOrder inlineRefs columnRefs IndexedRef.fromInline IndexedRef.ofRefBlock
  refine congrArg _ ?_
  refine congrArg (fun f => List.flatMap f s.tables) (funext fun t => ?_)
  refine congrArg (fun f => List.flatMap f t.cols) (funext fun c => ?_)
  cases c.settings <;> simp

theorem analyze_split (s : SchemaBlock) : analyze s = analyzePre s >>= analyzePost s := by
  unfold analyze analyzePre analyzePost
  simp only [inlineRefs_eq]
  simp only [Rs.bind_def, Rs.pure_def, Rs.bind_assoc, Rs.ok_bind]

theorem tableChecked_ok {t : TableBlock} (h : TableChecked t) : KeysOk t := by
  refine ⟨h.1, fun as has => ?_⟩
  obtain ⟨d, hd, has⟩ := List.mem_flatMap.1 has
  obtain ⟨st, hst, rfl⟩ := List.mem_map.1 has
  exact h.2 d hd st (Option.mem_toList.1 hst)

/-- The attribute lists that are checked before the columns are typed, by stage. -/
theorem mem_structSettings {s : SchemaBlock} {as} : as ∈ structSettings s ↔
    (∃ t ∈ s.tables, as ∈ tableAttrs t) ∨ (∃ e ∈ s.enums, as ∈ enumAttrs e) ∨ ∃ t ∈ s.tables, as ∈ indexAttrs t := by
  constructor
  · intro has
    simp only [structSettings, List.mem_append, List.mem_map] at has
    rcases has with ((⟨st, h, rfl⟩ | ⟨st, h, rfl⟩) | ⟨st, h, rfl⟩) | ⟨st, h, rfl⟩
    · obtain ⟨t, ht, hst⟩ := List.mem_filterMap.1 h
      exact .inl ⟨t, ht, mem_tableAttrs (by simp [hst])⟩
    · obtain ⟨c, hc, hst⟩ := List.mem_filterMap.1 h
      obtain ⟨t, ht, hc⟩ := List.mem_flatMap.1 hc
      exact .inl ⟨t, ht, mem_tableAttrs_col hc (by simp [hst])⟩
    · obtain ⟨c, hc, hst⟩ := List.mem_filterMap.1 h
      obtain ⟨t, ht, hc⟩ := List.mem_flatMap.1 hc
      exact .inr (.inl ⟨t, ht, mem_enumAttrs hc (by simp [hst])⟩)
    · obtain ⟨d, hd, hst⟩ := List.mem_filterMap.1 h
      obtain ⟨b, hb, hd⟩ := List.mem_flatMap.1 hd
      obtain ⟨t, ht, hb⟩ := List.mem_filterMap.1 hb
      exact .inr (.inr ⟨t, ht, mem_indexAttrs (by simp [defsOf, hb, hd]) hst⟩)
  · intro h
    simp only [structSettings, List.mem_append, List.mem_map]
    rcases h with ⟨t, ht, h⟩ | ⟨e, he, h⟩ | ⟨t, ht, h⟩
    · rcases List.mem_append.1 h with h | h
      · obtain ⟨st, hst, rfl⟩ := List.mem_map.1 h
        exact .inl (.inl (.inl ⟨st, List.mem_filterMap.2 ⟨t, ht, Option.mem_toList.1 hst⟩, rfl⟩))
      · obtain ⟨c, hc, h⟩ := List.mem_flatMap.1 h
        obtain ⟨st, hst, rfl⟩ := List.mem_map.1 h
        exact .inl (.inl (.inr ⟨st, List.mem_filterMap.2
          ⟨c, List.mem_flatMap.2 ⟨t, ht, hc⟩, Option.mem_toList.1 hst⟩, rfl⟩))
    · obtain ⟨c, hc, h⟩ := List.mem_flatMap.1 h
      obtain ⟨st, hst, rfl⟩ := List.mem_map.1 h
      exact .inl (.inr ⟨st, List.mem_filterMap.2
        ⟨c, List.mem_flatMap.2 ⟨e, he, hc⟩, Option.mem_toList.1 hst⟩, rfl⟩)
    · obtain ⟨d, hd, h⟩ := List.mem_flatMap.1 h
      obtain ⟨st, hst, rfl⟩ := List.mem_map.1 h
      unfold defsOf at hd
      cases hb : t.indexes with
      | none => simp [hb] at hd
      | some b =>
        refine .inr ⟨st, List.mem_filterMap.2 ⟨d, List.mem_flatMap.2
          ⟨b, List.mem_filterMap.2 ⟨t, ht, hb⟩, by simpa [hb] using hd⟩, Option.mem_toList.1 hst⟩, rfl⟩

/-- The structural rules, by stage. -/
theorem structureOk_iff {s : SchemaBlock} : StructureOk s ↔ ProjectOk s ∧ TablesOk s.tables ∧ EnumsOk s.enums ∧
    TableGroupsOk s s.table_groups ∧ ∀ t ∈ s.tables, KeysOk t := by
  constructor
  · intro h
    have hs := h.settings
    refine ⟨h.project, ⟨h.tableNames.1, h.tableNames.2.1, h.tableNames.2.2, fun t ht as has => ?_⟩,
      ⟨h.enumNames.1, h.enumNames.2, fun e he as has => ?_⟩, ⟨h.groups.1, h.groups.2⟩,
      fun t ht => ⟨h.tables t ht, fun as has => ?_⟩⟩
    · exact hs as (mem_structSettings.2 (.inl ⟨t, ht, has⟩))
    · exact hs as (mem_structSettings.2 (.inr (.inl ⟨e, he, has⟩)))
    · exact hs as (mem_structSettings.2 (.inr (.inr ⟨t, ht, has⟩)))
  · rintro ⟨hp, ht, he, hg, hk⟩
    refine ⟨hp, fun as has => ?_, ⟨ht.names, ht.aliases, ht.cols⟩, ⟨he.names, he.values⟩, ⟨hg.names, hg.items⟩,
      fun t h => (hk t h).keys⟩
    rcases mem_structSettings.1 has with ⟨t, h, has⟩ | ⟨t, h, has⟩ | ⟨t, h, has⟩
    · exact ht.settings t h as has
    · exact he.settings t h as has
    · exact (hk t h).settings as has

theorem analyzePre_out : Outcome s.input (fun ix => StructureOk s ∧ Indexed s ix ∧ GInv s s.table_groups ix)
    (FirstDefect s) NoK (analyzePre s) := by
  unfold analyzePre
  refine Outcome.bind ((checkProject_out (K := NoK)).mono (fun _ h => h) (fun _ _ h => .project h) fun _ h => h)
    fun _ hp => ?_
  refine Outcome.bind ((indexTable_out (K := NoK)).mono (fun _ h => h)
    (fun _ _ ⟨_, _, _, h1, h2, h3⟩ => .table hp h1 h2 h3) fun _ h => h) fun ix1 h1 => ?_
  refine Outcome.bind ((indexEnums_out (K := NoK) h1.knows h1.groups).mono (fun _ h => h)
    (fun _ _ ⟨_, _, _, h1', h2, h3⟩ => .enum hp h1.ok h1' h2 h3) fun _ h => h) fun ix2 h2 => ?_
  refine Outcome.bind ((indexGroups_out (K := NoK) h2.knows h2.groups).mono (fun _ h => h)
    (fun _ _ ⟨_, _, _, h1', h2', h3⟩ => .group hp h1.ok h2.ok h1' h2' h3) fun _ h => h) fun ix3 h3 => ?_
  have hg : TableGroupsOk s s.table_groups := ⟨h3.names, h3.items⟩
  refine Outcome.bind ((Outcome.forEach_first (f := fun t => checkTable t s.input) (Q := fun _ t => KeysOk t)
    (E := KeyDefect) (K := fun _ => NoK) s.tables ?_).mono (fun _ h => h)
      (fun _ _ ⟨_, _, _, h1', h2', h3⟩ => .keys hp h1.ok h2.ok hg h1' ?_ h3) ?_) fun _ h4 => ?_
  · intro pre t post hs
    exact (checkTable_out (h1.cols t (by simp [hs]))).mono (fun _ h => tableChecked_ok h) (fun _ _ h => h) fun _ h => h
  · intro u hu
    obtain ⟨p, q, hpq⟩ := List.append_of_mem hu
    exact h2' p u q hpq
  · rintro k ⟨_, _, _, _, _, h⟩; exact h
  · refine ⟨structureOk_iff.2 ⟨hp, h1.ok, h2.ok, hg, fun t ht => ?_⟩, h3.knows, h3⟩
    obtain ⟨p, q, hpq⟩ := List.append_of_mem ht
    exact h4 p t q hpq

end

/-! ## A defect makes a schema invalid -/

theorem Spec.Again.not_nodup {α κ : Type} {key : α → κ} {xs : List α} {b : α} (h : Again key xs b) :
    ¬ (xs.map key).Nodup := by
  obtain ⟨pre, post, rfl, a, ha, he⟩ := h
  intro hn
  rw [List.map_append, List.map_cons, List.nodup_append] at hn
  exact hn.2.2 _ (List.mem_map_of_mem ha) _ (by simp) he

theorem mem_defs {s : SchemaBlock} {d} (h : d ∈ indexDefs s) : ∃ t ∈ s.tables, d ∈ defsOf t := by
  obtain ⟨b, hb, hd⟩ := List.mem_flatMap.1 h
  obtain ⟨t, ht, hb⟩ := List.mem_filterMap.1 hb
  exact ⟨t, ht, by simp [defsOf, hb, hd]⟩

theorem groupTarget_unique {s : SchemaBlock} (hn : (s.tables.filterMap aliasOf).Nodup) {i k k'}
    (h : GroupTarget s i k) (h' : GroupTarget s i k') : k = k' := by
  unfold GroupTarget at h h'
  cases hs : i.schema with
  | some sc => rw [hs] at h h'; exact h.trans h'.symm
  | none =>
    rw [hs] at h h'
    simp only at h h'
    rcases h with ⟨t, h1, rfl⟩ | ⟨h1, rfl, h3⟩ <;> rcases h' with ⟨t', h1', rfl⟩ | ⟨h1', rfl, h3'⟩
    · rw [nodup_filterMap_inj hn h1.1 h1'.1 h1.2 h1'.2]
    · exact absurd h1 (h1' t)
    · exact absurd h1' (h1 t')
    · rfl

theorem Spec.GroupTargets.split {s : SchemaBlock} {pre post is : List TableGroupItem} {i ks} (h : GroupTargets s is ks)
    (he : is = pre ++ i :: post) :
    ∃ k1 k k2, ks = k1 ++ k :: k2 ∧ GroupTargets s pre k1 ∧ GroupTarget s i k := by
  induction h generalizing pre with
  | nil => simp at he
  | @cons j k' is' ks' h1 h2 ih =>
    cases pre with
    | nil => simp at he; obtain ⟨rfl, rfl⟩ := he; exact ⟨[], _, _, rfl, .nil, h1⟩
    | cons p pre =>
      simp only [List.cons_append, List.cons.injEq] at he
      obtain ⟨rfl, he⟩ := he
      obtain ⟨k1, k, k2, rfl, h3, h4⟩ := ih he
      exact ⟨k' :: k1, k, k2, rfl, .cons h1 h3, h4⟩

theorem Spec.GroupTargets.mem_left {s : SchemaBlock} {is ks} (h : GroupTargets s is ks) {i} (hi : i ∈ is) :
    ∃ k ∈ ks, GroupTarget s i k := by
  obtain ⟨p, q, rfl⟩ := List.append_of_mem hi
  obtain ⟨k1, k, k2, rfl, -, h2⟩ := h.split rfl
  exact ⟨k, by simp, h2⟩

theorem pairwise_split {α : Type} {R : α → α → Prop} {pre post : List α} {x y : α} (h : (pre ++ x :: post).Pairwise R)
    (hy : y ∈ pre) : R y x := by
  rw [List.pairwise_append] at h
  exact h.2.2 y hy x (by simp)

theorem HasRaw.unique {c n m} (h : HasRaw c n) (h' : HasRaw c m) : n = m := by
  have := h.symm.trans h'
  simpa using this

theorem filterMap_split {α β : Type} {f : α → Option β} {pre post : List α} {d : α} {y : β} (h : f d = some y) :
    (pre ++ d :: post).filterMap f = pre.filterMap f ++ y :: post.filterMap f := by
  rw [List.filterMap_append, List.filterMap_cons_some h]

theorem filter_two {α : Type} {P : α → Prop} [DecidablePred P] {pre post : List α} {c c' : α} (h1 : c' ∈ pre) (h2 : P c')
    (h3 : P c) : 2 ≤ ((pre ++ c :: post).filter fun x => P x).length := by
  rw [List.filter_append, List.length_append]
  have a : 0 < (pre.filter fun x => P x).length :=
    List.length_pos_of_mem (List.mem_filter.2 ⟨h1, by simpa using h2⟩)
  have b : 0 < ((c :: post).filter fun x => P x).length :=
    List.length_pos_of_mem (a := c) (List.mem_filter.2 ⟨by simp, by simpa using h3⟩)
  omega

theorem projectDefect_not_ok {s : SchemaBlock} {e sp} (h : ProjectDefect s e sp) : ¬ ProjectOk s := by
  rintro ⟨p, hp, hn⟩
  cases h with
  | manyProjects h => simp [hp] at h
  | noProject h => simp [hp] at h
  | property hp' ha =>
    rw [hp'] at hp
    cases hp
    exact ha.not_nodup hn

theorem tableDefect_not_ok {pre post : List TableBlock} {t e sp} (h : TableDefect pre t e sp) :
    ¬ TablesOk (pre ++ t :: post) := by
  intro hv
  have ht : t ∈ pre ++ t :: post := by simp
  cases h with
  | attr has ha => exact ha.not_nodup (hv.settings t ht _ has)
  | tableName hu he => exact Spec.Again.not_nodup (key := tableKey) ⟨pre, post, rfl, _, hu, he⟩ hv.names
  | columnName ha => exact ha.not_nodup (hv.cols _ ht)
  | @alias u a hu hua hta =>
    have hal := hv.aliases
    rw [filterMap_split (y := a.to_string) (by simp [aliasOf, hta]), List.nodup_append] at hal
    exact hal.2.2 a.to_string (List.mem_filterMap.2 ⟨u, hu, hua⟩) _ (by simp) rfl

theorem enumDefect_not_ok {pre post : List EnumBlock} {d e sp} (h : EnumDefect pre d e sp) :
    ¬ EnumsOk (pre ++ d :: post) := by
  intro hv
  have ht : d ∈ pre ++ d :: post := by simp
  cases h with
  | attr has ha => exact ha.not_nodup (hv.settings d ht _ has)
  | enumName hu he => exact Spec.Again.not_nodup (key := enumKey) ⟨pre, post, rfl, _, hu, he⟩ hv.names
  | enumValue ha => exact ha.not_nodup (hv.values _ ht)

theorem groupDefect_not_ok {s : SchemaBlock} (hal : (s.tables.filterMap aliasOf).Nodup)
    {pre post : List TableGroupBlock} {g e sp} (h : GroupDefect s pre g e sp) : ¬ TableGroupsOk s (pre ++ g :: post) := by
  intro hv
  have hg : g ∈ pre ++ g :: post := by simp
  cases h with
  | groupName hu he =>
    exact Spec.Again.not_nodup (key := fun g : TableGroupBlock => g.ident.to_string) ⟨pre, post, rfl, _, hu, he⟩ hv.names
  | groupItemNotFound hi hsc hno =>
    obtain ⟨ks, h1, -⟩ := hv.items _ hg
    obtain ⟨k, -, h2⟩ := h1.mem_left hi
    exact hno k h2
  | groupItem hs hj hjt hit =>
    obtain ⟨ks, h1, hn⟩ := hv.items _ hg
    obtain ⟨k1, k, k2, rfl, h2, h3⟩ := h1.split hs
    obtain ⟨k', hk', h4⟩ := h2.mem_left hj
    rw [groupTarget_unique hal h4 hjt] at hk'
    rw [groupTarget_unique hal h3 hit, List.nodup_append] at hn
    exact hn.2.2 _ hk' _ (by simp) rfl

theorem keyDefect_not_ok {t : TableBlock} {e sp} (h : KeyDefect t e sp) : ¬ KeysOk t := by
  rintro ⟨hv, hset⟩
  cases h with
  | attr has ha => exact ha.not_nodup (hset _ has)
  | @pkColumn pre c post c' hs hc' h1 h2 =>
    have := hv.1.1
    have h3 := filter_two (post := post) hc' h1 h2
    rw [← hs] at h3
    omega
  | pkIndex hc h1 hd h2 => exact hv.1.2.1 _ hc _ hd ⟨h1, h2⟩
  | @pkIndexes pre d post d' hs hd' h1 h2 h3 =>
    have := hv.1.2.2
    rw [hs, List.filter_append, List.filter_cons, if_pos (by simpa using h3)] at this
    exact h2 (pairwise_split (R := fun d _ => indexNames d = []) this (List.mem_filter.2 ⟨hd', by simpa using h1⟩))
  | pkNull hc h1 h2 =>
    obtain ⟨st, hst, hpk⟩ := h1
    refine ((hv.2.1 _ hc st hst).1 hpk).1 ?_
    simpa [nullableOfCol, hst] using h2
  | pkArray hc h1 h2 =>
    obtain ⟨st, hst, hpk⟩ := h1
    exact h2 ((hv.2.1 _ hc st hst).1 hpk).2
  | nullNotNull hc hst ha hb ha' hb' =>
    exact (hv.2.1 _ hc _ hst).2
      ⟨List.mem_map.2 ⟨_, ha, ha'⟩, List.mem_map.2 ⟨_, hb, hb'⟩⟩
  | @emptyIndex b d hb hd he =>
    exact (hv.2.2.1 d (by simp [defsOf, hb, hd])).1 he
  | indexColumn hd hi hn =>
    exact hn ((hv.2.2.1 _ hd).2.1 _ (mem_indexNames.2 ⟨_, hi, rfl⟩))
  | indexSetting hd hst h2 =>
    obtain ⟨h3, h4, h5⟩ := (hv.2.2.1 _ hd).2.2 _ hst
    rcases h2 with h | h | h
    · exact h3 h
    · exact h4 h
    · exact h5 h
  | @uniqueColumn c d hc h1 hd h2 hsub =>
    have := hv.2.2.2.1
    unfold uniqueKeys at this
    rw [List.pairwise_append] at this
    exact this.2.2 _ (List.mem_map.2 ⟨c, List.mem_filter.2 ⟨hc, by simpa using h1⟩, rfl⟩) _
      (List.mem_map.2 ⟨d, List.mem_filter.2 ⟨hd, by simpa using h2⟩, rfl⟩) hsub
  | @uniqueIndex pre d post d' hs hd' h1 h2 hsub =>
    have := hv.2.2.2.1
    unfold uniqueKeys at this
    rw [List.pairwise_append] at this
    have := this.2.1
    rw [hs, List.filter_append, List.filter_cons, if_pos (by simpa using h2), List.map_append, List.map_cons] at this
    exact pairwise_split this (List.mem_map.2 ⟨d', List.mem_filter.2 ⟨hd', by simpa using h1⟩, rfl⟩) hsub
  | @indexAgain pre d post d' x y hs hd' h1 h2 h3 =>
    have := hv.2.2.2.2
    unfold plainIndexes at this
    rw [hs, filterMap_split h2] at this
    exact pairwise_split this (List.mem_filterMap.2 ⟨d', hd', h1⟩) h3

/-- A structural defect is a violation of the structural rules. -/
theorem structDefect_not_ok {s : SchemaBlock} {e sp} (h : StructDefect s e sp) : ¬ StructureOk s := by
  intro hv
  have hal := hv.tableNames.2.1
  obtain ⟨hp, ht, he, hg, hk⟩ := structureOk_iff.1 hv
  cases h with
  | project h => exact projectDefect_not_ok h hp
  | table hs h => exact tableDefect_not_ok h (hs ▸ ht)
  | enum hs h => exact enumDefect_not_ok h (hs ▸ he)
  | group hs h => exact groupDefect_not_ok hal h (hs ▸ hg)
  | keys hm h => exact keyDefect_not_ok h (hk _ hm)

/-- A defect of a column is a violation of the column rules. -/
theorem columnDefect_not_ok {s : SchemaBlock} (hen : (s.enums.map enumKey).Nodup) {c e sp}
    (h : ColumnDefect s c e sp) : ¬ ColumnOk s c := by
  intro hcol
  cases h with
  | typeArgs hr hf h1 h2 =>
    obtain ⟨n', ty', hr', hres, ha, -⟩ := hcol
    have := HasRaw.unique hr hr'; subst this
    have := Resolves.unique (Or.inl hf) hres; subst this
    rcases ha hf with h | h
    · exact h1 h
    · exact h2 h.1
  | typeArg hr hf h1 h2 =>
    obtain ⟨n', ty', hr', hres, ha, -⟩ := hcol
    have := HasRaw.unique hr hr'; subst this
    have := Resolves.unique (Or.inl hf) hres; subst this
    rcases ha hf with h | h
    · simp [h] at h1
    · exact h2 (h.2 _ h1)
  | enumSyntax hr hf h1 =>
    obtain ⟨n', ty', hr', hres, ha, -⟩ := hcol
    have := HasRaw.unique hr hr'; subst this
    rcases hres with h | ⟨-, k, hk, -⟩
    · rw [hf] at h; cases h
    · exact h1 k hk
  | enumSchema hr hf hk hd h1 =>
    obtain ⟨n', ty', hr', hres, ha, hdef⟩ := hcol
    have := HasRaw.unique hr hr'; subst this
    obtain ⟨v, hv'⟩ := Option.ne_none_iff_exists'.1 hd
    obtain ⟨e, he, hek, -⟩ := (hdef v hv').2 hf _ hk
    exact h1 (Or.inr ⟨e, he, by rw [hek]⟩)
  | enumMissing hr hf hk hd h1 h2 =>
    obtain ⟨n', ty', hr', hres, ha, hdef⟩ := hcol
    have := HasRaw.unique hr hr'; subst this
    obtain ⟨v, hv'⟩ := Option.ne_none_iff_exists'.1 hd
    obtain ⟨e, he, hek, -⟩ := (hdef v hv').2 hf _ hk
    exact h2 e he hek
  | enumDefault hr hf hk hd he hek h1 =>
    obtain ⟨n', ty', hr', hres, ha, hdef⟩ := hcol
    have := HasRaw.unique hr hr'; subst this
    obtain ⟨e', he', hek', hm⟩ := (hdef _ hd).2 hf _ hk
    rw [nodup_map_inj hen he' he (hek'.trans hek.symm)] at hm
    exact h1 hm
  | stringDefault hr hres hd h1 =>
    obtain ⟨n', ty', hr', hres', ha, hdef⟩ := hcol
    have := HasRaw.unique hr hr'; subst this
    have := Resolves.unique hres hres'; subst this
    exact h1 (hdef _ hd).1
  | boolDefault hr hres hd h1 =>
    obtain ⟨n', ty', hr', hres', ha, hdef⟩ := hcol
    have := HasRaw.unique hr hr'; subst this
    have := Resolves.unique hres hres'; subst this
    exact h1 (hdef _ hd).1
  | intDefault hr hres hd h1 =>
    obtain ⟨n', ty', hr', hres', ha, hdef⟩ := hcol
    have := HasRaw.unique hr hr'; subst this
    have := Resolves.unique hres hres'; subst this
    exact h1 (hdef _ hd).1
  | nullDefault hd h1 =>
    obtain ⟨n', ty', hr', hres', ha, hdef⟩ := hcol
    exact h1 (hdef _ hd).1

theorem endOf_unaliased_cols {s : SchemaBlock} {e e'} (h : Unaliased s e e') : e'.cols = e.cols := by
  rcases h with ⟨t, -, rfl⟩ | ⟨-, rfl⟩ <;> rfl

/-- Each end of a valid reference names a table that has the columns. -/
theorem linkOk_end {s : SchemaBlock} (hn : (s.tables.filterMap aliasOf).Nodup) {r e e'} (hl : LinkOk s (linkOf r))
    (he : e ∈ [r.lhs, r.rhs]) (hu : Unaliased s (endOf e) e') :
    ∃ t, Names s e' t ∧ ∀ n ∈ e'.cols, n ∈ colNames t := by
  obtain ⟨-, -, l, rr, tl, tr, h1, h2, h3, h4, h5, h6, -, -⟩ := hl
  simp only [List.mem_cons, List.not_mem_nil, or_false] at he
  rcases he with rfl | rfl
  · rw [Unaliased.unique hn hu h1]; exact ⟨tl, h3, h5⟩
  · rw [Unaliased.unique hn hu h2]; exact ⟨tr, h4, h6⟩

/-- A defect of a reference is a violation of the rules for references. -/
theorem refDefect_not_ok {s : SchemaBlock} (hv : TableNamesOk s) {r e sp} (h : RefDefect s r e sp)
    {pre post} (hs : refsInOrder s = pre ++ r :: post) : ¬ RefOk s pre r post := by
  rintro ⟨hset, hl, hno⟩
  have hal := hv.2.1
  cases h with
  | refAttr hst ha => exact ha.not_nodup (hset _ (by rw [hst]; rfl))
  | refArity h1 =>
    have := hl.2.1
    simp only [linkOf, endOf, List.length_map] at this
    exact h1 this
  | refSchema he hu h1 =>
    obtain ⟨t, ht, -⟩ := linkOk_end hal hl he hu
    exact h1 (Or.inl ⟨t, ht.1, by rw [ht.key]⟩)
  | refTable he hu h1 =>
    obtain ⟨t, ht, -⟩ := linkOk_end hal hl he hu
    exact h1 t ht
  | @refColumn e e' t i he hu ht hk hi hn =>
    obtain ⟨t', ht', hc⟩ := linkOk_end hal hl he hu
    have : t' = t := nodup_map_inj hv.1 ht'.1 ht (ht'.key.trans hk.symm)
    subst this
    refine hn (hc _ ?_)
    rw [endOf_unaliased_cols hu]
    exact List.mem_map_of_mem hi
  | @refType el er tl tr x y c d hul hur hnl hnr hxy hc hd hns =>
    obtain ⟨-, -, l, rr, tl', tr', h1, h2, h3, h4, h5, h6, h7, -⟩ := hl
    have e1 := Unaliased.unique hal hul h1; subst e1
    have e2 := Unaliased.unique hal hur h2; subst e2
    have e3 := Names.unique hv.1 hnl h3; subst e3
    have e4 := Names.unique hv.1 hnr h4; subst e4
    refine hns (h7 (x.to_string, y.to_string) ?_ c d hc hd)
    rw [endOf_unaliased_cols hul, endOf_unaliased_cols hur]
    simp only [endOf, List.zip_map]
    exact List.mem_map.2 ⟨(x, y), hxy, rfl⟩
  | @refKey el er tl tr hul hur hnl hnr hns =>
    obtain ⟨-, -, l, rr, tl', tr', h1, h2, h3, h4, h5, h6, -, h7⟩ := hl
    have e1 := Unaliased.unique hal hul h1; subst e1
    have e2 := Unaliased.unique hal hur h2; subst e2
    have e3 := Names.unique hv.1 hnl h3; subst e3
    have e4 := Names.unique hv.1 hnr h4; subst e4
    exact hns h7
  | @refConflict pre' post' o hs' ho hc =>
    have hperm : (pre' ++ post').Perm (pre ++ post) := by
      have h1 : (r :: (pre' ++ post')).Perm (r :: (pre ++ post)) :=
        (List.perm_middle.symm.trans (by rw [← hs', hs])).trans List.perm_middle
      exact h1.cons_inv
    exact hno o (hperm.mem_iff.1 ho) hc
  | refUndef hu => exact hl.1 hu

/-- A column that makes the analyzer panic is not valid. -/
theorem columnPanics_not_ok {s : SchemaBlock} {c} (h : ColumnPanics c) : ¬ ColumnOk s c := by
  obtain ⟨n, ty, v, hr, hf, hcase, ha, hd⟩ := h
  rintro ⟨n', ty', hr', hres, -, hdef⟩
  have := HasRaw.unique hr hr'; subst this
  have := Resolves.unique (Or.inl hf) hres; subst this
  have := (hdef _ hd).1
  rcases hcase with rfl | rfl | rfl | rfl <;> simp [DefaultFits, StringFits, ha] at this

/-! ## The outcome of the analysis -/

section
variable {s : SchemaBlock} {input : Str}

/-- The panics of the typing phase: the first column that is not valid panics. -/
def PanicAt (s : SchemaBlock) (k : PanicSite) : Prop :=
  StructureOk s ∧ ∃ pre c post, columns s = pre ++ c :: post ∧ (∀ d ∈ pre, ColumnOk s d) ∧ ColPanic c k

theorem typeTable_out {ix} (hk : Indexed s ix) {t} (ht : t ∈ s.tables) :
    Outcome input (fun t' => (∀ c ∈ t.cols, ColumnOk s c ∧ DefaultPlaced c) ∧ TypedTable t t')
      (fun e sp => ∃ pre c post, t.cols = pre ++ c :: post ∧ (∀ d ∈ pre, ColumnOk s d) ∧ ColumnDefect s c e sp)
      (fun k => ∃ pre c post, t.cols = pre ++ c :: post ∧ (∀ d ∈ pre, ColumnOk s d) ∧ ColPanic c k)
      (typeTable ix input t) := by
  unfold typeTable
  refine Outcome.bind ((Outcome.mapM_first (R := fun c c' => ColumnOk s c ∧ Typed c c' ∧ DefaultPlaced c)
    (E := fun c => ColumnDefect s c) (K := ColPanic) t.cols fun c hc =>
    typeColumn_out hk (mem_columns ht hc)).mono (fun _ h => h) ?_ ?_) fun cols hcols => ?_
  · rintro e sp ⟨pre, c, post, h1, h2, h3⟩
    exact ⟨pre, c, post, h1, fun d hd => (h2 d hd).choose_spec.1, h3⟩
  · rintro k ⟨pre, c, post, h1, h2, h3⟩
    exact ⟨pre, c, post, h1, fun d hd => (h2 d hd).choose_spec.1, h3⟩
  refine ⟨?_, rfl, rfl, ?_⟩
  · intro c hc
    obtain ⟨c', -, h, -, h'⟩ := hcols.mem_left hc
    exact ⟨h, h'⟩
  · show All2 Typed t.cols cols
    clear ht
    generalize t.cols = cs at hcols
    induction hcols with
    | nil => exact .nil
    | cons h _ ih => exact .cons h.2.1 ih

theorem columns_split {tpre tpost : List TableBlock} {t : TableBlock} {pre c post}
    (h : s.tables = tpre ++ t :: tpost) (h' : t.cols = pre ++ c :: post) :
    columns s = (tpre.flatMap (·.cols) ++ pre) ++ c :: (post ++ tpost.flatMap (·.cols)) := by
  unfold columns
  rw [h, List.flatMap_append, List.flatMap_cons, h']
  simp

theorem typeTables_out {ix} (hk : Indexed s ix) :
    Outcome input (fun typed => (∀ c ∈ columns s, ColumnOk s c ∧ DefaultPlaced c) ∧ All2 TypedTable s.tables typed)
      (fun e sp => ∃ pre c post, columns s = pre ++ c :: post ∧ (∀ d ∈ pre, ColumnOk s d) ∧ ColumnDefect s c e sp)
      (fun k => ∃ pre c post, columns s = pre ++ c :: post ∧ (∀ d ∈ pre, ColumnOk s d) ∧ ColPanic c k)
      (s.tables.mapM (typeTable ix input)) := by
  refine (Outcome.mapM_first (R := fun t t' => (∀ c ∈ t.cols, ColumnOk s c ∧ DefaultPlaced c) ∧ TypedTable t t') s.tables
    fun t ht => typeTable_out hk ht).mono ?_ ?_ ?_
  · intro typed h
    refine ⟨?_, ?_⟩
    · intro c hc
      obtain ⟨t, ht, hc⟩ := List.mem_flatMap.1 hc
      obtain ⟨t', -, h, -⟩ := h.mem_left ht
      exact h c hc
    · generalize s.tables = ts at h
      induction h with
      | nil => exact .nil
      | cons h _ ih => exact .cons h.2 ih
  · rintro e sp ⟨tpre, t, tpost, h1, h2, pre, c, post, h3, h4, h5⟩
    refine ⟨_, c, _, columns_split h1 h3, ?_, h5⟩
    intro d hd
    rcases List.mem_append.1 hd with hd | hd
    · obtain ⟨t', ht', hd⟩ := List.mem_flatMap.1 hd
      exact ((h2 t' ht').choose_spec.1 d hd).1
    · exact h4 d hd
  · rintro k ⟨tpre, t, tpost, h1, h2, pre, c, post, h3, h4, h5⟩
    refine ⟨_, c, _, columns_split h1 h3, ?_, h5⟩
    intro d hd
    rcases List.mem_append.1 hd with hd | hd
    · obtain ⟨t', ht', hd⟩ := List.mem_flatMap.1 hd
      exact ((h2 t' ht').choose_spec.1 d hd).1
    · exact h4 d hd

theorem valid_of {s : SchemaBlock} (hp : StructureOk s) (hc : ∀ c ∈ columns s, ColumnOk s c)
    (hr : ∀ pre r post, refsInOrder s = pre ++ r :: post → RefOk s pre r post) : Valid s := by
  rw [refsOk_iff] at hr
  refine ⟨hp.project, ?_, hp.tableNames, hp.enumNames, hp.groups, hp.tables, hc, hr.1⟩
  intro as has
  unfold checkedSettings at has
  rcases List.mem_append.1 has with h | h
  · exact hp.settings as h
  · obtain ⟨st, hst, rfl⟩ := List.mem_map.1 h
    obtain ⟨b, hb, hst⟩ := List.mem_filterMap.1 hst
    refine hr.2 (IndexedRef.ofRefBlock b) ?_ _ (by simp [IndexedRef.ofRefBlock, hst])
    rw [← inlineRefs_eq]
    exact List.mem_append_left _ (List.mem_map_of_mem hb)

theorem Spec.Valid.structureOk (h : Valid s) : StructureOk s :=
  ⟨h.project, fun as has => h.settings as (List.mem_append_left _ has), h.tableNames, h.enumNames, h.groups,
    h.tables⟩

theorem Spec.Valid.refsOk (h : Valid s) :
    ∀ pre r post, refsInOrder s = pre ++ r :: post → RefOk s pre r post := by
  rw [refsOk_iff]
  refine ⟨h.refs, ?_⟩
  intro r hr as has
  refine h.settings as (List.mem_append_right _ ?_)
  unfold refsInOrder at hr
  rcases List.mem_append.1 hr with hr | hr
  · obtain ⟨b, hb, rfl⟩ := List.mem_map.1 hr
    obtain ⟨st, h1, rfl⟩ := Option.map_eq_some_iff.1 has
    exact List.mem_map.2 ⟨st, List.mem_filterMap.2 ⟨b, hb, h1⟩, rfl⟩
  · obtain ⟨t, -, hr⟩ := List.mem_flatMap.1 hr
    obtain ⟨c, -, hr⟩ := List.mem_flatMap.1 hr
    obtain ⟨i, -, rfl⟩ := List.mem_map.1 hr
    simp at has

/-- **The outcome of the analysis.** -/
theorem analyze_out (s : SchemaBlock) :
    Outcome s.input (fun a => Valid s ∧ Indexed s a.indexer ∧ GInv s s.table_groups a.indexer ∧
      a.indexed_refs = refsInOrder s ∧ ∀ c ∈ columns s, DefaultPlaced c) (FirstDefect s) (PanicAt s)
      (analyze s) := by
  rw [analyze_split]
  refine Outcome.bind (analyzePre_out.mono (fun _ h => h) (fun _ _ h => h) fun _ h => h.elim)
    fun ix ⟨hp, hk, hg⟩ => ?_
  unfold analyzePost
  refine Outcome.bind ((typeTables_out hk).mono (fun _ h => h) ?_ ?_) fun typed ⟨hc, hty⟩ => ?_
  · rintro e sp ⟨pre, c, post, h1, h2, h3⟩
    exact .column hp h1 h2 h3
  · rintro k h
    exact ⟨hp, h⟩
  refine Outcome.bind ((checkRefs_out hk hp.tableNames hty).mono (fun _ h => h) ?_ fun _ h => h) fun _ hr => ?_
  · rintro e sp ⟨pre, r, post, hs, h1, h2⟩
    refine .ref hp (fun c h => (hc c h).1) hs ?_ h2
    intro o ho e' sp' hd
    obtain ⟨p, q, rfl⟩ := List.append_of_mem ho
    exact refDefect_not_ok hp.tableNames hd (pre := p) (post := q ++ r :: post) (by simp [hs]) (h1 p o q rfl)
  exact ⟨valid_of hp (fun c h => (hc c h).1) hr, hk, hg, rfl, fun c h => (hc c h).2⟩

/-- No error is spurious: a schema with a defect is not valid. -/
theorem defect_not_valid {e sp} (h : Defect s e sp) : ¬ Valid s := by
  intro hv
  rcases h with h | ⟨c, hc, h⟩ | ⟨r, hr, h⟩
  · exact structDefect_not_ok h hv.structureOk
  · exact columnDefect_not_ok hv.enumNames.1 h (hv.columns c hc)
  · obtain ⟨p, q, hpq⟩ := List.append_of_mem hr
    exact refDefect_not_ok hv.tableNames h hpq (hv.refsOk p r q hpq)

theorem Spec.FirstDefect.defect {e sp} (h : FirstDefect s e sp) : Defect s e sp := by
  cases h with
  | project h => exact .inl (.project h)
  | table _ hs _ h => exact .inl (.table hs h)
  | enum _ _ hs _ h => exact .inl (.enum hs h)
  | group _ _ _ hs _ h => exact .inl (.group hs h)
  | keys _ _ _ _ hs _ h => exact .inl (.keys (by simp [hs]) h)
  | column _ hs _ h => exact .inr (.inl ⟨_, by simp [hs], h⟩)
  | ref _ _ hs _ h => exact .inr (.inr ⟨_, by simp [hs], h⟩)

end
end Dbml
