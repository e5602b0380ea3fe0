import Verif.Props.Language
import Verif.Props.Order
import Mathlib.Tactic.Tauto

/-!
# C60: editing an accepted schema

Which blocks can be dropped from an accepted schema, and which accepted schemas can be put together, so that the
result is accepted as well. The conditions only speak of names that occur in the schema.
-/

namespace Dbml.Props

open Dbml Spec Source

/-- The name `n`, as used in a ref or in a table group, may mean the table `t`: it is its name or its alias. -/
def Mentions (n : Str) (t : TableBlock) : Prop := n = t.ident.name.to_string ∨ aliasOf t = some n

/-- The table names used in the refs of a schema. -/
def refTables (s : SchemaBlock) : List Str := (links s).flatMap fun k => [k.lhs.table, k.rhs.table]

/-- The unqualified names used in the table groups of a schema. -/
def groupNames (s : SchemaBlock) : List Str :=
  (groupItems s).filterMap fun i => if i.schema.isNone then some i.ident_alias.to_string else none

/-- The type of column `c` is an enum, known by its schema and name `k`, and the column has a default value. -/
def DefaultsTo (c : TableColumn) (k : Str × Str) : Prop :=
  defaultOf c ≠ none ∧ ∃ n, c.type.type_name = .raw n ∧ ColumnTypeName.fromStr n = none ∧ EnumRef n k

variable {s s' : SchemaBlock}

/-! ## Aliases seen from two schemas -/

theorem unaliased_of {e e' : End} (h : ∀ t, IsAlias s e.table t ↔ IsAlias s' e.table t)
    (hu : Unaliased s e e') : Unaliased s' e e' := by
  unfold Unaliased at hu ⊢
  simpa only [h] using hu

theorem groupTarget_of {i : TableGroupItem} {k : Str × Str}
    (h : i.schema = none → (∀ t, IsAlias s i.ident_alias.to_string t ↔ IsAlias s' i.ident_alias.to_string t) ∧
      ∀ t ∈ s.tables, i.ident_alias.to_string = t.ident.name.to_string → t ∈ s'.tables)
    (hg : GroupTarget s i k) : GroupTarget s' i k := by
  unfold GroupTarget at hg ⊢
  cases hi : i.schema with
  | some sc => simpa [hi] using hg
  | none =>
    simp only [hi] at hg ⊢
    obtain ⟨h1, h2⟩ := h hi
    simp only [h1] at hg
    refine hg.imp id ?_
    rintro ⟨ha, hk, t, ht, htk⟩
    exact ⟨ha, hk, t, h2 t ht (by rw [hk] at htk; exact (congrArg Prod.snd htk).symm), htk⟩

theorem groupTargets_of {is : List TableGroupItem} {ks : List (Str × Str)}
    (h : ∀ i ∈ is, ∀ k, GroupTarget s i k → GroupTarget s' i k) (hg : GroupTargets s is ks) :
    GroupTargets s' is ks := by
  induction hg with
  | nil => exact .nil
  | cons h1 _ ih => exact .cons (h _ (by simp) _ h1) (ih fun i hi => h i (by simp [hi]))

theorem linkOk_of {k : Link}
    (h : ∀ e ∈ [k.lhs, k.rhs], (∀ t, IsAlias s e.table t ↔ IsAlias s' e.table t) ∧
      ∀ e' t, Unaliased s e e' → Names s e' t → t ∈ s'.tables) (hk : LinkOk s k) : LinkOk s' k := by
  obtain ⟨h1, h2, l, r, tl, tr, h3, h4, h5, h6, h7⟩ := hk
  exact ⟨h1, h2, l, r, tl, tr, unaliased_of (h _ (by simp)).1 h3, unaliased_of (h _ (by simp)).1 h4,
    ⟨(h _ (by simp)).2 _ _ h3 h5, h5.2⟩, ⟨(h _ (by simp)).2 _ _ h4 h6, h6.2⟩, h7⟩

theorem fkSide_mem {k : Link} {x : End} (h : fkSide k = some x) : x ∈ [k.lhs, k.rhs] := by
  unfold fkSide at h
  split at h <;> simp_all

theorem competes_of {a b : Link}
    (h : ∀ e ∈ [a.lhs, a.rhs, b.lhs, b.rhs], ∀ t, IsAlias s e.table t ↔ IsAlias s' e.table t)
    (hk : Competes s a b) : Competes s' a b := by
  rcases hk with ⟨x, y, x', y', hx, hy, h1, h2, h3⟩ | ⟨h1, h2, h3⟩
  · refine .inl ⟨x, y, x', y', hx, hy, unaliased_of (h x ?_) h1, unaliased_of (h y ?_) h2, h3⟩
    · have := fkSide_mem hx; simp at this ⊢; tauto
    · have := fkSide_mem hy; simp at this ⊢; tauto
  · refine .inr ⟨h1, h2, fun x hx => ?_⟩
    obtain ⟨y, hy, x', y', h4, h5, h6⟩ := h3 x hx
    refine ⟨y, hy, x', y', unaliased_of (h x ?_) h4, unaliased_of (h y ?_) h5, h6⟩
    · simp at hx ⊢; tauto
    · simp at hy ⊢; tauto

/-! ## Dropping blocks -/

/-- What may be dropped: any blocks except the project, as long as no remaining ref or table group uses the name or
alias of a dropped table, and no remaining column with a default value has a dropped enum as its type. -/
structure Drops (s s' : SchemaBlock) : Prop where
  blocks : s'.blocks.Sublist s.blocks
  project : s'.projects = s.projects
  tables : ∀ t ∈ s.tables, t ∉ s'.tables → ∀ n ∈ refTables s' ++ groupNames s', ¬ Mentions n t
  enums : ∀ e ∈ s.enums, e ∉ s'.enums → ∀ c ∈ columns s', ¬ DefaultsTo c (enumKey e)

theorem Drops.subTables (h : Drops s s') : s'.tables.Sublist s.tables := h.blocks.filterMap _
theorem Drops.subEnums (h : Drops s s') : s'.enums.Sublist s.enums := h.blocks.filterMap _
theorem Drops.subRefs (h : Drops s s') : s'.refs.Sublist s.refs := h.blocks.filterMap _
theorem Drops.subGroups (h : Drops s s') : s'.table_groups.Sublist s.table_groups := h.blocks.filterMap _

theorem sublist_flatMap {α β : Type} (f : α → List β) {l l' : List α} (h : l.Sublist l') :
    (l.flatMap f).Sublist (l'.flatMap f) := by
  induction h with
  | slnil => exact .slnil
  | cons a _ ih => rw [List.flatMap_cons]; exact ih.trans (List.sublist_append_right _ _)
  | cons_cons a _ ih => simp only [List.flatMap_cons]; exact (List.Sublist.refl _).append ih

theorem Drops.subColumns (h : Drops s s') : (columns s').Sublist (columns s) := sublist_flatMap _ h.subTables

theorem Drops.subLinks (h : Drops s s') : (links s').Sublist (links s) :=
  (h.subRefs.map _).append (sublist_flatMap _ h.subTables)

theorem Drops.settings (h : Drops s s') : (checkedSettings s').Sublist (checkedSettings s) := by
  unfold checkedSettings structSettings
  refine List.Sublist.append (List.Sublist.append (List.Sublist.append (List.Sublist.append ?_ ?_) ?_) ?_) ?_
  · exact (h.subTables.filterMap _).map _
  · exact (h.subColumns.filterMap _).map _
  · exact ((sublist_flatMap _ h.subEnums).filterMap _).map _
  · exact ((sublist_flatMap _ (h.subTables.filterMap _)).filterMap _).map _
  · exact (h.subRefs.filterMap _).map _

/-- A used name is an alias of the same tables before and after. -/
theorem Drops.alias (h : Drops s s') {n : Str} (hn : n ∈ refTables s' ++ groupNames s') (t : TableBlock) :
    IsAlias s n t ↔ IsAlias s' n t := by
  constructor
  · rintro ⟨ht, ha⟩
    by_cases hm : t ∈ s'.tables
    · exact ⟨hm, ha⟩
    · exact absurd (.inr ha) (h.tables t ht hm n hn)
  · rintro ⟨ht, ha⟩
    exact ⟨h.subTables.subset ht, ha⟩

theorem refTables_mem {k : Link} {e : End} (hk : k ∈ links s) (he : e ∈ [k.lhs, k.rhs]) : e.table ∈ refTables s := by
  refine List.mem_flatMap.2 ⟨k, hk, ?_⟩
  simp at he ⊢
  rcases he with rfl | rfl <;> simp

theorem groupNames_mem {g : TableGroupBlock} {i : TableGroupItem} (hg : g ∈ s.table_groups) (hi : i ∈ g.items)
    (hs : i.schema = none) : i.ident_alias.to_string ∈ groupNames s :=
  List.mem_filterMap.2 ⟨i, List.mem_flatMap.2 ⟨g, hg, hi⟩, by simp [hs]⟩

/-- Two tables of a schema with the same schema and name are the same table. -/
theorem table_of_key (hv : TableNamesOk s) {t u : TableBlock} (ht : t ∈ s.tables) (hu : u ∈ s.tables)
    (h : tableKey t = tableKey u) : t = u := nodup_map_inj hv.1 ht hu h

theorem names_key {e : End} {t : TableBlock} (h : Names s e t) : tableKey t = (e.schema.getD k!"public", e.table) := by
  obtain ⟨-, h1, h2⟩ := h
  unfold tableKey schemaOf
  cases hs : t.ident.schema <;> simp [hs] at h1 <;> simp [← h1, h2]

/-- **C60.** Dropping blocks from a valid schema, within the bounds of `Drops`, gives a valid schema. -/
theorem C60_drop (h : Drops s s') (hv : Valid s) : Valid s' where
  project := by
    obtain ⟨p, hp, hn⟩ := hv.project
    exact ⟨p, h.project.trans hp, hn⟩
  settings := fun as ha => hv.settings as (h.settings.subset ha)
  tableNames := ⟨(h.subTables.map _).nodup hv.tableNames.1, (h.subTables.filterMap _).nodup hv.tableNames.2.1,
    fun t ht => hv.tableNames.2.2 t (h.subTables.subset ht)⟩
  enumNames := ⟨(h.subEnums.map _).nodup hv.enumNames.1, fun t ht => hv.enumNames.2 t (h.subEnums.subset ht)⟩
  groups := ⟨(h.subGroups.map _).nodup hv.groups.1, fun g hg => by
    obtain ⟨ks, h1, h2⟩ := hv.groups.2 g (h.subGroups.subset hg)
    refine ⟨ks, groupTargets_of (fun i hi k hk => groupTarget_of (fun hs => ?_) hk) h1, h2⟩
    have hn := List.mem_append_right (refTables s') (groupNames_mem hg hi hs)
    refine ⟨h.alias hn, fun t ht he => ?_⟩
    by_cases hm : t ∈ s'.tables
    · exact hm
    · exact absurd (.inl he) (h.tables t ht hm _ hn)⟩
  tables := fun t ht => hv.tables t (h.subTables.subset ht)
  columns := fun c hc => by
    obtain ⟨n, ty, h1, h2, h3, h4⟩ := hv.columns c (h.subColumns.subset hc)
    refine ⟨n, ty, h1, h2, h3, fun v hd => ⟨(h4 v hd).1, fun hn k hk => ?_⟩⟩
    obtain ⟨e, he, hek, hev⟩ := (h4 v hd).2 hn k hk
    by_cases hm : e ∈ s'.enums
    · exact ⟨e, hm, hek, hev⟩
    · exact absurd ⟨by simp [hd], n, h1, hn, hek ▸ hk⟩ (h.enums e he hm c hc)
  refs := by
    have hal : ∀ k ∈ links s', ∀ e ∈ [k.lhs, k.rhs], ∀ t, IsAlias s e.table t ↔ IsAlias s' e.table t :=
      fun k hk e he => h.alias (List.mem_append_left _ (refTables_mem hk he))
    refine ⟨fun k hk => linkOk_of (fun e he => ⟨hal k hk e he, fun e' t hu hn => ?_⟩)
      (hv.refs.1 k (h.subLinks.subset hk)), ?_⟩
    · rcases hu with ⟨t0, ha, rfl⟩ | ⟨-, rfl⟩
      · have hk0 : tableKey t = tableKey t0 := by rw [names_key hn]; rfl
        rw [table_of_key hv.tableNames hn.1 ha.1 hk0]
        exact ((hal k hk e he t0).1 ha).1
      · by_cases hm : t ∈ s'.tables
        · exact hm
        · exact absurd (.inl hn.2.2.symm)
            (h.tables t hn.1 hm _ (List.mem_append_left _ (refTables_mem hk he)))
    · refine (List.Pairwise.sublist h.subLinks hv.refs.2).imp_of_mem fun {a b} ha hb hc => ?_
      have hab : ∀ e ∈ [a.lhs, a.rhs, b.lhs, b.rhs], ∀ t, IsAlias s' e.table t ↔ IsAlias s e.table t := by
        intro e he t
        simp at he
        rcases he with rfl | rfl | rfl | rfl
        · exact (hal a ha _ (by simp) t).symm
        · exact (hal a ha _ (by simp) t).symm
        · exact (hal b hb _ (by simp) t).symm
        · exact (hal b hb _ (by simp) t).symm
      refine ⟨fun h1 => hc.1 (competes_of hab h1), fun h1 => hc.2 (competes_of (fun e he => hab e ?_) h1)⟩
      simp at he ⊢; tauto

/-! ## In terms of texts -/

/-- The AST without positions. -/
def bare (s : SchemaBlock) : SchemaBlock := { blocks := s.blocks.map (·.mapSpan noPos) }

/-- A text is accepted exactly when its AST, read without positions, is valid. -/
theorem accepted_iff_bare {txt : Str} (h : parseDbmlUnchecked txt = .ok s) :
    (∃ r, parseDbml txt = .ok r) ↔ Valid (bare s) := by
  obtain ⟨d, hd', hw, ha⟩ := (C57_ast txt _).1 ⟨s, h, rfl⟩
  rw [checked_iff d hd' txt hw, ha]
  rfl

/-- **C60.** If a text is accepted, so is every text that declares the same except for dropped blocks, within the
bounds of `Drops`. -/
theorem C60_drop_text {txt txt' : Str} (h : parseDbml txt = .ok s) (h' : parseDbmlUnchecked txt' = .ok s')
    (hd : Drops (bare s) (bare s')) : parseDbml txt' = .ok s' := by
  have h0 := ((C33_accepts_iff_valid txt s).1 h).1
  obtain ⟨r, hr⟩ := (accepted_iff_bare h').2 (C60_drop hd ((accepted_iff_bare h0).1 ⟨s, h⟩))
  have := ((C33_accepts_iff_valid txt' r).1 hr).1
  rw [h'] at this
  cases this
  exact hr

/-- Refs, table groups and top-level notes. -/
def Loose : TopLevelBlock → Bool
  | .ref _ | .tableGroup _ | .note _ => true
  | _ => false

theorem filterMap_filter_none {α β : Type} (p : α → Bool) (f : α → Option β) (hf : ∀ b, p b = false → f b = none) :
    ∀ l : List α, (l.filter p).filterMap f = l.filterMap f
  | [] => rfl
  | b :: l => by
    cases hb : p b
    · rw [List.filter_cons_of_neg (by simp [hb]), filterMap_filter_none p f hf l, List.filterMap_cons_none (hf b hb)]
    · rw [List.filter_cons_of_pos hb, List.filterMap_cons, List.filterMap_cons, filterMap_filter_none p f hf l]

theorem filterMap_loose {β : Type} (f : TopLevelBlock → Option β) (hf : ∀ b, Loose b = true → f b = none)
    (l : List TopLevelBlock) : (l.filter (!Loose ·)).filterMap f = l.filterMap f := by
  exact filterMap_filter_none _ f (fun b hb => hf b (by simpa using hb)) l

/-- Dropping refs, table groups and notes is always within bounds. -/
theorem drops_loose (h : s'.blocks.Sublist s.blocks)
    (hk : s'.blocks.filter (!Loose ·) = s.blocks.filter (!Loose ·)) : Drops s s' := by
  have hp : s'.projects = s.projects := by
    unfold SchemaBlock.projects
    rw [← filterMap_loose _ (fun b hb => by cases b <;> simp_all [Loose]), hk, filterMap_loose]
    intro b hb; cases b <;> simp_all [Loose]
  have ht : s'.tables = s.tables := by
    unfold SchemaBlock.tables
    rw [← filterMap_loose _ (fun b hb => by cases b <;> simp_all [Loose]), hk, filterMap_loose]
    intro b hb; cases b <;> simp_all [Loose]
  have he : s'.enums = s.enums := by
    unfold SchemaBlock.enums
    rw [← filterMap_loose _ (fun b hb => by cases b <;> simp_all [Loose]), hk, filterMap_loose]
    intro b hb; cases b <;> simp_all [Loose]
  exact ⟨h, hp, fun t h1 h2 => absurd (ht ▸ h1) h2, fun e h1 h2 => absurd (he ▸ h1) h2⟩

theorem loose_mapSpan (f : Span → Span) (b : TopLevelBlock) : Loose (b.mapSpan f) = Loose b := by
  cases b <;> rfl

/-- **C60.** From an accepted text (without `/*`) the declarations number `i` to `j` can be cut out, if they are
refs, table groups and notes: what remains is accepted and declares the rest. -/
theorem C60_cut_out (txt : Str) (s : SchemaBlock) (h : parseDbml txt = .ok s) (i n : Nat)
    (hl : ∀ b ∈ (s.blocks.drop i).take n, Loose b = true) (hc : ¬ k!"/*" <:+: txt) :
    ∃ t1 t2 t3 s', txt = t1 ++ (t2 ++ t3) ∧ parseDbml (t1 ++ '\n' :: t3) = .ok s' ∧
      s'.blocks.map (·.mapSpan noPos) =
        (s.blocks.take i).map (·.mapSpan noPos) ++ (s.blocks.drop (i + n)).map (·.mapSpan noPos) ∧
      ∃ s2, parseDbmlUnchecked t2 = .ok s2 ∧
        s2.blocks.map (·.mapSpan noPos) = ((s.blocks.drop i).take n).map (·.mapSpan noPos) := by
  have h0 := ((C33_accepts_iff_valid txt s).1 h).1
  obtain ⟨t1, t', s1, s23, e, p1, p23, a1, a23⟩ := C58_cut txt s h0 i
  subst e
  obtain ⟨t2, t3, s2, s3, e, p2, p3, a2, a3⟩ := C58_cut t' s23 p23 n
  subst e
  obtain ⟨s', p, a⟩ := C58_join t1 t3 s1 s3 p1 p3 (.inl fun hi => hc (hi.trans ⟨[], t2 ++ t3, by simp⟩))
  rw [List.map_take, a23, ← List.map_take] at a2
  rw [List.map_drop, a23, ← List.map_drop, List.drop_drop] at a3
  rw [a1, a3] at a
  refine ⟨t1, t2, t3, s', rfl, ?_, a, s2, p2, a2⟩
  have hs : s.blocks = s.blocks.take i ++ ((s.blocks.drop i).take n ++ s.blocks.drop (i + n)) := by
    rw [← List.drop_drop, List.take_append_drop, List.take_append_drop]
  refine C60_drop_text h p (drops_loose ?_ ?_)
  · show (List.map _ _).Sublist (List.map _ _)
    rw [a, ← List.map_append]
    refine List.Sublist.map _ ?_
    conv => rhs; rw [hs]
    exact (List.Sublist.refl _).append (List.sublist_append_right _ _)
  · show (List.map _ _).filter _ = (List.map _ _).filter _
    have hf : (fun b : TopLevelBlock => !Loose b) ∘ (·.mapSpan noPos) = fun b => !Loose b := by
      funext b; simp [loose_mapSpan]
    rw [a, ← List.map_append, List.filter_map, List.filter_map, hf]
    conv => rhs; rw [hs]
    have hz : ((s.blocks.drop i).take n).filter (!Loose ·) = [] := by
      rw [List.filter_eq_nil_iff]; intro b hb; simp [hl b hb]
    simp only [List.filter_append, hz, List.nil_append]

/-! ## Notes -/

/-- Not a top-level note. -/
def notNote : TopLevelBlock → Bool
  | .note _ => false
  | _ => true

theorem filterMap_notNote {β : Type} (f : TopLevelBlock → Option β) (hf : ∀ b, f (.note b) = none)
    (l : List TopLevelBlock) : (l.filter notNote).filterMap f = l.filterMap f := by
  exact filterMap_filter_none _ f (fun b hb => by cases b <;> simp_all [notNote]) l

/-- **C60.** Adding, changing, moving and removing top-level notes does not change the verdict: two texts that
declare the same apart from notes are both accepted, both panic, or are rejected with the same error. -/
theorem C60_notes_irrelevant {txt txt' : Str} (h : parseDbmlUnchecked txt = .ok s)
    (h' : parseDbmlUnchecked txt' = .ok s')
    (hs : (bare s).blocks.filter notNote = (bare s').blocks.filter notNote) :
    (parseDbml txt).verdict = (parseDbml txt').verdict := by
  rw [parse_verdict h, parse_verdict h', verdict_noPos (no_span_panic h), verdict_noPos (no_span_panic h')]
  show (analyze (bare s)).verdict = (analyze (bare s')).verdict
  have key : ∀ {β : Type} (f : TopLevelBlock → Option β), (∀ b, f (.note b) = none) →
      (bare s).blocks.filterMap f = (bare s').blocks.filterMap f := by
    intro β f hf
    rw [← filterMap_notNote f hf, hs, filterMap_notNote f hf]
  have hp : (bare s).projects = (bare s').projects := key _ fun _ => rfl
  have ht : (bare s).tables = (bare s').tables := key _ fun _ => rfl
  have he : (bare s).enums = (bare s').enums := key _ fun _ => rfl
  have hg : (bare s).table_groups = (bare s').table_groups := key _ fun _ => rfl
  have hr : (bare s).refs = (bare s').refs := key _ fun _ => rfl
  unfold analyze
  rw [hp, ht, he, hg, hr]
  rfl

/-! ## Putting schemas together -/

/-- Not a project. -/
def notProject : TopLevelBlock → Bool
  | .project _ => false
  | _ => true

/-- Two schemas can be put together: they share no table, alias, enum or table group name, and no alias of the one
is used as a table name in the refs and table groups of the other. -/
structure Apart (s s' : SchemaBlock) : Prop where
  tables : ∀ t ∈ s.tables, ∀ u ∈ s'.tables, tableKey t ≠ tableKey u
  aliases : ∀ t ∈ s.tables, ∀ u ∈ s'.tables, aliasOf t = none ∨ aliasOf t ≠ aliasOf u
  enums : ∀ d ∈ s.enums, ∀ e ∈ s'.enums, enumKey d ≠ enumKey e
  groups : ∀ g ∈ s.table_groups, ∀ h ∈ s'.table_groups, g.ident.to_string ≠ h.ident.to_string
  captures : ∀ t ∈ s.tables, ∀ n ∈ refTables s' ++ groupNames s', aliasOf t ≠ some n
  captured : ∀ u ∈ s'.tables, ∀ n ∈ refTables s ++ groupNames s, aliasOf u ≠ some n

/-- The blocks of the first schema and those of the second, without its project. -/
def merge (s s' : SchemaBlock) : SchemaBlock := { blocks := s.blocks ++ s'.blocks.filter notProject }

theorem filterMap_notProject {β : Type} (f : TopLevelBlock → Option β) (hf : ∀ b, f (.project b) = none)
    (l : List TopLevelBlock) : (l.filter notProject).filterMap f = l.filterMap f := by
  exact filterMap_filter_none _ f (fun b hb => by cases b <;> simp_all [notProject]) l

theorem merge_tables : (merge s s').tables = s.tables ++ s'.tables := by
  simp only [SchemaBlock.tables, merge, List.filterMap_append]; rw [filterMap_notProject _ fun _ => rfl]
theorem merge_enums : (merge s s').enums = s.enums ++ s'.enums := by
  simp only [SchemaBlock.enums, merge, List.filterMap_append]; rw [filterMap_notProject _ fun _ => rfl]
theorem merge_refs : (merge s s').refs = s.refs ++ s'.refs := by
  simp only [SchemaBlock.refs, merge, List.filterMap_append]; rw [filterMap_notProject _ fun _ => rfl]
theorem merge_groups : (merge s s').table_groups = s.table_groups ++ s'.table_groups := by
  simp only [SchemaBlock.table_groups, merge, List.filterMap_append]; rw [filterMap_notProject _ fun _ => rfl]
theorem merge_projects : (merge s s').projects = s.projects := by
  simp only [SchemaBlock.projects, merge, List.filterMap_append]
  refine (congrArg _ ?_).trans (List.append_nil _)
  rw [List.filterMap_eq_nil_iff]
  intro b hb
  cases b <;> simp_all [notProject]
theorem merge_columns : columns (merge s s') = columns s ++ columns s' := by
  simp [columns, merge_tables]

theorem mem_merge_links {k : Link} : k ∈ links (merge s s') ↔ k ∈ links s ∨ k ∈ links s' := by
  simp only [links, merge_tables, merge_refs, List.map_append, List.flatMap_append, List.mem_append]
  tauto

theorem merge_links_perm : (links (merge s s')).Perm (links s ++ links s') := by
  simp only [links, merge_tables, merge_refs, List.map_append, List.flatMap_append, List.append_assoc]
  refine (List.Perm.refl _).append ?_
  rw [← List.append_assoc, ← List.append_assoc]
  exact List.perm_append_comm.append_right _

theorem mem_merge_settings {as : List Attribute} :
    as ∈ checkedSettings (merge s s') ↔ as ∈ checkedSettings s ∨ as ∈ checkedSettings s' := by
  simp only [checkedSettings, structSettings, tableSettings, columnSettings, enumSettings, enumValues, indexSettings,
    indexDefs, refSettings, merge_tables, merge_columns, merge_enums, merge_refs, List.filterMap_append,
    List.flatMap_append, List.map_append, List.mem_append]
  tauto

theorem merge_alias {n : Str} {t : TableBlock} : IsAlias (merge s s') n t ↔ IsAlias s n t ∨ IsAlias s' n t := by
  unfold IsAlias
  rw [merge_tables, List.mem_append]
  tauto

theorem Apart.alias1 (h : Apart s s') {n : Str} (hn : n ∈ refTables s ++ groupNames s) (t : TableBlock) :
    IsAlias s n t ↔ IsAlias (merge s s') n t := by
  rw [merge_alias]
  exact ⟨.inl, fun ht => ht.elim id fun ht => absurd ht.2 (h.captured t ht.1 n hn)⟩

theorem Apart.alias2 (h : Apart s s') {n : Str} (hn : n ∈ refTables s' ++ groupNames s') (t : TableBlock) :
    IsAlias s' n t ↔ IsAlias (merge s s') n t := by
  rw [merge_alias]
  exact ⟨.inr, fun ht => ht.elim (fun ht => absurd ht.2 (h.captures t ht.1 n hn)) id⟩

theorem columnOk_mono (h : ∀ e ∈ s.enums, e ∈ s'.enums) {c : TableColumn} (hc : ColumnOk s c) : ColumnOk s' c := by
  obtain ⟨n, ty, h1, h2, h3, h4⟩ := hc
  refine ⟨n, ty, h1, h2, h3, fun v hd => ⟨(h4 v hd).1, fun hn k hk => ?_⟩⟩
  obtain ⟨e, he, hek, hev⟩ := (h4 v hd).2 hn k hk
  exact ⟨e, h e he, hek, hev⟩

theorem competes_share {a b : Link} (h : Competes s a b) :
    ∃ x ∈ [a.lhs, a.rhs], ∃ y ∈ [b.lhs, b.rhs], ∃ x' y', Unaliased s x x' ∧ Unaliased s y y' ∧ SameEnd x' y' := by
  rcases h with ⟨x, y, x', y', hx, hy, h1, h2, h3⟩ | ⟨-, -, h⟩
  · exact ⟨x, fkSide_mem hx, y, fkSide_mem hy, x', y', h1, h2, h3⟩
  · obtain ⟨y, hy, h⟩ := h a.lhs (by simp)
    exact ⟨_, by simp, y, hy, h⟩

/-- The table at an end of a valid ref. -/
theorem end_table (hv : Valid s) {k : Link} (hk : k ∈ links s) {x x' : End} (hx : x ∈ [k.lhs, k.rhs])
    (hu : Unaliased s x x') : ∃ t, Names s x' t := by
  obtain ⟨-, -, l, r, tl, tr, h3, h4, h5, h6, -⟩ := hv.refs.1 k hk
  simp at hx
  rcases hx with rfl | rfl
  · exact ⟨tl, (Spec.Unaliased.unique hv.tableNames.2.1 hu h3) ▸ h5⟩
  · exact ⟨tr, (Spec.Unaliased.unique hv.tableNames.2.1 hu h4) ▸ h6⟩

theorem sameEnd_key {S : SchemaBlock} {a b : End} {t u : TableBlock} (h : SameEnd a b) (ha : Names s a t)
    (hb : Names S b u) : tableKey t = tableKey u := by
  rw [names_key ha, names_key hb, h.1, h.2.1]

/-- **C60.** Two valid schemas that are apart can be put together: all blocks of the first and all but the project of
the second. -/
theorem C60_merge (hv : Valid s) (hv' : Valid s') (h : Apart s s') : Valid (merge s s') where
  project := by rw [ProjectOk, merge_projects]; exact hv.project
  settings := fun as ha => (mem_merge_settings.1 ha).elim (hv.settings as) (hv'.settings as)
  tableNames := by
    refine ⟨?_, ?_, fun t ht => ?_⟩
    · rw [merge_tables, List.map_append, List.nodup_append]
      refine ⟨hv.tableNames.1, hv'.tableNames.1, ?_⟩
      intro a ha b hb
      obtain ⟨t, ht, rfl⟩ := List.mem_map.1 ha
      obtain ⟨u, hu, rfl⟩ := List.mem_map.1 hb
      exact h.tables t ht u hu
    · rw [merge_tables, List.filterMap_append, List.nodup_append]
      refine ⟨hv.tableNames.2.1, hv'.tableNames.2.1, ?_⟩
      rintro a ha b hb rfl
      obtain ⟨t, ht, hat⟩ := List.mem_filterMap.1 ha
      obtain ⟨u, hu, hau⟩ := List.mem_filterMap.1 hb
      rcases h.aliases t ht u hu with h1 | h1
      · simp [h1] at hat
      · exact h1 (hat.trans hau.symm)
    · rw [merge_tables, List.mem_append] at ht
      exact ht.elim (hv.tableNames.2.2 t) (hv'.tableNames.2.2 t)
  enumNames := by
    refine ⟨?_, fun t ht => ?_⟩
    · rw [merge_enums, List.map_append, List.nodup_append]
      refine ⟨hv.enumNames.1, hv'.enumNames.1, ?_⟩
      intro a ha b hb
      obtain ⟨t, ht, rfl⟩ := List.mem_map.1 ha
      obtain ⟨u, hu, rfl⟩ := List.mem_map.1 hb
      exact h.enums t ht u hu
    · rw [merge_enums, List.mem_append] at ht
      exact ht.elim (hv.enumNames.2 t) (hv'.enumNames.2 t)
  groups := by
    refine ⟨?_, fun g hg => ?_⟩
    · rw [merge_groups, List.map_append, List.nodup_append]
      refine ⟨hv.groups.1, hv'.groups.1, ?_⟩
      intro a ha b hb
      obtain ⟨t, ht, rfl⟩ := List.mem_map.1 ha
      obtain ⟨u, hu, rfl⟩ := List.mem_map.1 hb
      exact h.groups t ht u hu
    · rw [merge_groups, List.mem_append] at hg
      rcases hg with hg | hg
      · obtain ⟨ks, h1, h2⟩ := hv.groups.2 g hg
        refine ⟨ks, groupTargets_of (fun i hi k hk => groupTarget_of (fun hs => ?_) hk) h1, h2⟩
        refine ⟨h.alias1 (List.mem_append_right _ (groupNames_mem hg hi hs)), fun t ht _ => ?_⟩
        rw [merge_tables]; exact List.mem_append_left _ ht
      · obtain ⟨ks, h1, h2⟩ := hv'.groups.2 g hg
        refine ⟨ks, groupTargets_of (fun i hi k hk => groupTarget_of (fun hs => ?_) hk) h1, h2⟩
        refine ⟨h.alias2 (List.mem_append_right _ (groupNames_mem hg hi hs)), fun t ht _ => ?_⟩
        rw [merge_tables]; exact List.mem_append_right _ ht
  tables := fun t ht => by
    rw [merge_tables, List.mem_append] at ht
    exact ht.elim (hv.tables t) (hv'.tables t)
  columns := fun c hc => by
    rw [merge_columns, List.mem_append] at hc
    rcases hc with hc | hc
    · exact columnOk_mono (fun e he => by rw [merge_enums]; exact List.mem_append_left _ he) (hv.columns c hc)
    · exact columnOk_mono (fun e he => by rw [merge_enums]; exact List.mem_append_right _ he) (hv'.columns c hc)
  refs := by
    have hal : ∀ k ∈ links s, ∀ e ∈ [k.lhs, k.rhs], ∀ t, IsAlias s e.table t ↔ IsAlias (merge s s') e.table t :=
      fun k hk e he => h.alias1 (List.mem_append_left _ (refTables_mem hk he))
    have hal' : ∀ k ∈ links s', ∀ e ∈ [k.lhs, k.rhs], ∀ t, IsAlias s' e.table t ↔ IsAlias (merge s s') e.table t :=
      fun k hk e he => h.alias2 (List.mem_append_left _ (refTables_mem hk he))
    refine ⟨fun k hk => ?_, ?_⟩
    · rcases mem_merge_links.1 hk with hk | hk
      · refine linkOk_of (fun e he => ⟨hal k hk e he, fun e' t _ hn => ?_⟩) (hv.refs.1 k hk)
        rw [merge_tables]; exact List.mem_append_left _ hn.1
      · refine linkOk_of (fun e he => ⟨hal' k hk e he, fun e' t _ hn => ?_⟩) (hv'.refs.1 k hk)
        rw [merge_tables]; exact List.mem_append_right _ hn.1
    · have split4 : ∀ {S S' : SchemaBlock} {a b : Link},
          (∀ e ∈ [a.lhs, a.rhs], ∀ t, IsAlias S e.table t ↔ IsAlias S' e.table t) →
          (∀ e ∈ [b.lhs, b.rhs], ∀ t, IsAlias S e.table t ↔ IsAlias S' e.table t) →
          ∀ e ∈ [a.lhs, a.rhs, b.lhs, b.rhs], ∀ t, IsAlias S' e.table t ↔ IsAlias S e.table t := by
        intro S S' a b h1 h2 e he t
        simp at he
        rcases he with rfl | rfl | rfl | rfl
        · exact (h1 _ (by simp) t).symm
        · exact (h1 _ (by simp) t).symm
        · exact (h2 _ (by simp) t).symm
        · exact (h2 _ (by simp) t).symm
      have cross : ∀ a ∈ links s, ∀ b ∈ links s',
          ∀ x ∈ [a.lhs, a.rhs], ∀ y ∈ [b.lhs, b.rhs], ∀ x' y', Unaliased (merge s s') x x' →
            Unaliased (merge s s') y y' → ¬ (SameEnd x' y' ∨ SameEnd y' x') := by
        intro a ha b hb x hx y hy x' y' hux huy hs
        obtain ⟨t, ht⟩ := end_table hv ha hx (unaliased_of (fun t => (hal a ha x hx t).symm) hux)
        obtain ⟨u, hu⟩ := end_table hv' hb hy (unaliased_of (fun t => (hal' b hb y hy t).symm) huy)
        rcases hs with hs | hs
        · exact h.tables t ht.1 u hu.1 (sameEnd_key hs ht hu)
        · exact h.tables t ht.1 u hu.1 (sameEnd_key hs hu ht).symm
      refine (merge_links_perm.pairwise_iff fun h => ⟨h.2, h.1⟩).2 (List.pairwise_append.2 ⟨?_, ?_, ?_⟩)
      · refine hv.refs.2.imp_of_mem fun {a b} ha hb hc => ⟨fun h1 => hc.1 ?_, fun h1 => hc.2 ?_⟩
        · exact competes_of (split4 (hal a ha) (hal b hb)) h1
        · exact competes_of (split4 (hal b hb) (hal a ha)) h1
      · refine hv'.refs.2.imp_of_mem fun {a b} ha hb hc => ⟨fun h1 => hc.1 ?_, fun h1 => hc.2 ?_⟩
        · exact competes_of (split4 (hal' a ha) (hal' b hb)) h1
        · exact competes_of (split4 (hal' b hb) (hal' a ha)) h1
      · intro a ha b hb
        constructor <;> intro hc
        · obtain ⟨x, hx, y, hy, x', y', h1, h2, h3⟩ := competes_share hc
          exact cross a ha b hb x hx y hy x' y' h1 h2 (.inl h3)
        · obtain ⟨x, hx, y, hy, x', y', h1, h2, h3⟩ := competes_share hc
          exact cross a ha b hb y hy x hx y' x' h2 h1 (.inr h3)

/-- **C60** for texts: if two texts are accepted and apart, a text that declares what both declare, with the project
of the first only, is accepted. -/
theorem C60_merge_text {t t' u : Str} {r : SchemaBlock} (h : parseDbml t = .ok s) (h' : parseDbml t' = .ok s')
    (ha : Apart (bare s) (bare s')) (hu : parseDbmlUnchecked u = .ok r)
    (hb : bare r = merge (bare s) (bare s')) : parseDbml u = .ok r := by
  have h0 := ((C33_accepts_iff_valid t s).1 h).1
  have h0' := ((C33_accepts_iff_valid t' s').1 h').1
  have hv := C60_merge ((accepted_iff_bare h0).1 ⟨s, h⟩) ((accepted_iff_bare h0').1 ⟨s', h'⟩) ha
  rw [← hb] at hv
  obtain ⟨q, hq⟩ := (accepted_iff_bare hu).2 hv
  have := ((C33_accepts_iff_valid u q).1 hq).1
  rw [hu] at this
  cases this
  exact hq

/-! ## Concrete cases -/

theorem parsed_of {t : Str} (h : (parseDbml t).get?.isSome = true) : parseDbml t = .ok ((parseDbml t).get?.getD {}) := by
  obtain ⟨a, ha⟩ := Option.isSome_iff_exists.1 h
  rw [Rs.eq_ok_of_get? ha]; rfl

/-- The last three declarations of the example are a ref, a table group and a note. -/
example : ∃ t1 t2 t3 s', exText = t1 ++ (t2 ++ t3) ∧ parseDbml (t1 ++ '\n' :: t3) = .ok s' :=
  have ⟨t1, t2, t3, s', h1, h2, _⟩ := C60_cut_out exText exAst ex_accepted 4 3 (by decide +kernel) (by decide +kernel)
  ⟨t1, t2, t3, s', h1, h2⟩

/-- Three tables, one of them in no ref and no group. -/
def exThree : Str := k!"Project p { }
Enum e { a b }
Table x.one as o { id int [pk] kind e [default: 'a'] }
Table two { id int [ref: > x.one.id] }
Table three as tr { id int [ref: - o.id] }
TableGroup g { o two }"

/-- The same without the table `three`. -/
def exTwo : Str := k!"Project p { }
Enum e { a b }
Table x.one as o { id int [pk] kind e [default: 'a'] }
Table two { id int [ref: > x.one.id] }
TableGroup g { o two }"

/-- Dropping the table `three` is within bounds. -/
example : (parseDbml exTwo).get?.isSome = true := by
  have h1 := parsed_of (t := exThree) (by decide +kernel)
  have h2 : parseDbmlUnchecked exTwo = .ok ((parseDbmlUnchecked exTwo).get?.getD {}) := by
    have h : (parseDbmlUnchecked exTwo).get?.isSome = true := by decide +kernel
    obtain ⟨a, ha⟩ := Option.isSome_iff_exists.1 h
    rw [Rs.eq_ok_of_get? ha]; rfl
  rw [C60_drop_text h1 h2 ⟨by decide +kernel, by decide +kernel, by unfold Mentions; decide +kernel, ?_⟩]
  · rfl
  · have he : ((bare ((parseDbml exThree).get?.getD {})).enums) =
        ((bare ((parseDbmlUnchecked exTwo).get?.getD {})).enums) := by decide +kernel
    intro e h1 h2
    exact absurd (he ▸ h1) h2

/-- Dropping a table that a ref mentions is not: the ref dangles. -/
example : parseDbml k!"Project p { }
Table two { id int [pk, ref: - one.id] }" = .err (.semantic .tableNotFound ⟨45, 48⟩) := by decide +kernel

/-- Dropping an enum is not, if it is the type of a column with a default value; otherwise it is (enums that are
not declared are not noticed). -/
example : parseDbml k!"Project p { }
Table one { kind e [default: 'a'] }" = .err (.semantic .enumNotFound ⟨31, 32⟩) := by decide +kernel
example : ∃ s, parseDbml k!"Project p { }
Table one { kind e }" = .ok s := ⟨_, parsed_of (by decide +kernel)⟩

/-- A schema to add to the example. -/
def exMore : Str := k!"Project q { }
Table ops.logs as L { id int [pk] parent int [ref: > L.id] }
Table ops.jobs { id int [pk] }
Ref: L.id - ops.jobs.id
TableGroup ops { L ops.jobs }"

/-- The example and the addition are apart. -/
example : Valid (merge (bare exAst) (bare ((parseDbml exMore).get?.getD {}))) := by
  have h := parsed_of (t := exMore) (by decide +kernel)
  refine C60_merge ((accepted_iff_bare ex_reads).1 ⟨_, ex_accepted⟩)
    ((accepted_iff_bare (parseDbml_ok h)).1 ⟨_, h⟩) ⟨?_, ?_, ?_, ?_, ?_, ?_⟩ <;> decide +kernel

/-- Two accepted schemas with different tables that are not apart: the alias of the second captures a table name
that the ref of the first uses, and together they are rejected. -/
theorem C60_capture : ∃ t1 t2 : Str, (∃ s, parseDbml t1 = .ok s) ∧ (∃ s, parseDbml (k!"Project p { }\n" ++ t2) = .ok s) ∧
    ¬ ∃ s, parseDbml (t1 ++ '\n' :: t2) = .ok s := by
  refine ⟨k!"Project p { } Table a { id int [pk] } Table b { id int [ref: > a.id] }", k!"Table x.c as a { n int }",
    ⟨_, parsed_of (by decide +kernel)⟩, ⟨_, parsed_of (by decide +kernel)⟩, ?_⟩
  rintro ⟨s, h⟩
  have : (parseDbml (k!"Project p { } Table a { id int [pk] } Table b { id int [ref: > a.id] }" ++ '\n' ::
    k!"Table x.c as a { n int }")).get?.isSome = false := by decide +kernel
  rw [h] at this
  simp [Rs.get?] at this

end Dbml.Props
