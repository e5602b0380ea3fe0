import Verif.Proofs.Core
import Verif.Proofs.Tells
import Verif.Spec.Kinds

/-!
# The checklists of a schema and of its core report the same
-/

namespace Dbml.Spec
open Dbml

variable {ρ : Renaming} {s : SchemaBlock}

/-! ## The report of a list of checks -/

/-- A verdict up to `π`; a crash is `none`. -/
def upto (π : Err → Err) : Verdict → Option Err
  | .error e _ => some (π e)
  | .crash => none

open Classical in
/-- The verdict of the first check that fails, up to `π`; a crash is `none`. -/
noncomputable def rep (π : Err → Err) : List Check → Option (Option Err)
  | [] => none
  | c :: l => if c.bad then some (upto π c.verdict) else rep π l

variable {π : Err → Err}

theorem rep_append (l m : List Check) : rep π (l ++ m) = (rep π l).or (rep π m) := by
  induction l with
  | nil => simp [rep]
  | cons c l ih =>
    rw [List.cons_append, rep, rep]
    split <;> simp [ih]

theorem rep_append' {l l' m m' : List Check} (h : rep π l = rep π l') (h' : rep π m = rep π m') :
    rep π (l ++ m) = rep π (l' ++ m') := by rw [rep_append, rep_append, h, h']

theorem rep_err {p p' : Prop} {e e' : Err} {sp sp' : Span} {l l' : List Check} (h : p ↔ p') (he : p → π e = π e')
    (hl : rep π l = rep π l') : rep π (.err p e sp :: l) = rep π (.err p' e' sp' :: l') := by
  rw [rep, rep]
  by_cases hp : p
  · rw [if_pos hp, if_pos (h.1 hp)]; simp [upto, he hp]
  · rw [if_neg hp, if_neg (fun x => hp (h.2 x)), hl]

theorem rep_err1 {p p' : Prop} {e : Err} {sp sp' : Span} (h : p ↔ p') : rep π [.err p e sp] = rep π [.err p' e sp'] :=
  rep_err h (fun _ => rfl) rfl

theorem rep_crash {p p' : Prop} {l l' : List Check} (h : p ↔ p') (hl : rep π l = rep π l') :
    rep π (⟨p, .crash⟩ :: l) = rep π (⟨p', .crash⟩ :: l') := by
  rw [rep, rep]
  by_cases hp : p
  · rw [if_pos hp, if_pos (h.1 hp)]
  · rw [if_neg hp, if_neg (fun x => hp (h.2 x)), hl]

theorem rep_flatMap {α β : Type} {f : α → β} {g : β → List Check} {k : α → List Check} (l : List α)
    (h : ∀ a ∈ l, rep π (g (f a)) = rep π (k a)) : rep π ((l.map f).flatMap g) = rep π (l.flatMap k) := by
  induction l with
  | nil => rfl
  | cons a l ih =>
    rw [List.map_cons, List.flatMap_cons, List.flatMap_cons]
    exact rep_append' (h a (by simp)) (ih fun a ha => h a (by simp [ha]))

theorem rep_flatMap' {α : Type} {g k : α → List Check} (l : List α)
    (h : ∀ a ∈ l, rep π (g a) = rep π (k a)) : rep π (l.flatMap g) = rep π (l.flatMap k) := by
  simpa using rep_flatMap (f := id) l h

theorem rep_map {α β : Type} {f : α → β} {g : β → Check} {k : α → Check} (l : List α)
    (h : ∀ a ∈ l, rep π [g (f a)] = rep π [k a]) : rep π ((l.map f).map g) = rep π (l.map k) := by
  have := rep_flatMap (g := fun b => [g b]) (k := fun a => [k a]) l h
  simpa only [← List.map_eq_flatMap] using this

theorem rep_inTurn {α β : Type} {f : α → β} {g : List β → β → List β → List Check} {k : List α → α → List α → List Check}
    (h : ∀ b x a, rep π (g (b.map f) (f x) (a.map f)) = rep π (k b x a)) (b l : List α) :
    rep π (inTurn g (b.map f) (l.map f)) = rep π (inTurn k b l) := by
  induction l generalizing b with
  | nil => rfl
  | cons a l ih =>
    rw [List.map_cons, inTurn, inTurn]
    refine rep_append' (h b a l) ?_
    have := ih (b ++ [a])
    rwa [List.map_append] at this

theorem rep_const {l : List Check} {v : Option (Option Err)} (hv : v ≠ none)
    (h : ∀ c ∈ l, rep π [⟨True, c.verdict⟩] = v) : (rep π l = v ↔ ∃ c ∈ l, c.bad) ∧ (rep π l = none ↔ ∀ c ∈ l, ¬ c.bad) := by
  induction l with
  | nil => simp [rep, Ne.symm hv]
  | cons c l ih =>
    have hc := h c (by simp)
    have ih := ih fun d hd => h d (by simp [hd])
    rw [rep] at hc ⊢
    rw [if_pos trivial] at hc
    by_cases hb : c.bad
    · rw [if_pos hb, hc]
      simp [hb, hv]
    · rw [if_neg hb]
      simp [hb, ih]

/-- Lists of checks with the same verdict report the same if the same is bad about them. -/
theorem rep_same {l m : List Check} {v : Option (Option Err)} (hv : v ≠ none)
    (h : ∀ c ∈ l, rep π [⟨True, c.verdict⟩] = v) (h' : ∀ c ∈ m, rep π [⟨True, c.verdict⟩] = v)
    (e : (∃ c ∈ l, c.bad) ↔ ∃ c ∈ m, c.bad) : rep π l = rep π m := by
  obtain ⟨h1, h2⟩ := rep_const hv h
  obtain ⟨h3, h4⟩ := rep_const hv h'
  by_cases hb : ∃ c ∈ l, c.bad
  · rw [h1.2 hb, h3.2 (e.1 hb)]
  · have hb' : ¬ ∃ c ∈ m, c.bad := fun x => hb (e.2 x)
    rw [h2.2 fun c hc x => hb ⟨c, hc, x⟩, h4.2 fun c hc x => hb' ⟨c, hc, x⟩]

theorem rep_passes (l : List Check) : rep π l = none ↔ Passes l := by
  induction l with
  | nil => simp [rep, Passes]
  | cons c l ih =>
    rw [rep]
    by_cases hb : c.bad
    · rw [if_pos hb]; simp [Passes, hb]
    · rw [if_neg hb, ih]; simp [Passes, hb]

theorem rep_decides {l : List Check} {v : Verdict} (h : Decides l v) :
    rep π l = some (upto π v) := by
  obtain ⟨p, c, q, rfl, h1, h2, rfl⟩ := h
  rw [rep_append, (rep_passes p).2 h1, rep, if_pos h2]; rfl

theorem rep_decides_iff (l : List Check) (v : Option Err) :
    rep π l = some v ↔ ∃ w, Decides l w ∧ v = upto π w := by
  constructor
  · intro h
    induction l with
    | nil => simp [rep] at h
    | cons c l ih =>
      rw [rep] at h
      by_cases hb : c.bad
      · rw [if_pos hb] at h
        exact ⟨c.verdict, ⟨[], c, l, rfl, by simp [Passes], hb, rfl⟩, (Option.some.inj h).symm⟩
      · rw [if_neg hb] at h
        obtain ⟨w, ⟨p, d, q, rfl, h1, h2, h3⟩, e⟩ := ih h
        refine ⟨w, ⟨c :: p, d, q, rfl, ?_, h2, h3⟩, e⟩
        intro x hx
        rcases List.mem_cons.1 hx with rfl | hx
        · exact hb
        · exact h1 x hx
  · rintro ⟨w, h, rfl⟩
    exact rep_decides h

theorem toList_map {α β : Type} (f : α → β) (o : Option α) : (o.map f).toList = o.toList.map f := by cases o <;> rfl

/-! ## Settings, project, tables, enums, groups -/

theorem rep_settings (as : List Attribute) : rep π (settingChecks (as.map Core.attr)) = rep π (settingChecks as) := by
  unfold settingChecks
  refine rep_inTurn (f := Core.attr) (fun b x a => rep_err1 ?_) [] as
  simp [Core.attr, Core.name]

theorem rep_project : rep π (projectChecks (core ρ s)) = rep π (projectChecks s) := by
  unfold projectChecks
  rw [core_projects]
  refine rep_append' (rep_err (by simp) (fun _ => rfl) (rep_err1 (by simp))) (rep_flatMap _ fun p _ => ?_)
  refine rep_inTurn (f := Core.prop) (fun b x a => rep_err1 ?_) [] _
  simp [Core.prop, Core.name]

theorem rep_table (h : ρ.Ok) (before : List TableBlock) (t : TableBlock) :
    rep π (tableChecks (before.map (Core.table ρ)) (Core.table ρ t)) = rep π (tableChecks before t) := by
  unfold tableChecks
  refine rep_append' (rep_append' (rep_append' ?_ (rep_err1 ?_)) ?_) ?_
  · show rep π (((t.settings.map _).toList).flatMap _) = _
    rw [toList_map]
    exact rep_flatMap _ fun st _ => rep_settings _
  · simp only [exists_map, core_tableKey h]
    exact ⟨fun ⟨u, hu, e⟩ => ⟨u, hu, h.key _ _ e⟩, fun ⟨u, hu, e⟩ => ⟨u, hu, by rw [e]⟩⟩
  · rw [core_cols]
    refine rep_inTurn (f := Core.column ρ) (fun b x a => rep_append' ?_ (rep_err1 ?_)) [] _
    · show rep π (((x.settings.map _).toList).flatMap _) = _
      rw [toList_map]
      exact rep_flatMap _ fun st _ => rep_settings _
    · simp only [exists_map]
      exact ⟨fun ⟨u, hu, e⟩ => ⟨u, hu, h.col _ _ e⟩, fun ⟨u, hu, e⟩ => ⟨u, hu, congrArg ρ.col e⟩⟩
  · show rep π (((t.ident.alias.map (Core.ident ρ.table)).toList).map _) = _
    rw [toList_map]
    refine rep_map _ fun a _ => rep_err1 ?_
    simp only [exists_map, core_aliasOf]
    constructor
    · rintro ⟨u, hu, e⟩
      obtain ⟨b, hb, e⟩ := Option.map_eq_some_iff.1 e
      exact ⟨u, hu, by rw [hb, h.table _ _ e]⟩
    · rintro ⟨u, hu, e⟩
      exact ⟨u, hu, by rw [e]; rfl⟩

theorem rep_enum (before : List EnumBlock) (e : EnumBlock) :
    rep π (enumChecks (before.map Core.enum) (Core.enum e)) = rep π (enumChecks before e) := by
  unfold enumChecks
  refine rep_append' (rep_err1 ?_) ?_
  · simp only [exists_map, core_enumKey]
  · refine rep_inTurn (f := Core.enumValue) (fun b x a => rep_append' ?_ (rep_err1 ?_)) [] _
    · show rep π (((x.settings.map _).toList).flatMap _) = _
      rw [toList_map]
      exact rep_flatMap _ fun st _ => rep_settings _
    · simp [Core.enumValue, Core.name]

theorem core_groupTarget_none (h : ρ.Ok) (i : TableGroupItem) :
    (∀ k, ¬ GroupTarget (core ρ s) (Core.groupItem ρ i) k) ↔ ∀ k, ¬ GroupTarget s i k := by
  simp only [core_groupTarget h]
  exact ⟨fun x k hk => x _ ⟨k, hk, rfl⟩, fun x k ⟨k', hk, _⟩ => x k' hk⟩

theorem rep_group (h : ρ.Ok) (before : List TableGroupBlock) (g : TableGroupBlock) :
    rep π (groupChecks (core ρ s) (before.map (Core.group ρ)) (Core.group ρ g)) = rep π (groupChecks s before g) := by
  unfold groupChecks
  refine rep_append' (rep_err1 ?_) ?_
  · simp only [exists_map]
    exact ⟨fun ⟨u, hu, e⟩ => ⟨u, hu, h.group _ _ e⟩, fun ⟨u, hu, e⟩ => ⟨u, hu, congrArg ρ.group e⟩⟩
  · refine rep_inTurn (f := Core.groupItem ρ) (fun b x a => rep_err (core_groupTarget_none h x) (fun _ => rfl) (rep_err1 ?_)) [] _
    simp only [exists_map, core_groupTarget h]
    constructor
    · rintro ⟨j, hj, k, ⟨k1, h1, rfl⟩, k2, h2, e⟩
      exact ⟨j, hj, k1, h1, by rw [h.key _ _ e]; exact h2⟩
    · rintro ⟨j, hj, k, h1, h2⟩
      exact ⟨j, hj, _, ⟨k, h1, rfl⟩, k, h2, rfl⟩

/-! ## Keys and indexes -/

theorem rep_columnKey (before : List TableColumn) (c : TableColumn) :
    rep π (columnKeyChecks (before.map (Core.column ρ)) (Core.column ρ c)) = rep π (columnKeyChecks before c) := by
  unfold columnKeyChecks
  show rep π (((c.settings.map _).toList).flatMap _) = _
  rw [toList_map]
  refine rep_flatMap _ fun st _ => ?_
  refine rep_err ?_ (fun _ => rfl) (rep_err ?_ (fun _ => rfl) (rep_err ?_ (fun _ => rfl) (rep_err1 ?_)))
  · simp only [exists_map, core_isPkCol]
  · rw [core_isPkCol]; rfl
  · rw [core_isPkCol]; rfl
  · show k!"null" ∈ (st.attributes.map Core.attr).map _ ∧ k!"not null" ∈ (st.attributes.map Core.attr).map _ ↔ _
    rw [core_attrKeys]

theorem subset_map (h : ρ.Ok) (l m : List Str) : l.map ρ.col ⊆ m.map ρ.col ↔ l ⊆ m := by
  constructor
  · intro hs x hx
    obtain ⟨y, hy, e⟩ := List.mem_map.1 (hs (List.mem_map_of_mem hx))
    rw [← h.col _ _ e]; exact hy
  · exact fun hs => List.map_subset _ hs

theorem core_plainIndex (d : IndexesDef) :
    plainIndex (Core.indexDef ρ d) = (plainIndex d).map (fun p => (p.1.map ρ.col, p.2)) := by
  unfold plainIndex
  rw [core_indexNames]
  cases hs : d.settings with
  | none => simp [Core.indexDef, hs]
  | some st => cases ht : st.type <;> simp [Core.indexDef, Core.indexSettings, hs, ht]

theorem rep_index (h : ρ.Ok) (t : TableBlock) (b b' : Span) (before : List IndexesDef) (d : IndexesDef) :
    rep π (indexChecks (Core.table ρ t) b' (before.map (Core.indexDef ρ)) (Core.indexDef ρ d)) =
      rep π (indexChecks t b before d) := by
  unfold indexChecks
  refine rep_append' (rep_append' (rep_append' (rep_err1 ?_) ?_) ?_) (rep_err1 ?_)
  · simp [Core.indexDef]
  · refine rep_flatMap (f := Core.indexCol ρ) d.cols fun c _ => ?_
    cases c with
    | string i =>
      refine rep_err1 (not_congr ?_)
      rw [core_colNames]
      exact List.mem_map_of_injective (fun a b => h.col a b)
    | expr _ => rfl
  · show rep π (((d.settings.map _).toList).flatMap _) = _
    rw [toList_map]
    refine rep_flatMap _ fun st _ => rep_append' (rep_settings _) ?_
    refine rep_err Iff.rfl (fun _ => rfl) (rep_err ?_ (fun _ => rfl) (rep_err1 ?_))
    · rw [core_cols]
      simp only [exists_map, core_isPkCol, core_isPkIndex, core_indexNames, ne_eq, List.map_eq_nil_iff]
    · rw [core_cols]
      simp only [exists_map, core_isUniqueCol, core_isUniqueIndex, core_indexNames, subset_map h]
      have : ∀ c : TableColumn, ((indexNames d).map ρ.col ⊆ [(Core.column ρ c).name.to_string] ↔
          indexNames d ⊆ [c.name.to_string]) := fun c => subset_map h _ [c.name.to_string]
      simp only [this]
  · simp only [exists_map, core_plainIndex, Option.map_eq_some_iff]
    constructor
    · rintro ⟨d', hd, _, _, ⟨x, hx, rfl⟩, ⟨y, hy, rfl⟩, hr⟩
      exact ⟨d', hd, x, y, hx, hy, (map_inj_iff h.col _ _).1 hr.1, hr.2⟩
    · rintro ⟨d', hd, x, y, hx, hy, hr⟩
      exact ⟨d', hd, _, _, ⟨x, hx, rfl⟩, ⟨y, hy, rfl⟩, congrArg (List.map ρ.col) hr.1, hr.2⟩

theorem rep_keys (h : ρ.Ok) (t : TableBlock) : rep π (keyChecks (Core.table ρ t)) = rep π (keyChecks t) := by
  unfold keyChecks
  refine rep_append' ?_ ?_
  · rw [core_cols]
    exact rep_inTurn (f := Core.column ρ) (fun b x _ => rep_columnKey b x) [] _
  · show rep π (((t.indexes.map _).toList).flatMap _) = _
    rw [toList_map]
    refine rep_flatMap _ fun b _ => ?_
    exact rep_inTurn (f := Core.indexDef ρ) (fun bf x _ => rep_index h t _ _ bf x) [] _

/-! ## Columns -/

theorem core_default (c : TableColumn) : defaultOf (Core.column ρ c) = defaultOf c := by
  unfold defaultOf; cases h : c.settings <;> simp [Core.column, Core.colSettings, h]
theorem core_nullable (c : TableColumn) : nullableOfCol (Core.column ρ c) = nullableOfCol c := by
  unfold nullableOfCol; cases h : c.settings <;> simp [Core.column, Core.colSettings, h]
theorem core_panics (c : TableColumn) : ColumnPanics (Core.column ρ c) ↔ ColumnPanics c := by
  unfold ColumnPanics HasRaw
  rw [core_default]; rfl

theorem core_declared (hs : ρ.KeepsSchemas) (h : ρ.Ok) (n : Str) : SchemaDeclared (core ρ s) n ↔ SchemaDeclared s n := by
  unfold SchemaDeclared
  rw [core_tables, core_enums]
  simp only [exists_map, core_tableKey h, core_enumKey, Renaming.key, hs _]

/-- Missing schemas, tables and enums are not distinguished. -/
def Merges (π : Err → Err) : Prop := π .schemaNotFound = π .tableNotFound ∧ π .enumNotFound = π .tableNotFound

/-- The errors are not told apart by what they quote. -/
def Blind (π : Err → Err) : Prop := ∀ e e', plainErr e = plainErr e' → π e = π e'

/-- Two checks with the same verdict, the second of which fails whenever the first does, report as the second. -/
theorem rep_merge {p q : Prop} {e e' : Err} {sp sp' : Span} {l : List Check} (he : π e = π e') (h : p → q) :
    rep π (.err p e sp :: .err q e' sp' :: l) = rep π (.err q e' sp' :: l) := by
  rw [rep, rep]
  by_cases hq : q
  · rw [if_pos hq]
    by_cases hp : p
    · rw [if_pos hp]; simp [upto, he]
    · rw [if_neg hp]
  · rw [if_neg hq, if_neg fun x => hq (h x)]

theorem rep_column (h : ρ.Ok) (hπ : Blind π) (hs : ρ.KeepsSchemas ∨ Merges π) (c : TableColumn) :
    rep π (columnChecks (core ρ s) (Core.column ρ c)) = rep π (columnChecks s c) := by
  unfold columnChecks
  show rep π (match c.type.type_name with | .raw n => _ | _ => _) = _
  cases c.type.type_name with
  | raw n =>
    simp only [core_default, core_nullable]
    refine rep_append' ?_ ?_
    · cases hf : ColumnTypeName.fromStr n with
      | some ty => exact rep_err Iff.rfl (fun _ => rfl) (rep_err1 Iff.rfl)
      | none =>
        refine rep_append' (rep_err1 Iff.rfl) ?_
        refine rep_flatMap' _ fun v _ => ?_
        have hE : ∀ k, (∀ e ∈ (core ρ s).enums, enumKey e ≠ k) ↔ ∀ e ∈ s.enums, enumKey e ≠ k := by
          intro k; rw [core_enums]; simp only [List.forall_mem_map, core_enumKey]
        have hD : ∀ s : SchemaBlock, (∀ k, EnumRef n k → ¬ SchemaDeclared s k.1) →
            ∀ k, EnumRef n k → ∀ e ∈ s.enums, enumKey e ≠ k := by
          intro s hp k hk e he e'
          exact hp k hk (.inr ⟨e, he, by rw [e']⟩)
        rcases hs with hs | hm
        · simp only [hE, core_hasEnumValue, core_declared hs h]
          exact rep_err Iff.rfl (fun _ => rfl) (rep_err Iff.rfl (fun _ => rfl) (rep_err1 Iff.rfl))
        · rw [rep_merge (hm.1.trans hm.2.symm) (hD _), rep_merge (hm.1.trans hm.2.symm) (hD _)]
          simp only [hE, core_hasEnumValue]
          exact rep_err Iff.rfl (fun _ => rfl) (rep_err1 Iff.rfl)
    · refine rep_flatMap' _ fun v _ => rep_crash (core_panics c) (rep_err Iff.rfl (fun _ => hπ _ _ ?_) rfl)
      cases v <;> rfl
  | _ => rfl

/-! ## References -/

/-- A reference of the core. -/
def coreRef (ρ : Renaming) (r : IndexedRef) : IndexedRef :=
  { rel := r.rel, lhs := Core.refIdent ρ r.lhs, rhs := Core.refIdent ρ r.rhs
    settings := r.settings.map fun st => { attributes := st.attributes.map Core.attr } }

theorem core_inOrder : refsInOrder (core ρ s) = (refsInOrder s).map (coreRef ρ) := by
  unfold refsInOrder
  rw [core_refs, core_tables]
  simp only [List.map_append, List.map_map, List.flatMap_map, List.map_flatMap, core_cols]
  congr 1
  congr 1; funext t; congr 1; funext c
  cases hc : c.settings with
  | none => simp [Core.column, hc]
  | some st =>
    simp only [Core.column, hc, Option.map_some, Option.toList_some, List.flatMap_cons, List.flatMap_nil, List.append_nil,
      Core.colSettings, List.map_map]
    refine List.map_congr_left fun r _ => ?_
    rfl

theorem core_linkOf (r : IndexedRef) : linkOf (coreRef ρ r) = ρ.link (linkOf r) := by
  unfold linkOf coreRef Renaming.link
  simp only [core_endOf]

theorem core_endKey (h : ρ.Ok) (e : End) : endKey (ρ.endp e) = ρ.key (endKey e) := by
  unfold endKey Renaming.endp Renaming.key
  cases e.schema <;> simp [h.pub]

theorem core_unnamed (h : ρ.Ok) (e : End) :
    (∀ t ∈ (core ρ s).tables, tableKey t ≠ endKey (ρ.endp e)) ↔ ∀ t ∈ s.tables, tableKey t ≠ endKey e := by
  rw [core_tables, core_endKey h]
  simp only [List.forall_mem_map, core_tableKey h]
  exact forall_congr' fun t => imp_congr_right fun _ => not_congr ⟨fun e => h.key _ _ e, fun e => by rw [e]⟩

theorem ex_unaliased (h : ρ.Ok) (r : RefIdent) {P : End → Prop} {Q : End → Prop} (hPQ : ∀ e, P (ρ.endp e) ↔ Q e) :
    (∃ e', Unaliased (core ρ s) (endOf (Core.refIdent ρ r)) e' ∧ P e') ↔ ∃ e', Unaliased s (endOf r) e' ∧ Q e' := by
  rw [core_endOf]
  constructor
  · rintro ⟨e', hu, hp⟩
    obtain ⟨e, hu1, rfl⟩ := (core_unaliased h _ _).1 hu
    exact ⟨e, hu1, (hPQ e).1 hp⟩
  · rintro ⟨e, hu, hq⟩
    exact ⟨_, (core_unaliased h _ _).2 ⟨e, hu, rfl⟩, (hPQ e).2 hq⟩

theorem rep_end (h : ρ.Ok) (hs : ρ.KeepsSchemas ∨ Merges π) (e : RefIdent) :
    rep π (endChecks (core ρ s) (Core.refIdent ρ e)) = rep π (endChecks s e) := by
  unfold endChecks
  have hT := ex_unaliased (s := s) h e (P := fun e' => ∀ t ∈ (core ρ s).tables, tableKey t ≠ endKey e')
    (Q := fun e' => ∀ t ∈ s.tables, tableKey t ≠ endKey e') fun e' => core_unnamed h e'
  refine rep_append' ?_ (rep_map e.compositions fun i _ => rep_err1 ?_)
  · rcases hs with hs | hm
    · refine rep_err (ex_unaliased h e fun e' => ?_) (fun _ => rfl) (rep_err1 hT)
      rw [core_endKey h, core_declared hs h, Renaming.key, hs]
    · have hD : ∀ (s : SchemaBlock) (e : RefIdent), (∃ e', Unaliased s (endOf e) e' ∧ ¬ SchemaDeclared s (endKey e').1) →
          ∃ e', Unaliased s (endOf e) e' ∧ ∀ t ∈ s.tables, tableKey t ≠ endKey e' := by
        rintro s e ⟨e', hu, hn⟩
        exact ⟨e', hu, fun t ht he => hn (.inl ⟨t, ht, by rw [he]⟩)⟩
      rw [rep_merge hm.1 (hD _ _), rep_merge hm.1 (hD _ _)]
      exact rep_err1 hT
  · rw [core_endOf]
    constructor
    · rintro ⟨e', t', hu, ht, hk, hn⟩
      obtain ⟨e1, hu1, rfl⟩ := (core_unaliased h _ _).1 hu
      rw [core_tables] at ht
      obtain ⟨t, ht1, rfl⟩ := List.mem_map.1 ht
      rw [core_tableKey h, core_endKey h] at hk
      refine ⟨e1, t, hu1, ht1, h.key _ _ hk, fun x => hn ?_⟩
      rw [core_colNames]; exact List.mem_map_of_mem x
    · rintro ⟨e1, t, hu, ht, hk, hn⟩
      refine ⟨_, Core.table ρ t, (core_unaliased h _ _).2 ⟨e1, hu, rfl⟩, ?_, ?_, fun x => hn ?_⟩
      · rw [core_tables]; exact List.mem_map_of_mem ht
      · rw [core_tableKey h, core_endKey h, hk]
      · rw [core_colNames] at x
        exact (List.mem_map_of_injective (fun a b => h.col a b)).1 x

theorem core_noName (h : ρ.Ok) (e : End) : (∀ t, ¬ Names (core ρ s) (ρ.endp e) t) ↔ ∀ t, ¬ Names s e t := by
  simp only [core_names h]
  exact ⟨fun x t ht => x _ ⟨t, ht, rfl⟩, fun x _ ⟨t, ht, _⟩ => x t ht⟩

/-- Two ends that name tables, and a statement about them. -/
theorem ex_ends (h : ρ.Ok) (r : IndexedRef) {P Q : End → End → TableBlock → TableBlock → Prop}
    (hPQ : ∀ a b t u, P (ρ.endp a) (ρ.endp b) (Core.table ρ t) (Core.table ρ u) ↔ Q a b t u) :
    (∃ el er tl tr, Unaliased (core ρ s) (endOf (coreRef ρ r).lhs) el ∧ Unaliased (core ρ s) (endOf (coreRef ρ r).rhs) er ∧
      Names (core ρ s) el tl ∧ Names (core ρ s) er tr ∧ P el er tl tr) ↔
    ∃ el er tl tr, Unaliased s (endOf r.lhs) el ∧ Unaliased s (endOf r.rhs) er ∧ Names s el tl ∧ Names s er tr ∧ Q el er tl tr := by
  show (∃ el er tl tr, Unaliased (core ρ s) (endOf (Core.refIdent ρ r.lhs)) el ∧
    Unaliased (core ρ s) (endOf (Core.refIdent ρ r.rhs)) er ∧ _) ↔ _
  rw [core_endOf, core_endOf]
  constructor
  · rintro ⟨l', r', tl', tr', hl, hr, nl, nr, hp⟩
    obtain ⟨l, hl1, rfl⟩ := (core_unaliased h _ _).1 hl
    obtain ⟨r, hr1, rfl⟩ := (core_unaliased h _ _).1 hr
    obtain ⟨tl, nl1, rfl⟩ := (core_names h _ _).1 nl
    obtain ⟨tr, nr1, rfl⟩ := (core_names h _ _).1 nr
    exact ⟨l, r, tl, tr, hl1, hr1, nl1, nr1, (hPQ _ _ _ _).1 hp⟩
  · rintro ⟨l, r, tl, tr, hl, hr, nl, nr, hq⟩
    exact ⟨_, _, _, _, (core_unaliased h _ _).2 ⟨l, hl, rfl⟩, (core_unaliased h _ _).2 ⟨r, hr, rfl⟩,
      (core_names h _ _).2 ⟨tl, nl, rfl⟩, (core_names h _ _).2 ⟨tr, nr, rfl⟩, (hPQ _ _ _ _).2 hq⟩

theorem clash_column {r : IndexedRef} {x y : Ident} {d : TableColumn} (h : TypeClash s r x y d) : d ∈ columns s := by
  obtain ⟨_, _, _, tr, _, _, _, _, ht, _, hd, _⟩ := h
  exact List.mem_flatMap.2 ⟨tr, ht.1, hd.1⟩

theorem core_clash (h : ρ.Ok) (r : IndexedRef) (x y : Ident) :
    (∃ d, TypeClash (core ρ s) (coreRef ρ r) (Core.ident ρ.col x) (Core.ident ρ.col y) d) ↔ ∃ d, TypeClash s r x y d := by
  have key := ex_ends (s := s) h r
    (P := fun _ _ tl tr => ∃ c d, IsColumn tl (ρ.col x.to_string) c ∧ IsColumn tr (ρ.col y.to_string) d ∧ ¬ SameType c d)
    (Q := fun _ _ tl tr => ∃ c d, IsColumn tl x.to_string c ∧ IsColumn tr y.to_string d ∧ ¬ SameType c d)
    fun a b t u => by
      constructor
      · rintro ⟨c', d', hc, hd, hn⟩
        obtain ⟨c, hc1, rfl⟩ := (core_isColumn h _ _ _).1 hc
        obtain ⟨d, hd1, rfl⟩ := (core_isColumn h _ _ _).1 hd
        exact ⟨c, d, hc1, hd1, hn⟩
      · rintro ⟨c, d, hc, hd, hn⟩
        exact ⟨_, _, (core_isColumn h _ _ _).2 ⟨c, hc, rfl⟩, (core_isColumn h _ _ _).2 ⟨d, hd, rfl⟩, hn⟩
  constructor
  · rintro ⟨d, el, er, tl, tr, c, h1, h2, h3, h4, h5, h6, h7⟩
    obtain ⟨el, er, tl, tr, h1, h2, h3, h4, c, d, h5, h6, h7⟩ := key.1 ⟨el, er, tl, tr, h1, h2, h3, h4, c, d, h5, h6, h7⟩
    exact ⟨d, el, er, tl, tr, c, h1, h2, h3, h4, h5, h6, h7⟩
  · rintro ⟨d, el, er, tl, tr, c, h1, h2, h3, h4, h5, h6, h7⟩
    obtain ⟨el, er, tl, tr, h1, h2, h3, h4, c, d, h5, h6, h7⟩ := key.2 ⟨el, er, tl, tr, h1, h2, h3, h4, c, d, h5, h6, h7⟩
    exact ⟨d, el, er, tl, tr, c, h1, h2, h3, h4, h5, h6, h7⟩

theorem rep_ref (h : ρ.Ok) (hπ : Blind π) (hs : ρ.KeepsSchemas ∨ Merges π) (before : List IndexedRef) (r : IndexedRef)
    (after : List IndexedRef) :
    rep π (refChecks (core ρ s) (before.map (coreRef ρ)) (coreRef ρ r) (after.map (coreRef ρ))) =
      rep π (refChecks s before r after) := by
  unfold refChecks
  refine rep_append' (rep_append' (rep_append' (rep_append' (rep_append' (rep_append' ?_ (rep_err1 ?_)) ?_) ?_) ?_) ?_) ?_
  · show rep π (((r.settings.map _).toList).flatMap _) = _
    rw [toList_map]
    exact rep_flatMap _ fun st _ => rep_settings _
  · simp [coreRef, Core.refIdent]
  · exact rep_end h hs _
  · exact rep_end h hs _
  · exact rep_map (f := Core.refIdent ρ) [r.lhs, r.rhs] fun e _ => rep_err1 (ex_unaliased h e fun e' => core_noName h e')
  · have hz : (coreRef ρ r).lhs.compositions.zip (coreRef ρ r).rhs.compositions =
        (r.lhs.compositions.zip r.rhs.compositions).map (Prod.map (Core.ident ρ.col) (Core.ident ρ.col)) := by
      simp [coreRef, Core.refIdent, List.zip_map]
    rw [hz]
    refine rep_flatMap _ fun p _ => ?_
    refine rep_same (v := some (some (π (.mismatchedForeignKeyType [] [] [] [])))) (by simp) ?_ ?_ ?_
    · intro c hc
      obtain ⟨d, -, rfl⟩ := List.mem_map.1 hc
      rw [rep, if_pos trivial]
      exact congrArg (fun x => some (some x)) (hπ _ _ rfl)
    · intro c hc
      obtain ⟨d, -, rfl⟩ := List.mem_map.1 hc
      rw [rep, if_pos trivial]
      exact congrArg (fun x => some (some x)) (hπ _ _ rfl)
    · rw [exists_map, exists_map]
      have := core_clash (s := s) h r p.1 p.2
      constructor
      · rintro ⟨d, -, hd⟩
        obtain ⟨d, hd⟩ := this.1 ⟨d, hd⟩
        exact ⟨d, clash_column hd, hd⟩
      · rintro ⟨d, -, hd⟩
        obtain ⟨d, hd⟩ := this.2 ⟨d, hd⟩
        exact ⟨d, clash_column hd, hd⟩
  · have hk : keyKind (coreRef ρ r).rel (decide (2 ≤ (coreRef ρ r).lhs.compositions.length)) =
        keyKind r.rel (decide (2 ≤ r.lhs.compositions.length)) := by simp [coreRef, Core.refIdent]
    rw [hk]
    refine rep_err (ex_ends h r fun a b t u => not_congr (core_keyOk h _ _ _ _ _)) (fun _ => rfl) (rep_err1 ?_)
    rw [← List.map_append, exists_map]
    simp only [core_linkOf, core_competes h]
    rfl

/-! ## The whole -/

theorem rep_core (h : ρ.Ok) (hπ : Blind π) (hs : ρ.KeepsSchemas ∨ Merges π) :
    rep π (checklist (core ρ s)) = rep π (checklist s) := by
  unfold checklist
  rw [core_inOrder, core_columns, core_groups, core_enums, core_tables]
  refine rep_append' (rep_append' (rep_append' (rep_append' (rep_append' (rep_append' rep_project ?_) ?_) ?_) ?_) ?_) ?_
  · exact rep_inTurn (fun b x _ => rep_table h b x) [] _
  · exact rep_inTurn (fun b x _ => rep_enum b x) [] _
  · exact rep_inTurn (fun b x _ => rep_group h b x) [] _
  · exact rep_flatMap _ fun t _ => rep_keys h t
  · exact rep_flatMap _ fun c _ => rep_column h hπ hs c
  · exact rep_inTurn (fun b x a => rep_ref h hπ hs b x a) [] _

end Dbml.Spec
