import Verif.Spec.EnumNames
import Verif.Proofs.Core

/-!
# Validity does not depend on the names of enums
-/

namespace Dbml.Spec
open Dbml

namespace EnumNames
variable {ε : EnumRenaming} {s : SchemaBlock}

/-! ## What is left alone -/

theorem tables : (renameEnums ε s).tables = s.tables.map (table ε) := by
  simp only [SchemaBlock.tables, renameEnums, List.filterMap_map, List.map_filterMap]
  congr 1; funext b; cases b <;> rfl
theorem enums : (renameEnums ε s).enums = s.enums.map (enum ε) := by
  simp only [SchemaBlock.enums, renameEnums, List.filterMap_map, List.map_filterMap]
  congr 1; funext b; cases b <;> rfl
theorem refs : (renameEnums ε s).refs = s.refs := by
  simp only [SchemaBlock.refs, renameEnums, List.filterMap_map]
  congr 1; funext b; cases b <;> rfl
theorem groups : (renameEnums ε s).table_groups = s.table_groups := by
  simp only [SchemaBlock.table_groups, renameEnums, List.filterMap_map]
  congr 1; funext b; cases b <;> rfl
theorem projects : (renameEnums ε s).projects = s.projects := by
  simp only [SchemaBlock.projects, renameEnums, List.filterMap_map]
  congr 1; funext b; cases b <;> rfl
theorem columns_eq : columns (renameEnums ε s) = (columns s).map (column ε) := by
  simp only [columns, tables, List.flatMap_map, List.map_flatMap]; rfl

theorem column_name (c : TableColumn) : (column ε c).name = c.name := by
  unfold column; split <;> rfl
theorem column_args (c : TableColumn) : (column ε c).type.args = c.type.args := by
  unfold column; split <;> rfl
theorem column_arrays (c : TableColumn) : (column ε c).type.arrays = c.type.arrays := by
  unfold column; split <;> rfl

/-- Settings up to the default. -/
theorem column_settings {α : Type} (f : ColumnSettings → α) (hf : ∀ st d, f { st with default := d } = f st)
    (c : TableColumn) : (column ε c).settings.map f = c.settings.map f := by
  unfold column
  split
  · cases c.settings <;> simp [hf]
  · rfl

theorem exists_settings (p : ColumnSettings → Prop) (o o' : Option ColumnSettings) (h : o'.map p = o.map p) :
    (∃ st, o' = some st ∧ p st) ↔ ∃ st, o = some st ∧ p st := by
  cases o <;> cases o' <;> simp_all

theorem isPkCol (c : TableColumn) : IsPkCol (column ε c) ↔ IsPkCol c :=
  exists_settings (fun st => st.is_pk = true) _ _ (column_settings _ (fun _ _ => rfl) c)
theorem isUniqueCol (c : TableColumn) : IsUniqueCol (column ε c) ↔ IsUniqueCol c :=
  exists_settings (fun st => st.is_unique = true) _ _ (column_settings _ (fun _ _ => rfl) c)

theorem colNames_eq (t : TableBlock) : colNames (table ε t) = colNames t := by
  simp only [colNames, table, List.map_map]
  exact List.map_congr_left fun c _ => by simp [column_name]

theorem settings : checkedSettings (renameEnums ε s) = checkedSettings s := by
  have e1 : (tableSettings (renameEnums ε s)).map (·.attributes) = (tableSettings s).map (·.attributes) := by
    unfold tableSettings; rw [tables, List.filterMap_map]; rfl
  have e2 : (columnSettings (renameEnums ε s)).map (·.attributes) = (columnSettings s).map (·.attributes) := by
    unfold columnSettings
    rw [columns_eq, List.filterMap_map, List.map_filterMap, List.map_filterMap]
    congr 1; funext c
    exact column_settings (·.attributes) (fun _ _ => rfl) c
  have e3 : (enumSettings (renameEnums ε s)).map (·.attributes) = (enumSettings s).map (·.attributes) := by
    have : (enumValues (renameEnums ε s)).map (·.settings) = (enumValues s).map (·.settings) := by
      unfold enumValues
      rw [enums, List.flatMap_map, List.map_flatMap, List.map_flatMap]
      congr 1; funext e
      simp [enum]
    have k : ∀ s : SchemaBlock, enumSettings s = ((enumValues s).map (·.settings)).filterMap id := by
      intro s; unfold enumSettings; rw [List.filterMap_map]; rfl
    rw [k, k, this]
  have e4 : (indexSettings (renameEnums ε s)).map (·.attributes) = (indexSettings s).map (·.attributes) := by
    have hd : indexDefs (renameEnums ε s) = indexDefs s := by
      unfold indexDefs; rw [tables, List.filterMap_map]; rfl
    unfold indexSettings; rw [hd]
  unfold checkedSettings structSettings refSettings
  rw [e1, e2, e3, e4, refs]

theorem tableNamesOk : TableNamesOk (renameEnums ε s) ↔ TableNamesOk s := by
  unfold TableNamesOk
  have e1 : ((renameEnums ε s).tables.map tableKey) = s.tables.map tableKey := by rw [tables, List.map_map]; rfl
  have e2 : ((renameEnums ε s).tables.filterMap aliasOf) = s.tables.filterMap aliasOf := by
    rw [tables, List.filterMap_map]; rfl
  rw [e1, e2, tables]
  simp only [List.forall_mem_map, colNames_eq]

theorem isAlias (a : Str) (t' : TableBlock) :
    IsAlias (renameEnums ε s) a t' ↔ ∃ t, IsAlias s a t ∧ t' = table ε t := by
  unfold IsAlias
  rw [tables, List.mem_map]
  constructor
  · rintro ⟨⟨t, ht, rfl⟩, ha⟩; exact ⟨t, ⟨ht, ha⟩, rfl⟩
  · rintro ⟨t, ⟨ht, ha⟩, rfl⟩; exact ⟨⟨t, ht, rfl⟩, ha⟩

theorem isAlias_none (a : Str) : (∀ t', ¬ IsAlias (renameEnums ε s) a t') ↔ ∀ t, ¬ IsAlias s a t := by
  simp only [isAlias]
  constructor
  · intro h1 t ht; exact h1 _ ⟨t, ht, rfl⟩
  · rintro h1 t' ⟨t, ht, -⟩; exact h1 t ht

theorem groupTarget (i : TableGroupItem) (k : Str × Str) : GroupTarget (renameEnums ε s) i k ↔ GroupTarget s i k := by
  unfold GroupTarget
  cases i.schema with
  | some sc => exact Iff.rfl
  | none =>
    simp only [isAlias_none, tables, exists_map]
    simp only [isAlias]
    refine or_congr ?_ Iff.rfl
    constructor
    · rintro ⟨_, ⟨t, ht, rfl⟩, e⟩; exact ⟨t, ht, e⟩
    · rintro ⟨t, ht, e⟩; exact ⟨_, ⟨t, ht, rfl⟩, e⟩

theorem groupTargets (is : List TableGroupItem) (ks : List (Str × Str)) :
    GroupTargets (renameEnums ε s) is ks ↔ GroupTargets s is ks := by
  constructor
  · intro h
    induction h with
    | nil => exact .nil
    | cons h1 _ ih => exact .cons ((groupTarget _ _).1 h1) ih
  · intro h
    induction h with
    | nil => exact .nil
    | cons h1 _ ih => exact .cons ((groupTarget _ _).2 h1) ih

theorem groupsOk : GroupsOk (renameEnums ε s) ↔ GroupsOk s := by
  unfold GroupsOk; rw [groups]; simp only [groupTargets]

theorem columnSettingsOk (c : TableColumn) : ColumnSettingsOk (column ε c) ↔ ColumnSettingsOk c := by
  have k : ∀ c : TableColumn, ColumnSettingsOk c ↔ ¬ ∃ st, c.settings = some st ∧ ¬
      ((st.is_pk = true → st.nullable ≠ some .null ∧ c.type.arrays = []) ∧
        ¬ (k!"null" ∈ st.attributes.map (·.key.to_string) ∧ k!"not null" ∈ st.attributes.map (·.key.to_string))) := by
    intro c
    unfold ColumnSettingsOk
    constructor
    · rintro q ⟨st, e, n⟩; exact n (q st e)
    · intro q st e
      exact Decidable.byContradiction fun n => q ⟨st, e, n⟩
  rw [k, k, column_arrays]
  exact not_congr (exists_settings _ _ _ (column_settings _ (fun _ _ => rfl) c))

theorem tableOk (t : TableBlock) : TableOk (table ε t) ↔ TableOk t := by
  have hd : defsOf (table ε t) = defsOf t := rfl
  have hc : (table ε t).cols = t.cols.map (column ε) := rfl
  have e1 : PrimaryKeyOk (table ε t) ↔ PrimaryKeyOk t := by
    unfold PrimaryKeyOk
    rw [hd, hc, filter_map' _ _ _ isPkCol, List.length_map]
    simp only [List.forall_mem_map, isPkCol]
  have e2 : uniqueKeys (table ε t) = uniqueKeys t := by
    unfold uniqueKeys
    rw [hd, hc, filter_map' _ _ _ isUniqueCol, List.map_map]
    congr 1
    exact List.map_congr_left fun c _ => by simp [column_name]
  have e3 : ∀ d, IndexOk (table ε t) d ↔ IndexOk t d := by
    intro d; unfold IndexOk; rw [colNames_eq]
  unfold TableOk
  rw [e1, e2, hd, hc]
  simp only [List.forall_mem_map, columnSettingsOk, e3]
  rfl

/-! ## Enums -/

theorem enumKey_eq (h : ε.Ok) (e : EnumBlock) : enumKey (enum ε e) = ε.key (enumKey e) := by
  unfold enumKey schemaOf EnumRenaming.key enum
  cases e.ident.schema with
  | none => simp [h.pub, ident]
  | some i => simp [ident]

theorem enumValues_eq (e : EnumBlock) :
    (enum ε e).values.map (·.value.to_string) = (e.values.map (·.value.to_string)).map (ε.value (enumKey e)) := by
  simp [enum, ident]

theorem key_inj (h : ε.Ok) (a b : Str × Str) (e : ε.key a = ε.key b) : a = b := by
  obtain ⟨h1, h2⟩ := Prod.mk.inj e
  exact Prod.ext (h.schema _ _ h1) (h.name _ _ h2)

theorem enumNamesOk (h : ε.Ok) : EnumNamesOk (renameEnums ε s) ↔ EnumNamesOk s := by
  unfold EnumNamesOk
  have e1 : ((renameEnums ε s).enums.map enumKey) = (s.enums.map enumKey).map ε.key := by
    rw [enums, List.map_map, List.map_map]
    exact List.map_congr_left fun e _ => enumKey_eq h e
  rw [e1, nodup_map_iff' (key_inj h), enums]
  simp only [List.forall_mem_map, enumValues_eq]
  refine and_congr_right fun _ => forall_congr' fun e => imp_congr_right fun _ => nodup_map_iff' (h.value _) _

theorem hasEnumValue (h : ε.Ok) (k : Str × Str) (v : Str) :
    HasEnumValue (renameEnums ε s) (ε.key k) (ε.value k v) ↔ HasEnumValue s k v := by
  unfold HasEnumValue
  rw [enums]
  simp only [exists_map, enumKey_eq h, enumValues_eq]
  refine exists_congr fun e => and_congr_right fun _ => ?_
  constructor
  · rintro ⟨hk, hv⟩
    have := key_inj h _ _ hk
    subst this
    exact ⟨rfl, (List.mem_map_of_injective (fun a b => h.value _ a b)).1 hv⟩
  · rintro ⟨rfl, hv⟩
    exact ⟨rfl, List.mem_map_of_mem hv⟩

/-! ## Columns -/

theorem dropWhile_dot (a b : Str) (h : '.' ∉ a) : (a ++ '.' :: b).dropWhile (· ≠ '.') = '.' :: b := by
  induction a with
  | nil => simp
  | cons c cs ih =>
    have hc : c ≠ '.' := fun e => h (by simp [e])
    have := ih (fun e => h (List.mem_cons_of_mem _ e))
    simp [hc] at this ⊢
    exact this

theorem takeWhile_dot (a b : Str) (h : '.' ∉ a) : (a ++ '.' :: b).takeWhile (· ≠ '.') = a := by
  induction a with
  | nil => simp
  | cons c cs ih =>
    have hc : c ≠ '.' := fun e => h (by simp [e])
    have := ih (fun e => h (List.mem_cons_of_mem _ e))
    simp [hc] at this ⊢
    exact this

theorem typeKey_of {n : Str} {k : Str × Str} (h : EnumRef n k) : typeKey n = k := by
  unfold typeKey
  rcases h with ⟨h1, rfl⟩ | ⟨a, b, rfl, ha, hb, rfl⟩
  · rw [if_neg h1]
  · rw [if_pos (by simp), takeWhile_dot a b ha, dropWhile_dot a b ha]; rfl

theorem table_not_enum : ColumnTypeName.table.all (fun p => match p.2 with | .enum _ => false | _ => true) = true := by
  decide +kernel

theorem lookup_mem {α β : Type} [BEq α] [LawfulBEq α] {a : α} {b : β} :
    ∀ {l : List (α × β)}, l.lookup a = some b → (a, b) ∈ l
  | [], h => by simp at h
  | (x, y) :: l, h => by
    rw [List.lookup_cons] at h
    split at h
    · rename_i he
      have := eq_of_beq he
      cases h; subst this; exact List.mem_cons_self
    · exact List.mem_cons_of_mem _ (lookup_mem h)

theorem fromStr_ne_enum {n m : Str} : ColumnTypeName.fromStr n ≠ some (.enum m) := by
  intro h
  have := List.all_eq_true.1 table_not_enum _ (lookup_mem h)
  simp at this

theorem toStr_default (f : Str → Str) (v : Value) (h : IsPlain v → f v.toStr = v.toStr) :
    (default f v).toStr = f v.toStr := by
  cases v <;> first | rfl | exact (h trivial).symm

theorem fits_default (f : Str → Str) (m m' : Str) (args : List Value) (nu : Option Nullable) (v : Value) :
    DefaultFits (.enum m') args nu (default f v) ↔ DefaultFits (.enum m) args nu v := by
  cases v <;> simp [default, DefaultFits, StringFits, IntFits]

theorem nullable_eq (c : TableColumn) : nullableOfCol (column ε c) = nullableOfCol c := by
  have := column_settings (ε := ε) (·.nullable) (fun _ _ => rfl) c
  unfold nullableOfCol
  cases h : c.settings <;> cases h' : (column ε c).settings <;> simp_all

theorem default_eq {c : TableColumn} {n : Str} (hn : c.type.type_name = .raw n) :
    defaultOf (column ε c) = (defaultOf c).map (defaultOfType ε n) := by
  unfold defaultOf column
  rw [hn]
  cases c.settings <;> rfl

theorem type_eq {c : TableColumn} {n : Str} (hn : c.type.type_name = .raw n) :
    (column ε c).type.type_name = .raw (ε.type n) := by
  unfold column; rw [hn]

theorem type_raw {c : TableColumn} {m : Str} (h : (column ε c).type.type_name = .raw m) :
    ∃ n, c.type.type_name = .raw n ∧ m = ε.type n := by
  cases hc : c.type.type_name with
  | raw n => rw [type_eq hc] at h; cases h; exact ⟨n, rfl, rfl⟩
  | _ => unfold column at h; rw [hc] at h; simp [hc] at h

/-- The type, its name renamed. -/
def ty (ε : EnumRenaming) : ColumnTypeName → ColumnTypeName
  | .enum m => .enum (ε.name m)
  | t => t

theorem ty_inj (h : ε.Ok) (a b : ColumnTypeName) (e : ty ε a = ty ε b) : a = b := by
  cases a <;> cases b <;> simp_all [ty]
  exact h.name _ _ e

theorem ty_builtin {n : Str} {t : ColumnTypeName} (h : ColumnTypeName.fromStr n = some t) : ty ε t = t := by
  cases t with
  | enum m => exact absurd h fromStr_ne_enum
  | _ => rfl

theorem resolves (h : ε.Ok) (n : Str) (t' : ColumnTypeName) :
    Resolves (ε.type n) t' ↔ ∃ t, Resolves n t ∧ t' = ty ε t := by
  unfold Resolves
  cases hn : ColumnTypeName.fromStr n with
  | some b =>
    rw [h.builtin n b hn, hn]
    constructor
    · rintro (e | ⟨e, -⟩)
      · cases e; exact ⟨_, .inl rfl, (ty_builtin hn).symm⟩
      · cases e
    · rintro ⟨t, (e | ⟨e, -⟩), rfl⟩
      · cases e; exact .inl (by rw [ty_builtin hn])
      · cases e
  | none =>
    rw [h.other n hn]
    simp only [reduceCtorEq, false_or, true_and, h.means n _ hn]
    constructor
    · rintro ⟨_, ⟨k, hk, rfl⟩, rfl⟩; exact ⟨_, ⟨k, hk, rfl⟩, rfl⟩
    · rintro ⟨_, ⟨k, hk, rfl⟩, rfl⟩; exact ⟨_, ⟨k, hk, rfl⟩, rfl⟩

theorem columnOk (h : ε.Ok) (c : TableColumn) : ColumnOk (renameEnums ε s) (column ε c) ↔ ColumnOk s c := by
  unfold ColumnOk
  rw [column_args, nullable_eq]
  have key : ∀ n t, c.type.type_name = .raw n → Resolves n t →
      (((ColumnTypeName.fromStr (ε.type n) = some (ty ε t) → ArgsOk (ty ε t) c.type.args) ∧
        ∀ v, defaultOf (column ε c) = some v → DefaultFits (ty ε t) c.type.args (nullableOfCol c) v ∧
          (ColumnTypeName.fromStr (ε.type n) = none → ∀ k, EnumRef (ε.type n) k → HasEnumValue (renameEnums ε s) k v.toStr)) ↔
      ((ColumnTypeName.fromStr n = some t → ArgsOk t c.type.args) ∧
        ∀ v, defaultOf c = some v → DefaultFits t c.type.args (nullableOfCol c) v ∧
          (ColumnTypeName.fromStr n = none → ∀ k, EnumRef n k → HasEnumValue s k v.toStr))) := by
    intro n t hc hr
    rw [default_eq hc]
    cases hn : ColumnTypeName.fromStr n with
    | some b =>
      have : t = b := by
        rcases hr with e | ⟨e, -⟩
        · rw [hn] at e; cases e; rfl
        · rw [hn] at e; cases e
      subst this
      have hd : defaultOfType ε n = id := by funext v; unfold defaultOfType; rw [hn]; rfl
      rw [h.builtin n _ hn, hn, ty_builtin hn, hd, Option.map_id_fun, id]
      simp only [reduceCtorEq, false_implies]
    | none =>
      obtain ⟨k, hk, rfl⟩ : ∃ k, EnumRef n k ∧ t = .enum k.2 := by
        rcases hr with e | ⟨-, e⟩
        · rw [hn] at e; cases e
        · exact e
      have hd : defaultOfType ε n = default (ε.value k) := by
        funext v; unfold defaultOfType; rw [hn, typeKey_of hk]
      have uniq : ∀ k', EnumRef n k' ↔ k' = k := fun k' =>
        ⟨fun e => (typeKey_of e).symm.trans (typeKey_of hk), fun e => e ▸ hk⟩
      rw [h.other n hn, hd]
      simp only [reduceCtorEq, false_implies, true_and, forall_const, h.means n _ hn, uniq, exists_eq_left, forall_eq,
        Option.map_eq_some_iff]
      show (∀ v', (∃ v, defaultOf c = some v ∧ default (ε.value k) v = v') → _) ↔ _
      simp only [forall_exists_index, and_imp]
      constructor
      · intro q v hv
        have := q _ v hv rfl
        rw [toStr_default _ v (h.plain k v), hasEnumValue h] at this
        exact ⟨(fits_default _ _ _ _ _ _).1 this.1, this.2⟩
      · rintro q _ v hv rfl
        rw [toStr_default _ v (h.plain k v), hasEnumValue h]
        exact ⟨(fits_default _ _ _ _ _ _).2 (q v hv).1, (q v hv).2⟩
  constructor
  · rintro ⟨m, t', hm, hr, hrest⟩
    obtain ⟨n, hn, rfl⟩ := type_raw hm
    obtain ⟨t, ht, rfl⟩ := (resolves h _ _).1 hr
    exact ⟨n, t, hn, ht, (key n t hn ht).1 hrest⟩
  · rintro ⟨n, t, hn, ht, hrest⟩
    exact ⟨_, _, type_eq hn, (resolves h _ _).2 ⟨t, ht, rfl⟩, (key n t hn ht).2 hrest⟩

theorem sameType (h : ε.Ok) (c d : TableColumn) : SameType (column ε c) (column ε d) ↔ SameType c d := by
  unfold SameType
  rw [column_args, column_args, column_arrays, column_arrays]
  refine and_congr_right fun _ => and_congr_right fun _ => ?_
  constructor
  · rintro ⟨n', m', t', hn, hm, h1, h2⟩
    obtain ⟨n, hn', rfl⟩ := type_raw hn
    obtain ⟨m, hm', rfl⟩ := type_raw hm
    obtain ⟨t, ht, rfl⟩ := (resolves h _ _).1 h1
    obtain ⟨u, hu, e⟩ := (resolves h _ _).1 h2
    cases ty_inj h _ _ e
    exact ⟨n, m, t, hn', hm', ht, hu⟩
  · rintro ⟨n, m, t, hn, hm, h1, h2⟩
    exact ⟨_, _, _, type_eq hn, type_eq hm, (resolves h _ _).2 ⟨t, h1, rfl⟩, (resolves h _ _).2 ⟨t, h2, rfl⟩⟩

/-! ## References -/

theorem links_eq : links (renameEnums ε s) = links s := by
  unfold links
  rw [refs, tables, List.flatMap_map]
  congr 2; funext t
  show List.flatMap _ (t.cols.map (column ε)) = _
  rw [List.flatMap_map]
  congr 1; funext c
  have e : (column ε c).settings.toList.flatMap (·.refs) = c.settings.toList.flatMap (·.refs) := by
    have := column_settings (ε := ε) (·.refs) (fun _ _ => rfl) c
    cases h : c.settings <;> cases h' : (column ε c).settings <;> simp_all
  rw [e, column_name]; rfl

theorem unaliased (e e' : End) : Unaliased (renameEnums ε s) e e' ↔ Unaliased s e e' := by
  unfold Unaliased
  rw [isAlias_none]
  simp only [isAlias]
  refine or_congr ?_ Iff.rfl
  constructor
  · rintro ⟨_, ⟨t, ht, rfl⟩, e⟩; exact ⟨t, ht, e⟩
  · rintro ⟨t, ht, e⟩; exact ⟨_, ⟨t, ht, rfl⟩, e⟩

theorem names (e : End) (t' : TableBlock) : Names (renameEnums ε s) e t' ↔ ∃ t, Names s e t ∧ t' = table ε t := by
  unfold Names
  rw [tables, List.mem_map]
  constructor
  · rintro ⟨⟨t, ht, rfl⟩, hk⟩; exact ⟨t, ⟨ht, hk⟩, rfl⟩
  · rintro ⟨t, ⟨ht, hk⟩, rfl⟩; exact ⟨⟨t, ht, rfl⟩, hk⟩

theorem isColumn (t : TableBlock) (n : Str) (c' : TableColumn) :
    IsColumn (table ε t) n c' ↔ ∃ c, IsColumn t n c ∧ c' = column ε c := by
  unfold IsColumn
  show c' ∈ t.cols.map (column ε) ∧ _ ↔ _
  rw [List.mem_map]
  constructor
  · rintro ⟨⟨c, hc, rfl⟩, e⟩; exact ⟨c, ⟨hc, by rw [← e, column_name]⟩, rfl⟩
  · rintro ⟨c, ⟨hc, rfl⟩, rfl⟩; exact ⟨⟨c, hc, rfl⟩, by rw [column_name]⟩

theorem singleKey (t : TableBlock) (n : Str) : SingleKey (table ε t) n ↔ SingleKey t n := by
  unfold SingleKey
  constructor
  · rintro ⟨_, hc, hk⟩
    obtain ⟨c, hc', rfl⟩ := (isColumn _ _ _).1 hc
    exact ⟨c, hc', by rwa [isPkCol, isUniqueCol] at hk⟩
  · rintro ⟨c, hc, hk⟩
    exact ⟨_, (isColumn _ _ _).2 ⟨c, hc, rfl⟩, by rwa [isPkCol, isUniqueCol]⟩

theorem keyOk (rel : Relation) (tl tr : TableBlock) (l r : List Str) :
    KeyOk rel (table ε tl) (table ε tr) l r ↔ KeyOk rel tl tr l r := by
  have e : ∀ t cols, CompositeKey (table ε t) cols ↔ CompositeKey t cols := fun _ _ => Iff.rfl
  match l, r with
  | [], [] => exact Iff.rfl
  | [a], [b] => cases rel <;> simp [KeyOk, singleKey]
  | [], b :: bs => cases rel <;> simp [KeyOk, e]
  | a :: as, [] => cases rel <;> simp [KeyOk, e]
  | a :: a' :: as, b :: bs => cases rel <;> simp [KeyOk, e]
  | [a], b :: b' :: bs => cases rel <;> simp [KeyOk, e]

theorem linkOk (h : ε.Ok) (k : Link) : LinkOk (renameEnums ε s) k ↔ LinkOk s k := by
  have st : ∀ (p : Str × Str) (tl tr : TableBlock),
      (∀ c d, IsColumn (table ε tl) p.1 c → IsColumn (table ε tr) p.2 d → SameType c d) ↔
      (∀ c d, IsColumn tl p.1 c → IsColumn tr p.2 d → SameType c d) := by
    intro p tl tr
    constructor
    · intro q c d hc hd
      exact (sameType h c d).1 (q _ _ ((isColumn _ _ _).2 ⟨c, hc, rfl⟩) ((isColumn _ _ _).2 ⟨d, hd, rfl⟩))
    · intro q _ _ hc hd
      obtain ⟨c, hc', rfl⟩ := (isColumn _ _ _).1 hc
      obtain ⟨d, hd', rfl⟩ := (isColumn _ _ _).1 hd
      exact (sameType h c d).2 (q c d hc' hd')
  unfold LinkOk
  refine and_congr_right fun _ => and_congr_right fun _ => ?_
  simp only [unaliased]
  constructor
  · rintro ⟨l, r, tl', tr', hl, hr, nl, nr, h1, h2, h3, h4⟩
    obtain ⟨tl, nl', rfl⟩ := (names _ _).1 nl
    obtain ⟨tr, nr', rfl⟩ := (names _ _).1 nr
    rw [colNames_eq] at h1 h2
    exact ⟨l, r, tl, tr, hl, hr, nl', nr', h1, h2, fun p hp => (st p tl tr).1 (h3 p hp), (keyOk _ _ _ _ _).1 h4⟩
  · rintro ⟨l, r, tl, tr, hl, hr, nl, nr, h1, h2, h3, h4⟩
    refine ⟨l, r, _, _, hl, hr, (names _ _).2 ⟨tl, nl, rfl⟩, (names _ _).2 ⟨tr, nr, rfl⟩, ?_, ?_,
      fun p hp => (st p tl tr).2 (h3 p hp), (keyOk _ _ _ _ _).2 h4⟩
    · rw [colNames_eq]; exact h1
    · rw [colNames_eq]; exact h2

theorem refsOk (h : ε.Ok) : RefsOk (renameEnums ε s) ↔ RefsOk s := by
  unfold RefsOk Competes
  rw [links_eq]
  simp only [linkOk h, unaliased]

theorem valid (h : ε.Ok) : Valid (renameEnums ε s) ↔ Valid s := by
  have hp : ProjectOk (renameEnums ε s) ↔ ProjectOk s := by unfold ProjectOk; rw [projects]
  have ht : (∀ t ∈ (renameEnums ε s).tables, TableOk t) ↔ ∀ t ∈ s.tables, TableOk t := by
    rw [tables]; simp only [List.forall_mem_map, tableOk]
  have hc : (∀ c ∈ columns (renameEnums ε s), ColumnOk (renameEnums ε s) c) ↔ ∀ c ∈ columns s, ColumnOk s c := by
    rw [columns_eq]; simp only [List.forall_mem_map, columnOk h]
  constructor
  · intro v
    exact ⟨hp.1 v.project, settings ▸ v.settings, tableNamesOk.1 v.tableNames, (enumNamesOk h).1 v.enumNames,
      groupsOk.1 v.groups, ht.1 v.tables, hc.1 v.columns, (refsOk h).1 v.refs⟩
  · intro v
    exact ⟨hp.2 v.project, settings.symm ▸ v.settings, tableNamesOk.2 v.tableNames, (enumNamesOk h).2 v.enumNames,
      groupsOk.2 v.groups, ht.2 v.tables, hc.2 v.columns, (refsOk h).2 v.refs⟩

end EnumNames
end Dbml.Spec
