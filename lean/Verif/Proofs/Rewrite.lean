import Verif.Proofs.Alike
import Verif.Spec.Rewrite
import Verif.Props.Evolve
import Verif.Props.Order

/-!
# Rewriting a document does not change whether it is valid
-/

namespace Dbml
open Spec Source Syntax Props

/-! ## Permuting settings -/

theorem perm_eq_of_length {α : Type} {l l' : List α} (h : l.Perm l') (hl : l.length ≤ 1) : l = l' := by
  rcases l with _ | ⟨a, _ | ⟨b, l⟩⟩
  · exact (List.nil_perm.1 h).symm
  · exact List.singleton_perm.1 h
  · simp at hl

theorem nodup_filter_length {α : Type} {f : α → Str} {l : List α} (h : (l.map f).Nodup) (k : Str) :
    (l.filter fun a => f a = k).length ≤ 1 := by
  induction l with
  | nil => simp
  | cons a l ih =>
    rw [List.map_cons, List.nodup_cons] at h
    rw [List.filter_cons]
    split
    · rename_i hk
      have hk' : f a = k := by simpa using hk
      have : l.filter (fun a => f a = k) = [] := by
        rw [List.filter_eq_nil_iff]
        intro b hb hbk
        refine h.1 (List.mem_map.2 ⟨b, hb, ?_⟩)
        rw [hk']; simpa using hbk
      rw [this]; simp
    · exact ih h.2

theorem valuesOf_eq (k : Str) (as : List Attribute) : valuesOf k as = (as.filter fun a => a.key.to_string = k).map (·.value) := by
  rfl

theorem lastValue_perm {as bs : List Attribute} (h : as.Perm bs) (hn : (keysOf as).Nodup) (k : Str) :
    lastValue k as = lastValue k bs := by
  have : valuesOf k as = valuesOf k bs := by
    rw [valuesOf_eq, valuesOf_eq, perm_eq_of_length (h.filter _) (nodup_filter_length hn k)]
  unfold lastValue
  rw [this]

theorem has_perm {as bs : List Attribute} (h : as.Perm bs) (k : Str) : has k as = has k bs := by
  unfold has
  exact h.any_eq

theorem nullable_perm {as bs : List Attribute} (h : as.Perm bs) (hn : (keysOf as).Nodup)
    (hb : ¬ (k!"null" ∈ keysOf as ∧ k!"not null" ∈ keysOf as)) :
    (as.filterMap nullableOf).getLast? = (bs.filterMap nullableOf).getLast? := by
  rw [perm_eq_of_length (h.filterMap nullableOf)]
  have one : ∀ (k : Str) (v : Nullable), (∀ a ∈ as, nullableOf a = if a.key.to_string = k then some v else none) →
      (as.filterMap nullableOf).length ≤ 1 := by
    intro k v hv
    have : as.filterMap nullableOf = (as.filter fun a => a.key.to_string = k).map fun _ => v := by
      clear h hn hb
      induction as with
      | nil => rfl
      | cons a as ih =>
        rw [List.filterMap_cons, List.filter_cons, hv a (by simp), ih fun b hb => hv b (by simp [hb])]
        by_cases hk : a.key.to_string = k <;> simp [hk]
    rw [this, List.length_map]
    exact nodup_filter_length hn k
  by_cases h1 : k!"null" ∈ keysOf as
  · refine one k!"null" .null fun a ha => ?_
    unfold nullableOf
    split
    · rfl
    · rw [if_neg]
      intro h2
      exact hb ⟨h1, List.mem_map.2 ⟨a, ha, h2⟩⟩
  · refine one k!"not null" .notNull fun a ha => ?_
    unfold nullableOf
    rw [if_neg]
    intro h2
    exact h1 (List.mem_map.2 ⟨a, ha, h2⟩)

/-! ## Columns and indexes -/

/-- The settings of the column break a rule. -/
def BadCol (c : TableColumn) : Prop := ¬ (colKeys c).Nodup ∨ ¬ ColumnSettingsOk c

theorem col_perm {n : Name} {ty : Ty} {is js : List ColSet} (h : is.Perm js) :
    SameColumn (Col.ast ⟨n, ty, some is⟩) (Col.ast ⟨n, ty, some js⟩) ∨
      (BadCol (Col.ast ⟨n, ty, some is⟩) ∧ BadCol (Col.ast ⟨n, ty, some js⟩)) := by
  have ha : (is.filterMap (·.attr?)).Perm (js.filterMap (·.attr?)) := h.filterMap _
  have k1 : colKeys (Col.ast ⟨n, ty, some is⟩) = keysOf (is.filterMap (·.attr?)) := rfl
  have k2 : colKeys (Col.ast ⟨n, ty, some js⟩) = keysOf (js.filterMap (·.attr?)) := rfl
  have kp : (keysOf (is.filterMap (·.attr?))).Perm (keysOf (js.filterMap (·.attr?))) := ha.map _
  by_cases hn : (keysOf (is.filterMap (·.attr?))).Nodup
  · by_cases hb : k!"null" ∈ keysOf (is.filterMap (·.attr?)) ∧ k!"not null" ∈ keysOf (is.filterMap (·.attr?))
    · refine .inr ⟨.inr fun hc => ?_, .inr fun hc => ?_⟩
      · exact (hc _ rfl).2 hb
      · rw [kp.mem_iff, kp.mem_iff] at hb
        exact (hc _ rfl).2 hb
    · refine .inl ⟨rfl, rfl, rfl, rfl, ?_, ?_, ?_, ?_, ?_⟩
      · simp [IsPkCol, Col.ast, colSettingsAst, has_perm ha]
      · simp [IsUniqueCol, Col.ast, colSettingsAst, has_perm ha]
      · exact nullable_perm ha hn hb
      · simp [defaultOf, Col.ast, colSettingsAst, lastValue_perm ha hn]
      · rw [k1, k2]; exact kp
  · refine .inr ⟨.inl (by rw [k1]; exact hn), .inl ?_⟩
    rw [k2, ← kp.nodup_iff]; exact hn

theorem col_empty {n : Name} {ty : Ty} : SameColumn (Col.ast ⟨n, ty, some []⟩) (Col.ast ⟨n, ty, none⟩) := by
  refine ⟨rfl, rfl, rfl, rfl, ?_, ?_, rfl, rfl, ?_⟩
  · simp [IsPkCol, Col.ast, colSettingsAst, has]
  · simp [IsUniqueCol, Col.ast, colSettingsAst, has]
  · simp [colKeys, Col.ast, colSettingsAst, keysOf]

theorem col_sets {n : Name} {ty : Ty} {is js : Option (List ColSet)} (h : SetsPerm is js) :
    SameColumn (Col.ast ⟨n, ty, is⟩) (Col.ast ⟨n, ty, js⟩) ∨
      (BadCol (Col.ast ⟨n, ty, is⟩) ∧ BadCol (Col.ast ⟨n, ty, js⟩)) := by
  cases h with
  | perm h => exact col_perm h
  | drop => exact .inl col_empty
  | add => exact .inl col_empty.symm

/-- The keys of the settings of the index are not different. -/
def BadDef (d : IndexesDef) : Prop := ¬ (defKeys d).Nodup

theorem def_perm {d d' : IDef} {as bs : List Attr} (hc : d.cols = d'.cols) (hs : d.settings = some as) (hs' : d'.settings = some bs)
    (h : as.Perm bs) : SameIndex d.ast d'.ast ∨ (BadDef d.ast ∧ BadDef d'.ast) := by
  have ha : (attrsAst as).Perm (attrsAst bs) := h.map _
  have e1 : d.ast.settings = some (indexSettingsAst as) := by simp [IDef.ast, hs]
  have e2 : d'.ast.settings = some (indexSettingsAst bs) := by simp [IDef.ast, hs']
  have k1 : defKeys d.ast = keysOf (attrsAst as) := by unfold defKeys; rw [e1]; rfl
  have k2 : defKeys d'.ast = keysOf (attrsAst bs) := by unfold defKeys; rw [e2]; rfl
  have kp : (keysOf (attrsAst as)).Perm (keysOf (attrsAst bs)) := ha.map _
  by_cases hn : (keysOf (attrsAst as)).Nodup
  · refine .inl ⟨?_, ?_, ?_, ?_, ?_, ?_⟩
    · unfold indexParts IDef.ast; rw [hc]
    · simp [IsPkIndex, e1, e2, indexSettingsAst, has_perm ha]
    · simp [IsUniqueIndex, e1, e2, indexSettingsAst, has_perm ha]
    · simp [e1, e2]
    · simp [e1, e2, indexSettingsAst, lastValue_perm ha hn]
    · rw [k1, k2]; exact kp
  · refine .inr ⟨by unfold BadDef; rw [k1]; exact hn, ?_⟩
    unfold BadDef
    rw [k2, ← kp.nodup_iff]; exact hn

theorem def_rewrite {d d' : IDef} (h : RewriteDef d d') : SameIndex d.ast d'.ast ∨ (BadDef d.ast ∧ BadDef d'.ast) := by
  cases h with
  | single h => exact def_perm rfl rfl rfl h
  | multi h => exact def_perm rfl rfl rfl h
  | paren => exact .inl .rfl
  | unparen => exact .inl .rfl

/-! ## Tables -/

/-- A column or an index of the table breaks a rule. -/
def BadTable (t : TableBlock) : Prop := (∃ c ∈ t.cols, BadCol c) ∨ ∃ d ∈ defsOf t, BadDef d

theorem bad_invalid {s : SchemaBlock} {t : TableBlock} (hb : BadTable t) (ht : t ∈ s.tables) : ¬ Valid s := by
  intro hv
  obtain ⟨-, h2, -, h4, -⟩ := (settings_iff s).1 hv.settings
  rcases hb with ⟨c, hc, hb | hb⟩ | ⟨d, hd, hb⟩
  · exact hb (h2 t ht c hc)
  · exact hb ((hv.tables t ht).2.1 c hc)
  · exact hb (h4 t ht d hd)

section
variable {α : Type} {R : α → α → Prop}

theorem matched_middle (hR : ∀ a, R a a) {a b : α} (h : R a b) (l1 l2 : List α) : Matched R (l1 ++ a :: l2) (l1 ++ b :: l2) :=
  ⟨_, .refl _, List.rel_append (forall₂_refl hR l1) (.cons h (forall₂_refl hR l2))⟩

theorem forall₂_middle (hR : ∀ a, R a a) {a b : α} (h : R a b) (l1 l2 : List α) : List.Forall₂ R (l1 ++ a :: l2) (l1 ++ b :: l2) :=
  List.rel_append (forall₂_refl hR l1) (.cons h (forall₂_refl hR l2))

theorem matched_refl (hR : ∀ a, R a a) (l : List α) : Matched R l l := .of_perm hR (.refl _)

theorem matched_append {l1 l1' l2 l2' : List α} (h1 : Matched R l1 l1') (h2 : Matched R l2 l2') :
    Matched R (l1 ++ l2) (l1' ++ l2') := by
  obtain ⟨m1, p1, f1⟩ := h1
  obtain ⟨m2, p2, f2⟩ := h2
  exact ⟨m1 ++ m2, p1.append p2, List.rel_append f1 f2⟩

end

theorem alike_table {B1 B2 : List TopLevelBlock} {T T' : TableBlock} (h : SameTable T T')
    (hl : (tableLinks T).Perm (tableLinks T')) :
    Alike { blocks := B1 ++ .table T :: B2 } { blocks := B1 ++ .table T' :: B2 } := by
  refine ⟨?_, ?_, ?_, ?_, ?_, ?_⟩
  · simp only [SchemaBlock.projects, List.filterMap_append, List.filterMap_cons]
    exact matched_refl (fun _ => .rfl) _
  · simp only [SchemaBlock.tables, List.filterMap_append, List.filterMap_cons]
    exact matched_middle (fun _ => .rfl) h _ _
  · simp only [SchemaBlock.enums, List.filterMap_append, List.filterMap_cons]
    exact matched_refl (fun _ => .rfl) _
  · simp only [SchemaBlock.table_groups, List.filterMap_append, List.filterMap_cons]
    exact matched_refl (fun _ => .rfl) _
  · refine .of_perm (fun _ => .rfl) ?_
    show (_ ++ List.flatMap tableLinks _).Perm (_ ++ List.flatMap tableLinks _)
    refine List.Perm.append ?_ ?_
    · simp only [SchemaBlock.refs, List.filterMap_append, List.filterMap_cons]
      exact .refl _
    · simp only [SchemaBlock.tables, List.filterMap_append, List.filterMap_cons, List.flatMap_append, List.flatMap_cons]
      exact (List.Perm.refl _).append (hl.append (List.Perm.refl _))
  · simp only [SchemaBlock.refs, List.filterMap_append, List.filterMap_cons]
    exact matched_refl (fun _ => .refl _) _

/-- One table is replaced. -/
theorem valid_table {B1 B2 : List TopLevelBlock} {T T' : TableBlock}
    (h : (SameTable T T' ∧ (tableLinks T).Perm (tableLinks T')) ∨ (BadTable T ∧ BadTable T')) :
    Valid { blocks := B1 ++ .table T :: B2 } ↔ Valid { blocks := B1 ++ .table T' :: B2 } := by
  rcases h with ⟨h, hl⟩ | ⟨h, h'⟩
  · exact valid_alike (alike_table h hl)
  · have hm : ∀ x : TableBlock, x ∈ SchemaBlock.tables { blocks := B1 ++ .table x :: B2 } := by
      intro x
      simp [SchemaBlock.tables, List.filterMap_append, List.filterMap_cons]
    exact ⟨fun hv => absurd hv (bad_invalid h (hm T)), fun hv => absurd hv (bad_invalid h' (hm T'))⟩

theorem colLinks_perm {n : Name} {ty : Ty} {is js : Option (List ColSet)} (h : SetsPerm is js) :
    ((Col.ast ⟨n, ty, is⟩).settings.toList.flatMap (·.refs)).Perm ((Col.ast ⟨n, ty, js⟩).settings.toList.flatMap (·.refs)) := by
  cases h with
  | perm h =>
    simp only [Col.ast, Option.map_some, Option.toList_some, List.flatMap_singleton, colSettingsAst]
    exact h.filterMap _
  | drop => exact .refl _
  | add => exact .refl _

theorem getLast?_middle {α : Type} (l1 l2 : List α) (a b : α) :
    ((l1 ++ a :: l2).getLast? = (l1 ++ b :: l2).getLast?) ∨ ((l1 ++ a :: l2).getLast? = some a ∧ (l1 ++ b :: l2).getLast? = some b) := by
  rcases List.eq_nil_or_concat l2 with rfl | ⟨l, x, rfl⟩
  · exact .inr ⟨by simp, by simp⟩
  · left
    rw [show l1 ++ a :: l.concat x = (l1 ++ a :: l) ++ [x] by simp, show l1 ++ b :: l.concat x = (l1 ++ b :: l) ++ [x] by simp,
      List.getLast?_concat, List.getLast?_concat]

theorem table_item {kw : Str} {sc : Option Name} {n : Name} {a : Option Alias} {as : Option (List Attr)} {l1 l2 : List TItem}
    {i j : TItem} (h : RewriteItem i j) :
    (SameTable (Table.ast ⟨kw, sc, n, a, as, l1 ++ i :: l2⟩) (Table.ast ⟨kw, sc, n, a, as, l1 ++ j :: l2⟩) ∧
      (tableLinks (Table.ast ⟨kw, sc, n, a, as, l1 ++ i :: l2⟩)).Perm (tableLinks (Table.ast ⟨kw, sc, n, a, as, l1 ++ j :: l2⟩))) ∨
    (BadTable (Table.ast ⟨kw, sc, n, a, as, l1 ++ i :: l2⟩) ∧ BadTable (Table.ast ⟨kw, sc, n, a, as, l1 ++ j :: l2⟩)) := by
  cases h with
  | @col m ty is js h =>
    have hd : defsOf (Table.ast ⟨kw, sc, n, a, as, l1 ++ .col ⟨m, ty, is⟩ :: l2⟩) =
        defsOf (Table.ast ⟨kw, sc, n, a, as, l1 ++ .col ⟨m, ty, js⟩ :: l2⟩) := by
      simp only [defsOf, Table.ast, List.filterMap_append, List.filterMap_cons, TItem.indexes?]
    have hcols : ∀ x : Col, (Table.ast ⟨kw, sc, n, a, as, l1 ++ .col x :: l2⟩).cols =
        l1.filterMap (·.col?) ++ x.ast :: l2.filterMap (·.col?) := by
      intro x
      simp only [Table.ast, List.filterMap_append, List.filterMap_cons, TItem.col?]
    rcases col_sets (n := m) (ty := ty) h with hs | ⟨h1, h2⟩
    · refine .inl ⟨⟨rfl, rfl, rfl, ?_, ?_, .refl _⟩, ?_⟩
      · rw [hcols, hcols]
        exact matched_middle (fun _ => .rfl) hs _ _
      · rw [hd]; exact forall₂_refl (fun _ => .rfl) _
      · unfold tableLinks
        rw [hcols, hcols, List.flatMap_append, List.flatMap_append, List.flatMap_cons, List.flatMap_cons]
        refine (List.Perm.refl _).append (List.Perm.append ?_ (List.Perm.refl _))
        exact (colLinks_perm h).map _
    · exact .inr ⟨.inl ⟨_, by rw [hcols]; simp, h1⟩, .inl ⟨_, by rw [hcols]; simp, h2⟩⟩
  | @index kw' m1 d d' m2 h =>
    have hcols : ∀ x : Idxs, (Table.ast ⟨kw, sc, n, a, as, l1 ++ .indexes x :: l2⟩).cols =
        l1.filterMap (·.col?) ++ l2.filterMap (·.col?) := by
      intro x
      simp only [Table.ast, List.filterMap_append, List.filterMap_cons, TItem.col?]
    have hidx : ∀ x : Idxs, (Table.ast ⟨kw, sc, n, a, as, l1 ++ .indexes x :: l2⟩).indexes =
        (l1.filterMap (·.indexes?) ++ x.ast :: l2.filterMap (·.indexes?)).getLast? := by
      intro x
      simp only [Table.ast, List.filterMap_append, List.filterMap_cons, TItem.indexes?]
    have links : ∀ x y : Idxs, (tableLinks (Table.ast ⟨kw, sc, n, a, as, l1 ++ .indexes x :: l2⟩)).Perm
        (tableLinks (Table.ast ⟨kw, sc, n, a, as, l1 ++ .indexes y :: l2⟩)) := by
      intro x y
      unfold tableLinks
      rw [hcols, hcols]
      exact .refl _
    have cols : ∀ x y : Idxs, Matched SameColumn (Table.ast ⟨kw, sc, n, a, as, l1 ++ .indexes x :: l2⟩).cols
        (Table.ast ⟨kw, sc, n, a, as, l1 ++ .indexes y :: l2⟩).cols := by
      intro x y
      rw [hcols, hcols]
      exact matched_refl (fun _ => .rfl) _
    rcases getLast?_middle (l1.filterMap (·.indexes?)) (l2.filterMap (·.indexes?)) (Idxs.ast ⟨kw', m1 ++ d :: m2⟩)
        (Idxs.ast ⟨kw', m1 ++ d' :: m2⟩) with e | ⟨e1, e2⟩
    · refine .inl ⟨⟨rfl, rfl, rfl, cols _ _, ?_, .refl _⟩, links _ _⟩
      unfold defsOf
      rw [hidx, hidx, e]
      exact forall₂_refl (fun _ => .rfl) _
    · have hdef : ∀ x : IDef, (Idxs.ast ⟨kw', m1 ++ x :: m2⟩).defs = m1.map (·.ast) ++ x.ast :: m2.map (·.ast) := by
        intro x; simp [Idxs.ast]
      have d1 : defsOf (Table.ast ⟨kw, sc, n, a, as, l1 ++ .indexes ⟨kw', m1 ++ d :: m2⟩ :: l2⟩) =
          m1.map (·.ast) ++ d.ast :: m2.map (·.ast) := by
        unfold defsOf; rw [hidx, e1, ← hdef]; rfl
      have d2 : defsOf (Table.ast ⟨kw, sc, n, a, as, l1 ++ .indexes ⟨kw', m1 ++ d' :: m2⟩ :: l2⟩) =
          m1.map (·.ast) ++ d'.ast :: m2.map (·.ast) := by
        unfold defsOf; rw [hidx, e2, ← hdef]; rfl
      rcases def_rewrite h with hs | ⟨h1, h2⟩
      · refine .inl ⟨⟨rfl, rfl, rfl, cols _ _, ?_, .refl _⟩, links _ _⟩
        rw [d1, d2]
        exact forall₂_middle (fun _ => .rfl) hs _ _
      · exact .inr ⟨.inr ⟨_, by rw [d1]; simp, h1⟩, .inr ⟨_, by rw [d2]; simp, h2⟩⟩

theorem attrs_sets {as bs : Option (List Attr)} (h : SetsPerm as bs) :
    ((as.map fun l => keysOf (attrsAst l)).getD []).Perm ((bs.map fun l => keysOf (attrsAst l)).getD []) := by
  cases h with
  | perm h => exact (h.map _).map _
  | drop => exact .refl _
  | add => exact .refl _

/-! ## The other declarations -/

section
variable {B1 B2 : List TopLevelBlock}

theorem alike_project {p q : ProjectBlock} (h : SameProject p q) :
    Alike { blocks := B1 ++ .project p :: B2 } { blocks := B1 ++ .project q :: B2 } := by
  refine ⟨?_, ?_, ?_, ?_, ?_, ?_⟩
  · simp only [SchemaBlock.projects, List.filterMap_append, List.filterMap_cons]
    exact matched_middle (fun _ => .rfl) h _ _
  · simp only [SchemaBlock.tables, List.filterMap_append, List.filterMap_cons]
    exact matched_refl (fun _ => .rfl) _
  · simp only [SchemaBlock.enums, List.filterMap_append, List.filterMap_cons]
    exact matched_refl (fun _ => .rfl) _
  · simp only [SchemaBlock.table_groups, List.filterMap_append, List.filterMap_cons]
    exact matched_refl (fun _ => .rfl) _
  · simp only [links, SchemaBlock.refs, SchemaBlock.tables, List.filterMap_append, List.filterMap_cons]
    exact matched_refl (fun _ => .rfl) _
  · simp only [SchemaBlock.refs, List.filterMap_append, List.filterMap_cons]
    exact matched_refl (fun _ => .refl _) _

theorem alike_enum {p q : EnumBlock} (h : SameEnum p q) :
    Alike { blocks := B1 ++ .enum p :: B2 } { blocks := B1 ++ .enum q :: B2 } := by
  refine ⟨?_, ?_, ?_, ?_, ?_, ?_⟩
  · simp only [SchemaBlock.projects, List.filterMap_append, List.filterMap_cons]
    exact matched_refl (fun _ => .rfl) _
  · simp only [SchemaBlock.tables, List.filterMap_append, List.filterMap_cons]
    exact matched_refl (fun _ => .rfl) _
  · simp only [SchemaBlock.enums, List.filterMap_append, List.filterMap_cons]
    exact matched_middle (fun _ => .rfl) h _ _
  · simp only [SchemaBlock.table_groups, List.filterMap_append, List.filterMap_cons]
    exact matched_refl (fun _ => .rfl) _
  · simp only [links, SchemaBlock.refs, SchemaBlock.tables, List.filterMap_append, List.filterMap_cons]
    exact matched_refl (fun _ => .rfl) _
  · simp only [SchemaBlock.refs, List.filterMap_append, List.filterMap_cons]
    exact matched_refl (fun _ => .refl _) _

theorem alike_group {p q : TableGroupBlock} (h : SameGroup p q) :
    Alike { blocks := B1 ++ .tableGroup p :: B2 } { blocks := B1 ++ .tableGroup q :: B2 } := by
  refine ⟨?_, ?_, ?_, ?_, ?_, ?_⟩
  · simp only [SchemaBlock.projects, List.filterMap_append, List.filterMap_cons]
    exact matched_refl (fun _ => .rfl) _
  · simp only [SchemaBlock.tables, List.filterMap_append, List.filterMap_cons]
    exact matched_refl (fun _ => .rfl) _
  · simp only [SchemaBlock.enums, List.filterMap_append, List.filterMap_cons]
    exact matched_refl (fun _ => .rfl) _
  · simp only [SchemaBlock.table_groups, List.filterMap_append, List.filterMap_cons]
    exact matched_middle (fun _ => .rfl) h _ _
  · simp only [links, SchemaBlock.refs, SchemaBlock.tables, List.filterMap_append, List.filterMap_cons]
    exact matched_refl (fun _ => .rfl) _
  · simp only [SchemaBlock.refs, List.filterMap_append, List.filterMap_cons]
    exact matched_refl (fun _ => .refl _) _

theorem alike_note {n : NoteBlock} : Alike { blocks := B1 ++ B2 } { blocks := B1 ++ .note n :: B2 } := by
  refine ⟨?_, ?_, ?_, ?_, ?_, ?_⟩
  · simp only [SchemaBlock.projects, List.filterMap_append, List.filterMap_cons]
    exact matched_refl (fun _ => .rfl) _
  · simp only [SchemaBlock.tables, List.filterMap_append, List.filterMap_cons]
    exact matched_refl (fun _ => .rfl) _
  · simp only [SchemaBlock.enums, List.filterMap_append, List.filterMap_cons]
    exact matched_refl (fun _ => .rfl) _
  · simp only [SchemaBlock.table_groups, List.filterMap_append, List.filterMap_cons]
    exact matched_refl (fun _ => .rfl) _
  · simp only [links, SchemaBlock.refs, SchemaBlock.tables, List.filterMap_append, List.filterMap_cons]
    exact matched_refl (fun _ => .rfl) _
  · simp only [SchemaBlock.refs, List.filterMap_append, List.filterMap_cons]
    exact matched_refl (fun _ => .refl _) _

theorem filter_middle_perm {l1 l2 : List (List Str)} {a b : List Str} (h : a.Perm b) :
    Matched List.Perm ((l1 ++ a :: l2).filter (· ≠ [])) ((l1 ++ b :: l2).filter (· ≠ [])) := by
  refine Matched.filter (p := fun x : List Str => x ≠ []) ?_ (matched_middle (fun _ => .refl _) h _ _)
  intro x y hxy
  rw [not_iff_not]
  constructor
  · rintro rfl; exact List.nil_perm.1 hxy
  · rintro rfl; exact List.nil_perm.1 hxy.symm

theorem alike_ref {p q : RefBlock}
    (h : SameLink { blocks := B1 ++ .ref p :: B2 } (Props.linkOf p) (Props.linkOf q)) (hk : (refKeys p).Perm (refKeys q)) :
    Alike { blocks := B1 ++ .ref p :: B2 } { blocks := B1 ++ .ref q :: B2 } := by
  refine ⟨?_, ?_, ?_, ?_, ?_, ?_⟩
  · simp only [SchemaBlock.projects, List.filterMap_append, List.filterMap_cons]
    exact matched_refl (fun _ => .rfl) _
  · simp only [SchemaBlock.tables, List.filterMap_append, List.filterMap_cons]
    exact matched_refl (fun _ => .rfl) _
  · simp only [SchemaBlock.enums, List.filterMap_append, List.filterMap_cons]
    exact matched_refl (fun _ => .rfl) _
  · simp only [SchemaBlock.table_groups, List.filterMap_append, List.filterMap_cons]
    exact matched_refl (fun _ => .rfl) _
  · unfold links
    refine matched_append ?_ ?_
    · simp only [SchemaBlock.refs, List.filterMap_append, List.filterMap_cons, List.map_append, List.map_cons]
      exact matched_middle (fun _ => .rfl) h _ _
    · simp only [SchemaBlock.tables, List.filterMap_append, List.filterMap_cons]
      exact matched_refl (fun _ => .rfl) _
  · simp only [SchemaBlock.refs, List.filterMap_append, List.filterMap_cons, List.map_append, List.map_cons]
    exact filter_middle_perm hk

end

theorem names_map (ns : List Name) : ns.map (fun n => n.ast.to_string) = ns.map (·.value) := by
  induction ns with
  | nil => rfl
  | cons n ns ih => simp [Name.ast]

theorem ref_rewrite {s : SchemaBlock} {r r' : Ref} (h : RewriteRef r r') :
    SameLink s (Props.linkOf r.ast) (Props.linkOf r'.ast) ∧ (refKeys r.ast).Perm (refKeys r'.ast) := by
  cases h with
  | form _ => exact ⟨.rfl, .refl _⟩
  | turn =>
    refine ⟨.inr ⟨?_, .rfl, .rfl, .inl ⟨rfl, rfl⟩⟩, .refl _⟩
    rename_i rel _ _
    cases rel <;> rfl
  | pairs ps qs hp h1 h2 h3 h4 =>
    refine ⟨.inl ⟨rfl, ?_, ?_, .inr ⟨ps.map fun x => (x.1.value, x.2.value), qs.map fun x => (x.1.value, x.2.value), hp.map _, ?_, ?_, ?_, ?_⟩⟩, .refl _⟩
    · obtain ⟨x, hx⟩ := unaliased_total s (Props.linkOf (Ref.ast _)).lhs
      rcases hx with ⟨t, ht, rfl⟩ | ⟨hn, rfl⟩
      · exact ⟨_, _, .inl ⟨t, ht, rfl⟩, .inl ⟨t, ht, rfl⟩, rfl, rfl⟩
      · exact ⟨_, _, .inr ⟨hn, rfl⟩, .inr ⟨hn, rfl⟩, rfl, rfl⟩
    · obtain ⟨x, hx⟩ := unaliased_total s (Props.linkOf (Ref.ast _)).rhs
      rcases hx with ⟨t, ht, rfl⟩ | ⟨hn, rfl⟩
      · exact ⟨_, _, .inl ⟨t, ht, rfl⟩, .inl ⟨t, ht, rfl⟩, rfl, rfl⟩
      · exact ⟨_, _, .inr ⟨hn, rfl⟩, .inr ⟨hn, rfl⟩, rfl, rfl⟩
    all_goals simp [Props.linkOf, Ref.ast, endOf, REnd.ast, Function.comp_def, Name.ast, *]
  | settings h =>
    refine ⟨.rfl, ?_⟩
    have e : ∀ {st : Option (List Attr)} {kw n b lhs rel rhs}, refKeys (Ref.ast ⟨kw, n, b, lhs, rel, rhs, st⟩) =
        (st.map fun l => keysOf (attrsAst l)).getD [] := by
      intro st kw n b lhs rel rhs
      cases st <;> rfl
    rw [e, e]
    exact attrs_sets h

theorem block_rewrite {d1 d2 : Doc} {b b' : Block} (h : RewriteBlock b b') :
    Valid { blocks := Doc.ast (d1 ++ b :: d2) } ↔ Valid { blocks := Doc.ast (d1 ++ b' :: d2) } := by
  unfold Doc.ast
  rw [List.map_append, List.map_append, List.map_cons, List.map_cons]
  cases h with
  | project h =>
    refine valid_alike (alike_project ?_)
    exact (h.filterMap _).map _
  | tableSettings h =>
    refine valid_table (.inl ⟨⟨rfl, rfl, rfl, matched_refl (fun _ => .rfl) _, forall₂_refl (fun _ => .rfl) _, ?_⟩, .refl _⟩)
    have e : ∀ {st : Option (List Attr)} {kw s n a is}, tableKeys (Table.ast ⟨kw, s, n, a, st, is⟩) =
        (st.map fun l => keysOf (attrsAst l)).getD [] := by
      intro st kw s n a is
      cases st <;> rfl
    rw [e, e]
    exact attrs_sets h
  | tableItems h hi =>
    refine valid_table (.inl ⟨⟨rfl, rfl, rfl, .of_perm (fun _ => .rfl) (h.filterMap _), ?_, .refl _⟩, ?_⟩)
    · unfold defsOf Table.ast
      simp only [hi]
      exact forall₂_refl (fun _ => .rfl) _
    · unfold tableLinks Table.ast
      exact (h.filterMap _).flatMap_right _
  | tableItem h => exact valid_table (table_item h)
  | enumValues h => exact valid_alike (alike_enum ⟨rfl, .of_perm (fun _ => .rfl) (h.map _)⟩)
  | enumSettings h =>
    refine valid_alike (alike_enum ⟨rfl, ?_⟩)
    unfold Enum.ast
    simp only [List.map_append, List.map_cons]
    refine matched_middle (fun _ => .rfl) ⟨rfl, ?_⟩ _ _
    have e : ∀ {st : Option (List Attr)} {v}, valueKeys (EVal.ast ⟨v, st⟩) = (st.map fun l => keysOf (attrsAst l)).getD [] := by
      intro st v
      cases st <;> rfl
    rw [e, e]
    exact attrs_sets h
  | groupItems h => exact valid_alike (alike_group ⟨rfl, .of_perm (fun _ => .rfl) (h.filterMap _)⟩)
  | groupSettings _ => exact valid_alike (alike_group ⟨rfl, matched_refl (fun _ => .rfl) _⟩)
  | ref h =>
    obtain ⟨h1, h2⟩ := ref_rewrite (s := { blocks := d1.map (·.ast) ++ TopLevelBlock.ref (Ref.ast _) :: d2.map (·.ast) }) h
    exact valid_alike (alike_ref h1 h2)

theorem inline_rewrite {B1 B2 : List TopLevelBlock} {kw : Str} {s : Option Name} {n : Name} {a : Option Alias}
    {as : Option (List Attr)} {i1 i2 : List TItem} {c : Name} {ty : Ty} {l1 l2 : List ColSet} {r : InlineRef} {kw' : Str} :
    Alike { blocks := B1 ++ .table (Table.ast ⟨kw, s, n, a, as, i1 ++ .col ⟨c, ty, some (l1 ++ .ref r :: l2)⟩ :: i2⟩) :: B2 }
      { blocks := B1 ++ .table (Table.ast ⟨kw, s, n, a, as, i1 ++ .col ⟨c, ty, some (l1 ++ l2)⟩ :: i2⟩) ::
          .ref (Ref.ast ⟨kw', none, false, ⟨s, n, .one c⟩, r.rel, r.rhs, none⟩) :: B2 } := by
  have hattr : (l1 ++ .ref r :: l2).filterMap ColSet.attr? = (l1 ++ l2).filterMap ColSet.attr? := by
    simp only [List.filterMap_append, List.filterMap_cons, ColSet.attr?]
  have hcols : ∀ x : Col, (Table.ast ⟨kw, s, n, a, as, i1 ++ .col x :: i2⟩).cols =
      i1.filterMap (·.col?) ++ x.ast :: i2.filterMap (·.col?) := by
    intro x
    simp only [Table.ast, List.filterMap_append, List.filterMap_cons, TItem.col?]
  have hT : SameTable (Table.ast ⟨kw, s, n, a, as, i1 ++ .col ⟨c, ty, some (l1 ++ .ref r :: l2)⟩ :: i2⟩)
      (Table.ast ⟨kw, s, n, a, as, i1 ++ .col ⟨c, ty, some (l1 ++ l2)⟩ :: i2⟩) := by
    refine ⟨rfl, rfl, rfl, ?_, ?_, .refl _⟩
    · rw [hcols, hcols]
      refine matched_middle (fun _ => .rfl) ?_ _ _
      refine ⟨rfl, rfl, rfl, rfl, ?_, ?_, ?_, ?_, ?_⟩
      · simp only [IsPkCol, Col.ast, colSettingsAst, Option.map_some, Option.some.injEq, exists_eq_left', hattr]
      · simp only [IsUniqueCol, Col.ast, colSettingsAst, Option.map_some, Option.some.injEq, exists_eq_left', hattr]
      · simp only [nullableOfCol, Col.ast, colSettingsAst, Option.map_some, Option.bind_some, hattr]
      · simp only [defaultOf, Col.ast, colSettingsAst, Option.map_some, Option.bind_some, hattr]
      · simp only [colKeys, Col.ast, colSettingsAst, Option.map_some, Option.getD_some, hattr]
        exact .refl _
    · simp only [defsOf, Table.ast, List.filterMap_append, List.filterMap_cons, TItem.indexes?]
      exact forall₂_refl (fun _ => .rfl) _
  refine ⟨?_, ?_, ?_, ?_, ?_, ?_⟩
  · simp only [SchemaBlock.projects, List.filterMap_append, List.filterMap_cons]
    exact matched_refl (fun _ => .rfl) _
  · simp only [SchemaBlock.tables, List.filterMap_append, List.filterMap_cons]
    exact matched_middle (fun _ => .rfl) hT _ _
  · simp only [SchemaBlock.enums, List.filterMap_append, List.filterMap_cons]
    exact matched_refl (fun _ => .rfl) _
  · simp only [SchemaBlock.table_groups, List.filterMap_append, List.filterMap_cons]
    exact matched_refl (fun _ => .rfl) _
  · refine .of_perm (fun _ => .rfl) ?_
    show (List.map Props.linkOf _ ++ List.flatMap tableLinks _).Perm (List.map Props.linkOf _ ++ List.flatMap tableLinks _)
    simp only [SchemaBlock.refs, SchemaBlock.tables, List.filterMap_append, List.filterMap_cons, List.flatMap_append,
      List.flatMap_cons, List.map_append, List.map_cons]
    have hl : (tableLinks (Table.ast ⟨kw, s, n, a, as, i1 ++ .col ⟨c, ty, some (l1 ++ .ref r :: l2)⟩ :: i2⟩)).Perm
        (Props.linkOf (Ref.ast ⟨kw', none, false, ⟨s, n, .one c⟩, r.rel, r.rhs, none⟩) ::
          tableLinks (Table.ast ⟨kw, s, n, a, as, i1 ++ .col ⟨c, ty, some (l1 ++ l2)⟩ :: i2⟩)) := by
      unfold tableLinks
      rw [hcols, hcols]
      simp only [List.flatMap_append, List.flatMap_cons, Col.ast, colSettingsAst, Option.map_some, Option.toList_some,
        List.flatMap_nil, List.append_nil, List.filterMap_append, List.filterMap_cons, ColSet.ref?, List.map_append, List.map_cons]
      have e : (Props.linkOf (Ref.ast ⟨kw', none, false, ⟨s, n, .one c⟩, r.rel, r.rhs, none⟩)) =
        { rel := r.ast.rel, rhs := endOf r.ast.rhs
          lhs := { schema := (s.map (·.ast)).map (·.to_string), table := n.ast.to_string, cols := [c.ast.to_string] } } := rfl
      rw [e]
      refine List.Perm.trans (List.Perm.append_left _ ?_) List.perm_middle
      simp only [List.append_assoc, List.cons_append]
      exact List.perm_middle
    refine List.Perm.trans ?_ (List.Perm.append_right _ List.perm_middle.symm)
    simp only [List.cons_append, List.append_assoc]
    refine List.Perm.trans (List.Perm.append_left _ (List.Perm.append_left _ (List.Perm.append_left _ (hl.append_right _)))) ?_
    simp only [List.cons_append]
    rw [← List.append_assoc, ← List.append_assoc]
    refine List.perm_middle.trans ?_
    simp only [List.append_assoc]
    exact .refl _
  · simp only [SchemaBlock.refs, List.filterMap_append, List.filterMap_cons, List.map_append, List.map_cons]
    have : refKeys (Ref.ast ⟨kw', none, false, ⟨s, n, .one c⟩, r.rel, r.rhs, none⟩) = [] := rfl
    rw [this, List.filter_append, List.filter_append, List.filter_cons]
    exact matched_refl (fun _ => .refl _) _

theorem mem_tables {d : Doc} {t : Table} (h : Block.table t ∈ d) : t.ast ∈ SchemaBlock.tables { blocks := Doc.ast d } := by
  unfold SchemaBlock.tables Doc.ast
  exact List.mem_filterMap.2 ⟨.table t.ast, List.mem_map.2 ⟨_, h, rfl⟩, rfl⟩

theorem of_mem_tables {d : Doc} {t : TableBlock} (h : t ∈ SchemaBlock.tables { blocks := Doc.ast d }) :
    ∃ t', Block.table t' ∈ d ∧ t = t'.ast := by
  unfold SchemaBlock.tables Doc.ast at h
  obtain ⟨b, hb, hbt⟩ := List.mem_filterMap.1 h
  obtain ⟨b', hb', rfl⟩ := List.mem_map.1 hb
  cases b' <;> simp [Block.ast] at hbt
  rename_i t'
  exact ⟨t', hb', hbt.symm⟩

theorem hasAlias_iff {t : Table} {a : Str} : t.HasAlias a ↔ aliasOf t.ast = some a := by
  unfold Table.HasAlias aliasOf Table.ast
  cases t.alias <;> simp [Name.ast]

theorem byAlias_sameName {d : Doc} {e e' : REnd} (h : ByAlias d e e') :
    SameName { blocks := Doc.ast d } (endOf e.ast) (endOf e'.ast) := by
  obtain ⟨t, sc, h1, h2, h3, rfl, h5⟩ := h
  refine ⟨_, _, .inl ⟨t.ast, ⟨mem_tables h1, hasAlias_iff.1 h2⟩, rfl⟩, .inr ⟨?_, rfl⟩, ?_, ?_⟩
  · rintro u ⟨hu, hua⟩
    obtain ⟨u', hu', rfl⟩ := of_mem_tables hu
    exact h5 u' hu' (hasAlias_iff.2 hua)
  · simp [tableKey, schemaOf, Table.ast, h3, endOf, REnd.ast]
  · simp [tableKey, Table.ast, endOf, REnd.ast]

theorem rewrite_valid {d d' : Doc} (h : Rewrite d d') : Valid { blocks := d.ast } ↔ Valid { blocks := d'.ast } := by
  cases h with
  | order h =>
    have hp : (Doc.ast d).Perm (Doc.ast d') := h.map _
    exact (C34_order_irrelevant (s := { blocks := d.ast }) (s' := { blocks := d'.ast }) hp).1
  | block h => exact block_rewrite h
  | note _ =>
    unfold Doc.ast
    rw [List.map_append, List.map_append, List.map_cons]
    exact valid_alike alike_note
  | inline _ =>
    unfold Doc.ast
    rw [List.map_append, List.map_append, List.map_cons, List.map_cons, List.map_cons]
    exact valid_alike inline_rewrite
  | «alias» h =>
    have hn := byAlias_sameName h
    unfold Doc.ast at hn ⊢
    rw [List.map_append, List.map_cons] at hn
    rw [List.map_append, List.map_cons, List.map_append, List.map_cons]
    refine valid_alike (alike_ref (.inl ⟨rfl, hn, .rfl, .inl ⟨?_, rfl⟩⟩) (.refl _))
    obtain ⟨t, sc, h1, h2, h3, rfl, h5⟩ := h
    rfl

theorem sameMeaning_valid {d d' : Doc} (h : SameMeaning d d') : Valid { blocks := d.ast } ↔ Valid { blocks := d'.ast } := by
  induction h with
  | rel _ _ h => exact rewrite_valid h
  | refl _ => exact Iff.rfl
  | symm _ _ _ ih => exact ih.symm
  | trans _ _ _ _ _ ih1 ih2 => exact ih1.trans ih2

end Dbml
