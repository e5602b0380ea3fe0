import Verif.Proofs.Rename6

/-!
# Renaming: columns and tables
-/

namespace Dbml
open Syntax Source Spec

/-! ## Column settings -/

def ColItemW (p : Pair) (b : ColItem) : Prop :=
  ∃ q, p.children = [q] ∧ match b with
    | .attr a => q.rule = .attribute ∧ parseAttribute q = .ok a
    | .ref r => q.rule = .ref_inline ∧ parseRefInline q = .ok r

def ColItemT (X : Sp → ColSet) : ColItem → Prop
  | .attr _ => ∃ a, X = fun _ => .attr a
  | .ref r => ∃ Y, X = (fun g => .ref (Y g)) ∧ InlineT Y r

def colItemIds : ColItem → List Ident
  | .attr _ => []
  | .ref r => r.rhs.ids

theorem colset_item : Item False G.col_attribute True
    (fun p => p.rule = .col_attribute ∧ ∃ q, p.children = [q] ∧ (q.rule = .attribute ∨ q.rule = .ref_inline))
    ColItemW ColSet.Ok ColSet.toks colItemIds ColItemT := by
  intro pos s c r ps h
  obtain ⟨kids, rfl, hb⟩ := rule_okP h rfl
  rcases alt_ok hb with hb | ⟨-, hb⟩
  · obtain ⟨p, rfl, hr, ih⟩ := inline_item _ _ _ _ _ hb
    refine ⟨_, rfl, ⟨rfl, p, rfl, .inr hr⟩, ?_⟩
    rintro b ⟨q, hq, hb'⟩
    simp at hq
    subst hq
    cases b with
    | attr a => exact absurd (hr.symm.trans hb'.1) (by decide)
    | ref x =>
      obtain ⟨ls, X, l, ⟨g1, g2⟩, g3, g4⟩ := ih x hb'.2
      exact ⟨ls, fun g => .ref (X g), l.any, ⟨g1, g2⟩, g3, X, rfl, g4⟩
  · obtain ⟨p, rfl, hr, ih⟩ := attr_gets _ _ _ _ _ hb
    refine ⟨_, rfl, ⟨rfl, p, rfl, .inl hr⟩, ?_⟩
    rintro b ⟨q, hq, hb'⟩
    simp at hq
    subst hq
    cases b with
    | ref a => exact absurd (hr.symm.trans hb'.1) (by decide)
    | attr x =>
      obtain ⟨a, ha, hl⟩ := ih ⟨x, hb'.2⟩
      exact ⟨a.toks.map .keep, fun _ => .attr a, (LayD.ofRun hb hl (semi_attr a)).any,
        ⟨fun _ _ => ha, fun g => map_keep_tok g _⟩, by simp [colItemIds], a, rfl⟩

theorem colsets_attr {Xs : List (Sp → ColSet)} {bs : List ColItem} (h : List.Forall₂ ColItemT Xs bs) (g : Sp) :
    (Xs.map (· g)).filterMap ColSet.attr? = (Xs.map (· noSp)).filterMap ColSet.attr? := by
  induction h with
  | nil => rfl
  | @cons X b Xs bs h _ ih =>
    cases b with
    | attr n =>
      obtain ⟨m, rfl⟩ := h
      simp only [List.map_cons, List.filterMap_cons, ColSet.attr?, ih]
    | ref i =>
      obtain ⟨Y, rfl, -⟩ := h
      simp only [List.map_cons, List.filterMap_cons, ColSet.attr?, ih]

theorem colsets_ref {Xs : List (Sp → ColSet)} {bs : List ColItem} (h : List.Forall₂ ColItemT Xs bs) (g : Sp) :
    (Xs.map (· g)).filterMap ColSet.ref? =
      ((bs.filterMap ColItem.ref?).map (·.mapNames fun _ => ren g)).map (·.mapSpan noPos) := by
  induction h with
  | nil => rfl
  | @cons X b Xs bs h _ ih =>
    cases b with
    | attr n =>
      obtain ⟨m, rfl⟩ := h
      simp only [List.map_cons, List.filterMap_cons, ColSet.ref?, ColItem.ref?, ih]
    | ref i =>
      obtain ⟨Y, rfl, h1⟩ := h
      simp only [List.map_cons, List.filterMap_cons, ColSet.ref?, ColItem.ref?, ih, h1 g]

theorem colFold_refs (bs : List ColItem) (s : ColumnSettings) :
    (bs.foldl colStep s).refs = s.refs ++ bs.filterMap ColItem.ref? := by
  induction bs generalizing s with
  | nil => simp
  | cons b bs ih =>
    rw [List.foldl_cons, ih]
    cases b with
    | attr a => simp [colStep, colAttr_refs, ColItem.ref?]; rfl
    | ref r => simp [colStep, ColItem.ref?]

abbrev ColSetsT : (Sp → List ColSet) → ColumnSettings → Prop :=
  CT colSettingsAst (ColumnSettings.mapSpan noPos) ColumnSettings.mapNames

theorem colsetsT_of {Xs : List (Sp → ColSet)} {bs : List ColItem} (h : List.Forall₂ ColItemT Xs bs) {s : ColumnSettings}
    (hs : s.refs = bs.filterMap ColItem.ref?) : ColSetsT (fun g => Xs.map (· g)) s := by
  intro h0 g
  have e1 : colSettingsAst (Xs.map (· g)) =
      { colSettingsAst (Xs.map (· noSp)) with refs := (Xs.map (· g)).filterMap ColSet.ref? } := by
    simp only [colSettingsAst, colsets_attr h g]
  have h0 : colSettingsAst (Xs.map (· noSp)) = s.mapSpan noPos := h0
  show colSettingsAst (Xs.map (· g)) = _
  rw [e1, h0, colsets_ref h g, ← hs]
  rfl

def ColumnSettings.ids (s : ColumnSettings) : List Ident := s.refs.flatMap fun r => r.rhs.ids

theorem col_settings_item : Item False G.col_settings False (fun p => p.rule = .col_settings)
    (fun p b => parseColSettings p = .ok b) (fun is => ∀ i ∈ is, ColSet.Ok i) (brackets ColSet.toks)
    ColumnSettings.ids ColSetsT := by
  intro pos s c r ps h
  obtain ⟨kids, rfl, hb⟩ := rule_okP h rfl
  refine ⟨_, rfl, rfl, fun x hx => ?_⟩
  obtain ⟨hrs, ih⟩ := bracketed_item colset_item hb
  unfold parseColSettings at hx
  obtain ⟨bs, k1, rfl⟩ := foldlM_inv (B := ColItemW) (g := colStep) (by
    intro q hq s s' hs
    obtain ⟨hr, q', hq', hr'⟩ := hrs q hq
    simp only [hr, hq', List.foldlM_cons] at hs
    obtain ⟨y, hy, hs⟩ := Rs.bind_eq_ok.1 hs
    cases hs
    rcases hr' with hr' | hr' <;> simp only [hr'] at hy <;> obtain ⟨v, hv, hy⟩ := Rs.bind_eq_ok.1 hy <;> cases hy
    · exact ⟨.attr v, ⟨q', hq', hr', hv⟩, rfl⟩
    · exact ⟨.ref v, ⟨q', hq', hr', hv⟩, rfl⟩) hx
  obtain ⟨ls, Xs, l, g1, g2, g3, g4⟩ := ih _ k1
  have e := colFold_refs bs { span_range := (Pair.mk Rule.col_settings ⟨pos, pos + blen c⟩ c kids).span }
  rw [List.nil_append] at e
  refine ⟨ls, fun g => Xs.map (· g), l, ⟨?_, g2⟩, ?_, colsetsT_of g4 e⟩
  · intro g hg i hi
    obtain ⟨X, hX, rfl⟩ := List.mem_map.1 hi
    exact g1 g hg X hX
  · intro k hk
    unfold ColumnSettings.ids at hk
    rw [e] at hk
    obtain ⟨v, hv, hk⟩ := List.mem_flatMap.1 hk
    obtain ⟨b, hb, e⟩ := List.mem_filterMap.1 hv
    cases b with
    | attr n => cases e
    | ref j =>
      cases e
      exact g3 _ hb k hk

/-! ## Columns -/

abbrev ColT : (Sp → Col) → TableColumn → Prop := CT Col.ast (TableColumn.mapSpan noPos) TableColumn.mapNames

def TableColumn.ids (c : TableColumn) : List Ident := c.name :: c.settings.toList.flatMap (·.ids)

theorem col_item : Item False G.table_col False (fun p => p.rule = .table_col)
    (fun p b => parseTableCol p = .ok b) Col.Ok Col.toks TableColumn.ids ColT := by
  intro pos s c r ps h
  obtain ⟨kids, rfl, hb⟩ := rule_okP h rfl
  refine ⟨_, rfl, rfl, fun x hx => ?_⟩
  obtain ⟨c1, r1, p1, pos2, r2, c2, p2, h1, hg, h2, hp, rfl⟩ := seq_okP hb
  obtain ⟨p, rfl, hr, ih⟩ := ident_item _ _ _ _ _ h1
  obtain ⟨c3, r3, p3, pos3, r4, c4, p4, h3, hg', h4, hp', rfl⟩ := seq_okP h2
  obtain ⟨q, rfl, hq, ih2⟩ := type_lay _ _ _ _ _ h3
  unfold parseTableCol at hx
  simp only [Pair.children_mk, List.cons_append, List.nil_append, List.foldlM_cons, hr, hq] at hx
  obtain ⟨y, hy, hx⟩ := Rs.bind_eq_ok.1 hx
  obtain ⟨i, hi, hy⟩ := Rs.bind_eq_ok.1 hy
  cases hy
  obtain ⟨y, hy, hx⟩ := Rs.bind_eq_ok.1 hx
  obtain ⟨t, ht, hy⟩ := Rs.bind_eq_ok.1 hy
  cases hy
  obtain ⟨ty, hty, l2⟩ := ih2 ⟨t, ht⟩
  have l2 : LayP [.keep ty.tok] pos2 r2 (pos2 + blen c3) r3 := by
    have := LayD.ofRun h3 l2 (by intro t ht; cases List.mem_singleton.1 ht; exact (soft_ty ty).semi)
    exact this.weaken (ends_soft (by intro t ht; cases List.mem_singleton.1 ht; exact soft_ty ty) fun h => h)
  obtain ⟨ls, X, l1, ⟨g1, g2⟩, g3, g4⟩ := ih i hi
  rcases opt_ok h4 with ⟨-, rfl, rfl, rfl⟩ | h5
  · cases hx
    refine ⟨_, fun g => ⟨X g, ty, none⟩, (l1.seq hg (l2.seq hg' .nil)).at (by simpa [hp] using hp'), ⟨?_, ?_⟩, ?_, ?_⟩
    · intro g hg; exact ⟨g1 g hg, hty, by simp⟩
    · intro g; rw [tok_append, List.append_nil, g2 g]; rfl
    · intro k hk
      exact (g3 k (by simpa [TableColumn.ids] using hk)).left
    · intro h0 g
      have e1 := congrArg TableColumn.type h0
      simp only [Col.ast, TableColumn.mapSpan] at e1
      simp only [Col.ast, TableColumn.mapSpan, TableColumn.mapNames, e1, g4 g, Option.map_none]
  · obtain ⟨w, rfl, hw, ih3⟩ := col_settings_item _ _ _ _ _ h5
    simp only [List.foldlM_cons, hw] at hx
    obtain ⟨y, hy, hx⟩ := Rs.bind_eq_ok.1 hx
    obtain ⟨st, hst, hy⟩ := Rs.bind_eq_ok.1 hy
    cases hy
    cases hx
    obtain ⟨ls', X', l3, ⟨g1', g2'⟩, g3', g4'⟩ := ih3 st hst
    refine ⟨_, fun g => ⟨X g, ty, some (X' g)⟩, (l1.seq hg (l2.seq hg' l3)).at (by omega), ⟨?_, ?_⟩, ?_, ?_⟩
    · intro g hg; exact ⟨g1 g hg, hty, by rintro _ ⟨⟩; exact g1' g hg⟩
    · intro g; rw [tok_append, tok_append, g2 g, g2' g]; rfl
    · intro k hk
      rcases List.mem_cons.1 hk with rfl | hk
      · exact (g3 _ (by simp)).left
      · exact ((g3' k (by simpa using hk)).right).right
    · intro h0 g
      have e1 := congrArg TableColumn.type h0
      have e2 := congrArg TableColumn.settings h0
      simp only [Col.ast, TableColumn.mapSpan, Option.map_some, Option.some.injEq] at e1 e2
      simp only [Col.ast, TableColumn.mapSpan, TableColumn.mapNames, e1, g4 g, Option.map_some, g4' e2 g]

/-! ## Table items -/

def TItemW (p : Pair) : TableItem → Prop
  | .col c => p.rule = .table_col ∧ parseTableCol p = .ok c
  | .note n => p.rule = .note_decl ∧ parseNoteDecl p = .ok n
  | .indexes i => p.rule = .indexes_decl ∧ parseIndexesDecl p = .ok i

def TItemT (X : Sp → TItem) : TableItem → Prop
  | .col c => ∃ Y, X = (fun g => .col (Y g)) ∧ ColT Y c
  | .note _ => ∃ m, X = fun _ => .note m
  | .indexes i => ∃ Y, X = (fun g => .indexes (Y g)) ∧ IdxsT Y i

def titemIds : TableItem → List Ident
  | .col c => c.ids
  | .note _ => []
  | .indexes i => i.ids

theorem titem_item : Item False (.alt G.table_col (.alt G.note_decl G.indexes_decl)) False
    (fun p => p.rule = .table_col ∨ p.rule = .note_decl ∨ p.rule = .indexes_decl) TItemW TItem.Ok TItem.toks titemIds
    TItemT := by
  refine Item.alt ?_ (Item.alt ?_ ?_)
  · intro pos s c r ps h
    obtain ⟨p, rfl, hr, ih⟩ := col_item _ _ _ _ _ h
    refine ⟨p, rfl, .inl hr, fun b hb => ?_⟩
    cases b with
    | note n => exact absurd (hr.symm.trans hb.1) (by decide)
    | indexes n => exact absurd (hr.symm.trans hb.1) (by decide)
    | col x =>
      obtain ⟨ls, X, l, ⟨g1, g2⟩, g3, g4⟩ := ih x hb.2
      exact ⟨ls, fun g => .col (X g), l, ⟨g1, g2⟩, g3, X, rfl, g4⟩
  · intro pos s c r ps h
    obtain ⟨p, rfl, hr, ih⟩ := note_item _ _ _ _ _ h
    refine ⟨p, rfl, .inr (.inl hr), fun b hb => ?_⟩
    cases b with
    | col n => exact absurd (hr.symm.trans hb.1) (by decide)
    | indexes n => exact absurd (hr.symm.trans hb.1) (by decide)
    | note n =>
      obtain ⟨ls, X, l, ⟨g1, g2⟩, g3, m, rfl⟩ := ih n hb.2
      exact ⟨ls, fun _ => .note m, l, ⟨g1, g2⟩, g3, m, rfl⟩
  · intro pos s c r ps h
    obtain ⟨p, rfl, hr, ih⟩ := indexes_item _ _ _ _ _ h
    refine ⟨p, rfl, .inr (.inr hr), fun b hb => ?_⟩
    cases b with
    | note n => exact absurd (hr.symm.trans hb.1) (by decide)
    | col n => exact absurd (hr.symm.trans hb.1) (by decide)
    | indexes x =>
      obtain ⟨ls, X, l, ⟨g1, g2⟩, g3, g4⟩ := ih x hb.2
      exact ⟨ls, fun g => .indexes (X g), l, ⟨g1, g2⟩, g3, X, rfl, g4⟩

theorem titems_note {Xs : List (Sp → TItem)} {bs : List TableItem} (h : List.Forall₂ TItemT Xs bs) (g : Sp) :
    (Xs.map (· g)).filterMap TItem.note? = (Xs.map (· noSp)).filterMap TItem.note? := by
  induction h with
  | nil => rfl
  | @cons X b Xs bs h _ ih =>
    cases b with
    | note n =>
      obtain ⟨m, rfl⟩ := h
      simp only [List.map_cons, List.filterMap_cons, TItem.note?, ih]
    | col i =>
      obtain ⟨Y, rfl, -⟩ := h
      simp only [List.map_cons, List.filterMap_cons, TItem.note?, ih]
    | indexes i =>
      obtain ⟨Y, rfl, -⟩ := h
      simp only [List.map_cons, List.filterMap_cons, TItem.note?, ih]

theorem titems_col {Xs : List (Sp → TItem)} {bs : List TableItem} (h : List.Forall₂ TItemT Xs bs) :
    ∃ Ys, List.Forall₂ ColT Ys (bs.filterMap TableItem.col?) ∧
      ∀ g, (Xs.map (· g)).filterMap TItem.col? = (Ys.map (· g)).map Col.ast := by
  induction h with
  | nil => exact ⟨[], .nil, fun _ => rfl⟩
  | @cons X b Xs bs h _ ih =>
    obtain ⟨Ys, h1, h2⟩ := ih
    cases b with
    | note n =>
      obtain ⟨m, rfl⟩ := h
      exact ⟨Ys, h1, h2⟩
    | col i =>
      obtain ⟨Y, rfl, hY⟩ := h
      exact ⟨Y :: Ys, .cons hY h1, fun g => by simp only [List.map_cons, List.filterMap_cons, TItem.col?, h2 g]⟩
    | indexes i =>
      obtain ⟨Y, rfl, -⟩ := h
      exact ⟨Ys, h1, h2⟩

theorem titems_indexes {Xs : List (Sp → TItem)} {bs : List TableItem} (h : List.Forall₂ TItemT Xs bs) :
    ∃ Ys, List.Forall₂ IdxsT Ys (bs.filterMap TableItem.indexes?) ∧
      ∀ g, (Xs.map (· g)).filterMap TItem.indexes? = (Ys.map (· g)).map Idxs.ast := by
  induction h with
  | nil => exact ⟨[], .nil, fun _ => rfl⟩
  | @cons X b Xs bs h _ ih =>
    obtain ⟨Ys, h1, h2⟩ := ih
    cases b with
    | note n =>
      obtain ⟨m, rfl⟩ := h
      exact ⟨Ys, h1, h2⟩
    | indexes i =>
      obtain ⟨Y, rfl, hY⟩ := h
      exact ⟨Y :: Ys, .cons hY h1, fun g => by simp only [List.map_cons, List.filterMap_cons, TItem.indexes?, h2 g]⟩
    | col i =>
      obtain ⟨Y, rfl, -⟩ := h
      exact ⟨Ys, h1, h2⟩

theorem ct_last {α β : Type} {ast : α → β} {er : β → β} {mn : (Role → Ident → Ident) → β → β} {Xs : List (Sp → α)}
    {bs : List β} (h : List.Forall₂ (CT ast er mn) Xs bs)
    (h0 : ((Xs.map (· noSp)).map ast).getLast? = bs.getLast?.map er) (g : Sp) :
    ((Xs.map (· g)).map ast).getLast? = (bs.getLast?.map (mn fun _ => ren g)).map er := by
  induction h with
  | nil => rfl
  | cons h ht ih =>
    cases ht with
    | nil =>
      simp only [List.map_cons, List.map_nil, List.getLast?_singleton, Option.map_some, Option.some.injEq] at h0 ⊢
      exact h h0 g
    | cons h' ht =>
      simp only [List.map_cons, List.getLast?_cons_cons] at h0 ih ⊢
      exact ih h0

end Dbml
