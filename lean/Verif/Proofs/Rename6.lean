import Verif.Proofs.Rename5

/-!
# Renaming: enums, groups, columns
-/

namespace Dbml
open Syntax Source Spec

/-! ## Enums -/

abbrev EValT : (Sp → EVal) → EnumValue → Prop := CT EVal.ast (EnumValue.mapSpan noPos) EnumValue.mapNames

theorem eval_item : Item False G.enum_value False (fun p => p.rule = .enum_value) (fun p b => parseEnumValue p = .ok b)
    EVal.Ok EVal.toks (fun b => [b.value]) EValT := by
  intro pos s c r ps h
  obtain ⟨kids, rfl, hb⟩ := rule_okP h rfl
  refine ⟨_, rfl, rfl, fun x hx => ?_⟩
  obtain ⟨c1, r1, p1, pos2, r2, c2, p2, h1, hg, h2, hp, rfl⟩ := seq_okP hb
  obtain ⟨p, rfl, hr, ih⟩ := ident_item _ _ _ _ _ h1
  obtain ⟨hps, ih2⟩ := optSettings enum_settings_lay h2
  unfold parseEnumValue at hx
  simp only [Pair.children_mk, List.cons_append, List.nil_append, List.foldlM_cons, hr] at hx
  obtain ⟨y, hy, hx⟩ := Rs.bind_eq_ok.1 hx
  obtain ⟨i, hi, hy⟩ := Rs.bind_eq_ok.1 hy
  cases hy
  have key : (∀ p ∈ p2, ∀ q ∈ p.children, Acc parseAttribute q) ∧ x.value = i := by
    rcases hps with rfl | ⟨w, rfl, hw⟩
    · cases hx
      exact ⟨by simp, rfl⟩
    · simp only [List.foldlM_cons, hw] at hx
      obtain ⟨y, hy, hx⟩ := Rs.bind_eq_ok.1 hx
      obtain ⟨z, hz, hy⟩ := Rs.bind_eq_ok.1 hy
      cases hy
      cases hx
      refine ⟨?_, rfl⟩
      intro p hp q hq
      cases List.mem_singleton.1 hp
      obtain ⟨b, b', hb⟩ := foldlM_steps hz q hq
      split at hb
      · obtain ⟨z, hz, -⟩ := Rs.bind_eq_ok.1 hb
        exact ⟨z, hz⟩
      · simp [throwRules] at hb
  obtain ⟨k1, k2⟩ := key
  obtain ⟨o, ho, l2⟩ := ih2 k1
  obtain ⟨ls, X, l1, ⟨g1, g2⟩, g3, g4⟩ := ih i hi
  refine ⟨_, fun g => ⟨X g, o⟩, (l1.seq hg l2).at hp, ⟨?_, ?_⟩, ?_, ?_⟩
  · intro g hg; exact ⟨g1 g hg, ho⟩
  · intro g; rw [tok_append, g2 g, map_keep_tok]; rfl
  · intro k hk
    simp only [k2] at hk
    exact (g3 k hk).left
  · intro h0 g
    have e1 := congrArg EnumValue.settings h0
    simp only [EVal.ast, EnumValue.mapSpan] at e1
    simp only [EVal.ast, EnumValue.mapSpan, EnumValue.mapNames, e1, g4 g, k2]

abbrev EnumT : (Sp → Source.Enum) → EnumBlock → Prop :=
  CT Source.Enum.ast (EnumBlock.mapSpan noPos) EnumBlock.mapNames

def EnumBlock.ids (e : EnumBlock) : List Ident := (e.ident.schema.toList ++ [e.ident.name]) ++ e.values.map (·.value)

theorem enum_item : Item False G.enum_decl False (fun p => p.rule = .enum_decl) (fun p b => parseEnumDecl p = .ok b)
    Source.Enum.Ok Source.Enum.toks EnumBlock.ids EnumT := by
  intro pos s c r ps h
  obtain ⟨kids, rfl, hb⟩ := rule_okP h rfl
  refine ⟨_, rfl, rfl, fun x hx => ?_⟩
  obtain ⟨c1, r1, p1, pos2, r2, c2, p2, h1, hg, h2, hp, rfl⟩ := seq_okP hb
  obtain ⟨kw, hk, l1, rfl⟩ := keep_kw (k' := k!"enum ") (by decide) (by simp) h1
  obtain ⟨c3, r3, p3, pos3, r4, c4, p4, h3, hg', h4, hp', rfl⟩ := seq_okP h2
  obtain ⟨p, rfl, hr, ih⟩ := decl_ident_item _ _ _ _ _ h3
  obtain ⟨kids, rfl, hb'⟩ := rule_okP h4 rfl
  obtain ⟨hrs, ih2⟩ := braced_item eval_item hb'
  unfold parseEnumDecl at hx
  simp only [Pair.children_mk, Pair.rule_mk, List.cons_append, List.nil_append, List.foldlM_cons, hr] at hx
  obtain ⟨y, hy, hx⟩ := Rs.bind_eq_ok.1 hx
  obtain ⟨⟨sc, nm⟩, hi, hy⟩ := Rs.bind_eq_ok.1 hy
  cases hy
  obtain ⟨y, hy, hx⟩ := Rs.bind_eq_ok.1 hx
  obtain ⟨vs, hvs, hy⟩ := Rs.bind_eq_ok.1 hy
  cases hy
  cases hx
  have hvs' := mapM_inv hvs
  have hvs' : List.Forall₂ (fun p b => parseEnumValue p = .ok b) kids vs := by
    refine forall₂_imp_mem ?_ hvs'
    intro q hq b hb
    simpa only [hrs q hq] using hb
  obtain ⟨ls, X, l2, ⟨g1, g2⟩, g3, g4⟩ := ih _ hi
  obtain ⟨ls', Xs, l3, g1', g2', g3', g4'⟩ := ih2 _ hvs'
  refine ⟨_, fun g => ⟨kw, (X g).1, (X g).2, Xs.map (· g)⟩, (l1.seq hg (l2.seq hg' l3)).at (by omega), ⟨?_, ?_⟩, ?_, ?_⟩
  · intro g hg
    refine ⟨hk, (g1 g hg).1, (g1 g hg).2, ?_⟩
    intro v hv
    obtain ⟨X, hX, rfl⟩ := List.mem_map.1 hv
    exact g1' g hg X hX
  · intro g; rw [tok_append, tok_append, g2 g, g2' g]; rfl
  · intro k hk
    rcases List.mem_append.1 hk with hk | hk
    · exact ((g3 k hk).left).right
    · obtain ⟨v, hv, rfl⟩ := List.mem_map.1 hk
      exact (g3' v hv _ (by simp)).right.right
  · intro h0 g
    have e0 := congrArg EnumBlock.values h0
    simp only [Source.Enum.ast, EnumBlock.mapSpan] at e0
    have e1 := g4.1 g
    have e2 := g4.2 g
    simp only at e1 e2
    simp only [Source.Enum.ast, EnumBlock.mapSpan, EnumBlock.mapNames, EnumIdent.mapSpan, ct_map g4' e0 g, e1, e2]

/-! ## Groups -/

/-- An item of a group. -/
def GItemW (p : Pair) : GroupItem → Prop
  | .note n => p.rule = .note_decl ∧ parseNoteDecl p = .ok n
  | .item i => p.rule = .decl_ident ∧ parseDeclIdent p = .ok (i.schema, i.ident_alias)

def GItemT (X : Sp → GItem) : GroupItem → Prop
  | .note _ => ∃ m, X = fun _ => .note m
  | .item i => ∃ Y : Sp → Option Name × Name, X = (fun g => .item (Y g).1 (Y g).2) ∧
      OIdentT (fun g => (Y g).1) i.schema ∧ IdentT (fun g => (Y g).2) i.ident_alias

def gitemIds : GroupItem → List Ident
  | .note _ => []
  | .item i => i.schema.toList ++ [i.ident_alias]

theorem gitem_item : Item False (.alt G.note_decl G.decl_ident) False
    (fun p => p.rule = .note_decl ∨ p.rule = .decl_ident) GItemW GItem.Ok GItem.toks gitemIds GItemT := by
  refine Item.alt ?_ ?_
  · intro pos s c r ps h
    obtain ⟨p, rfl, hr, ih⟩ := note_item _ _ _ _ _ h
    refine ⟨p, rfl, .inl hr, fun b hb => ?_⟩
    cases b with
    | item i => exact absurd (hr.symm.trans hb.1) (by decide)
    | note n =>
      obtain ⟨ls, X, l, ⟨g1, g2⟩, g3, m, rfl⟩ := ih n hb.2
      exact ⟨ls, fun _ => .note m, l, ⟨g1, g2⟩, g3, m, rfl⟩
  · intro pos s c r ps h
    obtain ⟨p, rfl, hr, ih⟩ := decl_ident_item _ _ _ _ _ h
    refine ⟨p, rfl, .inr hr, fun b hb => ?_⟩
    cases b with
    | note i => exact absurd (hr.symm.trans hb.1) (by decide)
    | item n =>
      obtain ⟨ls, X, l, ⟨g1, g2⟩, g3, g4⟩ := ih _ hb.2
      exact ⟨ls, fun g => .item (X g).1 (X g).2, l, ⟨g1, g2⟩, g3, X, rfl, g4⟩

theorem gitems_note {Xs : List (Sp → GItem)} {bs : List GroupItem} (h : List.Forall₂ GItemT Xs bs) (g : Sp) :
    (Xs.map (· g)).filterMap GItem.note? = (Xs.map (· noSp)).filterMap GItem.note? := by
  induction h with
  | nil => rfl
  | @cons X b Xs bs h _ ih =>
    cases b with
    | note n =>
      obtain ⟨m, rfl⟩ := h
      simp only [List.map_cons, List.filterMap_cons, GItem.note?, ih]
    | item i =>
      obtain ⟨Y, rfl, -⟩ := h
      simp only [List.map_cons, List.filterMap_cons, GItem.note?, ih]

theorem gitems_item {Xs : List (Sp → GItem)} {bs : List GroupItem} (h : List.Forall₂ GItemT Xs bs) (g : Sp) :
    (Xs.map (· g)).filterMap GItem.item? =
      ((bs.filterMap GroupItem.item?).map (·.mapNames fun _ => ren g)).map (·.mapSpan noPos) := by
  induction h with
  | nil => rfl
  | @cons X b Xs bs h _ ih =>
    cases b with
    | note n =>
      obtain ⟨m, rfl⟩ := h
      simp only [List.map_cons, List.filterMap_cons, GItem.item?, GroupItem.item?, ih]
    | item i =>
      obtain ⟨Y, rfl, h1, h2⟩ := h
      have e1 := h1 g
      have e2 := h2 g
      simp only at e1 e2
      simp only [List.map_cons, List.filterMap_cons, GItem.item?, GroupItem.item?, ih, e1, e2, TableGroupItem.mapNames,
        TableGroupItem.mapSpan]

abbrev GroupT : (Sp → Group) → TableGroupBlock → Prop :=
  CT Group.ast (TableGroupBlock.mapSpan noPos) TableGroupBlock.mapNames

def TableGroupBlock.ids (b : TableGroupBlock) : List Ident :=
  b.ident :: b.items.flatMap fun i => i.schema.toList ++ [i.ident_alias]

theorem group_item : Item False G.table_group_decl False (fun p => p.rule = .table_group_decl)
    (fun p b => parseTableGroupDecl p = .ok b) Group.Ok Group.toks TableGroupBlock.ids GroupT := by
  intro pos s c r ps h
  obtain ⟨kids, rfl, hb⟩ := rule_okP h rfl
  refine ⟨_, rfl, rfl, fun x hx => ?_⟩
  obtain ⟨c1, r1, p1, pos2, r2, c2, p2, h1, hg, h2, hp, rfl⟩ := seq_okP hb
  obtain ⟨kw, hk, l1, rfl⟩ := keep_kw (k' := k!"tablegroup ") (by decide) (by simp) h1
  obtain ⟨c3, r3, p3, pos3, r4, c4, p4, h3, hg', h4, hp', rfl⟩ := seq_okP h2
  obtain ⟨p, rfl, hr, ih⟩ := ident_item _ _ _ _ _ h3
  obtain ⟨c5, r5, p5, pos4, r6, c6, p6, h5, hg3, h6, hp3, rfl⟩ := seq_okP h4
  obtain ⟨hps, ih2⟩ := optSettings block_settings_lay h5
  obtain ⟨kids, rfl, hb'⟩ := rule_okP h6 rfl
  obtain ⟨hrs, ih3⟩ := braced_item gitem_item hb'
  unfold parseTableGroupDecl at hx
  simp only [Pair.children_mk, List.cons_append, List.nil_append, List.foldlM_cons, hr] at hx
  obtain ⟨y, hy, hx⟩ := Rs.bind_eq_ok.1 hx
  obtain ⟨i, hi, hy⟩ := Rs.bind_eq_ok.1 hy
  cases hy
  rw [List.foldlM_append] at hx
  obtain ⟨y, hy, hx⟩ := Rs.bind_eq_ok.1 hx
  simp only [List.foldlM_cons, Pair.rule_mk, Pair.children_mk] at hx
  obtain ⟨z, hz, hx⟩ := Rs.bind_eq_ok.1 hx
  cases hx
  obtain ⟨bs, k1, rfl⟩ := foldlM_inv (B := GItemW) (g := groupStep) (by
    intro q hq s s' hs
    rcases hrs q hq with hr | hr <;> simp only [hr] at hs <;> obtain ⟨v, hv, hs⟩ := Rs.bind_eq_ok.1 hs <;> cases hs
    · exact ⟨.note v, ⟨hr, hv⟩, rfl⟩
    · exact ⟨.item ⟨_, v.1, v.2⟩, ⟨hr, hv⟩, rfl⟩) hz
  have key : (∀ p ∈ p5, Acc parseAttrList p) ∧ y.ident = i ∧ y.items = [] ∧ y.note = none := by
    rcases hps with rfl | ⟨w, rfl, hw⟩
    · cases hy
      exact ⟨by simp, rfl, rfl, rfl⟩
    · simp only [List.foldlM_cons, hw] at hy
      obtain ⟨y, hy', hx⟩ := Rs.bind_eq_ok.1 hy
      obtain ⟨u, hu, hy'⟩ := Rs.bind_eq_ok.1 hy'
      cases hy'
      cases hx
      refine ⟨?_, rfl, rfl, rfl⟩
      intro p hp
      cases List.mem_singleton.1 hp
      exact tgs_acc ⟨u, hu⟩
  obtain ⟨a1, a2, a3, a4⟩ := key
  obtain ⟨o, ho, l3⟩ := ih2 a1
  obtain ⟨ls, X, l2, ⟨g1, g2⟩, g3, g4⟩ := ih i hi
  obtain ⟨ls', Xs, l4, g1', g2', g3', g4'⟩ := ih3 _ k1
  rw [groupFold]
  refine ⟨_, fun g => ⟨kw, X g, o, Xs.map (· g)⟩, (l1.seq hg (l2.seq hg' (l3.seq hg3 l4))).at (by omega),
    ⟨?_, ?_⟩, ?_, ?_⟩
  · intro g hg
    refine ⟨hk, g1 g hg, ho, ?_⟩
    intro v hv
    obtain ⟨X, hX, rfl⟩ := List.mem_map.1 hv
    exact g1' g hg X hX
  · intro g; rw [tok_append, tok_append, tok_append, g2 g, g2' g, map_keep_tok]; rfl
  · intro k hk
    simp only [TableGroupBlock.ids, a2, a3, List.nil_append] at hk
    rcases List.mem_cons.1 hk with rfl | hk
    · exact ((g3 _ (by simp)).left).right
    · obtain ⟨v, hv, hk⟩ := List.mem_flatMap.1 hk
      obtain ⟨b, hb, e⟩ := List.mem_filterMap.1 hv
      cases b with
      | note n => cases e
      | item j =>
        cases e
        exact (g3' _ hb k hk).right.right.right
  · intro h0 g
    have e1 := congrArg TableGroupBlock.note h0
    have e2 := congrArg TableGroupBlock.settings h0
    simp only [Group.ast, TableGroupBlock.mapSpan] at e1 e2
    simp only [Group.ast, TableGroupBlock.mapSpan, TableGroupBlock.mapNames, gitems_item g4', gitems_note g4' g, g4 g, a2,
      a3, e2, e1, List.nil_append]

end Dbml
