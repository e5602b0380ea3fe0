import Verif.Proofs.Rename7

/-!
# Renaming: tables and documents
-/

namespace Dbml
open Syntax Source Spec

/-! ## Tables -/

/-- An optional alias. -/
theorem optAlias {pos s c r ps} (hr : run G.skip (.opt G.table_alias) .nonAtomic pos s = .ok c r ps) :
    (ps = [] ∨ ∃ p q, ps = [p] ∧ p.rule = .table_alias ∧ p.children = [q] ∧ q.rule = .ident) ∧
    ∀ n : Option Ident, ((ps = [] ∧ n = none) ∨ ∃ p q i, ps = [p] ∧ p.children = [q] ∧ q.rule = .ident ∧
      parseIdent q = .ok i ∧ n = some i) →
    ∃ ls X, LayP ls pos s (pos + blen c) r ∧
      Got (fun o : Option Alias => ∀ a, o = some a → Keyword k!"as " a.kw ∧ a.name.Ok)
        (fun o => o.elim [] fun a => [{ txt := a.kw }, a.name.tok]) Option.toList
        (fun X n => OIdentT (fun g => (X g).map (·.name)) n) ls X n := by
  rcases opt_ok hr with ⟨-, rfl, rfl, rfl⟩ | hr
  · refine ⟨.inl rfl, ?_⟩
    rintro n (⟨-, rfl⟩ | ⟨p, q, i, e, -⟩)
    · exact ⟨[], fun _ => none, LayD.nil, ⟨by simp, fun g => rfl⟩, by simp, fun g => rfl⟩
    · cases e
  · obtain ⟨p, rfl, ⟨h1, q, hq, hqr⟩, ih⟩ := alias_item _ _ _ _ _ hr
    refine ⟨.inr ⟨p, q, rfl, h1, hq, hqr⟩, ?_⟩
    rintro n (⟨e, -⟩ | ⟨p', q', i, e, hq', hqr', hi, rfl⟩)
    · cases e
    · cases e
      obtain ⟨ls, X, l, ⟨g1, g2⟩, g3, g4⟩ := ih i ⟨q', hq', hqr', hi⟩
      refine ⟨ls, fun g => some (X g), l, ⟨?_, g2⟩, ?_, ?_⟩
      · rintro g hg a ⟨⟩; exact g1 g hg
      · intro k hk; exact g3 k (by simpa using hk)
      · intro g
        have := g4 g
        simp only at this
        simp only [Option.map_some, this]

abbrev TableT : (Sp → Source.Table) → TableBlock → Prop :=
  CT Source.Table.ast (TableBlock.mapSpan noPos) TableBlock.mapNames

def TableBlock.ids (t : TableBlock) : List Ident :=
  (t.ident.schema.toList ++ [t.ident.name]) ++ (t.ident.alias.toList ++
    (t.cols.flatMap (·.ids) ++ t.indexes.toList.flatMap (·.ids)))

theorem tableT_of {kw} {o : Option (List Attr)} {X : Sp → Option Name × Name} {A : Sp → Option Alias}
    {Xs : List (Sp → TItem)} {bs : List TableItem} {t : TableBlock}
    (h1 : OIdentT (fun g => (X g).1) t.ident.schema) (h2 : IdentT (fun g => (X g).2) t.ident.name)
    (h3 : OIdentT (fun g => (A g).map (·.name)) t.ident.alias) (h4 : List.Forall₂ TItemT Xs bs)
    (h5 : t.cols = bs.filterMap TableItem.col?) (h6 : t.indexes = (bs.filterMap TableItem.indexes?).getLast?) :
    TableT (fun g => ⟨kw, (X g).1, (X g).2, A g, o, Xs.map (· g)⟩) t := by
  intro h0 g
  obtain ⟨Ys, c1, c2⟩ := titems_col h4
  obtain ⟨Zs, d1, d2⟩ := titems_indexes h4
  rw [← h5] at c1
  have e1 := congrArg TableBlock.cols h0
  have e2 := congrArg TableBlock.note h0
  have e3 := congrArg TableBlock.indexes h0
  have e4 := congrArg TableBlock.settings h0
  simp only [Source.Table.ast, TableBlock.mapSpan] at e1 e2 e3 e4
  rw [c2] at e1
  rw [d2, h6] at e3
  have f1 := h1 g
  have f2 := h2 g
  have f3 := h3 g
  simp only [Option.map_map] at f1 f2 f3
  simp only [Source.Table.ast, TableBlock.mapSpan, TableBlock.mapNames, TableIdent.mapSpan, c2 g, ct_map c1 e1 g,
    titems_note h4 g, e2, d2 g, ct_last d1 e3 g, e4, f1, f2, h6, Option.map_map]
  have f3' : (A g).map (fun x => x.name.ast) = Option.map ((fun x => Ident.mapSpan noPos x) ∘ ren g) t.ident.alias := by
    simpa [Function.comp_def] using f3
  rw [f3']

theorem table_laid : Item False G.table_decl False (fun p => p.rule = .table_decl)
    (fun p b => parseTableDecl p = .ok b) Source.Table.Ok Source.Table.toks TableBlock.ids TableT := by
  intro pos s c r ps h
  obtain ⟨kids, rfl, hb⟩ := rule_okP h rfl
  refine ⟨_, rfl, rfl, fun x hx => ?_⟩
  obtain ⟨c1, r1, p1, pos2, r2, c2, p2, h1, hg, h2, hp, rfl⟩ := seq_okP hb
  obtain ⟨kw, hk, l1, rfl⟩ := keep_kw (k' := k!"table ") (by decide) (by simp) h1
  obtain ⟨c3, r3, p3, pos3, r4, c4, p4, h3, hg', h4, hp', rfl⟩ := seq_okP h2
  obtain ⟨p, rfl, hr, ih⟩ := decl_ident_item _ _ _ _ _ h3
  obtain ⟨c5, r5, p5, pos4, r6, c6, p6, h5, hg3, h6, hp3, rfl⟩ := seq_okP h4
  obtain ⟨hal, iha⟩ := optAlias h5
  obtain ⟨c7, r7, p7, pos5, r8, c8, p8, h7, hg4, h8, hp4, rfl⟩ := seq_okP h6
  obtain ⟨hps, ih2⟩ := optSettings block_settings_lay h7
  obtain ⟨kids, rfl, hb'⟩ := rule_okP h8 rfl
  obtain ⟨hrs, ih3⟩ := braced_item titem_item hb'
  unfold parseTableDecl at hx
  simp only [Pair.children_mk, List.cons_append, List.nil_append, List.foldlM_cons, hr] at hx
  obtain ⟨y1, hy1, hx⟩ := Rs.bind_eq_ok.1 hx
  obtain ⟨⟨sc, nm⟩, hi, hy1⟩ := Rs.bind_eq_ok.1 hy1
  cases hy1
  rw [List.foldlM_append] at hx
  obtain ⟨y2, hy2, hx⟩ := Rs.bind_eq_ok.1 hx
  rw [List.foldlM_append] at hx
  obtain ⟨y3, hy3, hx⟩ := Rs.bind_eq_ok.1 hx
  simp only [List.foldlM_cons, Pair.rule_mk, Pair.children_mk] at hx
  obtain ⟨z, hz, hx⟩ := Rs.bind_eq_ok.1 hx
  cases hx
  obtain ⟨bs, k1, rfl⟩ := foldlM_inv (B := TItemW) (g := tableStep) (by
    intro q hq s s' hs
    rcases hrs q hq with hr | hr | hr <;> simp only [hr] at hs <;> obtain ⟨v, hv, hs⟩ := Rs.bind_eq_ok.1 hs <;> cases hs
    · exact ⟨.col v, ⟨hr, hv⟩, rfl⟩
    · exact ⟨.note v, ⟨hr, hv⟩, rfl⟩
    · exact ⟨.indexes v, ⟨hr, hv⟩, rfl⟩) hz
  have key2 : ∃ n : Option Ident, ((p5 = [] ∧ n = none) ∨ ∃ p q i, p5 = [p] ∧ p.children = [q] ∧ q.rule = .ident ∧
      parseIdent q = .ok i ∧ n = some i) ∧ y2.ident.schema = sc ∧ y2.ident.name = nm ∧ y2.ident.alias = n ∧
      y2.cols = [] ∧ y2.indexes = none := by
    rcases hal with rfl | ⟨w, q, rfl, hw, hq, hqr⟩
    · cases hy2
      exact ⟨none, .inl ⟨rfl, rfl⟩, rfl, rfl, rfl, rfl, rfl⟩
    · simp only [List.foldlM_cons, hw, hq, hqr] at hy2
      obtain ⟨u, hu, hy2⟩ := Rs.bind_eq_ok.1 hy2
      cases hy2
      obtain ⟨u, hu, hu'⟩ := Rs.bind_eq_ok.1 hu
      cases hu'
      obtain ⟨i, hi', hu⟩ := Rs.bind_eq_ok.1 hu
      cases hu
      exact ⟨some i, .inr ⟨w, q, i, rfl, hq, hqr, hi', rfl⟩, rfl, rfl, rfl, rfl, rfl⟩
  obtain ⟨n, hn, b1, b2, b3, b4, b5⟩ := key2
  have key3 : (∀ p ∈ p7, Acc parseAttrList p) ∧ y3.ident = y2.ident ∧ y3.cols = y2.cols ∧ y3.indexes = y2.indexes := by
    rcases hps with rfl | ⟨w, rfl, hw⟩
    · cases hy3
      exact ⟨by simp, rfl, rfl, rfl⟩
    · simp only [List.foldlM_cons, hw] at hy3
      obtain ⟨u, hu, hy3⟩ := Rs.bind_eq_ok.1 hy3
      obtain ⟨u', hu', hu⟩ := Rs.bind_eq_ok.1 hu
      cases hu
      cases hy3
      refine ⟨?_, rfl, rfl, rfl⟩
      intro p hp
      cases List.mem_singleton.1 hp
      exact ts_acc ⟨u', hu'⟩
  obtain ⟨a1, a2, a3, a4⟩ := key3
  obtain ⟨o, ho, l4⟩ := ih2 a1
  obtain ⟨lsa, A, l3, ⟨ga1, ga2⟩, ga3, ga4⟩ := iha n hn
  obtain ⟨ls, X, l2, ⟨g1, g2⟩, g3, g4⟩ := ih _ hi
  obtain ⟨ls', Xs, l5, g1', g2', g3', g4'⟩ := ih3 _ k1
  rw [tableFold]
  refine ⟨_, fun g => ⟨kw, (X g).1, (X g).2, A g, o, Xs.map (· g)⟩,
    (l1.seq hg (l2.seq hg' (l3.seq hg3 (l4.seq hg4 l5)))).at (by omega), ⟨?_, ?_⟩, ?_, ?_⟩
  · intro g hg
    refine ⟨hk, (g1 g hg).1, (g1 g hg).2, ga1 g hg, ho, ?_⟩
    intro v hv
    obtain ⟨X, hX, rfl⟩ := List.mem_map.1 hv
    exact g1' g hg X hX
  · intro g
    rw [tok_append, tok_append, tok_append, tok_append, g2 g, ga2 g, g2' g, map_keep_tok]
    simp only [Source.Table.toks, Source.Table.aliasToks]
    cases A g <;> rfl
  · intro k hk
    simp only [TableBlock.ids, a2, a3, a4, b1, b2, b3, b4, b5, List.nil_append, Option.or_none] at hk
    rcases List.mem_append.1 hk with hk | hk
    · exact ((g3 k hk).left).right
    rcases List.mem_append.1 hk with hk | hk
    · exact ((ga3 k hk).left).right.right
    rcases List.mem_append.1 hk with hk | hk
    · obtain ⟨v, hv, hk⟩ := List.mem_flatMap.1 hk
      obtain ⟨b, hb, e⟩ := List.mem_filterMap.1 hv
      cases b with
      | note n => cases e
      | indexes n => cases e
      | col j =>
        cases e
        exact (g3' _ hb k hk).right.right.right.right
    · obtain ⟨v, hv, hk⟩ := List.mem_flatMap.1 hk
      obtain ⟨b, hb, e⟩ := List.mem_filterMap.1 (List.mem_of_getLast? (Option.mem_toList.1 hv))
      cases b with
      | note n => cases e
      | col n => cases e
      | indexes j =>
        cases e
        exact (g3' _ hb k hk).right.right.right.right
  · refine tableT_of ?_ ?_ ?_ g4' ?_ ?_
    · simp only [a2, b1]; exact g4.1
    · simp only [a2, b2]; exact g4.2
    · simp only [a2, b3]; exact ga4
    · simp only [a3, b4, List.nil_append]
    · simp only [a4, b5, Option.or_none]

/-! ## Documents -/

def BlockW (p : Pair) : TopLevelBlock → Prop
  | .project b => p.rule = .project_decl ∧ parseProjectDecl p = .ok b
  | .table b => p.rule = .table_decl ∧ parseTableDecl p = .ok b
  | .enum b => p.rule = .enum_decl ∧ parseEnumDecl p = .ok b
  | .ref b => p.rule = .ref_decl ∧ parseRefDecl p = .ok b
  | .tableGroup b => p.rule = .table_group_decl ∧ parseTableGroupDecl p = .ok b
  | .note b => p.rule = .note_decl ∧ parseNoteDecl p = .ok b

def TopLevelBlock.ids : TopLevelBlock → List Ident
  | .project b => [b.ident]
  | .table b => b.ids
  | .enum b => b.ids
  | .ref b => b.ids
  | .tableGroup b => b.ids
  | .note _ => []

abbrev BlockT : (Sp → Block) → TopLevelBlock → Prop :=
  CT Block.ast (TopLevelBlock.mapSpan noPos) TopLevelBlock.mapNames

def BlockRule (p : Pair) : Prop := p.rule = .project_decl ∨ p.rule = .table_decl ∨ p.rule = .enum_decl ∨
  p.rule = .ref_decl ∨ p.rule = .table_group_decl ∨ p.rule = .note_decl

theorem top_item : Item False G.top_decl False BlockRule BlockW Block.Ok Block.toks TopLevelBlock.ids BlockT := by
  refine Item.alt ?_ (Item.alt ?_ (Item.alt ?_ (Item.alt ?_ (Item.alt ?_ ?_))))
  · intro pos s c r ps h
    obtain ⟨p, rfl, hr, ih⟩ := project_item _ _ _ _ _ h
    refine ⟨p, rfl, .inl hr, fun b hb => ?_⟩
    cases b with
    | project x =>
      obtain ⟨ls, X, l, ⟨g1, g2⟩, g3, g4⟩ := ih x hb.2
      refine ⟨ls, fun g => .project (X g), l, ⟨g1, g2⟩, g3, fun h0 g => ?_⟩
      exact congrArg TopLevelBlock.project (g4 (TopLevelBlock.project.inj h0) g)
    | _ => exact absurd (hr.symm.trans hb.1) (by decide)
  · intro pos s c r ps h
    obtain ⟨p, rfl, hr, ih⟩ := table_laid _ _ _ _ _ h
    refine ⟨p, rfl, .inr (.inl hr), fun b hb => ?_⟩
    cases b with
    | table x =>
      obtain ⟨ls, X, l, ⟨g1, g2⟩, g3, g4⟩ := ih x hb.2
      refine ⟨ls, fun g => .table (X g), l, ⟨g1, g2⟩, g3, fun h0 g => ?_⟩
      exact congrArg TopLevelBlock.table (g4 (TopLevelBlock.table.inj h0) g)
    | _ => exact absurd (hr.symm.trans hb.1) (by decide)
  · intro pos s c r ps h
    obtain ⟨p, rfl, hr, ih⟩ := enum_item _ _ _ _ _ h
    refine ⟨p, rfl, .inr (.inr (.inl hr)), fun b hb => ?_⟩
    cases b with
    | enum x =>
      obtain ⟨ls, X, l, ⟨g1, g2⟩, g3, g4⟩ := ih x hb.2
      refine ⟨ls, fun g => .enum (X g), l, ⟨g1, g2⟩, g3, fun h0 g => ?_⟩
      exact congrArg TopLevelBlock.enum (g4 (TopLevelBlock.enum.inj h0) g)
    | _ => exact absurd (hr.symm.trans hb.1) (by decide)
  · intro pos s c r ps h
    obtain ⟨p, rfl, hr, ih⟩ := ref_item _ _ _ _ _ h
    refine ⟨p, rfl, .inr (.inr (.inr (.inl hr))), fun b hb => ?_⟩
    cases b with
    | ref x =>
      obtain ⟨ls, X, l, ⟨g1, g2⟩, g3, g4⟩ := ih x hb.2
      refine ⟨ls, fun g => .ref (X g), l, ⟨g1, g2⟩, g3, fun h0 g => ?_⟩
      exact congrArg TopLevelBlock.ref (g4 (TopLevelBlock.ref.inj h0) g)
    | _ => exact absurd (hr.symm.trans hb.1) (by decide)
  · intro pos s c r ps h
    obtain ⟨p, rfl, hr, ih⟩ := group_item _ _ _ _ _ h
    refine ⟨p, rfl, .inr (.inr (.inr (.inr (.inl hr)))), fun b hb => ?_⟩
    cases b with
    | tableGroup x =>
      obtain ⟨ls, X, l, ⟨g1, g2⟩, g3, g4⟩ := ih x hb.2
      refine ⟨ls, fun g => .group (X g), l, ⟨g1, g2⟩, g3, fun h0 g => ?_⟩
      exact congrArg TopLevelBlock.tableGroup (g4 (TopLevelBlock.tableGroup.inj h0) g)
    | _ => exact absurd (hr.symm.trans hb.1) (by decide)
  · intro pos s c r ps h
    obtain ⟨p, rfl, hr, ih⟩ := note_item _ _ _ _ _ h
    refine ⟨p, rfl, .inr (.inr (.inr (.inr (.inr hr)))), fun b hb => ?_⟩
    cases b with
    | note x =>
      obtain ⟨ls, X, l, ⟨g1, g2⟩, g3, m, rfl⟩ := ih x hb.2
      exact ⟨ls, fun g => .note m, l, ⟨g1, g2⟩, g3, fun h0 g => h0⟩
    | _ => exact absurd (hr.symm.trans hb.1) (by decide)

/-- What the whole document looks like, with its names located. -/
theorem doc_located {txt : Str} {sb : SchemaBlock} (h : parseDbmlUnchecked txt = .ok sb) :
    ∃ ls, ∃ Xs : List (Sp → Block), WrP False ls 0 txt ∧ GotL Block.Ok Doc.toks TopLevelBlock.ids BlockT ls Xs sb.blocks := by
  unfold parseDbmlUnchecked pestParse at h
  split at h <;> try contradiction
  rename_i c r pairs hp
  obtain ⟨kids, rfl, hb⟩ := rule_okP hp rfl
  have hx : parseSchema (.mk .schema ⟨0, 0 + blen c⟩ c kids) txt = .ok sb := h
  obtain ⟨c1, r1, p1, pos2, r2, c2, p2, h1, hg, h2, -, rfl⟩ := seq_okP hb
  have e1 : r1 = txt ∧ c1 = [] ∧ p1 = [] := by
    simp [run] at h1
    exact ⟨h1.2.1.symm, h1.1, h1.2.2⟩
  obtain ⟨rfl, rfl, rfl⟩ := e1
  obtain ⟨c3, r3, p3, pos3, r4, c4, p4, h3, hg', h4, -, rfl⟩ := seq_okP h2
  have e4 : r4 = [] ∧ ∃ p, p4 = [p] ∧ p.rule = .EOI := by
    cases r4 with
    | nil =>
      simp [run] at h4
      exact ⟨rfl, _, h4.2.2.symm, rfl⟩
    | cons x xs => simp [run] at h4
  obtain ⟨rfl, pe, rfl, he⟩ := e4
  obtain ⟨hrs, ih⟩ := star_item top_item h3
  unfold parseSchema at hx
  rw [Pair.children_mk, List.nil_append, List.foldlM_append] at hx
  obtain ⟨y, hy, hx⟩ := Rs.bind_eq_ok.1 hx
  simp only [List.foldlM_cons, he] at hx
  obtain ⟨z, hz, hx⟩ := Rs.bind_eq_ok.1 hx
  cases hx
  cases hz
  obtain ⟨bs, k1, rfl⟩ := foldlM_inv (B := BlockW) (g := fun (s : SchemaBlock) b => { s with blocks := s.blocks ++ [b] }) (by
    intro q hq s s' hs
    rcases hrs q hq with hr | hr | hr | hr | hr | hr <;> simp only [hr] at hs <;>
      obtain ⟨v, hv, hs⟩ := Rs.bind_eq_ok.1 hs <;> cases hs
    · exact ⟨.project v, ⟨hr, hv⟩, rfl⟩
    · exact ⟨.table v, ⟨hr, hv⟩, rfl⟩
    · exact ⟨.enum v, ⟨hr, hv⟩, rfl⟩
    · exact ⟨.ref v, ⟨hr, hv⟩, rfl⟩
    · exact ⟨.tableGroup v, ⟨hr, hv⟩, rfl⟩
    · exact ⟨.note v, ⟨hr, hv⟩, rfl⟩) hy
  have e : ∀ (cs : List TopLevelBlock) (s : SchemaBlock),
      (cs.foldl (fun (s : SchemaBlock) b => { s with blocks := s.blocks ++ [b] }) s).blocks = s.blocks ++ cs := by
    intro cs
    induction cs with
    | nil => simp
    | cons c cs ih => intro s; rw [List.foldl_cons, ih]; simp
  rw [e, List.nil_append]
  obtain ⟨ls, Xs, l, hgot⟩ := ih _ k1
  refine ⟨ls, Xs, ?_, hgot⟩
  have hnil : WrP False [] pos3 ([] : Str) := .inl .nil
  have := hg.wr (l _ (hg'.wr hnil))
  simpa using this

end Dbml
