import Verif.Proofs.Invert4

/-!
# From a successful run back to the tokens: columns, tables, documents
-/

namespace Dbml
open Syntax Source

theorem col_lay : GetsR G.table_col .table_col (Acc parseTableCol) Col.Ok Col.toks := by
  intro pos s c r ps h
  obtain ⟨kids, sp, rfl, hb⟩ := rule_ok h rfl
  refine ⟨_, rfl, rfl, ?_⟩
  rintro ⟨x, hx⟩
  obtain ⟨c1, r1, p1, pos', r2, c2, p2, h1, hg, h2, rfl⟩ := seq_ok' hb
  obtain ⟨p, rfl, hr, hi⟩ := ident_lay _ _ _ _ _ h1
  obtain ⟨n, hn, l1⟩ := hi trivial
  obtain ⟨c3, r3, p3, pos'', r4, c4, p4, h3, hg', h4, rfl⟩ := seq_ok' h2
  obtain ⟨q, rfl, hrq, hty⟩ := type_lay _ _ _ _ _ h3
  obtain ⟨t, ht, l2⟩ := hty (by
    obtain ⟨a, a', ha⟩ := foldlM_steps hx q (by simp)
    simp only [hrq] at ha
    obtain ⟨y, hy, -⟩ := Rs.bind_eq_ok.1 ha
    exact ⟨y, hy⟩)
  obtain ⟨o, ho, l3, -⟩ := opt_lay col_settings_lay h4 (by
    intro q hq hrq
    obtain ⟨a, a', ha⟩ := foldlM_steps hx q (by simp [hq])
    simp only [hrq] at ha
    obtain ⟨y, hy, -⟩ := Rs.bind_eq_ok.1 ha
    exact ⟨y, hy⟩)
  rw [optBrackets_elim] at l3
  exact ⟨⟨n, t, o⟩, ⟨hn, ht, ho⟩, l1.seq hg (l2.seq hg' l3)⟩

/-- The part of a table item that can be rejected. -/
def TItemAcc (p : Pair) : Prop :=
  (p.rule = .table_col → Acc parseTableCol p) ∧ (p.rule = .indexes_decl → Acc parseIndexesDecl p)

theorem titem_lay : Gets (.alt G.table_col (.alt G.note_decl G.indexes_decl)) TItemAcc TItem.Ok TItem.toks := by
  refine Gets.alt ?_ (Gets.alt ?_ ?_)
  · exact (col_lay.gets fun _ hr (h : TItemAcc _) => h.1 hr).map TItem.col (fun _ h => h) (fun _ => rfl)
  · exact (note_lay.gets fun _ _ _ => trivial).map TItem.note (fun _ h => h) (fun _ => rfl)
  · exact (indexes_lay.gets fun _ hr (h : TItemAcc _) => h.2 hr).map TItem.indexes (fun _ h => h) (fun _ => rfl)

theorem alias_lay : GetsR G.table_alias .table_alias (fun _ => True)
    (fun a : Alias => Keyword k!"as " a.kw ∧ a.name.Ok) (fun a => [{ txt := a.kw }, a.name.tok]) := by
  intro pos s c r ps h
  obtain ⟨kids, sp, rfl, hb⟩ := rule_ok h rfl
  refine ⟨_, rfl, rfl, fun _ => ?_⟩
  obtain ⟨c1, r1, p1, pos', r2, c2, p2, h1, hg, h2, rfl⟩ := seq_ok' hb
  obtain ⟨kw, hk, l1, rfl⟩ := lay_kw (k' := k!"as ") (by decide) (by simp) h1
  obtain ⟨p, rfl, hr, hi⟩ := ident_lay _ _ _ _ _ h2
  obtain ⟨n, hn, l2⟩ := hi trivial
  exact ⟨⟨kw, n⟩, ⟨hk, hn⟩, l1.seq hg l2⟩

theorem table_lay : GetsR G.table_decl .table_decl (Acc parseTableDecl) Source.Table.Ok Source.Table.toks := by
  intro pos s c r ps h
  obtain ⟨kids, sp, rfl, hb⟩ := rule_ok h rfl
  refine ⟨_, rfl, rfl, ?_⟩
  rintro ⟨x, hx⟩
  obtain ⟨c1, r1, p1, pos', r2, c2, p2, h1, hg, h2, rfl⟩ := seq_ok' hb
  obtain ⟨kw, hk, l1, rfl⟩ := lay_kw (k' := k!"table ") (by decide) (by simp) h1
  obtain ⟨c3, r3, p3, pos'', r4, c4, p4, h3, hg', h4, rfl⟩ := seq_ok' h2
  obtain ⟨p, rfl, hr, hi⟩ := decl_ident_lay _ _ _ _ _ h3
  obtain ⟨⟨sc, n⟩, ⟨hsc, hn⟩, l2⟩ := hi trivial
  obtain ⟨c5, r5, p5, pos3, r6, c6, p6, h5, hg3, h6, rfl⟩ := seq_ok' h4
  obtain ⟨oa, hoa, l3, -⟩ := opt_lay alias_lay h5 (fun _ _ _ => trivial)
  obtain ⟨c7, r7, p7, pos4, r8, c8, p8, h7, hg4, h8, rfl⟩ := seq_ok' h6
  obtain ⟨o, ho, l4, -⟩ := opt_lay block_settings_lay h7 (by
    intro q hq hrq
    obtain ⟨a, a', ha⟩ := foldlM_steps hx q (by simp [hq])
    simp only [hrq] at ha
    obtain ⟨y, hy, -⟩ := Rs.bind_eq_ok.1 ha
    exact ts_acc ⟨y, hy⟩)
  rw [optBrackets_elim] at l4
  obtain ⟨bkids, sp', rfl, hb'⟩ := rule_ok h8 rfl
  obtain ⟨is, his, l5⟩ := braced_lay titem_lay hb' (by
    intro q hq
    obtain ⟨a, a', ha⟩ := foldlM_steps hx (.mk .table_block sp' c8 bkids) (by simp)
    obtain ⟨b, b', hb⟩ := foldlM_steps ha q hq
    constructor <;> intro hqr <;> simp only [hqr] at hb <;>
      (obtain ⟨y, hy, -⟩ := Rs.bind_eq_ok.1 hb; exact ⟨y, hy⟩))
  refine ⟨⟨kw, sc, n, oa, o, is⟩, ⟨hk, hsc, hn, hoa, ho, his⟩,
    (l1.seq hg (l2.seq hg' (l3.seq hg3 (l4.seq hg4 l5)))).cast ?_⟩
  cases oa <;> rfl

/-! ## Documents -/

/-- The walker of a declaration accepts it. -/
def BlockAcc (p : Pair) : Prop :=
  (p.rule = .project_decl → Acc parseProjectDecl p) ∧ (p.rule = .table_decl → Acc parseTableDecl p) ∧
  (p.rule = .enum_decl → Acc parseEnumDecl p) ∧ (p.rule = .ref_decl → Acc parseRefDecl p) ∧
  (p.rule = .table_group_decl → Acc parseTableGroupDecl p)

theorem top_lay : Gets G.top_decl BlockAcc Block.Ok Block.toks := by
  refine Gets.alt ?_ (Gets.alt ?_ (Gets.alt ?_ (Gets.alt ?_ (Gets.alt ?_ ?_))))
  · exact (project_lay.gets fun _ hr (h : BlockAcc _) => h.1 hr).map Block.project (fun _ h => h) (fun _ => rfl)
  · exact (table_lay.gets fun _ hr (h : BlockAcc _) => h.2.1 hr).map Block.table (fun _ h => h) (fun _ => rfl)
  · exact (enum_lay.gets fun _ hr (h : BlockAcc _) => h.2.2.1 hr).map Block.enum (fun _ h => h) (fun _ => rfl)
  · exact (ref_lay.gets fun _ hr (h : BlockAcc _) => h.2.2.2.1 hr).map Block.ref (fun _ h => h) (fun _ => rfl)
  · exact (group_lay.gets fun _ hr (h : BlockAcc _) => h.2.2.2.2 hr).map Block.group (fun _ h => h) (fun _ => rfl)
  · exact (note_lay.gets fun _ _ (_ : BlockAcc _) => trivial).map Block.note (fun _ h => h) (fun _ => rfl)

/-- Every accepted text is a text of a well-formed document. -/
theorem read_is_written {txt : Str} {sb : SchemaBlock} (h : parseDbmlUnchecked txt = .ok sb) :
    ∃ d : Doc, d.Ok ∧ Written d.toks txt := by
  unfold parseDbmlUnchecked pestParse at h
  split at h <;> try contradiction
  rename_i c r pairs hp
  obtain ⟨kids, sp, rfl, hb⟩ := rule_ok hp rfl
  have hx : parseSchema (.mk .schema sp c kids) txt = .ok sb := h
  obtain ⟨c1, r1, p1, pos', r2, c2, p2, h1, hg, h2, rfl⟩ := seq_ok' hb
  have e1 : r1 = txt := by
    simp [run] at h1
    exact h1.2.1.symm
  subst e1
  obtain ⟨c3, r3, p3, pos'', r4, c4, p4, h3, hg', h4, rfl⟩ := seq_ok' h2
  have e4 : r4 = [] := by
    cases r4 with
    | nil => rfl
    | cons x xs => simp [run] at h4
  subst e4
  obtain ⟨d, hd, hl⟩ := star_lay top_lay h3 (by
    intro q hq
    obtain ⟨a, a', ha⟩ := foldlM_steps hx q (by simp [hq])
    refine ⟨?_, ?_, ?_, ?_, ?_⟩ <;> intro hqr <;> simp only [hqr] at ha <;>
      (obtain ⟨y, hy, -⟩ := Rs.bind_eq_ok.1 ha; exact ⟨y, hy⟩))
  have hnil : Wr [] ([] : Str) := ⟨.inl .nil, by simp⟩
  have := hg.wr (hl _ (hg'.wr hnil))
  exact ⟨d, hd, by simpa [Doc.toks] using this.1⟩

end Dbml
