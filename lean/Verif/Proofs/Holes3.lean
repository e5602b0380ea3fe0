import Verif.Proofs.Holes2

/-!
# Members of a declaration: tables, enums, groups, documents
-/

namespace Dbml
open Syntax Source Spec Props

theorem table_places : Places G.table_decl (Acc parseTableDecl)
    (fun q r p => ∃ x : Source.Table, Lay x.toks (q.txt ++ r) r ∧
      (p.span = q.span ∧ p.rule = .table_decl ∧ x.Ok ∧ TableHoles q r p x)) := by
  intro pos s c r ps h
  obtain ⟨kids, rfl, hb⟩ := rule_okA h rfl
  refine ⟨_, rfl, ?_⟩
  rintro ⟨x, hx⟩
  have hs := run_split h
  subst hs
  obtain ⟨c1, r1, p1, pos', r2, c2, p2, h1, hg, ha1, h2, rfl⟩ := seq_okA hb
  obtain ⟨kw, hk, l1, rfl⟩ := lay_kw (k' := k!"table ") (by decide) (by simp) h1
  obtain ⟨c3, r3, p3, pos'', r4, c4, p4, h3, hg', ha2, h4, rfl⟩ := seq_okA h2
  obtain ⟨pd, rfl, hr, hi⟩ := decl_ident_lay _ _ _ _ _ h3
  obtain ⟨⟨sc, n⟩, ⟨hsc, hn⟩, l2⟩ := hi trivial
  obtain ⟨c5, r5, p5, pos3, r6, c6, p6, h5, hg3, ha3, h6, rfl⟩ := seq_okA h4
  obtain ⟨oa, hoa, l3, hp5⟩ := opt_lay alias_lay h5 (fun _ _ _ => trivial)
  obtain ⟨c7, r7, p7, pos4, r8, c8, p8, h7, hg4, ha4, h8, rfl⟩ := seq_okA h6
  obtain ⟨o, ho, l4, hp7⟩ := opt_lay block_settings_lay h7 (by
    intro q hq hrq
    obtain ⟨a, a', ha⟩ := foldlM_steps hx q (by simp [hq])
    simp only [hrq] at ha
    obtain ⟨y, hy, -⟩ := Rs.bind_eq_ok.1 ha
    exact ts_acc ⟨y, hy⟩)
  rw [optBrackets_elim] at l4
  obtain ⟨bkids, sp', rfl, hb'⟩ := rule_ok h8 rfl
  have hx' := hx
  rw [parseTableDecl, Pair.children_mk] at hx'
  have e : ([] ++ ([pd] ++ (p5 ++ (p7 ++ [Pair.mk .table_block sp' c8 bkids]))) : List Pair) =
    ([pd] ++ (p5 ++ p7)) ++ [Pair.mk .table_block sp' c8 bkids] := by simp
  rw [e, List.foldlM_append] at hx'
  obtain ⟨t0, ht0, hx1⟩ := Rs.bind_eq_ok.1 hx'
  have hkeep : t0.cols = [] ∧ t0.indexes = none := by
    have := foldlM_keep (sel := fun t : TableBlock => (t.cols, t.indexes)) ?_ ht0
    · simpa using this
    · intro q hq t t' ht
      have hqr : q.rule = .decl_ident ∨ q.rule = .table_alias ∨ q.rule = .block_settings := by
        simp only [List.mem_append, List.mem_singleton] at hq
        rcases hq with rfl | hq | hq
        · exact .inl hr
        · exact .inr (.inl (hp5 q hq))
        · exact .inr (.inr (hp7 q hq))
      rcases hqr with hqr | hqr | hqr
      · simp only [hqr] at ht
        obtain ⟨⟨a, b⟩, -, ht⟩ := Rs.bind_eq_ok.1 ht; cases ht; rfl
      · simp only [hqr] at ht
        refine foldlM_keep (sel := fun t : TableBlock => (t.cols, t.indexes)) ?_ ht
        intro q _ t t' ht
        split at ht
        · obtain ⟨b, -, ht⟩ := Rs.bind_eq_ok.1 ht; cases ht; rfl
        · simp [throwRules] at ht
      · simp only [hqr] at ht
        obtain ⟨b, -, ht⟩ := Rs.bind_eq_ok.1 ht; cases ht; rfl
  have hfold : bkids.foldlM tableItemStep t0 = .ok x := by
    rw [List.foldlM_cons] at hx1
    obtain ⟨y, hy, hx1⟩ := Rs.bind_eq_ok.1 hx1
    cases hx1
    exact hy
  obtain ⟨ys, pos5, s1, s2, rfl, ha5, l5, hse, l6⟩ := braced_seats titem_places hb' (by
    intro q hq
    obtain ⟨b, b', hb⟩ := foldlM_steps hfold q hq
    unfold tableItemStep at hb
    constructor <;> intro hqr <;> simp only [hqr] at hb <;>
      (obtain ⟨y, hy, -⟩ := Rs.bind_eq_ok.1 hb; exact ⟨y, hy⟩))
  let T : Source.Table := ⟨kw, sc, n, oa, o, ys.map (·.2)⟩
  have hok : T.Ok := by
    refine ⟨hk, hsc, hn, hoa, ho, ?_⟩
    intro d hd
    obtain ⟨y, hy, rfl⟩ := List.mem_map.1 hd
    obtain ⟨q, r', -, h, -⟩ := hse.all y hy
    exact h
  have lh : Lay T.head (c ++ r) s1 := by
    refine (l1.seq hg (l2.seq hg' (l3.seq hg3 (l4.seq hg4 l5)))).cast ?_
    cases oa <;> rfl
  have har : Rem pos (c ++ r) pos5 s1 := ha1.trans (ha2.trans (ha3.trans (ha4.trans ha5)))
  have hl : Lay T.toks (c ++ r) r := by
    rw [T.toks_eq]
    exact lh.trans (hse.lay.trans l6)
  refine ⟨lay_ne (breaks_block (.table T)) (block_toks_ne (.table T)) hl, T, hl, rfl, rfl, hok, ?_⟩
  intro t ht
  have : t = x := by
    have := ht.symm.trans hx
    cases this; rfl
  subst this
  refine ⟨?_, ?_⟩
  · intro cs1 cc cs2 hcs
    obtain ⟨y1, p, z, y2, rfl, e1, hm, hp⟩ := seats_pick (isM := fun p => decide (p.rule = .table_col))
      (sel := TableBlock.cols) (get := fun p d => parseTableCol p = .ok d) (by
        intro s p s' hs
        unfold tableItemStep at hs
        split at hs
        · rename_i hr
          obtain ⟨y, hy, hs⟩ := Rs.bind_eq_ok.1 hs; cases hs; exact .inr ⟨by simp [hr], y, hy, rfl⟩
        · rename_i hr
          obtain ⟨y, hy, hs⟩ := Rs.bind_eq_ok.1 hs; cases hs; exact .inl ⟨by simp [hr], rfl⟩
        · rename_i hr
          obtain ⟨y, hy, hs⟩ := Rs.bind_eq_ok.1 hs; cases hs; exact .inl ⟨by simp [hr], rfl⟩
        · simp [throwRules] at hs) hfold hkeep.1 hcs
    have hm : p.rule = .table_col := by simpa using hm
    obtain ⟨q0, r0, hq0⟩ := hse.all (p, z) (by simp)
    cases z with
    | note n => have := hq0.2.2; simp [hm] at this
    | indexes n => have := hq0.2.2.1; simp [hm] at this
    | col C =>
      have hh := hse.hole (fun _ _ _ _ h => h.1) rfl
      rw [← col_span hp] at hh
      refine ⟨y1.map (·.2), C, y2.map (·.2), by simp [T], ?_, ?_⟩
      · rw [← e1]
        have : ∀ y ∈ y1, ∃ q r', TItemSeat q r' y.1 y.2 := fun y hy => hse.all y (by simp [hy])
        clear * - this
        induction y1 with
        | nil => rfl
        | cons y y1 ih =>
          have ih := ih fun z hz => this z (by simp [hz])
          obtain ⟨q, r', -, -, h⟩ := this y (by simp)
          obtain ⟨p, z⟩ := y
          cases z with
          | col C => simp at h; simpa [TItem.col?, h] using ih
          | note C => simp at h; simpa [TItem.col?, h] using ih
          | indexes C => simp at h; simpa [TItem.col?, h.1] using ih
      · exact (hh.post l6).pre har lh
  · intro ib ds1 d ds2 hib hds
    have hl := fold_last (isM := fun p => decide (p.rule = .indexes_decl)) (sel := TableBlock.indexes)
      (get := fun p d => parseIndexesDecl p = .ok d) (by
        intro s p s' hs
        unfold tableItemStep at hs
        split at hs
        · rename_i hr
          obtain ⟨y, hy, hs⟩ := Rs.bind_eq_ok.1 hs; cases hs; exact .inl ⟨by simp [hr], rfl⟩
        · rename_i hr
          obtain ⟨y, hy, hs⟩ := Rs.bind_eq_ok.1 hs; cases hs; exact .inl ⟨by simp [hr], rfl⟩
        · rename_i hr
          obtain ⟨y, hy, hs⟩ := Rs.bind_eq_ok.1 hs; cases hs; exact .inr ⟨by simp [hr], y, hy, rfl⟩
        · simp [throwRules] at hs) hfold
    rcases hl with ⟨e, -⟩ | ⟨m1, p, m2, ib', e, hm, hp, e2, hno⟩
    · rw [hib, hkeep.2] at e; simp at e
    · rw [hib] at e2
      cases e2
      have hm : p.rule = .indexes_decl := by simpa using hm
      rw [List.map_eq_append_iff] at e
      obtain ⟨y1, f2, rfl, rfl, e5⟩ := e
      rw [List.map_eq_cons_iff] at e5
      obtain ⟨⟨p', z⟩, y2, rfl, rfl, rfl⟩ := e5
      obtain ⟨q, cc, r1, har', hq0, l7, l8, l9⟩ := hse.split rfl
      cases z with
      | note n => have := hq0.2.2; simp [hm] at this
      | col n => have := hq0.2.2; simp [hm] at this
      | indexes I =>
        obtain ⟨e1, D, e2, g1, g2, g3⟩ := hq0.2.2.2 _ hp _ _ _ hds
        refine ⟨y1.map (·.2), I, y2.map (·.2), e1, D, e2, by simp [T], ?_, g1, g2, ?_⟩
        · have : ∀ y ∈ y2, ∃ q r', TItemSeat q r' y.1 y.2 := fun y hy => hse.all y (by simp [hy])
          clear * - this hno
          induction y2 with
          | nil => rfl
          | cons y y2 ih =>
            have ih := ih (fun q hq => hno q (by simp only [List.map_cons, List.mem_cons]; exact .inr hq))
              fun z hz => this z (by simp [hz])
            have hno := hno y.1 (by simp)
            obtain ⟨q, r', -, -, h⟩ := this y (by simp)
            obtain ⟨p, z⟩ := y
            cases z with
            | col C => simpa [TItem.indexes?] using ih
            | note C => simpa [TItem.indexes?] using ih
            | indexes C => simp at h hno; exact absurd h.1 hno
        · refine ((((g3.post l9).pre har' l7).post l6).pre har lh).cast ?_ ?_ <;> simp [seatToks]

/-! ## Enums -/

/-- The tokens of an enum before its body. -/
def Source.Enum.head (e : Source.Enum) : List Tok := { txt := e.kw } :: (qualToks e.schema e.name ++ [lbrace])

theorem Source.Enum.toks_eq (e : Source.Enum) : e.toks = e.head ++ (e.values.flatMap (·.toks) ++ [rbrace]) := by
  simp [Source.Enum.toks, Source.Enum.head]

/-- The values of an enum stand in it. -/
def EnumHoles (q : Piece) (r : Str) (p : Pair) (E : Source.Enum) : Prop :=
  ∀ e, parseEnumDecl p = .ok e → ∀ vs1 v vs2, e.values = vs1 ++ v :: vs2 →
    ∃ w1 V w2, E.values = w1 ++ V :: w2 ∧ w1.length = vs1.length ∧
      Hole q.pos (q.txt ++ r) r v.span_range (E.head ++ w1.flatMap (·.toks)) V.toks (w2.flatMap (·.toks) ++ [rbrace])

theorem enum_places : Places G.enum_decl (Acc parseEnumDecl)
    (fun q r p => ∃ x : Source.Enum, Lay x.toks (q.txt ++ r) r ∧
      (p.span = q.span ∧ p.rule = .enum_decl ∧ x.Ok ∧ EnumHoles q r p x)) := by
  intro pos s c r ps h
  obtain ⟨kids, rfl, hb⟩ := rule_okA h rfl
  refine ⟨_, rfl, ?_⟩
  rintro ⟨x, hx⟩
  have hs := run_split h
  subst hs
  obtain ⟨c1, r1, p1, pos', r2, c2, p2, h1, hg, ha1, h2, rfl⟩ := seq_okA hb
  obtain ⟨kw, hk, l1, rfl⟩ := lay_kw (k' := k!"enum ") (by decide) (by simp) h1
  obtain ⟨c3, r3, p3, pos'', r4, c4, p4, h3, hg', ha2, h4, rfl⟩ := seq_okA h2
  obtain ⟨pd, rfl, hr, hi⟩ := decl_ident_lay _ _ _ _ _ h3
  obtain ⟨⟨sc, n⟩, ⟨hsc, hn⟩, l2⟩ := hi trivial
  obtain ⟨bkids, sp', rfl, hb'⟩ := rule_ok h4 rfl
  have hx' := hx
  rw [parseEnumDecl, Pair.children_mk] at hx'
  have e : ([] ++ ([pd] ++ [Pair.mk .enum_block sp' c4 bkids]) : List Pair) =
    [pd] ++ [Pair.mk .enum_block sp' c4 bkids] := by simp
  rw [e, List.foldlM_append] at hx'
  obtain ⟨t0, -, hx1⟩ := Rs.bind_eq_ok.1 hx'
  have hmap : parseEnumBlock (.mk .enum_block sp' c4 bkids) = .ok x.values := by
    rw [List.foldlM_cons] at hx1
    obtain ⟨y, hy, hx1⟩ := Rs.bind_eq_ok.1 hx1
    cases hx1
    simp only [Pair.rule_mk] at hy
    obtain ⟨vs, hv, hy⟩ := Rs.bind_eq_ok.1 hy
    cases hy
    exact hv
  have hacc : List.Forall₂ (fun p v => p.rule = .enum_value ∧ parseEnumValue p = .ok v) bkids x.values := by
    have : ∀ {l : List Pair} {vs : List EnumValue}, (l.mapM fun p1 : Pair =>
        match p1.rule with
        | .enum_value => parseEnumValue p1
        | _ => throwRules [.enum_value] p1) = .ok vs →
        List.Forall₂ (fun p v => p.rule = .enum_value ∧ parseEnumValue p = .ok v) l vs := by
      intro l
      induction l with
      | nil => intro vs h; cases h; exact .nil
      | cons p l ih =>
        intro vs h
        rw [List.mapM_cons] at h
        obtain ⟨b, h1, h2⟩ := Rs.bind_eq_ok.1 h
        obtain ⟨bs, h3, h4⟩ := Rs.bind_eq_ok.1 h2
        cases h4
        refine .cons ?_ (ih h3)
        split at h1
        · rename_i hr; exact ⟨hr, h1⟩
        · simp [throwRules] at h1
    exact this hmap
  obtain ⟨ys, pos5, s1, s2, rfl, ha5, l5, hse, l6⟩ := braced_seats
    (place_of eval_lay rfl breaks_eval (by simp [EVal.toks])) hb' (by
    intro q hq
    obtain ⟨b, hb⟩ := mapM_steps hmap q hq
    split at hb
    · exact ⟨b, hb⟩
    · simp [throwRules] at hb)
  let E : Source.Enum := ⟨kw, sc, n, ys.map (·.2)⟩
  have hok : E.Ok := by
    refine ⟨hk, hsc, hn, ?_⟩
    intro d hd
    obtain ⟨y, hy, rfl⟩ := List.mem_map.1 hd
    obtain ⟨q, r', -, -, h⟩ := hse.all y hy
    exact h
  have lh : Lay E.head (c ++ r) s1 := l1.seq hg (l2.seq hg' l5)
  have har : Rem pos (c ++ r) pos5 s1 := ha1.trans (ha2.trans ha5)
  have hl : Lay E.toks (c ++ r) r := by
    rw [E.toks_eq]
    exact lh.trans (hse.lay.trans l6)
  refine ⟨lay_ne (breaks_block (.enum E)) (block_toks_ne (.enum E)) hl, E, hl, rfl, rfl, hok, ?_⟩
  intro t ht
  have : t = x := by
    have := ht.symm.trans hx
    cases this; rfl
  subst this
  intro vs1 v vs2 hvs
  rw [hvs] at hacc
  obtain ⟨m1, p, m2, e, e1, hpr, hp⟩ := forall₂_split hacc
  rw [List.map_eq_append_iff] at e
  obtain ⟨y1, f2, rfl, rfl, e5⟩ := e
  rw [List.map_eq_cons_iff] at e5
  obtain ⟨⟨p', z⟩, y2, rfl, rfl, rfl⟩ := e5
  have hh := hse.hole (fun _ _ _ _ h => h.1) rfl
  rw [← eval_span hp] at hh
  refine ⟨y1.map (·.2), z, y2.map (·.2), by simp [E], by simpa using e1, ?_⟩
  exact (hh.post l6).pre har lh

/-! ## Groups -/

/-- The tokens of a group before its body. -/
def Source.Group.head (g : Source.Group) : List Tok :=
  { txt := g.kw } :: g.name.tok :: (optBrackets Attr.toks g.settings ++ [lbrace])

theorem Source.Group.toks_eq (g : Source.Group) : g.toks = g.head ++ (g.items.flatMap (·.toks) ++ [rbrace]) := by
  simp [Source.Group.toks, Source.Group.head]

/-- The items of a group stand in it. -/
def GroupHoles (q : Piece) (r : Str) (p : Pair) (Gr : Source.Group) : Prop :=
  ∀ g, parseTableGroupDecl p = .ok g → ∀ is1 i is2, g.items = is1 ++ i :: is2 →
    ∃ j1 sc n j2, Gr.items = j1 ++ .item sc n :: j2 ∧ (j1.filterMap (·.item?)).length = is1.length ∧
      Hole q.pos (q.txt ++ r) r i.span_range (Gr.head ++ j1.flatMap (·.toks)) (qualToks sc n)
        (j2.flatMap (·.toks) ++ [rbrace])

/-- What is known of an item of a group. -/
def GItemSeat (q : Piece) (_ : Str) (p : Pair) (x : GItem) : Prop :=
  p.span = q.span ∧ x.Ok ∧
  match x with
  | .item _ _ => p.rule = .decl_ident
  | .note _ => p.rule = .note_decl

theorem gitem_places : Places (.alt G.note_decl G.decl_ident) (fun _ => True)
    (fun q r p => ∃ x : GItem, Lay x.toks (q.txt ++ r) r ∧ GItemSeat q r p x) := by
  refine .alt ?_ ?_
  · intro pos s c r ps h
    obtain ⟨p, rfl, hp⟩ := place_of note_lay rfl breaks_note note_toks_ne _ _ _ _ _ h
    refine ⟨p, rfl, fun hw => ?_⟩
    obtain ⟨h1, x, h2, h3, h4, h5⟩ := hp trivial
    exact ⟨h1, .note x, h2, h3, h5, h4⟩
  · intro pos s c r ps h
    obtain ⟨p, rfl, hp⟩ := place_of decl_ident_lay rfl (fun x => breaks_qual _ _) (fun x => qual_toks_ne _ _) _ _ _ _ _ h
    refine ⟨p, rfl, fun hw => ?_⟩
    obtain ⟨h1, ⟨sc, n⟩, h2, h3, h4, h5⟩ := hp trivial
    exact ⟨h1, .item sc n, h2, h3, h5, h4⟩

theorem group_places : Places G.table_group_decl (Acc parseTableGroupDecl)
    (fun q r p => ∃ x : Source.Group, Lay x.toks (q.txt ++ r) r ∧
      (p.span = q.span ∧ p.rule = .table_group_decl ∧ x.Ok ∧ GroupHoles q r p x)) := by
  intro pos s c r ps h
  obtain ⟨kids, rfl, hb⟩ := rule_okA h rfl
  refine ⟨_, rfl, ?_⟩
  rintro ⟨x, hx⟩
  have hs := run_split h
  subst hs
  obtain ⟨c1, r1, p1, pos', r2, c2, p2, h1, hg, ha1, h2, rfl⟩ := seq_okA hb
  obtain ⟨kw, hk, l1, rfl⟩ := lay_kw (k' := k!"tablegroup ") (by decide) (by simp) h1
  obtain ⟨c3, r3, p3, pos'', r4, c4, p4, h3, hg', ha2, h4, rfl⟩ := seq_okA h2
  obtain ⟨pd, rfl, hr, hi⟩ := ident_lay _ _ _ _ _ h3
  obtain ⟨n, hn, l2⟩ := hi trivial
  obtain ⟨c5, r5, p5, pos3, r6, c6, p6, h5, hg3, ha3, h6, rfl⟩ := seq_okA h4
  obtain ⟨o, ho, l3, hp5⟩ := opt_lay block_settings_lay h5 (by
    intro q hq hrq
    obtain ⟨a, a', ha⟩ := foldlM_steps hx q (by simp [hq])
    simp only [hrq] at ha
    obtain ⟨y, hy, -⟩ := Rs.bind_eq_ok.1 ha
    exact tgs_acc ⟨y, hy⟩)
  rw [optBrackets_elim] at l3
  obtain ⟨bkids, sp', rfl, hb'⟩ := rule_ok h6 rfl
  have hx' := hx
  rw [parseTableGroupDecl, Pair.children_mk] at hx'
  have e : ([] ++ ([pd] ++ (p5 ++ [Pair.mk .table_group_block sp' c6 bkids])) : List Pair) =
    ([pd] ++ p5) ++ [Pair.mk .table_group_block sp' c6 bkids] := by simp
  rw [e, List.foldlM_append] at hx'
  obtain ⟨t0, ht0, hx1⟩ := Rs.bind_eq_ok.1 hx'
  have hkeep : t0.items = [] := by
    refine foldlM_keep (sel := fun t : TableGroupBlock => t.items) ?_ ht0
    intro q hq t t' ht
    have hqr : q.rule = .ident ∨ q.rule = .block_settings := by
      simp only [List.mem_append, List.mem_singleton] at hq
      rcases hq with rfl | hq
      · exact .inl hr
      · exact .inr (hp5 q hq)
    rcases hqr with hqr | hqr
    · simp only [hqr] at ht
      obtain ⟨b, -, ht⟩ := Rs.bind_eq_ok.1 ht; cases ht; rfl
    · simp only [hqr] at ht
      obtain ⟨b, -, ht⟩ := Rs.bind_eq_ok.1 ht; cases ht; rfl
  have hfold := hx1
  rw [List.foldlM_cons] at hfold
  obtain ⟨y, hfold, hx2⟩ := Rs.bind_eq_ok.1 hfold
  cases hx2
  simp only [Pair.rule_mk, Pair.children_mk] at hfold
  obtain ⟨ys, pos5, s1, s2, rfl, ha5, l5, hse, l6⟩ := braced_seats gitem_places hb' (fun _ _ => trivial)
  let Gr : Source.Group := ⟨kw, n, o, ys.map (·.2)⟩
  have hok : Gr.Ok := by
    refine ⟨hk, hn, ho, ?_⟩
    intro d hd
    obtain ⟨y, hy, rfl⟩ := List.mem_map.1 hd
    obtain ⟨q, r', -, h, -⟩ := hse.all y hy
    exact h
  have lh : Lay Gr.head (c ++ r) s1 := l1.seq hg (l2.seq hg' (l3.seq hg3 l5))
  have har : Rem pos (c ++ r) pos5 s1 := ha1.trans (ha2.trans (ha3.trans ha5))
  have hl : Lay Gr.toks (c ++ r) r := by
    rw [Gr.toks_eq]
    exact lh.trans (hse.lay.trans l6)
  refine ⟨lay_ne (breaks_block (.group Gr)) (block_toks_ne (.group Gr)) hl, Gr, hl, rfl, rfl, hok, ?_⟩
  intro t ht
  have : t = x := by
    have := ht.symm.trans hx
    cases this; rfl
  subst this
  intro cs1 cc cs2 hcs
  obtain ⟨y1, p, z, y2, rfl, e1, hm, hp⟩ := seats_pick (isM := fun p => decide (p.rule = .decl_ident))
    (sel := TableGroupBlock.items) (get := fun p i => i.span_range = p.span) (by
      intro s p s' hs
      split at hs
      · rename_i hr
        obtain ⟨⟨a, b⟩, hy, hs⟩ := Rs.bind_eq_ok.1 hs; cases hs; exact .inr ⟨by simp [hr], _, rfl, rfl⟩
      · rename_i hr
        obtain ⟨y, hy, hs⟩ := Rs.bind_eq_ok.1 hs; cases hs; exact .inl ⟨by simp [hr], rfl⟩
      · simp [throwRules] at hs) hfold hkeep hcs
  have hm : p.rule = .decl_ident := by simpa using hm
  obtain ⟨q0, r0, hq0⟩ := hse.all (p, z) (by simp)
  cases z with
  | note n => have := hq0.2.2; simp [hm] at this
  | item sc nm =>
    have hh := hse.hole (fun _ _ _ _ h => h.1) rfl
    rw [← hp] at hh
    refine ⟨y1.map (·.2), sc, nm, y2.map (·.2), by simp [Gr], ?_, ?_⟩
    · rw [← e1]
      have : ∀ y ∈ y1, ∃ q r', GItemSeat q r' y.1 y.2 := fun y hy => hse.all y (by simp [hy])
      clear * - this
      induction y1 with
      | nil => rfl
      | cons y y1 ih =>
        have ih := ih fun z hz => this z (by simp [hz])
        obtain ⟨q, r', -, -, h⟩ := this y (by simp)
        obtain ⟨p, z⟩ := y
        cases z with
        | item C => simp at h; simpa [GItem.item?, h] using ih
        | note C => simp at h; simpa [GItem.item?, h] using ih
    · exact (hh.post l6).pre har lh

end Dbml
