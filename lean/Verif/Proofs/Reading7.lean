import Verif.Proofs.Reading6

/-!
# Reading tables and table groups
-/

namespace Dbml
open Syntax Source

/-! ## Tables -/

def TItemP : TItem → Pair → Prop
  | .col c => ColP c
  | .note n => NoteP n
  | .indexes i => IdxsP i

def titemE : TableItem → TableItem
  | .col c => .col (c.mapSpan noPos)
  | .note n => .note (n.mapSpan noPos)
  | .indexes i => .indexes (i.mapSpan noPos)

def titemV : TItem → TableItem
  | .col c => .col c.ast
  | .note n => .note n.ast
  | .indexes i => .indexes i.ast

/-- A keyword followed by `:` or `{` may be taken for a name. -/
theorem At.kw {t : Tok} {y s} (h : At (t :: y) s) (hn : ∀ r, t.next r) (hy : hd y = some ':' ∨ hd y = some '{') :
    At ({ txt := t.txt, next := .word } :: y) s := by
  obtain ⟨r, rfl, ha, ho⟩ := h.cons
  refine ⟨?_, r, rfl, ?_, ha.2⟩
  · intro u hu
    rcases List.mem_cons.1 hu with rfl | hu
    · obtain ⟨c, cs, e, h1, h2⟩ := h.1 t (by simp)
      exact ⟨c, cs, e, h1, fun hc r _ => h2 hc r (hn r)⟩
    · exact ho u hu
  · refine after_headP (P := fun c => ¬ IsWord c) (fun _ => space_not_word) slash_not_word ?_ ho ha
    intro c hc
    rcases hy with hy | hy <;> rw [hy] at hc <;> injection hc with hc <;> subst hc <;> simp [IsWord]

/-- A keyword followed by `:` or `{` is not a column. -/
theorem fails_col_kw {k s : Str} (h : Keyword k s) (hk : k ≠ []) (ha : ∀ c ∈ k, c.isAlpha = true) {y : List Tok}
    (hy : hd y = some ':' ∨ hd y = some '{') : Fails G.table_col ({ txt := s } :: y) := by
  intro pos u hu
  refine Fails.rule (.seq_right (reads_ident (n := .word s) (keyword_var h hk ha)) (.seq_left (.of_starts (by decide)
    (by decide) ?_))) pos u (hu.kw (fun _ => trivial) hy)
  rcases hy with h | h <;> rw [h] <;> rfl

theorem keyword_ne {k k' s : Str} (h : Keyword k s) (hl : k.length ≠ k'.length) : ¬ Keyword k' s := by
  intro h'
  have h1 := congrArg List.length h
  have h2 := congrArg List.length h'
  simp at h1 h2
  omega

theorem reads_titem {i : TItem} (hi : i.Ok) {z} (hz : ItemEnd z) :
    Reads (G.table_col <//> G.note_decl <//> G.indexes_decl) (i.toks ++ z) z [TItemP i] := by
  cases i with
  | col c => exact .alt_left (reads_col hi hz)
  | note n =>
    refine .alt_right ?_ (.alt_left (reads_note hi (hz.ne (by decide) (by decide) (by decide))))
    refine fails_col_kw hi.1 (by decide) (by decide) ?_
    cases n.braced
    · exact .inl rfl
    · exact .inr rfl
  | indexes i =>
    have hw := keyword_var hi.1 (by decide) (by decide)
    refine .alt_right (fails_col_kw hi.1 (by decide) (by decide) (.inr rfl)) (.alt_right ?_ (reads_indexes hi z))
    intro pos u hu
    exact fails_note (t := { txt := i.kw, next := .word }) (var_spaced hw) (fun _ h => h)
      (fun h => absurd h (keyword_ne hi.1 (by decide)))
      (fun h => absurd h (keyword_ne hi.1 (by decide))) pos u (At.kw (t := { txt := i.kw }) hu (fun _ => trivial) (.inr rfl))

theorem titem_itemEnd {i : TItem} (hi : i.Ok) (z) : ItemEnd (i.toks ++ z) := by
  cases i with
  | col c =>
    obtain ⟨d, h1, h2⟩ := name_hd hi.1 []
    exact ⟨d, h1, h2.elim .inl fun h => .inr (.inl h)⟩
  | note n => exact note_itemEnd hi z
  | indexes i =>
    obtain ⟨c, h1, h2⟩ := keyword_hd hi.1 (by decide) (by decide) (kd := .any) []
    exact ⟨c, h1, .inl h2⟩

def AliasP (a : Alias) (p : Pair) : Prop := ∃ sp t k, p = .mk .table_alias sp t [k] ∧ IdentP a.name k

theorem reads_alias {t : Table} (h : ∀ a, t.alias = some a → Keyword k!"as " a.kw ∧ a.name.Ok) {z}
    (hz : hd z = some '[' ∨ hd z = some '{') :
    Reads (.opt G.table_alias) (t.aliasToks ++ z) z (t.alias.toList.map AliasP) := by
  unfold Table.aliasToks
  cases ht : t.alias with
  | none =>
    refine .opt_none (.rule (.seq_left (.of_starts rfl rfl ?_)))
    rcases hz with h | h <;> simp only [List.nil_append] <;> rw [h] <;> rfl
  | some a =>
    obtain ⟨h1, h2⟩ := h a ht
    refine .opt (((reads_kw' (k := k!"as ") (kd := .any) h1 rfl).seq (reads_ident h2)).rule.mono ?_)
    rintro ⟨rl, sp, t, ks⟩ ⟨hr, hks⟩
    simp only [Pair.rule_mk, Pair.children_mk] at hr hks
    subst hr
    obtain ⟨k, rfl, hk⟩ := AllP.one' hks
    exact ⟨sp, t, k, rfl, hk⟩

theorem tableFold (xs : List TableItem) (b : TableBlock) :
    xs.foldl tableStep b =
      { b with cols := b.cols ++ xs.filterMap TableItem.col?
               note := (xs.filterMap TableItem.note?).getLast?.or b.note
               indexes := (xs.filterMap TableItem.indexes?).getLast?.or b.indexes } := by
  induction xs generalizing b with
  | nil => simp
  | cons x xs ih =>
    rw [List.foldl_cons, ih]
    cases x with
    | col c => simp [tableStep, TableItem.col?, TableItem.note?, TableItem.indexes?]
    | note n =>
      simp only [tableStep, TableItem.col?, TableItem.note?, TableItem.indexes?, List.filterMap_cons,
        List.getLast?_cons]
      cases (xs.filterMap TableItem.note?).getLast? <;> rfl
    | indexes n =>
      simp only [tableStep, TableItem.col?, TableItem.note?, TableItem.indexes?, List.filterMap_cons,
        List.getLast?_cons]
      cases (xs.filterMap TableItem.indexes?).getLast? <;> rfl

abbrev TableP (t : Table) : Pair → Prop := Yields .table_decl parseTableDecl (·.mapSpan noPos) t.ast

/-- A table before its body is read. -/
def tbl (sp sp1 : Span) (nm : Ident) (sc al : Option Ident) (se : Option TableSettings) : TableBlock :=
  { span_range := sp, ident := { span_range := sp1, name := nm, schema := sc, alias := al }, settings := se }

theorem titems_fold {t : Table} {ps} (h : AllP (t.items.map TItemP) ps) (b : TableBlock) :
    ∃ xs : List TableItem, xs.map titemE = t.items.map titemV ∧
      List.foldlM tableItemStep b ps = .ok (xs.foldl tableStep b) := by
  obtain ⟨r, h1, xs, h2, h3⟩ := ex_fold (f := tableItemStep) (s := b)
    (Q := fun r => ∃ xs : List TableItem, xs.map titemE = t.items.map titemV ∧ r = xs.foldl tableStep b)
    titemE titemV tableStep t.items h (by
      intro x _ p hp
      cases x with
      | col c =>
        obtain ⟨hr, b, h1, h2⟩ := hp
        refine ⟨.col b, by simp [titemE, titemV, h2], fun s => ?_⟩
        simp only [tableItemStep, hr, h1, Rs.bind_def, Rs.ok_bind, Rs.pure_def]; rfl
      | note c =>
        obtain ⟨hr, b, h1, h2⟩ := hp
        refine ⟨.note b, by simp [titemE, titemV, h2], fun s => ?_⟩
        simp only [tableItemStep, hr, h1, Rs.bind_def, Rs.ok_bind, Rs.pure_def]; rfl
      | indexes c =>
        obtain ⟨hr, b, h1, h2⟩ := hp
        refine ⟨.indexes b, by simp [titemE, titemV, h2], fun s => ?_⟩
        simp only [tableItemStep, hr, h1, Rs.bind_def, Rs.ok_bind, Rs.pure_def]; rfl)
    (fun bs hbs => ⟨bs, hbs, rfl⟩)
  exact ⟨xs, h2, by rw [h1, h3]⟩

theorem optBrackets_hd {α : Type} {f : α → List Tok} (o : Option (List α)) (z) :
    hd (optBrackets f o ++ lbrace :: z) = some '[' ∨ hd (optBrackets f o ++ lbrace :: z) = some '{' := by
  cases o with
  | none => exact .inr rfl
  | some xs => exact .inl rfl

theorem aliasToks_hd {t : Table} (h : ∀ a, t.alias = some a → Keyword k!"as " a.kw ∧ a.name.Ok) {z} (d : Char)
    (hd' : d.isAlpha = false) (hz : hd z ≠ some d) : hd (t.aliasToks ++ z) ≠ some d := by
  unfold Table.aliasToks
  cases ht : t.alias with
  | none => exact hz
  | some a =>
    obtain ⟨h1, -⟩ := h a ht
    unfold Keyword at h1
    cases hk : a.kw with
    | nil => simp [hk] at h1
    | cons c cs =>
      rw [hk] at h1
      have hc : c.isAlpha = true := lowerC_alpha (d := 'a') (List.cons.inj h1).1 (by decide)
      simp only [hd, List.cons_append, hk, List.head?_cons]
      intro h
      exact alpha_ne hc hd' (Option.some.inj h)

theorem reads_table {t : Table} (ht : t.Ok) (z) : Reads G.table_decl (t.toks ++ z) z [TableP t] := by
  obtain ⟨hk, hs, hn, hal, hset, hits⟩ := ht
  have hb := star_items (e := G.table_col <//> G.note_decl <//> G.indexes_decl) (F := ItemEnd) (by decide)
    (z := rbrace :: z)
    (.of_starts (by decide) (by decide) rfl) itemEnd_rbrace t.items
    (fun i hi y hy => reads_titem (hits i hi) hy) (fun i hi y => titem_itemEnd (hits i hi) y)
  have hblk := ((reads_str (s := k!"{") (k := .any)).seq (hb.seq (reads_str (s := k!"}") (k := .any)))).rule
    (r := .table_block)
  have hst := reads_optBrackets (r := .block_settings) (item := G.attr) (f := Attr.toks)
    (P := fun p => p.rule = .block_settings ∧ ∃ xs : List Attribute, parseAttrList p = .ok xs ∧
        xs.map (·.mapSpan noPos) = attrsAst (t.settings.getD []))
    t.settings (lbrace :: (t.items.flatMap (·.toks) ++ (rbrace :: z))) (by simp [hd, lbrace])
    (by intro as has; rw [has]; exact reads_block_settings (hset as has) _)
  have halr := reads_alias hal (optBrackets_hd (f := Attr.toks) t.settings (t.items.flatMap (·.toks) ++ (rbrace :: z)))
  have hdecl := reads_decl hs hn (aliasToks_hd hal '.' (by decide) (z := optBrackets Attr.toks t.settings ++
    lbrace :: (t.items.flatMap (·.toks) ++ (rbrace :: z))) (by
      rcases optBrackets_hd (f := Attr.toks) t.settings (t.items.flatMap (·.toks) ++ (rbrace :: z)) with h | h <;>
        rw [h] <;> decide))
  have h := (reads_kw' (k := k!"Table ") (kd := .any) hk rfl).seq (hdecl.seq (halr.seq (hst.seq hblk)))
  simp only [Source.Table.toks, List.cons_append, List.append_assoc, List.nil_append]
  refine Reads.yields h ?_
  intro sp tx ks hks
  simp only [List.nil_append, List.append_nil] at hks
  obtain ⟨p1, qs, rfl, ⟨hr1, sc, nm, hi1, hi2, hi3⟩, h2⟩ := hks.cons'
  have fin : ∀ (sp1 : Span) (al : Option Ident) (se : Option TableSettings) (xs : List TableItem),
      Option.map (fun i : Ident => i.mapSpan noPos) al = t.alias.map (·.name.ast) →
      se.map (·.mapSpan noPos) = t.settings.map (fun as => { attributes := attrsAst as }) →
      xs.map titemE = t.items.map titemV →
      (xs.foldl tableStep (tbl sp sp1 nm sc al se)).mapSpan noPos = t.ast := by
    intro sp1 al se xs ha hse hxs
    rw [tableFold, tbl]
    have e1 := filterMap_er (sel := TableItem.col?) (selg := TableItem.col?) (sela := TItem.col?)
      (er' := (·.mapSpan noPos)) (by intro b; cases b <;> rfl) (by intro b; cases b <;> rfl) hxs
    have e2 := filterMap_er (sel := TableItem.note?) (selg := TableItem.note?) (sela := TItem.note?)
      (er' := (·.mapSpan noPos)) (by intro b; cases b <;> rfl) (by intro b; cases b <;> rfl) hxs
    have e3 := filterMap_er (sel := TableItem.indexes?) (selg := TableItem.indexes?) (sela := TItem.indexes?)
      (er' := (·.mapSpan noPos)) (by intro b; cases b <;> rfl) (by intro b; cases b <;> rfl) hxs
    simp only [TableBlock.mapSpan, TableIdent.mapSpan, Source.Table.ast, hi2, hi3, ha, hse, List.nil_append, e1,
      Option.or_none, ← List.getLast?_map, e2, e3]
  cases hal' : t.alias with
  | none =>
    rw [hal'] at h2
    cases hse : t.settings with
    | none =>
      rw [hse] at h2
      obtain ⟨⟨rl, sp', t', ks'⟩, rfl, hr, h3⟩ := AllP.one' h2
      simp only [List.nil_append, List.append_nil, Pair.rule_mk, Pair.children_mk] at h3 hr
      subst hr
      walk' [parseTableDecl, hr1]
      refine ex_bind hi1 ?_
      obtain ⟨xs, hx1, hx2⟩ := titems_fold h3 (tbl sp p1.span nm sc none none)
      exact ex_bind hx2 ⟨_, rfl, fin _ none none xs (by simp [hal']) (by simp [hse]) hx1⟩
    | some as =>
      rw [hse] at h2
      obtain ⟨p2, qs, rfl, ⟨hr2, ys, hy1, hy2⟩, h2⟩ := AllP.cons' h2
      obtain ⟨⟨rl, sp', t', ks'⟩, rfl, hr, h3⟩ := AllP.one' h2
      simp only [List.nil_append, List.append_nil, Pair.rule_mk, Pair.children_mk] at h3 hr
      subst hr
      walk' [parseTableDecl, parseTableSettings, hr1, hr2]
      refine ex_bind hi1 (ex_bind hy1 ?_)
      obtain ⟨xs, hx1, hx2⟩ := titems_fold h3 (tbl sp p1.span nm sc none (some { span_range := p2.span, attributes := ys }))
      refine ex_bind hx2 ⟨_, rfl, fin _ none (some _) xs (by simp [hal']) ?_ hx1⟩
      simp only [Option.getD_some] at hy2
      simp [hse, TableSettings.mapSpan, hy2]
  | some a =>
    rw [hal'] at h2
    obtain ⟨pa, qs, rfl, ⟨spa, ta, ka, rfl, hra, ia, hia1, hia2⟩, h4⟩ := AllP.cons' h2
    cases hse : t.settings with
    | none =>
      rw [hse] at h4
      obtain ⟨⟨rl, sp', t', ks'⟩, rfl, hr, h3⟩ := AllP.one' h4
      simp only [List.nil_append, List.append_nil, Pair.rule_mk, Pair.children_mk] at h3 hr
      subst hr
      walk' [parseTableDecl, hr1, hra]
      refine ex_bind hi1 (ex_bind hia1 ?_)
      obtain ⟨xs, hx1, hx2⟩ := titems_fold h3 (tbl sp p1.span nm sc (some ia) none)
      exact ex_bind hx2 ⟨_, rfl, fin _ (some ia) none xs (by simp [hal', hia2]) (by simp [hse]) hx1⟩
    | some as =>
      rw [hse] at h4
      obtain ⟨p2, qs, rfl, ⟨hr2, ys, hy1, hy2⟩, h5⟩ := AllP.cons' h4
      obtain ⟨⟨rl, sp', t', ks'⟩, rfl, hr, h3⟩ := AllP.one' h5
      simp only [List.nil_append, List.append_nil, Pair.rule_mk, Pair.children_mk] at h3 hr
      subst hr
      walk' [parseTableDecl, parseTableSettings, hr1, hr2, hra]
      refine ex_bind hi1 (ex_bind hia1 (ex_bind hy1 ?_))
      obtain ⟨xs, hx1, hx2⟩ := titems_fold h3 (tbl sp p1.span nm sc (some ia) (some { span_range := p2.span, attributes := ys }))
      refine ex_bind hx2 ⟨_, rfl, fin _ (some ia) (some _) xs (by simp [hal', hia2]) ?_ hx1⟩
      simp only [Option.getD_some] at hy2
      simp [hse, TableSettings.mapSpan, hy2]

/-! ## Table groups -/

def GItemP : GItem → Pair → Prop
  | .note n => NoteP n
  | .item s n => DeclP s n

def gitemE : GroupItem → GroupItem
  | .note n => .note (n.mapSpan noPos)
  | .item i => .item (i.mapSpan noPos)

def gitemV : GItem → GroupItem
  | .note n => .note n.ast
  | .item s n => .item { schema := s.map (·.ast), ident_alias := n.ast }

theorem fails_note_name {n : Name} (hn : n.Ok) {y} (hy1 : hd y ≠ some ':') (hy2 : hd y ≠ some '{') :
    Fails G.note_decl (n.tok :: y) := by
  cases n with
  | quoted s => exact .of_starts (by decide) (by decide) rfl
  | word s =>
    refine fails_note (t := { txt := s, next := .word }) (var_spaced hn) (fun _ h => h) (fun _ => .seq_left (.of_starts rfl rfl ?_)) (fun _ => hy2)
    cases hh : (hd y == some ':') <;> simp_all [PExpr.starts]

theorem reads_gitem {i : GItem} (hi : i.Ok) {z} (hz : ItemEnd z) :
    Reads (G.note_decl <//> G.decl_ident) (i.toks ++ z) z [GItemP i] := by
  cases i with
  | note n => exact .alt_left (reads_note hi (hz.ne (by decide) (by decide) (by decide)))
  | item s n =>
    refine .alt_right ?_ (reads_decl hi.1 hi.2 (hz.ne (by decide) (by decide) (by decide)))
    cases s with
    | none =>
      exact fails_note_name hi.2 (hz.ne (by decide) (by decide) (by decide))
        (hz.ne (by decide) (by decide) (by decide))
    | some s => exact fails_note_name (hi.1 s rfl) (by simp [hd, dot]) (by simp [hd, dot])

theorem gitem_itemEnd {i : GItem} (hi : i.Ok) (z) : ItemEnd (i.toks ++ z) := by
  cases i with
  | note n => exact note_itemEnd hi z
  | item s n =>
    obtain ⟨c, h1, h2⟩ := qual_hd hi.1 hi.2 z
    exact ⟨c, h1, h2.elim .inl fun h => .inr (.inl h)⟩

theorem groupFold (xs : List GroupItem) (b : TableGroupBlock) :
    xs.foldl groupStep b =
      { b with items := b.items ++ xs.filterMap GroupItem.item?
               note := (xs.filterMap GroupItem.note?).getLast?.or b.note } := by
  induction xs generalizing b with
  | nil => simp
  | cons x xs ih =>
    rw [List.foldl_cons, ih]
    cases x with
    | item c => simp [groupStep, GroupItem.item?, GroupItem.note?]
    | note n =>
      simp only [groupStep, GroupItem.item?, GroupItem.note?, List.filterMap_cons, List.getLast?_cons]
      cases (xs.filterMap GroupItem.note?).getLast? <;> rfl

abbrev GroupP (t : Group) : Pair → Prop := Yields .table_group_decl parseTableGroupDecl (·.mapSpan noPos) t.ast

theorem reads_group {g : Group} (hg : g.Ok) (z) : Reads G.table_group_decl (g.toks ++ z) z [GroupP g] := by
  obtain ⟨hk, hn, hset, hits⟩ := hg
  have hb := star_items (e := G.note_decl <//> G.decl_ident) (F := ItemEnd) (by decide)
    (z := rbrace :: z)
    (.of_starts (by decide) (by decide) rfl) itemEnd_rbrace g.items
    (fun i hi y hy => reads_gitem (hits i hi) hy) (fun i hi y => gitem_itemEnd (hits i hi) y)
  have hblk := ((reads_str (s := k!"{") (k := .any)).seq (hb.seq (reads_str (s := k!"}") (k := .any)))).rule
    (r := .table_group_block)
  have hst := reads_optBrackets (r := .block_settings) (item := G.attr) (f := Attr.toks)
    (P := fun p => p.rule = .block_settings ∧ ∃ xs : List Attribute, parseAttrList p = .ok xs ∧
        xs.map (·.mapSpan noPos) = attrsAst (g.settings.getD []))
    g.settings (lbrace :: (g.items.flatMap (·.toks) ++ (rbrace :: z))) (by simp [hd, lbrace])
    (by intro as has; rw [has]; exact reads_block_settings (hset as has) _)
  have h := (reads_kw' (k := k!"TableGroup ") (kd := .any) hk rfl).seq ((reads_ident hn).seq (hst.seq hblk))
  simp only [Source.Group.toks, List.cons_append, List.append_assoc, List.nil_append]
  refine Reads.yields h ?_
  intro sp tx ks hks
  simp only [List.nil_append, List.append_nil] at hks
  obtain ⟨p1, qs, rfl, ⟨hr1, nm, hi1, hi2⟩, h2⟩ := hks.cons'
  have fin : ∀ (se : Option TableGroupSettings) (xs : List GroupItem),
      se.map (·.mapSpan noPos) = g.settings.map (fun as => { attributes := attrsAst as }) →
      xs.map gitemE = g.items.map gitemV →
      (xs.foldl groupStep ({ span_range := sp, ident := nm, settings := se } : TableGroupBlock)).mapSpan noPos
        = g.ast := by
    intro se xs hse hxs
    rw [groupFold]
    have e1 := filterMap_er (sel := GroupItem.item?) (selg := GroupItem.item?) (sela := GItem.item?)
      (er' := (·.mapSpan noPos)) (by intro b; cases b <;> rfl) (by intro b; cases b <;> rfl) hxs
    have e2 := filterMap_er (sel := GroupItem.note?) (selg := GroupItem.note?) (sela := GItem.note?)
      (er' := (·.mapSpan noPos)) (by intro b; cases b <;> rfl) (by intro b; cases b <;> rfl) hxs
    simp only [TableGroupBlock.mapSpan, Source.Group.ast, hi2, hse, List.nil_append, e1,
      Option.or_none, ← List.getLast?_map, e2]
  have step : ∀ x ∈ g.items, ∀ p, GItemP x p → ∃ b : GroupItem, gitemE b = gitemV x ∧ ∀ acc : TableGroupBlock,
      (match p.rule with
        | .decl_ident => (parseDeclIdent p).bind fun x => Rs.ok { acc with
            items := acc.items ++ [{ span_range := p.span, schema := x.1, ident_alias := x.2 }] }
        | .note_decl => (parseNoteDecl p).bind fun n => Rs.ok { acc with note := some n }
        | _ => throwRules [.decl_ident, .note_decl] p) = Rs.ok (groupStep acc b) := by
    intro x _ p hp
    cases x with
    | note n =>
      obtain ⟨hr, b, h1, h2⟩ := hp
      refine ⟨.note b, by simp [gitemE, gitemV, h2], fun s => ?_⟩
      simp only [hr, h1, Rs.ok_bind]; rfl
    | item s n =>
      obtain ⟨hr, b, c, h1, h2, h3⟩ := hp
      refine ⟨.item { span_range := p.span, schema := b, ident_alias := c }, ?_, fun s => ?_⟩
      · simp [gitemE, gitemV, TableGroupItem.mapSpan, h2, h3]
      · simp only [hr, h1, Rs.ok_bind]; rfl
  cases hse : g.settings with
  | none =>
    rw [hse] at h2
    obtain ⟨⟨rl, sp', t', ks'⟩, rfl, hr, h3⟩ := AllP.one' h2
    simp only [List.nil_append, List.append_nil, Pair.rule_mk, Pair.children_mk] at h3 hr
    subst hr
    walk' [parseTableGroupDecl, hr1]
    refine ex_bind hi1 (ex_fold_bind gitemE gitemV groupStep g.items h3 step ?_)
    intro bs hbs
    exact ⟨_, rfl, fin none bs (by simp [hse]) hbs⟩
  | some as =>
    rw [hse] at h2
    obtain ⟨p2, qs, rfl, ⟨hr2, ys, hy1, hy2⟩, h2⟩ := AllP.cons' h2
    obtain ⟨⟨rl, sp', t', ks'⟩, rfl, hr, h3⟩ := AllP.one' h2
    simp only [List.nil_append, List.append_nil, Pair.rule_mk, Pair.children_mk] at h3 hr
    subst hr
    walk' [parseTableGroupDecl, parseTableGroupSettings, hr1, hr2]
    refine ex_bind hi1 (ex_bind hy1 (ex_fold_bind gitemE gitemV groupStep g.items h3 step ?_))
    intro bs hbs
    refine ⟨_, rfl, fin (some _) bs ?_ hbs⟩
    simp only [Option.getD_some] at hy2
    simp [hse, TableGroupSettings.mapSpan, hy2]

end Dbml
