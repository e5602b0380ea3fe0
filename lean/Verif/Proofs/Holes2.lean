import Verif.Proofs.Holes1

/-!
# Members of a declaration: columns, indexes, enum values, group items
-/

namespace Dbml
open Syntax Source Spec Props

theorem lay_ne {ts : List Tok} {c r : Str} (hb : AllBreak ts) (hne : ts ≠ []) (h : Lay ts (c ++ r) r) : c ≠ [] := by
  rintro rfl
  obtain ⟨h1, h2⟩ := Lay.cut (a := []) hb h
  cases ts with
  | nil => exact hne rfl
  | cons t ts =>
    obtain ⟨w, r', e, -⟩ := h1
    have := h2 t (by simp)
    simp at e
    exact this e.2.1

/-- What is known of an item read by a rule. -/
def Seated {α : Type} (rl : Rule) (ok : α → Prop) (q : Piece) (p : Pair) (x : α) : Prop :=
  p.span = q.span ∧ p.rule = rl ∧ ok x

theorem place_of {α : Type} {rl m body} {W : Pair → Prop} {ok : α → Prop} {toks : α → List Tok}
    (h : GetsR (.rule rl m body) rl W ok toks) (he : emits m .nonAtomic = true) (hb : ∀ x, AllBreak (toks x))
    (hne : ∀ x, toks x ≠ []) :
    Places (.rule rl m body) W (fun q r p => ∃ x, Lay (toks x) (q.txt ++ r) r ∧ Seated rl ok q p x) := by
  intro pos s c r ps hr
  obtain ⟨p, rfl, h1, h2⟩ := h _ _ _ _ _ hr
  refine ⟨p, rfl, fun hw => ?_⟩
  obtain ⟨x, hok, hl⟩ := h2 hw
  obtain ⟨kids, e, -⟩ := rule_okA hr he
  cases e
  have := run_split hr
  subst this
  exact ⟨lay_ne (hb x) (hne x) hl, x, hl, rfl, rfl, hok⟩

theorem Places.alt {e e' : PExpr} {W : Pair → Prop} {K : Piece → Str → Pair → Prop} (h : Places e W K)
    (h' : Places e' W K) : Places (.alt e e') W K := by
  intro pos s c r ps hr
  rcases alt_ok hr with hr | ⟨-, hr⟩
  · exact h _ _ _ _ _ hr
  · exact h' _ _ _ _ _ hr

theorem Places.mono {e : PExpr} {W W' : Pair → Prop} {K K' : Piece → Str → Pair → Prop} (h : Places e W K)
    (hw : ∀ q r p, K q r p → W' p → K' q r p) (hW : ∀ q r p, (W p → K q r p) → W' p → W p) : Places e W' K' := by
  intro pos s c r ps hr
  obtain ⟨p, rfl, h1⟩ := h _ _ _ _ _ hr
  refine ⟨p, rfl, fun hp => ?_⟩
  have hW := hW ⟨pos, c⟩ r p (fun h => (h1 h).2) hp
  exact ⟨(h1 hW).1, hw _ _ _ (h1 hW).2 hp⟩

theorem foldlM_keep {σ β γ : Type} {f : σ → γ → Rs σ} {sel : σ → β} : ∀ {l : List γ} {s y : σ},
    (∀ p ∈ l, ∀ s s', f s p = .ok s' → sel s' = sel s) → l.foldlM f s = .ok y → sel y = sel s
  | [], s, y, _, h => by cases h; rfl
  | p :: l, s, y, hf, h => by
    rw [List.foldlM_cons] at h
    obtain ⟨s', h1, h2⟩ := Rs.bind_eq_ok.1 h
    rw [foldlM_keep (fun q hq => hf q (by simp [hq])) h2, hf p (by simp) _ _ h1]

theorem fold_last {σ β γ : Type} {f : σ → γ → Rs σ} {isM : γ → Bool} {get : γ → β → Prop} {sel : σ → Option β}
    (hf : ∀ s p s', f s p = .ok s' → (isM p = false ∧ sel s' = sel s) ∨ (isM p = true ∧ ∃ c, get p c ∧ sel s' = some c)) :
    ∀ {l : List γ} {s y : σ}, l.foldlM f s = .ok y →
      (sel y = sel s ∧ ∀ p ∈ l, isM p = false) ∨
      ∃ l1 p l2 c, l = l1 ++ p :: l2 ∧ isM p = true ∧ get p c ∧ sel y = some c ∧ ∀ q ∈ l2, isM q = false
  | [], s, y, h => by cases h; exact .inl ⟨rfl, by simp⟩
  | p :: l, s, y, h => by
    rw [List.foldlM_cons] at h
    obtain ⟨s', h1, h2⟩ := Rs.bind_eq_ok.1 h
    rcases fold_last hf h2 with ⟨e, hn⟩ | ⟨l1, q, l2, c, rfl, h3, h4, h5, h6⟩
    · rcases hf _ _ _ h1 with ⟨hm, e'⟩ | ⟨hm, c, hg, e'⟩
      · refine .inl ⟨by rw [e, e'], ?_⟩
        intro q hq
        rcases List.mem_cons.1 hq with rfl | hq
        · exact hm
        · exact hn q hq
      · exact .inr ⟨[], p, l, c, rfl, hm, hg, by rw [e, e'], hn⟩
    · exact .inr ⟨p :: l1, q, l2, c, rfl, h3, h4, h5, h6⟩

/-! ## Spans -/

theorem col_span {p : Pair} {c : TableColumn} (h : parseTableCol p = .ok c) : c.span_range = p.span := by
  refine foldlM_keep (sel := (·.span_range)) (s := ({ span_range := p.span } : TableColumn)) ?_ h
  intro q _ s s' hs
  split at hs
  · obtain ⟨y, -, hs⟩ := Rs.bind_eq_ok.1 hs; cases hs; rfl
  · obtain ⟨y, -, hs⟩ := Rs.bind_eq_ok.1 hs; cases hs; rfl
  · obtain ⟨y, -, hs⟩ := Rs.bind_eq_ok.1 hs; cases hs; rfl
  · simp [throwRules] at hs

theorem eval_span {p : Pair} {c : EnumValue} (h : parseEnumValue p = .ok c) : c.span_range = p.span := by
  refine foldlM_keep (sel := (·.span_range)) (s := ({ span_range := p.span } : EnumValue)) ?_ h
  intro q _ s s' hs
  split at hs
  · obtain ⟨y, -, hs⟩ := Rs.bind_eq_ok.1 hs; cases hs; rfl
  · obtain ⟨y, -, hs⟩ := Rs.bind_eq_ok.1 hs; cases hs; rfl
  · simp [throwRules] at hs

theorem idef_span {p : Pair} {c : IndexesDef} (h : parseIndexesSingleMulti p = .ok c) : c.span_range = p.span := by
  refine foldlM_keep (sel := (·.span_range)) (s := ({ span_range := p.span } : IndexesDef)) ?_ h
  intro q _ s s' hs
  split at hs
  · obtain ⟨y, -, hs⟩ := Rs.bind_eq_ok.1 hs; cases hs; rfl
  · obtain ⟨y, -, hs⟩ := Rs.bind_eq_ok.1 hs; cases hs; rfl
  · simp [throwRules] at hs

/-! ## Tokens -/

theorem breaks_col (c : Col) : AllBreak c.toks := breaks_titem (.col c)
theorem breaks_idxs (i : Idxs) : AllBreak i.toks := breaks_titem (.indexes i)
theorem breaks_eval (v : EVal) : AllBreak v.toks := .cons (breaks_name _) (.optBrackets breaks_attr)
theorem breaks_gitem (i : GItem) : AllBreak i.toks := by
  cases i with
  | note n => exact breaks_note n
  | item s n => exact breaks_qual s n

theorem note_toks_ne (n : Source.Note) : n.toks ≠ [] := by cases n; simp [Source.Note.toks]
theorem idef_toks_ne (d : IDef) : d.toks ≠ [] := by cases d <;> simp [IDef.toks]
theorem qual_toks_ne (s : Option Name) (n : Name) : qualToks s n ≠ [] := by cases s <;> simp [qualToks]

/-! ## Indexes -/

/-- The index definitions of an indexes block stand in it. -/
def IdxHoles (q : Piece) (r : Str) (p : Pair) (I : Idxs) : Prop :=
  ∀ ib, parseIndexesDecl p = .ok ib → ∀ ds1 d ds2, ib.defs = ds1 ++ d :: ds2 →
    ∃ e1 D e2, I.defs = e1 ++ D :: e2 ∧ e1.length = ds1.length ∧
      Hole q.pos (q.txt ++ r) r d.span_range ({ txt := I.kw } :: lbrace :: e1.flatMap (·.toks)) D.toks
        (e2.flatMap (·.toks) ++ [rbrace])

theorem idef_places : Places (.alt G.indexes_single G.indexes_multi) (Acc parseIndexesSingleMulti)
    (fun q r p => ∃ x : IDef, Lay x.toks (q.txt ++ r) r ∧ (p.span = q.span ∧ x.Ok)) := by
  refine .alt ?_ ?_
  · exact (place_of idef_single_lay rfl breaks_idef idef_toks_ne).mono
      (fun _ _ _ ⟨x, hl, hs, _, hx⟩ _ => ⟨x, hl, hs, hx⟩) (fun _ _ _ _ h => h)
  · exact (place_of idef_multi_lay rfl breaks_idef idef_toks_ne).mono
      (fun _ _ _ ⟨x, hl, hs, _, hx⟩ _ => ⟨x, hl, hs, hx⟩) (fun _ _ _ _ h => h)

theorem indexes_places : Places G.indexes_decl (Acc parseIndexesDecl)
    (fun q r p => ∃ x : Idxs, Lay x.toks (q.txt ++ r) r ∧
      (p.span = q.span ∧ p.rule = .indexes_decl ∧ x.Ok ∧ IdxHoles q r p x)) := by
  intro pos s c r ps h
  obtain ⟨kids, rfl, hb⟩ := rule_okA h rfl
  refine ⟨_, rfl, ?_⟩
  rintro ⟨x, hx⟩
  have hs := run_split h
  subst hs
  obtain ⟨c1, r1, p1, pos', r2, c2, p2, h1, hg, ha, h2, rfl⟩ := seq_okA hb
  obtain ⟨kw, hk, l1, rfl⟩ := lay_kw (k' := k!"indexes") (by decide) (by simp) h1
  obtain ⟨kids, sp', rfl, hb'⟩ := rule_ok h2 rfl
  have hx' : parseIndexesBlock (.mk .indexes_block sp' c2 kids) = .ok x := hx
  obtain ⟨ys, pos1, s1, s2, rfl, ha1, l2, hse, l3⟩ := braced_seats idef_places hb' (by
      intro p hp
      obtain ⟨a, a', ha⟩ := foldlM_steps hx' p hp
      split at ha
      · obtain ⟨y, hy, -⟩ := Rs.bind_eq_ok.1 ha
        exact ⟨y, hy⟩
      · obtain ⟨y, hy, -⟩ := Rs.bind_eq_ok.1 ha
        exact ⟨y, hy⟩
      · simp [throwRules] at ha)
  let I : Idxs := ⟨kw, ys.map (·.2)⟩
  have hok : I.Ok := by
    refine ⟨hk, ?_⟩
    intro d hd
    obtain ⟨y, hy, rfl⟩ := List.mem_map.1 hd
    obtain ⟨q, r', -, h⟩ := hse.all y hy
    exact h
  have hl : Lay I.toks (c ++ r) r :=
    (l1.seq hg ((l2.trans (hse.lay)).trans l3)).cast (by simp [I, Idxs.toks, seatToks])
  refine ⟨lay_ne (breaks_idxs I) (by simp [Idxs.toks]) hl, I, hl, rfl, rfl, hok, ?_⟩
  intro ib hib ds1 d ds2 hd
  have : ib = x := by
    have := hib.symm.trans hx
    cases this; rfl
  subst this
  obtain ⟨y1, p, z, y2, rfl, e1, -, hp⟩ := seats_pick (isM := fun _ => true) (sel := IndexesBlock.defs)
    (get := fun p d => parseIndexesSingleMulti p = .ok d) (by
      intro s p s' hs
      split at hs
      · obtain ⟨y, hy, hs⟩ := Rs.bind_eq_ok.1 hs; cases hs; exact .inr ⟨rfl, y, hy, rfl⟩
      · obtain ⟨y, hy, hs⟩ := Rs.bind_eq_ok.1 hs; cases hs; exact .inr ⟨rfl, y, hy, rfl⟩
      · simp [throwRules] at hs) hx' rfl hd
  have hh := hse.hole (fun _ _ _ _ h => h.1) rfl
  rw [← idef_span hp] at hh
  refine ⟨y1.map (·.2), z, y2.map (·.2), by simp [I], by simpa using e1, ?_⟩
  refine (((hh.pre ha1 l2).post l3).pre ha (l1.seq hg .nil)).cast ?_ ?_ <;> simp [seatToks, I]

/-! ## Tables -/

/-- What is known of an item of a table. -/
def TItemSeat (q : Piece) (r : Str) (p : Pair) (x : TItem) : Prop :=
  p.span = q.span ∧ x.Ok ∧
  match x with
  | .col _ => p.rule = .table_col
  | .note _ => p.rule = .note_decl
  | .indexes I => p.rule = .indexes_decl ∧ IdxHoles q r p I

theorem titem_places : Places (.alt G.table_col (.alt G.note_decl G.indexes_decl)) TItemAcc
    (fun q r p => ∃ x : TItem, Lay x.toks (q.txt ++ r) r ∧ TItemSeat q r p x) := by
  refine .alt ?_ (.alt ?_ ?_)
  · intro pos s c r ps h
    obtain ⟨p, rfl, hp⟩ := place_of col_lay rfl breaks_col (by simp [Col.toks]) _ _ _ _ _ h
    obtain ⟨kids, e, -⟩ := rule_okA h rfl
    refine ⟨p, rfl, fun hw => ?_⟩
    obtain ⟨h1, x, h2, h3, h4, h5⟩ := hp (hw.1 (by cases e; rfl))
    exact ⟨h1, .col x, h2, h3, h5, h4⟩
  · intro pos s c r ps h
    obtain ⟨p, rfl, hp⟩ := place_of note_lay rfl breaks_note note_toks_ne _ _ _ _ _ h
    refine ⟨p, rfl, fun hw => ?_⟩
    obtain ⟨h1, x, h2, h3, h4, h5⟩ := hp trivial
    exact ⟨h1, .note x, h2, h3, h5, h4⟩
  · intro pos s c r ps h
    obtain ⟨p, rfl, hp⟩ := indexes_places _ _ _ _ _ h
    obtain ⟨kids, e, -⟩ := rule_okA h rfl
    refine ⟨p, rfl, fun hw => ?_⟩
    obtain ⟨h1, x, h2, h3, h4, h5, h6⟩ := hp (hw.2 (by cases e; rfl))
    exact ⟨h1, .indexes x, h2, h3, h5, h4, h6⟩

/-- The tokens of a table before its body. -/
def Source.Table.head (t : Source.Table) : List Tok :=
  { txt := t.kw } :: (qualToks t.schema t.name ++ (t.aliasToks ++ (optBrackets Attr.toks t.settings ++ [lbrace])))

theorem Source.Table.toks_eq (t : Source.Table) : t.toks = t.head ++ (t.items.flatMap (·.toks) ++ [rbrace]) := by
  simp [Source.Table.toks, Source.Table.head]

/-- The columns and the index definitions of a table stand in it. -/
def TableHoles (q : Piece) (r : Str) (p : Pair) (T : Source.Table) : Prop :=
  ∀ t, parseTableDecl p = .ok t →
    (∀ cs1 c cs2, t.cols = cs1 ++ c :: cs2 → ∃ is1 C is2, T.items = is1 ++ .col C :: is2 ∧
      (is1.filterMap (·.col?)).length = cs1.length ∧
      Hole q.pos (q.txt ++ r) r c.span_range (T.head ++ is1.flatMap (·.toks)) C.toks
        (is2.flatMap (·.toks) ++ [rbrace])) ∧
    (∀ ib ds1 d ds2, t.indexes = some ib → ib.defs = ds1 ++ d :: ds2 →
      ∃ is1 I is2 e1 D e2, T.items = is1 ++ .indexes I :: is2 ∧ is2.filterMap (·.indexes?) = [] ∧
        I.defs = e1 ++ D :: e2 ∧ e1.length = ds1.length ∧
        Hole q.pos (q.txt ++ r) r d.span_range
          (T.head ++ (is1.flatMap (·.toks) ++ ({ txt := I.kw } :: lbrace :: e1.flatMap (·.toks)))) D.toks
          (e2.flatMap (·.toks) ++ ([rbrace] ++ (is2.flatMap (·.toks) ++ [rbrace]))))

end Dbml
