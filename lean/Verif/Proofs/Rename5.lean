import Verif.Proofs.Rename4
import Verif.Proofs.Reading7

/-!
# Renaming: notes, projects, indexes, enums, groups
-/

namespace Dbml
open Syntax Source Spec

theorem ct_map {α β : Type} {ast : α → β} {er : β → β} {mn : (Role → Ident → Ident) → β → β} {Xs : List (Sp → α)}
    {bs : List β} (h : List.Forall₂ (CT ast er mn) Xs bs) (h0 : (Xs.map (· noSp)).map ast = bs.map er) (g : Sp) :
    (Xs.map (· g)).map ast = (bs.map (mn fun _ => ren g)).map er := by
  induction h with
  | nil => rfl
  | cons h _ ih =>
    simp only [List.map_cons, List.cons.injEq] at h0 ⊢
    exact ⟨h h0.1 g, ih h0.2⟩

theorem foldl_snoc {α : Type} : ∀ (bs acc : List α), bs.foldl (fun s b => s ++ [b]) acc = acc ++ bs
  | [], acc => by simp
  | b :: bs, acc => by simp [foldl_snoc bs]

/-- What no step of a fold changes. -/
theorem foldlM_keeps {σ γ δ : Type} {f : σ → γ → Rs σ} (π : σ → δ) : ∀ {l : List γ} {s y : σ},
    (∀ p ∈ l, ∀ s s', f s p = .ok s' → π s' = π s) → l.foldlM f s = .ok y → π y = π s
  | [], s, y, _, h => by cases h; rfl
  | q :: l, s, y, hf, h => by
    rw [List.foldlM_cons] at h
    obtain ⟨s', h1, h2⟩ := Rs.bind_eq_ok.1 h
    rw [foldlM_keeps π (fun p hp => hf p (by simp [hp])) h2, hf q (by simp) _ _ h1]

/-! ## Notes -/

theorem note_item : Item False G.note_decl False (fun p => p.rule = .note_decl) (fun p n => parseNoteDecl p = .ok n)
    Source.Note.Ok Source.Note.toks (fun _ => []) (fun X _ => ∃ m, X = fun _ => m) := by
  intro pos s c r ps h
  obtain ⟨p, rfl, hr, h1⟩ := note_lay _ _ _ _ _ h
  refine ⟨p, rfl, hr, fun b _ => ?_⟩
  obtain ⟨n, hn, hl⟩ := h1 trivial
  refine ⟨n.toks.map .keep, fun _ => n, (LayD.ofRun h hl fun t ht => (soft_note n t ht).semi).weaken fun h =>
    absurd h (ends_soft (soft_note n) fun h => h), ⟨fun _ _ => hn, fun g => map_keep_tok g _⟩, by simp, n, rfl⟩

/-! ## Projects -/

theorem semi_projItem (i : ProjItem) : ∀ t ∈ i.toks, Semi t := by
  intro t ht
  cases i with
  | note n => exact (soft_note n t ht).semi
  | prop k v =>
    simp only [ProjItem.toks, List.mem_cons, List.not_mem_nil, or_false] at ht
    rcases ht with rfl | rfl | rfl
    · exact (soft_spaced rfl).semi
    · exact (soft_any rfl).semi
    · exact semi_aval v

theorem rbrace_ends (ts : List Tok) : ¬ EndsP False (lbrace :: (ts ++ [rbrace])) :=
  ends_last (t := rbrace) (soft_any rfl) ⟨'}', by simp [rbrace], by decide⟩ (ts := lbrace :: ts) (D := False)

abbrev ProjectT : (Sp → Source.Project) → ProjectBlock → Prop :=
  CT Source.Project.ast (ProjectBlock.mapSpan noPos) fun f b => { b with ident := f .project b.ident }

theorem project_item : Item False G.project_decl False (fun p => p.rule = .project_decl)
    (fun p b => parseProjectDecl p = .ok b) Source.Project.Ok Source.Project.toks (fun b => [b.ident]) ProjectT := by
  intro pos s c r ps h
  obtain ⟨kids, rfl, hb⟩ := rule_okP h rfl
  refine ⟨_, rfl, rfl, fun x hx => ?_⟩
  obtain ⟨c1, r1, p1, pos2, r2, c2, p2, h1, hg, h2, hp, rfl⟩ := seq_okP hb
  obtain ⟨kw, hk, l1, rfl⟩ := keep_kw (k' := k!"project ") (by decide) (by simp) h1
  obtain ⟨c3, r3, p3, pos3, r4, c4, p4, h3, hg', h4, hp', rfl⟩ := seq_okP h2
  obtain ⟨p, rfl, hr, ih⟩ := ident_item _ _ _ _ _ h3
  obtain ⟨kids, rfl, hb'⟩ := rule_okP h4 rfl
  unfold parseProjectDecl at hx
  simp only [Pair.children_mk, Pair.rule_mk, List.cons_append, List.nil_append, List.foldlM_cons, hr] at hx
  obtain ⟨y, hy, hx⟩ := Rs.bind_eq_ok.1 hx
  obtain ⟨i, hi, hy⟩ := Rs.bind_eq_ok.1 hy
  cases hy
  obtain ⟨y, hy, hx⟩ := Rs.bind_eq_ok.1 hx
  cases hx
  have hkids : ∀ p ∈ kids, ProjAcc p := by
    intro q hq
    obtain ⟨b, b', hb⟩ := foldlM_steps hy q hq
    split at hb
    · rename_i hr
      obtain ⟨y, hy, -⟩ := Rs.bind_eq_ok.1 hb
      exact .inr ⟨hr, y, hy⟩
    · rename_i hr
      obtain ⟨y, hy, -⟩ := Rs.bind_eq_ok.1 hb
      exact .inl ⟨hr, y, hy⟩
    · simp [throwRules] at hb
  have hid : x.ident = i := by
    refine foldlM_keeps ProjectBlock.ident ?_ hy
    intro q _ s s' hs
    split at hs
    · obtain ⟨z, -, hs⟩ := Rs.bind_eq_ok.1 hs
      cases hs
      simp only
      split
      · split <;> rfl
      · rfl
    · obtain ⟨z, -, hs⟩ := Rs.bind_eq_ok.1 hs
      cases hs
      rfl
    · simp [throwRules] at hs
  obtain ⟨is, his, l3⟩ := braced_lay proj_item_lay hb' hkids
  have l3 := (LayD.ofRun hb' l3 (by
    intro t ht
    simp only [List.mem_cons, List.mem_append, List.mem_flatMap, List.not_mem_nil, or_false] at ht
    rcases ht with rfl | ⟨i, -, ht⟩ | rfl
    · exact (soft_any rfl).semi
    · exact semi_projItem i t ht
    · exact (soft_any rfl).semi)).weaken (rbrace_ends _)
  obtain ⟨ls, X, l2, ⟨g1, g2⟩, g3, g4⟩ := ih i hi
  refine ⟨_, fun g => ⟨kw, X g, is⟩, (l1.seq hg (l2.seq hg' l3)).at (by omega), ⟨?_, ?_⟩, ?_, ?_⟩
  · intro g hg; exact ⟨hk, g1 g hg, his⟩
  · intro g; rw [tok_append, tok_append, g2 g, map_keep_tok]; rfl
  · intro k hk
    simp only [hid] at hk
    exact ((g3 k hk).left).right
  · intro h0 g
    have e1 := congrArg ProjectBlock.properties h0
    have e2 := congrArg ProjectBlock.database_type h0
    have e3 := congrArg ProjectBlock.note h0
    simp only [Source.Project.ast, ProjectBlock.mapSpan] at e1 e2 e3
    rw [e1] at e2
    simp only [Source.Project.ast, ProjectBlock.mapSpan, e1, e2, e3, g4 g, hid]

/-! ## Indexes -/

def IndexesColumnType.ids : IndexesColumnType → List Ident
  | .string i => [i]
  | .expr _ => []

def IColT (X : Sp → ICol) (b : IndexesColumnType) : Prop :=
  ∀ g, (X g).ast = (b.mapNames fun _ => ren g).mapSpan noPos

theorem icol_item : Item False G.indexes_ident False (fun p => p.rule = .indexes_ident)
    (fun p b => parseIndexesIdent p = .ok b) ICol.Ok (fun c => [c.tok]) IndexesColumnType.ids IColT := by
  intro pos s c r ps h
  obtain ⟨kids, rfl, hb⟩ := rule_okP h rfl
  refine ⟨_, rfl, rfl, fun x hx => ?_⟩
  rcases alt_ok hb with h | ⟨-, h⟩
  · obtain ⟨p, rfl, hr, ih⟩ := ident_item _ _ _ _ _ h
    unfold parseIndexesIdent at hx
    walkAt hx [hr]
    obtain ⟨i, hi, hx⟩ := Rs.bind_eq_ok.1 hx
    cases hx
    obtain ⟨ls, X, l, ⟨g1, g2⟩, g3, g4⟩ := ih i hi
    exact ⟨ls, fun g => .name (X g), l, ⟨g1, g2⟩, g3, fun g => by simp only [ICol.ast, g4 g]; rfl⟩
  · obtain ⟨y, hy, rfl, rfl, sp, sp', rfl⟩ := bq_ok na h
    cases hx
    refine ⟨[.keep (ICol.expr y).tok], fun _ => .expr y,
      LayD.keep rfl (quote_text_ne (by simp) _) (soft_quote (x := y) rfl) (fun h => h.elim) hy.2,
      ⟨fun _ _ => hy.1, fun g => rfl⟩, by simp [IndexesColumnType.ids], fun g => rfl⟩

theorem map_icolT {Xs : List (Sp → ICol)} {is : List IndexesColumnType} (h : List.Forall₂ IColT Xs is) (g : Sp) :
    (Xs.map (· g)).map ICol.ast = (is.map (·.mapNames fun _ => ren g)).map (·.mapSpan noPos) := by
  induction h with
  | nil => rfl
  | cons h _ ih => simp only [List.map_cons, ih, h g]

abbrev IDefT : (Sp → IDef) → IndexesDef → Prop := CT IDef.ast (IndexesDef.mapSpan noPos) IndexesDef.mapNames

def IndexesDef.ids (d : IndexesDef) : List Ident := d.cols.flatMap (·.ids)

/-- What the definition's loop computes. -/
theorem idef_inv {sp t rl} {l ps : List Pair} {d : IndexesDef} (hl : ∀ p ∈ l, p.rule = .indexes_ident)
    (hps : ps = [] ∨ ∃ p, ps = [p] ∧ p.rule = .indexes_settings)
    (h : parseIndexesSingleMulti (.mk rl sp t (l ++ ps)) = .ok d) :
    List.Forall₂ (fun p b => parseIndexesIdent p = .ok b) l d.cols ∧ ∀ p ∈ ps, Acc parseIndexesSettings p := by
  unfold parseIndexesSingleMulti at h
  rw [Pair.children_mk, List.foldlM_append] at h
  obtain ⟨y, hy, h⟩ := Rs.bind_eq_ok.1 h
  obtain ⟨cs, h1, rfl⟩ := foldlM_inv (B := fun p b => parseIndexesIdent p = .ok b)
    (g := fun (s : IndexesDef) b => { s with cols := s.cols ++ [b] }) (by
    intro p hp s s' hs
    simp only [hl p hp] at hs
    obtain ⟨i, hi, hs⟩ := Rs.bind_eq_ok.1 hs
    cases hs
    exact ⟨i, hi, rfl⟩) hy
  have e : ∀ (cs : List IndexesColumnType) (s : IndexesDef),
      cs.foldl (fun (s : IndexesDef) b => { s with cols := s.cols ++ [b] }) s = { s with cols := s.cols ++ cs } := by
    intro cs
    induction cs with
    | nil => simp
    | cons c cs ih => intro s; rw [List.foldl_cons, ih]; simp
  rw [e] at h
  rcases hps with rfl | ⟨p, rfl, hp⟩
  · cases h
    exact ⟨by simpa using h1, by simp⟩
  · simp only [List.foldlM_cons, hp] at h
    obtain ⟨z, hz, h⟩ := Rs.bind_eq_ok.1 h
    obtain ⟨w, hw, hz⟩ := Rs.bind_eq_ok.1 hz
    cases hz
    cases h
    refine ⟨by simpa using h1, ?_⟩
    intro q hq
    cases List.mem_singleton.1 hq
    exact ⟨w, hw⟩

theorem idefT_of {o : Option (List Attr)} {Xs : List (Sp → ICol)} {X : Sp → IDef} {d : IndexesDef}
    (h : List.Forall₂ IColT Xs d.cols) (h1 : ∀ g, (X g).cols = Xs.map (· g)) (h2 : ∀ g, (X g).settings = o) :
    IDefT X d := by
  intro h0 g
  have e0 := congrArg IndexesDef.settings h0
  simp only [IDef.ast, IndexesDef.mapSpan, h2] at e0
  simp only [IDef.ast, IndexesDef.mapSpan, IndexesDef.mapNames, h1, h2, map_icolT h, e0]

theorem idef_single_item : Item False G.indexes_single False
    (fun p => p.rule = .indexes_single ∨ p.rule = .indexes_multi) (fun p b => parseIndexesSingleMulti p = .ok b)
    IDef.Ok IDef.toks IndexesDef.ids IDefT := by
  intro pos s c r ps h
  obtain ⟨kids, rfl, hb⟩ := rule_okP h rfl
  refine ⟨_, rfl, .inl rfl, fun x hx => ?_⟩
  obtain ⟨c1, r1, p1, pos2, r2, c2, p2, h1, hg, h2, hp, rfl⟩ := seq_okP hb
  obtain ⟨p, rfl, hr, ih⟩ := icol_item _ _ _ _ _ h1
  obtain ⟨hps, ih2⟩ := optSettings indexes_settings_lay h2
  obtain ⟨k1, k2⟩ := idef_inv (l := [p]) (by simpa using hr) hps hx
  obtain ⟨o, ho, l2⟩ := ih2 k2
  obtain ⟨sp, cols, st⟩ := x
  cases k1 with
  | cons hi hn =>
  cases hn
  obtain ⟨ls, X, l1, ⟨g1, g2⟩, g3, g4⟩ := ih _ hi
  refine ⟨_, fun g => .single (X g) o, (l1.seq hg l2).at hp, ⟨?_, ?_⟩, ?_, ?_⟩
  · intro g hg; exact ⟨by simpa [IDef.cols] using g1 g hg, ho⟩
  · intro g; rw [tok_append, g2 g, map_keep_tok]; rfl
  · intro k hk
    exact (g3 k (by simpa [IndexesDef.ids] using hk)).left
  · exact idefT_of (Xs := [X]) (.cons g4 .nil) (fun g => rfl) (fun g => rfl)

theorem idef_multi_item : Item False G.indexes_multi False
    (fun p => p.rule = .indexes_single ∨ p.rule = .indexes_multi) (fun p b => parseIndexesSingleMulti p = .ok b)
    IDef.Ok IDef.toks IndexesDef.ids IDefT := by
  intro pos s c r ps h
  obtain ⟨kids, rfl, hb⟩ := rule_okP h rfl
  refine ⟨_, rfl, .inr rfl, fun x hx => ?_⟩
  obtain ⟨c1, r1, p1, pos2, r2, c2, p2, h1, hg, h2, hp, rfl⟩ := seq_okP hb
  obtain ⟨l1, rfl⟩ := keep_str (D := False) (by simp) (fun h => h.elim) h1
  obtain ⟨c3, r3, p3, pos3, r4, c4, p4, h3, hg', h4, hp', rfl⟩ := seq_okP h2
  obtain ⟨hrs, ih⟩ := list_item icol_item.any h3
  obtain ⟨c5, r5, p5, pos4, r6, c6, p6, h5, hg3, h6, hp3, rfl⟩ := seq_okP h4
  obtain ⟨l3, rfl⟩ := keep_str (D := True) (by simp) (fun _ => ⟨')', by simp, by decide⟩) h5
  obtain ⟨hps, ih2⟩ := optSettings indexes_settings_lay h6
  obtain ⟨k1, k2⟩ := idef_inv hrs hps hx
  obtain ⟨o, ho, l4⟩ := ih2 k2
  obtain ⟨ls, Xs, l2, g1, g2, g3, g4⟩ := ih _ k1
  refine ⟨_, fun g => .multi (Xs.map (· g)) o, (l1.seq hg (l2.seq hg' (l3.seq hg3 l4))).at (by omega), ⟨?_, ?_⟩, ?_, ?_⟩
  · intro g hg
    refine ⟨?_, ho⟩
    intro c hc
    obtain ⟨X, hX, rfl⟩ := List.mem_map.1 hc
    exact g1 g hg X hX
  · intro g; rw [tok_append, tok_append, tok_append, g2 g, map_keep_tok]; rfl
  · intro k hk
    obtain ⟨b, hb, hk⟩ := List.mem_flatMap.1 hk
    exact ((g3 b hb k hk).left).right
  · exact idefT_of g4 (fun g => rfl) (fun g => rfl)

abbrev IdxsT : (Sp → Idxs) → IndexesBlock → Prop := CT Idxs.ast (IndexesBlock.mapSpan noPos) IndexesBlock.mapNames

def IndexesBlock.ids (b : IndexesBlock) : List Ident := b.defs.flatMap (·.ids)

theorem indexes_item : Item False G.indexes_decl False (fun p => p.rule = .indexes_decl)
    (fun p b => parseIndexesDecl p = .ok b) Idxs.Ok Idxs.toks IndexesBlock.ids IdxsT := by
  intro pos s c r ps h
  obtain ⟨kids, rfl, hb⟩ := rule_okP h rfl
  refine ⟨_, rfl, rfl, fun x hx => ?_⟩
  obtain ⟨c1, r1, p1, pos2, r2, c2, p2, h1, hg, h2, hp, rfl⟩ := seq_okP hb
  obtain ⟨kw, hk, l1, rfl⟩ := keep_kw (k' := k!"indexes") (by decide) (by simp) h1
  obtain ⟨kids, rfl, hb'⟩ := rule_okP h2 rfl
  have hx : parseIndexesBlock (.mk .indexes_block ⟨pos2, pos2 + blen c2⟩ c2 kids) = .ok x := hx
  obtain ⟨hrs, ih⟩ := braced_item (idef_single_item.alt idef_multi_item) hb'
  unfold parseIndexesBlock at hx
  obtain ⟨bs, k1, rfl⟩ := foldlM_inv (B := fun p b => parseIndexesSingleMulti p = .ok b)
    (g := fun (s : IndexesBlock) b => { s with defs := s.defs ++ [b] }) (by
    intro p hp s s' hs
    rcases hrs p hp with hr | hr <;>
    · simp only [hr] at hs
      obtain ⟨i, hi, hs⟩ := Rs.bind_eq_ok.1 hs
      cases hs
      exact ⟨i, hi, rfl⟩) hx
  have e : ∀ (cs : List IndexesDef) (s : IndexesBlock),
      cs.foldl (fun (s : IndexesBlock) b => { s with defs := s.defs ++ [b] }) s = { s with defs := s.defs ++ cs } := by
    intro cs
    induction cs with
    | nil => simp
    | cons c cs ih => intro s; rw [List.foldl_cons, ih]; simp
  rw [e]
  obtain ⟨ls, Xs, l2, g1, g2, g3, g4⟩ := ih _ k1
  refine ⟨_, fun g => ⟨kw, Xs.map (· g)⟩, (l1.seq hg l2).at hp, ⟨?_, ?_⟩, ?_, ?_⟩
  · intro g hg
    refine ⟨hk, ?_⟩
    intro c hc
    obtain ⟨X, hX, rfl⟩ := List.mem_map.1 hc
    exact g1 g hg X hX
  · intro g; rw [tok_append, g2 g]; rfl
  · intro k hk
    obtain ⟨b, hb, hk⟩ := List.mem_flatMap.1 hk
    exact (g3 b hb k hk).right
  · intro h0 g
    have e0 := congrArg IndexesBlock.defs h0
    simp only [Idxs.ast, IndexesBlock.mapSpan, List.nil_append] at e0
    simp only [Idxs.ast, IndexesBlock.mapSpan, IndexesBlock.mapNames, List.nil_append, ct_map g4 e0 g]

end Dbml
