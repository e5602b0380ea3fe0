import Verif.Proofs.Rename3

/-!
# Renaming: refs, indexes, enums, groups
-/

namespace Dbml
open Syntax Source Spec

/-! ## Settings without names -/

theorem rbrack_ends {α : Type} (f : α → List Tok) (o : Option (List α)) : ¬ EndsP False (optBrackets f o) := by
  cases o with
  | none => exact fun h => h
  | some xs =>
    have := ends_last (t := rbrack) (soft_any rfl) ⟨']', by simp [rbrack], by decide⟩ (ts := lbrack :: commaSep f xs)
      (D := False)
    simpa [optBrackets, brackets] using this

theorem optSettings {e : PExpr} {rl : Rule} {W : Pair → Prop} {ok : List Attr → Prop}
    (h : GetsR e rl W ok (brackets Attr.toks)) {pos s c r ps} (hr : run G.skip (.opt e) .nonAtomic pos s = .ok c r ps) :
    (ps = [] ∨ ∃ p, ps = [p] ∧ p.rule = rl) ∧ ((∀ p ∈ ps, W p) → ∃ o : Option (List Attr),
      (∀ as, o = some as → ok as) ∧ LayP ((optBrackets Attr.toks o).map .keep) pos s (pos + blen c) r) := by
  refine ⟨?_, ?_⟩
  · rcases opt_ok hr with ⟨-, rfl, rfl, rfl⟩ | hr
    · exact .inl rfl
    · obtain ⟨p, rfl, h1, -⟩ := h _ _ _ _ _ hr
      exact .inr ⟨p, rfl, h1⟩
  · intro hw
    obtain ⟨o, ho, l, -⟩ := opt_lay h hr (fun p hp _ => hw p hp)
    rw [optBrackets_elim] at l
    refine ⟨o, ho, (LayD.ofRun hr l ?_).weaken fun h => absurd h (rbrack_ends _ o)⟩
    cases o with
    | none => simp [optBrackets]
    | some as => exact semi_brackets fun a => semi_attr a

/-- The AST of `X` is that of `b` with the new spellings, provided it is so in the old spelling. -/
def CT {α β : Type} (ast : α → β) (er : β → β) (mn : (Role → Ident → Ident) → β → β) (X : Sp → α) (b : β) : Prop :=
  ast (X noSp) = er b → ∀ g, ast (X g) = er (mn (fun _ => ren g) b)

theorem ren_noSp (i : Ident) : ren noSp i = i := rfl

/-! ## Refs -/

def StmtT (X : Sp → Stmt) (b : RefBlock) : Prop :=
  REndT (fun g => (X g).lhs) b.lhs ∧ REndT (fun g => (X g).rhs) b.rhs ∧ (∀ g, (X g).rel = b.rel) ∧
    ∃ o, ∀ g, (X g).settings = o

theorem stmt_item : Item False G.ref_stmt False (fun p => p.rule = .ref_stmt) (fun p b => parseRefStmt p = .ok b)
    (fun x : Stmt => x.lhs.Ok ∧ x.rel ≠ .undef ∧ x.rhs.Ok ∧ ∀ as, x.settings = some as → RefAttrsOk as)
    (fun x => x.lhs.toks ++ (relTok x.rel :: (x.rhs.toks ++ optBrackets Attr.toks x.settings)))
    (fun b => b.lhs.ids ++ b.rhs.ids) StmtT := by
  intro pos s c r ps h
  obtain ⟨kids, rfl, hb⟩ := rule_okP h rfl
  refine ⟨_, rfl, rfl, fun x hx => ?_⟩
  obtain ⟨c1, r1, p1, pos2, r2, c2, p2, h1, hg, h2, hp, rfl⟩ := seq_okP hb
  obtain ⟨p, rfl, hr, ih1⟩ := rend_item _ _ _ _ _ h1
  obtain ⟨c3, r3, p3, pos3, r4, c4, p4, h3, hg', h4, hp', rfl⟩ := seq_okP h2
  obtain ⟨q, rel, rfl, hq, hrel, hne, l2⟩ := relation_item h3
  obtain ⟨c5, r5, p5, pos4, r6, c6, p6, h5, hg3, h6, hp3, rfl⟩ := seq_okP h4
  obtain ⟨p', rfl, hr', ih3⟩ := rend_item _ _ _ _ _ h5
  obtain ⟨hps, ih4⟩ := optSettings rel_settings_lay h6
  unfold parseRefStmt at hx
  simp only [Pair.children_mk, List.cons_append, List.nil_append, List.foldlM_cons, hr, hq, hr', hrel] at hx
  obtain ⟨y, hy, hx⟩ := Rs.bind_eq_ok.1 hx
  obtain ⟨v, hv, hy⟩ := Rs.bind_eq_ok.1 hy
  rw [if_pos trivial] at hy
  cases hy
  obtain ⟨y, hy, hx⟩ := Rs.bind_eq_ok.1 hx
  cases hy
  obtain ⟨y, hy, hx⟩ := Rs.bind_eq_ok.1 hx
  obtain ⟨v', hv', hy⟩ := Rs.bind_eq_ok.1 hy
  rw [if_neg hne] at hy
  cases hy
  have key : (∀ p ∈ p6, Acc parseRelSettings p) ∧ x.lhs = v ∧ x.rhs = v' ∧ x.rel = rel := by
    rcases hps with rfl | ⟨w, rfl, hw⟩
    · cases hx
      exact ⟨by simp, rfl, rfl, rfl⟩
    · simp only [List.foldlM_cons, hw] at hx
      obtain ⟨y, hy, hx⟩ := Rs.bind_eq_ok.1 hx
      obtain ⟨z, hz, hy⟩ := Rs.bind_eq_ok.1 hy
      cases hy
      cases hx
      refine ⟨?_, rfl, rfl, rfl⟩
      intro p hp
      cases List.mem_singleton.1 hp
      exact ⟨z, hz⟩
  obtain ⟨k1, k2, k3, k4⟩ := key
  obtain ⟨o, ho, l4⟩ := ih4 k1
  obtain ⟨ls, X, l1, ⟨g1, g2⟩, g3, g4⟩ := ih1 v hv
  obtain ⟨ls', X', l3, ⟨g1', g2'⟩, g3', g4'⟩ := ih3 v' hv'
  refine ⟨_, fun g => ⟨X g, rel, X' g, o⟩, (l1.seq hg (l2.seq hg' (l3.seq hg3 l4))).at (by omega), ⟨?_, ?_⟩, ?_, ?_⟩
  · intro g hg; exact ⟨g1 g hg, hne, g1' g hg, ho⟩
  · intro g; rw [tok_append, tok_append, tok_append, g2 g, g2' g, map_keep_tok]; rfl
  · intro k hk
    simp only [k2, k3] at hk
    rcases List.mem_append.1 hk with hk | hk
    · exact (g3 k hk).left
    · exact ((g3' k hk).left).right.right
  · refine ⟨?_, ?_, ?_, o, fun g => rfl⟩
    · rw [k2]; exact g4
    · rw [k3]; exact g4'
    · intro g; exact k4.symm

/-- An optional identifier. -/
theorem optIdent {pos s c r ps} (hr : run G.skip (.opt G.ident) .nonAtomic pos s = .ok c r ps) :
    (ps = [] ∧ LayP [] pos s (pos + blen c) r) ∨ ∃ p, ps = [p] ∧ p.rule = .ident ∧ ∀ i, parseIdent p = .ok i →
      ∃ ls X, LayP ls pos s (pos + blen c) r ∧ Got Name.Ok (fun n => [n.tok]) (fun i => [i]) IdentT ls X i := by
  rcases opt_ok hr with ⟨-, rfl, rfl, rfl⟩ | hr
  · exact .inl ⟨rfl, LayD.nil⟩
  · exact .inr (ident_item _ _ _ _ _ hr)

def RefBlock.ids (b : RefBlock) : List Ident := b.name.toList ++ (b.lhs.ids ++ b.rhs.ids)

abbrev RefT : (Sp → Source.Ref) → RefBlock → Prop :=
  CT Source.Ref.ast (RefBlock.mapSpan noPos) RefBlock.mapNames

theorem refT_of {kw br} {o : Sp → Option Name} {X : Sp → Stmt} {b : RefBlock} {n : Option Ident} (h1 : OIdentT o n)
    (h2 : StmtT X b) : RefT (fun g => ⟨kw, o g, br, (X g).lhs, (X g).rel, (X g).rhs, (X g).settings⟩)
      { b with name := n } := by
  intro h0 g
  obtain ⟨a1, a2, a3, s, a4⟩ := h2
  have e0 := congrArg RefBlock.settings h0
  simp only [Source.Ref.ast, RefBlock.mapSpan, a4] at e0
  have e1 := h1 g
  have e2 := a1 g
  have e3 := a2 g
  have e4 := a3 g
  simp only at e2 e3
  simp only [Source.Ref.ast, RefBlock.mapSpan, RefBlock.mapNames, a4, e1, e2, e3, e4, e0]

/-- The name and the statement. -/
theorem refInner_inv {q : Pair} (hq : q.rule = .ref_stmt) {ps : List Pair}
    (hps : ps = [] ∨ ∃ p, ps = [p] ∧ p.rule = .ident) {y} (h : parseRefInner none (ps ++ [q]) = .ok (some y)) :
    ∃ b n, parseRefStmt q = .ok b ∧ y = { b with name := n } ∧
      ((ps = [] ∧ n = none) ∨ ∃ p i, ps = [p] ∧ parseIdent p = .ok i ∧ n = some i) := by
  rcases hps with rfl | ⟨p, rfl, hp⟩
  · simp only [List.nil_append, parseRefInner, hq] at h
    obtain ⟨b, hb, h⟩ := Rs.bind_eq_ok.1 h
    cases h
    exact ⟨b, none, hb, rfl, .inl ⟨rfl, rfl⟩⟩
  · simp only [List.cons_append, List.nil_append, parseRefInner, hq, hp] at h
    obtain ⟨i, hi, h⟩ := Rs.bind_eq_ok.1 h
    obtain ⟨b, hb, h⟩ := Rs.bind_eq_ok.1 h
    cases h
    exact ⟨b, some i, hb, rfl, .inr ⟨p, i, rfl, hi, rfl⟩⟩

theorem refDecl_inv {sp t} {q : Pair} (hq : q.rule = .ref_stmt) {rl} (hrl : rl = .ref_block ∨ rl = .ref_short)
    {ps : List Pair} (hps : ps = [] ∨ ∃ p, ps = [p] ∧ p.rule = .ident) {sp' t' x}
    (h : parseRefDecl (.mk .ref_decl sp t [.mk rl sp' t' (ps ++ [q])]) = .ok x) :
    ∃ b n, parseRefStmt q = .ok b ∧ x = { b with name := n } ∧
      ((ps = [] ∧ n = none) ∨ ∃ p i, ps = [p] ∧ parseIdent p = .ok i ∧ n = some i) := by
  have h' : (do
        match ← parseRefInner none (ps ++ [q]) with
        | some b => return b
        | none => parseRefDecl.go [] : Rs RefBlock) = .ok x := by
    rcases hrl with rfl | rfl <;> exact h
  obtain ⟨o, ho, h'⟩ := Rs.bind_eq_ok.1 h'
  cases o with
  | none =>
    simp [parseRefDecl.go] at h'
  | some y =>
    cases h'
    exact refInner_inv hq hps ho

theorem optIdent_got {pos s c r ps} (hr : run G.skip (.opt G.ident) .nonAtomic pos s = .ok c r ps) {n : Option Ident}
    (h : (ps = [] ∧ n = none) ∨ ∃ p i, ps = [p] ∧ parseIdent p = .ok i ∧ n = some i) :
    ∃ ls X, LayP ls pos s (pos + blen c) r ∧ Got (fun o : Option Name => ∀ n, o = some n → n.Ok)
      (fun o => o.toList.map (·.tok)) Option.toList OIdentT ls X n := by
  rcases optIdent hr with ⟨e, l⟩ | ⟨p, e, hp, h1⟩
  · rcases h with ⟨-, rfl⟩ | ⟨p, i, e', -, -⟩
    · exact ⟨[], fun _ => none, l, ⟨by simp, fun g => rfl⟩, by simp, fun g => rfl⟩
    · rw [e] at e'; cases e'
  · rcases h with ⟨e', -⟩ | ⟨p', i, e', hi, rfl⟩
    · rw [e] at e'; cases e'
    · rw [e] at e'; cases e'
      obtain ⟨ls, X, l, ⟨g1, g2⟩, g3, g4⟩ := h1 i hi
      refine ⟨ls, fun g => some (X g), l, ⟨?_, ?_⟩, ?_, ?_⟩
      · rintro g hg n ⟨⟩; exact g1 g hg
      · intro g; rw [g2 g]; rfl
      · intro k hk; exact g3 k (by simpa using hk)
      · intro g; simp only [Option.map_some, g4 g]

theorem ref_item : Item False G.ref_decl False (fun p => p.rule = .ref_decl) (fun p b => parseRefDecl p = .ok b)
    Source.Ref.Ok Source.Ref.toks RefBlock.ids RefT := by
  intro pos s c r ps h
  obtain ⟨kids, rfl, hb⟩ := rule_okP h rfl
  refine ⟨_, rfl, rfl, fun x hx => ?_⟩
  rcases alt_ok hb with h | ⟨-, h⟩
  · obtain ⟨kids, rfl, hc⟩ := rule_okP h rfl
    obtain ⟨c1, r1, p1, pos2, r2, c2, p2, h1, hg, h2, hp, rfl⟩ := seq_okP hc
    obtain ⟨kw, hk, l1, rfl⟩ := keep_kw (k' := k!"ref") (by decide) (by simp) h1
    obtain ⟨c3, r3, p3, pos3, r4, c4, p4, h3, hg', h4, hp', rfl⟩ := seq_okP h2
    obtain ⟨c5, r5, p5, pos4, r6, c6, p6, h5, hg3, h6, hp3, rfl⟩ := seq_okP h4
    obtain ⟨l3, rfl⟩ := keep_str (D := False) (by simp) (fun h => h.elim) h5
    obtain ⟨c7, r7, p7, pos5, r8, c8, p8, h7, hg4, h8, hp4, rfl⟩ := seq_okP h6
    obtain ⟨l5, rfl⟩ := keep_str (D := False) (by simp) (fun h => h.elim) h8
    obtain ⟨q, rfl, hq, ih⟩ := stmt_item _ _ _ _ _ h7
    simp only [List.nil_append, List.append_nil] at hx
    obtain ⟨b, n, hb, rfl, hn⟩ := refDecl_inv hq (.inl rfl)
      ((optIdent h3).imp And.left fun ⟨p, h1, h2, _⟩ => ⟨p, h1, h2⟩) hx
    obtain ⟨ls, X, l2, ⟨g1, g2⟩, g3, g4⟩ := optIdent_got h3 hn
    obtain ⟨ls', X', l4, ⟨g1', g2'⟩, g3', g4'⟩ := ih b hb
    refine ⟨_, _, (l1.seq hg (l2.seq hg' (l3.seq hg3 (l4.seq hg4 l5)))).at (by omega), ⟨?_, ?_⟩, ?_,
      refT_of (kw := kw) (br := true) g4 g4'⟩
    · intro g hg
      obtain ⟨a1, a2, a3, a4⟩ := g1' g hg
      exact ⟨hk, g1 g hg, a1, a2, a3, a4⟩
    · intro g; rw [tok_append, tok_append, tok_append, tok_append, g2 g, g2' g]; rfl
    · intro k hk
      rcases List.mem_append.1 hk with hk | hk
      · exact ((g3 k hk).left).right
      · exact ((g3' k hk).left).right.right.right
  · obtain ⟨kids, rfl, hc⟩ := rule_okP h rfl
    obtain ⟨c1, r1, p1, pos2, r2, c2, p2, h1, hg, h2, hp, rfl⟩ := seq_okP hc
    obtain ⟨kw, hk, l1, rfl⟩ := keep_kw (k' := k!"ref") (by decide) (by simp) h1
    obtain ⟨c3, r3, p3, pos3, r4, c4, p4, h3, hg', h4, hp', rfl⟩ := seq_okP h2
    obtain ⟨c5, r5, p5, pos4, r6, c6, p6, h5, hg3, h6, hp3, rfl⟩ := seq_okP h4
    obtain ⟨l3, rfl⟩ := keep_str (D := False) (by simp) (fun h => h.elim) h5
    obtain ⟨q, rfl, hq, ih⟩ := stmt_item _ _ _ _ _ h6
    simp only [List.nil_append, List.append_nil] at hx
    obtain ⟨b, n, hb, rfl, hn⟩ := refDecl_inv hq (.inr rfl)
      ((optIdent h3).imp And.left fun ⟨p, h1, h2, _⟩ => ⟨p, h1, h2⟩) hx
    obtain ⟨ls, X, l2, ⟨g1, g2⟩, g3, g4⟩ := optIdent_got h3 hn
    obtain ⟨ls', X', l4, ⟨g1', g2'⟩, g3', g4'⟩ := ih b hb
    refine ⟨_, _, (l1.seq hg (l2.seq hg' (l3.seq hg3 l4))).at (by omega), ⟨?_, ?_⟩, ?_,
      refT_of (kw := kw) (br := false) g4 g4'⟩
    · intro g hg
      obtain ⟨a1, a2, a3, a4⟩ := g1' g hg
      exact ⟨hk, g1 g hg, a1, a2, a3, a4⟩
    · intro g; rw [tok_append, tok_append, tok_append, g2 g, g2' g]; rfl
    · intro k hk
      rcases List.mem_append.1 hk with hk | hk
      · exact ((g3 k hk).left).right
      · exact (g3' k hk).right.right.right

end Dbml
