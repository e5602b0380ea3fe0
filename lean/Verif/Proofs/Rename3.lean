import Verif.Proofs.Rename2

/-!
# Renaming: names and references
-/

namespace Dbml
open Syntax Source Spec

theorem rule_okP {r m body a pos s c rest ps} (h : run G.skip (.rule r m body) a pos s = .ok c rest ps)
    (he : emits m a = true) :
    ∃ kids, ps = [.mk r ⟨pos, pos + blen c⟩ c kids] ∧
      run G.skip body (bodyAtomicity m a) pos s = .ok c rest kids := by
  simp only [run] at h
  split at h <;> try contradiction
  rename_i h1
  injection h with e1 e2 e3; subst e1 e2 e3
  exact ⟨_, by rw [if_pos he], h1⟩

macro "walkAt" h:ident "[" ls:Lean.Parser.Tactic.simpLemma,* "]" : tactic =>
  `(tactic| simp only [Pair.children_mk, Pair.rule_mk, Pair.text_mk, Pair.span_mk, List.foldlM_cons, List.foldlM_nil,
    bind_assoc, pure_bind, Rs.ok_bind', List.cons_append, List.nil_append, List.append_nil, List.head?_cons, Rs.orPanic,
    $ls,*] at $h:ident)

/-! ## Identifiers -/

/-- `X` is what `i` stands for, in any spelling. -/
def IdentT (X : Sp → Name) (i : Ident) : Prop := ∀ g, (X g).ast = (ren g i).mapSpan noPos

/-- The name at `pos`. -/
def spell (n : Name) (pos : Nat) : Sp → Name := fun g => (g pos).getD n

theorem spell_got {n : Name} {pos : Nat} {i : Ident} (hn : n.Ok) (h1 : i.span_range = ⟨pos, pos + blen n.text⟩)
    (h2 : i.raw = n.text) (h3 : i.to_string = n.value) :
    Got Name.Ok (fun n => [n.tok]) (fun i => [i]) IdentT [.name n pos] (spell n pos) i := by
  refine ⟨⟨?_, fun g => rfl⟩, ?_, ?_⟩
  · intro g hg
    unfold spell
    cases e : g pos with
    | none => exact hn
    | some w => exact hg _ _ e
  · intro j hj
    rw [List.mem_singleton.1 hj]
    unfold HasAt
    rw [h1]
    simp [LT.span?]
  · intro g
    have e : i.span_range.start = pos := by rw [h1]
    unfold spell ren
    rw [e]
    cases g pos with
    | none => simp [Name.ast, Ident.mapSpan, h2, h3]
    | some w => simp [Name.ast, Ident.mapSpan]

theorem ident_item : Item False G.ident False (fun p => p.rule = .ident) (fun p i => parseIdent p = .ok i) Name.Ok
    (fun n => [n.tok]) (fun i => [i]) IdentT := by
  intro pos s c r ps h
  obtain ⟨kids, rfl, hb⟩ := rule_okP h (emits_normal na)
  refine ⟨_, rfl, rfl, ?_⟩
  intro i hi
  rcases alt_ok hb with hb | ⟨-, hb⟩
  · obtain ⟨h1, h2, rfl, sp', rfl⟩ := var_ok na hb
    obtain ⟨ks, e, -⟩ := rule_okP hb rfl
    injection e with e _
    injection e with _ e
    subst e
    cases hi
    exact ⟨_, _, LayD.name (n := .word c) h1 h2, spell_got h1 rfl rfl rfl⟩
  · obtain ⟨x, h1, rfl, rfl, sp', sp'', rfl⟩ := dq_ok na hb
    obtain ⟨ks, e, -⟩ := rule_okP hb rfl
    injection e with e _
    injection e with _ e
    subst e
    cases hi
    exact ⟨_, _, LayD.name (n := .quoted x) h1.1 h1.2, spell_got (n := .quoted x) h1.1 rfl rfl rfl⟩

theorem map_identT {Xs : List (Sp → Name)} {is : List Ident} (h : List.Forall₂ IdentT Xs is) (g : Sp) :
    (Xs.map (· g)).map Name.ast = (is.map (ren g)).map (·.mapSpan noPos) := by
  induction h with
  | nil => rfl
  | cons h _ ih => simp only [List.map_cons, ih, h g]

/-- An optional identifier. -/
def OIdentT (X : Sp → Option Name) (o : Option Ident) : Prop :=
  ∀ g, (X g).map Name.ast = (o.map (ren g)).map (·.mapSpan noPos)

/-! ## Qualified names -/

theorem decl_ident_item : Item False G.decl_ident False (fun p => p.rule = .decl_ident)
    (fun p i => parseDeclIdent p = .ok i) (fun x : Option Name × Name => (∀ s, x.1 = some s → s.Ok) ∧ x.2.Ok)
    (fun x => qualToks x.1 x.2) (fun i => i.1.toList ++ [i.2])
    (fun X i => OIdentT (fun g => (X g).1) i.1 ∧ IdentT (fun g => (X g).2) i.2) := by
  intro pos s c r ps h
  obtain ⟨kids, rfl, hb⟩ := rule_okP h rfl
  refine ⟨_, rfl, rfl, fun i hi => ?_⟩
  obtain ⟨c1, r1, p1, pos2, r2, c2, p2, h1, hg, h2, hp, rfl⟩ := seq_okP hb
  obtain ⟨p, rfl, hr, h3⟩ := ident_item _ _ _ _ _ h1
  rcases opt_ok h2 with ⟨-, rfl, rfl, rfl⟩ | h2
  · unfold parseDeclIdent at hi
    walkAt hi [hr]
    obtain ⟨j, hj, hi⟩ := Rs.bind_eq_ok.1 hi
    cases hi
    obtain ⟨ls, X, l1, ⟨g1, g2⟩, g3, g4⟩ := h3 j hj
    refine ⟨_, fun g => (none, X g), (l1.seq hg .nil).at (by simpa using hp), ⟨?_, ?_⟩, ?_, ?_⟩
    · intro g hg; exact ⟨by simp, g1 g hg⟩
    · intro g; rw [List.append_nil, g2 g]; rfl
    · intro k hk; exact (g3 k (by simpa using hk)).left
    · exact ⟨fun g => rfl, g4⟩
  · obtain ⟨c3, r3, p3, pos3, r4, c4, p4, h4, hg', h5, hp', rfl⟩ := seq_okP h2
    obtain ⟨l2, rfl⟩ := keep_str (D := False) (by simp) (fun h => h.elim) h4
    obtain ⟨q, rfl, hq, h6⟩ := ident_item _ _ _ _ _ h5
    unfold parseDeclIdent at hi
    walkAt hi [hr, hq]
    obtain ⟨j, hj, hi⟩ := Rs.bind_eq_ok.1 hi
    obtain ⟨k, hk, hi⟩ := Rs.bind_eq_ok.1 hi
    cases hi
    obtain ⟨ls, X, l1, ⟨g1, g2⟩, g3, g4⟩ := h3 j hj
    obtain ⟨ls', X', l3, ⟨g1', g2'⟩, g3', g4'⟩ := h6 k hk
    refine ⟨_, fun g => (some (X g), X' g), (l1.seq hg (l2.seq hg' l3)).at (by omega), ⟨?_, ?_⟩, ?_, ?_⟩
    · intro g hg; exact ⟨by rintro _ ⟨⟩; exact g1 g hg, g1' g hg⟩
    · intro g; rw [tok_append, tok_append, g2 g, g2' g]; rfl
    · intro x hx
      simp at hx
      rcases hx with rfl | rfl
      · exact (g3 _ (by simp)).left
      · exact ((g3' _ (by simp)).right).right
    · exact ⟨fun g => by rw [Option.map_some, g4 g]; rfl, g4'⟩

theorem alias_item : Item False G.table_alias False
    (fun p => p.rule = .table_alias ∧ ∃ q, p.children = [q] ∧ q.rule = .ident)
    (fun p i => ∃ q, p.children = [q] ∧ q.rule = .ident ∧ parseIdent q = .ok i)
    (fun a : Alias => Keyword k!"as " a.kw ∧ a.name.Ok) (fun a => [{ txt := a.kw }, a.name.tok]) (fun i => [i])
    (fun X i => IdentT (fun g => (X g).name) i) := by
  intro pos s c r ps h
  obtain ⟨kids, rfl, hb⟩ := rule_okP h rfl
  obtain ⟨c1, r1, p1, pos2, r2, c2, p2, h1, hg, h2, hp, rfl⟩ := seq_okP hb
  obtain ⟨kw, hk, l1, rfl⟩ := keep_kw (k' := k!"as ") (by decide) (by simp) h1
  obtain ⟨p, rfl, hr, h3⟩ := ident_item _ _ _ _ _ h2
  refine ⟨_, rfl, ⟨rfl, p, rfl, hr⟩, ?_⟩
  rintro i ⟨q, hq, hqr, hi⟩
  simp at hq
  subst hq
  obtain ⟨ls, X, l2, ⟨g1, g2⟩, g3, g4⟩ := h3 i hi
  refine ⟨_, fun g => ⟨kw, X g⟩, (l1.seq hg l2).at hp, ⟨?_, ?_⟩, ?_, g4⟩
  · intro g hg; exact ⟨hk, g1 g hg⟩
  · intro g; rw [tok_append, g2 g]; rfl
  · intro x hx; exact (g3 x hx).right

/-! ## References -/

theorem relation_item {pos s c r ps} (h : run G.skip G.relation .nonAtomic pos s = .ok c r ps) :
    ∃ p x, ps = [p] ∧ p.rule = .relation ∧ Relation.fromStr p.text = some x ∧ x ≠ .undef ∧
      LayD False [.keep (relTok x)] pos s False (pos + blen c) r := by
  obtain ⟨kids, rfl, hb⟩ := rule_okP h rfl
  rcases alt_ok hb with hb | ⟨-, hb⟩
  · obtain ⟨l, -⟩ := keep_str (D := False) (by simp) (fun h => h.elim) hb
    obtain ⟨rfl, -, -⟩ := str_ok hb
    exact ⟨_, .many2many, rfl, rfl, rfl, by simp, l⟩
  rcases alt_ok hb with hb | ⟨-, hb⟩
  · obtain ⟨l, -⟩ := keep_str (D := False) (by simp) (fun h => h.elim) hb
    obtain ⟨rfl, -, -⟩ := str_ok hb
    exact ⟨_, .one2one, rfl, rfl, rfl, by simp, l⟩
  rcases alt_ok hb with hb | ⟨-, hb⟩
  · obtain ⟨l, -⟩ := keep_str (D := False) (by simp) (fun h => h.elim) hb
    obtain ⟨rfl, -, -⟩ := str_ok hb
    exact ⟨_, .many2one, rfl, rfl, rfl, by simp, l⟩
  · obtain ⟨l, -⟩ := keep_str (D := False) (by simp) (fun h => h.elim) hb
    obtain ⟨rfl, -, -⟩ := str_ok hb
    exact ⟨_, .one2many, rfl, rfl, rfl, by simp, l⟩

/-- The step of the loop over the columns of an endpoint. -/
def compStep (comps : List Ident) (p2 : Pair) : Rs (List Ident) :=
  match p2.rule with
  | .ident => do
    let i ← parseIdent p2
    return comps ++ [i]
  | _ => throwRules [.ident] p2

theorem compStep_inv {l : List Pair} {y : List Ident} (h : l.foldlM compStep [] = .ok y) :
    List.Forall₂ (fun p i => parseIdent p = .ok i) l y := by
  obtain ⟨bs, h1, rfl⟩ := foldlM_inv (B := fun p i => parseIdent p = .ok i) (g := fun s b => s ++ [b]) (by
    intro p _ s s' hs
    unfold compStep at hs
    split at hs
    · obtain ⟨i, hi, hs⟩ := Rs.bind_eq_ok.1 hs
      cases hs
      exact ⟨i, hi, rfl⟩
    · simp [throwRules] at hs) h
  have : ∀ (bs : List Ident) acc, bs.foldl (fun s b => s ++ [b]) acc = acc ++ bs := by
    intro bs
    induction bs with
    | nil => simp
    | cons b bs ih => intro acc; simp [ih]
  rw [this, List.nil_append]
  exact h1

theorem comp_item : Item False G.ref_composition False (fun p => p.rule = .ref_composition)
    (fun p cs => p.children.foldlM compStep [] = .ok cs) (fun c : Comp => ∀ n ∈ c.names, n.Ok) Comp.toks
    (fun cs => cs) (fun X cs => ∀ g, (X g).names.map Name.ast = (cs.map (ren g)).map (·.mapSpan noPos)) := by
  intro pos s c r ps h
  obtain ⟨kids, rfl, hb⟩ := rule_okP h rfl
  refine ⟨_, rfl, rfl, fun cs hcs => ?_⟩
  have hcs := compStep_inv hcs
  rw [Pair.children_mk] at hcs
  rcases alt_ok hb with hb | ⟨-, hb⟩
  · obtain ⟨p, rfl, -, h1⟩ := ident_item _ _ _ _ _ hb
    cases hcs with
    | cons hi hn =>
    cases hn
    obtain ⟨ls, X, l1, ⟨g1, g2⟩, g3, g4⟩ := h1 _ hi
    refine ⟨_, fun g => .one (X g), l1, ⟨?_, g2⟩, ?_, ?_⟩
    · intro g hg n hn; cases List.mem_singleton.1 hn; exact g1 g hg
    · exact g3
    · intro g; simp only [Comp.names, List.map_cons, List.map_nil, g4 g]
  · obtain ⟨c1, r1, p1, pos2, r2, c2, p2, h1, hg, h2, hp, rfl⟩ := seq_okP hb
    obtain ⟨l1, rfl⟩ := keep_str (D := False) (by simp) (fun h => h.elim) h1
    have h2' : run G.skip (.seq (.seq G.ident (.star (.seq (.str k!",") G.ident))) (.str k!")")) .nonAtomic pos2 r2 =
        .ok c2 r p2 := by
      rw [← h2]; exact seq_assoc_run _ _ _ _ _
    obtain ⟨c3, r3, p3, pos3, r4, c4, p4, h3, hg', h4, hp', rfl⟩ := seq_okP h2'
    obtain ⟨l3, rfl⟩ := keep_str (D := True) (by simp) (fun _ => ⟨')', by simp, by decide⟩) h4
    obtain ⟨-, h5⟩ := comma_item ident_item.any h3
    obtain ⟨ls, X, Xs, l2, g1, g2, g3, g4⟩ := h5 cs (by simpa using hcs)
    refine ⟨_, fun g => .many (X g) (Xs.map (· g)), (l1.seq hg (l2.seq hg' l3)).at (by omega), ⟨?_, ?_⟩, ?_, ?_⟩
    · intro g hg n hn
      simp only [Comp.names, List.mem_cons, List.mem_map] at hn
      rcases hn with rfl | ⟨Y, hY, rfl⟩
      · exact g1 g hg X (by simp)
      · exact g1 g hg Y (by simp [hY])
    · intro g; rw [tok_append, tok_append, g2 g]; rfl
    · intro i hi; exact ((g3 i hi i (by simp)).left).right
    · intro g; exact map_identT g4 g

/-- `X` is what `r` stands for, in any spelling. -/
def REndT (X : Sp → REnd) (r : RefIdent) : Prop := ∀ g, (X g).ast = (r.mapNames fun _ => ren g).mapSpan noPos

def RefIdent.ids (r : RefIdent) : List Ident := r.schema.toList ++ r.table :: r.compositions

theorem rend_item : Item False G.ref_ident False (fun p => p.rule = .ref_ident) (fun p i => parseRefIdent p = .ok i)
    REnd.Ok REnd.toks RefIdent.ids REndT := by
  intro pos s c r ps h
  obtain ⟨kids, rfl, hb⟩ := rule_okP h rfl
  refine ⟨_, rfl, rfl, fun x hx => ?_⟩
  obtain ⟨c1, r1, p1, pos2, r2, c2, p2, h1, hg, h2, hp, rfl⟩ := seq_okP hb
  obtain ⟨p, rfl, hr, ih1⟩ := ident_item _ _ _ _ _ h1
  obtain ⟨c3, r3, p3, pos3, r4, c4, p4, h3, hg', h4, hp', rfl⟩ := seq_okP h2
  obtain ⟨l2, rfl⟩ := keep_str (D := False) (by simp) (fun h => h.elim) h3
  obtain ⟨c5, r5, p5, pos4, r6, c6, p6, h5, hg3, h6, hp3, rfl⟩ := seq_okP h4
  obtain ⟨q, rfl, hq, ih2⟩ := comp_item _ _ _ _ _ h6
  rcases opt_ok h5 with ⟨-, rfl, rfl, rfl⟩ | h5
  · unfold parseRefIdent at hx
    walkAt hx [hr, hq]
    obtain ⟨i, hi, hx⟩ := Rs.bind_eq_ok.1 hx
    obtain ⟨cs, hcs, hx⟩ := Rs.bind_eq_ok.1 hx
    cases hx
    obtain ⟨ls, X, l1, ⟨g1, g2⟩, g3, g4⟩ := ih1 i hi
    obtain ⟨ls', X', l4, ⟨g1', g2'⟩, g3', g4'⟩ := ih2 cs hcs
    refine ⟨_, fun g => ⟨none, X g, X' g⟩, (l1.seq hg (l2.seq hg' (LayD.nil.seq (by simpa using hg3) l4))).at
      (by omega), ⟨?_, ?_⟩, ?_, ?_⟩
    · intro g hg; exact ⟨by simp, g1 g hg, g1' g hg⟩
    · intro g; rw [tok_append, tok_append, List.nil_append, g2 g, g2' g]; rfl
    · intro k hk
      simp [RefIdent.ids] at hk
      rcases hk with rfl | hk
      · exact (g3 _ (by simp)).left
      · exact ((g3' _ hk).right (l1 := [])).right.right
    · intro g
      have := g4' g
      simp only [REnd.ast, g4 g, this]
      rfl
  · obtain ⟨c7, r7, p7, pos5, r8, c8, p8, h7, hg4, h8, hp4, rfl⟩ := seq_okP h5
    obtain ⟨l6, rfl⟩ := keep_str (D := False) (by simp) (fun h => h.elim) h8
    obtain ⟨p', rfl, hr', ih3⟩ := ident_item _ _ _ _ _ h7
    unfold parseRefIdent at hx
    walkAt hx [hr, hq, hr']
    obtain ⟨i, hi, hx⟩ := Rs.bind_eq_ok.1 hx
    obtain ⟨j, hj, hx⟩ := Rs.bind_eq_ok.1 hx
    obtain ⟨cs, hcs, hx⟩ := Rs.bind_eq_ok.1 hx
    cases hx
    obtain ⟨ls, X, l1, ⟨g1, g2⟩, g3, g4⟩ := ih1 i hi
    obtain ⟨ls', X', l4, ⟨g1', g2'⟩, g3', g4'⟩ := ih2 cs hcs
    obtain ⟨ls'', X'', l5, ⟨g1'', g2''⟩, g3'', g4''⟩ := ih3 j hj
    refine ⟨_, fun g => ⟨some (X g), X'' g, X' g⟩,
      (l1.seq hg (l2.seq hg' ((l5.seq hg4 l6).seq (by rwa [← hp4] at hg3) l4))).at (by omega), ⟨?_, ?_⟩, ?_, ?_⟩
    · intro g hg; exact ⟨by rintro _ ⟨⟩; exact g1 g hg, g1'' g hg, g1' g hg⟩
    · intro g; rw [tok_append, tok_append, tok_append, tok_append, g2 g, g2' g, g2'' g]; rfl
    · intro k hk
      simp [RefIdent.ids] at hk
      rcases hk with rfl | rfl | hk
      · exact (g3 _ (by simp)).left
      · exact ((((g3'' _ (by simp)).left).left).right).right
      · exact ((g3' _ hk).right).right.right
    · intro g
      have := g4' g
      simp only [REnd.ast, Option.map_some, g4 g, g4'' g, this]
      rfl

/-- `X` is what `r` stands for, in any spelling. -/
def InlineT (X : Sp → InlineRef) (r : RefInline) : Prop := ∀ g, (X g).ast = (r.mapNames fun _ => ren g).mapSpan noPos

theorem inline_item : Item False G.ref_inline False (fun p => p.rule = .ref_inline) (fun p i => parseRefInline p = .ok i)
    InlineRef.Ok InlineRef.toks (fun r => r.rhs.ids) InlineT := by
  intro pos s c r ps h
  obtain ⟨kids, rfl, hb⟩ := rule_okP h rfl
  refine ⟨_, rfl, rfl, fun x hx => ?_⟩
  obtain ⟨c1, r1, p1, pos2, r2, c2, p2, h1, hg, h2, hp, rfl⟩ := seq_okP hb
  obtain ⟨l1, rfl⟩ := keep_str (D := False) (by simp) (fun h => h.elim) h1
  obtain ⟨c3, r3, p3, pos3, r4, c4, p4, h3, hg', h4, hp', rfl⟩ := seq_okP h2
  obtain ⟨l2, rfl⟩ := keep_str (D := False) (by simp) (fun h => h.elim) h3
  obtain ⟨c5, r5, p5, pos4, r6, c6, p6, h5, hg3, h6, hp3, rfl⟩ := seq_okP h4
  obtain ⟨p, rel, rfl, hr, hrel, hne, l3⟩ := relation_item h5
  obtain ⟨q, rfl, hq, ih⟩ := rend_item _ _ _ _ _ h6
  unfold parseRefInline at hx
  walkAt hx [hr, hq, hrel]
  obtain ⟨y, hy, hx⟩ := Rs.bind_eq_ok.1 hx
  cases hx
  obtain ⟨ls, X, l4, ⟨g1, g2⟩, g3, g4⟩ := ih y hy
  refine ⟨_, fun g => ⟨rel, X g⟩, (l1.seq hg (l2.seq hg' (l3.seq hg3 l4))).at (by omega), ⟨?_, ?_⟩, ?_, ?_⟩
  · intro g hg; exact ⟨hne, g1 g hg⟩
  · intro g; rw [tok_append, tok_append, tok_append, g2 g]; rfl
  · intro k hk; exact ((g3 k hk).right).right.right
  · intro g; simp only [InlineRef.ast, g4 g]; rfl

end Dbml
