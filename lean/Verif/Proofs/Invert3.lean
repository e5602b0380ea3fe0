import Verif.Proofs.Invert2

/-!
# From a successful run back to the tokens: settings, references, indexes, enums, groups
-/

namespace Dbml
open Syntax Source

/-! ## Settings -/

/-- The settings of tables and table groups. -/
theorem block_settings_lay : GetsR G.block_settings .block_settings (Acc parseAttrList)
    (fun as => ∀ a ∈ as, Attr.Ok a) (brackets Attr.toks) := by
  intro pos s c r ps h
  obtain ⟨kids, sp, rfl, hb⟩ := rule_ok h rfl
  refine ⟨_, rfl, rfl, ?_⟩
  rintro ⟨x, hx⟩
  refine bracketed_lay (W := Acc parseAttribute) (attr_gets.gets fun _ _ h => h) hb ?_
  intro p hp
  obtain ⟨y, hy⟩ := mapM_steps hx p hp
  split at hy
  · exact ⟨y, hy⟩
  · simp [throwRules] at hy

theorem enum_settings_lay : GetsR G.enum_settings .enum_settings
    (fun p => ∀ q ∈ p.children, Acc parseAttribute q) (fun as => ∀ a ∈ as, Attr.Ok a) (brackets Attr.toks) := by
  intro pos s c r ps h
  obtain ⟨kids, sp, rfl, hb⟩ := rule_ok h rfl
  exact ⟨_, rfl, rfl, fun hx => bracketed_lay (attr_gets.gets fun _ _ h => h) hb hx⟩

/-- What an attribute of a ref must satisfy. -/
def RefAttrOk (a : Attr) : Prop :=
  a.Ok ∧ ((a.key = k!"update" ∨ a.key = k!"delete") → ∀ w, a.value = some (.word w) → ∃ x, (w, x) ∈ actions)

theorem applyRelAttr_inv {a : Attr} {x : Attribute} (hx : x.mapSpan noPos = a.ast) {p : Pair} {s s' : RefSettings}
    (h : applyRelAttr s x p = .ok s') (hk : a.key = k!"update" ∨ a.key = k!"delete") (w : Str)
    (hw : a.value = some (.word w)) : ∃ y, (w, y) ∈ actions := by
  obtain ⟨h1, h2⟩ := attr_er hx
  have hv : ∃ sp raw, x.value = some { span_range := sp, raw := raw, value := .enum w } := by
    rw [hw] at h2
    cases hv : x.value with
    | none => simp [hv] at h2
    | some l =>
      obtain ⟨sp, raw, v⟩ := l
      rw [hv] at h2
      simp [Literal.mapSpan, AVal.ast, AVal.value] at h2
      exact ⟨sp, raw, by rw [h2.2]⟩
  obtain ⟨sp, raw, hv⟩ := hv
  have hact : ∃ y, refAction x p = .ok y := by
    unfold applyRelAttr at h
    simp only [h1] at h
    by_cases hu : a.key = k!"update"
    · rw [if_pos hu] at h
      obtain ⟨s1, hs1, -⟩ := Rs.bind_eq_ok.1 h
      obtain ⟨y, hy, -⟩ := Rs.bind_ok.1 hs1
      exact ⟨y, hy⟩
    · have hd := hk.resolve_left hu
      rw [if_neg hu, if_pos hd] at h
      obtain ⟨s1, hs1, -⟩ := Rs.bind_eq_ok.1 h
      obtain ⟨y, hy, -⟩ := Rs.bind_ok.1 hs1
      exact ⟨y, hy⟩
  obtain ⟨y, hy⟩ := hact
  unfold refAction at hy
  rw [hv] at hy
  simp only at hy
  cases hf : ReferentialAction.fromStr w with
  | none => simp [hf, throwMsg] at hy
  | some z => exact ⟨z, action_iff.1 hf⟩

theorem rel_settings_lay : GetsR G.rel_settings .rel_settings (Acc parseRelSettings)
    RefAttrsOk (brackets Attr.toks) := by
  intro pos s c r ps h
  obtain ⟨kids, sp, rfl, hb⟩ := rule_ok h rfl
  refine ⟨_, rfl, rfl, ?_⟩
  rintro ⟨x, hx⟩
  have hg : Gets G.attr (fun p => ∃ a, Acc (fun p => do let x ← parseAttribute p; applyRelAttr a x p) p)
      RefAttrOk Attr.toks := by
    intro pos s c r ps h
    obtain ⟨p, h1, h2, h3⟩ := attr_lay h
    refine ⟨p, h1, ?_⟩
    rintro ⟨a, y, hy⟩
    obtain ⟨x, hx, hy⟩ := Rs.bind_eq_ok.1 hy
    obtain ⟨at', ha, hl, he⟩ := h3 x hx
    exact ⟨at', ⟨ha, applyRelAttr_inv he hy⟩, hl⟩
  obtain ⟨xs, h1, h2⟩ := bracketed_lay hg hb (by
    intro p hp
    obtain ⟨a, y, hy⟩ := foldlM_steps hx p hp
    split at hy
    · exact ⟨a, y, hy⟩
    · simp [throwRules] at hy)
  exact ⟨xs, ⟨fun a ha => (h1 a ha).1, fun a ha => (h1 a ha).2⟩, h2⟩

/-- What an attribute of an index must satisfy. -/
def IndexAttrOk (a : Attr) : Prop :=
  a.Ok ∧ (a.key = k!"type" → ∀ v, a.value = some v → ∃ t, (v.value.toStr, t) ∈ indexTypes)

theorem applyIndexAttr_inv {a : Attr} {x : Attribute} (hx : x.mapSpan noPos = a.ast) {p : Pair}
    {s s' : IndexesSettings} (h : applyIndexAttr s x p = .ok s') (hk : a.key = k!"type") (v : AVal)
    (hw : a.value = some v) : ∃ t, (v.value.toStr, t) ∈ indexTypes := by
  obtain ⟨h1, h2⟩ := attr_er hx
  rw [hw] at h2
  cases hv : x.value with
  | none => simp [hv] at h2
  | some l =>
    rw [hv] at h2
    simp at h2
    have hl : l.value = v.value := congrArg Literal.value h2
    unfold applyIndexAttr at h
    simp only [h1] at h
    simp only [hk] at h
    rw [if_neg (by decide), if_neg (by decide), if_pos (by decide), hv] at h
    simp only [hl] at h
    cases hf : IndexesType.fromStr v.value.toStr with
    | none => simp [hf, throwMsg] at h
    | some z => exact ⟨z, indexType_iff.1 hf⟩

theorem indexes_settings_lay : GetsR G.indexes_settings .indexes_settings (Acc parseIndexesSettings)
    IndexAttrsOk (brackets Attr.toks) := by
  intro pos s c r ps h
  obtain ⟨kids, sp, rfl, hb⟩ := rule_ok h rfl
  refine ⟨_, rfl, rfl, ?_⟩
  rintro ⟨x, hx⟩
  have hg : Gets G.attr (fun p => ∃ a, Acc (fun p => do let x ← parseAttribute p; applyIndexAttr a x p) p)
      IndexAttrOk Attr.toks := by
    intro pos s c r ps h
    obtain ⟨p, h1, h2, h3⟩ := attr_lay h
    refine ⟨p, h1, ?_⟩
    rintro ⟨a, y, hy⟩
    obtain ⟨x, hx, hy⟩ := Rs.bind_eq_ok.1 hy
    obtain ⟨at', ha, hl, he⟩ := h3 x hx
    exact ⟨at', ⟨ha, applyIndexAttr_inv he hy⟩, hl⟩
  obtain ⟨xs, h1, h2⟩ := bracketed_lay hg hb (by
    intro p hp
    obtain ⟨a, y, hy⟩ := foldlM_steps hx p hp
    split at hy
    · exact ⟨a, y, hy⟩
    · simp [throwRules] at hy)
  exact ⟨xs, ⟨fun a ha => (h1 a ha).1, fun a ha => (h1 a ha).2⟩, h2⟩

/-- An optional part. -/
theorem opt_lay {α : Type} {e : PExpr} {rl : Rule} {W : Pair → Prop} {ok : α → Prop} {toks : α → List Tok}
    (h : GetsR e rl W ok toks) {pos s c r ps} (hr : run G.skip (.opt e) .nonAtomic pos s = .ok c r ps)
    (hw : ∀ p ∈ ps, p.rule = rl → W p) :
    ∃ o : Option α, (∀ x, o = some x → ok x) ∧ Lay (o.elim [] toks) s r ∧ ∀ p ∈ ps, p.rule = rl := by
  rcases opt_ok hr with ⟨-, rfl, rfl, rfl⟩ | hr
  · exact ⟨none, by simp, .nil, by simp⟩
  · obtain ⟨p, rfl, h1, h2⟩ := h _ _ _ _ _ hr
    obtain ⟨x, hx, hl⟩ := h2 (hw p (by simp) h1)
    exact ⟨some x, by rintro _ ⟨⟩; exact hx, hl, by simpa using h1⟩

theorem optBrackets_elim {α : Type} (f : α → List Tok) (o : Option (List α)) :
    o.elim [] (brackets f) = optBrackets f o := by cases o <;> rfl

/-! ## Qualified names -/

theorem decl_ident_lay : GetsR G.decl_ident .decl_ident (fun _ => True)
    (fun x : Option Name × Name => (∀ s, x.1 = some s → s.Ok) ∧ x.2.Ok) (fun x => qualToks x.1 x.2) := by
  intro pos s c r ps h
  obtain ⟨kids, sp, rfl, hb⟩ := rule_ok h rfl
  refine ⟨_, rfl, rfl, fun _ => ?_⟩
  obtain ⟨c1, r1, p1, pos', r2, c2, p2, h1, hg, h2, rfl⟩ := seq_ok' hb
  obtain ⟨p, rfl, -, hi⟩ := ident_lay _ _ _ _ _ h1
  obtain ⟨n, hn, l1⟩ := hi trivial
  rcases opt_ok h2 with ⟨-, rfl, rfl, rfl⟩ | h2
  · exact ⟨(none, n), ⟨by simp, hn⟩, l1.seq hg .nil⟩
  · obtain ⟨c3, r3, p3, pos'', r4, c4, p4, h3, hg', h4, rfl⟩ := seq_ok' h2
    obtain ⟨l2, rfl⟩ := lay_str (by simp) h3
    obtain ⟨p, rfl, -, hi⟩ := ident_lay _ _ _ _ _ h4
    obtain ⟨m, hm, l3⟩ := hi trivial
    exact ⟨(some n, m), ⟨by rintro _ ⟨⟩; exact hn, hm⟩, l1.seq hg (l2.seq hg' l3)⟩

/-! ## References -/

theorem relation_lay : GetsR G.relation .relation (fun _ => True) (· ≠ Relation.undef) (fun x => [relTok x]) := by
  intro pos s c r ps h
  obtain ⟨kids, sp, rfl, hb⟩ := rule_ok h rfl
  refine ⟨_, rfl, rfl, fun _ => ?_⟩
  rcases alt_ok hb with hb | ⟨-, hb⟩
  · exact ⟨.many2many, by simp, (lay_str (by simp) hb).1⟩
  rcases alt_ok hb with hb | ⟨-, hb⟩
  · exact ⟨.one2one, by simp, (lay_str (by simp) hb).1⟩
  rcases alt_ok hb with hb | ⟨-, hb⟩
  · exact ⟨.many2one, by simp, (lay_str (by simp) hb).1⟩
  · exact ⟨.one2many, by simp, (lay_str (by simp) hb).1⟩

theorem seq_assoc_run (a b c : PExpr) (pos : Nat) (s : Str) :
    run G.skip ((a ~~ b) ~~ c) .nonAtomic pos s = run G.skip (a ~~ b ~~ c) .nonAtomic pos s := by
  simp only [run]
  cases run G.skip a .nonAtomic pos s with
  | fail => rfl
  | diverge => rfl
  | ok c1 r1 p1 =>
    simp only [seqRes]
    cases skipIf G.skip .nonAtomic r1 with
    | fail => rfl
    | diverge => rfl
    | ok c2 r2 p2 =>
      simp only
      cases run G.skip b .nonAtomic (pos + blen c1 + blen c2) r2 with
      | fail => rfl
      | diverge => rfl
      | ok c3 r3 p3 =>
        simp only
        cases skipIf G.skip .nonAtomic r3 with
        | fail => rfl
        | diverge => rfl
        | ok c4 r4 p4 =>
          simp only [blen_append, Nat.add_assoc]
          cases run G.skip c .nonAtomic (pos + (blen c1 + (blen c2 + (blen c3 + blen c4)))) r4 <;> simp

theorem comp_lay : GetsR G.ref_composition .ref_composition (fun _ => True)
    (fun c : Comp => ∀ n ∈ c.names, n.Ok) Comp.toks := by
  intro pos s c r ps h
  obtain ⟨kids, sp, rfl, hb⟩ := rule_ok h rfl
  refine ⟨_, rfl, rfl, fun _ => ?_⟩
  rcases alt_ok hb with hb | ⟨-, hb⟩
  · obtain ⟨p, rfl, -, hi⟩ := ident_lay _ _ _ _ _ hb
    obtain ⟨n, hn, l1⟩ := hi trivial
    exact ⟨.one n, by simpa [Comp.names] using hn, l1⟩
  · obtain ⟨c1, r1, p1, pos', r2, c2, p2, h1, hg, h2, rfl⟩ := seq_ok' hb
    obtain ⟨l1, rfl⟩ := lay_str (by simp) h1
    have h2' : run G.skip (.seq (.seq G.ident (.star (.seq (.str k!",") G.ident))) (.str k!")")) .nonAtomic pos' r2 =
        .ok c2 r p2 := by
      rw [← h2]; exact seq_assoc_run _ _ _ _ _
    obtain ⟨c3, r3, p3, pos'', r4, c4, p4, h3, hg', h4, rfl⟩ := seq_ok' h2'
    obtain ⟨l3, rfl⟩ := lay_str (by simp) h4
    obtain ⟨n, ns, hn, l2⟩ := comma_lay (ident_lay.gets (W' := fun _ => True) fun _ _ _ => trivial) h3
      (fun _ _ => trivial)
    exact ⟨.many n ns, hn, l1.seq hg (l2.seq hg' l3)⟩

theorem rend_lay : GetsR G.ref_ident .ref_ident (fun _ => True) REnd.Ok REnd.toks := by
  intro pos s c r ps h
  obtain ⟨kids, sp, rfl, hb⟩ := rule_ok h rfl
  refine ⟨_, rfl, rfl, fun _ => ?_⟩
  obtain ⟨c1, r1, p1, pos', r2, c2, p2, h1, hg, h2, rfl⟩ := seq_ok' hb
  obtain ⟨p, rfl, -, hi⟩ := ident_lay _ _ _ _ _ h1
  obtain ⟨n, hn, l1⟩ := hi trivial
  obtain ⟨c3, r3, p3, pos'', r4, c4, p4, h3, hg', h4, rfl⟩ := seq_ok' h2
  obtain ⟨l2, rfl⟩ := lay_str (by simp) h3
  obtain ⟨c5, r5, p5, pos3, r6, c6, p6, h5, hg3, h6, rfl⟩ := seq_ok' h4
  obtain ⟨p, rfl, -, hc⟩ := comp_lay _ _ _ _ _ h6
  obtain ⟨cs, hcs, l4⟩ := hc trivial
  rcases opt_ok h5 with ⟨-, rfl, rfl, rfl⟩ | h5
  · exact ⟨⟨none, n, cs⟩, ⟨by simp, hn, hcs⟩, l1.seq hg (l2.seq hg' (Lay.nil.seq hg3 l4))⟩
  · obtain ⟨c7, r7, p7, pos4, r8, c8, p8, h7, hg4, h8, rfl⟩ := seq_ok' h5
    obtain ⟨p, rfl, -, hi⟩ := ident_lay _ _ _ _ _ h7
    obtain ⟨m, hm, l5⟩ := hi trivial
    obtain ⟨l6, rfl⟩ := lay_str (by simp) h8
    exact ⟨⟨some n, m, cs⟩, ⟨by rintro _ ⟨⟩; exact hn, hm, hcs⟩,
      l1.seq hg (l2.seq hg' ((l5.seq hg4 l6).seq hg3 l4))⟩

theorem inline_lay : GetsR G.ref_inline .ref_inline (fun _ => True) InlineRef.Ok InlineRef.toks := by
  intro pos s c r ps h
  obtain ⟨kids, sp, rfl, hb⟩ := rule_ok h rfl
  refine ⟨_, rfl, rfl, fun _ => ?_⟩
  obtain ⟨c1, r1, p1, pos', r2, c2, p2, h1, hg, h2, rfl⟩ := seq_ok' hb
  obtain ⟨l1, rfl⟩ := lay_str (by simp) h1
  obtain ⟨c3, r3, p3, pos'', r4, c4, p4, h3, hg', h4, rfl⟩ := seq_ok' h2
  obtain ⟨l2, rfl⟩ := lay_str (by simp) h3
  obtain ⟨c5, r5, p5, pos3, r6, c6, p6, h5, hg3, h6, rfl⟩ := seq_ok' h4
  obtain ⟨p, rfl, -, hc⟩ := relation_lay _ _ _ _ _ h5
  obtain ⟨rel, hrel, l3⟩ := hc trivial
  obtain ⟨p, rfl, -, hc⟩ := rend_lay _ _ _ _ _ h6
  obtain ⟨e, he, l4⟩ := hc trivial
  exact ⟨⟨rel, e⟩, ⟨hrel, he⟩, l1.seq hg (l2.seq hg' (l3.seq hg3 l4))⟩

/-- The two ends, the relation and the settings. -/
structure Stmt where
  lhs : REnd
  rel : Relation
  rhs : REnd
  settings : Option (List Attr)

theorem stmt_lay : GetsR G.ref_stmt .ref_stmt (Acc parseRefStmt)
    (fun x : Stmt => x.lhs.Ok ∧ x.rel ≠ .undef ∧ x.rhs.Ok ∧ ∀ as, x.settings = some as → RefAttrsOk as)
    (fun x => x.lhs.toks ++ (relTok x.rel :: (x.rhs.toks ++ optBrackets Attr.toks x.settings))) := by
  intro pos s c r ps h
  obtain ⟨kids, sp, rfl, hb⟩ := rule_ok h rfl
  refine ⟨_, rfl, rfl, ?_⟩
  rintro ⟨x, hx⟩
  obtain ⟨c1, r1, p1, pos', r2, c2, p2, h1, hg, h2, rfl⟩ := seq_ok' hb
  obtain ⟨p, rfl, hr1, hc⟩ := rend_lay _ _ _ _ _ h1
  obtain ⟨lhs, hlhs, l1⟩ := hc trivial
  obtain ⟨c3, r3, p3, pos'', r4, c4, p4, h3, hg', h4, rfl⟩ := seq_ok' h2
  obtain ⟨p', rfl, hr2, hc⟩ := relation_lay _ _ _ _ _ h3
  obtain ⟨rel, hrel, l2⟩ := hc trivial
  obtain ⟨c5, r5, p5, pos3, r6, c6, p6, h5, hg3, h6, rfl⟩ := seq_ok' h4
  obtain ⟨p'', rfl, hr3, hc⟩ := rend_lay _ _ _ _ _ h5
  obtain ⟨rhs, hrhs, l3⟩ := hc trivial
  obtain ⟨o, ho, l4, -⟩ := opt_lay rel_settings_lay h6 (by
    intro q hq hrq
    obtain ⟨a, a', ha⟩ := foldlM_steps hx q (by simp [hq])
    simp only [hrq] at ha
    obtain ⟨y, hy, -⟩ := Rs.bind_eq_ok.1 ha
    exact ⟨y, hy⟩)
  rw [optBrackets_elim] at l4
  exact ⟨⟨lhs, rel, rhs, o⟩, ⟨hlhs, hrel, hrhs, ho⟩, l1.seq hg (l2.seq hg' (l3.seq hg3 l4))⟩

theorem optName_elim (o : Option Name) : o.elim [] (fun n => [n.tok]) = o.toList.map (·.tok) := by
  cases o <;> rfl

theorem refInner_acc {ps : List Pair} {q : Pair} (hq : q.rule = .ref_stmt) (hps : ∀ p ∈ ps, p.rule = .ident) :
    ∀ {n x}, parseRefInner n (ps ++ [q]) = .ok x → Acc parseRefStmt q := by
  induction ps with
  | nil =>
    intro n x h
    simp only [List.nil_append, parseRefInner, hq] at h
    obtain ⟨y, hy, -⟩ := Rs.bind_eq_ok.1 h
    exact ⟨y, hy⟩
  | cons p ps ih =>
    intro n x h
    simp only [List.cons_append, parseRefInner, hps p (by simp)] at h
    obtain ⟨y, -, hy⟩ := Rs.bind_eq_ok.1 h
    exact ih (fun p hp => hps p (by simp [hp])) hy

theorem ref_lay : GetsR G.ref_decl .ref_decl (Acc parseRefDecl) Source.Ref.Ok Source.Ref.toks := by
  intro pos s c r ps h
  obtain ⟨kids, sp, rfl, hb⟩ := rule_ok h rfl
  refine ⟨_, rfl, rfl, ?_⟩
  rintro ⟨x, hx⟩
  rcases alt_ok hb with h | ⟨-, h⟩
  · obtain ⟨kids, sp, rfl, hc⟩ := rule_ok h rfl
    simp only [parseRefDecl, Pair.children_mk, parseRefDecl.go, Pair.rule_mk] at hx
    obtain ⟨y, hy, -⟩ := Rs.bind_eq_ok.1 hx
    obtain ⟨c1, r1, p1, pos', r2, c2, p2, h1, hg, h2, rfl⟩ := seq_ok' hc
    obtain ⟨kw, hk, l1, rfl⟩ := lay_kw (k' := k!"ref") (by decide) (by simp) h1
    obtain ⟨c3, r3, p3, pos'', r4, c4, p4, h3, hg', h4, rfl⟩ := seq_ok' h2
    obtain ⟨o, ho, l2, hrs⟩ := opt_lay ident_lay h3 (fun _ _ _ => trivial)
    rw [optName_elim] at l2
    obtain ⟨c5, r5, p5, pos3, r6, c6, p6, h5, hg3, h6, rfl⟩ := seq_ok' h4
    obtain ⟨l3, rfl⟩ := lay_str (by simp) h5
    obtain ⟨c7, r7, p7, pos4, r8, c8, p8, h7, hg4, h8, rfl⟩ := seq_ok' h6
    obtain ⟨l5, rfl⟩ := lay_str (by simp) h8
    obtain ⟨q, rfl, hq, hst⟩ := stmt_lay _ _ _ _ _ h7
    obtain ⟨st, ⟨a1, a2, a3, a4⟩, l4⟩ := hst (refInner_acc hq hrs (by simpa using hy))
    exact ⟨⟨kw, o, true, st.lhs, st.rel, st.rhs, st.settings⟩, ⟨hk, ho, a1, a2, a3, a4⟩,
      l1.seq hg (l2.seq hg' (l3.seq hg3 (l4.seq hg4 l5)))⟩
  · obtain ⟨kids, sp, rfl, hc⟩ := rule_ok h rfl
    simp only [parseRefDecl, Pair.children_mk, parseRefDecl.go, Pair.rule_mk] at hx
    obtain ⟨y, hy, -⟩ := Rs.bind_eq_ok.1 hx
    obtain ⟨c1, r1, p1, pos', r2, c2, p2, h1, hg, h2, rfl⟩ := seq_ok' hc
    obtain ⟨kw, hk, l1, rfl⟩ := lay_kw (k' := k!"ref") (by decide) (by simp) h1
    obtain ⟨c3, r3, p3, pos'', r4, c4, p4, h3, hg', h4, rfl⟩ := seq_ok' h2
    obtain ⟨o, ho, l2, hrs⟩ := opt_lay ident_lay h3 (fun _ _ _ => trivial)
    rw [optName_elim] at l2
    obtain ⟨c5, r5, p5, pos3, r6, c6, p6, h5, hg3, h6, rfl⟩ := seq_ok' h4
    obtain ⟨l3, rfl⟩ := lay_str (by simp) h5
    obtain ⟨q, rfl, hq, hst⟩ := stmt_lay _ _ _ _ _ h6
    obtain ⟨st, ⟨a1, a2, a3, a4⟩, l4⟩ := hst (refInner_acc hq hrs (by simpa using hy))
    exact ⟨⟨kw, o, false, st.lhs, st.rel, st.rhs, st.settings⟩, ⟨hk, ho, a1, a2, a3, a4⟩,
      l1.seq hg (l2.seq hg' (l3.seq hg3 l4))⟩

/-! ## Indexes -/

theorem icol_lay : GetsR G.indexes_ident .indexes_ident (fun _ => True) ICol.Ok (fun c => [c.tok]) := by
  intro pos s c r ps h
  obtain ⟨kids, sp, rfl, hb⟩ := rule_ok h rfl
  refine ⟨_, rfl, rfl, fun _ => ?_⟩
  rcases alt_ok hb with h | ⟨-, h⟩
  · obtain ⟨p, rfl, -, hi⟩ := ident_lay _ _ _ _ _ h
    obtain ⟨n, hn, l1⟩ := hi trivial
    exact ⟨.name n, hn, l1⟩
  · obtain ⟨y, hy, rfl, rfl, sp, sp', rfl⟩ := bq_ok na h
    exact ⟨.expr y, hy.1, .tok rfl (quote_text_ne (by simp) _) hy.2⟩

theorem idef_acc {p : Pair} (h : Acc parseIndexesSingleMulti p) :
    ∀ q ∈ p.children, q.rule = .indexes_settings → Acc parseIndexesSettings q := by
  obtain ⟨x, hx⟩ := h
  intro q hq hr
  obtain ⟨a, a', ha⟩ := foldlM_steps hx q hq
  simp only [hr] at ha
  obtain ⟨y, hy, -⟩ := Rs.bind_eq_ok.1 ha
  exact ⟨y, hy⟩

theorem idef_single_lay : GetsR G.indexes_single .indexes_single (Acc parseIndexesSingleMulti) IDef.Ok
    IDef.toks := by
  intro pos s c r ps h
  obtain ⟨kids, sp, rfl, hb⟩ := rule_ok h rfl
  refine ⟨_, rfl, rfl, fun hx => ?_⟩
  have hx := idef_acc hx
  obtain ⟨c1, r1, p1, pos', r2, c2, p2, h1, hg, h2, rfl⟩ := seq_ok' hb
  obtain ⟨p, rfl, hr, hi⟩ := icol_lay _ _ _ _ _ h1
  obtain ⟨n, hn, l1⟩ := hi trivial
  obtain ⟨o, ho, l2, -⟩ := opt_lay indexes_settings_lay h2 (fun q hq hrq => hx q (by simp [hq]) hrq)
  rw [optBrackets_elim] at l2
  exact ⟨.single n o, ⟨by simpa [IDef.cols] using hn, ho⟩, l1.seq hg l2⟩

theorem idef_multi_lay : GetsR G.indexes_multi .indexes_multi (Acc parseIndexesSingleMulti) IDef.Ok
    IDef.toks := by
  intro pos s c r ps h
  obtain ⟨kids, sp, rfl, hb⟩ := rule_ok h rfl
  refine ⟨_, rfl, rfl, fun hx => ?_⟩
  have hx := idef_acc hx
  obtain ⟨c1, r1, p1, pos', r2, c2, p2, h1, hg, h2, rfl⟩ := seq_ok' hb
  obtain ⟨l1, rfl⟩ := lay_str (by simp) h1
  obtain ⟨c3, r3, p3, pos'', r4, c4, p4, h3, hg', h4, rfl⟩ := seq_ok' h2
  obtain ⟨ns, hns, l2⟩ := list_lay (icol_lay.gets (W' := fun _ => True) fun _ _ h => h) h3 (fun _ _ => trivial)
  obtain ⟨c5, r5, p5, pos3, r6, c6, p6, h5, hg3, h6, rfl⟩ := seq_ok' h4
  obtain ⟨l3, rfl⟩ := lay_str (by simp) h5
  obtain ⟨o, ho, l4, -⟩ := opt_lay indexes_settings_lay h6 (fun q hq hrq => hx q (by simp [hq]) hrq)
  rw [optBrackets_elim] at l4
  exact ⟨.multi ns o, ⟨hns, ho⟩, l1.seq hg (l2.seq hg' (l3.seq hg3 l4))⟩

theorem indexes_lay : GetsR G.indexes_decl .indexes_decl (Acc parseIndexesDecl) Idxs.Ok Idxs.toks := by
  intro pos s c r ps h
  obtain ⟨kids, sp, rfl, hb⟩ := rule_ok h rfl
  refine ⟨_, rfl, rfl, ?_⟩
  rintro ⟨x, hx⟩
  obtain ⟨c1, r1, p1, pos', r2, c2, p2, h1, hg, h2, rfl⟩ := seq_ok' hb
  obtain ⟨kw, hk, l1, rfl⟩ := lay_kw (k' := k!"indexes") (by decide) (by simp) h1
  obtain ⟨kids, sp', rfl, hb'⟩ := rule_ok h2 rfl
  have hx : parseIndexesBlock (.mk .indexes_block sp' c2 kids) = .ok x := hx
  obtain ⟨ds, hds, l2⟩ := braced_lay (W := Acc parseIndexesSingleMulti)
    ((idef_single_lay.gets fun _ _ h => h).alt (idef_multi_lay.gets fun _ _ h => h)) hb' (by
      intro p hp
      obtain ⟨a, a', ha⟩ := foldlM_steps hx p hp
      split at ha
      · obtain ⟨y, hy, -⟩ := Rs.bind_eq_ok.1 ha
        exact ⟨y, hy⟩
      · obtain ⟨y, hy, -⟩ := Rs.bind_eq_ok.1 ha
        exact ⟨y, hy⟩
      · simp [throwRules] at ha)
  exact ⟨⟨kw, ds⟩, ⟨hk, hds⟩, l1.seq hg l2⟩

/-! ## Enums -/

theorem eval_lay : GetsR G.enum_value .enum_value (Acc parseEnumValue) EVal.Ok EVal.toks := by
  intro pos s c r ps h
  obtain ⟨kids, sp, rfl, hb⟩ := rule_ok h rfl
  refine ⟨_, rfl, rfl, ?_⟩
  rintro ⟨x, hx⟩
  obtain ⟨c1, r1, p1, pos', r2, c2, p2, h1, hg, h2, rfl⟩ := seq_ok' hb
  obtain ⟨p, rfl, hr, hi⟩ := ident_lay _ _ _ _ _ h1
  obtain ⟨n, hn, l1⟩ := hi trivial
  obtain ⟨o, ho, l2, -⟩ := opt_lay enum_settings_lay h2 (by
    intro q hq hrq
    obtain ⟨a, a', ha⟩ := foldlM_steps hx q (by simp [hq])
    simp only [hrq] at ha
    obtain ⟨y, hy, -⟩ := Rs.bind_eq_ok.1 ha
    intro q' hq'
    obtain ⟨b, b', hb⟩ := foldlM_steps hy q' hq'
    split at hb
    · obtain ⟨z, hz, -⟩ := Rs.bind_eq_ok.1 hb
      exact ⟨z, hz⟩
    · simp [throwRules] at hb)
  rw [optBrackets_elim] at l2
  exact ⟨⟨n, o⟩, ⟨hn, ho⟩, l1.seq hg l2⟩

theorem enum_lay : GetsR G.enum_decl .enum_decl (Acc parseEnumDecl) Source.Enum.Ok Source.Enum.toks := by
  intro pos s c r ps h
  obtain ⟨kids, sp, rfl, hb⟩ := rule_ok h rfl
  refine ⟨_, rfl, rfl, ?_⟩
  rintro ⟨x, hx⟩
  obtain ⟨c1, r1, p1, pos', r2, c2, p2, h1, hg, h2, rfl⟩ := seq_ok' hb
  obtain ⟨kw, hk, l1, rfl⟩ := lay_kw (k' := k!"enum ") (by decide) (by simp) h1
  obtain ⟨c3, r3, p3, pos'', r4, c4, p4, h3, hg', h4, rfl⟩ := seq_ok' h2
  obtain ⟨p, rfl, hr, hi⟩ := decl_ident_lay _ _ _ _ _ h3
  obtain ⟨⟨sc, n⟩, hn, l2⟩ := hi trivial
  obtain ⟨kids, sp', rfl, hb'⟩ := rule_ok h4 rfl
  obtain ⟨vs, hvs, l3⟩ := braced_lay (W := Acc parseEnumValue) (eval_lay.gets fun _ _ h => h) hb' (by
    obtain ⟨a, a', ha⟩ := foldlM_steps hx (.mk .enum_block sp' c4 kids) (by simp)
    simp only [Pair.rule_mk] at ha
    obtain ⟨y, hy, -⟩ := Rs.bind_eq_ok.1 ha
    intro p hp
    obtain ⟨b, hb⟩ := mapM_steps hy p hp
    split at hb
    · exact ⟨b, hb⟩
    · simp [throwRules] at hb)
  exact ⟨⟨kw, sc, n, vs⟩, ⟨hk, hn.1, hn.2, hvs⟩, l1.seq hg (l2.seq hg' l3)⟩

/-! ## Table groups -/

theorem group_item_lay : Gets (.alt G.note_decl G.decl_ident) (fun _ => True) GItem.Ok GItem.toks := by
  refine Gets.alt ?_ ?_
  · exact (note_lay.gets fun _ _ h => h).map GItem.note (fun _ h => h) (fun _ => rfl)
  · intro pos s c r ps h
    obtain ⟨p, h1, -, h3⟩ := decl_ident_lay _ _ _ _ _ h
    refine ⟨p, h1, fun _ => ?_⟩
    obtain ⟨⟨sc, n⟩, hx, hl⟩ := h3 trivial
    exact ⟨.item sc n, hx, hl⟩

theorem tgs_acc {p : Pair} (h : Acc parseTableGroupSettings p) : Acc parseAttrList p := by
  obtain ⟨x, hx⟩ := h
  obtain ⟨y, hy, -⟩ := Rs.bind_eq_ok.1 hx
  exact ⟨y, hy⟩

theorem ts_acc {p : Pair} (h : Acc parseTableSettings p) : Acc parseAttrList p := by
  obtain ⟨x, hx⟩ := h
  obtain ⟨y, hy, -⟩ := Rs.bind_eq_ok.1 hx
  exact ⟨y, hy⟩

theorem group_lay : GetsR G.table_group_decl .table_group_decl (Acc parseTableGroupDecl) Source.Group.Ok
    Source.Group.toks := by
  intro pos s c r ps h
  obtain ⟨kids, sp, rfl, hb⟩ := rule_ok h rfl
  refine ⟨_, rfl, rfl, ?_⟩
  rintro ⟨x, hx⟩
  obtain ⟨c1, r1, p1, pos', r2, c2, p2, h1, hg, h2, rfl⟩ := seq_ok' hb
  obtain ⟨kw, hk, l1, rfl⟩ := lay_kw (k' := k!"tablegroup ") (by decide) (by simp) h1
  obtain ⟨c3, r3, p3, pos'', r4, c4, p4, h3, hg', h4, rfl⟩ := seq_ok' h2
  obtain ⟨p, rfl, hr, hi⟩ := ident_lay _ _ _ _ _ h3
  obtain ⟨n, hn, l2⟩ := hi trivial
  obtain ⟨c5, r5, p5, pos3, r6, c6, p6, h5, hg3, h6, rfl⟩ := seq_ok' h4
  obtain ⟨o, ho, l3, -⟩ := opt_lay block_settings_lay h5 (by
    intro q hq hrq
    obtain ⟨a, a', ha⟩ := foldlM_steps hx q (by simp [hq])
    simp only [hrq] at ha
    obtain ⟨y, hy, -⟩ := Rs.bind_eq_ok.1 ha
    exact tgs_acc ⟨y, hy⟩)
  rw [optBrackets_elim] at l3
  obtain ⟨kids, sp', rfl, hb'⟩ := rule_ok h6 rfl
  obtain ⟨is, his, l4⟩ := braced_lay group_item_lay hb' (fun _ _ => trivial)
  exact ⟨⟨kw, n, o, is⟩, ⟨hk, hn, ho, his⟩, l1.seq hg (l2.seq hg' (l3.seq hg3 l4))⟩

end Dbml
