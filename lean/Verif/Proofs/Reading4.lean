import Verif.Proofs.Reading3

/-!
# Reading refs, indexes and enums
-/

namespace Dbml
open Syntax Source

/-! ## Settings of refs, indexes, enum values, columns -/

theorem action_lookup (w : Str) : ReferentialAction.fromStr w = actions.lookup w := by
  unfold ReferentialAction.fromStr actions
  simp only [List.lookup]
  split_ifs with h1 h2 h3 h4 h5
  all_goals first | (subst w; rfl) | skip
  all_goals simp only [beq_eq_false_iff_ne.2 h1, beq_eq_false_iff_ne.2 h2, beq_eq_false_iff_ne.2 h3,
    beq_eq_false_iff_ne.2 h4, beq_eq_false_iff_ne.2 h5]

theorem indexType_lookup (w : Str) : IndexesType.fromStr w = indexTypes.lookup w := by
  unfold IndexesType.fromStr indexTypes
  simp only [List.lookup]
  split_ifs with h1 h2 h3 h4
  all_goals first | (subst w; rfl) | skip
  all_goals simp only [beq_eq_false_iff_ne.2 h1, beq_eq_false_iff_ne.2 h2, beq_eq_false_iff_ne.2 h3,
    beq_eq_false_iff_ne.2 h4]

theorem actionOf_eq (k : Str) (xs : List Attribute) :
    Dbml.actionOf (lastValue k xs) = Source.actionOf k (xs.map (·.mapSpan noPos)) := by
  unfold Source.actionOf
  rw [lastValue_map]
  cases lastValue k xs with
  | none => rfl
  | some l =>
    obtain ⟨sp, raw, v⟩ := l
    cases v <;> first | rfl | exact action_lookup _

theorem relFold (xs : List Attribute) (sp : Span) :
    (xs.foldl relStep ({ span_range := sp } : RefSettings)).mapSpan noPos =
      { attributes := xs.map (·.mapSpan noPos)
        on_update := Source.actionOf k!"update" (xs.map (·.mapSpan noPos))
        on_delete := Source.actionOf k!"delete" (xs.map (·.mapSpan noPos)) } := by
  have h1 : (xs.foldl relStep ({ span_range := sp } : RefSettings)).attributes = xs := by
    rw [foldl_append' (proj := RefSettings.attributes) (sel := some) (by intro s x; rfl)]
    simp
  have h2 : (xs.foldl relStep ({ span_range := sp } : RefSettings)).on_update =
      Source.actionOf k!"update" (xs.map (·.mapSpan noPos)) := by
    rw [foldl_last (proj := RefSettings.on_update) (fun s x => rfl), last_valuesOf rfl, actionOf_eq]
  have h3 : (xs.foldl relStep ({ span_range := sp } : RefSettings)).on_delete =
      Source.actionOf k!"delete" (xs.map (·.mapSpan noPos)) := by
    rw [foldl_last (proj := RefSettings.on_delete) (fun s x => rfl), last_valuesOf rfl, actionOf_eq]
  simp only [RefSettings.mapSpan, h1, h2, h3]

theorem indexFold (xs : List Attribute) (sp : Span) :
    (xs.foldl indexStep ({ span_range := sp } : IndexesSettings)).mapSpan noPos =
      let as := xs.map (·.mapSpan noPos)
      { attributes := as
        type := (lastValue k!"type" as).bind fun l => indexTypes.lookup l.value.toStr
        is_unique := has k!"unique" as, is_pk := has k!"pk" as
        note := (lastValue k!"note" as).map (·.value.toStr)
        name := (lastValue k!"name" as).map (·.value.toStr) } := by
  have h1 : (xs.foldl indexStep ({ span_range := sp } : IndexesSettings)).attributes = xs := by
    rw [foldl_append' (proj := IndexesSettings.attributes) (sel := some) (by intro s x; rfl)]
    simp
  have h2 : (xs.foldl indexStep ({ span_range := sp } : IndexesSettings)).is_pk = has k!"pk" xs := by
    rw [foldl_any (proj := IndexesSettings.is_pk) (fun s x => rfl), Bool.false_or]; rfl
  have h3 : (xs.foldl indexStep ({ span_range := sp } : IndexesSettings)).is_unique = has k!"unique" xs := by
    rw [foldl_any (proj := IndexesSettings.is_unique) (fun s x => rfl), Bool.false_or]; rfl
  have h4 : (xs.foldl indexStep ({ span_range := sp } : IndexesSettings)).type = typeOf (lastValue k!"type" xs) := by
    rw [foldl_last (proj := IndexesSettings.type) (fun s x => rfl)]
    exact last_valuesOf rfl _
  have h5 : (xs.foldl indexStep ({ span_range := sp } : IndexesSettings)).name = strOf (lastValue k!"name" xs) := by
    rw [foldl_last (proj := IndexesSettings.name) (fun s x => rfl)]
    exact last_valuesOf (h := strOf) rfl _
  have h6 : (xs.foldl indexStep ({ span_range := sp } : IndexesSettings)).note = strOf (lastValue k!"note" xs) := by
    rw [foldl_last (proj := IndexesSettings.note) (fun s x => rfl)]
    exact last_valuesOf (h := strOf) rfl _
  simp only [IndexesSettings.mapSpan, h1, h2, h3, h4, h5, h6, lastValue_map, has_map, toStr_map, typeOf, strOf]
  congr 1
  cases lastValue k!"type" xs with
  | none => rfl
  | some l => exact indexType_lookup _

theorem enumFold (xs : List Attribute) (sp : Span) :
    (xs.foldl enumStep ({ span_range := sp } : EnumValueSettings)).mapSpan noPos =
      { attributes := xs.map (·.mapSpan noPos)
        note := (lastValue k!"note" (xs.map (·.mapSpan noPos))).map (·.value.toStr) } := by
  have h1 : (xs.foldl enumStep ({ span_range := sp } : EnumValueSettings)).attributes = xs := by
    rw [foldl_append' (proj := EnumValueSettings.attributes) (sel := some) (by intro s x; rfl)]
    simp
  have h6 : (xs.foldl enumStep ({ span_range := sp } : EnumValueSettings)).note = strOf (lastValue k!"note" xs) := by
    rw [foldl_last (proj := EnumValueSettings.note) (fun s x => rfl)]
    exact last_valuesOf (h := strOf) rfl _
  simp only [EnumValueSettings.mapSpan, h1, h6, lastValue_map, toStr_map, strOf]

theorem attr_er {a : Attr} {x : Attribute} (h : x.mapSpan noPos = a.ast) :
    x.key.to_string = a.key ∧ x.value.map (·.mapSpan noPos) = a.value.map (·.ast) :=
  ⟨congrArg (fun y : Attribute => y.key.to_string) h, congrArg (fun y : Attribute => y.value) h⟩

theorem applyRelAttr_ok {as : List Attr} (hok : RefAttrsOk as) {a : Attr} (ha : a ∈ as) {x : Attribute}
    (hx : x.mapSpan noPos = a.ast) (p : Pair) (s : RefSettings) : applyRelAttr s x p = .ok (relStep s x) := by
  obtain ⟨h1, h2⟩ := attr_er hx
  have hact : (a.key = k!"update" ∨ a.key = k!"delete") → refAction x p = .ok (Dbml.actionOf x.value) := by
    intro hk
    have := hok.2 a ha hk
    unfold refAction
    cases hv : x.value with
    | none => rfl
    | some l =>
      obtain ⟨sp, raw, v⟩ := l
      cases v with
      | enum w =>
        rw [hv] at h2
        cases hav : a.value with
        | none => simp [hav] at h2
        | some v =>
          simp [hav, Literal.mapSpan, AVal.ast] at h2
          cases v with
          | lit l => cases l <;> simp [AVal.value, Lit.value] at h2
          | dq s => simp [AVal.value] at h2
          | word w' =>
            simp [AVal.value] at h2
            obtain ⟨y, hy⟩ := this w' hav
            have := action_iff.2 hy
            simp only [h2.2, this, Dbml.actionOf]
      | _ => rfl
  unfold applyRelAttr
  simp only [h1]
  by_cases hu : a.key = k!"update"
  · have := hact (.inl hu)
    simp [hu, this, relStep, h1]
  · by_cases hd : a.key = k!"delete"
    · have := hact (.inr hd)
      simp [hd, this, relStep, h1]
    · simp [hu, hd, relStep, h1]

theorem applyIndexAttr_ok {as : List Attr} (hok : IndexAttrsOk as) {a : Attr} (ha : a ∈ as) {x : Attribute}
    (hx : x.mapSpan noPos = a.ast) (p : Pair) (s : IndexesSettings) :
    applyIndexAttr s x p = .ok (indexStep s x) := by
  obtain ⟨h1, h2⟩ := attr_er hx
  have hk := hok.2 a ha
  unfold applyIndexAttr
  simp only [h1]
  by_cases k1 : a.key = k!"unique"
  · simp [k1, indexStep, h1]
  by_cases k2 : a.key = k!"pk"
  · simp [k2, indexStep, h1]
  by_cases k3 : a.key = k!"type"
  · cases hv : x.value with
    | none => simp [k3, indexStep, h1, hv, typeOf]
    | some l =>
      rw [hv] at h2
      cases hav : a.value with
      | none => simp [hav] at h2
      | some v =>
        obtain ⟨t, ht⟩ := hk k3 v hav
        simp [hav] at h2
        have hl : l.value = v.value := congrArg Literal.value h2
        have := indexType_iff.2 ht
        simp [k3, indexStep, h1, hv, typeOf, hl, this]
  by_cases k4 : a.key = k!"name"
  · simp [k4, indexStep, h1, strOf]
  by_cases k5 : a.key = k!"note"
  · simp [k5, indexStep, h1, strOf]
  simp [k1, k2, k3, k4, k5, indexStep, h1]

/-- The pairs of settings. -/
theorem reads_rel_settings {as : List Attr} (h : RefAttrsOk as) (z) :
    Reads G.rel_settings (brackets Attr.toks as ++ z) z
      [Yields .rel_settings parseRelSettings (·.mapSpan noPos) (refSettingsAst as)] := by
  refine Reads.yields (reads_attrs h.1 z) ?_
  intro sp t ks hks
  walk' [parseRelSettings]
  refine ex_fold (fun x : Attribute => x.mapSpan noPos) Attr.ast relStep as hks ?_ ?_
  · rintro a ha p ⟨hr, x, h1, h2⟩
    refine ⟨x, h2, fun s => ?_⟩
    simp only [hr, h1]
    exact applyRelAttr_ok h ha h2 p s
  · intro bs hbs
    rw [relFold, hbs]; rfl

theorem reads_indexes_settings {as : List Attr} (h : IndexAttrsOk as) (z) :
    Reads G.indexes_settings (brackets Attr.toks as ++ z) z
      [Yields .indexes_settings parseIndexesSettings (·.mapSpan noPos) (indexSettingsAst as)] := by
  refine Reads.yields (reads_attrs h.1 z) ?_
  intro sp t ks hks
  walk' [parseIndexesSettings]
  refine ex_fold (fun x : Attribute => x.mapSpan noPos) Attr.ast indexStep as hks ?_ ?_
  · rintro a ha p ⟨hr, x, h1, h2⟩
    refine ⟨x, h2, fun s => ?_⟩
    simp only [hr, h1]
    exact applyIndexAttr_ok h ha h2 p s
  · intro bs hbs
    rw [indexFold, hbs]; rfl

theorem reads_block_settings {as : List Attr} (h : ∀ a ∈ as, a.Ok) (z) :
    Reads G.block_settings (brackets Attr.toks as ++ z) z
      [fun p => p.rule = .block_settings ∧ ∃ xs : List Attribute, parseAttrList p = .ok xs ∧
        xs.map (·.mapSpan noPos) = attrsAst as] := by
  refine (reads_attrs h z).rule.mono ?_
  rintro p ⟨hr, hks⟩
  obtain ⟨xs, h1, h2⟩ := attrList hks
  exact ⟨hr, xs, h2, h1⟩

/-! ## Refs -/

theorem reads_relation {r : Relation} (hr : r ≠ .undef) {z} (hz : hd z ≠ some '>') {k : Next} :
    Reads G.relation ({ txt := relText r, next := k } :: z) z
      [fun p => p.rule = .relation ∧ Relation.fromStr p.text = some r] := by
  intro pos t ht
  obtain ⟨s, rfl, ha, ho⟩ := ht.cons
  have hs : HeadP (· ≠ '>') s := after_headP (by rintro c (rfl | rfl | rfl | rfl) <;> decide) (by decide)
    (by rintro c hc rfl; exact hz hc) ho ha
  have hfin : ∀ c, c = relText r → run G.skip G.relation .nonAtomic pos (relText r ++ s) =
      .ok (relText r) s [.mk .relation ⟨pos, pos + blen (relText r)⟩ (relText r) []] := by
    rintro c -
    have f1 : ∀ {k u : Str} {a}, ¬ k <+: u → run G.skip (.str k) a pos u = .fail := fun h => str_fail_iff.2 h
    cases r with
    | undef => exact absurd rfl hr
    | many2many => exact rule_atomic (by decide) (alt_left str_run)
    | one2one =>
      refine rule_atomic (by decide) (alt_right' (f1 ?_) (alt_left str_run))
      simp [relText]
    | many2one =>
      refine rule_atomic (by decide) (alt_right' (f1 ?_) (alt_right' (f1 ?_) (alt_left str_run)))
      · simp [relText]
      · simp [relText]
    | one2many =>
      refine rule_atomic (by decide) (alt_right' (f1 ?_) (alt_right' (f1 ?_) (alt_right' (f1 ?_) str_run)))
      · rintro ⟨u, hu⟩
        simp [relText] at hu
        exact hs '>' u hu.symm rfl
      · simp [relText]
      · simp [relText]
  refine ⟨_, s, _, hfin _ rfl, after_lead ho ha, .one ⟨rfl, ?_⟩⟩
  cases r <;> first | exact absurd rfl hr | rfl

/-- What may follow an endpoint. -/
def EndOk (z : List Tok) : Prop := hd z ≠ some '.'

abbrev CompP (ns : List Name) (p : Pair) : Prop := p.rule = .ref_composition ∧ AllP (ns.map IdentP) p.children

theorem reads_names (n : Name) (ns : List Name) (h : ∀ m ∈ n :: ns, m.Ok) {z} (hz : hd z ≠ some ',') :
    Reads (G.ident ~~ .star (.str k!"," ~~ G.ident)) (commaSep (fun m => [m.tok]) (n :: ns) ++ z) z
      ((n :: ns).map IdentP) :=
  reads_commaSep (F := fun _ => True) hz trivial (fun _ => trivial) n ns
    fun m hm _ _ => reads_ident (h m hm)

theorem Reads.assoc {a b c x z Ps} (h : Reads ((a ~~ b) ~~ c) x z Ps) : Reads (a ~~ b ~~ c) x z Ps := by
  intro pos s hs
  obtain ⟨w, r, ps, h1, h2, h3⟩ := h pos s hs
  refine ⟨w, r, ps, ?_, h2, h3⟩
  rw [← h1]
  simp only [run]
  cases run G.skip a .nonAtomic pos s with
  | fail => rfl
  | diverge => rfl
  | ok c1 r1 p1 =>
    simp only [seqRes]
    cases skipIf G.skip .nonAtomic r1 with
    | fail => rfl
    | diverge => rfl
    | ok c2 r2 p2 =>
      simp only
      cases run G.skip b .nonAtomic (pos + blen c1 + blen c2) r2 with
      | fail => rfl
      | diverge => rfl
      | ok c3 r3 p3 =>
        simp only
        cases skipIf G.skip .nonAtomic r3 with
        | fail => rfl
        | diverge => rfl
        | ok c4 r4 p4 =>
          simp only [blen_append, Nat.add_assoc]
          cases run G.skip c .nonAtomic (pos + (blen c1 + (blen c2 + (blen c3 + blen c4)))) r4 with
          | fail => rfl
          | diverge => rfl
          | ok c5 r5 p5 => simp [List.append_assoc]

theorem reads_comp {c : Comp} (hc : ∀ n ∈ c.names, n.Ok) {z} :
    Reads G.ref_composition (c.toks ++ z) z [CompP c.names] := by
  cases c with
  | one n => exact Reads.rule (.alt_left (reads_ident (hc n (by simp [Comp.names]))))
  | many n ns =>
    refine Reads.rule (.alt_right (.of_starts (by decide) (by decide) rfl) ?_)
    have h := (reads_str (s := k!"(") (k := .any)).seq ((reads_names n ns hc
      (z := rparen :: z) (by simp [hd, rparen])).seq (reads_str (s := k!")") (k := .any)) |>.assoc)
    simpa [Comp.toks, lparen, rparen, Comp.names] using h

abbrev REndP (r : REnd) : Pair → Prop := Yields .ref_ident parseRefIdent (·.mapSpan noPos) r.ast

theorem compFold {ns : List Name} {ps} (h : AllP (ns.map IdentP) ps) (cs : List Ident) :
    ∃ is : List Ident, is.map (·.mapSpan noPos) = ns.map (·.ast) ∧
      List.foldlM (fun comps p2 => match p2.rule with
          | .ident => do
            let i ← parseIdent p2
            return comps ++ [i]
          | _ => throwRules [.ident] p2) cs ps = (.ok (cs ++ is) : Rs (List Ident)) := by
  obtain ⟨bs, h1, h2⟩ := foldlM_vals (er := fun i : Ident => i.mapSpan noPos) (v := Name.ast)
    (g := fun (cs : List Ident) i => cs ++ [i]) ns (f := fun comps p2 => match p2.rule with
          | .ident => do
            let i ← parseIdent p2
            return comps ++ [i]
          | _ => throwRules [.ident] p2) (by
      rintro n - p ⟨hr, i, h1, h2⟩
      refine ⟨i, h2, fun s => ?_⟩
      simp only [hr, h1, Rs.bind_def, Rs.ok_bind, Rs.pure_def]) cs h
  refine ⟨bs, h1, ?_⟩
  rw [h2]
  congr 1
  clear h1 h2
  induction bs generalizing cs with
  | nil => simp
  | cons b bs ih => simp [ih]

theorem comp_hd (c : Comp) (hc : ∀ n ∈ c.names, n.Ok) (z) :
    ∃ d, hd (c.toks ++ z) = some d ∧ (d.isAlpha = true ∨ d = '"' ∨ d = '(') := by
  cases c with
  | one n =>
    obtain ⟨d, h1, h2⟩ := name_hd (hc n (by simp [Comp.names])) z
    exact ⟨d, h1, h2.elim .inl fun h => .inr (.inl h)⟩
  | many n ns => exact ⟨'(', rfl, by simp⟩

theorem reads_refIdent {r : REnd} (hr : r.Ok) {z} (hz : hd z ≠ some '.') :
    Reads G.ref_ident (r.toks ++ z) z [REndP r] := by
  obtain ⟨sc, tb, cols⟩ := r
  obtain ⟨h1, h2, h3⟩ := hr
  simp only at h1 h2 h3
  cases sc with
  | none =>
    have hopt : Reads (.opt (G.ident ~~ .str k!".")) (cols.toks ++ z) (cols.toks ++ z) [] := by
      refine .opt_none ?_
      cases cols with
      | one n =>
        refine .seq_right (reads_ident (h3 n (by simp [Comp.names]))) (.of_starts rfl rfl ?_)
        cases hh : (hd z == some '.') <;> simp_all [PExpr.starts]
      | many n ns => exact .seq_left (.of_starts (by decide) (by decide) rfl)
    refine Reads.yields ((reads_ident h2).seq ((reads_str (s := k!".")).seq (hopt.seq (reads_comp h3)))) ?_
    intro sp t ks h
    obtain ⟨p1, qs, rfl, ⟨hr1, i, hi1, hi2⟩, h2⟩ := h.cons'
    obtain ⟨p2, rfl, hr2, h2⟩ := AllP.one' h2
    obtain ⟨is, e1, e2⟩ := compFold h2 []
    walk' [parseRefIdent, hr1, hr2]
    refine ex_bind hi1 (ex_bind e2 ⟨_, rfl, ?_⟩)
    simp [RefIdent.mapSpan, REnd.ast, hi2, e1]
  | some s =>
    refine Reads.yields ((reads_ident (h1 s rfl)).seq ((reads_str (s := k!".")).seq
      ((Reads.opt ((reads_ident h2).seq (reads_str (s := k!".")))).seq (reads_comp h3)))) ?_
    intro sp t ks h
    obtain ⟨p1, qs, rfl, ⟨hr1, i, hi1, hi2⟩, h2⟩ := h.cons'
    obtain ⟨p2, qs, rfl, ⟨hr2, j, hj1, hj2⟩, h2⟩ := AllP.cons' h2
    obtain ⟨p3, rfl, hr3, h2⟩ := AllP.one' h2
    obtain ⟨is, e1, e2⟩ := compFold h2 []
    walk' [parseRefIdent, hr1, hr2, hr3]
    refine ex_bind hi1 (ex_bind hj1 (ex_bind e2 ⟨_, rfl, ?_⟩))
    simp [RefIdent.mapSpan, REnd.ast, hi2, hj2, e1]

theorem rend_hd {r : REnd} (hr : r.Ok) (z) : ∃ c, hd (r.toks ++ z) = some c ∧ (c.isAlpha = true ∨ c = '"') := by
  obtain ⟨sc, tb, cols⟩ := r
  obtain ⟨h1, h2, -⟩ := hr
  cases sc with
  | none => exact name_hd h2 _
  | some s => exact name_hd (h1 s rfl) _

theorem rel_hd {r : Relation} (hr : r ≠ .undef) (z) : ∃ c, hd (relTok r :: z) = some c ∧ (c = '<' ∨ c = '>' ∨ c = '-') := by
  cases r <;> first | exact absurd rfl hr | exact ⟨_, rfl, by simp⟩

theorem hd_ne_of {z} {c d : Char} (h : hd z = some c) (hne : c ≠ d) : hd z ≠ some d := by
  rw [h]; simpa using hne

theorem reads_inlineRef {r : InlineRef} (hr : r.Ok) {z} (hz : hd z ≠ some '.') :
    Reads G.ref_inline (r.toks ++ z) z [Yields .ref_inline parseRefInline (·.mapSpan noPos) r.ast] := by
  obtain ⟨rel, rhs⟩ := r
  obtain ⟨h1, h2⟩ := hr
  obtain ⟨c, hc1, hc2⟩ := rend_hd h2 z
  refine Reads.yields ((reads_str (s := k!"ref")).seq ((reads_str (s := k!":")).seq
    ((reads_relation h1 (hd_ne_of hc1 ?_)).seq (reads_refIdent h2 hz)))) ?_
  · rcases hc2 with h | rfl
    · exact alpha_ne h (by decide)
    · decide
  intro sp t ks h
  obtain ⟨p1, qs, rfl, ⟨hr1, hi1⟩, h2⟩ := h.cons'
  obtain ⟨p2, rfl, hr2, j, hj1, hj2⟩ := AllP.one' h2
  walk' [parseRefInline, hr1, hr2, hi1]
  refine ex_bind hj1 ⟨_, rfl, ?_⟩
  simp [RefInline.mapSpan, InlineRef.ast, hj2]

/-- What follows a ref statement. -/
theorem reads_refStmt' {r : Source.Ref} (hl : r.lhs.Ok) (hrel : r.rel ≠ .undef) (hr : r.rhs.Ok)
    (hs : ∀ as, r.settings = some as → RefAttrsOk as) {z}
    (hz : r.settings.isSome = true ∨ (hd z ≠ some '.' ∧ hd z ≠ some '[')) :
    Reads G.ref_stmt (r.stmtToks ++ z) z
      [Yields .ref_stmt parseRefStmt (·.mapSpan noPos) { r.ast with name := none }] := by
  have hset := reads_optBrackets' (r := .rel_settings) (item := G.attr) (f := Attr.toks)
    (P := Yields .rel_settings parseRelSettings (·.mapSpan noPos) (refSettingsAst (r.settings.getD [])))
    r.settings z (fun hn => (hz.resolve_left (by simp [hn])).2) (by intro as has; rw [has]; exact reads_rel_settings (hs as has) z)
  have hdot : hd (optBrackets Attr.toks r.settings ++ z) ≠ some '.' := by
    cases hse : r.settings with
    | none => exact (hz.resolve_left (by simp [hse])).1
    | some as => simp [optBrackets, brackets, hd, lbrack]
  obtain ⟨c, hc1, hc2⟩ := rend_hd hr (optBrackets Attr.toks r.settings ++ z)
  obtain ⟨d, hd1, hd2⟩ := rel_hd hrel (r.rhs.toks ++ (optBrackets Attr.toks r.settings ++ z))
  have h := (reads_refIdent hl (z := relTok r.rel :: (r.rhs.toks ++ (optBrackets Attr.toks r.settings ++ z)))
    (hd_ne_of hd1 (by rcases hd2 with rfl | rfl | rfl <;> decide))).seq
    ((reads_relation hrel (k := .any) (hd_ne_of hc1 (by
      rcases hc2 with h | rfl
      · exact alpha_ne h (by decide)
      · decide))).seq ((reads_refIdent hr hdot).seq hset))
  simp only [Source.Ref.stmtToks, List.append_assoc, List.cons_append]
  refine Reads.yields h ?_
  intro sp t ks h
  obtain ⟨p1, qs, rfl, ⟨hr1, i, hi1, hi2⟩, h2⟩ := h.cons'
  obtain ⟨p2, qs, rfl, ⟨hr2, hj1⟩, h2⟩ := AllP.cons' h2
  obtain ⟨p3, qs, rfl, ⟨hr3, k, hk1, hk2⟩, h2⟩ := AllP.cons' h2
  cases hset : r.settings with
  | none =>
    rw [hset] at h2
    have := AllP.nil' h2
    subst this
    walk' [parseRefStmt, hr1, hr2, hr3, hj1]
    refine ex_bind hi1 ?_
    simp only [if_true, pure_bind, hrel, if_false]
    refine ex_bind hk1 ⟨_, rfl, ?_⟩
    simp [RefBlock.mapSpan, Source.Ref.ast, hi2, hk2, hset]
  | some as =>
    rw [hset] at h2
    obtain ⟨p4, rfl, hr4, l, hl1, hl2⟩ := AllP.one' h2
    walk' [parseRefStmt, hr1, hr2, hr3, hr4, hj1]
    refine ex_bind hi1 ?_
    simp only [if_true, pure_bind, hrel, if_false]
    refine ex_bind hk1 (ex_bind hl1 ⟨_, rfl, ?_⟩)
    simp only [Option.getD_some] at hl2
    simp [RefBlock.mapSpan, Source.Ref.ast, hi2, hk2, hset, hl2]

theorem reads_refStmt {r : Source.Ref} (hl : r.lhs.Ok) (hrel : r.rel ≠ .undef) (hr : r.rhs.Ok)
    (hs : ∀ as, r.settings = some as → RefAttrsOk as) {z} (hz1 : hd z ≠ some '.') (hz2 : hd z ≠ some '[') :
    Reads G.ref_stmt (r.stmtToks ++ z) z
      [Yields .ref_stmt parseRefStmt (·.mapSpan noPos) { r.ast with name := none }] :=
  reads_refStmt' hl hrel hr hs (.inr ⟨hz1, hz2⟩)

end Dbml
