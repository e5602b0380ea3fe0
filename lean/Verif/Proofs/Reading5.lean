import Verif.Proofs.Reading4

/-!
# Reading ref declarations, indexes and enums
-/

namespace Dbml
open Syntax Source

/-! ## Ref declarations -/

abbrev RefP (r : Source.Ref) : Pair → Prop := Yields .ref_decl parseRefDecl (·.mapSpan noPos) r.ast

theorem reads_optName (o : Option Name) (ho : ∀ n, o = some n → n.Ok) {z} {c : Char} (hz : hd z = some c)
    (hc : c = ':' ∨ c = '{') :
    Reads (.opt G.ident) (o.toList.map (·.tok) ++ z) z (o.toList.map IdentP) := by
  cases o with
  | none =>
    refine .opt_none (.of_starts (by decide) (by decide) ?_)
    simp only [Option.toList, List.map_nil, List.nil_append, hz]
    rcases hc with rfl | rfl <;> decide
  | some n => exact .opt (reads_ident (ho n rfl))

theorem refInner {r : Source.Ref} {ps} (h : AllP (r.name.toList.map IdentP ++
      [Yields .ref_stmt parseRefStmt (·.mapSpan noPos) { r.ast with name := none }]) ps) :
    ∃ b, parseRefInner none ps = .ok (some b) ∧ b.mapSpan noPos = r.ast := by
  cases hn : r.name with
  | none =>
    rw [hn] at h
    obtain ⟨p, rfl, hr, o, h1, h2⟩ := AllP.one' h
    refine ⟨_, by simp only [parseRefInner, hr, h1, Rs.bind_def, Rs.ok_bind, Rs.pure_def]; rfl, ?_⟩
    have : (RefBlock.mapSpan noPos { o with name := none }) = { o.mapSpan noPos with name := none } := rfl
    simp only at h2
    rw [this, h2]
    simp [Source.Ref.ast, hn]
  | some n =>
    rw [hn] at h
    obtain ⟨p1, qs, rfl, ⟨hr1, i, hi1, hi2⟩, h⟩ := AllP.cons' h
    obtain ⟨p, rfl, hr, o, h1, h2⟩ := AllP.one' h
    refine ⟨_, by simp only [parseRefInner, hr1, hi1, hr, h1, Rs.bind_def, Rs.ok_bind, Rs.pure_def]; rfl, ?_⟩
    have : (RefBlock.mapSpan noPos { o with name := some i }) =
      { o.mapSpan noPos with name := some (i.mapSpan noPos) } := rfl
    simp only at h2 hi2
    rw [this, h2, hi2]
    simp [Source.Ref.ast, hn]

theorem refDecl_of {r : Source.Ref} {sp t sp' t' ps rl} (hrl : rl = .ref_block ∨ rl = .ref_short)
    (h : ∃ b, parseRefInner none ps = .ok (some b) ∧ b.mapSpan noPos = r.ast) :
    ∃ a, parseRefDecl (.mk .ref_decl sp t [.mk rl sp' t' ps]) = .ok a ∧ a.mapSpan noPos = r.ast := by
  obtain ⟨b, h1, h2⟩ := h
  refine ⟨b, ?_, h2⟩
  rcases hrl with rfl | rfl <;>
  simp [parseRefDecl, parseRefDecl.go, h1]

theorem reads_ref' {r : Source.Ref} (hr : r.Ok) {z}
    (hz : r.braced = true ∨ r.settings.isSome = true ∨ (hd z ≠ some '.' ∧ hd z ≠ some '[')) : Reads G.ref_decl (r.toks ++ z) z [RefP r] := by
  obtain ⟨hk, hn, hl, hrel, hrr, hs⟩ := hr
  have kw := fun y => reads_kw' (k := k!"Ref") (kd := .any) (z := y) hk rfl
  cases hb : r.braced with
  | true =>
    have h1 := reads_optName r.name hn (z := lbrace :: (r.stmtToks ++ (rbrace :: z))) rfl (.inr rfl)
    have h2 := reads_refStmt hl hrel hrr hs (z := rbrace :: z) (by simp [hd, rbrace]) (by simp [hd, rbrace])
    have h := ((kw _).seq (h1.seq ((reads_str (s := k!"{")).seq (h2.seq (reads_str (s := k!"}")))))).rule
      (r := .ref_block)
    simp only [Source.Ref.toks, hb, if_true, List.cons_append, List.append_assoc, List.nil_append]
    refine Reads.yields (.alt_left h) ?_
    intro sp t ks hks
    obtain ⟨⟨rl, sp', t', ks'⟩, rfl, h1, h2⟩ := hks.one'
    simp only [Pair.rule_mk, Pair.children_mk, List.nil_append, List.append_nil] at h1 h2
    subst h1
    exact refDecl_of (.inl rfl) (refInner h2)
  | false =>
    have h1 := reads_optName r.name hn (z := colon :: (r.stmtToks ++ z)) rfl (.inl rfl)
    have hz' := hz.resolve_left (by simp [hb])
    have h2 := reads_refStmt' hl hrel hrr hs (z := z) hz'
    have h := ((kw _).seq (h1.seq ((reads_str (s := k!":")).seq h2))).rule (r := .ref_short)
    simp only [Source.Ref.toks, hb, if_false, List.cons_append, List.append_assoc, Bool.false_eq_true]
    refine Reads.yields (.alt_right (.rule (.seq_right (kw _) (.seq_right h1
      (.seq_left (.of_starts rfl rfl rfl))))) h) ?_
    intro sp t ks hks
    obtain ⟨⟨rl, sp', t', ks'⟩, rfl, h1, h2⟩ := hks.one'
    simp only [Pair.rule_mk, Pair.children_mk, List.nil_append, List.append_nil] at h1 h2
    subst h1
    exact refDecl_of (.inr rfl) (refInner h2)

theorem reads_ref {r : Source.Ref} (hr : r.Ok) {z} (hz1 : hd z ≠ some '.') (hz2 : hd z ≠ some '[') :
    Reads G.ref_decl (r.toks ++ z) z [RefP r] := reads_ref' hr (.inr (.inr ⟨hz1, hz2⟩))

/-! ## Indexes -/

abbrev IColP (c : ICol) : Pair → Prop := Yields .indexes_ident parseIndexesIdent (·.mapSpan noPos) c.ast

theorem reads_icol {c : ICol} (hc : c.Ok) {z} : Reads G.indexes_ident (c.tok :: z) z [IColP c] := by
  cases c with
  | name n =>
    refine Reads.yields (.alt_left (reads_ident hc)) ?_
    intro sp t ks h
    obtain ⟨p, rfl, hr, i, h1, h2⟩ := h.one'
    walk' [parseIndexesIdent, hr]
    refine ex_bind h1 ⟨_, rfl, ?_⟩
    simp [IndexesColumnType.mapSpan, ICol.ast, h2]
  | expr s =>
    refine Reads.yields (.alt_right (.of_starts (by decide) (by decide) rfl) (reads_bq hc)) ?_
    intro sp t ks h
    obtain ⟨p, rfl, sp, sp', rfl⟩ := h.one'
    exact ⟨_, rfl, rfl⟩

abbrev IDefP (d : IDef) (p : Pair) : Prop :=
  (p.rule = .indexes_single ∨ p.rule = .indexes_multi) ∧
    ∃ a, parseIndexesSingleMulti p = .ok a ∧ a.mapSpan noPos = d.ast

def idxSetP (o : Option (List Attr)) : Pair → Prop :=
  Yields .indexes_settings parseIndexesSettings (·.mapSpan noPos) (indexSettingsAst (o.getD []))

theorem indexDef {d : IDef} {rl sp t ps} (h : AllP (d.cols.map IColP ++
    d.settings.toList.map fun _ => idxSetP d.settings) ps) :
    ∃ a, parseIndexesSingleMulti (.mk rl sp t ps) = .ok a ∧ a.mapSpan noPos = d.ast := by
  have key : ∀ (cs : List ICol) {ps Ps} (acc : IndexesDef), AllP (cs.map IColP ++ Ps) ps →
      ∃ xs qs, xs.map (·.mapSpan noPos) = cs.map (·.ast) ∧ AllP Ps qs ∧
        List.foldlM (fun acc p1 =>
          match p1.rule with
          | .indexes_ident => do
            let c ← parseIndexesIdent p1
            return { acc with cols := acc.cols ++ [c] }
          | .indexes_settings => do
            let s ← parseIndexesSettings p1
            return { acc with settings := some s }
          | _ => throwRules [.indexes_ident, .indexes_settings] p1) acc ps =
        List.foldlM (fun acc p1 =>
          match p1.rule with
          | .indexes_ident => do
            let c ← parseIndexesIdent p1
            return { acc with cols := acc.cols ++ [c] }
          | .indexes_settings => do
            let s ← parseIndexesSettings p1
            return { acc with settings := some s }
          | _ => throwRules [.indexes_ident, .indexes_settings] p1) ({ acc with cols := acc.cols ++ xs } : IndexesDef) qs := by
    intro cs
    induction cs with
    | nil => intro ps Ps acc h; exact ⟨[], ps, rfl, h, by simp⟩
    | cons c cs ih =>
      intro ps Ps acc h
      obtain ⟨p, qs, rfl, ⟨hr, a, h1, h2⟩, h⟩ := AllP.cons' h
      obtain ⟨xs, qs', h3, h4, h5⟩ := ih { acc with cols := acc.cols ++ [a] } h
      refine ⟨a :: xs, qs', by simp [h2, h3], h4, ?_⟩
      rw [List.foldlM_cons]
      simp only [hr, h1, Rs.bind_def, Rs.ok_bind, Rs.pure_def]
      simp only [Rs.bind_def, Rs.pure_def] at h5
      rw [h5]
      simp
  obtain ⟨xs, qs, h1, h2, h3⟩ := key d.cols { span_range := sp } h
  have hf : parseIndexesSingleMulti (.mk rl sp t ps) = _ := h3
  rw [hf]
  cases hset : d.settings with
  | none =>
    rw [hset] at h2
    have := AllP.nil' h2
    subst this
    refine ⟨_, rfl, ?_⟩
    simp [IndexesDef.mapSpan, IDef.ast, h1, hset]
  | some as =>
    rw [hset] at h2
    obtain ⟨p, rfl, hr, s, hs1, hs2⟩ := AllP.one' h2
    refine ⟨_, by simp only [List.foldlM_cons, List.foldlM_nil, hr, hs1, Rs.bind_def, Rs.ok_bind, Rs.pure_def]; rfl, ?_⟩
    simp only [Option.getD_some] at hs2
    simp [IndexesDef.mapSpan, IDef.ast, h1, hset, hs2]

theorem reads_idxSettings (o : Option (List Attr)) (h : ∀ as, o = some as → IndexAttrsOk as) {z}
    (hz : hd z ≠ some '[') :
    Reads (.opt G.indexes_settings) (optBrackets Attr.toks o ++ z) z (o.toList.map fun _ => idxSetP o) := by
  refine reads_optBrackets o z hz ?_
  rintro as rfl
  exact reads_indexes_settings (h as rfl) z

theorem reads_idef {d : IDef} (hd' : d.Ok) {z} (hz : hd z ≠ some '[') :
    Reads (G.indexes_single <//> G.indexes_multi) (d.toks ++ z) z [IDefP d] := by
  obtain ⟨h1, h2⟩ := hd'
  have hset := reads_idxSettings d.settings h2 hz
  cases d with
  | single c s =>
    refine .alt_left (((reads_icol (h1 c (by simp [IDef.cols]))).seq hset).rule.mono ?_)
    rintro ⟨rl, sp, t, ks⟩ ⟨hr, h⟩
    exact ⟨.inl hr, indexDef (d := .single c s) h⟩
  | multi cs s =>
    have hcs : Reads (.opt (G.indexes_ident ~~ .star (.str k!"," ~~ G.indexes_ident)))
        (commaSep (fun c => [c.tok]) cs ++ (rparen :: (optBrackets Attr.toks s ++ z)))
        (rparen :: (optBrackets Attr.toks s ++ z)) (cs.map IColP) := by
      cases cs with
      | nil => exact .opt_none (.seq_left (.of_starts (by decide) (by decide) rfl))
      | cons c cs =>
        exact .opt (reads_commaSep (F := fun _ => True) (by simp [hd, rparen]) trivial (fun _ => trivial) c cs
          fun m hm _ _ => reads_icol (h1 m hm))
    have h := ((reads_str (s := k!"(") (k := .any)).seq (hcs.seq ((reads_str (s := k!")") (k := .any)).seq hset))).rule
      (r := .indexes_multi)
    simp only [IDef.toks, List.cons_append, List.append_assoc]
    refine .alt_right (.of_starts (by decide) (by decide) rfl) (h.mono ?_)
    rintro ⟨rl, sp, t, ks⟩ ⟨hr, h⟩
    exact ⟨.inr hr, indexDef (d := .multi cs s) (by simp only [List.nil_append, Pair.children_mk] at h; exact h)⟩

abbrev IdxsP (i : Idxs) : Pair → Prop := Yields .indexes_decl parseIndexesDecl (·.mapSpan noPos) i.ast

theorem icol_hd {c : ICol} (hc : c.Ok) (z) :
    ∃ d, hd (c.tok :: z) = some d ∧ (d.isAlpha = true ∨ d = '"' ∨ d = '`') := by
  cases c with
  | name n =>
    obtain ⟨d, h1, h2⟩ := name_hd (n := n) hc z
    exact ⟨d, h1, h2.elim .inl fun h => .inr (.inl h)⟩
  | expr s => exact ⟨'`', rfl, by simp⟩

theorem idef_hd {d : IDef} (hd' : d.Ok) (z) : hd (d.toks ++ z) ≠ some '[' := by
  cases d with
  | single c s =>
    obtain ⟨e, h1, h2⟩ := icol_hd (hd'.1 c (by simp [IDef.cols])) (optBrackets Attr.toks s ++ z)
    refine hd_ne_of h1 ?_
    rcases h2 with h | rfl | rfl
    · exact alpha_ne h (by decide)
    · decide
    · decide
  | multi cs s => simp [IDef.toks, hd, lparen]

theorem foldl_defs (xs : List IndexesDef) (b : IndexesBlock) :
    xs.foldl (fun (acc : IndexesBlock) d => { acc with defs := acc.defs ++ [d] }) b = { b with defs := b.defs ++ xs } := by
  induction xs generalizing b with
  | nil => simp
  | cons x xs ih => simp [ih]

theorem reads_indexes {i : Idxs} (hi : i.Ok) (z) : Reads G.indexes_decl (i.toks ++ z) z [IdxsP i] := by
  obtain ⟨hk, hds⟩ := hi
  have hb := star_items (e := G.indexes_single <//> G.indexes_multi) (F := fun z => hd z ≠ some '[') (by decide)
    (z := rbrace :: z) (.of_starts (by decide) (by decide) rfl) (by simp [hd, rbrace]) i.defs
    (fun d hd y hy => reads_idef (hds d hd) hy) (fun d hd y => idef_hd (hds d hd) y)
  have hblk := ((reads_str (s := k!"{") (k := .any)).seq (hb.seq (reads_str (s := k!"}") (k := .any)))).rule
    (r := .indexes_block)
  have h := (reads_kw' (k := k!"Indexes") (kd := .any) hk rfl).seq hblk
  simp only [Idxs.toks, List.cons_append, List.append_assoc, List.nil_append]
  refine Reads.yields h ?_
  intro sp t ks hks
  obtain ⟨⟨rl, sp', t', ks'⟩, rfl, hr, h2⟩ := AllP.one' hks
  simp only [List.nil_append, List.append_nil, Pair.rule_mk, Pair.children_mk] at h2 hr
  subst hr
  walk' [parseIndexesDecl, parseIndexesBlock]
  refine ex_fold (fun x : IndexesDef => x.mapSpan noPos) IDef.ast
    (fun (acc : IndexesBlock) d => { acc with defs := acc.defs ++ [d] }) i.defs h2 ?_ ?_
  · rintro d - p ⟨hr, x, h1, h2⟩
    refine ⟨x, h2, fun s => ?_⟩
    rcases hr with hr | hr <;> simp only [hr, h1, Rs.bind_def, Rs.ok_bind, Rs.pure_def]
  · intro bs hbs
    rw [foldl_defs]
    simp [IndexesBlock.mapSpan, Idxs.ast, hbs]

/-! ## Names of declarations -/

abbrev DeclP (schema : Option Name) (name : Name) (p : Pair) : Prop :=
  p.rule = .decl_ident ∧ ∃ s n, parseDeclIdent p = .ok (s, n) ∧
    Option.map (fun i : Ident => i.mapSpan noPos) s = schema.map (·.ast) ∧ n.mapSpan noPos = name.ast

theorem reads_decl {schema : Option Name} {name : Name} (hs : ∀ s, schema = some s → s.Ok) (hn : name.Ok) {z}
    (hz : hd z ≠ some '.') : Reads G.decl_ident (qualToks schema name ++ z) z [DeclP schema name] := by
  cases schema with
  | none =>
    have hopt : Reads (.opt (.str k!"." ~~ G.ident)) z z [] := by
      refine .opt_none (.seq_left (.of_starts rfl rfl ?_))
      cases hh : (hd z == some '.') <;> simp_all [PExpr.starts]
    refine ((reads_ident hn).seq hopt).rule.mono ?_
    rintro ⟨rl, sp, t, ks⟩ ⟨hr, h⟩
    obtain ⟨p1, rfl, hr1, i, hi1, hi2⟩ := AllP.one' h
    refine ⟨hr, none, i, ?_, rfl, hi2⟩
    simp [parseDeclIdent, hr1, hi1]
  | some s =>
    refine ((reads_ident (hs s rfl)).seq (Reads.opt ((reads_str (s := k!".")).seq (reads_ident hn)))).rule.mono ?_
    rintro ⟨rl, sp, t, ks⟩ ⟨hr, h⟩
    obtain ⟨p1, qs, rfl, ⟨hr1, i, hi1, hi2⟩, h⟩ := AllP.cons' h
    obtain ⟨p2, rfl, hr2, j, hj1, hj2⟩ := AllP.one' h
    refine ⟨hr, some i, j, ?_, by simp [hi2], hj2⟩
    simp [parseDeclIdent, hr1, hi1, hr2, hj1]

theorem qual_hd {schema : Option Name} {name : Name} (hs : ∀ s, schema = some s → s.Ok) (hn : name.Ok) (z) :
    ∃ c, hd (qualToks schema name ++ z) = some c ∧ (c.isAlpha = true ∨ c = '"') := by
  cases schema with
  | none => exact name_hd hn _
  | some s => exact name_hd (hs s rfl) _

/-! ## Enums -/

abbrev EValP (v : EVal) : Pair → Prop := Yields .enum_value parseEnumValue (·.mapSpan noPos) v.ast

theorem reads_eval {v : EVal} (hv : v.Ok) {z} (hz : hd z ≠ some '[') :
    Reads G.enum_value (v.toks ++ z) z [EValP v] := by
  obtain ⟨h1, h2⟩ := hv
  have hset := reads_optBrackets (r := .enum_settings) (item := G.attr) (f := Attr.toks)
    (P := fun p => p.rule = .enum_settings ∧ AllP ((v.settings.getD []).map AttrP) p.children)
    v.settings z hz (by intro as has; rw [has]; exact (reads_attrs (h2 as has) z).rule)
  refine Reads.yields ((reads_ident h1).seq hset) ?_
  intro sp t ks h
  obtain ⟨p1, qs, rfl, ⟨hr1, i, hi1, hi2⟩, h2⟩ := h.cons'
  cases hset : v.settings with
  | none =>
    rw [hset] at h2
    have := AllP.nil' h2
    subst this
    walk' [parseEnumValue, hr1]
    refine ex_bind hi1 ⟨_, rfl, ?_⟩
    simp [EnumValue.mapSpan, EVal.ast, hi2, hset]
  | some as =>
    rw [hset] at h2
    obtain ⟨⟨rl, sp', t', ks'⟩, rfl, hr, h3⟩ := AllP.one' h2
    simp only [Pair.rule_mk, Pair.children_mk, Option.getD_some] at hr h3
    subst hr
    walk' [parseEnumValue, hr1]
    refine ex_bind hi1 (ex_fold_bind (fun x : Attribute => x.mapSpan noPos) Attr.ast enumStep as h3 ?_ ?_)
    · rintro a - p ⟨hr, x, h1, h2⟩
      refine ⟨x, h2, fun s => ?_⟩
      simp only [hr, h1, Rs.bind_def, Rs.ok_bind, Rs.pure_def]
      by_cases hk : x.key.to_string = k!"note" <;> simp [hk, enumStep, strOf]
    · intro bs hbs
      refine ⟨_, rfl, ?_⟩
      simp only [EnumValue.mapSpan, EVal.ast, hi2, hset, Option.map_some, enumFold, hbs]
      rfl

abbrev EnumP (e : Source.Enum) : Pair → Prop := Yields .enum_decl parseEnumDecl (·.mapSpan noPos) e.ast

theorem reads_enum {e : Source.Enum} (he : e.Ok) (z) : Reads G.enum_decl (e.toks ++ z) z [EnumP e] := by
  obtain ⟨hk, hs, hn, hv⟩ := he
  have hb := star_items (e := G.enum_value) (F := fun z => hd z ≠ some '[') (by decide)
    (z := rbrace :: z) (.of_starts (by decide) (by decide) rfl) (by simp [hd, rbrace]) e.values
    (fun d hd y hy => reads_eval (hv d hd) hy) (fun d hd y => by
      obtain ⟨c, h1, h2⟩ := name_hd (hv d hd).1 (optBrackets Attr.toks d.settings ++ y)
      refine hd_ne_of h1 ?_
      rcases h2 with h | rfl
      · exact alpha_ne h (by decide)
      · decide)
  have hblk := ((reads_str (s := k!"{") (k := .any)).seq (hb.seq (reads_str (s := k!"}") (k := .any)))).rule
    (r := .enum_block)
  have h := (reads_kw' (k := k!"Enum ") (kd := .any) hk rfl).seq ((reads_decl hs hn (by simp [hd])).seq hblk)
  simp only [Source.Enum.toks, List.cons_append, List.append_assoc, List.nil_append]
  refine Reads.yields h ?_
  intro sp t ks hks
  obtain ⟨p1, qs, rfl, ⟨hr1, sc, nm, hi1, hi2, hi3⟩, h2⟩ := hks.cons'
  obtain ⟨⟨rl, sp', t', ks'⟩, rfl, hr, h3⟩ := AllP.one' h2
  simp only [List.nil_append, List.append_nil, Pair.rule_mk, Pair.children_mk] at h3 hr
  subst hr
  walk' [parseEnumDecl, hr1, parseEnumBlock]
  refine ex_bind hi1 (ex_mapM_bind (fun x : EnumValue => x.mapSpan noPos) EVal.ast e.values h3 ?_ ?_)
  · rintro d - p ⟨hr, x, h1, h2⟩
    exact ⟨x, h2, by simp only [hr]; exact h1⟩
  · intro bs hbs
    refine ⟨_, rfl, ?_⟩
    simp [EnumBlock.mapSpan, EnumIdent.mapSpan, Source.Enum.ast, hi2, hi3, hbs]

end Dbml
