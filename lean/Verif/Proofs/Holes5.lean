import Verif.Proofs.Holes4

/-!
# Members of a declaration: the four kinds
-/

namespace Dbml
open Syntax Source Spec Props

theorem breaks_table_head (t : Source.Table) : AllBreak t.head := by
  intro x hx
  refine breaks_block (.table t) x ?_
  show x ∈ t.toks
  rw [t.toks_eq]
  simp [hx]

theorem breaks_enum_head (t : Source.Enum) : AllBreak t.head := by
  intro x hx
  refine breaks_block (.enum t) x ?_
  show x ∈ t.toks
  rw [t.toks_eq]
  simp [hx]

theorem breaks_group_head (t : Source.Group) : AllBreak t.head := by
  intro x hx
  refine breaks_block (.group t) x ?_
  show x ∈ t.toks
  rw [t.toks_eq]
  simp [hx]

theorem flatMap_col (xs : List Col) : (xs.map TItem.col).flatMap (·.toks) = xs.flatMap (·.toks) := by
  rw [List.flatMap_map]
  rfl

/-- Building the edited document. -/
theorem doc_put {xs1 xs2 : Doc} {x y : Block} {b : TopLevelBlock} {bs1 bs2 : List TopLevelBlock} {H T : List Tok}
    (hok : Doc.Ok (xs1 ++ x :: xs2)) (h1 : Doc.ast xs1 = bs1.map (·.mapSpan noPos))
    (h2 : Doc.ast xs2 = bs2.map (·.mapSpan noPos)) (hy : y.Ok) (ht : y.toks = H ++ T) (hb : y.ast = b) :
    ∃ d : Doc, d.Ok ∧ d.toks = Doc.toks xs1 ++ H ++ (T ++ Doc.toks xs2) ∧
      d.ast = bs1.map (·.mapSpan noPos) ++ b :: bs2.map (·.mapSpan noPos) := by
  refine ⟨xs1 ++ y :: xs2, ?_, ?_, ?_⟩
  · intro z hz
    rcases List.mem_append.1 hz with hz | hz
    · exact hok z (by simp [hz])
    · rcases List.mem_cons.1 hz with rfl | hz
      · exact hy
      · exact hok z (by simp [hz])
  · simp [Doc.toks, ht]
  · rw [← h1, ← h2, ← hb]
    simp [Doc.ast]

theorem cols_col (xs : List Col) : (xs.map TItem.col).filterMap (·.col?) = xs.map Col.ast := by
  induction xs with
  | nil => rfl
  | cons x xs ih => simpa [TItem.col?] using ih

theorem cols_note (xs : List Col) : (xs.map TItem.col).filterMap (·.note?) = [] := by
  induction xs with
  | nil => rfl
  | cons x xs ih => simpa [TItem.note?] using ih

theorem cols_indexes (xs : List Col) : (xs.map TItem.col).filterMap (·.indexes?) = [] := by
  induction xs with
  | nil => rfl
  | cons x xs ih => simpa [TItem.indexes?] using ih

theorem note?_col (c : Col) : (TItem.col c).note? = none := rfl
theorem indexes?_col (c : Col) : (TItem.col c).indexes? = none := rfl
theorem note?_indexes (c : Idxs) : (TItem.indexes c).note? = none := rfl
theorem col?_indexes (c : Idxs) : (TItem.indexes c).col? = none := rfl
theorem indexes?_indexes (c : Idxs) : (TItem.indexes c).indexes? = some c.ast := rfl
theorem gnote?_item (x : Option Name) (n : Name) : (GItem.item x n).note? = none := rfl

section
variable {txt : Str} {s : SchemaBlock} {bs1 bs2 : List TopLevelBlock}

theorem column_editable {t : TableBlock} {c : TableColumn} {cs1 cs2 : List TableColumn}
    (h : parseDbmlUnchecked txt = .ok s) (hs : s.blocks = bs1 ++ .table t :: bs2) (hc : t.cols = cs1 ++ c :: cs2) :
    ∃ put, Editable Col.Ok Col.toks Col.ast txt c.span_range (c.mapSpan noPos) put ∧
      ∀ cs : List TableColumn, put (cs.map (·.mapSpan noPos)) =
        (bs1 ++ .table { t with cols := cs1 ++ cs ++ cs2 } :: bs2).map (·.mapSpan noPos) := by
  obtain ⟨xs1, x, xs2, q, cc, r1, p, hok, h1, hb, h2, hrem, ⟨hsp, hxok, hx⟩, hw, l1, l2, l3⟩ := doc_seat h hs
  cases x with
  | table T =>
    obtain ⟨hrule, hh⟩ := hx
    have hp : parseTableDecl p = .ok t := by
      simp only [walkTop, hrule] at hw
      obtain ⟨y, hy, hw⟩ := Rs.bind_eq_ok.1 hw
      cases hw; exact hy
    obtain ⟨is1, C, is2, hi, hlen, hole⟩ := (hh t hp).1 cs1 c cs2 hc
    have hT : T.ast = t.mapSpan noPos := by
      have : TopLevelBlock.table T.ast = .table (t.mapSpan noPos) := hb
      injection this
    have hcols : is1.filterMap (·.col?) ++ C.ast :: is2.filterMap (·.col?) =
        cs1.map (·.mapSpan noPos) ++ c.mapSpan noPos :: cs2.map (·.mapSpan noPos) := by
      have := congrArg TableBlock.cols hT
      simpa [Source.Table.ast, TableBlock.mapSpan, hi, hc, TItem.col?] using this
    obtain ⟨f1, f2⟩ := List.append_inj hcols (by simpa using hlen)
    obtain ⟨f2, f3⟩ := List.cons.inj f2
    have hTok : T.Ok := hxok
    have hCok : C.Ok := hTok.2.2.2.2.2 (.col C) (by simp [hi])
    refine ⟨fun cs => bs1.map (·.mapSpan noPos) ++ .table { t.mapSpan noPos with
      cols := cs1.map (·.mapSpan noPos) ++ cs ++ cs2.map (·.mapSpan noPos) } :: bs2.map (·.mapSpan noPos),
      ⟨_, _, C, hCok, f2, hole.slot hrem l1 l3, ?_, breaks_col, ?_⟩, ?_⟩
    · exact (breaks_doc _).append ((breaks_table_head _).append (.flatMap breaks_titem))
    · intro Cs hCs
      obtain ⟨d, hd, ht, ha⟩ := doc_put (y := .table { T with items := is1 ++ (Cs.map .col ++ is2) })
        (b := .table { t.mapSpan noPos with cols := cs1.map (·.mapSpan noPos) ++ Cs.map Col.ast ++ cs2.map (·.mapSpan noPos) })
        (H := T.head ++ is1.flatMap (·.toks)) (T := Cs.flatMap Col.toks ++ (is2.flatMap (·.toks) ++ [rbrace])) hok h1 h2 (by
          obtain ⟨k1, k2, k3, k4, k5, k6⟩ := hTok
          refine ⟨k1, k2, k3, k4, k5, ?_⟩
          intro i hi'
          simp only [List.mem_append, List.mem_map] at hi'
          rcases hi' with hi' | ⟨C', hC', rfl⟩ | hi'
          · exact k6 i (by simp [hi, hi'])
          · exact hCs C' hC'
          · exact k6 i (by simp [hi, hi'])) (by
          show Source.Table.toks _ = _
          rw [Source.Table.toks_eq]
          show T.head ++ _ = _
          simp [flatMap_col]) (by
          rw [← hT, ← f1, ← f3]
          show TopLevelBlock.table _ = _
          congr 1
          simp only [Source.Table.ast, hi, List.filterMap_append, cols_col, cols_note, cols_indexes, List.filterMap_cons,
            note?_col, indexes?_col, List.nil_append, List.append_assoc])
      exact ⟨d, hd, by rw [ht]; simp, ha⟩
    · intro cs
      simp [TopLevelBlock.mapSpan, TableBlock.mapSpan]
  | _ => cases hb

theorem getLast?_mid {γ : Type} {l1 l2 : List γ} {x : γ} (h : l2 = []) : (l1 ++ x :: l2).getLast? = some x := by
  subst h; simp

theorem index_editable {t : TableBlock} {ib : IndexesBlock} {i : IndexesDef} {ds1 ds2 : List IndexesDef}
    (h : parseDbmlUnchecked txt = .ok s) (hs : s.blocks = bs1 ++ .table t :: bs2) (hi : t.indexes = some ib)
    (hc : ib.defs = ds1 ++ i :: ds2) :
    ∃ put, Editable IDef.Ok IDef.toks IDef.ast txt i.span_range (i.mapSpan noPos) put ∧
      ∀ ds : List IndexesDef, put (ds.map (·.mapSpan noPos)) =
        (bs1 ++ .table { t with indexes := some { ib with defs := ds1 ++ ds ++ ds2 } } :: bs2).map (·.mapSpan noPos) := by
  obtain ⟨xs1, x, xs2, q, cc, r1, p, hok, h1, hb, h2, hrem, ⟨hsp, hxok, hx⟩, hw, l1, l2, l3⟩ := doc_seat h hs
  cases x with
  | table T =>
    obtain ⟨hrule, hh⟩ := hx
    have hp : parseTableDecl p = .ok t := by
      simp only [walkTop, hrule] at hw
      obtain ⟨y, hy, hw⟩ := Rs.bind_eq_ok.1 hw
      cases hw; exact hy
    obtain ⟨is1, I, is2, e1, D, e2, hit, hlast, hdefs, hlen, hole⟩ := (hh t hp).2 ib ds1 i ds2 hi hc
    have hT : T.ast = t.mapSpan noPos := by
      have : TopLevelBlock.table T.ast = .table (t.mapSpan noPos) := hb
      injection this
    have hI : I.ast = ib.mapSpan noPos := by
      have := congrArg TableBlock.indexes hT
      simp only [Source.Table.ast, TableBlock.mapSpan, hit, hi, List.filterMap_append, List.filterMap_cons, indexes?_indexes,
        getLast?_mid hlast, Option.map_some, Option.some.injEq] at this
      exact this
    have hds : e1.map IDef.ast ++ D.ast :: e2.map IDef.ast =
        ds1.map (·.mapSpan noPos) ++ i.mapSpan noPos :: ds2.map (·.mapSpan noPos) := by
      have := congrArg IndexesBlock.defs hI
      simpa [Source.Idxs.ast, IndexesBlock.mapSpan, hdefs, hc] using this
    obtain ⟨f1, f2⟩ := List.append_inj hds (by simpa using hlen)
    obtain ⟨f2, f3⟩ := List.cons.inj f2
    have hTok : T.Ok := hxok
    have hIok : I.Ok := hTok.2.2.2.2.2 (.indexes I) (by simp [hit])
    have hDok : D.Ok := hIok.2 D (by simp [hdefs])
    refine ⟨fun ds => bs1.map (·.mapSpan noPos) ++ .table { t.mapSpan noPos with
      indexes := some { ib.mapSpan noPos with defs := ds1.map (·.mapSpan noPos) ++ ds ++ ds2.map (·.mapSpan noPos) } } ::
        bs2.map (·.mapSpan noPos),
      ⟨_, _, D, hDok, f2, hole.slot hrem l1 l3, ?_, breaks_idef, ?_⟩, ?_⟩
    · exact (breaks_doc _).append ((breaks_table_head _).append ((AllBreak.flatMap breaks_titem).append
        (.cons (breaks_any rfl) (.cons (breaks_any rfl) (.flatMap breaks_idef)))))
    · intro Ds hDs
      obtain ⟨d, hd, ht, ha⟩ := doc_put
        (y := .table { T with items := is1 ++ .indexes { I with defs := e1 ++ (Ds ++ e2) } :: is2 })
        (b := .table { t.mapSpan noPos with indexes := some { ib.mapSpan noPos with
          defs := ds1.map (·.mapSpan noPos) ++ Ds.map IDef.ast ++ ds2.map (·.mapSpan noPos) } })
        (H := T.head ++ (is1.flatMap (·.toks) ++ ({ txt := I.kw } :: lbrace :: e1.flatMap (·.toks))))
        (T := Ds.flatMap IDef.toks ++ (e2.flatMap (·.toks) ++ ([rbrace] ++ (is2.flatMap (·.toks) ++ [rbrace])))) hok h1 h2 (by
          obtain ⟨k1, k2, k3, k4, k5, k6⟩ := hTok
          refine ⟨k1, k2, k3, k4, k5, ?_⟩
          intro j hj
          rcases List.mem_append.1 hj with hj | hj
          · exact k6 j (by simp [hit, hj])
          · rcases List.mem_cons.1 hj with rfl | hj
            · refine ⟨hIok.1, ?_⟩
              intro D' hD'
              simp only [List.mem_append] at hD'
              rcases hD' with hD' | hD' | hD'
              · exact hIok.2 D' (by simp [hdefs, hD'])
              · exact hDs D' hD'
              · exact hIok.2 D' (by simp [hdefs, hD'])
            · exact k6 j (by simp [hit, hj])) (by
          show Source.Table.toks _ = _
          rw [Source.Table.toks_eq]
          show T.head ++ _ = _
          simp [TItem.toks, Idxs.toks]) (by
          rw [← hT, ← hI, ← f1, ← f3]
          show TopLevelBlock.table _ = _
          congr 1
          simp only [Source.Table.ast, hit, List.filterMap_append, List.filterMap_cons,
            note?_indexes, indexes?_indexes, col?_indexes, getLast?_mid hlast, Idxs.ast, List.map_append, List.append_assoc])
      exact ⟨d, hd, by rw [ht]; simp, ha⟩
    · intro cs
      simp [TopLevelBlock.mapSpan, TableBlock.mapSpan, IndexesBlock.mapSpan]
  | _ => cases hb

theorem value_editable {e : EnumBlock} {v : EnumValue} {vs1 vs2 : List EnumValue}
    (h : parseDbmlUnchecked txt = .ok s) (hs : s.blocks = bs1 ++ .enum e :: bs2) (hc : e.values = vs1 ++ v :: vs2) :
    ∃ put, Editable EVal.Ok EVal.toks EVal.ast txt v.span_range (v.mapSpan noPos) put ∧
      ∀ vs : List EnumValue, put (vs.map (·.mapSpan noPos)) =
        (bs1 ++ .enum { e with values := vs1 ++ vs ++ vs2 } :: bs2).map (·.mapSpan noPos) := by
  obtain ⟨xs1, x, xs2, q, cc, r1, p, hok, h1, hb, h2, hrem, ⟨hsp, hxok, hx⟩, hw, l1, l2, l3⟩ := doc_seat h hs
  cases x with
  | enum E =>
    obtain ⟨hrule, hh⟩ := hx
    have hp : parseEnumDecl p = .ok e := by
      simp only [walkTop, hrule] at hw
      obtain ⟨y, hy, hw⟩ := Rs.bind_eq_ok.1 hw
      cases hw; exact hy
    obtain ⟨w1, V, w2, hi, hlen, hole⟩ := hh e hp vs1 v vs2 hc
    have hE : E.ast = e.mapSpan noPos := by
      have : TopLevelBlock.enum E.ast = .enum (e.mapSpan noPos) := hb
      injection this
    have hvs : w1.map EVal.ast ++ V.ast :: w2.map EVal.ast =
        vs1.map (·.mapSpan noPos) ++ v.mapSpan noPos :: vs2.map (·.mapSpan noPos) := by
      have := congrArg EnumBlock.values hE
      simpa [Source.Enum.ast, EnumBlock.mapSpan, hi, hc] using this
    obtain ⟨f1, f2⟩ := List.append_inj hvs (by simpa using hlen)
    obtain ⟨f2, f3⟩ := List.cons.inj f2
    have hEok : E.Ok := hxok
    have hVok : V.Ok := hEok.2.2.2 V (by simp [hi])
    refine ⟨fun vs => bs1.map (·.mapSpan noPos) ++ .enum { e.mapSpan noPos with
      values := vs1.map (·.mapSpan noPos) ++ vs ++ vs2.map (·.mapSpan noPos) } :: bs2.map (·.mapSpan noPos),
      ⟨_, _, V, hVok, f2, hole.slot hrem l1 l3, ?_, breaks_eval, ?_⟩, ?_⟩
    · exact (breaks_doc _).append ((breaks_enum_head _).append (.flatMap breaks_eval))
    · intro Vs hVs
      obtain ⟨d, hd, ht, ha⟩ := doc_put (y := .enum { E with values := w1 ++ (Vs ++ w2) })
        (b := .enum { e.mapSpan noPos with values := vs1.map (·.mapSpan noPos) ++ Vs.map EVal.ast ++ vs2.map (·.mapSpan noPos) })
        (H := E.head ++ w1.flatMap (·.toks)) (T := Vs.flatMap EVal.toks ++ (w2.flatMap (·.toks) ++ [rbrace])) hok h1 h2 (by
          obtain ⟨k1, k2, k3, k4⟩ := hEok
          refine ⟨k1, k2, k3, ?_⟩
          intro i hi'
          simp only [List.mem_append] at hi'
          rcases hi' with hi' | hi' | hi'
          · exact k4 i (by simp [hi, hi'])
          · exact hVs i hi'
          · exact k4 i (by simp [hi, hi'])) (by
          show Source.Enum.toks _ = _
          rw [Source.Enum.toks_eq]
          show E.head ++ _ = _
          simp) (by
          rw [← hE, ← f1, ← f3]
          show TopLevelBlock.enum _ = _
          congr 1
          simp only [Source.Enum.ast, List.map_append, List.append_assoc])
      exact ⟨d, hd, by rw [ht]; simp, ha⟩
    · intro cs
      simp [TopLevelBlock.mapSpan, EnumBlock.mapSpan]
  | _ => cases hb

/-- An item of a group, as a pair. -/
def gname (x : Option Name × Name) : GItem := .item x.1 x.2
def gnameToks (x : Option Name × Name) : List Tok := qualToks x.1 x.2
def gnameAst (x : Option Name × Name) : TableGroupItem := { schema := x.1.map (·.ast), ident_alias := x.2.ast }
def gnameOk (x : Option Name × Name) : Prop := (∀ y, x.1 = some y → y.Ok) ∧ x.2.Ok

theorem gnames_toks (xs : List (Option Name × Name)) : (xs.map gname).flatMap (·.toks) = xs.flatMap gnameToks := by
  rw [List.flatMap_map]
  rfl

theorem gnames_item (xs : List (Option Name × Name)) : (xs.map gname).filterMap (·.item?) = xs.map gnameAst := by
  induction xs with
  | nil => rfl
  | cons x xs ih => simpa [gname, GItem.item?, gnameAst] using ih

theorem gnames_note (xs : List (Option Name × Name)) : (xs.map gname).filterMap (·.note?) = [] := by
  induction xs with
  | nil => rfl
  | cons x xs ih => simpa [gname, GItem.note?] using ih

theorem member_editable {g : TableGroupBlock} {i : TableGroupItem} {is1 is2 : List TableGroupItem}
    (h : parseDbmlUnchecked txt = .ok s) (hs : s.blocks = bs1 ++ .tableGroup g :: bs2) (hc : g.items = is1 ++ i :: is2) :
    ∃ put, Editable gnameOk gnameToks gnameAst txt i.span_range (i.mapSpan noPos) put ∧
      ∀ is : List TableGroupItem, put (is.map (·.mapSpan noPos)) =
        (bs1 ++ .tableGroup { g with items := is1 ++ is ++ is2 } :: bs2).map (·.mapSpan noPos) := by
  obtain ⟨xs1, x, xs2, q, cc, r1, p, hok, h1, hb, h2, hrem, ⟨hsp, hxok, hx⟩, hw, l1, l2, l3⟩ := doc_seat h hs
  cases x with
  | group Gr =>
    obtain ⟨hrule, hh⟩ := hx
    have hp : parseTableGroupDecl p = .ok g := by
      simp only [walkTop, hrule] at hw
      obtain ⟨y, hy, hw⟩ := Rs.bind_eq_ok.1 hw
      cases hw; exact hy
    obtain ⟨j1, sc, n, j2, hi, hlen, hole⟩ := hh g hp is1 i is2 hc
    have hG : Gr.ast = g.mapSpan noPos := by
      have : TopLevelBlock.tableGroup Gr.ast = .tableGroup (g.mapSpan noPos) := hb
      injection this
    have hits : j1.filterMap (·.item?) ++ gnameAst (sc, n) :: j2.filterMap (·.item?) =
        is1.map (·.mapSpan noPos) ++ i.mapSpan noPos :: is2.map (·.mapSpan noPos) := by
      have := congrArg TableGroupBlock.items hG
      simpa [Source.Group.ast, TableGroupBlock.mapSpan, hi, hc, GItem.item?, gnameAst] using this
    obtain ⟨f1, f2⟩ := List.append_inj hits (by simpa using hlen)
    obtain ⟨f2, f3⟩ := List.cons.inj f2
    have hGok : Gr.Ok := hxok
    have hIok : gnameOk (sc, n) := hGok.2.2.2 (.item sc n) (by simp [hi])
    refine ⟨fun is => bs1.map (·.mapSpan noPos) ++ .tableGroup { g.mapSpan noPos with
      items := is1.map (·.mapSpan noPos) ++ is ++ is2.map (·.mapSpan noPos) } :: bs2.map (·.mapSpan noPos),
      ⟨_, _, (sc, n), hIok, f2, hole.slot hrem l1 l3, ?_, fun y => breaks_qual _ _, ?_⟩, ?_⟩
    · exact (breaks_doc _).append ((breaks_group_head _).append (.flatMap breaks_gitem))
    · intro Is hIs
      obtain ⟨d, hd, ht, ha⟩ := doc_put (y := .group { Gr with items := j1 ++ (Is.map gname ++ j2) })
        (b := .tableGroup { g.mapSpan noPos with items := is1.map (·.mapSpan noPos) ++ Is.map gnameAst ++ is2.map (·.mapSpan noPos) })
        (H := Gr.head ++ j1.flatMap (·.toks)) (T := Is.flatMap gnameToks ++ (j2.flatMap (·.toks) ++ [rbrace])) hok h1 h2 (by
          obtain ⟨k1, k2, k3, k4⟩ := hGok
          refine ⟨k1, k2, k3, ?_⟩
          intro i hi'
          simp only [List.mem_append, List.mem_map] at hi'
          rcases hi' with hi' | ⟨I', hI', rfl⟩ | hi'
          · exact k4 i (by simp [hi, hi'])
          · exact hIs I' hI'
          · exact k4 i (by simp [hi, hi'])) (by
          show Source.Group.toks _ = _
          rw [Source.Group.toks_eq]
          show Gr.head ++ _ = _
          simp [gnames_toks]) (by
          rw [← hG, ← f1, ← f3]
          show TopLevelBlock.tableGroup _ = _
          congr 1
          simp only [Source.Group.ast, hi, List.filterMap_append, gnames_item, gnames_note, List.filterMap_cons,
            gnote?_item, List.nil_append, List.append_assoc])
      exact ⟨d, hd, by rw [ht]; simp, ha⟩
    · intro cs
      simp [TopLevelBlock.mapSpan, TableGroupBlock.mapSpan]
  | _ => cases hb

end
end Dbml
