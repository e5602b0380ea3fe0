import Verif.Spec.Shape
import Verif.Proofs.Print

/-!
# Well-formed ASTs are the ASTs of documents
-/

namespace Dbml
open Syntax Source Spec.Shape

/-! ## Lists and options -/

theorem rep_list {σ τ : Type} {ok : σ → Prop} {ast : σ → τ} {m : τ → τ} {wf : τ → Prop}
    (h : ∀ t, wf t ↔ ∃ x, ok x ∧ ast x = m t) (ts : List τ) :
    (∀ t ∈ ts, wf t) ↔ ∃ xs : List σ, (∀ x ∈ xs, ok x) ∧ xs.map ast = ts.map m := by
  induction ts with
  | nil => exact ⟨fun _ => ⟨[], by simp, rfl⟩, fun _ => by simp⟩
  | cons t ts ih =>
    rw [List.forall_mem_cons, ih, h]
    constructor
    · rintro ⟨⟨x, hx, e⟩, xs, hxs, es⟩
      exact ⟨x :: xs, List.forall_mem_cons.2 ⟨hx, hxs⟩, by simp [e, es]⟩
    · rintro ⟨xs, hxs, e⟩
      cases xs with
      | nil => simp at e
      | cons x xs =>
        simp only [List.map_cons, List.cons.injEq] at e
        have := List.forall_mem_cons.1 hxs
        exact ⟨⟨x, this.1, e.1⟩, xs, this.2, e.2⟩

theorem rep_opt {σ τ : Type} {ok : σ → Prop} {ast : σ → τ} {m : τ → τ} {wf : τ → Prop}
    (h : ∀ t, wf t ↔ ∃ x, ok x ∧ ast x = m t) (o : Option τ) :
    (∀ t ∈ o, wf t) ↔ ∃ x : Option σ, (∀ y, x = some y → ok y) ∧ x.map ast = o.map m := by
  cases o with
  | none => exact ⟨fun _ => ⟨none, by simp, rfl⟩, fun _ => by simp⟩
  | some t =>
    simp only [Option.mem_def, Option.some.injEq, forall_eq']
    rw [h]
    constructor
    · rintro ⟨x, hx, e⟩
      exact ⟨some x, fun y hy => by cases hy; exact hx, by simp [e]⟩
    · rintro ⟨x, hx, e⟩
      cases x with
      | none => simp at e
      | some x => exact ⟨x, hx x rfl, by simpa using e⟩

/-! ## Leaves -/

theorem ident_rep (i : Ident) : IdentOk i ↔ ∃ n : Name, n.Ok ∧ n.ast = i.mapSpan noPos := by
  obtain ⟨sp, r, t⟩ := i
  constructor
  · rintro ⟨n, h, e1, e2⟩
    exact ⟨n, h, by simp only [Name.ast, Ident.mapSpan] at *; rw [e1, e2]⟩
  · rintro ⟨n, h, e⟩
    simp only [Name.ast, Ident.mapSpan, Ident.mk.injEq] at e
    exact ⟨n, h, e.2.1.symm, e.2.2.symm⟩

theorem key_rep (i : Ident) : KeyOk i ↔ ∃ k : Str, IsSpacedVar k ∧ keyAst k = i.mapSpan noPos := by
  obtain ⟨sp, r, t⟩ := i
  constructor
  · rintro ⟨h, e⟩
    exact ⟨r, h, by simp only [keyAst, Ident.mapSpan] at *; rw [e]⟩
  · rintro ⟨n, h, e⟩
    simp only [keyAst, Ident.mapSpan, Ident.mk.injEq] at e
    obtain ⟨-, rfl, rfl⟩ := e
    exact ⟨h, rfl⟩

theorem lit_rep (l : Literal) : LitOk l ↔ ∃ v : AVal, v.Ok ∧ v.ast = l.mapSpan noPos := by
  obtain ⟨sp, r, t⟩ := l
  constructor
  · rintro ⟨n, h, e1, e2⟩
    exact ⟨n, h, by simp only [AVal.ast, Literal.mapSpan] at *; rw [e1, e2]⟩
  · rintro ⟨n, h, e⟩
    simp only [AVal.ast, Literal.mapSpan, Literal.mk.injEq] at e
    exact ⟨n, h, e.2.1.symm, e.2.2.symm⟩

theorem text_rep (l : Literal) : TextOk l ↔ ∃ v : StrLit, v.Ok ∧ v.ast = l.mapSpan noPos := by
  obtain ⟨sp, r, t⟩ := l
  constructor
  · rintro ⟨n, h, e1, e2⟩
    exact ⟨n, h, by simp only [StrLit.ast, Literal.mapSpan] at *; rw [e1, e2]⟩
  · rintro ⟨n, h, e⟩
    simp only [StrLit.ast, Literal.mapSpan, Literal.mk.injEq] at e
    exact ⟨n, h, e.2.1.symm, e.2.2.symm⟩

theorem attr_rep (a : Attribute) : AttrOk a ↔ ∃ x : Attr, x.Ok ∧ x.ast = a.mapSpan noPos := by
  obtain ⟨sp, k, v⟩ := a
  unfold AttrOk
  rw [key_rep, rep_opt lit_rep]
  constructor
  · rintro ⟨⟨s, h1, e1⟩, o, h2, e2⟩
    exact ⟨⟨s, o⟩, ⟨h1, h2⟩, by simp only [Attr.ast, Attribute.mapSpan] at *; rw [e1, e2]⟩
  · rintro ⟨⟨s, o⟩, ⟨h1, h2⟩, e⟩
    simp only [Attr.ast, Attribute.mapSpan, Attribute.mk.injEq] at e
    exact ⟨⟨s, h1, e.2.1⟩, o, h2, e.2.2⟩

theorem attrs_rep (as : List Attribute) :
    AttrsOk as ↔ ∃ xs : List Attr, (∀ x ∈ xs, x.Ok) ∧ attrsAst xs = as.map (·.mapSpan noPos) := rep_list attr_rep as

theorem note_rep (n : NoteBlock) : NoteOk n ↔ ∃ x : Source.Note, x.Ok ∧ x.ast = n.mapSpan noPos := by
  obtain ⟨sp, l⟩ := n
  unfold NoteOk
  rw [text_rep]
  constructor
  · rintro ⟨v, h, e⟩
    exact ⟨⟨k!"note", false, v⟩, ⟨rfl, h⟩, by simp only [Note.ast, NoteBlock.mapSpan] at *; rw [e]⟩
  · rintro ⟨⟨k, b, v⟩, ⟨-, h⟩, e⟩
    simp only [Note.ast, NoteBlock.mapSpan, NoteBlock.mk.injEq] at e
    exact ⟨v, h, e.2⟩

/-! ## Projects -/

theorem aval_head {v : AVal} (h : v.Ok) : v.text.head? = some '"' ↔ ∃ x, v = .dq x := by
  have alpha : ∀ {c : Char}, c.isAlpha = true → c ≠ '"' := by rintro c h rfl; revert h; decide
  have digit : ∀ {c : Char}, c.isDigit = true → c ≠ '"' := by rintro c h rfl; revert h; decide
  constructor
  · intro e
    cases v with
    | dq x => exact ⟨x, rfl⟩
    | word s =>
      obtain ⟨⟨c, cs, rfl, h1, -⟩, -⟩ := h
      simp only [AVal.text, List.head?_cons, Option.some.injEq] at e
      exact absurd e (alpha h1)
    | lit l =>
      cases l with
      | str l => cases l <;> simp [AVal.text, Lit.text, StrLit.text, Quote.text] at e
      | expr => simp [AVal.text, Lit.text, Quote.text] at e
      | tru => simp [AVal.text, Lit.text] at e
      | fls => simp [AVal.text, Lit.text] at e
      | null => simp [AVal.text, Lit.text] at e
      | int ds =>
        obtain ⟨hne, hd⟩ := h.1
        cases ds with
        | nil => simp [AVal.text, Lit.text] at e
        | cons c cs =>
          simp only [AVal.text, Lit.text, List.head?_cons, Option.some.injEq] at e
          exact absurd e (digit (hd c (by simp)))
      | dec a b =>
        obtain ⟨hne, hd⟩ := h.1
        cases a with
        | nil => exact absurd rfl hne
        | cons c cs =>
          simp only [AVal.text, Lit.text, List.cons_append, List.head?_cons, Option.some.injEq] at e
          exact absurd e (digit (hd c (by simp)))
      | hex => simp [AVal.text, Lit.text] at e
  · rintro ⟨x, rfl⟩
    rfl

theorem aval_string {v : AVal} (hd : ∀ x, v ≠ .dq x) : (∃ t, v.value = .string t) ↔ ∃ l, v = .lit (.str l) := by
  cases v with
  | lit l => cases l <;> simp [AVal.value, Lit.value]
  | word => simp [AVal.value]
  | dq x => exact absurd rfl (hd x)

theorem prop_rep (p : Property) : PropOk p ↔ ∃ x : ProjItem, x.Ok ∧ x.prop? = some (p.mapSpan noPos) := by
  obtain ⟨sp, k, l⟩ := p
  constructor
  · rintro ⟨⟨h1, e1⟩, ⟨v, h2, e2, e3⟩, h3, h4⟩
    have hd : ∀ x, v ≠ .dq x := fun x e => h3 (by rw [e2]; exact (aval_head h2).2 ⟨x, e⟩)
    refine ⟨.prop k.raw v, ⟨h1, h2, hd, ?_⟩, ?_⟩
    · rintro ⟨hk, hl⟩
      exact h4 ⟨hk, by rw [e3]; exact (aval_string hd).2 hl⟩
    · obtain ⟨_, kr, kt⟩ := k
      obtain ⟨_, lr, lv⟩ := l
      simp only [ProjItem.prop?, Property.mapSpan, keyAst, AVal.ast, Ident.mapSpan, Literal.mapSpan] at *
      rw [e1, e2, e3]
  · rintro ⟨_ | ⟨s, v⟩, h, e⟩
    · simp [ProjItem.prop?] at e
    · obtain ⟨h1, h2, h3, h4⟩ := h
      obtain ⟨_, kr, kt⟩ := k
      obtain ⟨_, lr, lv⟩ := l
      simp only [ProjItem.prop?, Property.mapSpan, keyAst, AVal.ast, Ident.mapSpan, Literal.mapSpan, Option.some.injEq,
        Property.mk.injEq, Ident.mk.injEq, Literal.mk.injEq] at e
      obtain ⟨-, ⟨-, rfl, rfl⟩, -, rfl, rfl⟩ := e
      refine ⟨⟨h1, rfl⟩, ⟨v, h2, rfl, rfl⟩, ?_, ?_⟩
      · intro hh
        obtain ⟨x, e⟩ := (aval_head h2).1 hh
        exact h3 x e
      · rintro ⟨hk, ht⟩
        exact h4 ⟨hk, (aval_string h3).1 ht⟩

theorem props_rep (ps : List Property) :
    (∀ p ∈ ps, PropOk p) ↔ ∃ xs : List ProjItem, (∀ x ∈ xs, x.Ok) ∧ xs.map ProjItem.prop? =
      (ps.map (·.mapSpan noPos)).map some := by
  rw [List.map_map]
  induction ps with
  | nil => exact ⟨fun _ => ⟨[], by simp, rfl⟩, fun _ => by simp⟩
  | cons t ts ih =>
    rw [List.forall_mem_cons, ih, prop_rep]
    constructor
    · rintro ⟨⟨x, hx, e⟩, xs, hxs, es⟩
      exact ⟨x :: xs, List.forall_mem_cons.2 ⟨hx, hxs⟩, by simp [e, es]⟩
    · rintro ⟨xs, hxs, e⟩
      cases xs with
      | nil => simp at e
      | cons x xs =>
        simp only [List.map_cons, List.cons.injEq] at e
        have := List.forall_mem_cons.1 hxs
        exact ⟨⟨x, this.1, e.1⟩, xs, this.2, e.2⟩

theorem dbTypes_map (ps : List Property) :
    (ps.map (·.mapSpan noPos)).filterMap dbTypeOf = ps.filterMap dbTypeOf := by
  rw [List.filterMap_map]; rfl

theorem project_rep (b : ProjectBlock) : ProjectOk b ↔ ∃ x : Source.Project, x.Ok ∧ x.ast = b.mapSpan noPos := by
  obtain ⟨sp, ps, i, db, nt⟩ := b
  constructor
  · rintro ⟨h1, h2, h3, h4⟩
    obtain ⟨n, hn, e1⟩ := (ident_rep _).1 h1
    obtain ⟨xs, hxs, e2⟩ := (props_rep _).1 h2
    obtain ⟨o, ho, e3⟩ := (rep_opt note_rep _).1 h3
    have f1 : xs.filterMap ProjItem.prop? = ps.map (·.mapSpan noPos) := by
      have := congrArg (List.filterMap id) e2
      simpa [List.filterMap_map, Function.comp_def] using this
    have f2 : xs.filterMap ProjItem.note? = [] := by
      refine List.filterMap_eq_nil_iff.2 fun x hx => ?_
      have : ProjItem.prop? x ∈ (ps.map (·.mapSpan noPos)).map some := e2 ▸ List.mem_map_of_mem hx
      cases x with
      | note n => simp [ProjItem.prop?] at this
      | prop => rfl
    have f3 : ∀ o : Option Source.Note, (o.toList.map ProjItem.note).filterMap ProjItem.prop? = [] :=
      fun o => filterMap_none (fun _ => rfl) _
    have f4 : ∀ o : Option Source.Note, (o.toList.map ProjItem.note).filterMap ProjItem.note? =
        o.toList.map Note.ast := fun o => filterMap_some' (f := ProjItem.note?) (g := ProjItem.note) (fun _ => rfl) _
    refine ⟨⟨k!"project ", n, xs ++ o.toList.map ProjItem.note⟩, ⟨rfl, hn, ?_⟩, ?_⟩
    · intro x hx
      rcases List.mem_append.1 hx with hx | hx
      · exact hxs x hx
      · obtain ⟨m, hm, rfl⟩ := List.mem_map.1 hx
        exact ho m (by simpa using hm)
    · simp only [Project.ast, ProjectBlock.mapSpan, List.filterMap_append, f1, f2, f3, f4, List.append_nil,
        List.nil_append, List.getLast?_map, getLast?_opt, e3, e1] at h4 ⊢
      rw [dbTypes_map, h4]
  · rintro ⟨⟨kw, n, is⟩, ⟨-, h2, h3⟩, e⟩
    simp only [Project.ast, ProjectBlock.mapSpan, ProjectBlock.mk.injEq] at e
    obtain ⟨-, e1, e2, e3, e4⟩ := e
    refine ⟨(ident_rep _).2 ⟨n, h2, e2⟩, ?_, ?_, ?_⟩
    · intro p hp
      have : p.mapSpan noPos ∈ is.filterMap (·.prop?) := e1 ▸ List.mem_map_of_mem hp
      obtain ⟨x, hx, ex⟩ := List.mem_filterMap.1 this
      exact (prop_rep p).2 ⟨x, h3 x hx, ex⟩
    · intro m hm
      have hm' : nt = some m := hm
      subst hm'
      obtain ⟨x, hx, ex⟩ := List.mem_filterMap.1 (List.mem_of_getLast? e4)
      cases x with
      | prop => simp [ProjItem.note?] at ex
      | note x => exact (note_rep m).2 ⟨x, h3 _ hx, by simpa [ProjItem.note?] using ex⟩
    · rw [← e3, e1, dbTypes_map]

/-! ## References -/

theorem end_rep (r : RefIdent) : EndpointOk r ↔ ∃ x : REnd, x.Ok ∧ x.ast = r.mapSpan noPos := by
  obtain ⟨sp, s, t, cs⟩ := r
  unfold EndpointOk
  rw [rep_opt ident_rep, ident_rep, rep_list ident_rep]
  constructor
  · rintro ⟨⟨s', h1, e1⟩, ⟨t', h2, e2⟩, h3, xs, h4, e4⟩
    cases xs with
    | nil => simp at e4; simp [e4] at h3
    | cons x xs =>
      refine ⟨⟨s', t', .many x xs⟩, ⟨h1, h2, h4⟩, ?_⟩
      simp only [REnd.ast, RefIdent.mapSpan, Comp.names] at *
      rw [e1, e2, e4]
  · rintro ⟨⟨s', t', c⟩, ⟨h1, h2, h3⟩, e⟩
    simp only [REnd.ast, RefIdent.mapSpan, RefIdent.mk.injEq] at e
    refine ⟨⟨s', h1, e.2.1⟩, ⟨t', h2, e.2.2.1⟩, ?_, c.names, h3, e.2.2.2⟩
    rintro rfl
    have := e.2.2.2
    cases c <;> simp [Comp.names] at this

theorem inline_rep (r : RefInline) : InlineOk r ↔ ∃ x : InlineRef, x.Ok ∧ x.ast = r.mapSpan noPos := by
  obtain ⟨sp, rel, rhs⟩ := r
  unfold InlineOk
  rw [end_rep]
  constructor
  · rintro ⟨h1, x, h2, e⟩
    exact ⟨⟨rel, x⟩, ⟨h1, h2⟩, by simp only [InlineRef.ast, RefInline.mapSpan] at *; rw [e]⟩
  · rintro ⟨⟨rel', x⟩, ⟨h1, h2⟩, e⟩
    simp only [InlineRef.ast, RefInline.mapSpan, RefInline.mk.injEq] at e
    obtain ⟨-, rfl, e⟩ := e
    exact ⟨h1, x, h2, e⟩

theorem actionOf_map (k : Str) (as : List Attribute) :
    Source.actionOf k (as.map (·.mapSpan noPos)) = Source.actionOf k as := by
  unfold Source.actionOf
  rw [lastValue_map]
  cases lastValue k as with
  | none => rfl
  | some l => obtain ⟨sp, r, v⟩ := l; cases v <;> rfl

/-- Members of attribute lists, as written and as read. -/
theorem attrsAst_mem {xs : List Attr} {as : List Attribute} (e : attrsAst xs = as.map (·.mapSpan noPos)) :
    (∀ x ∈ xs, ∃ a ∈ as, x.ast = a.mapSpan noPos) ∧ ∀ a ∈ as, ∃ x ∈ xs, x.ast = a.mapSpan noPos := by
  constructor
  · intro x hx
    have : x.ast ∈ as.map (·.mapSpan noPos) := e ▸ List.mem_map_of_mem hx
    obtain ⟨a, ha, e⟩ := List.mem_map.1 this
    exact ⟨a, ha, e.symm⟩
  · intro a ha
    have : a.mapSpan noPos ∈ attrsAst xs := e ▸ List.mem_map_of_mem ha
    obtain ⟨x, hx, e⟩ := List.mem_map.1 this
    exact ⟨x, hx, e⟩

theorem attr_fields {x : Attr} {a : Attribute} (e : x.ast = a.mapSpan noPos) :
    a.key.raw = x.key ∧ a.value.map (·.value) = x.value.map (·.value) := by
  obtain ⟨sp, ⟨_, r, t⟩, v⟩ := a
  obtain ⟨k, w⟩ := x
  simp only [Attr.ast, Attribute.mapSpan, keyAst, Ident.mapSpan, Attribute.mk.injEq, Ident.mk.injEq] at e
  obtain ⟨-, ⟨-, rfl, -⟩, e⟩ := e
  refine ⟨rfl, ?_⟩
  have := congrArg (Option.map Literal.value) e
  simp only [Option.map_map] at this
  exact this.symm

theorem aval_enum {v : AVal} {w : Str} : v.value = .enum w ↔ v = .word w := by
  cases v with
  | lit l => cases l <;> simp [AVal.value, Lit.value]
  | word s => simp [AVal.value]
  | dq x => simp [AVal.value]

theorem refSettings_rep (s : RefSettings) :
    RefSettingsOk s ↔ ∃ as : List Attr, RefAttrsOk as ∧ refSettingsAst as = s.mapSpan noPos := by
  obtain ⟨sp, as, d, u⟩ := s
  unfold RefSettingsOk
  constructor
  · rintro ⟨h1, h2, h3, h4⟩
    obtain ⟨xs, hx, e⟩ := (attrs_rep _).1 h1
    refine ⟨xs, ⟨hx, ?_⟩, ?_⟩
    · intro x hxm hk w hw
      obtain ⟨a, ha, ea⟩ := (attrsAst_mem e).1 x hxm
      obtain ⟨f1, f2⟩ := attr_fields ea
      rw [hw] at f2
      obtain ⟨l, hl, e3⟩ := Option.map_eq_some_iff.1 (f2.trans rfl)
      exact h2 a ha (by rw [f1]; exact hk) l hl w e3
    · simp only [refSettingsAst, RefSettings.mapSpan, e, actionOf_map] at h3 h4 ⊢
      rw [h3, h4]
  · rintro ⟨xs, ⟨hx, hk⟩, e⟩
    simp only [refSettingsAst, RefSettings.mapSpan, RefSettings.mk.injEq] at e
    obtain ⟨-, e, e2, e3⟩ := e
    refine ⟨(attrs_rep _).2 ⟨xs, hx, e⟩, ?_, ?_, ?_⟩
    · intro a ha hka l hl w hw
      obtain ⟨x, hxm, ex⟩ := (attrsAst_mem e).2 a ha
      obtain ⟨f1, f2⟩ := attr_fields ex
      have hl' : a.value = some l := hl
      rw [hl'] at f2
      obtain ⟨v, hv, e4⟩ := Option.map_eq_some_iff.1 f2.symm
      change v.value = l.value at e4
      rw [hw] at e4
      rw [f1] at hka
      exact hk x hxm hka w (by rw [hv, aval_enum.1 e4])
    · rw [← e3, e, actionOf_map]
    · rw [← e2, e, actionOf_map]

theorem ref_rep (r : RefBlock) : RefBlockOk r ↔ ∃ x : Source.Ref, x.Ok ∧ x.ast = r.mapSpan noPos := by
  obtain ⟨sp, n, rel, l, rr, st⟩ := r
  unfold RefBlockOk
  rw [rep_opt ident_rep, end_rep, end_rep, rep_opt refSettings_rep]
  constructor
  · rintro ⟨⟨n', h1, e1⟩, ⟨l', h2, e2⟩, h3, ⟨r', h4, e4⟩, s', h5, e5⟩
    refine ⟨⟨k!"ref", n', false, l', rel, r', s'⟩, ⟨rfl, h1, h2, h3, h4, h5⟩, ?_⟩
    simp only [Ref.ast, RefBlock.mapSpan] at *
    rw [e1, e2, e4, e5]
  · rintro ⟨⟨kw, n', b, l', rel', r', s'⟩, ⟨-, h1, h2, h3, h4, h5⟩, e⟩
    simp only [Ref.ast, RefBlock.mapSpan, RefBlock.mk.injEq] at e
    obtain ⟨-, e1, rfl, e2, e3, e4⟩ := e
    exact ⟨⟨n', h1, e1⟩, ⟨l', h2, e2⟩, h3, ⟨r', h4, e3⟩, s', h5, e4⟩

/-! ## Indexes -/

theorem indexCol_rep (c : IndexesColumnType) : IndexColOk c ↔ ∃ x : ICol, x.Ok ∧ x.ast = c.mapSpan noPos := by
  cases c with
  | string i =>
    show IdentOk i ↔ _
    rw [ident_rep]
    constructor
    · rintro ⟨n, h, e⟩
      exact ⟨.name n, h, by simp only [ICol.ast, IndexesColumnType.mapSpan]; rw [e]⟩
    · rintro ⟨n | x, h, e⟩
      · exact ⟨n, h, by simpa [ICol.ast, IndexesColumnType.mapSpan] using e⟩
      · simp [ICol.ast, IndexesColumnType.mapSpan] at e
  | expr l =>
    obtain ⟨sp, r, v⟩ := l
    constructor
    · rintro ⟨x, h, e1, e2⟩
      exact ⟨.expr x, h, by simp only [ICol.ast, IndexesColumnType.mapSpan, Literal.mapSpan] at *; rw [e1, e2]⟩
    · rintro ⟨n | x, h, e⟩
      · simp [ICol.ast, IndexesColumnType.mapSpan] at e
      · simp only [ICol.ast, IndexesColumnType.mapSpan, Literal.mapSpan, IndexesColumnType.expr.injEq,
          Literal.mk.injEq] at e
        exact ⟨x, h, e.2.1.symm, e.2.2.symm⟩

theorem type_map (o : Option Literal) :
    ((o.map (·.mapSpan noPos)).bind fun l => indexTypes.lookup l.value.toStr) =
      o.bind fun l => indexTypes.lookup l.value.toStr := by
  cases o <;> rfl

theorem indexSettings_rep (s : IndexesSettings) :
    IndexSettingsOk s ↔ ∃ as : List Attr, IndexAttrsOk as ∧ indexSettingsAst as = s.mapSpan noPos := by
  obtain ⟨sp, as, ty, un, pk, nt, nm⟩ := s
  unfold IndexSettingsOk
  constructor
  · rintro ⟨h1, h2, h3, h4, h5, h6, h7⟩
    obtain ⟨xs, hx, e⟩ := (attrs_rep _).1 h1
    refine ⟨xs, ⟨hx, ?_⟩, ?_⟩
    · intro x hxm hk v hv
      obtain ⟨a, ha, ea⟩ := (attrsAst_mem e).1 x hxm
      obtain ⟨f1, f2⟩ := attr_fields ea
      rw [hv] at f2
      obtain ⟨l, hl, e3⟩ := Option.map_eq_some_iff.1 (f2.trans rfl)
      change l.value = v.value at e3
      rw [← e3]
      exact h2 a ha (by rw [f1]; exact hk) l hl
    · simp only [indexSettingsAst, IndexesSettings.mapSpan, e, lastValue_map, has_map, toStr_map, type_map] at *
      rw [h3, h4, h5, h6, h7]
  · rintro ⟨xs, ⟨hx, hk⟩, e⟩
    simp only [indexSettingsAst, IndexesSettings.mapSpan, IndexesSettings.mk.injEq] at e
    obtain ⟨-, e, e2, e3, e4, e5, e6⟩ := e
    simp only [e, lastValue_map, has_map, toStr_map, type_map] at e2 e3 e4 e5 e6
    refine ⟨(attrs_rep _).2 ⟨xs, hx, e⟩, ?_, e2.symm, e3.symm, e4.symm, e5.symm, e6.symm⟩
    intro a ha hka l hl
    obtain ⟨x, hxm, ex⟩ := (attrsAst_mem e).2 a ha
    obtain ⟨f1, f2⟩ := attr_fields ex
    have hl' : a.value = some l := hl
    rw [hl'] at f2
    obtain ⟨v, hv, e4⟩ := Option.map_eq_some_iff.1 f2.symm
    change v.value = l.value at e4
    rw [← e4]
    exact hk x hxm (by rw [← f1]; exact hka) v hv

theorem index_rep (d : IndexesDef) : IndexOk d ↔ ∃ x : IDef, x.Ok ∧ x.ast = d.mapSpan noPos := by
  obtain ⟨sp, cs, st⟩ := d
  unfold IndexOk
  rw [rep_list indexCol_rep, rep_opt indexSettings_rep]
  constructor
  · rintro ⟨⟨xs, h1, e1⟩, s', h2, e2⟩
    refine ⟨.multi xs s', ⟨h1, h2⟩, ?_⟩
    simp only [IDef.ast, IDef.cols, IDef.settings, IndexesDef.mapSpan] at *
    rw [e1, e2]
  · rintro ⟨x, ⟨h1, h2⟩, e⟩
    simp only [IDef.ast, IndexesDef.mapSpan, IndexesDef.mk.injEq] at e
    exact ⟨⟨_, h1, e.2.1⟩, _, h2, e.2.2⟩

theorem indexes_rep (b : IndexesBlock) : IndexesOk b ↔ ∃ x : Idxs, x.Ok ∧ x.ast = b.mapSpan noPos := by
  obtain ⟨sp, ds⟩ := b
  unfold IndexesOk
  rw [rep_list index_rep]
  constructor
  · rintro ⟨xs, h1, e1⟩
    exact ⟨⟨k!"indexes", xs⟩, ⟨rfl, h1⟩, by simp only [Idxs.ast, IndexesBlock.mapSpan] at *; rw [e1]⟩
  · rintro ⟨⟨kw, xs⟩, ⟨-, h1⟩, e⟩
    simp only [Idxs.ast, IndexesBlock.mapSpan, IndexesBlock.mk.injEq] at e
    exact ⟨xs, h1, e.2⟩

/-! ## Enums -/

theorem enumSettings_rep (s : EnumValueSettings) :
    (AttrsOk s.attributes ∧ s.note = (lastValue k!"note" s.attributes).map (·.value.toStr)) ↔
      ∃ as : List Attr, (∀ a ∈ as, a.Ok) ∧ enumSettingsAst as = s.mapSpan noPos := by
  obtain ⟨sp, as, nt⟩ := s
  constructor
  · rintro ⟨h1, h2⟩
    obtain ⟨xs, hx, e⟩ := (attrs_rep _).1 h1
    refine ⟨xs, hx, ?_⟩
    simp only [enumSettingsAst, EnumValueSettings.mapSpan, e, lastValue_map, toStr_map] at *
    rw [h2]
  · rintro ⟨xs, hx, e⟩
    simp only [enumSettingsAst, EnumValueSettings.mapSpan, EnumValueSettings.mk.injEq] at e
    obtain ⟨-, e, e2⟩ := e
    simp only [e, lastValue_map, toStr_map] at e2
    exact ⟨(attrs_rep _).2 ⟨xs, hx, e⟩, e2.symm⟩

theorem enumValue_rep (v : EnumValue) : EnumValueOk v ↔ ∃ x : EVal, x.Ok ∧ x.ast = v.mapSpan noPos := by
  obtain ⟨sp, i, st⟩ := v
  unfold EnumValueOk
  rw [ident_rep, rep_opt enumSettings_rep]
  constructor
  · rintro ⟨⟨n, h1, e1⟩, s', h2, e2⟩
    exact ⟨⟨n, s'⟩, ⟨h1, h2⟩, by simp only [EVal.ast, EnumValue.mapSpan] at *; rw [e1, e2]⟩
  · rintro ⟨⟨n, s'⟩, ⟨h1, h2⟩, e⟩
    simp only [EVal.ast, EnumValue.mapSpan, EnumValue.mk.injEq] at e
    exact ⟨⟨n, h1, e.2.1⟩, s', h2, e.2.2⟩

theorem enum_rep (b : EnumBlock) : EnumOk b ↔ ∃ x : Source.Enum, x.Ok ∧ x.ast = b.mapSpan noPos := by
  obtain ⟨sp, ⟨sp', s, n⟩, vs⟩ := b
  unfold EnumOk
  rw [rep_opt ident_rep, ident_rep, rep_list enumValue_rep]
  constructor
  · rintro ⟨⟨s', h1, e1⟩, ⟨n', h2, e2⟩, xs, h3, e3⟩
    refine ⟨⟨k!"enum ", s', n', xs⟩, ⟨rfl, h1, h2, h3⟩, ?_⟩
    simp only [Enum.ast, EnumBlock.mapSpan, EnumIdent.mapSpan] at *
    rw [e1, e2, e3]
  · rintro ⟨⟨kw, s', n', xs⟩, ⟨-, h1, h2, h3⟩, e⟩
    simp only [Enum.ast, EnumBlock.mapSpan, EnumIdent.mapSpan, EnumBlock.mk.injEq, EnumIdent.mk.injEq] at e
    exact ⟨⟨s', h1, e.2.1.2.1⟩, ⟨n', h2, e.2.1.2.2⟩, xs, h3, e.2.2⟩

/-! ## Tables -/

theorem type_rep (c : ColumnType) : ColumnTypeOk c ↔ ∃ t : Ty, t.Ok ∧ t.ast = c.mapSpan noPos := by
  obtain ⟨sp, r, tn, as, rs⟩ := c
  constructor
  · rintro ⟨t, h, e1, e2, e3, e4⟩
    simp only at e1 e2 e3 e4
    refine ⟨t, h, ?_⟩
    simp only [ColumnType.mapSpan, e1, e2, e3, e4]
    rfl
  · rintro ⟨t, h, e⟩
    refine ⟨t, h, ?_⟩
    rw [e]
    exact ⟨(congrArg ColumnType.raw e).symm, by rfl, by rfl, by rfl⟩

theorem colSettings_rep (s : ColumnSettings) :
    ColSettingsOk s ↔ ∃ is : List ColSet, (∀ i ∈ is, i.Ok) ∧ colSettingsAst is = s.mapSpan noPos := by
  obtain ⟨sp, as, pk, un, nu, inc, nt, df, rs⟩ := s
  unfold ColSettingsOk
  constructor
  · rintro ⟨h1, h2, h3, h4, h5, h6, h7, h8⟩
    obtain ⟨xs, hx, e⟩ := (attrs_rep _).1 h1
    obtain ⟨ys, hy, e'⟩ := (rep_list inline_rep _).1 h2
    have f1 : (xs.map ColSet.attr ++ ys.map ColSet.ref).filterMap ColSet.attr? = as.map (·.mapSpan noPos) := by
      rw [List.filterMap_append, filterMap_some' (f := ColSet.attr?) (g := ColSet.attr) (k := Attr.ast) (fun _ => rfl), filterMap_none (fun _ => rfl),
        List.append_nil]
      exact e
    have f2 : (xs.map ColSet.attr ++ ys.map ColSet.ref).filterMap ColSet.ref? = rs.map (·.mapSpan noPos) := by
      rw [List.filterMap_append, filterMap_none (fun _ => rfl), filterMap_some' (f := ColSet.ref?) (g := ColSet.ref) (k := InlineRef.ast) (fun _ => rfl),
        List.nil_append]
      exact e'
    refine ⟨xs.map ColSet.attr ++ ys.map ColSet.ref, ?_, ?_⟩
    · intro i hi
      rcases List.mem_append.1 hi with hi | hi
      · obtain ⟨x, hxm, rfl⟩ := List.mem_map.1 hi
        exact hx x hxm
      · obtain ⟨x, hxm, rfl⟩ := List.mem_map.1 hi
        exact hy x hxm
    · simp only [colSettingsAst, ColumnSettings.mapSpan, f1, f2, lastValue_map, has_map, toStr_map, nullable_map,
        value_map] at *
      rw [h3, h4, h5, h6, h7, h8]
  · rintro ⟨is, hi, e⟩
    simp only [colSettingsAst, ColumnSettings.mapSpan, ColumnSettings.mk.injEq] at e
    obtain ⟨-, e, e2, e3, e4, e5, e6, e7, e8⟩ := e
    simp only [e, lastValue_map, has_map, toStr_map, nullable_map, value_map] at e2 e3 e4 e5 e6 e7
    refine ⟨?_, ?_, e2.symm, e3.symm, e4.symm, e5.symm, e6.symm, e7.symm⟩
    · intro a ha
      have : a.mapSpan noPos ∈ is.filterMap (·.attr?) := e ▸ List.mem_map_of_mem ha
      obtain ⟨x, hx, ex⟩ := List.mem_filterMap.1 this
      cases x with
      | attr x => exact (attr_rep a).2 ⟨x, hi _ hx, by simpa [ColSet.attr?] using ex⟩
      | ref => simp [ColSet.attr?] at ex
    · intro a ha
      have : a.mapSpan noPos ∈ is.filterMap (·.ref?) := e8 ▸ List.mem_map_of_mem ha
      obtain ⟨x, hx, ex⟩ := List.mem_filterMap.1 this
      cases x with
      | ref x => exact (inline_rep a).2 ⟨x, hi _ hx, by simpa [ColSet.ref?] using ex⟩
      | attr => simp [ColSet.ref?] at ex

theorem column_rep (c : TableColumn) : ColumnOk c ↔ ∃ x : Col, x.Ok ∧ x.ast = c.mapSpan noPos := by
  obtain ⟨sp, n, t, st⟩ := c
  unfold ColumnOk
  rw [ident_rep, type_rep, rep_opt colSettings_rep]
  constructor
  · rintro ⟨⟨n', h1, e1⟩, ⟨t', h2, e2⟩, s', h3, e3⟩
    refine ⟨⟨n', t', s'⟩, ⟨h1, h2, h3⟩, ?_⟩
    simp only [Col.ast, TableColumn.mapSpan] at *
    rw [e1, e2, e3]
  · rintro ⟨⟨n', t', s'⟩, ⟨h1, h2, h3⟩, e⟩
    simp only [Col.ast, TableColumn.mapSpan, TableColumn.mk.injEq] at e
    exact ⟨⟨n', h1, e.2.1⟩, ⟨t', h2, e.2.2.1⟩, s', h3, e.2.2.2⟩

theorem alias_rep (i : Ident) :
    IdentOk i ↔ ∃ a : Alias, (Keyword k!"as " a.kw ∧ a.name.Ok) ∧ a.name.ast = i.mapSpan noPos := by
  rw [ident_rep]
  constructor
  · rintro ⟨n, h, e⟩
    exact ⟨⟨k!"as ", n⟩, ⟨rfl, h⟩, e⟩
  · rintro ⟨a, ⟨-, h⟩, e⟩
    exact ⟨_, h, e⟩

theorem tableSettings_rep (s : TableSettings) :
    AttrsOk s.attributes ↔ ∃ as : List Attr, (∀ a ∈ as, a.Ok) ∧
      ({ attributes := attrsAst as } : TableSettings) = s.mapSpan noPos := by
  obtain ⟨sp, as⟩ := s
  rw [attrs_rep]
  constructor
  · rintro ⟨xs, h, e⟩
    exact ⟨xs, h, by simp only [TableSettings.mapSpan] at *; rw [e]⟩
  · rintro ⟨xs, h, e⟩
    exact ⟨xs, h, by simpa [TableSettings.mapSpan] using e⟩

theorem table_rep (b : TableBlock) : TableOk b ↔ ∃ x : Source.Table, x.Ok ∧ x.ast = b.mapSpan noPos := by
  obtain ⟨sp, cs, ⟨sp', n, s, a⟩, nt, ix, st⟩ := b
  constructor
  · rintro ⟨h1, h2, h3, h4, h5, h6, h7⟩
    obtain ⟨s', k1, e1⟩ := (rep_opt ident_rep _).1 h1
    obtain ⟨n', k2, e2⟩ := (ident_rep _).1 h2
    obtain ⟨a', k3, e3⟩ := (rep_opt alias_rep _).1 h3
    obtain ⟨st', k4, e4⟩ := (rep_opt tableSettings_rep _).1 h4
    obtain ⟨cs', k5, e5⟩ := (rep_list column_rep _).1 h5
    obtain ⟨nt', k6, e6⟩ := (rep_opt note_rep _).1 h6
    obtain ⟨ix', k7, e7⟩ := (rep_opt indexes_rep _).1 h7
    let items := cs'.map TItem.col ++ (nt'.toList.map TItem.note ++ ix'.toList.map TItem.indexes)
    have f1 : items.filterMap TItem.col? = cs.map (·.mapSpan noPos) := by
      simp only [items, List.filterMap_append]
      rw [filterMap_some' (f := TItem.col?) (g := TItem.col) (k := Col.ast) (fun _ => rfl), filterMap_none (fun _ => rfl), filterMap_none (fun _ => rfl)]
      simp [e5]
    have f2 : (items.filterMap TItem.note?).getLast? = nt.map (·.mapSpan noPos) := by
      simp only [items, List.filterMap_append]
      rw [filterMap_none (fun _ => rfl), filterMap_some' (f := TItem.note?) (g := TItem.note) (k := Note.ast) (fun _ => rfl), filterMap_none (fun _ => rfl)]
      simp only [List.nil_append, List.append_nil, List.getLast?_map, getLast?_opt]
      exact e6
    have f3 : (items.filterMap TItem.indexes?).getLast? = ix.map (·.mapSpan noPos) := by
      simp only [items, List.filterMap_append]
      rw [filterMap_none (fun _ => rfl), filterMap_none (fun _ => rfl), filterMap_some' (f := TItem.indexes?) (g := TItem.indexes) (k := Idxs.ast) (fun _ => rfl)]
      simp only [List.nil_append, List.getLast?_map, getLast?_opt]
      exact e7
    refine ⟨⟨k!"table ", s', n', a', st', items⟩, ⟨rfl, k1, k2, k3, k4, ?_⟩, ?_⟩
    · intro i hi
      rcases List.mem_append.1 hi with hi | hi
      · obtain ⟨x, hx, rfl⟩ := List.mem_map.1 hi
        exact k5 x hx
      rcases List.mem_append.1 hi with hi | hi
      · obtain ⟨x, hx, rfl⟩ := List.mem_map.1 hi
        exact k6 x (by simpa using hx)
      · obtain ⟨x, hx, rfl⟩ := List.mem_map.1 hi
        exact k7 x (by simpa using hx)
    · simp only [Table.ast, TableBlock.mapSpan, TableIdent.mapSpan, f1, f2, f3] at *
      rw [e1, e2, e3, e4]
  · rintro ⟨⟨kw, s', n', a', st', is⟩, ⟨-, h1, h2, h3, h4, h5⟩, e⟩
    simp only [Table.ast, TableBlock.mapSpan, TableIdent.mapSpan, TableBlock.mk.injEq, TableIdent.mk.injEq] at e
    obtain ⟨-, e1, ⟨-, e2, e3, e4⟩, e5, e6, e7⟩ := e
    refine ⟨(rep_opt ident_rep _).2 ⟨s', h1, e3⟩, (ident_rep _).2 ⟨n', h2, e2⟩, (rep_opt alias_rep _).2 ⟨a', h3, e4⟩,
      (rep_opt tableSettings_rep _).2 ⟨st', h4, e7⟩, ?_, ?_, ?_⟩
    · intro c hc
      have : c.mapSpan noPos ∈ is.filterMap (·.col?) := e1 ▸ List.mem_map_of_mem hc
      obtain ⟨x, hx, ex⟩ := List.mem_filterMap.1 this
      cases x with
      | col x => exact (column_rep c).2 ⟨x, h5 _ hx, by simpa [TItem.col?] using ex⟩
      | note => simp [TItem.col?] at ex
      | indexes => simp [TItem.col?] at ex
    · intro c hc
      have hc' : nt = some c := hc
      subst hc'
      obtain ⟨x, hx, ex⟩ := List.mem_filterMap.1 (List.mem_of_getLast? e5)
      cases x with
      | note x => exact (note_rep c).2 ⟨x, h5 _ hx, by simpa [TItem.note?] using ex⟩
      | col => simp [TItem.note?] at ex
      | indexes => simp [TItem.note?] at ex
    · intro c hc
      have hc' : ix = some c := hc
      subst hc'
      obtain ⟨x, hx, ex⟩ := List.mem_filterMap.1 (List.mem_of_getLast? e6)
      cases x with
      | indexes x => exact (indexes_rep c).2 ⟨x, h5 _ hx, by simpa [TItem.indexes?] using ex⟩
      | col => simp [TItem.indexes?] at ex
      | note => simp [TItem.indexes?] at ex

/-! ## Groups -/

theorem groupSettings_rep (s : TableGroupSettings) :
    AttrsOk s.attributes ↔ ∃ as : List Attr, (∀ a ∈ as, a.Ok) ∧
      ({ attributes := attrsAst as } : TableGroupSettings) = s.mapSpan noPos := by
  obtain ⟨sp, as⟩ := s
  rw [attrs_rep]
  constructor
  · rintro ⟨xs, h, e⟩
    exact ⟨xs, h, by simp only [TableGroupSettings.mapSpan] at *; rw [e]⟩
  · rintro ⟨xs, h, e⟩
    exact ⟨xs, h, by simpa [TableGroupSettings.mapSpan] using e⟩

/-- An item of a group, as written. -/
def gItem (p : Option Name × Name) : GItem := .item p.1 p.2
def gItemAst (p : Option Name × Name) : TableGroupItem := { schema := p.1.map (·.ast), ident_alias := p.2.ast }

theorem groupItem_rep (i : TableGroupItem) :
    ((∀ s ∈ i.schema, IdentOk s) ∧ IdentOk i.ident_alias) ↔
      ∃ p : Option Name × Name, (gItem p).Ok ∧ gItemAst p = i.mapSpan noPos := by
  obtain ⟨sp, s, n⟩ := i
  simp only
  rw [rep_opt ident_rep, ident_rep]
  constructor
  · rintro ⟨⟨s', h1, e1⟩, n', h2, e2⟩
    exact ⟨(s', n'), ⟨h1, h2⟩, by simp only [gItemAst, TableGroupItem.mapSpan] at *; rw [e1, e2]⟩
  · rintro ⟨⟨s', n'⟩, ⟨h1, h2⟩, e⟩
    simp only [gItemAst, TableGroupItem.mapSpan, TableGroupItem.mk.injEq] at e
    exact ⟨⟨s', h1, e.2.1⟩, n', h2, e.2.2⟩

theorem group_rep (b : TableGroupBlock) : GroupOk b ↔ ∃ x : Group, x.Ok ∧ x.ast = b.mapSpan noPos := by
  obtain ⟨sp, n, nt, is, st⟩ := b
  constructor
  · rintro ⟨h1, h2, h3, h4⟩
    obtain ⟨n', k1, e1⟩ := (ident_rep _).1 h1
    obtain ⟨st', k2, e2⟩ := (rep_opt groupSettings_rep _).1 h2
    obtain ⟨nt', k3, e3⟩ := (rep_opt note_rep _).1 h3
    obtain ⟨is', k4, e4⟩ := (rep_list groupItem_rep _).1 h4
    let items := is'.map gItem ++ nt'.toList.map GItem.note
    have f1 : items.filterMap GItem.item? = is.map (·.mapSpan noPos) := by
      simp only [items, List.filterMap_append]
      rw [filterMap_some' (f := GItem.item?) (g := gItem) (k := gItemAst) (fun _ => rfl), filterMap_none (fun _ => rfl)]
      simp [e4]
    have f2 : (items.filterMap GItem.note?).getLast? = nt.map (·.mapSpan noPos) := by
      simp only [items, List.filterMap_append]
      rw [filterMap_none (fun _ => rfl), filterMap_some' (f := GItem.note?) (g := GItem.note) (k := Note.ast) (fun _ => rfl)]
      simp only [List.nil_append, List.getLast?_map, getLast?_opt]
      exact e3
    refine ⟨⟨k!"tablegroup ", n', st', items⟩, ⟨rfl, k1, k2, ?_⟩, ?_⟩
    · intro i hi
      rcases List.mem_append.1 hi with hi | hi
      · obtain ⟨x, hx, rfl⟩ := List.mem_map.1 hi
        exact k4 x hx
      · obtain ⟨x, hx, rfl⟩ := List.mem_map.1 hi
        exact k3 x (by simpa using hx)
    · simp only [Group.ast, TableGroupBlock.mapSpan, f1, f2] at *
      rw [e1, e2]
  · rintro ⟨⟨kw, n', st', is'⟩, ⟨-, h1, h2, h3⟩, e⟩
    simp only [Group.ast, TableGroupBlock.mapSpan, TableGroupBlock.mk.injEq] at e
    obtain ⟨-, e1, e2, e3, e4⟩ := e
    refine ⟨(ident_rep _).2 ⟨n', h1, e1⟩, (rep_opt groupSettings_rep _).2 ⟨st', h2, e4⟩, ?_, ?_⟩
    · intro c hc
      have hc' : nt = some c := hc
      subst hc'
      obtain ⟨x, hx, ex⟩ := List.mem_filterMap.1 (List.mem_of_getLast? e2)
      cases x with
      | note x => exact (note_rep c).2 ⟨x, h3 _ hx, by simpa [GItem.note?] using ex⟩
      | item => simp [GItem.note?] at ex
    · intro c hc
      have : c.mapSpan noPos ∈ is'.filterMap (·.item?) := e3 ▸ List.mem_map_of_mem hc
      obtain ⟨x, hx, ex⟩ := List.mem_filterMap.1 this
      cases x with
      | note => simp [GItem.item?] at ex
      | item s m => exact (groupItem_rep c).2 ⟨(s, m), h3 _ hx, by simpa [GItem.item?, gItemAst] using ex⟩

/-! ## Documents -/

theorem block_rep (b : TopLevelBlock) : BlockOk b ↔ ∃ x : Block, x.Ok ∧ x.ast = b.mapSpan noPos := by
  cases b with
  | project b =>
    refine (project_rep b).trans ⟨fun ⟨x, h, e⟩ => ⟨.project x, h, congrArg _ e⟩, ?_⟩
    rintro ⟨x, h, e⟩
    cases x <;> simp [Block.ast, TopLevelBlock.mapSpan] at e
    exact ⟨_, h, e⟩
  | table b =>
    refine (table_rep b).trans ⟨fun ⟨x, h, e⟩ => ⟨.table x, h, congrArg _ e⟩, ?_⟩
    rintro ⟨x, h, e⟩
    cases x <;> simp [Block.ast, TopLevelBlock.mapSpan] at e
    exact ⟨_, h, e⟩
  | tableGroup b =>
    refine (group_rep b).trans ⟨fun ⟨x, h, e⟩ => ⟨.group x, h, congrArg _ e⟩, ?_⟩
    rintro ⟨x, h, e⟩
    cases x <;> simp [Block.ast, TopLevelBlock.mapSpan] at e
    exact ⟨_, h, e⟩
  | note b =>
    refine (note_rep b).trans ⟨fun ⟨x, h, e⟩ => ⟨.note x, h, congrArg _ e⟩, ?_⟩
    rintro ⟨x, h, e⟩
    cases x <;> simp [Block.ast, TopLevelBlock.mapSpan] at e
    exact ⟨_, h, e⟩
  | ref b =>
    refine (ref_rep b).trans ⟨fun ⟨x, h, e⟩ => ⟨.ref x, h, congrArg _ e⟩, ?_⟩
    rintro ⟨x, h, e⟩
    cases x <;> simp [Block.ast, TopLevelBlock.mapSpan] at e
    exact ⟨_, h, e⟩
  | enum b =>
    refine (enum_rep b).trans ⟨fun ⟨x, h, e⟩ => ⟨.enum x, h, congrArg _ e⟩, ?_⟩
    rintro ⟨x, h, e⟩
    cases x <;> simp [Block.ast, TopLevelBlock.mapSpan] at e
    exact ⟨_, h, e⟩

/-- An AST is well-formed exactly when it is that of a well-formed document, up to positions. -/
theorem schema_rep (s : SchemaBlock) : SchemaOk s ↔ ∃ d : Doc, d.Ok ∧ d.ast = s.blocks.map (·.mapSpan noPos) :=
  rep_list block_rep s.blocks

end Dbml
