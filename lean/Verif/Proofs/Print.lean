import Verif.Spec.Print
import Verif.Props.Language

/-!
# The canonical form of a document, and its tokens
-/

namespace Dbml
open Syntax Source Spec

/-- The texts of tokens. -/
def txts (ts : List Tok) : List Str := ts.map (·.txt)

@[simp] theorem txts_nil : txts [] = [] := rfl
@[simp] theorem txts_cons (t ts) : txts (t :: ts) = t.txt :: txts ts := rfl
@[simp] theorem txts_append (a b) : txts (a ++ b) = txts a ++ txts b := List.map_append

theorem txts_flatMap {α : Type} {f : α → List Tok} {g : α → List Str} (h : ∀ x, txts (f x) = g x) (xs : List α) :
    txts (xs.flatMap f) = xs.flatMap g := by
  induction xs with
  | nil => rfl
  | cons x xs ih => simp [h, ih]

theorem txts_commaSep {α β : Type} {f : α → List Tok} {g : β → List Str} {a : α → β} (h : ∀ x, txts (f x) = g (a x)) :
    ∀ xs : List α, txts (commaSep f xs) = Print.sep g (xs.map a)
  | [] => rfl
  | x :: xs => by
    have : txts (xs.flatMap fun y => comma :: f y) = (xs.map a).flatMap fun y => k!"," :: g y := by
      rw [txts_flatMap (g := fun y => k!"," :: g (a y)) (by intro y; simp [h, comma]), List.flatMap_map]
    simp [commaSep, Print.sep, h, this]

theorem txts_brackets {α β : Type} {f : α → List Tok} {g : β → List Str} {a : α → β} (h : ∀ x, txts (f x) = g (a x))
    (xs : List α) : txts (Source.brackets f xs) = Print.brackets g (xs.map a) := by
  simp [Source.brackets, Print.brackets, txts_commaSep h, lbrack, rbrack]

theorem txts_name (n : Name) : n.tok.txt = n.ast.raw := rfl

theorem txts_attr (a : Attr) : txts a.toks = Print.attr a.ast := by
  obtain ⟨k, _ | v⟩ := a <;> rfl

theorem txts_attrs (o : Option (List Attr)) : txts (optBrackets Attr.toks o) = Print.attrs (o.map attrsAst) := by
  cases o with
  | none => rfl
  | some as => exact txts_brackets txts_attr as

theorem txts_qual (s : Option Name) (n : Name) : txts (qualToks s n) = Print.qual (s.map (·.ast)) n.ast := by
  cases s <;> rfl

/-! ## Canonical forms -/

def canonNote (n : Source.Note) : Source.Note := ⟨k!"Note", false, n.text⟩

theorem canonNote_ast (n : Source.Note) : (canonNote n).ast = n.ast := rfl
theorem canonNote_ok {n : Source.Note} (h : n.Ok) : (canonNote n).Ok :=
  ⟨by show Keyword _ k!"Note"; decide, h.2⟩
theorem canonNote_toks (n : Source.Note) : txts (canonNote n).toks = Print.note n.ast := rfl

def Source.ProjItem.srcNote : ProjItem → Option Source.Note
  | .note n => some n
  | _ => none
def Source.ProjItem.isProp : ProjItem → Bool
  | .note _ => false
  | _ => true

def canonProject (p : Source.Project) : Source.Project :=
  ⟨k!"Project ", p.name, p.items.filter ProjItem.isProp ++
    ((p.items.filterMap ProjItem.srcNote).getLast?.toList.map fun n => ProjItem.note (canonNote n))⟩

theorem getLast?_toList_mem {α : Type} {xs : List α} {x : α} (h : x ∈ xs.getLast?.toList) : x ∈ xs := by
  cases hl : xs.getLast? with
  | none => simp [hl] at h
  | some y =>
    simp [hl] at h
    subst h
    exact List.mem_of_getLast? hl

theorem getLast?_opt {α : Type} (o : Option α) : o.toList.getLast? = o := by cases o <;> rfl

theorem canonProject_ok {p : Source.Project} (h : p.Ok) : (canonProject p).Ok := by
  obtain ⟨h1, h2, h3⟩ := h
  refine ⟨by show Keyword _ k!"Project "; decide, h2, ?_⟩
  intro i hi
  rcases List.mem_append.1 hi with hi | hi
  · exact h3 i (List.mem_filter.1 hi).1
  · obtain ⟨n, hn, rfl⟩ := List.mem_map.1 hi
    obtain ⟨j, hj, e⟩ := List.mem_filterMap.1 (getLast?_toList_mem hn)
    cases j <;> simp [ProjItem.srcNote] at e
    subst e
    exact canonNote_ok (h3 _ hj)

theorem proj_props (is : List ProjItem) (o : List Source.Note) :
    (is.filter ProjItem.isProp ++ o.map fun n => ProjItem.note (canonNote n)).filterMap ProjItem.prop? =
      is.filterMap ProjItem.prop? := by
  rw [List.filterMap_append]
  have h2 : (o.map fun n => ProjItem.note (canonNote n)).filterMap ProjItem.prop? = [] := by
    rw [List.filterMap_map]
    exact List.filterMap_eq_nil_iff.2 fun _ _ => rfl
  rw [h2, List.append_nil]
  induction is with
  | nil => rfl
  | cons i is ih => cases i <;> simp [List.filterMap_cons, List.filter_cons, ProjItem.isProp, ProjItem.prop?, ih]

theorem proj_notes (is : List ProjItem) : is.filterMap ProjItem.note? = (is.filterMap ProjItem.srcNote).map (·.ast) := by
  induction is with
  | nil => rfl
  | cons i is ih => cases i <;> simp [List.filterMap_cons, List.filter_cons, ProjItem.srcNote, ProjItem.note?, ih]

theorem noteItems_ast {α : Type} (f : α → Option NoteBlock) (mk : Source.Note → α) (hf : ∀ n, f (mk n) = some n.ast)
    (o : Option Source.Note) : (o.toList.map fun n => mk (canonNote n)).filterMap f = (o.map (·.ast)).toList := by
  cases o with
  | none => rfl
  | some n => simp [hf, canonNote_ast]

theorem proj_canon_notes (is : List ProjItem) (o : Option Source.Note) :
    (is.filter ProjItem.isProp ++ o.toList.map fun n => ProjItem.note (canonNote n)).filterMap ProjItem.note? =
      (o.map (·.ast)).toList := by
  rw [List.filterMap_append, noteItems_ast ProjItem.note? ProjItem.note (fun _ => rfl)]
  have : (is.filter ProjItem.isProp).filterMap ProjItem.note? = [] := by
    refine List.filterMap_eq_nil_iff.2 fun i hi => ?_
    have := (List.mem_filter.1 hi).2
    cases i <;> simp_all [ProjItem.isProp, ProjItem.note?]
  rw [this, List.nil_append]

theorem canonProject_ast (p : Source.Project) : (canonProject p).ast = p.ast := by
  have h1 := proj_props p.items (p.items.filterMap ProjItem.srcNote).getLast?.toList
  have h2 := proj_canon_notes p.items (p.items.filterMap ProjItem.srcNote).getLast?
  have h3 := proj_notes p.items
  simp only [canonProject, Project.ast, h1, h2, h3, List.getLast?_map, getLast?_opt]

theorem noteItems_toks {α : Type} (f : α → List Tok) (mk : Source.Note → α) (hf : ∀ n, f (mk n) = n.toks)
    (o : Option Source.Note) : txts ((o.toList.map fun n => mk (canonNote n)).flatMap f) = Print.noteOpt (o.map (·.ast)) := by
  cases o with
  | none => rfl
  | some n => simp [hf, canonNote_toks, Print.noteOpt]

theorem canonProject_toks (p : Source.Project) : txts (canonProject p).toks = Print.project p.ast := by
  have h1 : txts ((p.items.filter ProjItem.isProp).flatMap ProjItem.toks) =
      (p.items.filterMap ProjItem.prop?).flatMap Print.prop := by
    induction p.items with
    | nil => rfl
    | cons i is ih => cases i <;> simp [List.filterMap_cons, List.filter_cons, ProjItem.isProp, ProjItem.prop?, ih, ProjItem.toks, Print.prop, keyTok, colon, keyAst, AVal.tok, AVal.ast]
  have h2 := noteItems_toks ProjItem.toks ProjItem.note (fun _ => rfl) (p.items.filterMap ProjItem.srcNote).getLast?
  simp only [canonProject, Project.toks, txts_cons, txts_append, List.flatMap_append, h1, h2, Print.project,
    Project.ast, proj_notes, List.getLast?_map]
  simp [txts_name, lbrace, rbrace]

/-! ### References -/

def canonComp (c : Comp) : Comp :=
  match c.names with
  | [n] => .one n
  | n :: ns => .many n ns
  | [] => c

theorem canonComp_names (c : Comp) : (canonComp c).names = c.names := by
  rcases c with n | ⟨n, _ | ⟨m, ns⟩⟩ <;> rfl

def canonEnd (r : REnd) : REnd := ⟨r.schema, r.table, canonComp r.cols⟩

theorem canonEnd_ast (r : REnd) : (canonEnd r).ast = r.ast := by
  simp [canonEnd, REnd.ast, canonComp_names]
theorem canonEnd_ok {r : REnd} (h : r.Ok) : (canonEnd r).Ok := by
  refine ⟨h.1, h.2.1, ?_⟩
  show ∀ n ∈ (canonComp r.cols).names, n.Ok
  rw [canonComp_names]
  exact h.2.2

theorem canonEnd_toks (r : REnd) : txts (canonEnd r).toks = Print.endpoint r.ast := by
  obtain ⟨s, t, c⟩ := r
  simp only [canonEnd, REnd.toks, txts_append, txts_qual, txts_cons, Print.endpoint, REnd.ast]
  congr 1
  rcases c with n | ⟨n, _ | ⟨m, ns⟩⟩
  · rfl
  · rfl
  · have := txts_commaSep (f := fun m : Name => [m.tok]) (g := Print.ident) (a := (·.ast)) (fun _ => rfl) (n :: m :: ns)
    simp only [canonComp, Comp.names, Comp.toks, txts_cons, txts_append, this, List.map_cons]
    rfl

theorem txts_rel (r : Relation) : (relTok r).txt = Print.rel r := by cases r <;> rfl

def canonRef (r : Source.Ref) : Source.Ref :=
  ⟨k!"Ref", r.name, false, canonEnd r.lhs, r.rel, canonEnd r.rhs, r.settings⟩

theorem canonRef_ast (r : Source.Ref) : (canonRef r).ast = r.ast := by
  simp [canonRef, Ref.ast, canonEnd_ast]
theorem canonRef_ok {r : Source.Ref} (h : r.Ok) : (canonRef r).Ok := by
  obtain ⟨h1, h2, h3, h4, h5, h6⟩ := h
  exact ⟨by show Keyword _ k!"Ref"; decide, h2, canonEnd_ok h3, h4, canonEnd_ok h5, h6⟩

theorem canonRef_toks (r : Source.Ref) : txts (canonRef r).toks = Print.ref r.ast := by
  obtain ⟨kw, n, b, l, rel, rr, st⟩ := r
  have hs : (st.map refSettingsAst).map (·.attributes) = st.map attrsAst := by cases st <;> rfl
  have hn : txts (n.toList.map (·.tok)) = (n.map (·.ast)).toList.flatMap Print.ident := by cases n <;> rfl
  simp only [canonRef, Ref.toks, txts_cons, txts_append, hn, Bool.false_eq_true, if_false, Ref.stmtToks, canonEnd_toks,
    txts_rel, txts_attrs, Print.ref, Ref.ast, hs]
  rfl

/-! ### Indexes -/

theorem txts_icol (c : ICol) : txts [c.tok] = Print.indexCol c.ast := by cases c <;> rfl

def canonIDef (d : IDef) : IDef :=
  match d.cols with
  | [c] => .single c d.settings
  | cs => .multi cs d.settings

theorem canonIDef_cols (d : IDef) : (canonIDef d).cols = d.cols ∧ (canonIDef d).settings = d.settings := by
  rcases d with ⟨c, s⟩ | ⟨_ | ⟨c, _ | ⟨c', cs⟩⟩, s⟩ <;> exact ⟨rfl, rfl⟩

theorem canonIDef_ast (d : IDef) : (canonIDef d).ast = d.ast := by
  simp [IDef.ast, (canonIDef_cols d).1, (canonIDef_cols d).2]
theorem canonIDef_ok {d : IDef} (h : d.Ok) : (canonIDef d).Ok := by
  unfold IDef.Ok
  rw [(canonIDef_cols d).1, (canonIDef_cols d).2]
  exact h

theorem index_attrs (st : Option (List Attr)) : (st.map indexSettingsAst).map (·.attributes) = st.map attrsAst := by
  cases st <;> rfl

theorem canonIDef_toks (d : IDef) : txts (canonIDef d).toks = Print.index d.ast := by
  have hc := txts_commaSep (f := fun c : ICol => [c.tok]) (g := Print.indexCol) (a := (·.ast)) txts_icol
  have h1 : ∀ (c : ICol) s, txts (IDef.single c s).toks = Print.index (IDef.single c s).ast := by
    intro c s
    have := txts_icol c
    simp only [IDef.toks, txts_cons, txts_attrs, Print.index, IDef.ast, IDef.cols, IDef.settings, List.map_cons,
      List.map_nil, index_attrs]
    rw [← this]
    rfl
  rcases d with ⟨c, s⟩ | ⟨_ | ⟨c, _ | ⟨c', cs⟩⟩, s⟩
  · exact h1 c s
  · simp only [canonIDef, IDef.cols, IDef.settings, IDef.toks, txts_cons, txts_append, hc, txts_attrs, Print.index,
      IDef.ast, List.map_nil, index_attrs]
    rfl
  · exact h1 c s
  · simp only [canonIDef, IDef.cols, IDef.settings, IDef.toks, txts_cons, txts_append, hc, txts_attrs, Print.index,
      IDef.ast, List.map_cons, index_attrs]
    simp [lparen, rparen]

def canonIdxs (i : Idxs) : Idxs := ⟨k!"Indexes", i.defs.map canonIDef⟩

theorem canonIdxs_ast (i : Idxs) : (canonIdxs i).ast = i.ast := by
  simp [canonIdxs, Idxs.ast, canonIDef_ast]
theorem canonIdxs_ok {i : Idxs} (h : i.Ok) : (canonIdxs i).Ok := by
  refine ⟨by show Keyword _ k!"Indexes"; decide, ?_⟩
  intro d hd
  obtain ⟨d', hd', rfl⟩ := List.mem_map.1 hd
  exact canonIDef_ok (h.2 d' hd')
theorem canonIdxs_toks (i : Idxs) : txts (canonIdxs i).toks = Print.indexes (some i.ast) := by
  have : txts ((i.defs.map canonIDef).flatMap (·.toks)) = (i.defs.map (·.ast)).flatMap Print.index := by
    rw [List.flatMap_map, List.flatMap_map]
    exact txts_flatMap canonIDef_toks i.defs
  simp only [canonIdxs, Idxs.toks, txts_cons, txts_append, this, Print.indexes, Idxs.ast]
  rfl

/-! ### Enums -/

def canonEnum (e : Source.Enum) : Source.Enum := ⟨k!"Enum ", e.schema, e.name, e.values⟩

theorem canonEnum_ast (e : Source.Enum) : (canonEnum e).ast = e.ast := rfl
theorem canonEnum_ok {e : Source.Enum} (h : e.Ok) : (canonEnum e).Ok :=
  ⟨by show Keyword _ k!"Enum "; decide, h.2.1, h.2.2.1, h.2.2.2⟩
theorem canonEnum_toks (e : Source.Enum) : txts (canonEnum e).toks = Print.enum e.ast := by
  have : txts (e.values.flatMap (·.toks)) = (e.values.map (·.ast)).flatMap Print.enumValue := by
    rw [List.flatMap_map]
    refine txts_flatMap (fun v => ?_) e.values
    have hs : (v.settings.map enumSettingsAst).map (·.attributes) = v.settings.map attrsAst := by cases v.settings <;> rfl
    simp only [EVal.toks, txts_cons, txts_attrs, Print.enumValue, EVal.ast, hs]
    rfl
  simp only [canonEnum, Enum.toks, txts_cons, txts_append, txts_qual, this, Print.enum, Enum.ast]
  rfl

/-! ### Tables -/

def Source.ColSet.srcAttr : ColSet → Option Attr
  | .attr a => some a
  | .ref _ => none
def Source.ColSet.srcRef : ColSet → Option InlineRef
  | .attr _ => none
  | .ref r => some r

def canonInline (r : InlineRef) : InlineRef := ⟨r.rel, canonEnd r.rhs⟩

def canonSettings (is : List ColSet) : List ColSet :=
  (is.filterMap ColSet.srcAttr).map ColSet.attr ++ (is.filterMap ColSet.srcRef).map fun r => ColSet.ref (canonInline r)

theorem set_attrs (is : List ColSet) : is.filterMap ColSet.attr? = (is.filterMap ColSet.srcAttr).map (·.ast) := by
  induction is with
  | nil => rfl
  | cons i is ih => cases i <;> simp [List.filterMap_cons, List.filter_cons, ColSet.attr?, ColSet.srcAttr, ih]
theorem set_refs (is : List ColSet) : is.filterMap ColSet.ref? = (is.filterMap ColSet.srcRef).map (·.ast) := by
  induction is with
  | nil => rfl
  | cons i is ih => cases i <;> simp [List.filterMap_cons, List.filter_cons, ColSet.ref?, ColSet.srcRef, ih]

theorem canonSettings_attrs (is : List ColSet) :
    (canonSettings is).filterMap ColSet.attr? = is.filterMap ColSet.attr? := by
  rw [set_attrs is]
  unfold canonSettings
  generalize is.filterMap ColSet.srcAttr = as
  generalize is.filterMap ColSet.srcRef = rs
  rw [List.filterMap_append, List.filterMap_map, List.filterMap_map]
  have h2 : rs.filterMap (ColSet.attr? ∘ fun r => ColSet.ref (canonInline r)) = [] :=
    List.filterMap_eq_nil_iff.2 fun _ _ => rfl
  rw [h2, List.append_nil]
  exact List.filterMap_eq_map (f := Attr.ast) ▸ rfl

theorem canonInline_ast (r : InlineRef) : (canonInline r).ast = r.ast := by
  simp [canonInline, InlineRef.ast, canonEnd_ast]

theorem canonSettings_refs (is : List ColSet) :
    (canonSettings is).filterMap ColSet.ref? = is.filterMap ColSet.ref? := by
  rw [set_refs is]
  unfold canonSettings
  generalize is.filterMap ColSet.srcAttr = as
  generalize is.filterMap ColSet.srcRef = rs
  rw [List.filterMap_append, List.filterMap_map, List.filterMap_map]
  have h2 : as.filterMap (ColSet.ref? ∘ ColSet.attr) = [] := List.filterMap_eq_nil_iff.2 fun _ _ => rfl
  rw [h2, List.nil_append]
  have h3 : (ColSet.ref? ∘ fun r => ColSet.ref (canonInline r)) = fun r : InlineRef => some r.ast := by
    funext r; simp [ColSet.ref?, canonInline_ast]
  rw [h3]
  exact congrFun List.filterMap_eq_map' rs

theorem canonSettings_ast (is : List ColSet) : colSettingsAst (canonSettings is) = colSettingsAst is := by
  simp only [colSettingsAst, canonSettings_attrs, canonSettings_refs]

theorem canonInline_toks (r : InlineRef) : txts (canonInline r).toks = Print.inlineRef r.ast := by
  simp only [canonInline, InlineRef.toks, txts_cons, txts_rel, canonEnd_toks, Print.inlineRef, InlineRef.ast]
  rfl

def canonCol (c : Col) : Col := ⟨c.name, c.type, c.settings.map canonSettings⟩

theorem canonCol_ast (c : Col) : (canonCol c).ast = c.ast := by
  obtain ⟨n, t, s⟩ := c
  cases s <;> simp [canonCol, Col.ast, canonSettings_ast]

theorem canonCol_ok {c : Col} (h : c.Ok) : (canonCol c).Ok := by
  refine ⟨h.1, h.2.1, ?_⟩
  intro is hi i hm
  obtain ⟨js, hj, rfl⟩ := Option.map_eq_some_iff.1 hi
  have hk := h.2.2 js hj
  unfold canonSettings at hm
  rcases List.mem_append.1 hm with hm | hm
  · obtain ⟨a, ha, rfl⟩ := List.mem_map.1 hm
    obtain ⟨j, hj, e⟩ := List.mem_filterMap.1 ha
    cases j <;> simp [ColSet.srcAttr] at e
    subst e
    exact hk _ hj
  · obtain ⟨a, ha, rfl⟩ := List.mem_map.1 hm
    obtain ⟨j, hj, e⟩ := List.mem_filterMap.1 ha
    cases j <;> simp [ColSet.srcRef] at e
    subst e
    exact ⟨(hk _ hj).1, canonEnd_ok (hk _ hj).2⟩

theorem canonCol_toks (c : Col) : txts (canonCol c).toks = Print.column c.ast := by
  obtain ⟨n, t, s⟩ := c
  cases s with
  | none => rfl
  | some is =>
    have h := txts_brackets (f := ColSet.toks) (g := id) (a := fun i => txts i.toks) (fun _ => rfl) (canonSettings is)
    have h2 : (canonSettings is).map (fun i => txts i.toks) =
        (is.filterMap ColSet.attr?).map Print.attr ++ (is.filterMap ColSet.ref?).map Print.inlineRef := by
      rw [set_attrs, set_refs, canonSettings, List.map_append, List.map_map, List.map_map, List.map_map, List.map_map]
      congr 1
      · exact List.map_congr_left fun a _ => txts_attr a
      · exact List.map_congr_left fun a _ => canonInline_toks a
    rw [h2] at h
    simp only [canonCol, Col.toks, Option.map_some, optBrackets, txts_cons, h, Print.column, Col.ast, Print.colSettings,
      colSettingsAst]
    rfl

def Source.TItem.srcCol : TItem → Option Col
  | .col c => some c
  | _ => none
def Source.TItem.srcNote : TItem → Option Source.Note
  | .note c => some c
  | _ => none
def Source.TItem.srcIdx : TItem → Option Idxs
  | .indexes c => some c
  | _ => none

def canonItems (is : List TItem) : List TItem :=
  (is.filterMap TItem.srcCol).map (fun c => TItem.col (canonCol c)) ++
    ((is.filterMap TItem.srcNote).getLast?.toList.map (fun n => TItem.note (canonNote n)) ++
      (is.filterMap TItem.srcIdx).getLast?.toList.map (fun n => TItem.indexes (canonIdxs n)))

def canonAlias (a : Alias) : Alias := ⟨k!"as ", a.name⟩

def canonTable (t : Source.Table) : Source.Table :=
  ⟨k!"Table ", t.schema, t.name, t.alias.map canonAlias, t.settings, canonItems t.items⟩

theorem item_cols (is : List TItem) : is.filterMap TItem.col? = (is.filterMap TItem.srcCol).map (·.ast) := by
  induction is with
  | nil => rfl
  | cons i is ih => cases i <;> simp [List.filterMap_cons, List.filter_cons, TItem.col?, TItem.srcCol, ih]
theorem item_notes (is : List TItem) : is.filterMap TItem.note? = (is.filterMap TItem.srcNote).map (·.ast) := by
  induction is with
  | nil => rfl
  | cons i is ih => cases i <;> simp [List.filterMap_cons, List.filter_cons, TItem.note?, TItem.srcNote, ih]
theorem item_idxs (is : List TItem) : is.filterMap TItem.indexes? = (is.filterMap TItem.srcIdx).map (·.ast) := by
  induction is with
  | nil => rfl
  | cons i is ih => cases i <;> simp [List.filterMap_cons, List.filter_cons, TItem.indexes?, TItem.srcIdx, ih]

theorem filterMap_none {α β γ : Type} {f : β → Option γ} {g : α → β} (h : ∀ x, f (g x) = none) (xs : List α) :
    (xs.map g).filterMap f = [] := by
  rw [List.filterMap_map]
  exact List.filterMap_eq_nil_iff.2 fun x _ => h x

theorem filterMap_some' {α β γ : Type} {f : β → Option γ} {g : α → β} {k : α → γ} (h : ∀ x, f (g x) = some (k x))
    (xs : List α) : (xs.map g).filterMap f = xs.map k := by
  induction xs with
  | nil => rfl
  | cons x xs ih => simp [h, ih]

theorem canonItems_cols (is : List TItem) : (canonItems is).filterMap TItem.col? = is.filterMap TItem.col? := by
  rw [item_cols is]
  simp only [canonItems, List.filterMap_append]
  rw [filterMap_some' (k := Col.ast) (fun c => by simp [TItem.col?, canonCol_ast]), filterMap_none (fun _ => rfl),
    filterMap_none (fun _ => rfl)]
  simp

theorem canonItems_notes (is : List TItem) :
    ((canonItems is).filterMap TItem.note?).getLast? = (is.filterMap TItem.note?).getLast? := by
  rw [item_notes is]
  simp only [canonItems, List.filterMap_append]
  rw [filterMap_none (fun _ => rfl), filterMap_some' (k := Note.ast) (fun n => by simp [TItem.note?, canonNote_ast]),
    filterMap_none (fun _ => rfl)]
  simp only [List.nil_append, List.append_nil, List.getLast?_map, getLast?_opt]

theorem canonItems_idxs (is : List TItem) :
    ((canonItems is).filterMap TItem.indexes?).getLast? = (is.filterMap TItem.indexes?).getLast? := by
  rw [item_idxs is]
  simp only [canonItems, List.filterMap_append]
  rw [filterMap_none (fun _ => rfl), filterMap_none (fun _ => rfl),
    filterMap_some' (k := Idxs.ast) (fun n => by simp [TItem.indexes?, canonIdxs_ast])]
  simp only [List.nil_append, List.getLast?_map, getLast?_opt]

theorem canonTable_ast (t : Source.Table) : (canonTable t).ast = t.ast := by
  obtain ⟨kw, s, n, a, st, is⟩ := t
  have h1 := canonItems_cols is
  have h2 := canonItems_notes is
  have h3 := canonItems_idxs is
  cases a <;> simp only [canonTable, Table.ast, h1, h2, h3, canonAlias, Option.map_none, Option.map_some]

theorem canonTable_ok {t : Source.Table} (h : t.Ok) : (canonTable t).Ok := by
  obtain ⟨h1, h2, h3, h4, h5, h6⟩ := h
  refine ⟨by show Keyword _ k!"Table "; decide, h2, h3, ?_, h5, ?_⟩
  · intro a ha
    obtain ⟨b, hb, rfl⟩ := Option.map_eq_some_iff.1 ha
    exact ⟨by show Keyword _ k!"as "; decide, (h4 b hb).2⟩
  · intro i hi
    simp only [canonTable, canonItems] at hi
    rcases List.mem_append.1 hi with hi | hi
    · obtain ⟨c, hc, rfl⟩ := List.mem_map.1 hi
      obtain ⟨j, hj, e⟩ := List.mem_filterMap.1 hc
      cases j <;> simp [TItem.srcCol] at e
      subst e
      exact canonCol_ok (h6 _ hj)
    rcases List.mem_append.1 hi with hi | hi
    · obtain ⟨c, hc, rfl⟩ := List.mem_map.1 hi
      obtain ⟨j, hj, e⟩ := List.mem_filterMap.1 (getLast?_toList_mem hc)
      cases j <;> simp [TItem.srcNote] at e
      subst e
      exact canonNote_ok (h6 _ hj)
    · obtain ⟨c, hc, rfl⟩ := List.mem_map.1 hi
      obtain ⟨j, hj, e⟩ := List.mem_filterMap.1 (getLast?_toList_mem hc)
      cases j <;> simp [TItem.srcIdx] at e
      subst e
      exact canonIdxs_ok (h6 _ hj)

theorem canonItems_toks (is : List TItem) : txts ((canonItems is).flatMap TItem.toks) =
    (is.filterMap TItem.col?).flatMap Print.column ++ Print.noteOpt (is.filterMap TItem.note?).getLast? ++
      Print.indexes (is.filterMap TItem.indexes?).getLast? := by
  rw [item_cols, item_notes, item_idxs, List.getLast?_map, List.getLast?_map]
  simp only [canonItems, List.flatMap_append, txts_append]
  rw [noteItems_toks TItem.toks TItem.note (fun _ => rfl)]
  have h1 : txts (((is.filterMap TItem.srcCol).map fun c => TItem.col (canonCol c)).flatMap TItem.toks) =
      ((is.filterMap TItem.srcCol).map (·.ast)).flatMap Print.column := by
    rw [List.flatMap_map, List.flatMap_map]
    exact txts_flatMap canonCol_toks _
  rw [h1]
  have h2 : ∀ o : Option Idxs, txts ((o.toList.map fun n => TItem.indexes (canonIdxs n)).flatMap TItem.toks) =
      Print.indexes (o.map (·.ast)) := by
    intro o
    cases o with
    | none => rfl
    | some i =>
      have := canonIdxs_toks i
      simpa [TItem.toks] using this
  rw [h2, List.append_assoc]

theorem canonTable_toks (t : Source.Table) : txts (canonTable t).toks = Print.table t.ast := by
  obtain ⟨kw, s, n, a, st, is⟩ := t
  have hi := canonItems_toks is
  have ha : txts (canonTable ⟨kw, s, n, a, st, is⟩).aliasToks =
      (a.map fun x => x.name.ast).toList.flatMap (fun a => [k!"as ", a.raw]) := by cases a <;> rfl
  have hs : (st.map fun as => ({ attributes := attrsAst as } : TableSettings)).map (·.attributes) = st.map attrsAst := by
    cases st <;> rfl
  simp only [Table.toks, txts_cons, txts_append, ha, txts_attrs, Print.table, Table.ast, hs]
  simp only [canonTable, txts_qual, hi]
  simp [lbrace, rbrace]

/-! ### Groups -/

def Source.GItem.srcNote : GItem → Option Source.Note
  | .note c => some c
  | _ => none
def Source.GItem.isItem : GItem → Bool
  | .note _ => false
  | _ => true

def canonGroup (g : Group) : Group :=
  ⟨k!"TableGroup ", g.name, g.settings, g.items.filter GItem.isItem ++
    ((g.items.filterMap GItem.srcNote).getLast?.toList.map fun n => GItem.note (canonNote n))⟩

theorem group_notes (is : List GItem) : is.filterMap GItem.note? = (is.filterMap GItem.srcNote).map (·.ast) := by
  induction is with
  | nil => rfl
  | cons i is ih => cases i <;> simp [List.filterMap_cons, List.filter_cons, GItem.srcNote, GItem.note?, ih]

theorem group_items (is : List GItem) (o : List Source.Note) :
    (is.filter GItem.isItem ++ o.map fun n => GItem.note (canonNote n)).filterMap GItem.item? =
      is.filterMap GItem.item? := by
  rw [List.filterMap_append, filterMap_none (fun _ => rfl), List.append_nil]
  induction is with
  | nil => rfl
  | cons i is ih => cases i <;> simp [List.filterMap_cons, List.filter_cons, GItem.isItem, GItem.item?, ih]

theorem group_canon_notes (is : List GItem) (o : Option Source.Note) :
    (is.filter GItem.isItem ++ o.toList.map fun n => GItem.note (canonNote n)).filterMap GItem.note? =
      (o.map (·.ast)).toList := by
  rw [List.filterMap_append, noteItems_ast GItem.note? GItem.note (fun _ => rfl)]
  have : (is.filter GItem.isItem).filterMap GItem.note? = [] := by
    refine List.filterMap_eq_nil_iff.2 fun i hi => ?_
    have := (List.mem_filter.1 hi).2
    cases i <;> simp_all [GItem.isItem, GItem.note?]
  rw [this, List.nil_append]

theorem canonGroup_ast (g : Group) : (canonGroup g).ast = g.ast := by
  have h1 := group_items g.items (g.items.filterMap GItem.srcNote).getLast?.toList
  have h2 := group_canon_notes g.items (g.items.filterMap GItem.srcNote).getLast?
  have h3 := group_notes g.items
  simp only [canonGroup, Group.ast, h1, h2, h3, List.getLast?_map, getLast?_opt]

theorem canonGroup_ok {g : Group} (h : g.Ok) : (canonGroup g).Ok := by
  obtain ⟨h1, h2, h3, h4⟩ := h
  refine ⟨by show Keyword _ k!"TableGroup "; decide, h2, h3, ?_⟩
  intro i hi
  rcases List.mem_append.1 hi with hi | hi
  · exact h4 i (List.mem_filter.1 hi).1
  · obtain ⟨n, hn, rfl⟩ := List.mem_map.1 hi
    obtain ⟨j, hj, e⟩ := List.mem_filterMap.1 (getLast?_toList_mem hn)
    cases j <;> simp [GItem.srcNote] at e
    subst e
    exact canonNote_ok (h4 _ hj)

theorem canonGroup_toks (g : Group) : txts (canonGroup g).toks = Print.group g.ast := by
  have h1 : txts ((g.items.filter GItem.isItem).flatMap GItem.toks) =
      (g.items.filterMap GItem.item?).flatMap Print.groupItem := by
    induction g.items with
    | nil => rfl
    | cons i is ih => cases i <;> simp [List.filterMap_cons, List.filter_cons, GItem.isItem, GItem.item?, ih, GItem.toks, Print.groupItem, txts_qual]
  have h2 := noteItems_toks GItem.toks GItem.note (fun _ => rfl) (g.items.filterMap GItem.srcNote).getLast?
  have hs : (g.settings.map fun as => ({ attributes := attrsAst as } : TableGroupSettings)).map (·.attributes) =
      g.settings.map attrsAst := by
    cases g.settings <;> rfl
  simp only [canonGroup, Group.toks, txts_cons, txts_append, List.flatMap_append, h1, h2, Print.group,
    Group.ast, group_notes, List.getLast?_map, txts_attrs, hs]
  simp [txts_name, lbrace, rbrace]

/-! ## Documents -/

def canonBlock : Block → Block
  | .project p => .project (canonProject p)
  | .table t => .table (canonTable t)
  | .group g => .group (canonGroup g)
  | .note n => .note (canonNote n)
  | .ref r => .ref (canonRef r)
  | .enum e => .enum (canonEnum e)

theorem canonBlock_ast (b : Block) : (canonBlock b).ast = b.ast := by
  cases b <;> simp [canonBlock, Block.ast, canonProject_ast, canonTable_ast, canonGroup_ast, canonNote_ast,
    canonRef_ast, canonEnum_ast]

theorem canonBlock_ok {b : Block} (h : b.Ok) : (canonBlock b).Ok := by
  cases b with
  | project => exact canonProject_ok h
  | table => exact canonTable_ok h
  | group => exact canonGroup_ok h
  | note => exact canonNote_ok h
  | ref => exact canonRef_ok h
  | enum => exact canonEnum_ok h

theorem canonBlock_toks (b : Block) : txts (canonBlock b).toks = Print.block b.ast := by
  cases b with
  | project => exact canonProject_toks _
  | table => exact canonTable_toks _
  | group => exact canonGroup_toks _
  | note => exact canonNote_toks _
  | ref => exact canonRef_toks _
  | enum => exact canonEnum_toks _

def canon (d : Doc) : Doc := d.map canonBlock

theorem canon_ast (d : Doc) : Doc.ast (canon d) = d.ast := by
  simp [Doc.ast, canon, canonBlock_ast]

theorem canon_ok {d : Doc} (h : d.Ok) : Doc.Ok (canon d) := by
  intro b hb
  obtain ⟨c, hc, rfl⟩ := List.mem_map.1 hb
  exact canonBlock_ok (h c hc)

theorem canon_toks (d : Doc) : txts (Doc.toks (canon d)) = d.ast.flatMap Print.block := by
  unfold Doc.toks canon Doc.ast
  rw [List.flatMap_map, List.flatMap_map]
  exact txts_flatMap canonBlock_toks d

end Dbml
