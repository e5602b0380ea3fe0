import Verif.Proofs.Rename9

/-!
# Renaming: every name has its own place

The spellings of the names in the AST of a document occur among its tokens, at least as often. As this is so for any
new spellings, no two names share a place.
-/

namespace Dbml
open Syntax Source Spec

/-! ## Counting spellings -/

/-- How many of the names are spelled `w`. -/
def cn (w : Str) (l : List (Role × Ident)) : Nat := l.countP fun x => x.2.raw = w
/-- How many of the tokens read `w`. -/
def ctk (w : Str) (l : List Tok) : Nat := l.countP fun t => t.txt = w

section
variable (w : Str)

@[simp] theorem cn_nil : cn w [] = 0 := rfl
@[simp] theorem cn_append (a b) : cn w (a ++ b) = cn w a + cn w b := List.countP_append
theorem cn_cons (a b) : cn w (a :: b) = cn w [a] + cn w b := by rw [← List.singleton_append, cn_append]
@[simp] theorem ctk_nil : ctk w [] = 0 := rfl
@[simp] theorem ctk_append (a b) : ctk w (a ++ b) = ctk w a + ctk w b := List.countP_append
theorem ctk_cons (a b) : ctk w (a :: b) = ctk w [a] + ctk w b := by rw [← List.singleton_append, ctk_append]

theorem cn_one (r : Role) (n : Name) : cn w [(r, n.ast)] = ctk w [n.tok] := by
  unfold cn ctk
  simp only [List.countP_cons, List.countP_nil, Name.ast, Name.tok]

theorem cn_flatMap {α β : Type} {f : α → List (Role × Ident)} {g : β → List Tok} {h : β → Option α} :
    ∀ {xs : List β}, (∀ x ∈ xs, ∀ a, h x = some a → cn w (f a) ≤ ctk w (g x)) →
      cn w ((xs.filterMap h).flatMap f) ≤ ctk w (xs.flatMap g)
  | [], _ => by simp
  | x :: xs, hx => by
    have ih := cn_flatMap (xs := xs) fun y hy => hx y (by simp [hy])
    rw [List.flatMap_cons, ctk_append]
    cases e : h x with
    | none => rw [List.filterMap_cons_none e]; omega
    | some a =>
      rw [List.filterMap_cons_some e, List.flatMap_cons, cn_append]
      have := hx x (by simp) a e
      omega

theorem cn_flatMap' {α β : Type} {f : α → List (Role × Ident)} {g : β → List Tok} {h : β → α} {xs : List β}
    (hx : ∀ x ∈ xs, cn w (f (h x)) ≤ ctk w (g x)) : cn w ((xs.map h).flatMap f) ≤ ctk w (xs.flatMap g) := by
  have := cn_flatMap (h := fun x => some (h x)) w (xs := xs) (f := f) (g := g) (by
    rintro x h1 a ⟨⟩
    exact hx x h1)
  rwa [List.filterMap_eq_map'] at this

theorem cn_roles (r : Role) : ∀ ns : List Name, cn w ((ns.map (·.ast)).map (r, ·)) ≤ ctk w (ns.map (·.tok))
  | [] => by simp
  | n :: ns => by
    simp only [List.map_cons]
    rw [cn_cons, ctk_cons, cn_one]
    have := cn_roles r ns
    omega

theorem ctk_comma {α : Type} (f : α → List Tok) (xs : List α) : ctk w (xs.flatMap f) ≤ ctk w (commaSep f xs) := by
  cases xs with
  | nil => simp
  | cons x xs =>
    simp only [commaSep, List.flatMap_cons, ctk_append]
    have : ctk w (xs.flatMap f) ≤ ctk w (xs.flatMap fun y => comma :: f y) := by
      induction xs with
      | nil => simp
      | cons y ys ih =>
        simp only [List.flatMap_cons, ctk_append]
        rw [ctk_cons]
        omega
    omega

theorem cn_qual (r r' : Role) (s : Option Name) (n : Name) :
    cn w ((s.map (·.ast)).toList.map (r, ·)) + cn w [(r', n.ast)] ≤ ctk w (qualToks s n) := by
  cases s with
  | none => simp [qualToks, cn_one]
  | some s =>
    simp only [Option.map_some, Option.toList_some, List.map_cons, List.map_nil, qualToks]
    rw [ctk_cons, ctk_cons w dot, cn_one, cn_one]
    omega

/-! ## The constructs -/

theorem cn_rend (x : REnd) : cn w x.ast.names ≤ ctk w x.toks := by
  simp only [REnd.ast, RefIdent.names, REnd.toks]
  rw [cn_append, cn_cons, ctk_append, ctk_cons]
  have h1 := cn_qual w .schema .table x.schema x.table
  have h2 : cn w ((x.cols.names.map (·.ast)).map (Role.col, ·)) ≤ ctk w x.cols.toks := by
    refine Nat.le_trans (cn_roles w _ _) ?_
    cases x.cols with
    | one n => exact Nat.le_refl _
    | many n ns =>
      simp only [Comp.toks]
      rw [ctk_cons, ctk_append]
      have := ctk_comma w (fun m : Name => [m.tok]) (n :: ns)
      have e : (n :: ns).flatMap (fun m : Name => [m.tok]) = (n :: ns).map (·.tok) := by
        rw [← List.flatMap_singleton' (List.map _ _), List.flatMap_map]
      rw [e] at this
      simp only [Comp.names]
      omega
  omega

theorem cn_inline (x : InlineRef) : cn w x.ast.names ≤ ctk w x.toks := by
  simp only [InlineRef.ast, RefInline.names, InlineRef.toks]
  rw [ctk_cons, ctk_cons w colon, ctk_cons w (relTok _)]
  have := cn_rend w x.rhs
  omega

theorem cn_ref (x : Source.Ref) : cn w x.ast.names ≤ ctk w x.toks := by
  simp only [Source.Ref.ast, RefBlock.names, Source.Ref.toks, Source.Ref.stmtToks]
  rw [ctk_cons, ctk_append, cn_append, cn_append]
  have h1 := cn_rend w x.lhs
  have h2 := cn_rend w x.rhs
  have h3 : cn w ((x.name.map (·.ast)).toList.map (Role.ref, ·)) ≤ ctk w (x.name.toList.map (·.tok)) := by
    cases x.name with
    | none => simp
    | some n => simp [cn_one]
  split
  · rw [ctk_cons w lbrace, ctk_append, ctk_append, ctk_cons w (relTok _), ctk_append]
    omega
  · rw [ctk_cons w colon, ctk_append, ctk_cons w (relTok _), ctk_append]
    omega

theorem cn_icol (x : ICol) : cn w x.ast.names ≤ ctk w [x.tok] := by
  cases x with
  | name n => simp [ICol.ast, IndexesColumnType.names, cn_one, ICol.tok]
  | expr x => simp [ICol.ast, IndexesColumnType.names]

theorem cn_idef (x : IDef) : cn w x.ast.names ≤ ctk w x.toks := by
  simp only [IDef.ast, IndexesDef.names]
  have h := cn_flatMap' w (f := fun c : IndexesColumnType => c.names) (g := fun c : ICol => [c.tok]) (h := (·.ast))
    (xs := x.cols) fun c _ => cn_icol w c
  refine Nat.le_trans h ?_
  cases x with
  | single c s =>
    simp only [IDef.cols, IDef.toks, List.flatMap_cons, List.flatMap_nil]
    rw [ctk_cons w c.tok]
    simp
  | multi cs s =>
    have := ctk_comma w (fun c : ICol => [c.tok]) cs
    simp only [IDef.cols, IDef.toks]
    rw [ctk_cons, ctk_append]
    omega

theorem cn_idxs (x : Idxs) : cn w x.ast.names ≤ ctk w x.toks := by
  simp only [Idxs.ast, IndexesBlock.names, Idxs.toks]
  rw [ctk_cons, ctk_cons w lbrace, ctk_append]
  have := cn_flatMap' w (f := fun d : IndexesDef => d.names) (g := fun d : IDef => d.toks) (h := (·.ast))
    (xs := x.defs) fun c _ => cn_idef w c
  omega

theorem cn_enum (x : Source.Enum) : cn w x.ast.names ≤ ctk w x.toks := by
  simp only [Source.Enum.ast, EnumBlock.names, Source.Enum.toks]
  rw [ctk_cons, ctk_append, ctk_cons w lbrace, ctk_append, cn_append, cn_cons]
  have h1 := cn_qual w .enumSchema .enum x.schema x.name
  have h2 := cn_flatMap' w (f := fun d : EnumValue => d.names) (g := fun d : EVal => d.toks) (h := (·.ast))
    (xs := x.values) fun v _ => by
      simp only [EVal.ast, EnumValue.names, EVal.toks]
      rw [ctk_cons, cn_one]
      omega
  omega

theorem cn_col (x : Col) : cn w x.ast.names ≤ ctk w x.toks := by
  simp only [Col.ast, TableColumn.names, Col.toks]
  rw [ctk_cons, ctk_cons w x.type.tok, cn_cons, cn_one]
  have : cn w ((x.settings.map colSettingsAst).toList.flatMap (·.names)) ≤ ctk w (optBrackets ColSet.toks x.settings) := by
    cases x.settings with
    | none => simp
    | some is =>
      simp only [Option.map_some, Option.toList_some, List.flatMap_cons, List.flatMap_nil, List.append_nil,
        ColumnSettings.names, optBrackets, brackets, colSettingsAst]
      rw [ctk_cons, ctk_append]
      have h1 := ctk_comma w ColSet.toks is
      have h2 := cn_flatMap w (f := fun d : RefInline => d.names) (g := ColSet.toks) (h := (·.ref?)) (xs := is) (by
        intro i _ a ha
        cases i with
        | attr a => cases ha
        | ref r => cases ha; exact cn_inline w r)
      omega
  omega

theorem cn_last {α : Type} (f : α → List (Role × Ident)) (xs : List α) :
    cn w (xs.getLast?.toList.flatMap f) ≤ cn w (xs.flatMap f) := by
  cases h : xs.getLast? with
  | none => simp
  | some x =>
    obtain ⟨ys, rfl⟩ := List.getLast?_eq_some_iff.1 h
    simp

theorem cn_titems (xs : List TItem) : cn w ((xs.filterMap (·.col?)).flatMap (·.names)) +
    cn w ((xs.filterMap (·.indexes?)).flatMap (·.names)) ≤ ctk w (xs.flatMap (·.toks)) := by
  induction xs with
  | nil => simp
  | cons x xs ih =>
    rw [List.flatMap_cons, ctk_append]
    cases x with
    | col c =>
      have := cn_col w c
      rw [List.filterMap_cons_some (f := fun x : TItem => x.col?) (show TItem.col? (.col c) = some c.ast from rfl),
        List.filterMap_cons_none (f := fun x : TItem => x.indexes?) (show TItem.indexes? (.col c) = none from rfl),
        List.flatMap_cons, cn_append]
      rw [show (TItem.col c).toks = c.toks from rfl]
      omega
    | note n =>
      rw [List.filterMap_cons_none (f := fun x : TItem => x.col?) (show TItem.col? (.note n) = none from rfl),
        List.filterMap_cons_none (f := fun x : TItem => x.indexes?) (show TItem.indexes? (.note n) = none from rfl)]
      omega
    | indexes i =>
      have := cn_idxs w i
      rw [List.filterMap_cons_none (f := fun x : TItem => x.col?) (show TItem.col? (.indexes i) = none from rfl),
        List.filterMap_cons_some (f := fun x : TItem => x.indexes?) (show TItem.indexes? (.indexes i) = some i.ast from rfl),
        List.flatMap_cons, cn_append]
      rw [show (TItem.indexes i).toks = i.toks from rfl]
      omega

theorem cn_table (x : Source.Table) : cn w x.ast.names ≤ ctk w x.toks := by
  simp only [Source.Table.ast, TableBlock.names, Source.Table.toks]
  rw [ctk_cons, ctk_append, ctk_append, ctk_append, ctk_cons w lbrace, ctk_append, cn_append, cn_cons, cn_append, cn_append]
  have h1 := cn_qual w .schema .table x.schema x.name
  have h2 : cn w ((x.alias.map (·.name.ast)).toList.map (Role.table, ·)) ≤ ctk w x.aliasToks := by
    unfold Source.Table.aliasToks
    cases x.alias with
    | none => simp
    | some a =>
      simp only [Option.map_some, Option.toList_some, List.map_cons, List.map_nil]
      rw [ctk_cons, cn_one]
      omega
  have h3 := cn_titems w x.items
  have h4 := cn_last w (fun b : IndexesBlock => b.names) (x.items.filterMap (·.indexes?))
  omega

theorem cn_group (x : Group) : cn w x.ast.names ≤ ctk w x.toks := by
  simp only [Group.ast, TableGroupBlock.names, Group.toks]
  rw [ctk_cons, ctk_cons w x.name.tok, ctk_append, ctk_cons w lbrace, ctk_append, cn_cons, cn_one]
  have := cn_flatMap w (f := fun d : TableGroupItem => d.names) (g := fun i : GItem => i.toks) (h := (·.item?)) (xs := x.items) (by
    intro i _ a ha
    cases i with
    | note n => cases ha
    | item s n =>
      cases ha
      have := cn_qual w .schema .table s n
      simp only [TableGroupItem.names, GItem.toks]
      rw [cn_append]
      exact this)
  omega

theorem cn_doc (d : Doc) : cn w (d.ast.flatMap (·.names)) ≤ ctk w d.toks := by
  refine cn_flatMap' w (f := fun b : TopLevelBlock => b.names) (h := Block.ast) (g := Block.toks) fun b _ => ?_
  cases b with
  | project p =>
    simp only [Block.ast, TopLevelBlock.names, Block.toks, Project.toks, Project.ast]
    rw [ctk_cons, ctk_cons w p.name.tok, cn_one]
    omega
  | table t => exact cn_table w t
  | group g => exact cn_group w g
  | note n => simp [Block.ast, TopLevelBlock.names]
  | ref r => exact cn_ref w r
  | enum e => exact cn_enum w e
end

/-! ## The names of changed ASTs -/

/-- Changing names and positions. -/
def chg (f : Role → Ident → Ident) (m : Span → Span) (x : Role × Ident) : Role × Ident := (x.1, (f x.1 x.2).mapSpan m)

section
variable (f : Role → Ident → Ident) (m : Span → Span)

theorem opt_chg (r : Role) (o : Option Ident) : ((o.map (f r)).map (·.mapSpan m)).toList.map (r, ·) =
    (o.toList.map (r, ·)).map (chg f m) := by cases o <;> rfl

theorem list_chg (r : Role) (o : List Ident) : ((o.map (f r)).map (·.mapSpan m)).map (r, ·) =
    (o.map (r, ·)).map (chg f m) := by simp [chg]

theorem flat_chg {α β γ : Type} {n : γ → List (Role × Ident)} {n' : α → List (Role × Ident)} {g : α → β} {g' : β → γ}
    (h : ∀ x, n (g' (g x)) = (n' x).map (chg f m)) (xs : List α) :
    ((xs.map g).map g').flatMap n = (xs.flatMap n').map (chg f m) := by
  induction xs with
  | nil => rfl
  | cons x xs ih => simp only [List.map_cons, List.flatMap_cons, List.map_append, h, ih]

theorem optflat_chg {α β γ : Type} {n : γ → List (Role × Ident)} {n' : α → List (Role × Ident)} {g : α → β} {g' : β → γ}
    (h : ∀ x, n (g' (g x)) = (n' x).map (chg f m)) (o : Option α) :
    ((o.map g).map g').toList.flatMap n = (o.toList.flatMap n').map (chg f m) := by
  cases o with
  | none => rfl
  | some x => simp [h]

theorem RefIdent.names_chg (r : RefIdent) : ((r.mapNames f).mapSpan m).names = r.names.map (chg f m) := by
  simp only [RefIdent.names, RefIdent.mapNames, RefIdent.mapSpan, List.map_append, List.map_cons, opt_chg, list_chg]
  rfl

theorem IndexesBlock.names_chg (r : IndexesBlock) : ((r.mapNames f).mapSpan m).names = r.names.map (chg f m) := by
  simp only [IndexesBlock.names, IndexesBlock.mapNames, IndexesBlock.mapSpan]
  refine flat_chg f m (fun d => ?_) _
  simp only [IndexesDef.names, IndexesDef.mapNames, IndexesDef.mapSpan]
  refine flat_chg f m (fun c => ?_) _
  cases c <;> rfl

theorem TableColumn.names_chg (c : TableColumn) : ((c.mapNames f).mapSpan m).names = c.names.map (chg f m) := by
  simp only [TableColumn.names, TableColumn.mapNames, TableColumn.mapSpan, List.map_cons]
  rw [optflat_chg f m (n' := (·.names)) (fun s => ?_)]
  · rfl
  · simp only [ColumnSettings.names, ColumnSettings.mapNames, ColumnSettings.mapSpan]
    refine flat_chg f m (fun r => ?_) _
    exact RefIdent.names_chg f m r.rhs

theorem TopLevelBlock.names_chg (b : TopLevelBlock) : ((b.mapNames f).mapSpan m).names = b.names.map (chg f m) := by
  cases b with
  | project b => rfl
  | note b => rfl
  | table t =>
    simp only [TopLevelBlock.mapNames, TopLevelBlock.mapSpan, TopLevelBlock.names, TableBlock.names, TableBlock.mapNames,
      TableBlock.mapSpan, TableIdent.mapSpan, List.map_append, List.map_cons, opt_chg]
    rw [flat_chg f m (n' := (·.names)) (TableColumn.names_chg f m), optflat_chg f m (n' := (·.names)) (IndexesBlock.names_chg f m)]
    rfl
  | tableGroup g =>
    simp only [TopLevelBlock.mapNames, TopLevelBlock.mapSpan, TopLevelBlock.names, TableGroupBlock.names,
      TableGroupBlock.mapNames, TableGroupBlock.mapSpan, List.map_cons]
    rw [flat_chg f m (n' := (·.names)) fun i => ?_]
    · rfl
    · simp only [TableGroupItem.names, TableGroupItem.mapNames, TableGroupItem.mapSpan, List.map_append, opt_chg]
      rfl
  | ref r =>
    simp only [TopLevelBlock.mapNames, TopLevelBlock.mapSpan, TopLevelBlock.names, RefBlock.names,
      RefBlock.mapNames, RefBlock.mapSpan, List.map_append, opt_chg, RefIdent.names_chg]
  | enum e =>
    simp only [TopLevelBlock.mapNames, TopLevelBlock.mapSpan, TopLevelBlock.names, EnumBlock.names,
      EnumBlock.mapNames, EnumBlock.mapSpan, EnumIdent.mapSpan, List.map_append, List.map_cons, opt_chg]
    rw [flat_chg f m (n' := (·.names)) fun v => ?_]
    · rfl
    · rfl

end

end Dbml
