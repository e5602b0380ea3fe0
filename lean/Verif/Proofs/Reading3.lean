import Verif.Proofs.Reading2
import Verif.Proofs.Walkers5

/-!
# Reading projects, settings, enums
-/

namespace Dbml
open Syntax Source

/-! ## Attribute lists without positions -/

theorem valuesOf_map (f : Span → Span) (k : Str) (xs : List Attribute) :
    valuesOf k (xs.map (·.mapSpan f)) = (valuesOf k xs).map fun o => o.map (·.mapSpan f) := by
  unfold valuesOf
  induction xs with
  | nil => rfl
  | cons x xs ih =>
    have h : (x.mapSpan f).key.to_string = x.key.to_string := rfl
    have h2 : (x.mapSpan f).value = x.value.map (·.mapSpan f) := rfl
    by_cases hk : x.key.to_string = k <;> simp_all [List.filter_cons]

theorem lastValue_map (f : Span → Span) (k : Str) (xs : List Attribute) :
    lastValue k (xs.map (·.mapSpan f)) = (lastValue k xs).map (·.mapSpan f) := by
  unfold lastValue
  rw [valuesOf_map, List.getLast?_map]
  cases (valuesOf k xs).getLast? <;> rfl

theorem has_map (f : Span → Span) (k : Str) (xs : List Attribute) :
    has k (xs.map (·.mapSpan f)) = has k xs := by
  unfold has
  rw [List.any_map]
  rfl

theorem nullable_map (f : Span → Span) (xs : List Attribute) :
    (xs.map (·.mapSpan f)).filterMap nullableOf = xs.filterMap nullableOf := by
  rw [List.filterMap_map]; rfl

theorem toStr_map (f : Span → Span) (o : Option Literal) :
    (o.map (·.mapSpan f)).map (fun l => l.value.toStr) = o.map fun l => l.value.toStr := by
  cases o <;> rfl

theorem value_map (f : Span → Span) (o : Option Literal) :
    (o.map (·.mapSpan f)).map (fun l => l.value) = o.map fun l => l.value := by
  cases o <;> rfl

/-! ## Projects -/

def projItemV : ProjItem → ProjectItem
  | .note n => .note n.ast
  | .prop k v => .prop { span_range := .zero, key := keyAst k, value := v.ast }

def projItemE : ProjectItem → ProjectItem
  | .note n => .note (n.mapSpan noPos)
  | .prop a => .prop (a.mapSpan noPos)

theorem filterMap_er {α β γ δ : Type} {er : β → γ} {v : α → γ} {sel : β → Option δ} {selg : γ → Option δ}
    {sela : α → Option δ} {er' : δ → δ} (h1 : ∀ b, selg (er b) = (sel b).map er') (h2 : ∀ a, selg (v a) = sela a)
    {bs : List β} {as : List α} (h : bs.map er = as.map v) :
    (bs.filterMap sel).map er' = as.filterMap sela := by
  have e1 : (bs.map er).filterMap selg = (bs.filterMap sel).map er' := by
    rw [List.filterMap_map, List.map_filterMap]
    congr 1
    funext b
    exact h1 b
  have e2 : (as.map v).filterMap selg = as.filterMap sela := by
    rw [List.filterMap_map]
    congr 1
    funext a
    exact h2 a
  rw [← e1, h, e2]

theorem projectFold (xs : List ProjectItem) (sp : Span) (i : Ident) :
    xs.foldl projectStep ({ span_range := sp, ident := i } : ProjectBlock) =
      { span_range := sp, ident := i, properties := xs.filterMap ProjectItem.prop?
        note := (xs.filterMap ProjectItem.note?).getLast?
        database_type := ((xs.filterMap ProjectItem.prop?).filterMap dbTypeOf).getLast? } := by
  suffices h : ∀ b : ProjectBlock, xs.foldl projectStep b =
      { b with properties := b.properties ++ xs.filterMap ProjectItem.prop?
               note := (xs.filterMap ProjectItem.note?).getLast?.or b.note
               database_type := ((xs.filterMap ProjectItem.prop?).filterMap dbTypeOf).getLast?.or b.database_type } by
    rw [h]; simp
  induction xs with
  | nil => intro b; simp
  | cons x xs ih =>
    intro b
    rw [List.foldl_cons, ih]
    cases x with
    | note n =>
      have h1 : (ProjectItem.note n :: xs).filterMap ProjectItem.prop? = xs.filterMap ProjectItem.prop? := rfl
      have h2 : (ProjectItem.note n :: xs).filterMap ProjectItem.note? = n :: xs.filterMap ProjectItem.note? := rfl
      rw [h1, h2, List.getLast?_cons]
      simp only [projectStep]
      cases (xs.filterMap ProjectItem.note?).getLast? <;> rfl
    | prop a =>
      have h1 : (ProjectItem.prop a :: xs).filterMap ProjectItem.prop? = a :: xs.filterMap ProjectItem.prop? := rfl
      have h2 : (ProjectItem.prop a :: xs).filterMap ProjectItem.note? = xs.filterMap ProjectItem.note? := rfl
      rw [h1, h2]
      simp only [projectStep, List.append_assoc, List.cons_append, List.nil_append, List.filterMap_cons]
      cases hd : dbTypeOf a with
      | none => rfl
      | some t =>
        simp only [List.getLast?_cons]
        cases ((xs.filterMap ProjectItem.prop?).filterMap dbTypeOf).getLast? <;> rfl

abbrev ProjectP (n : Source.Project) : Pair → Prop := Yields .project_decl parseProjectDecl (·.mapSpan noPos) n.ast

theorem dbTypeOf_map (f : Span → Span) (p : Property) : dbTypeOf (p.mapSpan f) = dbTypeOf p := rfl

theorem reads_project {n : Source.Project} (hn : n.Ok) (z) : Reads G.project_decl (n.toks ++ z) z [ProjectP n] := by
  obtain ⟨hk, hi, hits⟩ := hn
  have hb := star_items (e := G.note_decl <//> G.property) (F := ItemEnd) (by decide) (z := rbrace :: z)
    (.of_starts (by decide) (by decide) rfl) itemEnd_rbrace n.items
    (fun i hi y hy => reads_projItem (hits i hi) hy) (fun i hi y => projItem_itemEnd (hits i hi) y)
  have hblk := ((reads_str (s := k!"{") (k := .any)).seq (hb.seq (reads_str (s := k!"}") (k := .any)))).rule
    (r := .project_block)
  have h := (reads_kw' (k := k!"Project ") (kd := .any) hk rfl).seq ((reads_ident hi).seq hblk)
  simp only [Source.Project.toks, List.cons_append, List.append_assoc, List.nil_append]
  refine Reads.yields h ?_
  intro sp t ks hks
  obtain ⟨p1, qs, rfl, ⟨hr1, i, hi1, hi2⟩, h2⟩ := hks.cons'
  obtain ⟨p2, rfl, hr2, h2⟩ := AllP.one' h2
  simp only [List.nil_append, List.append_nil] at h2
  walk' [parseProjectDecl, hr1, hr2]
  refine ex_bind hi1 (ex_fold_bind projItemE projItemV projectStep n.items h2 ?_ ?_)
  · intro x _ p hp
    cases x with
    | note n =>
      obtain ⟨hr, b, h1, h2⟩ := hp
      refine ⟨.note b, by simp [projItemE, projItemV, h2], fun s => ?_⟩
      simp only [hr, h1, Rs.bind_def, Rs.ok_bind, Rs.pure_def]; rfl
    | prop k v =>
      obtain ⟨hr, b, h1, h2⟩ := hp
      refine ⟨.prop b, by simp [projItemE, projItemV, h2], fun s => ?_⟩
      simp only [hr, h1, Rs.bind_def, Rs.ok_bind, Rs.pure_def]
      simp only [projectStep, dbTypeOf, DatabaseType.fromStr]
      by_cases hk : b.key.to_string = k!"database_type" <;> simp [hk]
      · cases b.value.value <;> simp
      · cases b.value.value <;> simp
  intro bs hbs
  refine ⟨_, rfl, ?_⟩
  rw [projectFold]
  have e1 := filterMap_er (sel := ProjectItem.prop?) (selg := ProjectItem.prop?) (sela := ProjItem.prop?)
    (er' := (·.mapSpan noPos)) (by intro b; cases b <;> rfl) (by intro b; cases b <;> rfl) hbs
  have e2 := filterMap_er (sel := ProjectItem.note?) (selg := ProjectItem.note?) (sela := ProjItem.note?)
    (er' := (·.mapSpan noPos)) (by intro b; cases b <;> rfl) (by intro b; cases b <;> rfl) hbs
  simp only [ProjectBlock.mapSpan, Source.Project.ast, hi2, ← List.getLast?_map, e1, e2]
  rw [← e1, List.filterMap_map]
  rfl

end Dbml
