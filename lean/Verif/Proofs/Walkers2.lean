import Verif.Proofs.Folds

/-!
# The tree walkers on projects, refs and indexes
-/

namespace Dbml
open Syntax

/-- The settings-list shape used by several rules. -/
theorem attrs_inv {p rest kids} (h : MP (G.bracketed G.attr) .nonAtomic p rest kids) :
    BracketedD (Node .attribute AttributeD parseAttribute) p kids :=
  bracketed_inv attr_emits h

/-! ## Project -/

/-- A project block item's pair. -/
def ProjectItemN (p : Piece) (pr : Pair) : Prop :=
  Node .note_decl NoteD parseNoteDecl p pr ∨ Node .property PropertyD parseProperty p pr

/-- How a project item changes the accumulator. -/
def projectStep (acc : ProjectBlock) : ProjectItem → ProjectBlock
  | .note n => { acc with note := some n }
  | .prop a =>
    { acc with
      properties := acc.properties ++ [a]
      database_type := match dbTypeOf a with | some t => some t | none => acc.database_type }

theorem project_emits : Emits G.project_decl .nonAtomic (Node .project_decl ProjectD parseProjectDecl) := by
  refine emits_rule rfl ?_
  intro p rest kids h
  obtain ⟨p1, p2, k1, k2, rest1, rfl, h1, h2, hp1⟩ := seqP h
  obtain ⟨hkw, rfl⟩ := insensP h1
  obtain ⟨p3, p4, k3, k4, rest3, rfl, h3, h4, hp2⟩ := seqP h2
  obtain ⟨pr, rfl, hr, hs, htx, hg⟩ := (ident_emits na).inv h3
  obtain ⟨bk, rfl, hb⟩ := rule_inv h4 rfl
  have hb := braced_inv (alt_emits (note_emits rfl |>.mono fun _ _ h => Or.inl h)
    (property_emits.mono fun _ _ h => Or.inr h) : Emits _ _ ProjectItemN) hb
  have hparts : Parts .loose p _ := hp1 _ (hp2 _ .one)
  walk' [parseProjectDecl, hr]
  refine Good.bind (hg.sub (parts_sub hparts _ (by simp))) fun i hi => ?_
  refine Good.bind ((foldlM_good bracedD_layout (D := ProjectItemD) (g := projectStep) ?_ hb _).sub
    (parts_sub hparts _ (by simp))) ?_
  · intro m pr b hq
    rcases hq with ⟨hr, -, -, hg⟩ | ⟨hr, -, -, hg⟩
    · simp only [hr]
      exact Good.map hg fun n hn => ⟨.note n, hn, rfl⟩
    · simp only [hr]
      refine Good.map hg fun a ha => ⟨.prop a, ha, ?_⟩
      simp only [projectStep, dbTypeOf, DatabaseType.fromStr]
      by_cases hk : a.key.to_string = k!"database_type" <;> simp [hk]
      · cases a.value.value <;> simp
      · cases a.value.value <;> simp
  rintro b ⟨xs, hxs, rfl⟩
  refine ⟨_, _, _, xs, hparts, hkw, ?_, hxs, ?_, ?_, ?_, ?_⟩
  · rw [foldl_const (proj := ProjectBlock.ident) (by intro s x; cases x <;> rfl)]; exact hi
  · rw [foldl_const (proj := ProjectBlock.span_range) (by intro s x; cases x <;> rfl)]
  · rw [foldl_append' (proj := ProjectBlock.properties) (sel := ProjectItem.prop?)
      (by intro s x; cases x <;> simp [projectStep, ProjectItem.prop?])]
    simp
  · rw [foldl_last (proj := ProjectBlock.note) (sel := fun x => x.note?.map some)
      (by intro s x; cases x <;> simp [projectStep, ProjectItem.note?])]
    rw [← List.map_filterMap, List.getLast?_map]
    cases (xs.filterMap ProjectItem.note?).getLast? <;> simp
  · rw [foldl_append' (proj := ProjectBlock.properties) (sel := ProjectItem.prop?)
      (by intro s x; cases x <;> simp [projectStep, ProjectItem.prop?])]
    rw [foldl_last (proj := ProjectBlock.database_type)
      (sel := fun x => (x.prop?.bind dbTypeOf).map some)
      (by
        intro s x
        cases x with
        | note n => simp [projectStep, ProjectItem.prop?]
        | prop a => simp only [projectStep, ProjectItem.prop?, Option.bind_some]; cases dbTypeOf a <;> simp)]
    rw [← List.map_filterMap, List.getLast?_map, List.nil_append, List.filterMap_filterMap]
    cases (xs.filterMap fun x => x.prop?.bind dbTypeOf).getLast? <;> simp

/-! ## Refs -/

theorem relation_emits : Emits G.relation .nonAtomic (fun p pr =>
    ∃ r, pr = .mk .relation p.span p.txt [] ∧ Relation.fromStr p.txt = some r ∧ RelationD p r ∧
      r ≠ .undef) := by
  intro pos c rest ps h
  obtain ⟨kids, rfl, hb⟩ := rule_inv h rfl
  rcases hb with ⟨rfl, rfl⟩ | ⟨-, ⟨rfl, rfl⟩ | ⟨-, ⟨rfl, rfl⟩ | ⟨-, ⟨rfl, rfl⟩⟩⟩⟩ <;>
    exact ⟨_, rfl, _, rfl, rfl, by simp [RelationD], by simp⟩

/-- Reading the column part of a ref endpoint. -/
theorem composition_emits : Emits G.ref_composition .nonAtomic (fun p pr =>
    pr.rule = .ref_composition ∧ ∀ comps : List Ident,
      Good p (fun cs => ∃ xs, CompositionD p xs ∧ cs = comps ++ xs)
        (pr.children.foldlM (init := comps) fun comps p2 =>
          match p2.rule with
          | .ident => do
            let i ← parseIdent p2
            return comps ++ [i]
          | _ => throwRules [.ident] p2)) := by
  have hstep : ∀ m pr (b : List Ident), Node .ident (IdentD .loose) parseIdent m pr →
      Good m (fun b' => ∃ x, IdentD .loose m x ∧ b' = b ++ [x])
        ((fun comps p2 => match p2.rule with
          | .ident => do
            let i ← parseIdent p2
            return comps ++ [i]
          | _ => throwRules [.ident] p2) b pr) := by
    rintro m pr b ⟨hr, -, -, hg⟩
    walk [hr]
    refine hg.bind fun i hi => ?_
    exact ⟨i, hi, rfl⟩
  have hfold : ∀ (xs : List Ident) (b : List Ident), xs.foldl (fun b x => b ++ [x]) b = b ++ xs := by
    intro xs
    induction xs with
    | nil => simp
    | cons x xs ih => intro b; simp [ih]
  refine emits_rule' rfl ?_
  intro p rest kids h
  refine ⟨rfl, fun comps => ?_⟩
  rcases altP h with h | h
  · obtain ⟨pr, rfl, hn⟩ := (ident_emits na).inv h
    walk []
    refine (hstep p pr comps hn).bind ?_
    rintro _ ⟨x, hx, rfl⟩
    exact ⟨[x], .inl ⟨x, hx, rfl⟩, rfl⟩
  · obtain ⟨p1, p2, k1, k2, rest1, rfl, h1, h2, hp1⟩ := seqP h
    obtain ⟨hl, rfl⟩ := strP h1
    obtain ⟨p3, p4, k3, k4, rest3, rfl, h3, h4, hp2⟩ := seqP h2
    obtain ⟨pr, rfl, hn⟩ := (ident_emits na).inv h3
    obtain ⟨p5, p6, k5, k6, rest5, rfl, h5, h6, hp3⟩ := seqP h4
    obtain ⟨hr, rfl⟩ := strP h6
    have hm := starP (commaItem_inv (ident_emits na)) h5
    have hparts : Parts .loose p _ := hp1 _ (hp2 _ (hp3 _ .one))
    walk []
    refine ((hstep p3 pr comps hn).sub (parts_sub hparts _ (by simp))).bind ?_
    rintro _ ⟨x, hx, rfl⟩
    have key := foldlM_good manyD_layout
      (D := fun q y => ∃ comma item, Parts .loose q [comma, item] ∧ comma.txt = k!"," ∧ IdentD .loose item y)
      (g := fun b x => b ++ [x])
      (step := fun comps p2 => match p2.rule with
          | .ident => do
            let i ← parseIdent p2
            return comps ++ [i]
          | _ => throwRules [.ident] p2) (by
        rintro m pr b ⟨comma, item, hp, hc, hn⟩
        refine ((hstep item pr b hn).sub (parts_sub hp _ (by simp))).mono ?_
        rintro _ ⟨x, hx, rfl⟩
        exact ⟨x, ⟨comma, item, hp, hc, hx⟩, rfl⟩) hm (comps ++ [x])
    refine (key.sub (parts_sub hparts _ (by simp))).mono ?_
    rintro _ ⟨xs, hxs, rfl⟩
    refine ⟨x :: xs, .inr ⟨_, _, _, _, x, xs, hparts, hl, hr, hx, hxs, rfl⟩, ?_⟩
    rw [hfold]; simp

theorem ref_ident_emits : Emits G.ref_ident .nonAtomic (Node .ref_ident RefIdentD parseRefIdent) := by
  refine emits_rule rfl ?_
  intro p rest kids h
  obtain ⟨p1, p2, k1, k2, rest1, rfl, h1, h2, hp1⟩ := seqP h
  obtain ⟨pr, rfl, hr, hs, htx, hg⟩ := (ident_emits na).inv h1
  obtain ⟨p3, p4, k3, k4, rest3, rfl, h3, h4, hp2⟩ := seqP h2
  obtain ⟨hd, rfl⟩ := strP h3
  obtain ⟨p5, p6, k5, k6, rest5, rfl, h5, h6, hp3⟩ := seqP h4
  obtain ⟨cr, rfl, hcr, hcg⟩ := composition_emits.inv h6
  have hparts : Parts .loose p _ := hp1 _ (hp2 _ (hp3 _ .one))
  have hg := hg.sub (parts_sub hparts _ (by simp))
  have hcg := fun comps => (hcg comps).sub (parts_sub hparts _ (by simp))
  have hmid : Emits (.seq G.ident (.str k!".")) .nonAtomic (fun q y => ∃ n dot,
      Parts .loose q [n, dot] ∧ dot.txt = k!"." ∧ Node .ident (IdentD .loose) parseIdent n y) := by
    intro pos c rest ps h
    obtain ⟨p1, p2, k1, k2, rest1, rfl, h1, h2, hp1⟩ := seqP (p := ⟨pos, c⟩) h
    obtain ⟨pr, rfl, hn⟩ := (ident_emits na).inv h1
    obtain ⟨hd, rfl⟩ := strP h2
    exact ⟨pr, rfl, p1, p2, hp1 _ .one, hd, hn⟩
  rcases optP hmid h5 with ⟨he, rfl⟩ | ⟨pr2, rfl, n, dot', hp', hd', hr2, hs2, ht2, hg2⟩
  · walk' [parseRefIdent, hr, hcr]
    refine Good.bind hg fun i hi => ?_
    refine Good.bind (hcg []) ?_
    rintro _ ⟨xs, hxs, rfl⟩
    exact ⟨_, _, _, _, hparts, hd, rfl, by simpa using hxs, .inl ⟨he, rfl, hi⟩⟩
  · have hg2 := hg2.sub ((parts_sub hp' _ (by simp)).trans (parts_sub hparts _ (by simp)))
    walk' [parseRefIdent, hr, hr2, hcr]
    refine Good.bind hg fun i hi => ?_
    refine Good.bind hg2 fun j hj => ?_
    refine Good.bind (hcg []) ?_
    rintro _ ⟨xs, hxs, rfl⟩
    exact ⟨_, _, _, _, hparts, hd, rfl, by simpa using hxs, .inr ⟨n, dot', i, hp', hd', hi, rfl, hj⟩⟩

end Dbml
