import Verif.Proofs.Walkers3

/-!
# The tree walkers on indexes, enums and table groups
-/

set_option linter.unusedSimpArgs false

namespace Dbml
open Syntax

theorem indexType_iff {w a} : IndexesType.fromStr w = some a ↔ (w, a) ∈ indexTypes := by
  unfold IndexesType.fromStr indexTypes
  split_ifs with h1 h2 h3 h4
  iterate 4 (subst_vars; revert a; intro a; cases a <;> decide)
  simp [h1, h2, h3, h4]

/-- The index type an attribute value stands for. -/
def typeOf (o : Option Literal) : Option IndexesType := o.bind fun l => IndexesType.fromStr l.value.toStr

/-- The text an attribute value stands for. -/
def strOf (o : Option Literal) : Option Str := o.map fun l => l.value.toStr

/-- How an attribute changes the settings of an index. -/
def indexStep (acc : IndexesSettings) (a : Attribute) : IndexesSettings :=
  { acc with
    attributes := acc.attributes ++ [a]
    is_unique := acc.is_unique || decide (a.key.to_string = k!"unique")
    is_pk := acc.is_pk || decide (a.key.to_string = k!"pk")
    type := (if a.key.to_string = k!"type" then
      some (typeOf a.value)
      else none).getD acc.type
    name := (if a.key.to_string = k!"name" then
      some (strOf a.value) else none).getD acc.name
    note := (if a.key.to_string = k!"note" then
      some (strOf a.value) else none).getD acc.note }

/-- An attribute of an index that is legitimate. -/
def IndexAttrD (p : Piece) (a : Attribute) : Prop :=
  AttributeD p a ∧ (a.key.to_string = k!"type" →
    ∀ l, a.value = some l → ∃ x, (l.value.toStr, x) ∈ indexTypes)

theorem applyIndexAttr_good {m : Piece} {a : Attribute} {pr : Pair} {acc} (hs : pr.span = m.span)
    (ha : AttributeD m a) :
    Good m (fun b' => ∃ x, IndexAttrD m x ∧ b' = indexStep acc x) (applyIndexAttr acc a pr) := by
  unfold applyIndexAttr
  simp only []
  by_cases h1 : a.key.to_string = k!"unique"
  · simp only [h1, if_true, Rs.ok_bind']
    exact ⟨a, ⟨ha, fun h => absurd (h1.symm.trans h) (by decide)⟩, by simp [indexStep, typeOf, strOf, h1]⟩
  by_cases h2 : a.key.to_string = k!"pk"
  · simp only [h2, if_true, Rs.ok_bind']
    rw [if_neg (by decide)]
    exact ⟨a, ⟨ha, fun h => absurd (h2.symm.trans h) (by decide)⟩, by simp [indexStep, typeOf, strOf, h2]⟩
  by_cases h3 : a.key.to_string = k!"type"
  · rw [if_neg h1, if_neg h2, if_pos h3]
    cases hv : a.value with
    | none =>
      exact ⟨a, ⟨ha, fun _ l h => by rw [hv] at h; cases h⟩, by simp [indexStep, typeOf, strOf, h3, hv]⟩
    | some l =>
      simp only
      cases ht : IndexesType.fromStr l.value.toStr with
      | some t =>
        refine ⟨a, ⟨ha, fun _ l' h => ?_⟩, by simp [indexStep, typeOf, strOf, h3, hv, ht]⟩
        rw [hv] at h; cases h
        exact ⟨t, indexType_iff.1 ht⟩
      | none =>
        simp only [throwMsg, hs]
        refine ReadErr.badIndexType (Syntax.Sub.refl _) ha h3 hv ?_
        intro t h
        rw [← indexType_iff, ht] at h
        cases h
  rw [if_neg h1, if_neg h2, if_neg h3]
  by_cases h4 : a.key.to_string = k!"name"
  · rw [if_pos h4]
    exact ⟨a, ⟨ha, fun h => absurd h h3⟩, by simp [indexStep, typeOf, strOf, h4]⟩
  rw [if_neg h4]
  by_cases h5 : a.key.to_string = k!"note"
  · rw [if_pos h5]
    exact ⟨a, ⟨ha, fun h => absurd h h3⟩, by simp [indexStep, typeOf, strOf, h5]⟩
  rw [if_neg h5]
  exact ⟨a, ⟨ha, fun h => absurd h h3⟩, by simp [indexStep, typeOf, strOf, h1, h2, h3, h4, h5]⟩

theorem indexes_settings_emits :
    Emits G.indexes_settings .nonAtomic (Node .indexes_settings IndexSettingsD parseIndexesSettings) := by
  refine emits_rule rfl ?_
  intro p rest kids h
  have h := attrs_inv h
  walk' [parseIndexesSettings]
  refine (foldlM_good bracketedD_layout (D := IndexAttrD) (g := indexStep) ?_ h _).mono ?_
  · rintro m pr b ⟨hr, hs, -, hg⟩
    simp only [hr]
    exact Good.bind hg fun a ha => applyIndexAttr_good hs ha
  · rintro s ⟨xs, hxs, rfl⟩
    have hattr : (xs.foldl indexStep ({ span_range := p.span } : IndexesSettings)).attributes = xs := by
      rw [foldl_append' (proj := IndexesSettings.attributes) (sel := some) (by intro s x; rfl)]
      simp
    have hwf := layout_all bracketedD_layout (fun _ _ h => h.2) hxs
    refine ⟨?_, ?_, ?_, ?_, ?_, ?_, ?_⟩
    · rw [hattr]; exact layout_mono bracketedD_layout (fun _ _ h => h.1) hxs
    · rw [foldl_const (proj := IndexesSettings.span_range) (by intro s x; rfl)]
    · rw [hattr, foldl_any (proj := IndexesSettings.is_pk) (fun s x => rfl), Bool.false_or, any_key]
    · rw [hattr, foldl_any (proj := IndexesSettings.is_unique) (fun s x => rfl), Bool.false_or, any_key]
    · have ht : (xs.foldl indexStep ({ span_range := p.span } : IndexesSettings)).type =
          typeOf (lastValue k!"type" xs) := by
        rw [foldl_last (proj := IndexesSettings.type) (fun s x => rfl)]
        exact last_valuesOf rfl _
      rw [hattr, ht]
      split
      · rename_i l hl
        obtain ⟨a, h1, h2, h3⟩ := lastValue_mem hl
        obtain ⟨x, hx⟩ := hwf a h1 h2 _ h3
        exact ⟨x, hx, by rw [hl]; exact indexType_iff.2 hx⟩
      · rename_i hl
        rw [hl]; rfl
    · rw [hattr, foldl_last (proj := IndexesSettings.name) (fun s x => rfl)]
      exact last_valuesOf (h := strOf) rfl _
    · rw [hattr, foldl_last (proj := IndexesSettings.note) (fun s x => rfl)]
      exact last_valuesOf (h := strOf) rfl _

theorem indexes_ident_emits :
    Emits G.indexes_ident .nonAtomic (Node .indexes_ident IndexColD parseIndexesIdent) := by
  refine emits_rule rfl ?_
  intro p rest kids h
  rcases altP h with h | h
  · obtain ⟨pr, rfl, hr, hs, htx, hg⟩ := (ident_emits na).inv h
    walk' [parseIndexesIdent, hr]
    exact Good.map hg fun i hi => hi
  · obtain ⟨v, sp, rfl, hq⟩ := quoted_inv ⟨'`', _, rfl, by simp [IsSpace], by decide⟩ h na
    exact ⟨rfl, rfl, v, hq, rfl⟩

/-- How a column changes an index definition. -/
def indexColStep (acc : IndexesDef) (c : IndexesColumnType) : IndexesDef := { acc with cols := acc.cols ++ [c] }

theorem indexColStep_foldl (xs : List IndexesColumnType) (acc : IndexesDef) :
    xs.foldl indexColStep acc = { acc with cols := acc.cols ++ xs } := by
  induction xs generalizing acc with
  | nil => simp
  | cons x xs ih => simp [ih, indexColStep]

theorem indexes_single_emits : Emits G.indexes_single .nonAtomic
    (Node .indexes_single IndexDefD parseIndexesSingleMulti) := by
  refine emits_rule rfl ?_
  intro p rest kids h
  obtain ⟨p1, p2, k1, k2, rest1, rfl, h1, h2, hp1⟩ := seqP h
  obtain ⟨pr1, rfl, hr1, -, -, hg1⟩ := indexes_ident_emits.inv h1
  have hparts : Parts .loose p _ := hp1 _ .one
  have hg1 := hg1.sub (parts_sub hparts _ (by simp))
  rcases optP indexes_settings_emits h2 with ⟨he, rfl⟩ | ⟨pr3, rfl, hr3, -, -, hg3⟩
  · walk' [parseIndexesSingleMulti, hr1]
    refine Good.map hg1 fun c hc => ?_
    exact ⟨rfl, .inl ⟨_, _, c, hparts, hc, rfl, .inl ⟨he, rfl⟩⟩⟩
  · have hg3 := hg3.sub (parts_sub hparts _ (by simp))
    walk' [parseIndexesSingleMulti, hr1, hr3]
    refine Good.bind hg1 fun c hc => ?_
    refine Good.map hg3 fun s hs => ?_
    exact ⟨rfl, .inl ⟨_, _, c, hparts, hc, rfl, .inr ⟨s, hs, rfl⟩⟩⟩

theorem indexes_multi_emits : Emits G.indexes_multi .nonAtomic
    (Node .indexes_multi IndexDefD parseIndexesSingleMulti) := by
  refine emits_rule rfl ?_
  intro p rest kids h
  obtain ⟨p1, p2, k1, k2, rest1, rfl, h1, h2, hp1⟩ := seqP h
  obtain ⟨hl, rfl⟩ := strP h1
  obtain ⟨p3, p4, k3, k4, rest3, rfl, h3, h4, hp2⟩ := seqP h2
  obtain ⟨p5, p6, k5, k6, rest5, rfl, h5, h6, hp3⟩ := seqP h4
  obtain ⟨hr, rfl⟩ := strP h5
  have hparts : Parts .loose p _ := hp1 _ (hp2 _ (hp3 _ .one))
  have hcols : Good p3 (fun b : IndexesDef => ∃ xs, ((p3.txt = [] ∧ xs = []) ∨ CommaD .loose IndexColD p3 xs) ∧
      b = { span_range := p.span, cols := xs })
      (List.foldlM (fun acc p1 =>
        match p1.rule with
        | .indexes_ident => do
          let c ← parseIndexesIdent p1
          return { acc with cols := acc.cols ++ [c] }
        | .indexes_settings => do
          let s ← parseIndexesSettings p1
          return { acc with settings := some s }
        | _ => throwRules [.indexes_ident, .indexes_settings] p1)
        ({ span_range := p.span } : IndexesDef) k3) := by
    rcases optComma_inv indexes_ident_emits h3 with ⟨he, rfl⟩ | hc
    · exact Good.nil ⟨[], .inl ⟨he, rfl⟩, rfl⟩
    · refine (foldlM_good commaD_layout (D := IndexColD) (g := indexColStep) ?_ hc _).mono ?_
      · rintro m pr b ⟨hr, hs, -, hg⟩
        simp only [hr]
        exact Good.map hg fun a ha => ⟨a, ha, rfl⟩
      · rintro _ ⟨xs, hxs, rfl⟩
        exact ⟨xs, .inr hxs, by rw [indexColStep_foldl]; simp⟩
  have hcols := hcols.sub (parts_sub hparts _ (by simp))
  rcases optP indexes_settings_emits h6 with ⟨he, rfl⟩ | ⟨pr3, rfl, hr3, -, -, hg3⟩
  · walk' [parseIndexesSingleMulti]
    refine hcols.mono ?_
    rintro _ ⟨xs, hxs, rfl⟩
    exact ⟨rfl, .inr ⟨_, _, _, _, hparts, hl, hr, hxs, .inl ⟨he, rfl⟩⟩⟩
  · have hg3 := hg3.sub (parts_sub hparts _ (by simp))
    walk' [parseIndexesSingleMulti]
    rw [List.foldlM_append]
    refine Good.bind hcols ?_
    rintro _ ⟨xs, hxs, rfl⟩
    walk' [hr3]
    refine Good.map hg3 fun s hs => ?_
    exact ⟨rfl, .inr ⟨_, _, _, _, hparts, hl, hr, hxs, .inr ⟨s, hs, rfl⟩⟩⟩

theorem indexes_emits : Emits G.indexes_decl .nonAtomic (Node .indexes_decl IndexesD parseIndexesDecl) := by
  refine emits_rule rfl ?_
  intro p rest kids h
  obtain ⟨p1, p2, k1, k2, rest1, rfl, h1, h2, hp1⟩ := seqP h
  obtain ⟨hkw, rfl⟩ := insensP h1
  obtain ⟨kids, rfl, hb⟩ := rule_inv h2 rfl
  have hb := braced_inv (Q := fun m pr => (pr.rule = .indexes_single ∨ pr.rule = .indexes_multi) ∧
      Good m (IndexDefD m) (parseIndexesSingleMulti pr)) (alt_emits
        (indexes_single_emits.mono fun m pr h => ⟨.inl h.1, h.2.2.2⟩)
        (indexes_multi_emits.mono fun m pr h => ⟨.inr h.1, h.2.2.2⟩)) hb
  have hparts : Parts .loose p _ := hp1 _ .one
  walk' [parseIndexesDecl, parseIndexesBlock]
  refine ((foldlM_good bracedD_layout (D := IndexDefD)
    (g := fun (b : IndexesBlock) x => { b with defs := b.defs ++ [x] }) ?_ hb _).sub
    (parts_sub hparts p2 (by simp))).mono ?_
  · rintro m pr b ⟨hr, hg⟩
    rcases hr with hr | hr
    all_goals
      simp only [hr]
      exact Good.map hg fun a ha => ⟨a, ha, rfl⟩
  · rintro _ ⟨xs, hxs, rfl⟩
    refine ⟨_, _, hparts, hkw, ?_, ?_⟩
    · rw [foldl_const (proj := IndexesBlock.span_range) (by intro s x; rfl)]; rfl
    · rw [foldl_append' (proj := IndexesBlock.defs) (sel := some) (by intro s x; rfl)]
      simpa using hxs

/-! ## Enums -/

/-- How an attribute changes the settings of an enum value. -/
def enumStep (acc : EnumValueSettings) (a : Attribute) : EnumValueSettings :=
  { acc with
    attributes := acc.attributes ++ [a]
    note := (if a.key.to_string = k!"note" then
      some (strOf a.value) else none).getD acc.note }

theorem enum_settings_good {p : Piece} {kids} (h : BracketedD (Node .attribute AttributeD parseAttribute) p kids) :
    Good p (EnumSettingsD p) (List.foldlM (fun (settings : EnumValueSettings) p2 =>
          match p2.rule with
          | .attribute => do
            let attr ← parseAttribute p2
            let settings : EnumValueSettings :=
              if attr.key.to_string = k!"note" then
                { settings with note := attr.value.map (·.value.toStr) }
              else settings
            return { settings with attributes := settings.attributes ++ [attr] }
          | _ => throwRules [.attribute] p2) ({ span_range := p.span } : EnumValueSettings) kids) := by
  refine (foldlM_good bracketedD_layout (D := AttributeD) (g := enumStep) ?_ h _).mono ?_
  · rintro m pr b ⟨hr, hs, -, hg⟩
    simp only [hr]
    refine Good.map hg fun a ha => ⟨a, ha, ?_⟩
    by_cases hn : a.key.to_string = k!"note" <;> simp [enumStep, strOf, hn]
  · rintro s ⟨xs, hxs, rfl⟩
    have hattr : (xs.foldl enumStep ({ span_range := p.span } : EnumValueSettings)).attributes = xs := by
      rw [foldl_append' (proj := EnumValueSettings.attributes) (sel := some) (by intro s x; rfl)]
      simp
    refine ⟨?_, ?_, ?_⟩
    · rw [hattr]; exact hxs
    · rw [foldl_const (proj := EnumValueSettings.span_range) (by intro s x; rfl)]
    · rw [hattr, foldl_last (proj := EnumValueSettings.note) (fun s x => rfl)]
      exact last_valuesOf (h := strOf) rfl _

theorem enum_value_emits : Emits G.enum_value .nonAtomic (Node .enum_value EnumValueD parseEnumValue) := by
  refine emits_rule rfl ?_
  intro p rest kids h
  obtain ⟨p1, p2, k1, k2, rest1, rfl, h1, h2, hp1⟩ := seqP h
  obtain ⟨pr1, rfl, hr1, -, -, hg1⟩ := (ident_emits na).inv h1
  have hparts : Parts .loose p _ := hp1 _ .one
  have hg1 := hg1.sub (parts_sub hparts _ (by simp))
  have hst : Emits G.enum_settings .nonAtomic (fun m pr => ∃ kids, pr = .mk .enum_settings m.span m.txt kids ∧
      BracketedD (Node .attribute AttributeD parseAttribute) m kids) :=
    emits_rule' rfl fun m rest kids h => ⟨kids, rfl, attrs_inv h⟩
  rcases optP hst h2 with ⟨he, rfl⟩ | ⟨pr3, rfl, kids3, rfl, hb⟩
  · walk' [parseEnumValue, hr1]
    refine Good.map hg1 fun c hc => ?_
    exact ⟨_, _, hparts, hc, .inl ⟨he, rfl⟩, rfl⟩
  · have hg3 := (enum_settings_good hb).sub (parts_sub hparts _ (by simp))
    walk' [parseEnumValue, hr1]
    refine Good.bind hg1 fun c hc => ?_
    refine Good.bind hg3 fun s hs => ?_
    exact ⟨_, _, hparts, hc, .inr ⟨s, hs, rfl⟩, rfl⟩

theorem enum_emits : Emits G.enum_decl .nonAtomic (Node .enum_decl EnumD parseEnumDecl) := by
  refine emits_rule rfl ?_
  intro p rest kids h
  obtain ⟨p1, p2, k1, k2, rest1, rfl, h1, h2, hp1⟩ := seqP h
  obtain ⟨hkw, rfl⟩ := insensP h1
  obtain ⟨p3, p4, k3, k4, rest3, rfl, h3, h4, hp2⟩ := seqP h2
  obtain ⟨pr, rfl, hr, hs, htx, hg⟩ := decl_ident_emits.inv h3
  obtain ⟨bk, rfl, hb⟩ := rule_inv h4 rfl
  have hb := braced_inv enum_value_emits hb
  have hparts : Parts .loose p _ := hp1 _ (hp2 _ .one)
  walk' [parseEnumDecl, parseEnumBlock, hr]
  refine Good.bind (hg.sub (parts_sub hparts _ (by simp))) ?_
  rintro ⟨sc, nm⟩ hi
  walk' []
  refine Good.bind ((mapM_good bracedD_layout (D := EnumValueD) ?_ hb).sub (parts_sub hparts _ (by simp))) ?_
  · rintro m pr ⟨hr, -, -, hg⟩
    simp only [hr]
    exact hg
  · intro vs hvs
    exact ⟨_, _, _, hparts, hkw, hi, hs, hvs, rfl⟩

/-! ## Block settings and table groups -/

theorem block_settings_emits : Emits G.block_settings .nonAtomic
    (Node .block_settings (BracketedD AttributeD) parseAttrList) := by
  refine emits_rule rfl ?_
  intro p rest kids h
  refine mapM_good bracketedD_layout (D := AttributeD) ?_ (attrs_inv h)
  rintro m pr ⟨hr, -, -, hg⟩
  simp only [hr]
  exact hg

/-- A group item's pair. -/
def GroupItemN (p : Piece) (pr : Pair) : Prop :=
  Node .note_decl NoteD parseNoteDecl p pr ∨
  Node .decl_ident (fun p (x : Option Ident × Ident) => DeclIdentD p x.1 x.2) parseDeclIdent p pr

/-- How an item changes the group. -/
def groupStep (acc : TableGroupBlock) : GroupItem → TableGroupBlock
  | .note n => { acc with note := some n }
  | .item i => { acc with items := acc.items ++ [i] }

theorem group_block_good {p blk : Piece} {kids} {g0 : TableGroupBlock} (hsub : Sub blk p)
    (h : BracedD GroupItemN blk kids) (h0 : g0.items = []) (h1 : g0.note = none) :
    Good p (fun g => ∃ items, BracedD GroupItemD blk items ∧ g.items = items.filterMap GroupItem.item? ∧
        g.note = (items.filterMap GroupItem.note?).getLast? ∧
        g.span_range = g0.span_range ∧ g.ident = g0.ident ∧ g.settings = g0.settings)
      (List.foldlM (fun (acc : TableGroupBlock) p2 =>
        match p2.rule with
        | .decl_ident => do
          let (schema, name) ← parseDeclIdent p2
          return { acc with
            items := acc.items ++ [{ span_range := p2.span, schema := schema, ident_alias := name }] }
        | .note_decl => do
          let n ← parseNoteDecl p2
          return { acc with note := some n }
        | _ => throwRules [.decl_ident, .note_decl] p2) g0 kids) := by
  refine ((foldlM_good bracedD_layout (D := GroupItemD) (g := groupStep) ?_ h _).sub hsub).mono ?_
  · intro m pr b hq
    rcases hq with ⟨hr, -, -, hg⟩ | ⟨hr, hs, -, hg⟩
    · simp only [hr]
      exact Good.map hg fun n hn => ⟨.note n, hn, rfl⟩
    · simp only [hr]
      refine Good.bind hg ?_
      rintro ⟨sc, nm⟩ hx
      exact ⟨.item { span_range := pr.span, schema := sc, ident_alias := nm }, ⟨hx, hs⟩, rfl⟩
  · rintro _ ⟨xs, hxs, rfl⟩
    refine ⟨xs, hxs, ?_, ?_, ?_, ?_, ?_⟩
    · rw [foldl_append' (proj := TableGroupBlock.items) (sel := GroupItem.item?)
        (by intro s x; cases x <;> simp [groupStep, GroupItem.item?]), h0, List.nil_append]
    · rw [foldl_last (proj := TableGroupBlock.note) (sel := fun x => x.note?.map some)
        (by intro s x; cases x <;> simp [groupStep, GroupItem.note?]), h1]
      rw [← List.map_filterMap, List.getLast?_map]
      cases (xs.filterMap GroupItem.note?).getLast? <;> simp
    · rw [foldl_const (proj := TableGroupBlock.span_range) (by intro s x; cases x <;> rfl)]
    · rw [foldl_const (proj := TableGroupBlock.ident) (by intro s x; cases x <;> rfl)]
    · rw [foldl_const (proj := TableGroupBlock.settings) (by intro s x; cases x <;> rfl)]

theorem group_emits : Emits G.table_group_decl .nonAtomic
    (Node .table_group_decl GroupD parseTableGroupDecl) := by
  refine emits_rule rfl ?_
  intro p rest kids h
  obtain ⟨p1, p2, k1, k2, rest1, rfl, h1, h2, hp1⟩ := seqP h
  obtain ⟨hkw, rfl⟩ := insensP h1
  obtain ⟨p3, p4, k3, k4, rest3, rfl, h3, h4, hp2⟩ := seqP h2
  obtain ⟨pr, rfl, hr, hs, htx, hg⟩ := (ident_emits na).inv h3
  obtain ⟨p5, p6, k5, k6, rest5, rfl, h5, h6, hp3⟩ := seqP h4
  obtain ⟨bk, rfl, hb⟩ := rule_inv h6 rfl
  have hb := braced_inv (alt_emits ((note_emits rfl).mono fun _ _ h => Or.inl h)
    (decl_ident_emits.mono fun _ _ h => Or.inr h) : Emits _ _ GroupItemN) hb
  have hparts : Parts .loose p _ := hp1 _ (hp2 _ (hp3 _ .one))
  have hg := hg.sub (parts_sub hparts _ (by simp))
  rcases optP block_settings_emits h5 with ⟨he, rfl⟩ | ⟨pr3, rfl, hr3, hs3, -, hg3⟩
  · walk' [parseTableGroupDecl, hr]
    refine Good.bind hg fun i hi => ?_
    refine Good.bind (group_block_good (parts_sub hparts _ (by simp)) hb rfl rfl) ?_
    rintro g ⟨items, hit, e1, e2, e3, e4, e5⟩
    exact ⟨_, _, _, _, items, hparts, hkw, by rw [e4]; exact hi, .inl ⟨he, e5⟩, hit, e3, e1, e2⟩
  · have hg3 := hg3.sub (parts_sub hparts _ (by simp))
    walk' [parseTableGroupDecl, parseTableGroupSettings, hr, hr3]
    refine Good.bind hg fun i hi => ?_
    refine Good.bind hg3 fun s hs => ?_
    refine Good.bind (group_block_good (parts_sub hparts _ (by simp)) hb rfl rfl) ?_
    rintro g ⟨items, hit, e1, e2, e3, e4, e5⟩
    exact ⟨_, _, _, _, items, hparts, hkw, by rw [e4]; exact hi, .inr ⟨_, ⟨hs, hs3⟩, e5⟩, hit, e3, e1, e2⟩

end Dbml
