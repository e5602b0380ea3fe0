import Verif.Proofs.Rename11
import Verif.Props.Shape
import Verif.Props.Example

/-!
# C77: names can be changed in place by their spans

Every name in the AST carries the span at which it stands. Writing new spellings at these spans gives a text that is
read to the same AST with those names changed - no other name, no setting, no literal - and that is accepted as the
original text was, if the names are changed consistently.
-/

namespace Dbml.Props

open Spec Source Syntax

variable {s : SchemaBlock} {txt : Str} {es : Edits}

/-- The edits are in order, each stands at a name of `s`, and each new spelling fits what it replaces. -/
structure Edits.At (es : Edits) (s : SchemaBlock) (txt : Str) : Prop where
  sorted : es.Pairwise fun a b => a.1.start < b.1.start
  names : ∀ e ∈ es, ∃ x ∈ s.names, x.2.span_range = e.1
  fits : ∀ e ∈ es, Fits (slice txt e.1) e.2

theorem hasAt_name {ls : List LT} {i : Ident} (h : HasAt ls i) :
    ∃ n p, LT.name n p ∈ ls ∧ i.span_range = ⟨p, p + blen n.text⟩ := by
  unfold HasAt at h
  rw [List.mem_filterMap] at h
  obtain ⟨l, hl, h⟩ := h
  cases l with
  | keep t => simp [LT.span?] at h
  | name n p =>
    simp only [LT.span?, Option.some.injEq] at h
    exact ⟨n, p, hl, h.symm⟩

theorem respelled_ren {es : Edits} {i : Ident} (h : ∀ e ∈ es, e.1.start = i.span_range.start → e.1 = i.span_range) :
    ren (spellAt es) i = respelled es i := by
  have : (es.find? fun e => e.1.start == i.span_range.start) = es.find? fun e => e.1 = i.span_range := by
    induction es with
    | nil => rfl
    | cons e es ih =>
      have ih := ih fun e hx => h e (by simp [hx])
      by_cases he : e.1 = i.span_range
      · simp [he]
      · have hne : e.1.start ≠ i.span_range.start := fun h' => he (h e (by simp) h')
        simp [he, hne, ih]
  unfold ren respelled spellAt
  rw [this]
  cases es.find? fun e => decide (e.1 = i.span_range) <;> rfl

/-- **C77.** Writing new spellings at the spans of names gives a text that is read to the same AST, positions aside,
with exactly those names changed. -/
theorem C77_rename (h : parseDbmlUnchecked txt = .ok s) (he : Edits.At es s txt) :
    ∃ s', parseDbmlUnchecked (applyEdits es txt) = .ok s' ∧
      s'.blocks.map (·.mapSpan noPos) = (s.blocks.map (·.mapNames fun _ => respelled es)).map (·.mapSpan noPos) := by
  obtain ⟨ls, Xs, hw, h1, h2, h3, h4⟩ := doc_located h
  have hat : ∀ x ∈ s.names, HasAt ls x.2 := by
    intro x hx
    obtain ⟨b, hb, hx⟩ := List.mem_flatMap.1 hx
    exact h3 b hb _ (names_ids b x hx)
  have hes : EditsAt ls es := ⟨he.sorted, fun e hx => by
    obtain ⟨x, hxs, hsp⟩ := he.names e hx
    obtain ⟨n, p, hm, hsp'⟩ := hasAt_name (hat x hxs)
    have hsl := (hw.slice n p hm [] rfl).eq
    rw [List.nil_append, ← hsp', hsp] at hsl
    refine ⟨n, p, hm, by rw [← hsp, hsp'], ?_⟩
    rw [← hsl]
    exact he.fits e hx⟩
  obtain ⟨s', a1, a2, -, a4⟩ := wrp_edit hw es hes
  have hok : ∀ g, SpOk g → Doc.Ok (Xs.map (· g)) := by
    intro g hg b hb
    obtain ⟨X, hX, rfl⟩ := List.mem_map.1 hb
    exact h1 g hg X hX
  have hsp : SpOk (spellAt es) := by
    intro p w hp
    simp only [spellAt, Option.map_eq_some_iff] at hp
    obtain ⟨e, he', rfl⟩ := hp
    exact (he.fits e (List.mem_of_find?_eq_some he')).1
  obtain ⟨s0, b1, b2, -⟩ := C44_written_is_read _ (hok noSp (by intro p w hp; cases hp)) txt (by
    have := hw.written
    rwa [h2 noSp] at this)
  rw [h] at b1
  cases b1
  obtain ⟨s1, c1, c2, -⟩ := C44_written_is_read _ (hok _ hsp) s' (by rwa [h2 _] at a4)
  have ha : applyEdits es txt = s' := by simpa using a1 [] rfl
  refine ⟨s1, by rw [ha]; exact c1, c2.trans ?_⟩
  refine (ct_map h4 b2.symm _).trans ?_
  congr 1
  apply List.map_congr_left
  intro b hb
  apply TopLevelBlock.mapNames_congr
  intro x hx
  have hx' : x ∈ s.names := List.mem_flatMap.2 ⟨b, hb, hx⟩
  obtain ⟨n, p, hm, hsp'⟩ := hasAt_name (hat x hx')
  refine respelled_ren fun e hx hst => ?_
  obtain ⟨n', p', hm', hsp'', -⟩ := hes.2 e hx
  rw [hsp', hsp''] at hst
  simp only at hst
  subst hst
  rw [hsp', hsp'', hw.unique n n' _ hm hm']

/-- **C77, one name.** Writing a new spelling at the span of one name changes that name and nothing else. -/
theorem C77_one (h : parseDbmlUnchecked txt = .ok s) {x : Role × Ident} (hx : x ∈ s.names) {w : Name}
    (hf : Fits (slice txt x.2.span_range) w) :
    ∃ s', parseDbmlUnchecked (replaceAt txt x.2.span_range w.text) = .ok s' ∧
      s'.blocks.map (·.mapSpan noPos) = (s.blocks.map (·.mapNames fun _ i =>
        if i.span_range = x.2.span_range then { i with raw := w.text, to_string := w.value } else i)).map
          (·.mapSpan noPos) := by
  obtain ⟨s', h1, h2⟩ := C77_rename (es := [(x.2.span_range, w)]) h
    ⟨by simp, by simpa using ⟨_, _, hx, rfl⟩, by simpa using hf⟩
  refine ⟨s', h1, h2.trans ?_⟩
  have : respelled [(x.2.span_range, w)] = fun i =>
      if i.span_range = x.2.span_range then { i with raw := w.text, to_string := w.value } else i := by
    funext i
    by_cases e : i.span_range = x.2.span_range
    · simp [respelled, e]
    · simp [respelled, e, Ne.symm e]
  rw [this]

/-! ## Every name has a place of its own -/

/-- The spans do not overlap. -/
def Disjoint (a b : Span) : Prop := a.stop ≤ b.start ∨ b.stop ≤ a.start

/-- **C77.** The names of the AST stand at places of their own: their spans do not overlap (and none is empty). Hence
changing one name by its span changes no other. -/
theorem C77_apart (h : parseDbmlUnchecked txt = .ok s) :
    s.names.Pairwise (fun a b => Disjoint a.2.span_range b.2.span_range) ∧
    ∀ x ∈ s.names, x.2.span_range.start < x.2.span_range.stop := by
  obtain ⟨ls, Xs, hw, h1, h2, h3, h4⟩ := doc_located h
  have hat : ∀ x ∈ s.names, HasAt ls x.2 := by
    intro x hx
    obtain ⟨b, hb, hx⟩ := List.mem_flatMap.1 hx
    exact h3 b hb _ (names_ids b x hx)
  refine ⟨?_, ?_⟩
  · have hn := List.pairwise_map.1 (starts_nodup h)
    refine hn.imp_of_mem ?_
    intro a b ha hb hne
    obtain ⟨n, p, hm, e⟩ := hasAt_name (hat a ha)
    obtain ⟨n', p', hm', e'⟩ := hasAt_name (hat b hb)
    rw [e, e'] at hne ⊢
    rcases Nat.lt_or_gt_of_ne hne with hlt | hlt
    · exact .inl (hw.apart _ _ _ _ hm hm' hlt)
    · exact .inr (hw.apart _ _ _ _ hm' hm hlt)
  · intro x hx
    obtain ⟨n, p, hm, e⟩ := hasAt_name (hat x hx)
    have hb := blen_name (hw.nameOk _ _ hm)
    rw [e]
    simp only
    omega

/-! ## Renaming by role -/

/-- The edits that give every name of `s` the spelling picked for it: what an editor computes from the AST. -/
def editsOf (pick : Role → Ident → Option Name) (s : SchemaBlock) : Edits :=
  (s.names.filterMap fun x => (pick x.1 x.2).map (x.2.span_range, ·)).mergeSort fun a b => a.1.start ≤ b.1.start

/-- The name in the spelling picked for it. -/
def picked (pick : Role → Ident → Option Name) (r : Role) (i : Ident) : Ident :=
  match pick r i with
  | some w => { i with raw := w.text, to_string := w.value }
  | none => i

theorem mem_editsOf {pick : Role → Ident → Option Name} {e : Span × Name} :
    e ∈ editsOf pick s ↔ ∃ x ∈ s.names, x.2.span_range = e.1 ∧ pick x.1 x.2 = some e.2 := by
  simp only [editsOf, List.mem_mergeSort, List.mem_filterMap, Option.map_eq_some_iff]
  constructor
  · rintro ⟨x, hx, w, hw, rfl⟩
    exact ⟨x, hx, rfl, hw⟩
  · rintro ⟨x, hx, h1, h2⟩
    exact ⟨x, hx, e.2, h2, by rw [h1]⟩

theorem eq_of_start (h : parseDbmlUnchecked txt = .ok s) {x y : Role × Ident} (hx : x ∈ s.names) (hy : y ∈ s.names)
    (e : x.2.span_range.start = y.2.span_range.start) : x = y :=
  List.inj_on_of_nodup_map (starts_nodup h) hx hy e

theorem editsOf_at {pick : Role → Ident → Option Name} (h : parseDbmlUnchecked txt = .ok s)
    (hf : ∀ x ∈ s.names, ∀ w, pick x.1 x.2 = some w → Fits (slice txt x.2.span_range) w) :
    Edits.At (editsOf pick s) s txt := by
  have hnd := starts_nodup h
  have hsorted : (editsOf pick s).Pairwise fun a b => a.1.start < b.1.start := by
    have h1 : (editsOf pick s).Pairwise fun a b => a.1.start ≤ b.1.start := by
      have := List.pairwise_mergeSort (le := fun a b : Span × Name => decide (a.1.start ≤ b.1.start))
        (by intro a b c; simp; omega) (by intro a b; simp; omega)
        (s.names.filterMap fun x => (pick x.1 x.2).map (x.2.span_range, ·))
      simpa [editsOf] using this
    have h2 : (editsOf pick s).Pairwise fun a b => a.1.start ≠ b.1.start := by
      have h3 : (s.names.filterMap fun x => (pick x.1 x.2).map (x.2.span_range, ·)).Pairwise
          fun a b => a.1.start ≠ b.1.start := by
        refine List.Pairwise.filterMap _ ?_ (List.pairwise_map.1 hnd)
        intro a b hne x hx y hy
        simp only [Option.map_eq_some_iff] at hx hy
        obtain ⟨w, -, rfl⟩ := hx
        obtain ⟨w', -, rfl⟩ := hy
        exact hne
      exact ((List.mergeSort_perm _ _).pairwise_iff (fun h => Ne.symm h)).2 h3
    exact (h1.and h2).imp fun h => Nat.lt_of_le_of_ne h.1 h.2
  refine ⟨hsorted, ?_, ?_⟩
  · intro e he
    obtain ⟨x, hx, h3, -⟩ := mem_editsOf.1 he
    exact ⟨x, hx, h3⟩
  · intro e he
    obtain ⟨x, hx, h3, h4⟩ := mem_editsOf.1 he
    rw [← h3]
    exact hf x hx _ h4

theorem editsOf_respelled {pick : Role → Ident → Option Name} (h : parseDbmlUnchecked txt = .ok s) {x : Role × Ident}
    (hx' : x ∈ s.names) : respelled (editsOf pick s) x.2 = picked pick x.1 x.2 := by
  unfold respelled picked
  cases hp : pick x.1 x.2 with
  | none =>
    have : (editsOf pick s).find? (fun e => decide (e.1 = x.2.span_range)) = none := by
      rw [List.find?_eq_none]
      intro e he hd
      simp only [decide_eq_true_eq] at hd
      obtain ⟨y, hy, h3, h4⟩ := mem_editsOf.1 he
      rw [eq_of_start h hy hx' (by rw [h3, hd]), hp] at h4
      cases h4
    rw [this]
  | some w =>
    cases he : (editsOf pick s).find? (fun e => decide (e.1 = x.2.span_range)) with
    | none =>
      rw [List.find?_eq_none] at he
      have := he (x.2.span_range, w) (mem_editsOf.2 ⟨x, hx', rfl, hp⟩)
      simp at this
    | some e =>
      have hd := List.find?_some he
      simp only [decide_eq_true_eq] at hd
      obtain ⟨y, hy, h3, h4⟩ := mem_editsOf.1 (List.mem_of_find?_eq_some he)
      rw [eq_of_start h hy hx' (by rw [h3, hd]), hp] at h4
      cases h4
      rfl

/-- **C77.** Giving each name of the AST the spelling that was picked for it - by its role, its value, its place - and
writing them all into the text gives a text that is read to the AST with just these names. -/
theorem C77_by_role {pick : Role → Ident → Option Name} (h : parseDbmlUnchecked txt = .ok s)
    (hf : ∀ x ∈ s.names, ∀ w, pick x.1 x.2 = some w → Fits (slice txt x.2.span_range) w) :
    ∃ s', parseDbmlUnchecked (applyEdits (editsOf pick s) txt) = .ok s' ∧
      s'.blocks.map (·.mapSpan noPos) = (s.blocks.map (·.mapNames (picked pick))).map (·.mapSpan noPos) := by
  obtain ⟨s', h1, h2⟩ := C77_rename h (editsOf_at h hf)
  refine ⟨s', h1, h2.trans ?_⟩
  congr 1
  apply List.map_congr_left
  intro b hb
  apply TopLevelBlock.mapNames_congr
  intro x hx
  exact editsOf_respelled h (List.mem_flatMap.2 ⟨b, hb, hx⟩)

/-- The AST with its names in their new spellings. -/
def renamed (es : Edits) (s : SchemaBlock) : SchemaBlock :=
  { s with blocks := s.blocks.map (·.mapNames fun _ => respelled es) }

/-- **C77.** The edited text is accepted exactly when the AST with the new names meets the rules. -/
theorem C77_checked (h : parseDbmlUnchecked txt = .ok s) (he : Edits.At es s txt) :
    (∃ r, parseDbml (applyEdits es txt) = .ok r) ↔ Valid (renamed es s) := by
  obtain ⟨s', h1, h2⟩ := C77_rename h he
  rw [accepted_iff_bare h1, ← valid_bare (renamed es s)]
  unfold bare
  rw [h2]
  rfl

/-! ## Consistent renaming -/

/-- The new name of something, by its role: enums and their values keep their names. -/
def Renaming.at (ρ : Renaming) : Role → Str → Str
  | .schema => ρ.schema
  | .table => ρ.table
  | .col => ρ.col
  | .group => ρ.group
  | _ => id

/-- The rules look at names with this role. -/
def Matters : Role → Prop
  | .project | .ref => False
  | _ => True

section
variable {ρ : Renaming} {f : Role → Ident → Ident}

theorem opt_name {α β γ : Type} {g : β → γ} {g' : α → γ} {m : α → β} (h : ∀ x, g (m x) = g' x) (o : Option α) :
    (o.map m).map g = o.map g' := by
  cases o with
  | none => rfl
  | some x => exact congrArg some (h x)

theorem map_name {α β γ : Type} {g : β → γ} {g' : α → γ} {m : α → β} (h : ∀ x, g (m x) = g' x) (xs : List α) :
    (xs.map m).map g = xs.map g' := by
  rw [List.map_map]
  exact List.map_congr_left fun x _ => h x

variable (hf : ∀ r, Matters r → ∀ i, (f r i).to_string = Renaming.at ρ r i.to_string)
include hf

theorem ident_renamed {r : Role} (hr : Matters r) {g g' : Str → Str} (hg : g = id) (hg' : g' = Renaming.at ρ r) (i : Ident) :
    Core.ident g (f r i) = Core.ident g' i := by
  subst hg hg'
  simp [Core.ident, hf r hr]

theorem refIdent_renamed (r : RefIdent) : Core.refIdent {} (r.mapNames f) = Core.refIdent ρ r := by
  simp only [Core.refIdent, RefIdent.mapNames,
    opt_name (fun i => ident_renamed hf (r := .schema) trivial rfl rfl i),
    map_name (fun i => ident_renamed hf (r := .col) trivial rfl rfl i), ident_renamed hf (r := .table) trivial rfl rfl]
  rfl

theorem indexes_renamed (b : IndexesBlock) : Core.indexes {} (b.mapNames f) = Core.indexes ρ b := by
  have hc : ∀ c : IndexesColumnType, Core.indexCol {} (c.mapNames f) = Core.indexCol ρ c := by
    intro c
    cases c with
    | expr l => rfl
    | string i => exact congrArg _ (ident_renamed hf (r := .col) trivial rfl rfl i)
  simp only [Core.indexes, IndexesBlock.mapNames]
  rw [map_name (g' := Core.indexDef ρ) fun d => ?_]
  simp only [Core.indexDef, IndexesDef.mapNames, map_name hc]

theorem column_renamed (c : TableColumn) : Core.column {} (c.mapNames f) = Core.column ρ c := by
  simp only [Core.column, TableColumn.mapNames, ident_renamed hf (r := .col) trivial rfl rfl]
  rw [opt_name (g' := Core.colSettings ρ) fun s => ?_]
  · rfl
  · simp only [Core.colSettings, ColumnSettings.mapNames]
    rw [map_name (g' := Core.refInline ρ) fun r => ?_]
    simp only [Core.refInline, RefInline.mapNames, refIdent_renamed hf]

theorem block_renamed (b : TopLevelBlock) : Core.block {} (b.mapNames f) = Core.block ρ b := by
  cases b with
  | project b => rfl
  | note b => rfl
  | table t =>
    simp only [TopLevelBlock.mapNames, Core.block, Core.table, TableBlock.mapNames,
      opt_name (fun i => ident_renamed hf (r := .schema) trivial rfl rfl i),
      opt_name (fun i => ident_renamed hf (r := .table) trivial rfl rfl i), ident_renamed hf (r := .table) trivial rfl rfl,
      map_name (column_renamed hf), opt_name (indexes_renamed hf)]
    rfl
  | tableGroup g =>
    have : ∀ i : TableGroupItem, Core.groupItem {} (i.mapNames f) = Core.groupItem ρ i := by
      intro i
      simp only [Core.groupItem, TableGroupItem.mapNames,
        opt_name (fun i => ident_renamed hf (r := .schema) trivial rfl rfl i), ident_renamed hf (r := .table) trivial rfl rfl]
      rfl
    simp only [TopLevelBlock.mapNames, Core.block, Core.group, TableGroupBlock.mapNames, map_name this,
      ident_renamed hf (r := .group) trivial rfl rfl]
    rfl
  | ref r =>
    simp only [TopLevelBlock.mapNames, Core.block, Core.ref, RefBlock.mapNames, refIdent_renamed hf]
  | enum e =>
    have : ∀ v : EnumValue, Core.enumValue (v.mapNames f) = Core.enumValue v := by
      intro v
      simp only [Core.enumValue, EnumValue.mapNames, hf .value trivial]
      rfl
    simp only [TopLevelBlock.mapNames, Core.block, Core.enum, EnumBlock.mapNames, map_name this,
      opt_name (fun i => ident_renamed hf (r := .enumSchema) trivial rfl rfl i),
      ident_renamed hf (r := .enum) trivial rfl rfl]
    rfl
end

/-- **C77, refactoring.** If the new spellings rename schemas, tables (with their aliases), columns and table groups
consistently - every name according to one renaming that keeps different names different - then the edited text is
accepted exactly when the original text is. Projects and refs may be renamed at will. -/
theorem C77_refactor {ρ : Renaming} (hρ : ρ.Ok) (h : parseDbmlUnchecked txt = .ok s) (he : Edits.At es s txt)
    (hn : ∀ x ∈ s.names, Matters x.1 → (respelled es x.2).to_string = Renaming.at ρ x.1 x.2.to_string) :
    (∃ r, parseDbml (applyEdits es txt) = .ok r) ↔ ∃ r, parseDbml txt = .ok r := by
  classical
  obtain ⟨s', h1, h2⟩ := C77_rename h he
  symm
  refine C63_text hρ ok_id h h1 ?_
  let f : Role → Ident → Ident := fun r i =>
    if Matters r then { respelled es i with to_string := Renaming.at ρ r i.to_string } else respelled es i
  have hb : ∀ b ∈ s.blocks, b.mapNames (fun _ => respelled es) = b.mapNames f := by
    intro b hb
    apply TopLevelBlock.mapNames_congr
    intro x hx
    by_cases hm : Matters x.1
    · simp only [f, if_pos hm, ← hn x (List.mem_flatMap.2 ⟨b, hb, hx⟩) hm]
    · simp only [f, if_neg hm]
  have hf : ∀ r, Matters r → ∀ i, (f r i).to_string = Renaming.at ρ r i.to_string := by
    intro r hr i
    simp only [f, if_pos hr]
  have e1 : core {} s' = core {} { blocks := s.blocks.map (·.mapNames f) } := by
    have e2 : ∀ bs : List TopLevelBlock, bs.filterMap (Core.block {}) =
        (bs.map (·.mapSpan noPos)).filterMap (Core.block {}) := by
      intro bs
      rw [List.filterMap_map]
      congr 1
      funext b
      exact (core_block noPos {} b).symm
    unfold core
    rw [e2 s'.blocks, h2, ← e2, List.map_congr_left hb]
  rw [e1]
  unfold core
  rw [List.filterMap_map]
  congr 2
  funext b
  exact (block_renamed hf b).symm

/-- **C77, refactoring by role.** The same for spellings picked name by name. -/
theorem C77_refactor_by_role {ρ : Renaming} (hρ : ρ.Ok) {pick : Role → Ident → Option Name}
    (h : parseDbmlUnchecked txt = .ok s)
    (hf : ∀ x ∈ s.names, ∀ w, pick x.1 x.2 = some w → Fits (slice txt x.2.span_range) w)
    (hn : ∀ x ∈ s.names, Matters x.1 → (picked pick x.1 x.2).to_string = Renaming.at ρ x.1 x.2.to_string) :
    (∃ r, parseDbml (applyEdits (editsOf pick s) txt) = .ok r) ↔ ∃ r, parseDbml txt = .ok r :=
  C77_refactor hρ h (editsOf_at h hf) fun x hx hm => by rw [editsOf_respelled h hx]; exact hn x hx hm

/-! ## Concrete cases -/

/-- Every mention of the table `users` and of the column `id` gets a new spelling. -/
def exPick : Role → Ident → Option Name
  | .table, i => if i.to_string = k!"users" then some (.word k!"people") else none
  | .col, i => if i.to_string = k!"id" then some (.quoted ⟨k!"", k!"the key"⟩) else none
  | _, _ => none

/-- The same as a list (in the order of the text). -/
def exEdits : Edits := exAst.names.filterMap fun x => (exPick x.1 x.2).map (x.2.span_range, ·)

instance (raw : Str) (w : Name) : Decidable (Fits raw w) := by
  unfold Fits; cases w <;> exact inferInstance

theorem ex_fits : ∀ x ∈ exAst.names, ∀ w, exPick x.1 x.2 = some w → Fits (slice exText x.2.span_range) w := by
  have : ∀ x ∈ exAst.names, ∀ w ∈ exPick x.1 x.2, Fits (slice exText x.2.span_range) w := by decide +kernel
  exact fun x hx w hw => this x hx w hw

example : ∃ s', parseDbmlUnchecked (applyEdits (editsOf exPick exAst) exText) = .ok s' ∧
    s'.blocks.map (·.mapSpan noPos) = (exAst.blocks.map (·.mapNames (picked exPick))).map (·.mapSpan noPos) :=
  C77_by_role ex_reads ex_fits


theorem at_iff (es : Edits) (s : SchemaBlock) (txt : Str) : Edits.At es s txt ↔
    es.Pairwise (fun a b => a.1.start < b.1.start) ∧ (∀ e ∈ es, ∃ x ∈ s.names, x.2.span_range = e.1) ∧
      ∀ e ∈ es, Fits (slice txt e.1) e.2 :=
  ⟨fun ⟨a, b, c⟩ => ⟨a, b, c⟩, fun ⟨a, b, c⟩ => ⟨a, b, c⟩⟩

theorem ex_edits : Edits.At exEdits exAst exText := (at_iff _ _ _).2 (by decide +kernel)

/-- There are nine of them: the declarations of a table and two columns, an index, four mentions in refs, an item of
a group. -/
example : exEdits.length = 9 := by decide +kernel

/-- The edited text. -/
example : applyEdits exEdits exText = k!"Project shop { database_type: 'PostgreSQL' Note: 'é demo' }
Enum core.status { active [note: 'on'] \"not active\" }
Table core.people as U [headercolor: #fff] {
  \"the key\" int [pk, increment]
  st core.status [default: active]
  name varchar(20) [not null, default: 'bob']
  \"a b\" int[2] [null]
  Note: 'users'
  Indexes { (\"the key\", name) [unique, name: 'x'] `lower(name)` [type: hash] }
}
// comment
Table posts {
  \"the key\" int [primary key] uid int [ref: > core.people.\"the key\"] score decimal(5,2) [default: 1.5]
  own int }
Ref own: posts.own > core.people.\"the key\" [update: cascade, delete: set null]
TableGroup g { core.people posts }
Note: 'x'" := by decide +kernel

instance (r : Role) : Decidable (Matters r) := by unfold Matters; cases r <;> exact inferInstance

/-- The edits are consistent, so the edited text is accepted. -/
example : ∃ r, parseDbml (applyEdits exEdits exText) = .ok r :=
  (C77_refactor (ρ := ⟨swapNames k!"" k!"", swapNames k!"users" k!"people", swapNames k!"id" k!"the key", swapNames k!"" k!""⟩)
    (ok_swap (by decide) (by decide)) ex_reads ex_edits (by decide +kernel)).2 ⟨_, ex_accepted⟩

/-- Changing one mention alone is read as well, but rejected: the table is not found. -/
example : (∃ s, parseDbmlUnchecked (applyEdits ((exEdits.drop 6).take 1) exText) = .ok s) ∧
    ¬ ∃ r, parseDbml (applyEdits ((exEdits.drop 6).take 1) exText) = .ok r := by
  refine ⟨?_, ?_⟩
  · obtain ⟨s, h, -⟩ := C77_rename (es := (exEdits.drop 6).take 1) ex_reads ((at_iff _ _ _).2 (by decide +kernel))
    exact ⟨s, h⟩
  · rintro ⟨r, h⟩
    have := congrArg (fun x => x.get?.isSome) h
    change _ = true at this
    revert this
    decide +kernel

/-- Why a quoted name is not to be replaced by a word: a word needs a separator that a quoted name does not. -/
example : ∃ s, parseDbmlUnchecked k!"Table t { x int\"b\" int }" = .ok s ∧ (∃ x ∈ s.names, x.2.span_range = ⟨15, 18⟩) ∧
    ¬ ∃ s', parseDbmlUnchecked (replaceAt k!"Table t { x int\"b\" int }" ⟨15, 18⟩ k!"b") = .ok s' := by
  refine ⟨_, unchecked_of (by decide +kernel), by decide +kernel, ?_⟩
  rintro ⟨r, h⟩
  have := congrArg (fun x => x.get?.isSome) h
  change _ = true at this
  revert this
  decide +kernel

end Dbml.Props
