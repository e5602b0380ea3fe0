import Verif.Proofs.RsLemmas
import Verif.Model.Analyzer
import Verif.Spec.MapSpan

/-!
# The analyzer looks at positions only to report them

Running the analyzer on an AST with other positions gives the same outcome at the other positions.
-/

namespace Dbml

def IndexedRef.mapSpan (f : Span → Span) (r : IndexedRef) : IndexedRef :=
  { span_range := f r.span_range, rel := r.rel, lhs := r.lhs.mapSpan f, rhs := r.rhs.mapSpan f
    settings := r.settings.map (·.mapSpan f) }

/-- `y` is the outcome `x` at other positions; nothing is said if `x` is a panic about an invalid span. -/
def Nt (g : PError → PError) {α β : Type} (m : α → β) (x : Rs α) (y : Rs β) : Prop :=
  x = .panic .spanUnwrap ∨ y = match x with
    | .ok a => .ok (m a)
    | .err e => .err (g e)
    | .panic s => .panic s
    | .diverge => .diverge

/-- `f` maps spans of the text `i` to spans of the text `i'`. -/
structure Keeps (f : Span → Span) (g : PError → PError) (i i' : Str) : Prop where
  zero : f .zero = .zero
  valid : ∀ sp, sp.valid i = true → (f sp).valid i' = true
  err : ∀ e sp, e ≠ .duplicateProjectSetting → e ≠ .projectSettingNotFound →
    g (.semantic e sp) = .semantic e (f sp)

variable {f : Span → Span} {g : PError → PError} {i i' : Str} {α β γ δ σ : Type}

theorem Nt.ok {m : α → β} {a : α} {b : β} (h : b = m a) : Nt g m (.ok a) (.ok b) := .inr (by rw [h])
theorem Nt.pure {m : α → β} {a : α} {b : β} (h : b = m a) : Nt g m (Pure.pure a) (Pure.pure b) := .inr (by rw [h]; rfl)
theorem Nt.panic {m : α → β} {k : PanicSite} : Nt g m (.panic k) (.panic k) := .inr rfl

theorem Nt.throw (hf : Keeps f g i i') {m : α → β} {e : Err} {sp : Span} (h1 : e ≠ .duplicateProjectSetting)
    (h2 : e ≠ .projectSettingNotFound) : Nt g m (throwErr e sp i) (throwErr e (f sp) i') := by
  unfold throwErr
  cases h : sp.valid i with
  | false => exact .inl rfl
  | true => exact .inr (by simp [hf.valid sp h, hf.err e sp h1 h2])

theorem Nt.bind {m : α → β} {m' : γ → δ} {x : Rs α} {y : Rs β} {k : α → Rs γ} {k' : β → Rs δ}
    (h : Nt g m x y) (hk : ∀ a, Nt g m' (k a) (k' (m a))) : Nt g m' (x >>= k) (y >>= k') := by
  rcases h with rfl | rfl
  · exact .inl rfl
  · cases x with
    | ok a => exact hk a
    | err e => exact .inr rfl
    | panic s => exact .inr rfl
    | diverge => exact .inr rfl

theorem Nt.foldlM {x : α → β} {k : σ → α → Rs σ} {k' : σ → β → Rs σ} (h : ∀ s a, Nt g id (k s a) (k' s (x a))) :
    ∀ (xs : List α) (s : σ), Nt g id (xs.foldlM k s) ((xs.map x).foldlM k' s)
  | [], _ => Nt.pure rfl
  | a :: as, s => by
    rw [List.map_cons, List.foldlM_cons, List.foldlM_cons]
    exact (h s a).bind fun s' => Nt.foldlM h as s'

theorem Nt.forEach {x : α → β} {k : α → Rs Unit} {k' : β → Rs Unit} (h : ∀ a, Nt g id (k a) (k' (x a))) :
    ∀ (xs : List α), Nt g id (Dbml.forEach k xs) (Dbml.forEach k' (xs.map x))
  | [] => Nt.ok rfl
  | a :: as => (h a).bind fun _ => Nt.forEach h as

theorem Nt.mapM {x : α → β} {y : γ → δ} {k : α → Rs γ} {k' : β → Rs δ} (h : ∀ a, Nt g y (k a) (k' (x a))) :
    ∀ (xs : List α), Nt g (List.map y) (xs.mapM k) ((xs.map x).mapM k')
  | [] => by rw [List.map_nil, List.mapM_nil, List.mapM_nil]; exact Nt.pure rfl
  | a :: as => by
    rw [List.map_cons, List.mapM_cons, List.mapM_cons]
    exact (h a).bind fun b => (Nt.mapM h as).bind fun bs => Nt.pure rfl

theorem Nt.ite {m : α → β} {c c' : Prop} [Decidable c] [Decidable c'] {x x' : Rs α} {y y' : Rs β} (hc : c' ↔ c)
    (h1 : c → Nt g m x y) (h2 : ¬ c → Nt g m x' y') : Nt g m (if c then x else x') (if c' then y else y') := by
  by_cases h : c
  · rw [if_pos h, if_pos (hc.2 h)]; exact h1 h
  · rw [if_neg h, if_neg (fun h' => h (hc.1 h'))]; exact h2 h

/-! ## Helpers -/

theorem dupKeys_map {k : α → Str} {k' : β → Str} {x : α → β} (h : ∀ a, k' (x a) = k a) :
    ∀ (xs : List α) (seen : List Str), dupKeys k' seen (xs.map x) = (dupKeys k seen xs).map x
  | [], _ => rfl
  | a :: as, seen => by
    simp only [List.map_cons, dupKeys, h]
    split
    · rw [List.map_cons, dupKeys_map h]
    · exact dupKeys_map h as _

variable (hf : Keeps f g i i')
include hf

theorem nt_attrs (as : List Attribute) :
    Nt g id (checkAttrDuplicateKeys as i) (checkAttrDuplicateKeys (as.map (·.mapSpan f)) i') := by
  unfold checkAttrDuplicateKeys
  rw [dupKeys_map (k := fun a : Attribute => a.key.to_string) (k' := fun a : Attribute => a.key.to_string)
    (x := Attribute.mapSpan f) (fun _ => rfl), List.head?_map]
  cases (dupKeys (fun a : Attribute => a.key.to_string) [] as).head? with
  | none => exact Nt.ok rfl
  | some a => exact Nt.throw hf (by simp) (by simp)

theorem nt_props (as : List Property) :
    Nt g id (checkPropDuplicateKeys as i) (checkPropDuplicateKeys (as.map (·.mapSpan f)) i') := by
  unfold checkPropDuplicateKeys
  rw [dupKeys_map (k := fun a : Property => a.key.to_string) (k' := fun a : Property => a.key.to_string)
    (x := Property.mapSpan f) (fun _ => rfl), List.head?_map]
  cases (dupKeys (fun a : Property => a.key.to_string) [] as).head? with
  | none => exact Nt.ok rfl
  | some a => exact Nt.throw hf (by simp) (by simp)

theorem nt_settings (o : Option (List Attribute)) :
    Nt g id (checkSettings o i) (checkSettings (o.map (List.map (·.mapSpan f))) i') := by
  cases o with
  | none => exact Nt.ok rfl
  | some as => exact nt_attrs hf as

theorem colAttrs (c : Option ColumnSettings) :
    (c.map (·.mapSpan f)).map (·.attributes) = (c.map (·.attributes)).map (List.map (·.mapSpan f)) := by
  cases c <;> rfl

/-! ## The indexer -/

theorem nt_indexCols (cols : List TableColumn) :
    Nt g id (Indexer.indexCols cols i) (Indexer.indexCols (cols.map (·.mapSpan f)) i') := by
  refine Nt.foldlM (fun s c => ?_) cols []
  refine Nt.bind (m := id) ?_ fun _ => ?_
  · have := nt_settings hf (c.settings.map (·.attributes))
    cases hc : c.settings <;> simpa [TableColumn.mapSpan, hc, ColumnSettings.mapSpan] using this
  · exact Nt.ite Iff.rfl (fun _ => Nt.throw hf (by simp) (by simp)) (fun _ => Nt.pure rfl)

theorem schemaOrDefault_map (o : Option Ident) : schemaOrDefault (o.map (·.mapSpan f)) = schemaOrDefault o := by
  cases o <;> rfl

theorem nt_indexTable1 (ix : Indexer) (t : TableBlock) :
    Nt g id (Indexer.indexTable1 ix t i) (Indexer.indexTable1 ix (t.mapSpan f) i') := by
  unfold Indexer.indexTable1
  refine Nt.bind (m := id) ?_ fun _ => ?_
  · have := nt_settings hf (t.settings.map (·.attributes))
    cases hc : t.settings <;> simpa [TableBlock.mapSpan, hc, TableSettings.mapSpan] using this
  · have e1 : schemaOrDefault (t.mapSpan f).ident.schema = schemaOrDefault t.ident.schema :=
      schemaOrDefault_map hf _
    have e2 : (t.mapSpan f).ident.name.to_string = t.ident.name.to_string := rfl
    rw [e1, e2]
    refine Nt.ite Iff.rfl (fun _ => Nt.throw hf (by simp) (by simp)) (fun _ => ?_)
    refine Nt.bind (nt_indexCols hf t.cols) fun cs => ?_
    have e3 : (t.mapSpan f).ident.alias = t.ident.alias.map (·.mapSpan f) := rfl
    rw [e3]
    cases t.ident.alias with
    | none => exact Nt.pure rfl
    | some a => exact Nt.ite Iff.rfl (fun _ => Nt.throw hf (by simp) (by simp)) (fun _ => Nt.pure rfl)

theorem nt_indexTable (ix : Indexer) (ts : List TableBlock) :
    Nt g id (Indexer.indexTable ix ts i) (Indexer.indexTable ix (ts.map (·.mapSpan f)) i') :=
  Nt.foldlM (fun ix t => nt_indexTable1 hf ix t) ts ix

theorem nt_indexEnumValues (vs : List EnumValue) :
    Nt g id (Indexer.indexEnumValues vs i) (Indexer.indexEnumValues (vs.map (·.mapSpan f)) i') := by
  refine Nt.foldlM (fun s c => ?_) vs []
  refine Nt.bind (m := id) ?_ fun _ => ?_
  · have := nt_settings hf (c.settings.map (·.attributes))
    cases hc : c.settings <;> simpa [EnumValue.mapSpan, hc, EnumValueSettings.mapSpan] using this
  · exact Nt.ite Iff.rfl (fun _ => Nt.throw hf (by simp) (by simp)) (fun _ => Nt.pure rfl)

theorem nt_indexEnum1 (ix : Indexer) (e : EnumBlock) :
    Nt g id (Indexer.indexEnum1 ix e i) (Indexer.indexEnum1 ix (e.mapSpan f) i') := by
  unfold Indexer.indexEnum1
  have e1 : schemaOrDefault (e.mapSpan f).ident.schema = schemaOrDefault e.ident.schema :=
    schemaOrDefault_map hf _
  have e2 : (e.mapSpan f).ident.name.to_string = e.ident.name.to_string := rfl
  simp only [e1, e2]
  refine Nt.ite Iff.rfl (fun _ => Nt.throw hf (by simp) (by simp)) (fun _ => ?_)
  exact Nt.bind (nt_indexEnumValues hf e.values) fun cs => Nt.pure rfl

theorem nt_indexEnums (ix : Indexer) (ts : List EnumBlock) :
    Nt g id (Indexer.indexEnums ix ts i) (Indexer.indexEnums ix (ts.map (·.mapSpan f)) i') :=
  Nt.foldlM (fun ix t => nt_indexEnum1 hf ix t) ts ix

theorem nt_groupItem (ix : Indexer) (it : TableGroupItem) :
    Nt g id (Indexer.groupItemIdent ix it i) (Indexer.groupItemIdent ix (it.mapSpan f) i') := by
  unfold Indexer.groupItemIdent
  have e1 : (it.mapSpan f).schema = it.schema.map (·.mapSpan f) := rfl
  rw [e1]
  cases it.schema with
  | some s => exact Nt.ok rfl
  | none =>
    show Nt g id (match ix.resolveAlias it.ident_alias.to_string with
      | some ident => _
      | none => _) (match ix.resolveAlias it.ident_alias.to_string with
      | some ident => _
      | none => _)
    cases ix.resolveAlias it.ident_alias.to_string with
    | some p => exact Nt.ok rfl
    | none => exact Nt.ite Iff.rfl (fun _ => Nt.ok rfl) (fun _ => Nt.throw hf (by simp) (by simp))

theorem nt_indexGroup1 (ix : Indexer) (t : TableGroupBlock) :
    Nt g id (Indexer.indexTableGroup1 ix t i) (Indexer.indexTableGroup1 ix (t.mapSpan f) i') := by
  unfold Indexer.indexTableGroup1
  refine Nt.ite Iff.rfl (fun _ => Nt.throw hf (by simp) (by simp)) (fun _ => ?_)
  refine Nt.bind (m := id) ?_ fun cs => Nt.pure rfl
  refine Nt.foldlM (fun s c => ?_) t.items []
  refine Nt.bind (nt_groupItem hf ix c) fun p => ?_
  exact Nt.ite Iff.rfl (fun _ => Nt.throw hf (by simp) (by simp)) (fun _ => Nt.pure rfl)

theorem nt_indexGroups (ix : Indexer) (ts : List TableGroupBlock) :
    Nt g id (Indexer.indexTableGroups ix ts i) (Indexer.indexTableGroups ix (ts.map (·.mapSpan f)) i') :=
  Nt.foldlM (fun ix t => nt_indexGroup1 hf ix t) ts ix

/-! ## Tables -/

omit hf in
theorem nullConflict_map (as : List Attribute) : nullConflict (as.map (·.mapSpan f)) = nullConflict as := by
  unfold nullConflict
  rw [List.map_map]
  rfl

theorem nt_checkColumn (ti : TableIndexer) (c : TableColumn) :
    Nt g id (checkColumn ti c i) (checkColumn ti (c.mapSpan f) i') := by
  unfold checkColumn
  have e1 : (c.mapSpan f).settings = c.settings.map (·.mapSpan f) := rfl
  rw [e1]
  cases c.settings with
  | none => exact Nt.ok rfl
  | some st =>
    refine Nt.bind (m := id) ?_ fun ti => ?_
    · unfold checkColumnPk
      refine Nt.ite Iff.rfl (fun _ => ?_) (fun _ => Nt.ok rfl)
      refine Nt.ite Iff.rfl (fun _ => Nt.throw hf (by simp) (by simp)) (fun _ => ?_)
      refine Nt.ite Iff.rfl (fun _ => Nt.throw hf (by simp) (by simp)) (fun _ => ?_)
      exact Nt.ite Iff.rfl (fun _ => Nt.throw hf (by simp) (by simp)) (fun _ => Nt.ok rfl)
    · refine Nt.ite ?_ (fun _ => Nt.throw hf (by simp) (by simp)) (fun _ => Nt.pure rfl)
      rw [show (st.mapSpan f).attributes = st.attributes.map (·.mapSpan f) from rfl, nullConflict_map]

omit hf in
theorem any_cols (cols : List TableColumn) (n : Str) :
    ((cols.map (·.mapSpan f)).any fun c => decide (c.name.to_string = n)) =
      cols.any fun c => decide (c.name.to_string = n) := by
  rw [List.any_map]; rfl

theorem nt_indexColsExist (cols : List TableColumn) : ∀ cs : List IndexesColumnType,
    Nt g id (checkIndexCols cols i cs) (checkIndexCols (cols.map (·.mapSpan f)) i' (cs.map (·.mapSpan f)))
  | [] => Nt.ok rfl
  | .string n :: rest => by
    refine Nt.ite ?_ (fun _ => nt_indexColsExist cols rest) (fun _ => Nt.throw hf (by simp) (by simp))
    rw [any_cols]; exact Iff.rfl
  | .expr _ :: rest => nt_indexColsExist cols rest

omit hf in
theorem defNames_map (d : IndexesDef) : IndexedRef.defNames (d.mapSpan f) = IndexedRef.defNames d := by
  unfold IndexedRef.defNames
  show (d.cols.map (·.mapSpan f)).filterMap _ = _
  rw [List.filterMap_map]
  congr 1
  funext c
  cases c <;> rfl

theorem nt_checkIndexDef (ti : TableIndexer) (cols : List TableColumn) (bs : Span) (d : IndexesDef) :
    Nt g id (checkIndexDef ti cols bs d i) (checkIndexDef ti (cols.map (·.mapSpan f)) (f bs) (d.mapSpan f) i') := by
  unfold checkIndexDef
  rw [defNames_map]
  refine Nt.ite ?_ (fun _ => Nt.throw hf (by simp) (by simp)) (fun _ => ?_)
  · show (d.cols.map (·.mapSpan f)).isEmpty = true ↔ _
    rw [List.isEmpty_map]
  · refine Nt.bind (nt_indexColsExist hf cols d.cols) fun _ => ?_
    have e1 : (d.mapSpan f).settings = d.settings.map (·.mapSpan f) := rfl
    rw [e1]
    cases d.settings with
    | none => exact Nt.ite Iff.rfl (fun _ => Nt.throw hf (by simp) (by simp)) (fun _ => Nt.pure rfl)
    | some st =>
      refine Nt.bind (nt_attrs hf st.attributes) fun _ => ?_
      refine Nt.ite Iff.rfl (fun _ => Nt.throw hf (by simp) (by simp)) (fun _ => ?_)
      refine Nt.bind (m := id) ?_ fun ti => ?_
      · unfold checkIndexKey
        rw [defNames_map]
        refine Nt.ite Iff.rfl (fun _ => ?_) (fun _ => ?_)
        · exact Nt.ite Iff.rfl (fun _ => Nt.throw hf (by simp) (by simp)) (fun _ => Nt.ok rfl)
        · refine Nt.ite Iff.rfl (fun _ => ?_) (fun _ => Nt.ok rfl)
          exact Nt.ite Iff.rfl (fun _ => Nt.throw hf (by simp) (by simp)) (fun _ => Nt.ok rfl)
      · unfold checkIndexType
        rw [defNames_map]
        refine Nt.ite Iff.rfl (fun _ => ?_) (fun _ => Nt.ok rfl)
        exact Nt.ite Iff.rfl (fun _ => Nt.throw hf (by simp) (by simp)) (fun _ => Nt.ok rfl)

theorem nt_checkTable (t : TableBlock) : Nt g id (checkTable t i) (checkTable (t.mapSpan f) i') := by
  unfold checkTable
  refine Nt.bind (Nt.foldlM (fun ti c => nt_checkColumn hf ti c) t.cols {}) fun ti => ?_
  have e1 : (t.mapSpan f).indexes = t.indexes.map (·.mapSpan f) := rfl
  rw [e1]
  cases t.indexes with
  | none => exact Nt.pure rfl
  | some b =>
    exact Nt.bind (Nt.foldlM (fun ti d => nt_checkIndexDef hf ti t.cols b.span_range d) b.defs ti) fun _ =>
      Nt.pure rfl

/-! ## Columns -/

theorem nt_typeArgs (raw : Str) (t : ColumnTypeName) (ty : ColumnType) :
    Nt g id (checkTypeArgs raw t ty i) (checkTypeArgs raw t (ty.mapSpan f) i') := by
  unfold checkTypeArgs
  refine Nt.ite Iff.rfl (fun _ => Nt.ok rfl) (fun _ => ?_)
  refine Nt.ite Iff.rfl (fun _ => Nt.throw hf (by simp) (by simp)) (fun _ => ?_)
  exact Nt.ite Iff.rfl (fun _ => Nt.ok rfl) (fun _ => Nt.throw hf (by simp) (by simp))

omit hf in
theorem nt_defaultSpan (as : List Attribute) :
    Nt g f (defaultSpan as) (defaultSpan (as.map (·.mapSpan f))) := by
  unfold defaultSpan
  rw [List.find?_map]
  show Nt g f _ (match (as.find? fun a => decide (a.key.to_string = k!"default")).map (·.mapSpan f) with
    | some a => _
    | none => _)
  cases as.find? fun a => decide (a.key.to_string = k!"default") with
  | none => exact Nt.panic
  | some a =>
    show Nt g f (match a.value with
      | some v => _
      | none => _) (match a.value.map (·.mapSpan f) with
      | some v => _
      | none => _)
    cases a.value with
    | none => exact Nt.panic
    | some v => exact Nt.ok rfl

theorem nt_enumParts (raw : Str) (sp : Span) : Nt g id (enumParts raw sp i) (enumParts raw (f sp) i') := by
  unfold enumParts
  split
  · exact Nt.ok rfl
  · exact Nt.ok rfl
  · exact Nt.throw hf (by simp) (by simp)

theorem nt_enumDefault (ix : Indexer) (es : Option Str) (en : Str) (v : Value) (s1 s2 : Span) :
    Nt g id (checkEnumDefault ix es en v s1 s2 i) (checkEnumDefault ix es en v (f s1) (f s2) i') := by
  unfold checkEnumDefault
  split
  · exact Nt.throw hf (by simp) (by simp)
  · exact Nt.throw hf (by simp) (by simp)
  · exact Nt.ite Iff.rfl (fun _ => Nt.throw hf (by simp) (by simp)) (fun _ => Nt.ok rfl)

theorem nt_resolveType (ix : Indexer) (c : TableColumn) :
    Nt g id (resolveType ix c i) (resolveType ix (c.mapSpan f) i') := by
  unfold resolveType
  have e1 : (c.mapSpan f).type.type_name = c.type.type_name := rfl
  rw [e1]
  cases c.type.type_name with
  | raw r =>
    simp only
    cases ColumnTypeName.fromStr r with
    | some t => exact Nt.bind (nt_typeArgs hf r t c.type) fun _ => Nt.pure rfl
    | none =>
      refine Nt.bind (nt_enumParts hf r c.type.span_range) fun p => ?_
      have e2 : (c.mapSpan f).settings = c.settings.map (·.mapSpan f) := rfl
      rw [e2]
      cases c.settings with
      | none => exact Nt.pure rfl
      | some st =>
        obtain ⟨a, b, c1, c2, c3, c4, c5, c6, c7⟩ := st
        cases c6 with
        | none => exact Nt.pure rfl
        | some v =>
          exact Nt.bind (nt_defaultSpan (g := g) b) fun sp =>
            Nt.bind (nt_enumDefault hf ix p.1 p.2 v _ sp) fun _ => Nt.pure rfl
  | _ => exact Nt.panic

theorem nt_checkDefault (c : TableColumn) (st : ColumnSettings) (tn : ColumnTypeName) (v : Value) (sp : Span) :
    Nt g id (checkDefault c st tn v sp i) (checkDefault (c.mapSpan f) (st.mapSpan f) tn v (f sp) i') := by
  unfold checkDefault
  cases v with
  | string s =>
    have h : ∀ p, Nt g id (do
          if ← firstArgMatches c.type.args p then throwErr (.invalidDefaultValue s c.type.raw) sp i else return ())
        (do if ← firstArgMatches c.type.args p then throwErr (.invalidDefaultValue s c.type.raw) (f sp) i' else return ()) := by
      intro p
      refine Nt.bind (m := id) ?_ fun b => ?_
      · unfold firstArgMatches
        split
        · exact Nt.panic
        · exact Nt.ok rfl
        · exact Nt.ok rfl
      · exact Nt.ite Iff.rfl (fun _ => Nt.throw hf (by simp) (by simp)) (fun _ => Nt.pure rfl)
    cases tn <;> first | exact Nt.ok rfl | exact h _
  | integer n =>
    cases tn <;> first
      | exact Nt.ok rfl
      | exact Nt.ite Iff.rfl (fun _ => Nt.throw hf (by simp) (by simp)) (fun _ => Nt.ok rfl)
  | bool b => exact Nt.ite Iff.rfl (fun _ => Nt.ok rfl) (fun _ => Nt.throw hf (by simp) (by simp))
  | null => exact Nt.ite Iff.rfl (fun _ => Nt.ok rfl) (fun _ => Nt.throw hf (by simp) (by simp))
  | _ => exact Nt.ok rfl

theorem nt_colDefault (c : TableColumn) (tn : ColumnTypeName) :
    Nt g id (checkColDefault c tn i) (checkColDefault (c.mapSpan f) tn i') := by
  unfold checkColDefault
  have e2 : (c.mapSpan f).settings = c.settings.map (·.mapSpan f) := rfl
  rw [e2]
  cases hs : c.settings with
  | none => exact Nt.ok rfl
  | some st =>
    show Nt g id (match st.default with
      | some v => _
      | none => _) (match st.default with
      | some v => _
      | none => _)
    cases st.default with
    | none => exact Nt.ok rfl
    | some v =>
      exact Nt.bind (nt_defaultSpan (g := g) st.attributes) fun sp => nt_checkDefault hf c st tn v sp

theorem nt_typeColumn (ix : Indexer) (c : TableColumn) :
    Nt g (TableColumn.mapSpan f) (typeColumn ix i c) (typeColumn ix i' (c.mapSpan f)) :=
  Nt.bind (nt_resolveType hf ix c) fun tn => Nt.bind (nt_colDefault hf c tn) fun _ => Nt.pure rfl

theorem nt_typeTable (ix : Indexer) (t : TableBlock) :
    Nt g (TableBlock.mapSpan f) (typeTable ix i t) (typeTable ix i' (t.mapSpan f)) :=
  Nt.bind (Nt.mapM (fun c => nt_typeColumn hf ix c) t.cols) fun _ => Nt.pure rfl

/-! ## References -/

omit hf in
theorem resolve_map (ix : Indexer) (r : RefIdent) :
    ix.resolveRefAlias (r.mapSpan f) = (ix.resolveRefAlias r).mapSpan f := by
  unfold Indexer.resolveRefAlias
  show (match ix.resolveAlias r.table.to_string with
    | some (schema, table) => _
    | none => _) = _
  cases ix.resolveAlias r.table.to_string <;> rfl

omit hf in
theorem strs_map (is : List Ident) : (is.map (·.mapSpan f)).map (·.to_string) = is.map (·.to_string) := by
  rw [List.map_map]; rfl

theorem nt_lookup (ix : Indexer) (s : Option Ident) (t : Ident) (fs : List Ident) :
    Nt g id (ix.lookupTableFields s t fs i)
      (ix.lookupTableFields (s.map (·.mapSpan f)) (t.mapSpan f) (fs.map (·.mapSpan f)) i') := by
  unfold Indexer.lookupTableFields
  have e1 : ((s.map (·.mapSpan f)).map (·.span_range)).getD .zero = f ((s.map (·.span_range)).getD .zero) := by
    cases s
    · exact hf.zero.symm
    · rfl
  simp only [schemaOrDefault_map hf, e1]
  cases mapGet ix.schema_map (schemaOrDefault s) with
  | none => exact Nt.throw hf (by simp) (by simp)
  | some b =>
    show Nt g id (match mapGet b.table_map t.to_string with
      | some colSet => _
      | none => _) (match mapGet b.table_map t.to_string with
      | some colSet => _
      | none => _)
    cases mapGet b.table_map t.to_string with
    | none => exact Nt.throw hf (by simp) (by simp)
    | some cs =>
      simp only
      rw [List.filter_map, List.head?_map]
      show Nt g id _ (match (fs.filter fun v => !cs.contains v.to_string).head?.map (·.mapSpan f) with
        | some first => _
        | none => _)
      cases (fs.filter fun v => !cs.contains v.to_string).head? with
      | none => exact Nt.ok rfl
      | some v => exact Nt.throw hf (by simp) (by simp)

omit hf in
theorem optStr_map (o : Option Ident) : (o.map (·.mapSpan f)).map (·.to_string) = o.map (·.to_string) := by
  cases o <;> rfl

theorem nt_findRefTable (ts : List TableBlock) (r : RefIdent) :
    Nt g (TableBlock.mapSpan f) (IndexedRef.findRefTable ts r i)
      (IndexedRef.findRefTable (ts.map (·.mapSpan f)) (r.mapSpan f) i') := by
  unfold IndexedRef.findRefTable
  rw [List.find?_map]
  have : ((fun t : TableBlock => decide (t.ident.schema.map (·.to_string) = (r.mapSpan f).schema.map (·.to_string)) &&
      decide (t.ident.name.to_string = (r.mapSpan f).table.to_string)) ∘ (·.mapSpan f)) =
      fun t : TableBlock => decide (t.ident.schema.map (·.to_string) = r.schema.map (·.to_string)) &&
      decide (t.ident.name.to_string = r.table.to_string) := by
    funext t
    simp only [Function.comp_apply, TableBlock.mapSpan, TableIdent.mapSpan, RefIdent.mapSpan, optStr_map]
    rfl
  rw [this]
  cases ts.find? _ with
  | none => exact Nt.throw hf (by simp) (by simp)
  | some t => exact Nt.ok rfl

theorem nt_findRefCol (col : Ident) (t : TableBlock) :
    Nt g (TableColumn.mapSpan f) (IndexedRef.findRefCol col t i)
      (IndexedRef.findRefCol (col.mapSpan f) (t.mapSpan f) i') := by
  unfold IndexedRef.findRefCol
  show Nt g _ _ (match (t.cols.map (·.mapSpan f)).find? _ with
    | some c => _
    | none => _)
  rw [List.find?_map]
  show Nt g _ _ (match (t.cols.find? fun c => decide (c.name.to_string = col.to_string)).map (·.mapSpan f) with
    | some c => _
    | none => _)
  cases t.cols.find? fun c => decide (c.name.to_string = col.to_string) with
  | none => exact Nt.throw hf (by simp) (by simp)
  | some t => exact Nt.ok rfl

omit hf in
theorem colIsKey_map (c : TableColumn) : IndexedRef.colIsKey (c.mapSpan f) = IndexedRef.colIsKey c := by
  unfold IndexedRef.colIsKey
  show (match c.settings.map (·.mapSpan f) with
    | some s => _
    | none => _) = _
  cases c.settings <;> rfl

omit hf in
theorem isValidComposite_map (cs : List Ident) (ix : Option IndexesBlock) :
    IndexedRef.isValidComposite (cs.map (·.mapSpan f)) (ix.map (·.mapSpan f)) = IndexedRef.isValidComposite cs ix := by
  cases ix with
  | none => rfl
  | some b =>
    show (b.defs.map (·.mapSpan f)).any _ = b.defs.any _
    rw [List.any_map]
    congr 1
    funext d
    simp only [Function.comp_apply, defNames_map, strs_map, List.length_map]
    obtain ⟨a, b, c⟩ := d
    cases c <;> simp [IndexesDef.mapSpan, IndexesSettings.mapSpan]

theorem nt_throwKeyErr (e : Option (InvalidForeignKeyErr × Span)) :
    Nt g id (IndexedRef.throwKeyErr e i) (IndexedRef.throwKeyErr (e.map fun p => (p.1, f p.2)) i') := by
  cases e with
  | none => exact Nt.ok rfl
  | some p => exact Nt.throw hf (by simp) (by simp)

theorem nt_fieldPair (r : IndexedRef) (lt rt : TableBlock) (n : Nat) (a b : Ident) :
    Nt g id (r.checkFieldPair lt rt n a b i)
      ((r.mapSpan f).checkFieldPair (lt.mapSpan f) (rt.mapSpan f) n (a.mapSpan f) (b.mapSpan f) i') := by
  unfold IndexedRef.checkFieldPair
  refine Nt.bind (nt_findRefCol hf a lt) fun lc => Nt.bind (nt_findRefCol hf b rt) fun rc => ?_
  refine Nt.ite Iff.rfl (fun _ => Nt.throw hf (by simp) (by simp)) (fun _ => ?_)
  refine Nt.ite Iff.rfl (fun _ => ?_) (fun _ => Nt.pure rfl)
  rw [colIsKey_map, colIsKey_map]
  have : (r.mapSpan f).singleKeyErr (IndexedRef.colIsKey lc) (IndexedRef.colIsKey rc) =
      (r.singleKeyErr (IndexedRef.colIsKey lc) (IndexedRef.colIsKey rc)).map fun p => (p.1, f p.2) := by
    unfold IndexedRef.singleKeyErr
    rw [show (r.mapSpan f).rel = r.rel from rfl]
    cases r.rel <;> cases IndexedRef.colIsKey lc <;> cases IndexedRef.colIsKey rc <;> rfl
  rw [this]
  exact nt_throwKeyErr hf _

theorem nt_fieldPairs (r : IndexedRef) (lt rt : TableBlock) (n : Nat) : ∀ ps : List (Ident × Ident),
    Nt g id (r.checkFieldPairs lt rt n i ps)
      ((r.mapSpan f).checkFieldPairs (lt.mapSpan f) (rt.mapSpan f) n i' (ps.map fun p => (p.1.mapSpan f, p.2.mapSpan f)))
  | [] => Nt.ok rfl
  | (a, b) :: ps => Nt.bind (nt_fieldPair hf r lt rt n a b) fun _ => nt_fieldPairs r lt rt n ps

theorem nt_refType (r : IndexedRef) (ts : List TableBlock) (ix : Indexer) :
    Nt g id (r.validateRefType ts ix i) ((r.mapSpan f).validateRefType (ts.map (·.mapSpan f)) ix i') := by
  unfold IndexedRef.validateRefType
  rw [show (r.mapSpan f).lhs = r.lhs.mapSpan f from rfl, show (r.mapSpan f).rhs = r.rhs.mapSpan f from rfl,
    resolve_map, resolve_map]
  simp only
  have e1 : ∀ x : RefIdent, (x.mapSpan f).compositions = x.compositions.map (·.mapSpan f) := fun _ => rfl
  simp only [e1, List.length_map]
  refine Nt.ite Iff.rfl (fun _ => Nt.throw hf (by simp) (by simp)) (fun _ => ?_)
  refine Nt.bind (nt_lookup hf ix _ _ _) fun _ => Nt.bind (nt_lookup hf ix _ _ _) fun _ =>
    Nt.bind (nt_findRefTable hf ts _) fun lt => Nt.bind (nt_findRefTable hf ts _) fun rt => ?_
  refine Nt.bind (m := id) ?_ fun _ => ?_
  · rw [List.zip_map]
    exact nt_fieldPairs hf r lt rt _ _
  · refine Nt.ite Iff.rfl (fun _ => ?_) (fun _ => Nt.pure rfl)
    rw [show (lt.mapSpan f).indexes = lt.indexes.map (·.mapSpan f) from rfl,
      show (rt.mapSpan f).indexes = rt.indexes.map (·.mapSpan f) from rfl, isValidComposite_map, isValidComposite_map]
    have : ∀ a b, (r.mapSpan f).compositeKeyErr a b = (r.compositeKeyErr a b).map fun p => (p.1, f p.2) := by
      intro a b
      unfold IndexedRef.compositeKeyErr
      rw [show (r.mapSpan f).rel = r.rel from rfl]
      cases r.rel <;> cases a <;> cases b <;> rfl
    rw [this]
    exact nt_throwKeyErr hf _

omit hf in
theorem eqIdent_map (l r : RefIdent) : IndexedRef.eqIdent (l.mapSpan f) (r.mapSpan f) = IndexedRef.eqIdent l r := by
  unfold IndexedRef.eqIdent
  simp only [RefIdent.mapSpan, optStr_map, strs_map]
  rfl

omit hf in
theorem occupy_map (r o : IndexedRef) (ix : Indexer) :
    (r.mapSpan f).occupySameColumn (o.mapSpan f) ix = r.occupySameColumn o ix := by
  obtain ⟨s1, k1, a1, b1, t1⟩ := r
  obtain ⟨s2, k2, a2, b2, t2⟩ := o
  cases k1 <;> cases k2 <;>
    simp [IndexedRef.occupySameColumn, IndexedRef.mapSpan, IndexedRef.occupiedIdent, resolve_map, eqIdent_map]

theorem nt_checkRef (ts : List TableBlock) (ix : Indexer) (rs : List IndexedRef) (r : IndexedRef) :
    Nt g id (checkRef ts ix rs i r)
      (checkRef (ts.map (·.mapSpan f)) ix (rs.map (·.mapSpan f)) i' (r.mapSpan f)) := by
  unfold checkRef
  refine Nt.bind (m := id) ?_ fun _ => Nt.bind (nt_refType hf r ts ix) fun _ => ?_
  · have := nt_settings hf (r.settings.map (·.attributes))
    cases hc : r.settings <;> simpa [IndexedRef.mapSpan, hc, RefSettings.mapSpan] using this
  · refine Nt.ite ?_ (fun _ => Nt.throw hf (by simp) (by simp)) (fun _ => Nt.pure rfl)
    rw [List.filter_map, List.length_map]
    have : ((fun o => (r.mapSpan f).occupySameColumn o ix) ∘ (·.mapSpan f)) = fun o => r.occupySameColumn o ix := by
      funext o
      exact occupy_map r o ix
    rw [this]

omit hf in
theorem inlineRefs_map (ts : List TableBlock) :
    inlineRefs (ts.map (·.mapSpan f)) = (inlineRefs ts).map (·.mapSpan f) := by
  unfold inlineRefs
  rw [List.flatMap_map, List.map_flatMap]
  congr 1
  funext t
  show (t.cols.map (·.mapSpan f)).flatMap _ = _
  rw [List.flatMap_map, List.map_flatMap]
  congr 1
  funext c
  unfold columnRefs IndexedRef.fromInline
  rw [List.map_map]
  have : (((c.mapSpan f).settings.map (·.refs)).getD []) = ((c.settings.map (·.refs)).getD []).map (·.mapSpan f) := by
    obtain ⟨_, _, _, s⟩ := c
    cases s <;> rfl
  rw [this, List.map_map]
  rfl

omit hf in
theorem blocks_map {p : TopLevelBlock → Option α} {m : α → α} (h : ∀ b : TopLevelBlock, p (b.mapSpan f) = (p b).map m)
    (bs : List TopLevelBlock) : (bs.map (·.mapSpan f)).filterMap p = (bs.filterMap p).map m := by
  rw [List.filterMap_map, List.map_filterMap]
  congr 1
  funext b
  exact h b

/-- The analysis behind the project checks, with other positions. -/
theorem nt_analyze (s : SchemaBlock) (hi : s.input = i) (sp : Span)
    (hp : ∀ e, e = .duplicateProjectSetting ∨ e = .projectSettingNotFound →
      Nt g (α := Unit) (β := Unit) id (throwErr e s.span_range i) (throwErr e sp i')) :
    Nt g (fun a => { indexed_refs := a.indexed_refs.map (·.mapSpan f), indexer := a.indexer }) (analyze s)
      (analyze { span_range := sp, input := i', blocks := s.blocks.map (·.mapSpan f) }) := by
  have eT : SchemaBlock.tables { span_range := sp, input := i', blocks := s.blocks.map (·.mapSpan f) } =
      s.tables.map (·.mapSpan f) := blocks_map (fun b => by cases b <;> rfl) _
  have eP : SchemaBlock.projects { span_range := sp, input := i', blocks := s.blocks.map (·.mapSpan f) } =
      s.projects.map (·.mapSpan f) := blocks_map (fun b => by cases b <;> rfl) _
  have eG : SchemaBlock.table_groups { span_range := sp, input := i', blocks := s.blocks.map (·.mapSpan f) } =
      s.table_groups.map (·.mapSpan f) := blocks_map (fun b => by cases b <;> rfl) _
  have eR : SchemaBlock.refs { span_range := sp, input := i', blocks := s.blocks.map (·.mapSpan f) } =
      s.refs.map (·.mapSpan f) := blocks_map (fun b => by cases b <;> rfl) _
  have eE : SchemaBlock.enums { span_range := sp, input := i', blocks := s.blocks.map (·.mapSpan f) } =
      s.enums.map (·.mapSpan f) := blocks_map (fun b => by cases b <;> rfl) _
  unfold analyze
  simp only [eT, eP, eG, eR, eE, hi]
  refine Nt.bind (m := id) ?_ fun _ => ?_
  · unfold checkProject
    refine Nt.ite (by rw [List.length_map]) (fun _ => hp _ (.inl rfl)) (fun _ => ?_)
    rw [List.head?_map]
    cases s.projects.head? with
    | none => exact hp _ (.inr rfl)
    | some p => exact nt_props hf p.properties
  · refine Nt.bind (nt_indexTable hf {} _) fun ix => Nt.bind (nt_indexEnums hf _ _) fun ix =>
      Nt.bind (nt_indexGroups hf _ _) fun ix => Nt.bind (Nt.forEach (fun t => nt_checkTable hf t) _) fun _ =>
      Nt.bind (Nt.mapM (fun t => nt_typeTable hf ix t) s.tables) fun ts => ?_
    have eI : (s.refs.map (·.mapSpan f)).map IndexedRef.ofRefBlock ++ inlineRefs (s.tables.map (·.mapSpan f)) =
        (s.refs.map IndexedRef.ofRefBlock ++ inlineRefs s.tables).map (·.mapSpan f) := by
      rw [List.map_append, inlineRefs_map, List.map_map, List.map_map]
      rfl
    simp only [eI]
    exact Nt.bind (Nt.forEach (fun r => nt_checkRef hf ts ix _ r) _) fun _ => Nt.pure rfl

end Dbml
