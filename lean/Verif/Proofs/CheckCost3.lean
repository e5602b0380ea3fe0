import Verif.Proofs.CheckCost2

/-!
# Bounds for the instrumented analysis: tables and types
-/

namespace Dbml

/-- The sizes of what is remembered about a table. -/
structure TiBd (w1 w2 : Nat) (ti : TableIndexer) : Prop where
  uniques : (ti.unique_list.map fun u => u.length + 1).sum ≤ w1
  indexed : ti.indexed_list.length ≤ w2

theorem defNames_length (d : IndexesDef) : (IndexedRef.defNames d).length ≤ d.cols.length := List.length_filterMap_le _ _

theorem indexCol_pos (c : IndexesColumnType) : 1 ≤ Size.indexCol c := by cases c <;> simp only [Size.indexCol] <;> omega

theorem indexDef_cols (d : IndexesDef) : d.cols.length + 1 ≤ Size.indexDef d := by
  have := length_le (l := d.cols) indexCol_pos
  unfold Size.indexDef
  omega

theorem lookup_mem {α β : Type} [BEq α] {k : α} {v : β} : ∀ m : List (α × β), m.lookup k = some v → ∃ e ∈ m, e.2 = v
  | [], h => by simp at h
  | (x, y) :: m, h => by
    simp only [List.lookup_cons] at h
    split at h
    · injection h with h; exact ⟨(x, y), by simp, h⟩
    · obtain ⟨e, he, h⟩ := lookup_mem m h
      exact ⟨e, by simp [he], h⟩

theorem value_pos (v : Value) : 1 ≤ Size.value v := by cases v <;> simp only [Size.value] <;> omega

section
variable {M : Nat} {input : Str} (hM : input.length + 1 ≤ M)
include hM

theorem checkColumnPkC_le {ti : TableIndexer} {w1 w2 : Nat} (c : TableColumn) (s : ColumnSettings) (h : TiBd w1 w2 ti) :
    Runs (checkColumnPkC ti c s input) (4 + M) (TiBd w1 w2) := by
  unfold checkColumnPkC
  refine Runs.tick (by omega) (Runs.ite (fun _ => ?_) fun _ => Runs.pure h)
  refine Runs.ite (fun _ => Runs.throw (by omega)) fun _ => Runs.ite (fun _ => Runs.throw (by omega)) fun _ =>
    Runs.ite (fun _ => Runs.throw (by omega)) fun _ => Runs.pure ⟨h.1, h.2⟩

theorem checkColumnC_le {ti : TableIndexer} {w : Nat} (c : TableColumn) (hc : Size.column c ≤ M) (h : TiBd w w ti) :
    Runs (checkColumnC ti c input) (12 * (Size.column c * M)) (TiBd (w + 2) (w + 2)) := by
  have h1 : 1 ≤ Size.column c := column_pos c
  have hP : M ≤ Size.column c * M := Nat.le_mul_of_pos_left M h1
  unfold checkColumnC
  have hset := col_attrs c
  split
  · exact Runs.charge (by omega) fun v hv => by cases hv; exact ⟨by have := h.1; omega, by have := h.2; omega⟩
  · rename_i s hs
    rw [hs] at hset
    have ha : s.attributes.length + 1 ≤ Size.column c := hset _ rfl
    refine Runs.bind (m := 7 * M) (checkColumnPkC_le hM c s h) (fun ti' h' => ?_) (by omega)
    refine Runs.tick (by omega) (Runs.tick (by omega) (Runs.ite (fun _ => Runs.throw (by omega)) fun _ => Runs.pure ?_))
    have hu := h'.uniques
    have hi := h'.indexed
    split
    · refine ⟨?_, by simp only; omega⟩
      simp only [List.map_append, List.sum_append, List.map_cons, List.map_nil, List.sum_cons, List.sum_nil, List.length_cons, List.length_nil]
      omega
    · exact ⟨by omega, by omega⟩

theorem checkIndexColsC_le (cols : List TableColumn) (hc : cols.length + 1 ≤ M) : ∀ l : List IndexesColumnType,
    Runs (checkIndexColsC cols input l) ((l.length + 1) * M) fun _ => True
  | [] => by
    unfold checkIndexColsC
    exact Runs.tick' (by simp; omega) trivial
  | .string name :: rest => by
    have ih := checkIndexColsC_le cols hc rest
    unfold checkIndexColsC
    have hP : M ≤ (rest.length + 1) * M := Nat.le_mul_of_pos_left M (by omega)
    have hE : ((IndexesColumnType.string name :: rest).length + 1) * M = (rest.length + 1) * M + M := by
      rw [List.length_cons, Nat.add_mul _ 1, Nat.one_mul]
    rw [hE]
    refine Runs.tick (by omega) (Runs.ite (fun _ => ?_) fun _ => Runs.throw (by omega))
    exact ih.mono (by omega) fun _ h => h
  | .expr name :: rest => by
    have ih := checkIndexColsC_le cols hc rest
    unfold checkIndexColsC
    have hE : ((IndexesColumnType.expr name :: rest).length + 1) * M = (rest.length + 1) * M + M := by
      rw [List.length_cons, Nat.add_mul _ 1, Nat.one_mul]
    rw [hE]
    exact Runs.tick (by omega) (ih.mono (by omega) fun _ h => h)

omit hM in
theorem uniques_steps (n k : Nat) (hn : n ≤ k) : ∀ us : List (List Str),
    (us.map fun u => 1 + n * lookSteps u).sum ≤ (k + 1) * (us.map fun u => u.length + 1).sum
  | [] => by simp
  | u :: us => by
    have ih := uniques_steps n k hn us
    simp only [List.map_cons, List.sum_cons] at ih ⊢
    rw [Nat.mul_add (k + 1)]
    have h1 : n * lookSteps u ≤ k * (u.length + 1) := Nat.mul_le_mul hn (look_le u)
    have h2 : (k + 1) * (u.length + 1) = k * (u.length + 1) + (u.length + 1) := by rw [Nat.add_mul, Nat.one_mul]
    generalize n * lookSteps u = x at *
    generalize (k + 1) * (u.length + 1) = y at *
    omega

theorem checkIndexKeyC_le {ti : TableIndexer} {w1 w2 : Nat} (d : IndexesDef) (s : IndexesSettings) (hd : d.cols.length + 1 ≤ M) (hw : w1 ≤ M)
    (h : TiBd w1 w2 ti) : Runs (checkIndexKeyC ti d s input) (3 * ((d.cols.length + 1) * M)) (TiBd (w1 + (d.cols.length + 1)) w2) := by
  have hn := defNames_length d
  have hP : M ≤ (d.cols.length + 1) * M := Nat.le_mul_of_pos_left M (by omega)
  have hu := h.uniques
  have hi := h.indexed
  have hs := Nat.le_trans (uniques_steps _ _ hn ti.unique_list) (Nat.mul_le_mul_left (d.cols.length + 1) (Nat.le_trans hu hw))
  unfold checkIndexKeyC
  refine Runs.tick (by omega) (Runs.ite (fun _ => ?_) fun _ => Runs.ite (fun _ => ?_) fun _ => ?_)
  · refine Runs.ite (fun _ => Runs.throw (by omega)) fun _ => Runs.pure ⟨by simp only; omega, by simp only; omega⟩
  · refine Runs.tick (by omega) (Runs.ite (fun _ => Runs.throw (by omega)) fun _ => Runs.pure ⟨?_, by simp only; omega⟩)
    simp only [List.map_append, List.sum_append, List.map_cons, List.map_nil, List.sum_cons, List.sum_nil]
    omega
  · exact Runs.pure ⟨by omega, by omega⟩

theorem checkIndexTypeC_le {ti : TableIndexer} {w1 w2 : Nat} (d : IndexesDef) (s : IndexesSettings) (hd : d.cols.length + 1 ≤ M) (hw : w2 ≤ M)
    (h : TiBd w1 w2 ti) : Runs (checkIndexTypeC ti d s input) (4 * ((d.cols.length + 1) * M)) (TiBd w1 (w2 + 1)) := by
  have hn := defNames_length d
  have hP : M ≤ (d.cols.length + 1) * M := Nat.le_mul_of_pos_left M (by omega)
  have hu := h.uniques
  have hi := h.indexed
  have hs : ti.indexed_list.length * ((IndexedRef.defNames d).length + 2) ≤ M * (d.cols.length + 1 + 1) :=
    Nat.mul_le_mul (by omega) (by omega)
  rw [Nat.mul_add M, Nat.mul_one, Nat.mul_comm M] at hs
  unfold checkIndexTypeC
  refine Runs.tick (by omega) (Runs.ite (fun _ => ?_) fun _ => Runs.pure ⟨hu, by omega⟩)
  refine Runs.tick (by omega) (Runs.ite (fun _ => Runs.throw (by omega)) fun _ => Runs.pure ⟨hu, ?_⟩)
  simp only [List.length_append, List.length_cons, List.length_nil]
  omega

theorem checkIndexDefC_le {ti : TableIndexer} {w : Nat} (cols : List TableColumn) (sp : Span) (d : IndexesDef) (hd : Size.indexDef d ≤ M)
    (hc : cols.length + 1 ≤ M) (hw : w + (d.cols.length + 1) ≤ M) (h : TiBd w w ti) :
    Runs (checkIndexDefC ti cols sp d input) (12 * (Size.indexDef d * M)) (TiBd (w + (d.cols.length + 1)) (w + (d.cols.length + 1))) := by
  have hk := indexDef_cols d
  have hn := defNames_length d
  have hP : M ≤ (d.cols.length + 1) * M := Nat.le_mul_of_pos_left M (by omega)
  have hQ : (d.cols.length + 1) * M ≤ Size.indexDef d * M := Nat.mul_le_mul_right M hk
  unfold checkIndexDefC
  refine Runs.ite (fun _ => Runs.throw (by omega)) fun _ => ?_
  refine Runs.tick (by omega) (Runs.bind (m := 10 * (Size.indexDef d * M)) (checkIndexColsC_le hM cols hc _) (fun _ _ => ?_) (by omega))
  split
  · rename_i s hs
    have ha : s.attributes.length + 1 ≤ Size.indexDef d := attrs_lt (by
      unfold Size.indexDef; rw [hs]; simp only [Size.opt, Size.indexSettings]; omega)
    refine Runs.bind (m := 9 * (Size.indexDef d * M)) ((checkAttrC_le hM (as := s.attributes) (by omega)).mono (Nat.mul_le_mul_right M ha) fun _ h => h)
      (fun _ _ => ?_) (by omega)
    have : (d.cols.length + 1) * M ≤ Size.indexDef d * M := hQ
    by_cases h3 : 3 ≤ Size.indexDef d * M
    · refine Runs.tick (by omega) (Runs.ite (fun _ => Runs.throw (by omega)) fun _ => ?_)
      refine Runs.bind (m := 4 * ((d.cols.length + 1) * M)) (checkIndexKeyC_le hM d s (by omega) (by omega) h) (fun ti' h' => ?_) (by omega)
      refine (checkIndexTypeC_le hM d s (by omega) (by omega) h').mono (by omega) fun v hv => ⟨hv.1, ?_⟩
      have := hv.2
      omega
    · have hM1 : 1 ≤ M := by omega
      refine Runs.tick (by omega) (Runs.ite (fun _ => Runs.throw (by omega)) fun _ => ?_)
      exfalso
      have h2 : 2 ≤ Size.indexDef d * M := by
        have : 2 * 1 ≤ Size.indexDef d * M := Nat.mul_le_mul (by
          unfold Size.indexDef; rw [hs]; simp only [Size.opt, Size.indexSettings]; omega) hM1
        omega
      have h4 : 3 ≤ Size.indexDef d * M := by
        have h5 : 2 ≤ Size.indexDef d := by
          unfold Size.indexDef; rw [hs]; simp only [Size.opt, Size.indexSettings]; omega
        have h6 : 2 ≤ M := by omega
        have : 2 * 2 ≤ Size.indexDef d * M := Nat.mul_le_mul h5 h6
        omega
      omega
  · have hs : ti.indexed_list.length * ((IndexedRef.defNames d).length + 2) ≤ M * (d.cols.length + 1 + 1) :=
      Nat.mul_le_mul (by have := h.indexed; omega) (by omega)
    rw [Nat.mul_add M, Nat.mul_one, Nat.mul_comm M] at hs
    have hu := h.uniques
    have hi := h.indexed
    refine Runs.tick (by omega) (Runs.ite (fun _ => Runs.throw (by omega)) fun _ => Runs.pure ⟨by simp only; omega, ?_⟩)
    simp only [List.length_append, List.length_cons, List.length_nil]
    omega

theorem checkTableC_le (t : TableBlock) (ht : Size.table t + 1 ≤ M) :
    Runs (checkTableC t input) (13 * (Size.table t * M)) fun _ => True := by
  have h1 : 1 ≤ Size.table t := by unfold Size.table; omega
  have hP : M ≤ Size.table t * M := Nat.le_mul_of_pos_left M h1
  have hl := length_le (l := t.cols) column_pos
  have h2 : (t.cols.map fun _ => 2).sum ≤ Size.list Size.column t.cols := sum_le fun c _ => by
    unfold Size.column Size.ident; omega
  unfold checkTableC
  have hcols := Runs.foldlM (f := fun ti (c : TableColumn) => checkColumnC ti c input) (fun w ti => TiBd w w ti)
    (b := fun c => 12 * (Size.column c * M)) (d := fun _ => 2) (W := M) t.cols 0 {} (fun c hc w s hw hs =>
      checkColumnC_le hM c (by have := mem_le (f := Size.column) hc; unfold Size.table at ht; omega) hs)
    (by unfold Size.table at ht; omega) ⟨by simp, by simp⟩
  rw [sum_mul] at hcols
  cases hx : t.indexes with
  | none =>
    refine Runs.bind (m := M) hcols (fun ti _ => Runs.tick' (by omega) trivial) ?_
    have : Size.list Size.column t.cols * M ≤ Size.table t * M := Nat.mul_le_mul_right M (by unfold Size.table; omega)
    omega
  | some b =>
    have hsz : Size.list Size.column t.cols + Size.list Size.indexDef b.defs ≤ Size.table t := by
      unfold Size.table; rw [hx]; simp only [Size.opt, Size.indexes]; omega
    refine Runs.bind (m := 12 * (Size.list Size.indexDef b.defs * M)) hcols (fun ti hti => ?_) ?_
    · have hd : (b.defs.map fun d : IndexesDef => d.cols.length + 1).sum ≤ Size.list Size.indexDef b.defs := sum_le fun d _ => indexDef_cols d
      have := Runs.foldlM (f := fun ti (d : IndexesDef) => checkIndexDefC ti t.cols b.span_range d input) (fun w ti => TiBd w w ti)
        (b := fun d => 12 * (Size.indexDef d * M)) (d := fun d => d.cols.length + 1) (W := M) b.defs _ ti (fun d hd w s hw hs =>
          checkIndexDefC_le hM t.cols b.span_range d (by have := mem_le (f := Size.indexDef) hd; omega) (by omega) hw hs)
        (by omega) hti
      rw [sum_mul] at this
      exact Runs.bind (m := 0) this (fun _ _ => Runs.pure trivial) (by omega)
    · have : (Size.list Size.column t.cols + Size.list Size.indexDef b.defs) * M ≤ Size.table t * M := Nat.mul_le_mul_right M hsz
      rw [Nat.add_mul] at this
      omega

/-! ## Types -/

omit hM in
theorem fromStr_size {s : Str} {t : ColumnTypeName} (h : ColumnTypeName.fromStr s = some t) : Size.typeName t = 1 := by
  have hall : ∀ e ∈ ColumnTypeName.table, Size.typeName e.2 = 1 := by decide +kernel
  unfold ColumnTypeName.fromStr at h
  obtain ⟨e, he, rfl⟩ := lookup_mem ColumnTypeName.table h
  exact hall e he

omit hM in
theorem splitDot_length : ∀ (s p : Str), p ∈ splitDot s → p.length ≤ s.length
  | [], p, h => by simp [splitDot] at h; simp [h]
  | c :: cs, p, h => by
    unfold splitDot at h
    split at h
    · rcases List.mem_cons.1 h with rfl | h
      · simp
      · have := splitDot_length cs p h; simp only [List.length_cons]; omega
    · split at h
      · rename_i x xs hx
        rcases List.mem_cons.1 h with rfl | h
        · have := splitDot_length cs x (by rw [hx]; simp); simp only [List.length_cons]; omega
        · have := splitDot_length cs p (by rw [hx]; simp [h]); simp only [List.length_cons]; omega
      · simp at h; simp [h]

theorem checkTypeArgsC_le (raw : Str) (t : ColumnTypeName) (ty : ColumnType) (h : ty.args.length ≤ M) :
    Runs (checkTypeArgsC raw t ty input) (4 * M) fun _ => True := by
  unfold checkTypeArgsC
  refine Runs.tick (by omega) (Runs.ite (fun _ => Runs.pure trivial) fun _ => Runs.ite (fun _ => Runs.throw (by omega)) fun _ =>
    Runs.ite (fun _ => Runs.pure trivial) fun _ => Runs.throw (by omega))

theorem enumPartsC_le (raw : Str) (sp : Span) (h : raw.length + 1 ≤ M) :
    Runs (enumPartsC raw sp input) (2 * M) fun p => p.2.length ≤ raw.length := by
  have := splitDot_length raw
  unfold enumPartsC
  refine Runs.tick (by omega) ?_
  split
  · exact Runs.pure (Nat.le_refl _)
  · rename_i s n hs
    exact Runs.pure (this n (by rw [hs]; simp))
  · exact Runs.throw (by omega)

theorem checkEnumDefaultC_le {ix : Indexer} {w : Nat} (h : IxBd M w ix) (hw : w + 1 ≤ M) (s : Option Str) (n : Str) (v : Value) (a b : Span) :
    Runs (checkEnumDefaultC ix s n v a b input) (6 * M) fun _ => True := by
  have h0 := h.schemas
  have := look_le ix.schema_map
  unfold checkEnumDefaultC
  refine Runs.bind (n := 3 * M) (m := 3 * M) (P := fun _ => True) ?_ (fun r _ => ?_) (by omega)
  · unfold Indexer.lookupEnumValuesC
    refine Runs.tick (by omega) ?_
    split
    · rename_i b hb
      obtain ⟨e, he, rfl⟩ := mapGet_mem hb
      have he' := h.enums e he
      have := look_le e.2.enum_map
      refine Runs.tick (by omega) ?_
      split
      · rename_i vs hv
        obtain ⟨e', he2, rfl⟩ := mapGet_mem hv
        have := he'.2 e' he2
        have := look_le e'.2
        exact Runs.charge (by simp only [List.length_cons, List.length_nil]; omega) fun _ _ => trivial
      · exact Runs.charge (by simp only [List.length_cons, List.length_nil]; omega) fun _ _ => trivial
    · exact Runs.charge (by simp only [List.length_cons, List.length_nil]; omega) fun _ _ => trivial
  · refine Runs.tick (by omega) ?_
    split
    · exact Runs.throw (by omega)
    · exact Runs.throw (by omega)
    · exact Runs.ite (fun _ => Runs.throw (by omega)) fun _ => Runs.pure trivial

theorem resolveTypeC_le {ix : Indexer} {w : Nat} (h : IxBd M w ix) (hw : w + 1 ≤ M) (c : TableColumn) (hc : Size.column c ≤ M) :
    Runs (resolveTypeC ix c input) (70 * M) fun t => Size.typeName t ≤ Size.typeName c.type.type_name := by
  have hset := col_attrs c
  have hargs : c.type.args.length ≤ M := by
    have := length_le (l := c.type.args) value_pos
    unfold Size.column Size.columnType at hc
    omega
  unfold resolveTypeC
  refine Runs.tick (by omega) ?_
  cases ht : c.type.type_name with
  | raw raw =>
    have hraw : raw.length + 1 ≤ M := by
      unfold Size.column Size.columnType at hc
      rw [ht] at hc
      simp only [Size.typeName, Size.str] at hc
      omega
    simp only
    cases hf : ColumnTypeName.fromStr raw with
    | some t =>
      simp only
      refine Runs.bind (m := 0) (checkTypeArgsC_le hM raw t c.type hargs) (fun _ _ => Runs.pure ?_) (by omega)
      rw [fromStr_size hf]
      simp only [Size.typeName]
      omega
    | none =>
      simp only
      refine Runs.bind (m := 8 * M) (enumPartsC_le hM raw c.type.span_range hraw) (fun p hp => ?_) (by omega)
      have hq : Size.typeName (.enum p.2) ≤ Size.typeName (.raw raw) := by simp only [Size.typeName, Size.str]; omega
      split
      · rename_i as v _ hs
        rw [hs] at hset
        have ha := hset _ rfl
        simp only at ha
        unfold defaultSpanC
        refine Runs.bind (m := 6 * M) (Runs.charge (by omega) (fun _ _ => trivial) : Runs _ M fun _ => True) (fun sp _ => ?_) (by omega)
        exact Runs.bind (m := 0) (checkEnumDefaultC_le hM h hw _ _ _ _ _) (fun _ _ => Runs.pure hq) (by omega)
      · exact Runs.pure hq
  | _ => exact Runs.charge (by omega) fun v hv => by cases hv

theorem checkColDefaultC_le (c : TableColumn) (hc : Size.column c ≤ M) (t : ColumnTypeName) :
    Runs (checkColDefaultC c t input) (6 * M) fun _ => True := by
  have hset := col_attrs c
  unfold checkColDefaultC
  split
  · rename_i s hs
    rw [hs] at hset
    have ha : s.attributes.length + 1 ≤ Size.column c := hset _ rfl
    split
    · unfold defaultSpanC
      refine Runs.bind (m := 5 * M) (Runs.charge (by omega) (fun _ _ => trivial) : Runs _ M fun _ => True) (fun sp _ => ?_) (by omega)
      exact Runs.charge (by omega) fun _ _ => trivial
    · exact Runs.tick' (by omega) trivial
  · exact Runs.tick' (by omega) trivial

theorem typeColumnC_le {ix : Indexer} {w : Nat} (h : IxBd M w ix) (hw : w + 1 ≤ M) (c : TableColumn) (hc : Size.column c ≤ M) :
    Runs (typeColumnC ix input c) (76 * (Size.column c * M)) fun r => Size.column r ≤ Size.column c := by
  have h1 : 1 ≤ Size.column c := column_pos c
  have hP : M ≤ Size.column c * M := Nat.le_mul_of_pos_left M h1
  unfold typeColumnC
  refine Runs.bind (m := 6 * M) (resolveTypeC_le hM h hw c hc) (fun t ht => ?_) (by omega)
  refine Runs.bind (m := 0) (checkColDefaultC_le hM c hc t) (fun _ _ => Runs.pure ?_) (by omega)
  unfold Size.column Size.columnType
  simp only
  omega

/-- What the checks of the references need to know about a typed table. -/
def TyBd (M : Nat) (t : TableBlock) : Prop :=
  t.cols.length ≤ M ∧ (∀ c ∈ t.cols, Size.column c ≤ M) ∧ Size.opt Size.indexes t.indexes ≤ M

theorem typeTableC_le {ix : Indexer} {w : Nat} (h : IxBd M w ix) (hw : w + 1 ≤ M) (t : TableBlock) (ht : Size.table t ≤ M) :
    Runs (typeTableC ix input t) (78 * (Size.table t * M)) (TyBd M) := by
  have hA : Size.table t ≤ Size.table t * M := Nat.le_mul_of_pos_right _ (by omega)
  have hC : Size.list Size.column t.cols * M ≤ Size.table t * M := Nat.mul_le_mul_right M (by unfold Size.table; omega)
  have hl := length_le (l := t.cols) column_pos
  unfold typeTableC
  refine Runs.tick (by omega) ?_
  have := Runs.mapM (f := typeColumnC ix input) (b := fun c => 76 * (Size.column c * M)) (Q := fun c r => Size.column r ≤ Size.column c) t.cols
    fun c hc => typeColumnC_le hM h hw c (by have := mem_le (f := Size.column) hc; unfold Size.table at ht; omega)
  rw [sum_mul] at this
  refine Runs.bind (m := 0) this (fun r hr => Runs.pure ⟨?_, ?_, ?_⟩) (by omega)
  · simp only; unfold Size.table at ht; omega
  · intro c hc
    obtain ⟨c', hc', hle⟩ := hr.2 c hc
    have := mem_le (f := Size.column) hc'
    unfold Size.table at ht
    omega
  · simp only; unfold Size.table at ht; omega

end

end Dbml
