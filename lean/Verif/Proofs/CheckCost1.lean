import Verif.Model.CheckCost

/-!
# The instrumented analysis computes what the analysis computes
-/

namespace Dbml

variable {α β σ : Type}

@[simp] theorem Ct.val_bind (x : Ct α) (f : α → Ct β) : (x >>= f).val = x.val >>= fun a => (f a).val := by
  show (Ct.bind x f).val = Rs.bind x.val _
  unfold Ct.bind Rs.bind
  cases x.val <;> rfl
@[simp] theorem Ct.val_pure (a : α) : (pure a : Ct α).val = .ok a := rfl
@[simp] theorem charge_val (n : Nat) (x : Rs α) : (charge n x).val = x := rfl
@[simp] theorem tick_val (n : Nat) : (tick n).val = .ok () := rfl
@[simp] theorem throwErrC_val (e : Err) (sp : Span) (i : Str) : (throwErrC e sp i : Ct α).val = throwErr e sp i := rfl
@[simp] theorem Rs.ok_bind' (a : α) (f : α → Rs β) : (Rs.ok a >>= f) = f a := rfl
@[simp] theorem Rs.pure_eq' (a : α) : (pure a : Rs α) = .ok a := rfl
@[simp] theorem Ct.val_ite (p : Prop) [Decidable p] (x y : Ct α) : (if p then x else y).val = if p then x.val else y.val := by
  split <;> rfl

@[simp] theorem Ct.val_foldlM (f : σ → α → Ct σ) : ∀ (l : List α) (s : σ),
    (l.foldlM f s).val = l.foldlM (fun s a => (f s a).val) s
  | [], s => rfl
  | a :: l, s => by
    rw [List.foldlM_cons, List.foldlM_cons, Ct.val_bind]
    congr 1
    funext s'
    exact Ct.val_foldlM f l s'

theorem Rs.bind_ok' (x : Rs α) : (x >>= fun a => Rs.ok a) = x := by cases x <;> rfl

theorem mapM_cons' {m : Type → Type} [Monad m] [LawfulMonad m] (f : α → m β) (a : α) (l : List α) :
    (a :: l).mapM f = (do let b ← f a; let bs ← l.mapM f; pure (b :: bs)) := List.mapM_cons

instance : LawfulMonad Rs := LawfulMonad.mk'
  (id_map := by intro α x; cases x <;> rfl)
  (pure_bind := by intros; rfl)
  (bind_assoc := by intro α β γ x f g; cases x <;> rfl)

theorem Ct.ext' {x y : Ct α} (h1 : x.val = y.val) (h2 : x.steps = y.steps) : x = y := by
  cases x; cases y; simp_all

theorem Ct.steps_bind (x : Ct α) (f : α → Ct β) :
    (x >>= f).steps = x.steps + match x.val with | .ok a => (f a).steps | _ => 0 := by
  show (Ct.bind x f).steps = _
  unfold Ct.bind
  cases x.val <;> rfl

instance : LawfulMonad Ct := LawfulMonad.mk'
  (id_map := by
    intro α x
    obtain ⟨v, n⟩ := x
    cases v <;> rfl)
  (pure_bind := by
    intro α β a f
    apply Ct.ext'
    · rfl
    · rw [Ct.steps_bind]; show 0 + _ = _; simp)
  (bind_assoc := by
    intro α β γ x f g
    apply Ct.ext'
    · simp
    · simp only [Ct.steps_bind, Ct.val_bind]
      cases x.val with
      | ok a =>
        simp only [Rs.ok_bind']
        omega
      | _ => rfl)

@[simp] theorem Ct.val_map (f : α → β) (x : Ct α) : (f <$> x).val = x.val >>= fun a => .ok (f a) := by
  rw [← bind_pure_comp, Ct.val_bind]; rfl

@[simp] theorem Ct.val_mapM (f : α → Ct β) : ∀ l : List α, (l.mapM f).val = l.mapM (fun a => (f a).val)
  | [] => rfl
  | a :: l => by
    rw [List.mapM_cons, List.mapM_cons, Ct.val_bind]
    congr 1
    funext b
    rw [Ct.val_bind, Ct.val_mapM f l]
    rfl

@[simp] theorem forEachC_val (f : α → Ct Unit) : ∀ l, (forEachC f l).val = forEach (fun a => (f a).val) l
  | [] => rfl
  | a :: l => by
    unfold forEachC forEach
    rw [Ct.val_bind, forEachC_val f l]

@[simp] theorem dupKeysC_val (key : α → Str) : ∀ seen (l : List α), (dupKeysC key seen l).val = .ok (dupKeys key seen l)
  | _, [] => rfl
  | seen, a :: l => by
    unfold dupKeysC dupKeys
    simp only [Ct.val_bind, tick_val, Rs.ok_bind', Ct.val_ite, dupKeysC_val key, Ct.val_pure]
    split <;> rfl

@[simp] theorem checkAttrDuplicateKeysC_val (as : List Attribute) (i : Str) :
    (checkAttrDuplicateKeysC as i).val = checkAttrDuplicateKeys as i := by
  unfold checkAttrDuplicateKeysC checkAttrDuplicateKeys
  simp only [Ct.val_bind, dupKeysC_val, Rs.ok_bind']
  split <;> simp [*]

@[simp] theorem checkPropDuplicateKeysC_val (as : List Property) (i : Str) :
    (checkPropDuplicateKeysC as i).val = checkPropDuplicateKeys as i := by
  unfold checkPropDuplicateKeysC checkPropDuplicateKeys
  simp only [Ct.val_bind, dupKeysC_val, Rs.ok_bind']
  split <;> simp [*]

@[simp] theorem checkSettingsC_val (as : Option (List Attribute)) (i : Str) : (checkSettingsC as i).val = checkSettings as i := by
  unfold checkSettingsC checkSettings
  split <;> simp [*]

namespace Indexer

@[simp] theorem containsTableC_val (ix : Indexer) (s n : Str) : (ix.containsTableC s n).val = .ok (ix.containsTable s n) := by
  unfold containsTableC containsTable
  simp only [Ct.val_bind, tick_val, Rs.ok_bind']
  split <;> simp [*]
@[simp] theorem containsEnumC_val (ix : Indexer) (s n : Str) : (ix.containsEnumC s n).val = .ok (ix.containsEnum s n) := by
  unfold containsEnumC containsEnum
  simp only [Ct.val_bind, tick_val, Rs.ok_bind']
  split <;> simp [*]
@[simp] theorem indexColsC_val (cols : List TableColumn) (i : Str) : (indexColsC cols i).val = indexCols cols i := by
  simp [indexColsC, indexCols]
@[simp] theorem indexTable1C_val (ix : Indexer) (t : TableBlock) (i : Str) : (ix.indexTable1C t i).val = ix.indexTable1 t i := by
  unfold indexTable1C indexTable1
  simp only [Ct.val_bind, checkSettingsC_val, tick_val, Rs.ok_bind', containsTableC_val, Ct.val_ite, throwErrC_val, indexColsC_val]
  cases t.ident.alias <;> simp
@[simp] theorem indexTableC_val (ix : Indexer) (ts : List TableBlock) (i : Str) : (ix.indexTableC ts i).val = ix.indexTable ts i := by
  simp [indexTableC, indexTable]
@[simp] theorem indexEnumValuesC_val (vs : List EnumValue) (i : Str) : (indexEnumValuesC vs i).val = indexEnumValues vs i := by
  simp [indexEnumValuesC, indexEnumValues]
@[simp] theorem indexEnum1C_val (ix : Indexer) (e : EnumBlock) (i : Str) : (ix.indexEnum1C e i).val = ix.indexEnum1 e i := by
  simp [indexEnum1C, indexEnum1]
@[simp] theorem indexEnumsC_val (ix : Indexer) (es : List EnumBlock) (i : Str) : (ix.indexEnumsC es i).val = ix.indexEnums es i := by
  simp [indexEnumsC, indexEnums]
@[simp] theorem groupItemIdentC_val (ix : Indexer) (g : TableGroupItem) (i : Str) :
    (ix.groupItemIdentC g i).val = ix.groupItemIdent g i := by
  unfold groupItemIdentC groupItemIdent
  split
  · simp [*]
  · simp only [Ct.val_bind, tick_val, Rs.ok_bind']
    split
    · simp [*]
    · simp [*]
@[simp] theorem indexGroupItemsC_val (ix : Indexer) (gs : List TableGroupItem) (i : Str) :
    (ix.indexGroupItemsC gs i).val = ix.indexGroupItems gs i := by
  simp [indexGroupItemsC, indexGroupItems]
@[simp] theorem indexTableGroup1C_val (ix : Indexer) (g : TableGroupBlock) (i : Str) :
    (ix.indexTableGroup1C g i).val = ix.indexTableGroup1 g i := by
  simp [indexTableGroup1C, indexTableGroup1]
@[simp] theorem indexTableGroupsC_val (ix : Indexer) (gs : List TableGroupBlock) (i : Str) :
    (ix.indexTableGroupsC gs i).val = ix.indexTableGroups gs i := by
  simp [indexTableGroupsC, indexTableGroups]
@[simp] theorem lookupEnumValuesC_val (ix : Indexer) (s : Option Str) (n : Str) (vs : List Str) :
    (ix.lookupEnumValuesC s n vs).val = .ok (ix.lookupEnumValues s n vs) := by
  unfold lookupEnumValuesC lookupEnumValues
  simp only [Ct.val_bind, tick_val, Rs.ok_bind']
  split
  · simp only [Ct.val_bind, tick_val, Rs.ok_bind']
    split <;> simp [*]
  · simp [*]
@[simp] theorem lookupTableFieldsC_val (ix : Indexer) (s : Option Ident) (t : Ident) (fs : List Ident) (i : Str) :
    (ix.lookupTableFieldsC s t fs i).val = ix.lookupTableFields s t fs i := by
  unfold lookupTableFieldsC lookupTableFields
  simp only [Ct.val_bind, tick_val, Rs.ok_bind']
  cases mapGet ix.schema_map (schemaOrDefault s) with
  | none => rfl
  | some block =>
    simp only [Ct.val_bind, tick_val, Rs.ok_bind']
    cases mapGet block.table_map t.to_string with
    | none => rfl
    | some colSet =>
      simp only [Ct.val_bind, tick_val, Rs.ok_bind']
      cases (fs.filter fun v => !colSet.contains v.to_string).head? <;> rfl

end Indexer

namespace IndexedRef

@[simp] theorem findRefTableC_val (ts : List TableBlock) (r : RefIdent) (i : Str) :
    (findRefTableC ts r i).val = findRefTable ts r i := by
  unfold findRefTableC findRefTable
  simp only [Ct.val_bind, tick_val, Rs.ok_bind']
  split <;> simp [*]
@[simp] theorem findRefColC_val (c : Ident) (t : TableBlock) (i : Str) : (findRefColC c t i).val = findRefCol c t i := by
  unfold findRefColC findRefCol
  simp only [Ct.val_bind, tick_val, Rs.ok_bind']
  split <;> simp [*]
@[simp] theorem throwKeyErrC_val (e : Option (InvalidForeignKeyErr × Span)) (i : Str) : (throwKeyErrC e i).val = throwKeyErr e i := by
  unfold throwKeyErrC throwKeyErr
  split <;> simp [*]
@[simp] theorem checkFieldPairC_val (x : IndexedRef) (lt rt : TableBlock) (n : Nat) (l r : Ident) (i : Str) :
    (x.checkFieldPairC lt rt n l r i).val = x.checkFieldPair lt rt n l r i := by
  simp [checkFieldPairC, checkFieldPair]
@[simp] theorem checkFieldPairsC_val (x : IndexedRef) (lt rt : TableBlock) (n : Nat) (i : Str) :
    ∀ ps, (x.checkFieldPairsC lt rt n i ps).val = x.checkFieldPairs lt rt n i ps
  | [] => rfl
  | (l, r) :: ps => by
    unfold checkFieldPairsC checkFieldPairs
    rw [Ct.val_bind, checkFieldPairC_val, checkFieldPairsC_val x lt rt n i ps]
@[simp] theorem validateRefTypeC_val (x : IndexedRef) (ts : List TableBlock) (ix : Indexer) (i : Str) :
    (x.validateRefTypeC ts ix i).val = x.validateRefType ts ix i := by
  simp [validateRefTypeC, validateRefType]

end IndexedRef

@[simp] theorem checkProjectC_val (ps : List ProjectBlock) (sp : Span) (i : Str) :
    (checkProjectC ps sp i).val = checkProject ps sp i := by
  unfold checkProjectC checkProject
  cases h : ps.head? <;> simp
@[simp] theorem checkColumnPkC_val (ti : TableIndexer) (c : TableColumn) (s : ColumnSettings) (i : Str) :
    (checkColumnPkC ti c s i).val = checkColumnPk ti c s i := by
  simp [checkColumnPkC, checkColumnPk]
@[simp] theorem checkColumnC_val (ti : TableIndexer) (c : TableColumn) (i : Str) : (checkColumnC ti c i).val = checkColumn ti c i := by
  unfold checkColumnC checkColumn
  cases h : c.settings <;> simp
@[simp] theorem checkIndexColsC_val (cs : List TableColumn) (i : Str) : ∀ l, (checkIndexColsC cs i l).val = checkIndexCols cs i l
  | [] => rfl
  | .string n :: l => by
    unfold checkIndexColsC checkIndexCols
    simp only [Ct.val_bind, tick_val, Rs.ok_bind', Ct.val_ite, checkIndexColsC_val cs i l, throwErrC_val]
  | .expr _ :: l => by
    unfold checkIndexColsC checkIndexCols
    simp only [Ct.val_bind, tick_val, Rs.ok_bind', checkIndexColsC_val cs i l]
@[simp] theorem checkIndexKeyC_val (ti : TableIndexer) (d : IndexesDef) (s : IndexesSettings) (i : Str) :
    (checkIndexKeyC ti d s i).val = checkIndexKey ti d s i := by
  simp [checkIndexKeyC, checkIndexKey]
@[simp] theorem checkIndexTypeC_val (ti : TableIndexer) (d : IndexesDef) (s : IndexesSettings) (i : Str) :
    (checkIndexTypeC ti d s i).val = checkIndexType ti d s i := by
  simp [checkIndexTypeC, checkIndexType]
@[simp] theorem checkIndexDefC_val (ti : TableIndexer) (cs : List TableColumn) (sp : Span) (d : IndexesDef) (i : Str) :
    (checkIndexDefC ti cs sp d i).val = checkIndexDef ti cs sp d i := by
  unfold checkIndexDefC checkIndexDef
  cases h : d.settings <;> simp
@[simp] theorem checkTableC_val (t : TableBlock) (i : Str) : (checkTableC t i).val = checkTable t i := by
  unfold checkTableC checkTable
  cases h : t.indexes <;> simp
@[simp] theorem checkTypeArgsC_val (r : Str) (t : ColumnTypeName) (ty : ColumnType) (i : Str) :
    (checkTypeArgsC r t ty i).val = checkTypeArgs r t ty i := by
  simp [checkTypeArgsC, checkTypeArgs]
  rfl
@[simp] theorem enumPartsC_val (r : Str) (sp : Span) (i : Str) : (enumPartsC r sp i).val = enumParts r sp i := by
  unfold enumPartsC enumParts
  simp only [Ct.val_bind, tick_val, Rs.ok_bind']
  split <;> simp [*]
@[simp] theorem checkEnumDefaultC_val (ix : Indexer) (es : Option Str) (en : Str) (v : Value) (a b : Span) (i : Str) :
    (checkEnumDefaultC ix es en v a b i).val = checkEnumDefault ix es en v a b i := by
  unfold checkEnumDefaultC checkEnumDefault
  simp only [Ct.val_bind, tick_val, Rs.ok_bind', Indexer.lookupEnumValuesC_val]
  split <;> simp [*]
@[simp] theorem resolveTypeC_val (ix : Indexer) (c : TableColumn) (i : Str) : (resolveTypeC ix c i).val = resolveType ix c i := by
  unfold resolveTypeC resolveType
  simp only [Ct.val_bind, tick_val, Rs.ok_bind']
  generalize hT : c.type.type_name = T
  cases T with
  | raw r =>
    simp only
    cases ColumnTypeName.fromStr r with
    | some t => simp
    | none =>
      simp only [Ct.val_bind, enumPartsC_val]
      congr 1
      funext p
      generalize c.settings = S
      match S with
      | none => rfl
      | some ⟨_, _, _, _, _, _, _, none, _⟩ => rfl
      | some ⟨_, _, _, _, _, _, _, some _, _⟩ => simp [defaultSpanC]
  | _ => rfl
@[simp] theorem checkColDefaultC_val (c : TableColumn) (t : ColumnTypeName) (i : Str) :
    (checkColDefaultC c t i).val = checkColDefault c t i := by
  unfold checkColDefaultC checkColDefault
  split
  · split <;> simp [defaultSpanC, *]
  · simp [*]
@[simp] theorem typeColumnC_val (ix : Indexer) (i : Str) (c : TableColumn) : (typeColumnC ix i c).val = typeColumn ix i c := by
  simp [typeColumnC, typeColumn]
@[simp] theorem typeTableC_val (ix : Indexer) (i : Str) (t : TableBlock) : (typeTableC ix i t).val = typeTable ix i t := by
  simp [typeTableC, typeTable]
@[simp] theorem checkRefC_val (ts : List TableBlock) (ix : Indexer) (rs : List IndexedRef) (i : Str) (r : IndexedRef) :
    (checkRefC ts ix rs i r).val = checkRef ts ix rs i r := by
  simp [checkRefC, checkRef]
theorem analyzeC_val (s : SchemaBlock) : (analyzeC s).val = analyze s := by
  simp only [analyzeC, analyze, Ct.val_bind, tick_val, Rs.ok_bind', checkProjectC_val, Indexer.indexTableC_val,
    Indexer.indexEnumsC_val, Indexer.indexTableGroupsC_val, forEachC_val, checkTableC_val, Ct.val_mapM, typeTableC_val,
    checkRefC_val, Ct.val_pure, Rs.pure_eq']

end Dbml
