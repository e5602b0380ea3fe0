import Mathlib.Tactic.Linarith
import Mathlib.Tactic.Ring
import Verif.Proofs.CheckCost3

/-!
# Bounds for the instrumented analysis: references, and the whole
-/

namespace Dbml

/-- The number of settings of a reference. -/
def refA (r : IndexedRef) : Nat := (r.settings.map fun s => s.attributes.length).getD 0

/-- How much a reference names. -/
def refW (r : IndexedRef) : Nat := r.lhs.compositions.length + r.rhs.compositions.length + 1

theorem resolve_comps (ix : Indexer) (r : RefIdent) : (ix.resolveRefAlias r).compositions = r.compositions := by
  unfold Indexer.resolveRefAlias
  split <;> rfl

/-- How high the trees are. -/
def High (M L : Nat) : Prop := ∀ n, n ≤ 2 * M → Nat.log2 n + 1 ≤ L

theorem High.pos {M L : Nat} (h : High M L) : 1 ≤ L := by
  have := h 0 (by omega)
  omega

theorem composite_le {M L : Nat} (hL : High M L) (comps : List Ident) (hk : comps.length ≤ M) (ix : Option IndexesBlock) (hix : Size.opt Size.indexes ix ≤ M) :
    IndexedRef.compositeSteps comps ix ≤ 4 * ((comps.length + 1) * (M * L)) + 1 := by
  unfold IndexedRef.compositeSteps
  cases ix with
  | none => simp only; omega
  | some b =>
    simp only [Size.opt, Size.indexes] at hix ⊢
    have h1 : ∀ d ∈ b.defs, d.cols.length + 2 + eqSteps comps d.cols ≤ 4 * (Size.indexDef d * ((comps.length + 1) * L)) := by
      intro d hd
      have hD := mem_le (f := Size.indexDef) hd
      have hc := indexDef_cols d
      unfold eqSteps
      generalize Size.indexDef d = D at *
      generalize comps.length = k at *
      generalize d.cols.length = m at *
      have hkd : k + D ≤ (k + 1) * D := by nlinarith
      have h2 : (k + m + 1) * (Nat.log2 (k + m + 1) + 1) ≤ ((k + 1) * D) * L := Nat.mul_le_mul (by omega) (hL _ (by omega))
      have h3 : m + 2 ≤ 2 * (D * ((k + 1) * L)) := by
        have : D * 1 ≤ D * ((k + 1) * L) := Nat.mul_le_mul_left D (Nat.mul_pos (by omega) hL.pos)
        omega
      have h4 : ((k + 1) * D) * L = D * ((k + 1) * L) := by ring
      omega
    refine Nat.le_trans (sum_le h1) ?_
    rw [sum_mul]
    have : Size.list Size.indexDef b.defs * ((comps.length + 1) * L) ≤ M * ((comps.length + 1) * L) := Nat.mul_le_mul_right _ (by omega)
    have h5 : M * ((comps.length + 1) * L) = (comps.length + 1) * (M * L) := by ring
    omega

section
variable {M : Nat} {input : Str} (hM : input.length + 1 ≤ M)
include hM

theorem lookupTableFieldsC_le {ix : Indexer} {w : Nat} (h : IxBd M w ix) (hw : w + 1 ≤ M) (s : Option Ident) (t : Ident) (fs : List Ident) :
    Runs (ix.lookupTableFieldsC s t fs input) (6 * ((fs.length + 1) * M)) fun _ => True := by
  have h0 := h.schemas
  have := look_le ix.schema_map
  rw [Nat.add_mul, Nat.one_mul]
  unfold Indexer.lookupTableFieldsC
  refine Runs.tick (by omega) ?_
  split
  · rename_i b hb
    obtain ⟨e, he, rfl⟩ := mapGet_mem hb
    have he' := h.tables e he
    have := look_le e.2.table_map
    refine Runs.tick (by omega) ?_
    split
    · rename_i cs hcs
      obtain ⟨e', he2, rfl⟩ := mapGet_mem hcs
      have := Nat.mul_le_mul_left fs.length (Nat.le_trans (look_le e'.2) (he'.2 e' he2))
      refine Runs.tick (by omega) ?_
      split
      · exact Runs.throw (by omega)
      · exact Runs.pure trivial
    · exact Runs.throw (by omega)
  · exact Runs.throw (by omega)

theorem findRefTableC_le {ts : List TableBlock} (hts : ts.length ≤ M) (hty : ∀ t ∈ ts, TyBd M t) (r : RefIdent) :
    Runs (IndexedRef.findRefTableC ts r input) (3 * M) (TyBd M) := by
  unfold IndexedRef.findRefTableC
  refine Runs.tick (by omega) ?_
  split
  · rename_i t ht
    exact Runs.pure (hty t (List.mem_of_find?_eq_some ht))
  · exact Runs.throw (by omega)

theorem findRefColC_le {t : TableBlock} (ht : TyBd M t) (c : Ident) :
    Runs (IndexedRef.findRefColC c t input) (2 * M) fun r => Size.column r ≤ M := by
  have := ht.1
  unfold IndexedRef.findRefColC
  refine Runs.tick (by omega) ?_
  split
  · rename_i r hr
    have := ht.2.1 r (List.mem_of_find?_eq_some hr)
    exact Runs.charge (by omega) fun v hv => by cases hv; exact this
  · exact Runs.throw (by omega)

theorem throwKeyErrC_le (e : Option (InvalidForeignKeyErr × Span)) : Runs (IndexedRef.throwKeyErrC e input) M fun _ => True := by
  unfold IndexedRef.throwKeyErrC
  split
  · exact Runs.throw hM
  · exact Runs.tick' (by omega) trivial

theorem checkFieldPairC_le (self : IndexedRef) {t1 t2 : TableBlock} (h1 : TyBd M t1) (h2 : TyBd M t2) (n : Nat) (l r : Ident) :
    Runs (self.checkFieldPairC t1 t2 n l r input) (8 * M) fun _ => True := by
  unfold IndexedRef.checkFieldPairC
  refine Runs.bind (m := 6 * M) (findRefColC_le hM h1 l) (fun c hc => ?_) (by omega)
  refine Runs.bind (m := 4 * M) (findRefColC_le hM h2 r) (fun c' hc' => ?_) (by omega)
  have ha := length_le (l := c.type.args) value_pos
  have hb := length_le (l := c.type.arrays) (f := fun _ => 1) (by simp)
  have : 1 + c.type.args.length + c.type.arrays.length ≤ M := by
    unfold Size.column Size.columnType at hc
    omega
  refine Runs.tick (by omega) (Runs.ite (fun _ => Runs.throw (by omega)) fun _ => Runs.ite (fun _ => ?_) fun _ => Runs.pure trivial)
  exact (throwKeyErrC_le hM _).mono (by omega) fun _ h => h

theorem checkFieldPairsC_le (self : IndexedRef) {t1 t2 : TableBlock} (h1 : TyBd M t1) (h2 : TyBd M t2) (n : Nat) : ∀ l : List (Ident × Ident),
    Runs (self.checkFieldPairsC t1 t2 n input l) (8 * ((l.length + 1) * M)) fun _ => True
  | [] => by
    unfold IndexedRef.checkFieldPairsC
    exact Runs.tick' (by simp only [List.length_nil]; omega) trivial
  | (l, r) :: ps => by
    unfold IndexedRef.checkFieldPairsC
    refine Runs.bind (checkFieldPairC_le hM self h1 h2 n l r) (fun _ _ => checkFieldPairsC_le self h1 h2 n ps) ?_
    rw [List.length_cons, Nat.add_mul (ps.length + 1) 1 M, Nat.one_mul]
    omega

theorem validateRefTypeC_le {L : Nat} (hL : High M L) {ix : Indexer} {w : Nat} (h : IxBd M w ix) (hw : w + 1 ≤ M) {ts : List TableBlock} (hts : ts.length ≤ M)
    (hty : ∀ t ∈ ts, TyBd M t) (self : IndexedRef) (hr : refW self ≤ M) :
    Runs (self.validateRefTypeC ts ix input) (60 * (refW self * (M * L))) fun _ => True := by
  have ha := h.aliases
  have := look_le ix.table_alias_map
  have hW : 1 ≤ refW self := by unfold refW; omega
  have hLf : self.lhs.compositions.length + 1 ≤ refW self := by unfold refW; omega
  have hR : self.rhs.compositions.length + 1 ≤ refW self := by unfold refW; omega
  have hM1 : M ≤ M * L := Nat.le_mul_of_pos_right M hL.pos
  have hMW : M * L ≤ refW self * (M * L) := Nat.le_mul_of_pos_left _ hW
  have hWM : refW self * M ≤ refW self * (M * L) := Nat.mul_le_mul_left _ hM1
  have hLM : (self.lhs.compositions.length + 1) * M ≤ refW self * M := Nat.mul_le_mul_right M hLf
  have hRM : (self.rhs.compositions.length + 1) * M ≤ refW self * M := Nat.mul_le_mul_right M hR
  have hLM2 : (self.lhs.compositions.length + 1) * (M * L) ≤ refW self * (M * L) := Nat.mul_le_mul_right _ hLf
  have hRM2 : (self.rhs.compositions.length + 1) * (M * L) ≤ refW self * (M * L) := Nat.mul_le_mul_right _ hR
  unfold IndexedRef.validateRefTypeC
  simp only [Indexer.resolveSteps, resolve_comps]
  refine Runs.tick (by omega) (Runs.ite (fun _ => Runs.throw (by omega)) fun _ => ?_)
  refine Runs.bind (n := 6 * (refW self * (M * L))) (m := 40 * (refW self * (M * L)))
    ((lookupTableFieldsC_le hM h hw _ _ _).mono (by omega) fun _ h => h) (fun _ _ => ?_) (by omega)
  refine Runs.bind (n := 6 * (refW self * (M * L))) (m := 34 * (refW self * (M * L)))
    ((lookupTableFieldsC_le hM h hw _ _ _).mono (by omega) fun _ h => h) (fun _ _ => ?_) (by omega)
  refine Runs.bind (m := 31 * (refW self * (M * L))) (findRefTableC_le hM hts hty _) (fun t1 h1 => ?_) (by omega)
  refine Runs.bind (m := 28 * (refW self * (M * L))) (findRefTableC_le hM hts hty _) (fun t2 h2 => ?_) (by omega)
  refine Runs.bind (n := 8 * (refW self * (M * L))) (m := 20 * (refW self * (M * L)))
    ((checkFieldPairsC_le hM self h1 h2 _ _).mono ?_ fun _ h => h) (fun _ _ => ?_) (by omega)
  · have : (self.lhs.compositions.zip self.rhs.compositions).length + 1 ≤ self.lhs.compositions.length + 1 := by
      rw [List.length_zip]; omega
    have := Nat.mul_le_mul_right M this
    omega
  · have c1 := composite_le hL self.lhs.compositions (by omega) t1.indexes h1.2.2
    have c2 := composite_le hL self.rhs.compositions (by omega) t2.indexes h2.2.2
    refine Runs.ite (fun _ => Runs.tick (by omega) ?_) fun _ => Runs.pure trivial
    exact (throwKeyErrC_le hM _).mono (by omega) fun _ h => h

omit hM in
theorem sideSteps_le {L : Nat} (hL : High M L) {ix : Indexer} {w : Nat} (h : IxBd M w ix) (hw : w + 1 ≤ M) (l r : RefIdent)
    (hl : l.compositions.length + 1 ≤ M) (hr : r.compositions.length + 1 ≤ M) :
    IndexedRef.sideSteps ix l r ≤ 16 * ((l.compositions.length + r.compositions.length + 1) * L) := by
  have ha := h.aliases
  have h1 := hL.pos
  have h5 := hL ix.table_alias_map.length (by omega)
  unfold IndexedRef.sideSteps Indexer.resolveSteps eqSteps lookSteps
  have h2 : (l.compositions.length + r.compositions.length + 1) * (Nat.log2 (l.compositions.length + r.compositions.length + 1) + 1) ≤
    (l.compositions.length + r.compositions.length + 1) * L := Nat.mul_le_mul_left _ (hL _ (by omega))
  have h3 : (l.compositions.length + r.compositions.length + 1) * 1 ≤ (l.compositions.length + r.compositions.length + 1) * L :=
    Nat.mul_le_mul_left _ h1
  have h4 : L ≤ (l.compositions.length + r.compositions.length + 1) * L := Nat.le_mul_of_pos_left L (by omega)
  omega

omit hM in
theorem occupySteps_le {L : Nat} (hL : High M L) {ix : Indexer} {w : Nat} (h : IxBd M w ix) (hw : w + 1 ≤ M) (a b : IndexedRef) (ha : refW a ≤ M) (hb : refW b ≤ M) :
    a.occupySteps b ix ≤ 65 * ((refW a + refW b) * L) := by
  unfold IndexedRef.occupySteps
  unfold refW at *
  have s1 := sideSteps_le hL h hw a.lhs b.lhs (by omega) (by omega)
  have s2 := sideSteps_le hL h hw a.lhs b.rhs (by omega) (by omega)
  have s3 := sideSteps_le hL h hw a.rhs b.lhs (by omega) (by omega)
  have s4 := sideSteps_le hL h hw a.rhs b.rhs (by omega) (by omega)
  generalize a.lhs.compositions.length = p at *
  generalize a.rhs.compositions.length = q at *
  generalize b.lhs.compositions.length = u at *
  generalize b.rhs.compositions.length = v at *
  have hm : ∀ x, x ≤ p + q + 1 + (u + v + 1) → x * L ≤ (p + q + 1 + (u + v + 1)) * L := fun x hx => Nat.mul_le_mul_right L hx
  have := hm (p + u + 1) (by omega)
  have := hm (p + v + 1) (by omega)
  have := hm (q + u + 1) (by omega)
  have := hm (q + v + 1) (by omega)
  have := hm 1 (by omega)
  have := hL.pos
  omega

omit hM in
theorem occupy_sum {L : Nat} (hL : High M L) {ix : Indexer} {w : Nat} (h : IxBd M w ix) (hw : w + 1 ≤ M) (a : IndexedRef) (ha : refW a ≤ M) : ∀ os : List IndexedRef,
    (os.map refW).sum ≤ M → (os.map fun o => a.occupySteps o ix).sum ≤ 65 * ((os.length * refW a + (os.map refW).sum) * L)
  | [], _ => by simp
  | o :: os, hs => by
    simp only [List.map_cons, List.sum_cons, List.length_cons] at hs ⊢
    have ih := occupy_sum hL h hw a ha os (by omega)
    have h1 := occupySteps_le hL h hw a o ha (by omega)
    have e : ((os.length + 1) * refW a + (refW o + (os.map refW).sum)) * L =
      (refW a + refW o) * L + (os.length * refW a + (os.map refW).sum) * L := by ring
    rw [e]
    omega

theorem checkRefC_le {L : Nat} (hL : High M L) {ix : Indexer} {w : Nat} (h : IxBd M w ix) (hw : w + 1 ≤ M) {ts : List TableBlock}
    (hts : ts.length ≤ M) (hty : ∀ t ∈ ts, TyBd M t) (os : List IndexedRef) (hos : (os.map refW).sum ≤ M) (r : IndexedRef)
    (hr : refW r + refA r ≤ M) : Runs (checkRefC ts ix os input r) (192 * ((refW r + refA r) * (M * L))) fun _ => True := by
  have hW : 1 ≤ refW r := by unfold refW; omega
  have hM1 : M ≤ M * L := Nat.le_mul_of_pos_right M hL.pos
  have hMW : M * L ≤ refW r * (M * L) := Nat.le_mul_of_pos_left _ hW
  have hlen : os.length ≤ M := by
    have : (os.map fun _ => 1).sum ≤ (os.map refW).sum := sum_le fun a _ => by unfold refW; omega
    rw [sum_one] at this
    omega
  have ho := occupy_sum hL h hw r (by omega) os hos
  have h1 : (os.length * refW r + (os.map refW).sum) * L ≤ (M * refW r + M) * L := Nat.mul_le_mul_right L (by
    have := Nat.mul_le_mul_right (refW r) hlen
    omega)
  have h2 : (M * refW r + M) * L = refW r * (M * L) + M * L := by ring
  have h3 : (refA r + 1) * M ≤ (refW r + refA r) * (M * L) := Nat.mul_le_mul (by omega) hM1
  have h4 : refW r * (M * L) ≤ (refW r + refA r) * (M * L) := Nat.mul_le_mul_right _ (by omega)
  have hset : ∀ as, r.settings.map (·.attributes) = some as → as.length + 1 ≤ refA r + 1 := by
    intro as has
    unfold refA
    cases hs : r.settings with
    | none => rw [hs] at has; cases has
    | some x => rw [hs] at has; cases has; exact Nat.le_refl _
  unfold checkRefC
  generalize hX : (refW r + refA r) * (M * L) = X at *
  refine Runs.bind (m := 191 * X) (checkSettingsC_le hM (n := refA r + 1) hset (by omega) (by omega)) (fun _ _ => ?_) (by omega)
  refine Runs.bind (m := 131 * X) (validateRefTypeC_le hM hL h hw hts hty r (by omega)) (fun _ _ => ?_) (by omega)
  exact Runs.tick (by omega) (Runs.ite (fun _ => Runs.throw (by omega)) fun _ => Runs.pure trivial)

theorem checkProjectC_le (ps : List ProjectBlock) (sp : Span) (hp : Size.list Size.project ps + 1 ≤ M) :
    Runs (checkProjectC ps sp input) (M * M + M) fun _ => True := by
  unfold checkProjectC
  refine Runs.tick (by omega) (Runs.ite (fun _ => Runs.throw ?_) fun _ => ?_)
  · have : M ≤ M * M := Nat.le_mul_of_pos_left M (by omega)
    omega
  · split
    · rename_i p hp'
      have hmem := mem_le (f := Size.project) (List.mem_of_mem_head? hp')
      have hl := length_le (l := p.properties) (f := Size.property) (by intro x; unfold Size.property; omega)
      have hq : p.properties.length ≤ Size.project p := by unfold Size.project; omega
      have : p.properties.length + 1 ≤ M := by omega
      refine (checkPropC_le hM (as := p.properties) this).mono ?_ fun _ h => h
      have := Nat.mul_le_mul_right M this
      omega
    · refine Runs.throw ?_
      have : M ≤ M * M := Nat.le_mul_of_pos_left M (by omega)
      omega

end

/-! ## The whole -/

theorem blocks_split : ∀ bs : List TopLevelBlock,
    Size.list Size.table (bs.filterMap fun | .table b => some b | _ => none) + Size.list Size.ref (bs.filterMap fun | .ref b => some b | _ => none) +
    Size.list Size.enum (bs.filterMap fun | .enum b => some b | _ => none) +
    Size.list Size.tableGroup (bs.filterMap fun | .tableGroup b => some b | _ => none) +
    Size.list Size.project (bs.filterMap fun | .project b => some b | _ => none) + bs.length ≤ Size.list Size.block bs
  | [] => by simp [Size.list]
  | b :: bs => by
    have ih := blocks_split bs
    cases b <;> simp only [List.filterMap_cons, list_cons, Size.block, List.length_cons] <;> omega

theorem schema_split (s : SchemaBlock) : Size.list Size.table s.tables + Size.list Size.ref s.refs + Size.list Size.enum s.enums +
    Size.list Size.tableGroup s.table_groups + Size.list Size.project s.projects + s.blocks.length + s.input.length + 2 ≤ Size.schema s := by
  have : Size.list Size.table s.tables + Size.list Size.ref s.refs + Size.list Size.enum s.enums +
    Size.list Size.tableGroup s.table_groups + Size.list Size.project s.projects + s.blocks.length ≤ Size.list Size.block s.blocks := blocks_split s.blocks
  unfold Size.schema Size.str
  omega

theorem ident_pos (i : Ident) : 1 ≤ Size.ident i := by unfold Size.ident; omega

theorem columnRefs_le (i : TableIdent) (c : TableColumn) : ((columnRefs i c).map fun r => refW r + refA r).sum ≤ Size.column c := by
  unfold columnRefs IndexedRef.fromInline
  cases hs : c.settings with
  | none => simp
  | some s =>
    simp only [Option.map_some, Option.getD_some, List.map_map]
    refine Nat.le_trans (sum_le (g := Size.refInline) fun r _ => ?_) ?_
    · have := length_le (l := r.rhs.compositions) ident_pos
      simp only [Function.comp, refW, refA, Option.map_none, Option.getD_none, List.length_cons, List.length_nil, Size.refInline, Size.refIdent, Size.ident] at this ⊢
      omega
    · unfold Size.column
      rw [hs]
      simp only [Size.opt, Size.columnSettings, Size.list]
      omega

theorem sum_flatMap {α β : Type} (f : α → List β) (g : β → Nat) : ∀ l : List α, ((l.flatMap f).map g).sum = (l.map fun a => ((f a).map g).sum).sum
  | [] => rfl
  | a :: l => by simp [List.flatMap_cons, sum_flatMap f g l]

theorem inlineRefs_le (ts : List TableBlock) : ((inlineRefs ts).map fun r => refW r + refA r).sum ≤ Size.list Size.table ts := by
  unfold inlineRefs
  rw [sum_flatMap]
  refine sum_le fun t _ => ?_
  rw [sum_flatMap]
  refine Nat.le_trans (sum_le (g := Size.column) fun c _ => columnRefs_le _ c) ?_
  unfold Size.table Size.list
  omega

theorem refs_le (rs : List RefBlock) : ((rs.map IndexedRef.ofRefBlock).map fun r => refW r + refA r).sum ≤ Size.list Size.ref rs := by
  rw [List.map_map]
  refine sum_le fun r _ => ?_
  have := length_le (l := r.lhs.compositions) ident_pos
  have := length_le (l := r.rhs.compositions) ident_pos
  have : refA (IndexedRef.ofRefBlock r) ≤ Size.opt Size.refSettings r.settings := by
    unfold refA IndexedRef.ofRefBlock
    cases r.settings with
    | none => simp [Size.opt]
    | some x =>
      have := length_le (l := x.attributes) attr_pos
      simp only [Option.map_some, Option.getD_some, Size.opt, Size.refSettings]
      omega
  simp only [Function.comp]
  simp only [refW, IndexedRef.ofRefBlock, Size.ref, Size.refIdent] at this ⊢
  omega

theorem inlineSteps_le (ts : List TableBlock) : inlineSteps ts ≤ 5 * Size.list Size.table ts := by
  unfold inlineSteps
  have h1 : ∀ t : TableBlock, (t.cols.map fun c => 1 + Size.opt Size.columnSettings c.settings + 4 * ((c.settings.map (·.refs)).getD []).length).sum ≤
      5 * (Size.table t * 1) := by
    intro t
    refine Nat.le_trans (sum_le (g := fun c => 5 * (Size.column c * 1)) fun c _ => ?_) ?_
    · cases hs : c.settings with
      | none => simp only [Size.opt, Option.map_none, Option.getD_none, List.length_nil]; unfold Size.column; omega
      | some s =>
        have := length_le (l := s.refs) (f := Size.refInline) (by intro x; unfold Size.refInline; omega)
        simp only [Size.opt, Option.map_some, Option.getD_some, Size.column, hs, Size.columnSettings]
        omega
    · rw [sum_mul]
      unfold Size.table
      omega
  refine Nat.le_trans (sum_le fun t _ => h1 t) ?_
  rw [sum_mul]
  omega

theorem sum_mem {α : Type} (f : α → Nat) : ∀ (l : List α) (a : α), a ∈ l → f a ≤ (l.map f).sum := fun l a h => mem_le (f := f) h

/-- The analysis takes quadratically many steps, up to a logarithmic factor. -/
theorem analyzeC_le (s : SchemaBlock) : (analyzeC s).steps ≤ 800 * (Size.schema s * (Size.schema s * (Nat.log2 (Size.schema s) + 1))) := by
  suffices h : ∀ M L, M = Size.schema s → High M L → Runs (analyzeC s) (400 * (M * (M * L))) fun _ => True by
    have h0 : Size.schema s ≠ 0 := by unfold Size.schema; omega
    have hh : High (Size.schema s) (Nat.log2 (Size.schema s) + 2) := by
      intro n hn
      by_cases hz : n = 0
      · subst hz; rw [Nat.log2_zero]; omega
      · have h1 : n < 2 ^ (Nat.log2 (Size.schema s) + 2) := by
          have := Nat.lt_log2_self (n := Size.schema s)
          rw [Nat.pow_succ]
          omega
        have := (Nat.log2_lt hz).2 h1
        omega
    have := (h _ _ rfl hh).1
    refine Nat.le_trans this ?_
    have e : 800 * (Size.schema s * (Size.schema s * (Nat.log2 (Size.schema s) + 1))) =
      400 * (Size.schema s * (Size.schema s * (2 * (Nat.log2 (Size.schema s) + 1)))) := by ring
    rw [e]
    exact Nat.mul_le_mul_left _ (Nat.mul_le_mul_left _ (Nat.mul_le_mul_left _ (by omega)))
  intro M L hMe hL
  have hsp := schema_split s
  have hM : s.input.length + 1 ≤ M := by omega
  have hM2 : 2 ≤ M := by omega
  have hMM : M ≤ M * M := Nat.le_mul_of_pos_left M (by omega)
  have hMMM : M * M ≤ M * (M * L) := Nat.mul_le_mul_left M (Nat.le_mul_of_pos_right M hL.pos)
  have lt := length_le (l := s.tables) (f := Size.table) (by intro x; unfold Size.table; omega)
  have le := length_le (l := s.enums) (f := Size.enum) (by intro x; unfold Size.enum; omega)
  have lg := length_le (l := s.table_groups) (f := Size.tableGroup) (by intro x; unfold Size.tableGroup; omega)
  have mt : Size.list Size.table s.tables * M ≤ M * M := Nat.mul_le_mul_right M (by omega)
  have me : Size.list Size.enum s.enums * M ≤ M * M := Nat.mul_le_mul_right M (by omega)
  have mg : Size.list Size.tableGroup s.table_groups * M ≤ M * M := Nat.mul_le_mul_right M (by omega)
  have hin := inlineSteps_le s.tables
  have hrefs := refs_le s.refs
  have hinl := inlineRefs_le s.tables
  have hw : ((s.refs.map IndexedRef.ofRefBlock ++ inlineRefs s.tables).map fun r => refW r + refA r).sum ≤ M := by
    rw [List.map_append, List.sum_append]; omega
  have hw' : ((s.refs.map IndexedRef.ofRefBlock ++ inlineRefs s.tables).map refW).sum ≤ M :=
    Nat.le_trans (sum_le (g := fun r => refW r + refA r) fun r _ => by omega) hw
  unfold analyzeC
  refine Runs.tick (by omega) ?_
  refine Runs.bind (m := 330 * (M * (M * L))) (checkProjectC_le hM s.projects s.span_range (by omega)) (fun _ _ => ?_) (by omega)
  refine Runs.bind (m := 315 * (M * (M * L))) (indexTableC_le hM (ts := s.tables) (by omega)) (fun ix1 h1 => ?_) (by omega)
  refine Runs.bind (m := 305 * (M * (M * L))) (indexEnumsC_le hM (ts := s.enums) h1 (by omega)) (fun ix2 h2 => ?_) (by omega)
  refine Runs.bind (m := 294 * (M * (M * L))) (indexTableGroupsC_le hM (ts := s.table_groups) h2 (by omega)) (fun ix h => ?_) (by omega)
  have hct := Runs.forEach (f := fun t => checkTableC t s.input) (b := fun t => 13 * (Size.table t * M)) s.tables
    fun t ht => checkTableC_le hM t (by have := mem_le (f := Size.table) ht; omega)
  rw [sum_mul] at hct
  refine Runs.bind (m := 281 * (M * (M * L))) hct (fun _ _ => ?_) (by omega)
  refine Runs.tick (by omega) ?_
  have hty := Runs.mapM (f := typeTableC ix s.input) (b := fun t => 78 * (Size.table t * M)) (Q := fun _ => TyBd M) s.tables
    fun t ht => typeTableC_le hM h (by omega) t (by have := mem_le (f := Size.table) ht; omega)
  rw [sum_mul] at hty
  refine Runs.bind (m := 192 * (M * (M * L))) hty (fun typed hty' => ?_) (by omega)
  have hre := Runs.forEach (f := checkRefC typed ix (s.refs.map IndexedRef.ofRefBlock ++ inlineRefs s.tables) s.input)
    (b := fun r => 192 * ((refW r + refA r) * (M * L))) (s.refs.map IndexedRef.ofRefBlock ++ inlineRefs s.tables)
    fun r hr => checkRefC_le hM hL h (by omega) (by omega) (fun t ht => by obtain ⟨_, _, hq⟩ := hty'.2 t ht; exact hq) _ hw' r
      (Nat.le_trans (sum_mem (fun r => refW r + refA r) _ r hr) hw)
  rw [sum_mul (fun r => refW r + refA r)] at hre
  refine Runs.bind (m := 0) hre (fun _ _ => Runs.pure trivial) ?_
  have : Size.list (fun r => refW r + refA r) (s.refs.map IndexedRef.ofRefBlock ++ inlineRefs s.tables) * (M * L) ≤ M * (M * L) := Nat.mul_le_mul_right _ hw
  omega

end Dbml
