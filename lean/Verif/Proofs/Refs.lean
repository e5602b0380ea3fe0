import Verif.Proofs.Columns

/-!
# The checks of references
-/

set_option linter.unusedSimpArgs false

namespace Dbml
open Spec

/-! ## Uniqueness -/

theorem nodup_map_inj {α β : Type} {f : α → β} {l : List α} (h : (l.map f).Nodup) {x y : α} (hx : x ∈ l)
    (hy : y ∈ l) (he : f x = f y) : x = y := by
  induction l with
  | nil => simp at hx
  | cons a l ih =>
    simp only [List.map_cons, List.nodup_cons, List.mem_map, not_exists, not_and] at h
    rcases List.mem_cons.1 hx with rfl | hx' <;> rcases List.mem_cons.1 hy with rfl | hy'
    · rfl
    · exact absurd he.symm (h.1 y hy')
    · exact absurd he (h.1 x hx')
    · exact ih h.2 hx' hy'

theorem nodup_filterMap_inj {α β : Type} {f : α → Option β} {l : List α} (h : (l.filterMap f).Nodup) {x y : α} {b}
    (hx : x ∈ l) (hy : y ∈ l) (h1 : f x = some b) (h2 : f y = some b) : x = y := by
  induction l with
  | nil => simp at hx
  | cons a l ih =>
    rcases List.mem_cons.1 hx with rfl | hx' <;> rcases List.mem_cons.1 hy with rfl | hy'
    · rfl
    · rw [List.filterMap_cons_some h1, List.nodup_cons] at h
      exact absurd (List.mem_filterMap.2 ⟨y, hy', h2⟩) h.1
    · rw [List.filterMap_cons_some h2, List.nodup_cons] at h
      exact absurd (List.mem_filterMap.2 ⟨x, hx', h1⟩) h.1
    · refine ih ?_ hx' hy'
      cases ha : f a with
      | none => rwa [List.filterMap_cons_none ha] at h
      | some c => rw [List.filterMap_cons_some ha, List.nodup_cons] at h; exact h.2

section
variable {s : SchemaBlock}

theorem Spec.Unaliased.unique (hn : (s.tables.filterMap aliasOf).Nodup) {e a b : End}
    (h1 : Unaliased s e a) (h2 : Unaliased s e b) : a = b := by
  rcases h1 with ⟨t, ht, rfl⟩ | ⟨h1, rfl⟩ <;> rcases h2 with ⟨t', ht', rfl⟩ | ⟨h2, rfl⟩
  · rw [nodup_filterMap_inj hn ht.1 ht'.1 ht.2 ht'.2]
  · exact absurd ht (h2 t)
  · exact absurd ht' (h1 t')
  · rfl

theorem Spec.Names.key {e : End} {t : TableBlock} (h : Names s e t) : tableKey t = endKey e := by
  obtain ⟨-, h1, h2⟩ := h
  unfold tableKey endKey schemaOf
  rw [h2, ← h1]
  cases t.ident.schema <;> rfl

theorem Spec.Names.unique (hn : (s.tables.map tableKey).Nodup) {e : End} {t t' : TableBlock} (h : Names s e t)
    (h' : Names s e t') : t = t' :=
  nodup_map_inj hn h.1 h'.1 (h.key.trans h'.key.symm)

theorem Spec.IsColumn.unique {t : TableBlock} (hn : (colNames t).Nodup) {n : Str} {c d : TableColumn}
    (h : IsColumn t n c) (h' : IsColumn t n d) : c = d :=
  nodup_map_inj hn h.1 h'.1 (h.2.trans h'.2.symm)

theorem Spec.IsColumn.mem {t : TableBlock} {n : Str} {c : TableColumn} (h : IsColumn t n c) : n ∈ colNames t :=
  List.mem_map.2 ⟨c, h.1, h.2⟩

theorem Spec.SameType.typed {c d c' d' : TableColumn} (hc : Typed c c') (hd : Typed d d') :
    SameType c d ↔ c'.type.type_name = d'.type.type_name ∧ c'.type.args = d'.type.args ∧
      c'.type.arrays = d'.type.arrays := by
  obtain ⟨n, ty, h1, h2, rfl⟩ := hc
  obtain ⟨m, ty', h3, h4, rfl⟩ := hd
  unfold SameType
  constructor
  · rintro ⟨h5, h6, n', m', ty'', h7, h8, h9, h10⟩
    have e1 : n' = n := by have := h7.symm.trans h1; simpa using this
    have e2 : m' = m := by have := h8.symm.trans h3; simpa using this
    subst e1 e2
    exact ⟨(Resolves.unique h2 h9).trans (Resolves.unique h10 h4), h5, h6⟩
  · rintro ⟨h5, h6, h7⟩
    simp only at h5
    subst h5
    exact ⟨h6, h7, n, m, ty, h1, h3, h2, h4⟩

/-! ## Resolved endpoints -/

theorem resolve_unaliased {ix} (hk : Indexed s ix) (e : RefIdent) :
    Unaliased s (endOf e) (endOf (ix.resolveRefAlias e)) := by
  unfold Indexer.resolveRefAlias Indexer.resolveAlias
  cases h : mapGet ix.table_alias_map e.table.to_string with
  | none => exact Or.inr ⟨fun t ht => hk.alias_none _ h t ht.1 ht.2, rfl⟩
  | some k =>
    obtain ⟨t, ht, h1, h2⟩ := hk.alias_some _ _ h
    refine Or.inl ⟨t, ⟨ht, h1⟩, ?_⟩
    rw [h2]; rfl

theorem resolve_cols (ix : Indexer) (e : RefIdent) : (ix.resolveRefAlias e).compositions = e.compositions := by
  unfold Indexer.resolveRefAlias; split <;> rfl

theorem resolve_span (ix : Indexer) (e : RefIdent) : (ix.resolveRefAlias e).span_range = e.span_range := by
  unfold Indexer.resolveRefAlias; split <;> rfl

theorem resolve_table_span (ix : Indexer) (e : RefIdent) : EndSpan e (ix.resolveRefAlias e).table.span_range := by
  unfold Indexer.resolveRefAlias
  split
  · exact Or.inl rfl
  · exact Or.inr (Or.inl rfl)

theorem resolve_schema_span (ix : Indexer) (e : RefIdent) :
    EndSpan e (((ix.resolveRefAlias e).schema.map (·.span_range)).getD .zero) ∨
    (e.schema = none ∧ ((ix.resolveRefAlias e).schema.map (·.span_range)).getD .zero = .zero) := by
  unfold Indexer.resolveRefAlias
  split
  · exact Or.inl (Or.inl rfl)
  · cases h : e.schema with
    | none => exact Or.inr ⟨rfl, rfl⟩
    | some i => exact Or.inl (Or.inr (Or.inr ⟨i, h, rfl⟩))

variable {input : Str} {K : PanicSite → Prop}

theorem lookupTableFields_out {ix} (hk : Indexed s ix) {r : IndexedRef} (hr : r ∈ refsInOrder s) {e : RefIdent}
    (he : e ∈ [r.lhs, r.rhs]) :
    Outcome input (fun _ => ∃ t ∈ s.tables, tableKey t = endKey (endOf (ix.resolveRefAlias e)) ∧
        ∀ i ∈ e.compositions, i.to_string ∈ colNames t) (RefDefect s r) K
      (ix.lookupTableFields (ix.resolveRefAlias e).schema (ix.resolveRefAlias e).table
        (ix.resolveRefAlias e).compositions input) := by
  have hu := resolve_unaliased hk e
  have hkey : endKey (endOf (ix.resolveRefAlias e)) =
      (schemaOrDefault (ix.resolveRefAlias e).schema, (ix.resolveRefAlias e).table.to_string) := by
    rw [schemaOrDefault_eq]
    unfold endKey endOf schemaOf
    cases (ix.resolveRefAlias e).schema <;> rfl
  unfold Indexer.lookupTableFields
  rw [resolve_cols]
  cases h1 : mapGet ix.schema_map (schemaOrDefault (ix.resolveRefAlias e).schema) with
  | none =>
    refine Outcome.throw (.refSchema he hu ?_ (resolve_schema_span ix e))
    intro h2
    rw [hkey] at h2
    have := (hk.schema _).2 h2
    simp [h1] at this
  | some b =>
    simp only
    cases h2 : mapGet b.table_map (ix.resolveRefAlias e).table.to_string with
    | none =>
      refine Outcome.throw (.refTable he hu ?_ (resolve_table_span ix e))
      intro t ht
      refine hk.table_none _ ?_ t ht.1 (ht.key.trans hkey)
      simp [Indexer.table?, h1, h2]
    | some cs =>
      obtain ⟨t, ht, h3, h4⟩ := hk.table_some (schemaOrDefault (ix.resolveRefAlias e).schema,
        (ix.resolveRefAlias e).table.to_string) cs (by simp [Indexer.table?, h1, h2])
      simp only
      cases h5 : (e.compositions.filter fun v => !cs.contains v.to_string).head? with
      | none =>
        refine ⟨t, ht, h3.trans hkey.symm, ?_⟩
        intro i hi
        have h5 : (e.compositions.filter fun v => !cs.contains v.to_string) = [] := by simpa using h5
        rw [List.filter_eq_nil_iff] at h5
        have := h5 i hi
        rw [← h4]
        simpa using this
      | some i =>
        have hi := List.mem_of_mem_head? (Option.mem_def.2 h5 : i ∈ (e.compositions.filter fun v => !cs.contains v.to_string).head?)
        obtain ⟨h6, h7⟩ := List.mem_filter.1 hi
        refine Outcome.throw (.refColumn he hu ht (h3.trans hkey.symm) h6 ?_)
        rw [← h4]
        simpa using h7

/-- A table with its columns typed. -/
def TypedTable (t t' : TableBlock) : Prop :=
  t'.ident = t.ident ∧ t'.indexes = t.indexes ∧ All2 Typed t.cols t'.cols

theorem All2.mem_right {α β : Type} {R : α → β → Prop} {as bs} (h : All2 R as bs) {b} (hb : b ∈ bs) :
    ∃ a ∈ as, R a b := by
  induction h with
  | nil => simp at hb
  | cons h1 _ ih =>
    rcases List.mem_cons.1 hb with rfl | hb
    · exact ⟨_, by simp, h1⟩
    · obtain ⟨a, ha, h2⟩ := ih hb
      exact ⟨a, by simp [ha], h2⟩

theorem All2.mem_left {α β : Type} {R : α → β → Prop} {as bs} (h : All2 R as bs) {a} (ha : a ∈ as) :
    ∃ b ∈ bs, R a b := by
  induction h with
  | nil => simp at ha
  | cons h1 _ ih =>
    rcases List.mem_cons.1 ha with rfl | ha
    · exact ⟨_, by simp, h1⟩
    · obtain ⟨b, hb, h2⟩ := ih ha
      exact ⟨b, by simp [hb], h2⟩

theorem findRefTable_out {ix typed} (hk : Indexed s ix) (hty : All2 TypedTable s.tables typed)
    {r : IndexedRef} (hr : r ∈ refsInOrder s) {e : RefIdent} (he : e ∈ [r.lhs, r.rhs]) :
    Outcome input (fun t' => ∃ t, Names s (endOf (ix.resolveRefAlias e)) t ∧ TypedTable t t') (RefDefect s r) K
      (IndexedRef.findRefTable typed (ix.resolveRefAlias e) input) := by
  unfold IndexedRef.findRefTable
  split
  · rename_i t' ht'
    obtain ⟨t, ht, h1⟩ := hty.mem_right (List.mem_of_find?_eq_some ht')
    have h2 := List.find?_some ht'
    simp only [Bool.and_eq_true, decide_eq_true_eq] at h2
    rw [h1.1] at h2
    exact ⟨t, ⟨ht, h2.1, h2.2⟩, h1⟩
  · rename_i hnone
    rw [resolve_span]
    refine Outcome.throw (.refTable he (resolve_unaliased hk e) ?_ (Or.inl rfl))
    intro t ht
    obtain ⟨t', ht', h1⟩ := hty.mem_left ht.1
    have := List.find?_eq_none.1 hnone t' ht'
    simp only [Bool.and_eq_true, decide_eq_true_eq] at this
    rw [h1.1] at this
    exact this ⟨ht.2.1, ht.2.2⟩

theorem typed_name {c c' : TableColumn} (h : Typed c c') : c'.name = c.name ∧ c'.settings = c.settings ∧
    c'.type.raw = c.type.raw := by
  obtain ⟨n, ty, -, -, rfl⟩ := h; exact ⟨rfl, rfl, rfl⟩

theorem findRefCol_out {ix} (hk : Indexed s ix) {r : IndexedRef} (hr : r ∈ refsInOrder s) {e : RefIdent}
    (he : e ∈ [r.lhs, r.rhs]) {t t'} (ht : Names s (endOf (ix.resolveRefAlias e)) t) (htt : TypedTable t t')
    {i : Ident} (hi : i ∈ e.compositions) :
    Outcome input (fun c' => ∃ c, IsColumn t i.to_string c ∧ Typed c c') (RefDefect s r) K
      (IndexedRef.findRefCol i t' input) := by
  unfold IndexedRef.findRefCol
  split
  · rename_i c' hc'
    obtain ⟨c, hc, h1⟩ := htt.2.2.mem_right (List.mem_of_find?_eq_some hc')
    have h2 := List.find?_some hc'
    simp only [decide_eq_true_eq] at h2
    rw [(typed_name h1).1] at h2
    exact ⟨c, ⟨hc, h2⟩, h1⟩
  · rename_i hnone
    refine Outcome.throw (.refColumn he (resolve_unaliased hk e) ht.1 ht.key hi ?_)
    intro hm
    obtain ⟨c, hc, h1⟩ := List.mem_map.1 hm
    obtain ⟨c', hc', h2⟩ := htt.2.2.mem_left hc
    have := List.find?_eq_none.1 hnone c' hc'
    rw [(typed_name h2).1] at this
    simp [h1] at this

/-! ## Keys -/

theorem colIsKey_iff {t : TableBlock} (hn : (colNames t).Nodup) {n c c'} (hc : IsColumn t n c) (ht : Typed c c') :
    IndexedRef.colIsKey c' = true ↔ SingleKey t n := by
  unfold IndexedRef.colIsKey SingleKey
  rw [(typed_name ht).2.1]
  constructor
  · intro h
    refine ⟨c, hc, ?_⟩
    cases hs : c.settings with
    | none => simp [hs] at h
    | some st =>
      rw [hs] at h
      simp only [Bool.or_eq_true] at h
      rw [isPkCol_some hs, isUniqueCol_some hs]; exact h
  · rintro ⟨d, hd, h⟩
    rw [IsColumn.unique hn hd hc] at h
    cases hs : c.settings with
    | none => simp [IsPkCol, IsUniqueCol, hs] at h
    | some st =>
      rw [isPkCol_some hs, isUniqueCol_some hs] at h
      simpa using h

theorem eqElements_iff {α : Type} [DecidableEq α] {l r : List α} :
    eqElements l r = true ↔ ∀ x, x ∈ l ↔ x ∈ r := by
  unfold eqElements
  simp only [Bool.and_eq_true, List.all_eq_true, List.contains_iff_mem]
  constructor
  · rintro ⟨h1, h2⟩ x; exact ⟨h1 x, h2 x⟩
  · intro h; exact ⟨fun x => (h x).1, fun x => (h x).2⟩

theorem isValidComposite_iff {t : TableBlock} {cols : List Ident} :
    IndexedRef.isValidComposite cols t.indexes = true ↔ CompositeKey t (cols.map (·.to_string)) := by
  unfold IndexedRef.isValidComposite CompositeKey defsOf
  cases t.indexes with
  | none => simp
  | some b =>
    simp only [List.any_eq_true, Bool.and_eq_true, decide_eq_true_eq, eqElements_iff, Option.map_some,
      Option.getD_some, List.length_map, defNames_eq]
    constructor
    · rintro ⟨d, hd, ⟨h1, h2⟩, h3⟩
      refine ⟨d, hd, ?_, h1.symm, h3⟩
      cases hs : d.settings with
      | none => simp [hs] at h2
      | some st =>
        rw [hs] at h2
        simp only [Bool.or_eq_true] at h2
        rw [isPkIndex_some hs, isUniqueIndex_some hs]; exact h2
    · rintro ⟨d, hd, h2, h1, h3⟩
      refine ⟨d, hd, ⟨h1.symm, ?_⟩, h3⟩
      cases hs : d.settings with
      | none => simp [IsPkIndex, IsUniqueIndex, hs] at h2
      | some st =>
        rw [isPkIndex_some hs, isUniqueIndex_some hs] at h2
        simpa using h2

/-- What is known about the ends of a reference when its columns are compared. -/
structure Ends (s : SchemaBlock) (ix : Indexer) (r : IndexedRef) (tl tr : TableBlock) : Prop where
  mem : r ∈ refsInOrder s
  lhs : Names s (endOf (ix.resolveRefAlias r.lhs)) tl
  rhs : Names s (endOf (ix.resolveRefAlias r.rhs)) tr

theorem endOf_cols (ix : Indexer) (e : RefIdent) :
    (endOf (ix.resolveRefAlias e)).cols = e.compositions.map (·.to_string) := by
  unfold endOf; rw [resolve_cols]

theorem singleKey_out {ix} (hk : Indexed s ix) (hcols : ∀ t ∈ s.tables, (colNames t).Nodup)
    {r tl tr} (he : Ends s ix r tl tr) {x y : Ident} (hx : r.lhs.compositions = [x])
    (hy : r.rhs.compositions = [y]) {c c' d d'} (hc : IsColumn tl x.to_string c) (hc' : Typed c c')
    (hd : IsColumn tr y.to_string d) (hd' : Typed d d') :
    Outcome input (fun _ => KeyOk r.rel tl tr (r.lhs.compositions.map (·.to_string))
        (r.rhs.compositions.map (·.to_string))) (RefDefect s r) K
      (IndexedRef.throwKeyErr (r.singleKeyErr (IndexedRef.colIsKey c') (IndexedRef.colIsKey d')) input) := by
  have h1 := colIsKey_iff (hcols tl he.lhs.1) hc hc'
  have h2 := colIsKey_iff (hcols tr he.rhs.1) hd hd'
  have hel := endOf_cols ix r.lhs
  have her := endOf_cols ix r.rhs
  rw [hx] at hel
  rw [hy] at her
  have hD : ¬ KeyOk r.rel tl tr [x.to_string] [y.to_string] →
      RefDefect s r (.invalidForeignKey (keyKind r.rel false)) (keySpan r) := by
    intro h
    have := RefDefect.refKey (resolve_unaliased hk r.lhs) (resolve_unaliased hk r.rhs) he.lhs he.rhs
      (by rw [hel, her]; exact h)
    rw [hel] at this
    exact this
  rw [hx, hy]
  simp only [List.map_cons, List.map_nil]
  unfold IndexedRef.throwKeyErr IndexedRef.singleKeyErr
  cases hrel : r.rel <;> cases hl : IndexedRef.colIsKey c' <;> cases hr : IndexedRef.colIsKey d' <;>
    simp only [hl, hr, Bool.false_eq_true, false_iff, true_iff] at h1 h2 <;>
    rw [hrel] at hD <;>
    simp only [KeyOk, h1, h2, keyKind, keySpan, hrel, or_self, not_false_eq_true, not_true_eq_false,
      true_or, or_true, forall_const, false_or, or_false] at hD ⊢ <;>
    first
      | exact Outcome.throw hD
      | exact trivial

theorem compositeKey_out {ix} (hk : Indexed s ix) {r tl tr} (he : Ends s ix r tl tr)
    (hlen : 2 ≤ r.lhs.compositions.length) (heq : r.lhs.compositions.length = r.rhs.compositions.length) :
    Outcome input (fun _ => KeyOk r.rel tl tr (r.lhs.compositions.map (·.to_string))
        (r.rhs.compositions.map (·.to_string))) (RefDefect s r) K
      (IndexedRef.throwKeyErr (r.compositeKeyErr (IndexedRef.isValidComposite r.lhs.compositions tl.indexes)
        (IndexedRef.isValidComposite r.rhs.compositions tr.indexes)) input) := by
  have h1 := isValidComposite_iff (t := tl) (cols := r.lhs.compositions)
  have h2 := isValidComposite_iff (t := tr) (cols := r.rhs.compositions)
  have hel := endOf_cols ix r.lhs
  have her := endOf_cols ix r.rhs
  have hD : ¬ KeyOk r.rel tl tr (r.lhs.compositions.map (·.to_string)) (r.rhs.compositions.map (·.to_string)) →
      RefDefect s r (.invalidForeignKey (keyKind r.rel true)) (keySpan r) := by
    intro h
    have := RefDefect.refKey (resolve_unaliased hk r.lhs) (resolve_unaliased hk r.rhs) he.lhs he.rhs
      (by rw [hel, her]; exact h)
    rw [hel, List.length_map, decide_eq_true hlen] at this
    exact this
  unfold IndexedRef.throwKeyErr IndexedRef.compositeKeyErr
  match hL : r.lhs.compositions, hR : r.rhs.compositions with
  | [], _ => simp [hL] at hlen
  | [_], _ => simp [hL] at hlen
  | x :: x' :: xs, [] => simp [hL, hR] at heq
  | x :: x' :: xs, [_] => simp [hL, hR] at heq
  | x :: x' :: xs, y :: y' :: ys =>
    rw [hL] at h1 hD
    rw [hR] at h2 hD
    generalize hl : IndexedRef.isValidComposite (x :: x' :: xs) tl.indexes = bl at h1 ⊢
    generalize hr : IndexedRef.isValidComposite (y :: y' :: ys) tr.indexes = br at h2 ⊢
    simp only [List.map_cons] at h1 h2 hD ⊢
    cases hrel : r.rel <;> cases bl <;> cases br <;>
      simp only [Bool.false_eq_true, false_iff, true_iff] at h1 h2 <;>
      rw [hrel] at hD <;>
      simp only [KeyOk, h1, h2, keyKind, keySpan, hrel, or_self, not_false_eq_true, not_true_eq_false,
        true_or, or_true, forall_const, false_or, or_false, and_self, and_false, false_and, and_true, true_and,
        Bool.not_true, Bool.not_false, Bool.and_true, Bool.and_false, Bool.or_true, Bool.or_false, if_true,
        if_false, Bool.false_eq_true, Bool.true_and, Bool.false_and, Bool.true_or, Bool.false_or,
        reduceIte] at hD ⊢ <;>
      first
        | exact Outcome.throw hD
        | exact trivial

/-! ## Pairs of columns -/

/-- All that is required of a reference, except that it has a direction. -/
def LinkBody (s : SchemaBlock) (k : Link) : Prop :=
  k.lhs.cols.length = k.rhs.cols.length ∧
  ∃ l r tl tr, Unaliased s k.lhs l ∧ Unaliased s k.rhs r ∧ Names s l tl ∧ Names s r tr ∧
    (∀ n ∈ l.cols, n ∈ colNames tl) ∧ (∀ n ∈ r.cols, n ∈ colNames tr) ∧
    (∀ p ∈ l.cols.zip r.cols, ∀ c d, IsColumn tl p.1 c → IsColumn tr p.2 d → SameType c d) ∧
    KeyOk k.rel tl tr l.cols r.cols

theorem checkFieldPair_out {ix} (hk : Indexed s ix) (hcols : ∀ t ∈ s.tables, (colNames t).Nodup)
    {r tl tr tl' tr'} (he : Ends s ix r tl tr) (hl' : TypedTable tl tl') (hr' : TypedTable tr tr')
    (heq : r.lhs.compositions.length = r.rhs.compositions.length) {x y : Ident}
    (hxy : (x, y) ∈ r.lhs.compositions.zip r.rhs.compositions) :
    Outcome input (fun _ => (∀ c d, IsColumn tl x.to_string c → IsColumn tr y.to_string d → SameType c d) ∧
        (r.lhs.compositions.length = 1 → KeyOk r.rel tl tr (r.lhs.compositions.map (·.to_string))
        (r.rhs.compositions.map (·.to_string)))) (RefDefect s r) K
      (r.checkFieldPair tl' tr' r.lhs.compositions.length x y input) := by
  unfold IndexedRef.checkFieldPair
  refine (findRefCol_out hk he.mem (e := r.lhs) (by simp) he.lhs hl' (List.of_mem_zip hxy).1).bind fun c' hc => ?_
  obtain ⟨c, hc, hc'⟩ := hc
  refine (findRefCol_out hk he.mem (e := r.rhs) (by simp) he.rhs hr' (List.of_mem_zip hxy).2).bind fun d' hd => ?_
  obtain ⟨d, hd, hd'⟩ := hd
  refine Outcome.ite (fun h => ?_) fun h => ?_
  · rw [(typed_name hd').2.2]
    refine Outcome.throw (.refType (resolve_unaliased hk r.lhs) (resolve_unaliased hk r.rhs) he.lhs he.rhs
      hxy hc hd ?_)
    rw [SameType.typed hc' hd']
    rintro ⟨h1, h2, h3⟩
    rcases h with h | h | h
    · exact h h1
    · exact h h2
    · exact h h3
  · simp only [ne_eq, not_or, Decidable.not_not] at h
    have hsame : ∀ a b, IsColumn tl x.to_string a → IsColumn tr y.to_string b → SameType a b := by
      intro a b ha hb
      rw [IsColumn.unique (hcols tl he.lhs.1) ha hc, IsColumn.unique (hcols tr he.rhs.1) hb hd,
        SameType.typed hc' hd']
      exact h
    refine Outcome.ite (fun h1 => ?_) fun h1 => ⟨hsame, fun h' => absurd h' h1⟩
    obtain ⟨x', hx'⟩ := List.length_eq_one_iff.1 h1
    obtain ⟨y', hy'⟩ := List.length_eq_one_iff.1 (heq ▸ h1)
    rw [hx', hy'] at hxy
    have e1 : x = x' := by simp at hxy; exact hxy.1
    have e2 : y = y' := by simp at hxy; exact hxy.2
    subst e1 e2
    exact (singleKey_out hk hcols he hx' hy' hc hc' hd hd').mono (fun _ h => ⟨hsame, fun _ => h⟩)
      (fun _ _ h => h) fun _ h => h

theorem checkFieldPairs_out {ix} (hk : Indexed s ix) (hcols : ∀ t ∈ s.tables, (colNames t).Nodup)
    {r tl tr tl' tr'} (he : Ends s ix r tl tr) (hl' : TypedTable tl tl') (hr' : TypedTable tr tr')
    (heq : r.lhs.compositions.length = r.rhs.compositions.length) (ps : List (Ident × Ident))
    (hps : ∀ p ∈ ps, p ∈ r.lhs.compositions.zip r.rhs.compositions) :
    Outcome input (fun _ => ∀ p ∈ ps, (∀ c d, IsColumn tl p.1.to_string c → IsColumn tr p.2.to_string d →
        SameType c d) ∧ (r.lhs.compositions.length = 1 → KeyOk r.rel tl tr (r.lhs.compositions.map (·.to_string))
        (r.rhs.compositions.map (·.to_string)))) (RefDefect s r) K
      (r.checkFieldPairs tl' tr' r.lhs.compositions.length input ps) := by
  induction ps with
  | nil => simp [IndexedRef.checkFieldPairs, Outcome]
  | cons p ps ih =>
    obtain ⟨x, y⟩ := p
    unfold IndexedRef.checkFieldPairs
    refine (checkFieldPair_out hk hcols he hl' hr' heq (hps (x, y) (by simp))).bind fun _ h1 => ?_
    refine (ih fun p hp => hps p (by simp [hp])).mono ?_ (fun _ _ h => h) fun _ h => h
    intro _ h2 p hp
    rcases List.mem_cons.1 hp with rfl | hp
    · exact h1
    · exact h2 p hp

theorem validateRefType_out {ix typed} (hk : Indexed s ix) (htn : TableNamesOk s)
    (hty : All2 TypedTable s.tables typed) {r : IndexedRef} (hr : r ∈ refsInOrder s) :
    Outcome input (fun _ => LinkBody s (linkOf r)) (RefDefect s r) K (r.validateRefType typed ix input) := by
  unfold IndexedRef.validateRefType
  refine Outcome.ite (fun h => ?_) fun h => ?_
  · rw [resolve_cols, resolve_cols] at h
    exact Outcome.throw (.refArity h)
  simp only [resolve_cols, ne_eq, Decidable.not_not] at h
  refine (lookupTableFields_out hk hr (e := r.lhs) (by simp)).bind fun _ hl => ?_
  refine (lookupTableFields_out hk hr (e := r.rhs) (by simp)).bind fun _ hrr => ?_
  obtain ⟨tl, htl, hl1, hl2⟩ := hl
  obtain ⟨tr, htr, hr1, hr2⟩ := hrr
  refine (findRefTable_out hk hty hr (e := r.lhs) (by simp)).bind fun tl' htl' => ?_
  refine (findRefTable_out hk hty hr (e := r.rhs) (by simp)).bind fun tr' htr' => ?_
  obtain ⟨t1, hn1, ht1⟩ := htl'
  obtain ⟨t2, hn2, ht2⟩ := htr'
  have e1 : t1 = tl := nodup_map_inj htn.1 hn1.1 htl (hn1.key.trans hl1.symm)
  have e2 : t2 = tr := nodup_map_inj htn.1 hn2.1 htr (hn2.key.trans hr1.symm)
  subst e1 e2
  have he : Ends s ix r t1 t2 := ⟨hr, hn1, hn2⟩
  have hmax : max (ix.resolveRefAlias r.lhs).compositions.length (ix.resolveRefAlias r.rhs).compositions.length =
      r.lhs.compositions.length := by rw [resolve_cols, resolve_cols]; omega
  rw [hmax, resolve_cols, resolve_cols]
  refine (checkFieldPairs_out hk htn.2.2 he ht1 ht2 h _ fun _ h => h).bind fun _ hp => ?_
  have hfin : KeyOk r.rel t1 t2 (r.lhs.compositions.map (·.to_string)) (r.rhs.compositions.map (·.to_string)) →
      LinkBody s (linkOf r) := by
    intro hkey
    refine ⟨by simpa [linkOf, endOf] using h, _, _, t1, t2, resolve_unaliased hk r.lhs, resolve_unaliased hk r.rhs,
      hn1, hn2, ?_, ?_, ?_, ?_⟩
    · rw [endOf_cols]
      intro n hn
      obtain ⟨i, hi, rfl⟩ := List.mem_map.1 hn
      exact hl2 i hi
    · rw [endOf_cols]
      intro n hn
      obtain ⟨i, hi, rfl⟩ := List.mem_map.1 hn
      exact hr2 i hi
    · rw [endOf_cols, endOf_cols]
      intro p hp' c d hc hd
      rw [List.zip_map, List.mem_map] at hp'
      obtain ⟨⟨x, y⟩, hq, rfl⟩ := hp'
      exact (hp _ hq).1 c d hc hd
    · rw [endOf_cols, endOf_cols]; exact hkey
  refine Outcome.ite (fun h2 => ?_) fun h2 => ?_
  · rw [ht1.2.1, ht2.2.1]
    exact (compositeKey_out hk he h2 h).mono (fun _ h => hfin h) (fun _ _ h => h) fun _ h => h
  · apply hfin
    match hL : r.lhs.compositions, hR : r.rhs.compositions with
    | [], [] => trivial
    | [], _ :: _ => simp [hL, hR] at h
    | [_], [] => simp [hL, hR] at h
    | [x], [y] =>
      have := (hp (x, y) (by simp [hL, hR])).2 (by simp [hL])
      rwa [hL, hR] at this
    | [_], _ :: _ :: _ => simp [hL, hR] at h
    | _ :: _ :: _, _ => simp [hL] at h2

/-! ## Competing references -/

theorem eqIdent_iff {ix : Indexer} {a b : RefIdent} :
    IndexedRef.eqIdent (ix.resolveRefAlias a) (ix.resolveRefAlias b) = true ↔
      SameEnd (endOf (ix.resolveRefAlias a)) (endOf (ix.resolveRefAlias b)) := by
  unfold IndexedRef.eqIdent SameEnd endOf
  simp only [Bool.and_eq_true, decide_eq_true_eq, eqElements_iff, and_assoc]

theorem sameEnd_iff {ix} (hk : Indexed s ix) (hn : (s.tables.filterMap aliasOf).Nodup) {a b : RefIdent} :
    SameEnd (endOf (ix.resolveRefAlias a)) (endOf (ix.resolveRefAlias b)) ↔
      ∃ x y, Unaliased s (endOf a) x ∧ Unaliased s (endOf b) y ∧ SameEnd x y := by
  constructor
  · intro h; exact ⟨_, _, resolve_unaliased hk a, resolve_unaliased hk b, h⟩
  · rintro ⟨x, y, hx, hy, h⟩
    rw [Unaliased.unique hn (resolve_unaliased hk a) hx, Unaliased.unique hn (resolve_unaliased hk b) hy]
    exact h

theorem occupy_iff {ix} (hk : Indexed s ix) (hn : (s.tables.filterMap aliasOf).Nodup) {a b : IndexedRef} :
    a.occupySameColumn b ix = true ↔ Competes s (linkOf a) (linkOf b) := by
  have hsym : (([a.lhs, a.rhs].all fun x => [b.lhs, b.rhs].any fun o =>
      IndexedRef.eqIdent (ix.resolveRefAlias x) (ix.resolveRefAlias o)) = true) ↔
      ∀ x ∈ [(linkOf a).lhs, (linkOf a).rhs], ∃ y ∈ [(linkOf b).lhs, (linkOf b).rhs], ∃ x' y',
        Unaliased s x x' ∧ Unaliased s y y' ∧ SameEnd x' y' := by
    simp only [List.all_cons, List.all_nil, List.any_cons, List.any_nil, Bool.and_eq_true, Bool.or_eq_true,
      Bool.or_false, Bool.and_true, eqIdent_iff, sameEnd_iff hk hn, linkOf]
    simp
  unfold IndexedRef.occupySameColumn Competes
  rw [show (linkOf a).rel = a.rel from rfl, show (linkOf b).rel = b.rel from rfl]
  simp only [fkSide, IndexedRef.occupiedIdent]
  rw [show (linkOf a).rel = a.rel from rfl, show (linkOf b).rel = b.rel from rfl]
  have hfk : ∀ (x y : RefIdent), IndexedRef.eqIdent (ix.resolveRefAlias x) (ix.resolveRefAlias y) = true ↔
      ∃ x1 y1 x' y', some (endOf x) = some x1 ∧ some (endOf y) = some y1 ∧ Unaliased s x1 x' ∧ Unaliased s y1 y' ∧ SameEnd x' y' := by
    intro x y
    rw [eqIdent_iff, sameEnd_iff hk hn]
    constructor
    · rintro ⟨x', y', h⟩; exact ⟨_, _, x', y', rfl, rfl, h⟩
    · rintro ⟨x1, y1, x', y', h1, h2, h⟩; cases h1; cases h2; exact ⟨x', y', h⟩
  cases ha : a.rel <;> cases hb : b.rel <;>
    simp only [reduceCtorEq, false_and, and_false, exists_false, or_false, false_or, true_and, or_self, or_true, true_or,
      Bool.false_eq_true] <;>
    first
      | exact hsym
      | exact hfk _ _

theorem competes_self {ix : Indexer} {a : IndexedRef}
    (h : a.rel ≠ .undef) : a.occupySameColumn a ix = true := by
  have hrefl : ∀ e, IndexedRef.eqIdent (ix.resolveRefAlias e) (ix.resolveRefAlias e) = true := fun e =>
    eqIdent_iff.2 ⟨rfl, rfl, fun _ => Iff.rfl⟩
  unfold IndexedRef.occupySameColumn
  cases ha : a.rel <;> simp_all [IndexedRef.occupiedIdent]

theorem occupy_undef {ix : Indexer} {a b : IndexedRef} (h : a.rel = .undef) : a.occupySameColumn b ix = false := by
  unfold IndexedRef.occupySameColumn
  simp [h, IndexedRef.occupiedIdent]

/-- A reference is in order, given the references before and after it. -/
def RefOk (s : SchemaBlock) (pre : List IndexedRef) (r : IndexedRef) (post : List IndexedRef) : Prop :=
  (∀ as, r.settings.map (·.attributes) = some as → DistinctKeys as) ∧
    LinkOk s (linkOf r) ∧ ∀ o ∈ pre ++ post, ¬ Competes s (linkOf r) (linkOf o)

theorem checkRef_out {ix typed} (hk : Indexed s ix) (htn : TableNamesOk s)
    (hty : All2 TypedTable s.tables typed) {pre r post} (hs : refsInOrder s = pre ++ r :: post) :
    Outcome input (fun _ => RefOk s pre r post) (RefDefect s r) K
      (checkRef typed ix (refsInOrder s) input r) := by
  have hr : r ∈ refsInOrder s := by simp [hs]
  unfold checkRef
  refine (checkSettings_out fun as a h1 h2 => by
    obtain ⟨st, h3, rfl⟩ := Option.map_eq_some_iff.1 h1
    exact .refAttr h3 h2).bind fun _ hkeys => ?_
  refine (validateRefType_out hk htn hty hr).bind fun _ hb => ?_
  have hcount : ((refsInOrder s).filter fun o => r.occupySameColumn o ix).length =
      (pre.filter fun o => r.occupySameColumn o ix).length + (if r.rel = .undef then 0 else 1) +
      (post.filter fun o => r.occupySameColumn o ix).length := by
    rw [hs, List.filter_append, List.filter_cons]
    by_cases hu : r.rel = .undef
    · simp [occupy_undef hu, hu]
    · simp [competes_self hu, hu]; omega
  refine Outcome.ite (fun h => ?_) fun h => ?_
  · rw [hcount] at h
    by_cases hu : r.rel = .undef
    · exact Outcome.throw (.refUndef hu)
    · rw [if_neg hu] at h
      have : (pre ++ post).filter (fun o => r.occupySameColumn o ix) ≠ [] := by
        intro h'
        have := congrArg List.length h'
        rw [List.filter_append, List.length_append, List.length_nil] at this
        omega
      obtain ⟨o, ho⟩ := List.exists_mem_of_ne_nil _ this
      obtain ⟨h1, h2⟩ := List.mem_filter.1 ho
      exact Outcome.throw (.refConflict hs h1 ((occupy_iff hk htn.2.1).1 h2))
  · rw [hcount] at h
    by_cases hu : r.rel = .undef
    · rw [if_pos hu] at h
      have h0 : ∀ l : List IndexedRef, l.filter (fun o => r.occupySameColumn o ix) = [] := fun l =>
        List.filter_eq_nil_iff.2 fun o _ => by simp [occupy_undef hu]
      simp [h0] at h
    · rw [if_neg hu] at h
      refine ⟨hkeys, ⟨hu, hb⟩, ?_⟩
      intro o ho hc
      have h1 : o ∈ (pre ++ post).filter (fun o => r.occupySameColumn o ix) :=
        List.mem_filter.2 ⟨ho, (occupy_iff hk htn.2.1).2 hc⟩
      have h2 := List.length_pos_of_mem h1
      rw [List.filter_append, List.length_append] at h2
      omega

theorem links_eq (s : SchemaBlock) : links s = (refsInOrder s).map linkOf := by
  unfold links refsInOrder
  rw [List.map_append, List.map_map, List.map_flatMap]
  congr 1
  refine congrArg (fun f => List.flatMap f s.tables) (funext fun t => ?_)
  rw [List.map_flatMap]
  refine congrArg (fun f => List.flatMap f t.cols) (funext fun c => ?_)
  rw [List.map_map]
  rfl

theorem pairwise_of_others {α : Type} {R : α → α → Prop} {xs : List α}
    (h : ∀ pre x post, xs = pre ++ x :: post → ∀ o ∈ pre ++ post, R x o) :
    xs.Pairwise fun a b => R a b ∧ R b a := by
  induction xs with
  | nil => exact .nil
  | cons x xs ih =>
    refine .cons ?_ (ih ?_)
    · intro b hb
      refine ⟨h [] x xs rfl b (by simpa using hb), ?_⟩
      obtain ⟨p, q, rfl⟩ := List.append_of_mem hb
      exact h (x :: p) b q rfl x (by simp)
    · intro pre y post he o ho
      refine h (x :: pre) y post (by simp [he]) o ?_
      rw [List.cons_append]; exact List.mem_cons_of_mem _ ho

/-- The first reference that is not in order determines the outcome. -/
theorem checkRefs_out {ix typed} (hk : Indexed s ix) (htn : TableNamesOk s)
    (hty : All2 TypedTable s.tables typed) :
    Outcome input (fun _ => ∀ pre r post, refsInOrder s = pre ++ r :: post → RefOk s pre r post)
      (fun e sp => ∃ pre r post, refsInOrder s = pre ++ r :: post ∧
        (∀ p y q, pre = p ++ y :: q → RefOk s p y (q ++ r :: post)) ∧ RefDefect s r e sp) K
      (forEach (checkRef typed ix (refsInOrder s) input) (refsInOrder s)) := by
  refine (Outcome.forEach_first (f := checkRef typed ix (refsInOrder s) input)
    (Q := fun pre r => ∀ post, refsInOrder s = pre ++ r :: post → RefOk s pre r post)
    (E := fun r => RefDefect s r) (K := fun _ => NoK)
    (refsInOrder s) ?_).mono ?_ ?_ ?_
  · intro pre r post hs
    refine (checkRef_out hk htn hty hs).mono ?_ (fun _ _ h => h) fun _ h => h
    intro _ h post' hs'
    have : post' = post := by
      have := hs'.symm.trans hs
      simpa using this
    subst this
    exact h
  · intro _ h pre r post hs
    exact h pre r post hs post hs
  · rintro e sp ⟨pre, r, post, hs, h1, h2⟩
    refine ⟨pre, r, post, hs, ?_, h2⟩
    rintro p y q rfl
    exact h1 p y q rfl _ (by simp [hs])
  · rintro k ⟨_, _, _, _, _, h⟩
    exact h.elim

theorem refsOk_iff (s : SchemaBlock) :
    (∀ pre r post, refsInOrder s = pre ++ r :: post → RefOk s pre r post) ↔
      RefsOk s ∧ ∀ r ∈ refsInOrder s, ∀ as, r.settings.map (·.attributes) = some as → DistinctKeys as := by
  constructor
  · intro h
    refine ⟨⟨?_, ?_⟩, ?_⟩
    · intro k hkm
      rw [links_eq] at hkm
      obtain ⟨r, hr, rfl⟩ := List.mem_map.1 hkm
      obtain ⟨p, q, hpq⟩ := List.append_of_mem hr
      exact (h p r q hpq).2.1
    · rw [links_eq, List.pairwise_map]
      exact pairwise_of_others (R := fun a b => ¬ Competes s (linkOf a) (linkOf b))
        fun pre r post hs => (h pre r post hs).2.2
    · intro r hr
      obtain ⟨p, q, hpq⟩ := List.append_of_mem hr
      exact (h p r q hpq).1
  · rintro ⟨⟨h1, h2⟩, h3⟩ pre r post hs
    have hr : r ∈ refsInOrder s := by simp [hs]
    refine ⟨h3 r hr, h1 _ (by rw [links_eq]; exact List.mem_map_of_mem hr), ?_⟩
    intro o ho
    rw [links_eq, hs, List.map_append, List.map_cons, List.pairwise_append, List.pairwise_cons] at h2
    obtain ⟨-, ⟨h4, -⟩, h5⟩ := h2
    rcases List.mem_append.1 ho with ho | ho
    · exact (h5 _ (List.mem_map_of_mem ho) _ (by simp)).2
    · exact (h4 _ (List.mem_map_of_mem ho)).1

end
end Dbml
