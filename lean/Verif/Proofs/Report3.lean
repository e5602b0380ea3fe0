import Verif.Proofs.Report2

/-!
# The checklist of references; the whole
-/

namespace Dbml
open Spec

section
variable {s : SchemaBlock} {input : Str}

theorem unaliased_iff {ix} (hk : Indexed s ix) (hn : (s.tables.filterMap aliasOf).Nodup) (e : RefIdent)
    (Q : End → Prop) : (∃ e', Unaliased s (endOf e) e' ∧ Q e') ↔ Q (endOf (ix.resolveRefAlias e)) :=
  ⟨fun ⟨_, h1, h2⟩ => Unaliased.unique hn h1 (resolve_unaliased hk e) ▸ h2, fun h => ⟨_, resolve_unaliased hk e, h⟩⟩

theorem firstBad_tells {α : Type} {bad : α → Prop} {p : α → Bool} {err : Err} {span : α → Span} {m : Rs Unit} (xs : List α)
    (hp : ∀ x, p x = true ↔ bad x) (hs : ∀ a, (xs.filter p).head? = some a → m = throwErr err (span a) input)
    (hn : (xs.filter p).head? = none → m = .ok ()) :
    Tells input (xs.map fun x => .err (bad x) err (span x)) m := by
  induction xs with
  | nil => rw [hn rfl]; exact .ok .nil
  | cons x xs ih =>
    rw [List.filter_cons] at hs hn
    by_cases h : p x = true
    · rw [if_pos h] at hs
      rw [hs x rfl]
      exact .throw ((hp x).1 h)
    · rw [if_neg h] at hs hn
      exact .skip (fun h' => h ((hp x).2 h')) (ih hs hn)

theorem lookupTableFields_tells {ix} (hk : Indexed s ix) (htn : TableNamesOk s) (e : RefIdent) :
    Tells input (endChecks s e)
      (ix.lookupTableFields (ix.resolveRefAlias e).schema (ix.resolveRefAlias e).table
        (ix.resolveRefAlias e).compositions input) := by
  have hkey : endKey (endOf (ix.resolveRefAlias e)) =
      (schemaOrDefault (ix.resolveRefAlias e).schema, (ix.resolveRefAlias e).table.to_string) := by
    rw [schemaOrDefault_eq]
    unfold endKey endOf schemaOf
    cases (ix.resolveRefAlias e).schema <;> rfl
  have hcol : ∀ i : Ident, (∃ e' t, Unaliased s (endOf e) e' ∧ t ∈ s.tables ∧ tableKey t = endKey e' ∧
      i.to_string ∉ colNames t) ↔ ∃ t ∈ s.tables, tableKey t = endKey (endOf (ix.resolveRefAlias e)) ∧
        i.to_string ∉ colNames t := by
    intro i
    rw [← unaliased_iff hk htn.2.1 e fun e' => ∃ t ∈ s.tables, tableKey t = endKey e' ∧ i.to_string ∉ colNames t]
    exact ⟨fun ⟨e', t, h1, h2⟩ => ⟨e', h1, t, h2⟩, fun ⟨e', h1, t, h2⟩ => ⟨e', t, h1, h2⟩⟩
  -- an alias stands for a table that exists
  have halias : ∀ k, ix.resolveAlias e.table.to_string = some k →
      ∃ t ∈ s.tables, tableKey t = endKey (endOf (ix.resolveRefAlias e)) := by
    intro k h
    obtain ⟨t, ht, -, h2⟩ := hk.alias_some _ _ h
    refine ⟨t, ht, ?_⟩
    rw [h2]
    unfold Indexer.resolveRefAlias
    rw [h]; rfl
  have hnone : ix.resolveAlias e.table.to_string = none → ix.resolveRefAlias e = e := by
    intro h
    unfold Indexer.resolveRefAlias
    rw [h]
  unfold endChecks Indexer.lookupTableFields
  simp only [hcol]
  rw [unaliased_iff hk htn.2.1 e fun e' => ¬ SchemaDeclared s (endKey e').1,
    unaliased_iff hk htn.2.1 e fun e' => ∀ t ∈ s.tables, tableKey t ≠ endKey e', hkey, resolve_cols]
  rw [hkey] at halias
  cases h1 : mapGet ix.schema_map (schemaOrDefault (ix.resolveRefAlias e).schema) with
  | none =>
    have hns : ¬ SchemaDeclared s (schemaOrDefault (ix.resolveRefAlias e).schema) := by
      intro h2
      have := (hk.schema _).2 h2
      simp [h1] at this
    cases hr : ix.resolveAlias e.table.to_string with
    | some k =>
      obtain ⟨t, ht, h⟩ := halias k hr
      exact absurd (.inl ⟨t, ht, by rw [h]⟩) hns
    | none =>
      rw [hnone hr] at hns ⊢
      exact .throw hns
  | some b =>
    refine .skip (fun h => h ((hk.schema _).1 (by simp [h1]))) ?_
    simp only
    cases h2 : mapGet b.table_map (ix.resolveRefAlias e).table.to_string with
    | none =>
      have hnt : ∀ t ∈ s.tables, tableKey t ≠ (schemaOrDefault (ix.resolveRefAlias e).schema,
          (ix.resolveRefAlias e).table.to_string) := by
        intro t ht
        exact hk.table_none _ (by simp [Indexer.table?, h1, h2]) t ht
      cases hr : ix.resolveAlias e.table.to_string with
      | some k =>
        obtain ⟨t, ht, h⟩ := halias k hr
        exact absurd h (hnt t ht)
      | none =>
        rw [hnone hr] at hnt ⊢
        exact .throw hnt
    | some cs =>
      obtain ⟨t, ht, h3, h4⟩ := hk.table_some (schemaOrDefault (ix.resolveRefAlias e).schema,
        (ix.resolveRefAlias e).table.to_string) cs (by simp [Indexer.table?, h1, h2])
      refine .skip (fun h => h t ht h3) ?_
      refine firstBad_tells (p := fun v => !cs.contains v.to_string) (span := fun i => i.span_range) e.compositions ?_ ?_ ?_
      · intro i
        simp only [Bool.not_eq_true', List.contains_eq_mem, decide_eq_false_iff_not, h4]
        constructor
        · intro h; exact ⟨t, ht, h3, h⟩
        · rintro ⟨t', ht', h5, h6⟩
          rw [nodup_map_inj htn.1 ht ht' (h3.trans h5.symm)]
          exact h6
      · intro a ha; simp only [ha]
      · intro ha; simp only [ha]

theorem findRefTable_tells {ix typed} (hk : Indexed s ix) (htn : TableNamesOk s)
    (hty : All2 TypedTable s.tables typed) (e : RefIdent) :
    Tells input [.err (∃ e', Unaliased s (endOf e) e' ∧ ∀ t, ¬ Names s e' t) .tableNotFound e.span_range]
      (IndexedRef.findRefTable typed (ix.resolveRefAlias e) input) := by
  rw [unaliased_iff hk htn.2.1 e fun e' => ∀ t, ¬ Names s e' t]
  have hout := findRefTable_out (s := s) (input := input) (K := NoK) hk hty
    (r := { lhs := e }) (e := e)
  unfold IndexedRef.findRefTable
  rw [resolve_span]
  split
  · rename_i t' ht'
    obtain ⟨t, ht, h1⟩ := hty.mem_right (List.mem_of_find?_eq_some ht')
    have h2 := List.find?_some ht'
    simp only [Bool.and_eq_true, decide_eq_true_eq] at h2
    rw [h1.1] at h2
    exact .skip (fun h => h t ⟨ht, h2.1, h2.2⟩) (.ok .nil)
  · rename_i hnone
    refine .throw ?_
    intro t ht
    obtain ⟨t', ht', h1⟩ := hty.mem_left ht.1
    have := List.find?_eq_none.1 hnone t' ht'
    simp only [Bool.and_eq_true, decide_eq_true_eq] at this
    rw [h1.1] at this
    exact this ⟨ht.2.1, ht.2.2⟩

theorem findRefCol_ok {t t'} (htt : TypedTable t t') {i : Ident} (hi : i.to_string ∈ colNames t) :
    ∃ c c', IndexedRef.findRefCol i t' input = .ok c' ∧ IsColumn t i.to_string c ∧ Typed c c' := by
  unfold IndexedRef.findRefCol
  split
  · rename_i c' hc'
    obtain ⟨c, hc, h1⟩ := htt.2.2.mem_right (List.mem_of_find?_eq_some hc')
    have h2 := List.find?_some hc'
    simp only [decide_eq_true_eq] at h2
    rw [(typed_name h1).1] at h2
    exact ⟨c, c', rfl, ⟨hc, h2⟩, h1⟩
  · rename_i hnone
    obtain ⟨c, hc, h1⟩ := List.mem_map.1 hi
    obtain ⟨c', hc', h2⟩ := htt.2.2.mem_left hc
    have := List.find?_eq_none.1 hnone c' hc'
    rw [(typed_name h2).1] at this
    simp [h1] at this

/-- What is known of the ends of a reference when the columns are compared. -/
structure Sides (s : SchemaBlock) (ix : Indexer) (r : IndexedRef) (tl tr tl' tr' : TableBlock) : Prop where
  lhs : Names s (endOf (ix.resolveRefAlias r.lhs)) tl
  rhs : Names s (endOf (ix.resolveRefAlias r.rhs)) tr
  lt : TypedTable tl tl'
  rt : TypedTable tr tr'
  lcols : ∀ i ∈ r.lhs.compositions, i.to_string ∈ colNames tl
  rcols : ∀ i ∈ r.rhs.compositions, i.to_string ∈ colNames tr
  len : r.lhs.compositions.length = r.rhs.compositions.length

theorem typeClash_iff {ix} (hk : Indexed s ix) (htn : TableNamesOk s) {r : IndexedRef} {tl tr : TableBlock}
    (hl : Names s (endOf (ix.resolveRefAlias r.lhs)) tl) (hr : Names s (endOf (ix.resolveRefAlias r.rhs)) tr)
    {x y : Ident} {c d d0 : TableColumn} (hc : IsColumn tl x.to_string c) (hd : IsColumn tr y.to_string d) :
    TypeClash s r x y d0 ↔ d0 = d ∧ ¬ SameType c d := by
  constructor
  · rintro ⟨el, er, tl', tr', c', h1, h2, h3, h4, h5, h6, h7⟩
    rw [Unaliased.unique htn.2.1 h1 (resolve_unaliased hk r.lhs)] at h3
    rw [Unaliased.unique htn.2.1 h2 (resolve_unaliased hk r.rhs)] at h4
    rw [Names.unique htn.1 h3 hl] at h5
    rw [Names.unique htn.1 h4 hr] at h6
    have e1 := IsColumn.unique (htn.2.2 tl hl.1) h5 hc
    have e2 := IsColumn.unique (htn.2.2 tr hr.1) h6 hd
    subst e1 e2
    exact ⟨rfl, h7⟩
  · rintro ⟨rfl, h⟩
    exact ⟨_, _, tl, tr, c, resolve_unaliased hk r.lhs, resolve_unaliased hk r.rhs, hl, hr, hc, hd, h⟩

theorem keyBad_iff {ix} (hk : Indexed s ix) (htn : TableNamesOk s) {r : IndexedRef} {tl tr : TableBlock}
    (hl : Names s (endOf (ix.resolveRefAlias r.lhs)) tl) (hr : Names s (endOf (ix.resolveRefAlias r.rhs)) tr) :
    (∃ el er tl tr, Unaliased s (endOf r.lhs) el ∧ Unaliased s (endOf r.rhs) er ∧ Names s el tl ∧ Names s er tr ∧
      ¬ KeyOk r.rel tl tr el.cols er.cols) ↔
    ¬ KeyOk r.rel tl tr (r.lhs.compositions.map (·.to_string)) (r.rhs.compositions.map (·.to_string)) := by
  have c1 := endOf_cols ix r.lhs
  have c2 := endOf_cols ix r.rhs
  constructor
  · rintro ⟨el, er, tl', tr', h1, h2, h3, h4, h5⟩
    have e1 := Unaliased.unique htn.2.1 h1 (resolve_unaliased hk r.lhs)
    have e2 := Unaliased.unique htn.2.1 h2 (resolve_unaliased hk r.rhs)
    subst e1 e2
    rw [Names.unique htn.1 h3 hl, Names.unique htn.1 h4 hr, c1, c2] at h5
    exact h5
  · intro h
    refine ⟨_, _, tl, tr, resolve_unaliased hk r.lhs, resolve_unaliased hk r.rhs, hl, hr, ?_⟩
    rw [c1, c2]; exact h

/-- The checks of the types of a pair of columns. -/
abbrev pairChecks (s : SchemaBlock) (r : IndexedRef) (p : Ident × Ident) : List Check :=
  (columns s).map fun d =>
    .err (TypeClash s r p.1 p.2 d)
      (.mismatchedForeignKeyType p.2.to_string p.1.to_string d.type.raw p.1.raw) r.span_range

theorem pair_tells {ix} (hk : Indexed s ix) (htn : TableNamesOk s) {r : IndexedRef} {tl tr tl' tr' : TableBlock}
    (hs : Sides s ix r tl tr tl' tr') {x y : Ident} {c d c' d' : TableColumn}
    (hc : IsColumn tl x.to_string c) (hd : IsColumn tr y.to_string d) (hc' : Typed c c') (hd' : Typed d d')
    {m : Rs Unit} {l : List Check} (h : SameType c d → Tells input l m) :
    Tells input (pairChecks s r (x, y) ++ l)
      (if c'.type.type_name ≠ d'.type.type_name ∨ c'.type.args ≠ d'.type.args ∨ c'.type.arrays ≠ d'.type.arrays then
        throwErr (.mismatchedForeignKeyType y.to_string x.to_string d'.type.raw x.raw) r.span_range input
      else m) := by
  have hty := SameType.typed hc' hd'
  by_cases hsame : SameType c d
  · rw [if_neg (by
      have := hty.1 hsame
      simp [this.1, this.2.1, this.2.2])]
    refine .after (fun ck hck => ?_) (h hsame)
    obtain ⟨d0, -, rfl⟩ := List.mem_map.1 hck
    exact fun hb => ((typeClash_iff hk htn hs.lhs hs.rhs hc hd).1 hb).2 hsame
  · rw [if_pos (by
      rw [hty] at hsame
      by_cases h1 : c'.type.type_name = d'.type.type_name
      · by_cases h2 : c'.type.args = d'.type.args
        · exact .inr (.inr fun h3 => hsame ⟨h1, h2, h3⟩)
        · exact .inr (.inl h2)
      · exact .inl h1)]
    have hmem : d ∈ columns s := mem_columns hs.rhs.1 hd.1
    unfold pairChecks
    generalize columns s = ds at hmem
    rw [(typed_name hd').2.2]
    induction ds with
    | nil => simp at hmem
    | cons d0 ds ih =>
      rw [List.map_cons, List.cons_append]
      by_cases h0 : d0 = d
      · rw [h0]
        exact .throw ((typeClash_iff hk htn hs.lhs hs.rhs hc hd).2 ⟨rfl, hsame⟩)
      · refine .skip (fun hb => h0 ((typeClash_iff hk htn hs.lhs hs.rhs hc hd).1 hb).1) (ih ?_)
        rcases List.mem_cons.1 hmem with h1 | h1
        · exact absurd h1.symm h0
        · exact h1

/-- What the key check says. -/
abbrev keyCheck (r : IndexedRef) (tl tr : TableBlock) : Check :=
  .err (¬ KeyOk r.rel tl tr (r.lhs.compositions.map (·.to_string)) (r.rhs.compositions.map (·.to_string)))
    (.invalidForeignKey (keyKind r.rel (decide (2 ≤ r.lhs.compositions.length)))) (keySpan r)

theorem singleKey_tells {r : IndexedRef} {tl tr : TableBlock} (hnl : (colNames tl).Nodup) (hnr : (colNames tr).Nodup)
    {x y : Ident} (hx : r.lhs.compositions = [x])
    (hy : r.rhs.compositions = [y]) {c c' d d'} (hc : IsColumn tl x.to_string c) (hc' : Typed c c')
    (hd : IsColumn tr y.to_string d) (hd' : Typed d d') :
    Tells input [keyCheck r tl tr]
      (IndexedRef.throwKeyErr (r.singleKeyErr (IndexedRef.colIsKey c') (IndexedRef.colIsKey d')) input) := by
  have h1 := colIsKey_iff hnl hc hc'
  have h2 := colIsKey_iff hnr hd hd'
  unfold keyCheck
  rw [hx, hy]
  simp only [List.map_cons, List.map_nil]
  unfold IndexedRef.throwKeyErr IndexedRef.singleKeyErr
  cases hrel : r.rel <;> cases hl : IndexedRef.colIsKey c' <;> cases hr : IndexedRef.colIsKey d' <;>
    simp only [hl, hr, Bool.false_eq_true, false_iff, true_iff] at h1 h2 <;>
    simp only [KeyOk, h1, h2, keyKind, keySpan, hrel, or_self, not_false_eq_true, not_true_eq_false,
      true_or, or_true, false_or, or_false] <;>
    first
      | exact .throw trivial
      | exact .skip (fun h => h) (.ok .nil)

theorem compositeKey_tells {r : IndexedRef} {tl tr : TableBlock} (hlen : 2 ≤ r.lhs.compositions.length)
    (heq : r.lhs.compositions.length = r.rhs.compositions.length) :
    Tells input [keyCheck r tl tr]
      (IndexedRef.throwKeyErr (r.compositeKeyErr (IndexedRef.isValidComposite r.lhs.compositions tl.indexes)
        (IndexedRef.isValidComposite r.rhs.compositions tr.indexes)) input) := by
  have h1 := isValidComposite_iff (t := tl) (cols := r.lhs.compositions)
  have h2 := isValidComposite_iff (t := tr) (cols := r.rhs.compositions)
  have hko : ∀ rel, KeyOk rel tl tr (r.lhs.compositions.map (·.to_string)) (r.rhs.compositions.map (·.to_string)) ↔
      match rel with
      | .one2many => CompositeKey tl (r.lhs.compositions.map (·.to_string))
      | .many2one => CompositeKey tr (r.rhs.compositions.map (·.to_string))
      | .one2one => CompositeKey tl (r.lhs.compositions.map (·.to_string)) ∨
          CompositeKey tr (r.rhs.compositions.map (·.to_string))
      | .many2many => CompositeKey tl (r.lhs.compositions.map (·.to_string)) ∧
          CompositeKey tr (r.rhs.compositions.map (·.to_string))
      | .undef => True := by
    intro rel
    match hL : r.lhs.compositions, hR : r.rhs.compositions with
    | _ :: _ :: _, _ :: _ :: _ => cases rel <;> exact Iff.rfl
    | [], _ => simp [hL] at hlen
    | [_], _ => simp [hL] at hlen
    | _ :: _ :: _, [] => simp [hL, hR] at heq
    | _ :: _ :: _, [_] => simp [hL, hR] at heq
  unfold keyCheck
  rw [hko, decide_eq_true hlen]
  unfold IndexedRef.throwKeyErr IndexedRef.compositeKeyErr
  cases hrel : r.rel <;> cases hl : IndexedRef.isValidComposite r.lhs.compositions tl.indexes <;>
    cases hr : IndexedRef.isValidComposite r.rhs.compositions tr.indexes <;>
    simp only [hl, hr, Bool.false_eq_true, false_iff, true_iff] at h1 h2 <;>
    simp only [h1, h2, keyKind, keySpan, hrel, or_self, not_false_eq_true, not_true_eq_false,
      true_or, or_true, false_or, or_false, true_and, and_true, and_false, false_and, Bool.not_true, Bool.not_false,
      Bool.and_true, Bool.and_false, Bool.or_true, Bool.or_false, Bool.false_and, Bool.true_and, Bool.false_or, Bool.true_or,
      if_true, Bool.false_eq_true, if_false] <;>
    first
      | exact .throw trivial
      | exact .skip (fun h => h) (.ok .nil)

/-- The pairs of columns, when there is not exactly one. -/
theorem checkFieldPairs_tells {ix} (hk : Indexed s ix) (htn : TableNamesOk s) {r : IndexedRef} {tl tr tl' tr' : TableBlock}
    (hs : Sides s ix r tl tr tl' tr') {n : Nat} (hn : n ≠ 1) (ps : List (Ident × Ident))
    (hps : ∀ p ∈ ps, p ∈ r.lhs.compositions.zip r.rhs.compositions) :
    Tells input (ps.flatMap (pairChecks s r)) (r.checkFieldPairs tl' tr' n input ps) := by
  induction ps with
  | nil => exact .ok .nil
  | cons p ps ih =>
    obtain ⟨x, y⟩ := p
    have hp := List.of_mem_zip (hps (x, y) (by simp))
    obtain ⟨c, c', h1, hc, hc'⟩ := findRefCol_ok (input := input) hs.lt (hs.lcols x hp.1)
    obtain ⟨d, d', h2, hd, hd'⟩ := findRefCol_ok (input := input) hs.rt (hs.rcols y hp.2)
    unfold IndexedRef.checkFieldPairs IndexedRef.checkFieldPair
    rw [List.flatMap_cons, h1, h2, Rs.ok_bind', Rs.ok_bind', if_neg hn]
    refine Tells.bind ?_ fun _ _ _ => ih fun p hp => hps p (by simp [hp])
    have := pair_tells (input := input) hk htn hs hc hd hc' hd' (m := .ok ()) (l := []) fun _ => .ok .nil
    rwa [List.append_nil] at this

theorem validate_tells {ix} (hk : Indexed s ix) (htn : TableNamesOk s) {r : IndexedRef} {tl tr tl' tr' : TableBlock}
    (hs : Sides s ix r tl tr tl' tr') :
    Tells input ((r.lhs.compositions.zip r.rhs.compositions).flatMap (pairChecks s r) ++ [keyCheck r tl tr])
      (do
        r.checkFieldPairs tl' tr' r.lhs.compositions.length input (r.lhs.compositions.zip r.rhs.compositions)
        if 2 ≤ r.lhs.compositions.length then
          IndexedRef.throwKeyErr
            (r.compositeKeyErr (IndexedRef.isValidComposite r.lhs.compositions tl'.indexes)
              (IndexedRef.isValidComposite r.rhs.compositions tr'.indexes)) input
        else return ()) := by
  have hlen := hs.len
  by_cases h1 : r.lhs.compositions.length = 1
  · obtain ⟨x, hx⟩ := List.length_eq_one_iff.1 h1
    obtain ⟨y, hy⟩ := List.length_eq_one_iff.1 (hlen ▸ h1)
    obtain ⟨c, c', h2, hc, hc'⟩ := findRefCol_ok (input := input) hs.lt (hs.lcols x (by simp [hx]))
    obtain ⟨d, d', h3, hd, hd'⟩ := findRefCol_ok (input := input) hs.rt (hs.rcols y (by simp [hy]))
    have hz : r.lhs.compositions.zip r.rhs.compositions = [(x, y)] := by rw [hx, hy]; rfl
    rw [hz, h1]
    refine Tells.bind_ok ?_ fun _ _ => ⟨_, rfl⟩
    simp only [List.flatMap_cons, List.flatMap_nil, List.append_nil]
    unfold IndexedRef.checkFieldPairs IndexedRef.checkFieldPairs IndexedRef.checkFieldPair
    rw [h2, h3, Rs.ok_bind', Rs.ok_bind', if_pos rfl]
    refine Tells.bind_ok ?_ fun _ _ => ⟨_, rfl⟩
    exact pair_tells hk htn hs hc hd hc' hd' fun _ =>
      singleKey_tells (htn.2.2 tl hs.lhs.1) (htn.2.2 tr hs.rhs.1) hx hy hc hc' hd hd'
  · refine (checkFieldPairs_tells hk htn hs h1 _ fun _ h => h).bind fun _ _ _ => ?_
    by_cases h2 : 2 ≤ r.lhs.compositions.length
    · rw [if_pos h2, hs.lt.2.1, hs.rt.2.1]
      exact compositeKey_tells h2 hlen
    · rw [if_neg h2]
      refine .skip (fun h => h ?_) (.pure .nil)
      have hl : r.lhs.compositions = [] := List.eq_nil_of_length_eq_zero (by omega)
      have hr : r.rhs.compositions = [] := List.eq_nil_of_length_eq_zero (by omega)
      rw [hl, hr]; trivial

theorem validateRefType_tells {ix typed} (hk : Indexed s ix) (htn : TableNamesOk s)
    (hty : All2 TypedTable s.tables typed) {r : IndexedRef} (hr : r ∈ refsInOrder s) :
    Tells input
      ([.err (r.lhs.compositions.length ≠ r.rhs.compositions.length) .mismatchedCompositeForeignKey r.span_range] ++
        endChecks s r.lhs ++ endChecks s r.rhs ++
        ([r.lhs, r.rhs].map fun e =>
          .err (∃ e', Unaliased s (endOf e) e' ∧ ∀ t, ¬ Names s e' t) .tableNotFound e.span_range) ++
        ((r.lhs.compositions.zip r.rhs.compositions).flatMap (pairChecks s r)) ++
        [.err (∃ el er tl tr, Unaliased s (endOf r.lhs) el ∧ Unaliased s (endOf r.rhs) er ∧ Names s el tl ∧
            Names s er tr ∧ ¬ KeyOk r.rel tl tr el.cols er.cols)
          (.invalidForeignKey (keyKind r.rel (decide (2 ≤ r.lhs.compositions.length)))) (keySpan r)])
      (r.validateRefType typed ix input) := by
  unfold IndexedRef.validateRefType
  simp only [List.append_assoc, resolve_cols]
  refine Tells.ite Iff.rfl fun hlen => ?_
  simp only [ne_eq, Decidable.not_not] at hlen
  have b1 := lookupTableFields_tells (input := input) hk htn r.lhs
  have b2 := lookupTableFields_tells (input := input) hk htn r.rhs
  have o1 := lookupTableFields_out (input := input) (K := NoK) hk hr (e := r.lhs) (by simp)
  have o2 := lookupTableFields_out (input := input) (K := NoK) hk hr (e := r.rhs) (by simp)
  simp only [resolve_cols] at b1 b2 o1 o2
  refine b1.bind fun _ e1 _ => b2.bind fun _ e2 _ => ?_
  obtain ⟨tl, htl, hl1, hl2⟩ := o1.of_ok e1
  obtain ⟨tr, htr, hr1, hr2⟩ := o2.of_ok e2
  refine Tells.bind (l := [_]) (findRefTable_tells hk htn hty r.lhs) fun tl' e3 _ => ?_
  refine Tells.bind (l := [_]) (findRefTable_tells hk htn hty r.rhs) fun tr' e4 _ => ?_
  obtain ⟨t1, hn1, ht1⟩ := (findRefTable_out (input := input) (K := NoK) hk hty hr (e := r.lhs) (by simp)).of_ok e3
  obtain ⟨t2, hn2, ht2⟩ := (findRefTable_out (input := input) (K := NoK) hk hty hr (e := r.rhs) (by simp)).of_ok e4
  have e1 : t1 = tl := nodup_map_inj htn.1 hn1.1 htl (hn1.key.trans hl1.symm)
  have e2 : t2 = tr := nodup_map_inj htn.1 hn2.1 htr (hn2.key.trans hr1.symm)
  subst e1 e2
  rw [keyBad_iff hk htn hn1 hn2, show max r.lhs.compositions.length r.rhs.compositions.length =
    r.lhs.compositions.length by omega]
  exact validate_tells hk htn ⟨hn1, hn2, ht1, ht2, hl2, hr2, hlen⟩

theorem checkRef_tells {ix typed} (hk : Indexed s ix) (htn : TableNamesOk s)
    (hty : All2 TypedTable s.tables typed) {pre r post} (hs : refsInOrder s = pre ++ r :: post) :
    Tells input (refChecks s pre r post) (checkRef typed ix (refsInOrder s) input r) := by
  have hr : r ∈ refsInOrder s := by simp [hs]
  unfold refChecks checkRef
  have hv := validateRefType_tells (input := input) hk htn hty hr
  simp only [List.append_assoc] at hv ⊢
  refine (checkSettings_tells r.settings (·.attributes)).bind fun _ _ _ => ?_
  have hsplit : ∀ a b : Check, [a, b] = [a] ++ [b] := fun _ _ => rfl
  rw [hsplit]
  simp only [← List.append_assoc] at hv ⊢
  refine hv.bind fun _ _ _ => ?_
  have hcount : ((refsInOrder s).filter fun o => r.occupySameColumn o ix).length =
      (pre.filter fun o => r.occupySameColumn o ix).length + (if r.rel = .undef then 0 else 1) +
      (post.filter fun o => r.occupySameColumn o ix).length := by
    rw [hs, List.filter_append, List.filter_cons]
    by_cases hu : r.rel = .undef
    · simp [occupy_undef hu, hu]
    · simp [competes_self hu, hu]; omega
  refine Tells.ite ?_ fun _ => .pure .nil
  rw [hcount]
  by_cases hu : r.rel = .undef
  · rw [if_pos hu]
    have h0 : ∀ l : List IndexedRef, l.filter (fun o => r.occupySameColumn o ix) = [] := fun l =>
      List.filter_eq_nil_iff.2 fun o _ => by simp [occupy_undef hu]
    simp [h0, hu]
  · have : (∃ o ∈ pre ++ post, Competes s (linkOf r) (linkOf o)) ↔
        (pre ++ post).filter (fun o => r.occupySameColumn o ix) ≠ [] := by
      rw [ne_eq, List.filter_eq_nil_iff, Classical.not_forall]
      refine exists_congr fun o => ?_
      rw [Classical.not_imp, Classical.not_not, occupy_iff hk htn.2.1]
    rw [this, List.filter_append, if_neg hu, ne_eq, ne_eq (List.filter _ _ ++ _), ← List.length_eq_zero_iff, List.length_append]
    constructor
    · intro h; right; omega
    · rintro (h | h)
      · exact absurd h hu
      · omega

/-! ## The whole -/

theorem analyzePre_tells : Tells s.input
    (projectChecks s ++
      inTurn (fun before t _ => tableChecks before t) [] s.tables ++
      inTurn (fun before e _ => enumChecks before e) [] s.enums ++
      inTurn (fun before g _ => groupChecks s before g) [] s.table_groups ++
      s.tables.flatMap keyChecks) (analyzePre s) := by
  unfold analyzePre
  simp only [List.append_assoc]
  refine (checkProject_tells s).bind fun _ _ _ => ?_
  refine indexTable_tells.bind fun ix1 e1 _ => ?_
  have h1 := (indexTable_out (input := s.input) (K := NoK)).of_ok e1
  refine (indexEnums_tells h1.knows h1.groups).bind fun ix2 e2 _ => ?_
  have h2 := (indexEnums_out (input := s.input) (K := NoK) h1.knows h1.groups).of_ok e2
  refine (indexGroups_tells h2.knows h1.aliases h2.groups).bind fun ix3 e3 _ => ?_
  exact (Tells.forEach' s.tables fun t ht => checkTable_tells (h1.cols t ht)).bind_ok fun _ _ => ⟨_, rfl⟩

theorem analyzePost_tells {ix} (hst : StructureOk s) (hk : Indexed s ix) (hraw : ∀ c ∈ columns s, ∃ n, HasRaw c n)
    (hpl : ∀ c ∈ columns s, DefaultPlaced c) :
    Tells s.input ((columns s).flatMap (columnChecks s) ++ inTurn (refChecks s) [] (refsInOrder s))
      (analyzePost s ix) := by
  unfold analyzePost
  refine Tells.bind (typeTables_tells hk hst.enumNames.1 hraw hpl) fun typed e' _ => ?_
  have hty := ((typeTables_out (input := s.input) hk).of_ok e').2
  refine Tells.bind_ok ?_ fun _ _ => ⟨_, rfl⟩
  exact Tells.forEach (refsInOrder s) fun pre r post hs => checkRef_tells hk hst.tableNames hty hs

/-- The analyzer runs through the checklist. -/
theorem analyze_tells (hraw : ∀ c ∈ columns s, ∃ n, HasRaw c n)
    (hpl : StructureOk s → ∀ c ∈ columns s, DefaultPlaced c) : Tells s.input (checklist s) (analyze s) := by
  rw [analyze_split]
  unfold checklist
  rw [List.append_assoc]
  refine Tells.bind analyzePre_tells fun ix e _ => ?_
  obtain ⟨hst, hk, -⟩ := analyzePre_out.of_ok e
  exact analyzePost_tells hst hk hraw (hpl hst)

end
end Dbml
