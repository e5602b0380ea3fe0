import Verif.Props.Validity
import Verif.Props.Simple

/-!
# Acceptance: enums, references, aliases, the index, block order (C29–C32, C34, C36, C39), and limits of
the guarantees (the stronger claims that are false)
-/

namespace Dbml.Props
open Syntax Spec

variable {input : Str} {s : SchemaBlock}

/-- The endpoints of a reference. -/
def ends (k : Link) : List End := [k.lhs, k.rhs]

section
variable (h : parseDbml input = .ok s)
include h

/-- **C29**: a column with a default whose type is not built in names an enum of the schema (in `public`
if unqualified) that has the default as a value. -/
theorem C29_enum_defaults : ∀ c ∈ columns s, ∀ n v, c.type.type_name = .raw n →
    ColumnTypeName.fromStr n = none → defaultOf c = some v →
    ∃ k, EnumRef n k ∧ ∃ e ∈ s.enums, enumKey e = k ∧ v.toStr ∈ e.values.map (·.value.to_string) := by
  intro c hc n v hn hb hv
  obtain ⟨n', ty', hr, hres, -, hd⟩ := (accepted h).columns c hc
  have := HasRaw.unique hn hr; subst this
  rcases hres with h1 | ⟨-, k, hk, -⟩
  · rw [hb] at h1; cases h1
  · exact ⟨k, hk, (hd v hv).2 hb k hk⟩

/-- **C30**: both ends of every reference, after alias resolution, name tables and columns of the schema;
they have equally many columns, of pairwise the same type. -/
theorem C30_refs_resolve : ∀ k ∈ links s, k.lhs.cols.length = k.rhs.cols.length ∧
    ∃ l r tl tr, Unaliased s k.lhs l ∧ Unaliased s k.rhs r ∧ Names s l tl ∧ Names s r tr ∧
      ∀ i : Nat, ∀ a b, k.lhs.cols[i]? = some a → k.rhs.cols[i]? = some b →
        ∃ c d, IsColumn tl a c ∧ IsColumn tr b d ∧ SameType c d := by
  intro k hk
  obtain ⟨-, h2, l, r, tl, tr, h3, h4, h5, h6, h7, h8, h9, -⟩ := (accepted h).refs.1 k hk
  refine ⟨h2, l, r, tl, tr, h3, h4, h5, h6, ?_⟩
  intro i a b ha hb
  rw [← endOf_unaliased_cols h3] at ha
  rw [← endOf_unaliased_cols h4] at hb
  obtain ⟨c, hc, hc'⟩ := List.mem_map.1 (h7 a (List.mem_of_getElem? ha))
  obtain ⟨d, hd, hd'⟩ := List.mem_map.1 (h8 b (List.mem_of_getElem? hb))
  refine ⟨c, d, ⟨hc, hc'⟩, ⟨hd, hd'⟩, h9 (a, b) ?_ c d ⟨hc, hc'⟩ ⟨hd, hd'⟩⟩
  have : (l.cols.zip r.cols)[i]? = some (a, b) := by
    rw [List.getElem?_zip_eq_some]; exact ⟨ha, hb⟩
  exact List.mem_of_getElem? this

/-- **C31**: the referenced side of a single-column reference is a key. -/
theorem C31_single_key : ∀ k ∈ links s, ∀ a b, k.lhs.cols = [a] → k.rhs.cols = [b] →
    ∃ l r tl tr, Unaliased s k.lhs l ∧ Unaliased s k.rhs r ∧ Names s l tl ∧ Names s r tr ∧
      (k.rel = .one2many → SingleKey tl a) ∧ (k.rel = .many2one → SingleKey tr b) ∧
      (k.rel = .one2one ∨ k.rel = .many2many → SingleKey tl a ∨ SingleKey tr b) := by
  intro k hk a b ha hb
  obtain ⟨-, -, l, r, tl, tr, h3, h4, h5, h6, -, -, -, h7⟩ := (accepted h).refs.1 k hk
  refine ⟨l, r, tl, tr, h3, h4, h5, h6, ?_⟩
  rw [endOf_unaliased_cols h3, endOf_unaliased_cols h4, ha, hb] at h7
  refine ⟨?_, ?_, ?_⟩
  · intro he; rw [he] at h7; exact h7
  · intro he; rw [he] at h7; exact h7
  · rintro (he | he) <;> rw [he] at h7 <;> exact h7

/-- **C31**: the referenced side of a composite reference is a key; both sides if it is many-to-many. -/
theorem C31_composite_key : ∀ k ∈ links s, 2 ≤ k.lhs.cols.length →
    ∃ l r tl tr, Unaliased s k.lhs l ∧ Unaliased s k.rhs r ∧ Names s l tl ∧ Names s r tr ∧
      (k.rel = .one2many → CompositeKey tl k.lhs.cols) ∧ (k.rel = .many2one → CompositeKey tr k.rhs.cols) ∧
      (k.rel = .one2one → CompositeKey tl k.lhs.cols ∨ CompositeKey tr k.rhs.cols) ∧
      (k.rel = .many2many → CompositeKey tl k.lhs.cols ∧ CompositeKey tr k.rhs.cols) := by
  intro k hk hlen
  obtain ⟨-, h2, l, r, tl, tr, h3, h4, h5, h6, -, -, -, h7⟩ := (accepted h).refs.1 k hk
  refine ⟨l, r, tl, tr, h3, h4, h5, h6, ?_⟩
  rw [endOf_unaliased_cols h3, endOf_unaliased_cols h4] at h7
  obtain ⟨a, a', as, ha⟩ : ∃ a a' as, k.lhs.cols = a :: a' :: as := by
    match k.lhs.cols, hlen with
    | a :: a' :: as, _ => exact ⟨a, a', as, rfl⟩
  rw [ha] at h7 ⊢
  unfold KeyOk at h7
  simp only at h7
  refine ⟨?_, ?_, ?_, ?_⟩ <;> (intro he; rw [he] at h7; exact h7)

/-- **C32**: no two references put a foreign key on the same columns, and no two one-to-one, and no two
many-to-many, references link the same two ends. -/
theorem C32_no_conflicts : (links s).Pairwise fun a b =>
    (∀ x y x' y', fkSide a = some x → fkSide b = some y → Unaliased s x x' → Unaliased s y y' →
      ¬ SameEnd x' y') ∧
    (a.rel = b.rel → a.rel = .one2one ∨ a.rel = .many2many →
      ∀ l r l' r', Unaliased s a.lhs l → Unaliased s a.rhs r → Unaliased s b.lhs l' → Unaliased s b.rhs r' →
        ¬ (SameEnd l l' ∧ SameEnd r r') ∧ ¬ (SameEnd l r' ∧ SameEnd r l')) := by
  refine (accepted h).refs.2.imp ?_
  rintro a b ⟨h1, -⟩
  refine ⟨?_, ?_⟩
  · intro x y x' y' hx hy hx' hy' he
    exact h1 (.inl ⟨x, y, x', y', hx, hy, hx', hy', he⟩)
  · intro he hr l r l' r' hl hr' hl' hr''
    constructor
    · rintro ⟨e1, e2⟩
      refine h1 (.inr ⟨he, hr, ?_⟩)
      intro x hx
      simp only [List.mem_cons, List.not_mem_nil, or_false] at hx
      rcases hx with rfl | rfl
      · exact ⟨b.lhs, by simp, l, l', hl, hl', e1⟩
      · exact ⟨b.rhs, by simp, r, r', hr', hr'', e2⟩
    · rintro ⟨e1, e2⟩
      refine h1 (.inr ⟨he, hr, ?_⟩)
      intro x hx
      simp only [List.mem_cons, List.not_mem_nil, or_false] at hx
      rcases hx with rfl | rfl
      · exact ⟨b.rhs, by simp, l, r', hl, hr'', e1⟩
      · exact ⟨b.lhs, by simp, r, l', hr', hl', e2⟩

/-- **C36**: in an accepted schema, no reference goes through the alias of a table that is declared without
a schema. -/
theorem C36_alias_needs_schema : ∀ k ∈ links s, ∀ e ∈ ends k, ∀ t ∈ s.tables,
    aliasOf t = some e.table → t.ident.schema ≠ none := by
  intro k hk e he t ht ha hn
  obtain ⟨-, -, l, r, tl, tr, h3, h4, h5, h6, -, -, -, -⟩ := (accepted h).refs.1 k hk
  have key : ∀ e' t', Unaliased s e e' → Names s e' t' → False := by
    rintro e' t' (⟨t2, ⟨h7, h8⟩, rfl⟩ | ⟨h7, -⟩) ⟨h9, h10, h11⟩
    · have := nodup_filterMap_inj (accepted h).tableNames.2.1 ht h7 ha h8
      subst this
      -- the table named by the alias is `t` itself
      have hkey : tableKey t' = tableKey t := by
        have : schemaOf t'.ident.schema = (tableKey t).1 := by
          cases hs : t'.ident.schema with
          | none => rw [hs] at h10; cases h10
          | some i => rw [hs] at h10; simpa [schemaOf] using h10
        exact Prod.ext this h11
      have := nodup_map_inj (accepted h).tableNames.1 h9 ht hkey
      subst this
      rw [hn] at h10; cases h10
    · exact h7 t ⟨ht, ha⟩
  unfold ends at he
  simp only [List.mem_cons, List.not_mem_nil, or_false] at he
  rcases he with rfl | rfl
  · exact key l tl h3 h5
  · exact key r tr h4 h6

/-- **C36**: an endpoint that is not an alias names a table whose schema is written the same way: `t` never
finds `public.t`, nor `public.t` a table declared as `t`. -/
theorem C36_schema_as_written : ∀ k ∈ links s, ∀ e ∈ ends k, (∀ t ∈ s.tables, aliasOf t ≠ some e.table) →
    ∃ t ∈ s.tables, t.ident.schema.map (·.to_string) = e.schema ∧ t.ident.name.to_string = e.table := by
  intro k hk e he hna
  obtain ⟨-, -, l, r, tl, tr, h3, h4, h5, h6, -, -, -, -⟩ := (accepted h).refs.1 k hk
  have key : ∀ e' t', Unaliased s e e' → Names s e' t' →
      ∃ t ∈ s.tables, t.ident.schema.map (·.to_string) = e.schema ∧ t.ident.name.to_string = e.table := by
    rintro e' t' (⟨t2, ⟨h7, h8⟩, -⟩ | ⟨-, rfl⟩) ⟨h9, h10, h11⟩
    · exact absurd h8 (hna t2 h7)
    · exact ⟨t', h9, h10, h11⟩
  unfold ends at he
  simp only [List.mem_cons, List.not_mem_nil, or_false] at he
  rcases he with rfl | rfl
  · exact key l tl h3 h5
  · exact key r tr h4 h6

end

/-- **C36**, for concrete documents: the alias of an unqualified table, `public.users` for `users`, and
`users` for `public.users` are all reported as missing tables. -/
theorem C36_witnesses :
    parseDbml k!"Project p { } Table users as U { id int [pk] } Table posts { uid int [ref: > U.id] }" =
      .err (.semantic .tableNotFound ⟨77, 81⟩) ∧
    parseDbml k!"Project p { } Table users { id int [pk] } Table posts { uid int [ref: > public.users.id] }" =
      .err (.semantic .tableNotFound ⟨72, 87⟩) ∧
    parseDbml k!"Project p { } Table public.users { id int [pk] } Table posts { uid int [ref: > users.id] }" =
      .err (.semantic .tableNotFound ⟨79, 87⟩) := by
  decide +kernel

/-- An alias of a table with a schema works. -/
example : (parseDbml k!"Project p { } Table a.users as U { id int [pk] } Table posts { uid int [ref: > U.id] }").get?.isSome
    = true := by decide +kernel

/-! ## C39: the index -/

/-- **C39**: after a successful analysis the index knows exactly the declared tables, enums and aliases. -/
theorem C39_index {a : AnalyzedIndexer} (h : analyze s = .ok a) :
    (∀ sc n, a.indexer.containsTable sc n = true ↔ ∃ t ∈ s.tables, tableKey t = (sc, n)) ∧
    (∀ sc n, a.indexer.containsEnum sc n = true ↔ ∃ e ∈ s.enums, enumKey e = (sc, n)) ∧
    (∀ al k, a.indexer.resolveAlias al = some k ↔ ∃ t ∈ s.tables, aliasOf t = some al ∧ tableKey t = k) := by
  have ho := analyze_out s
  rw [h] at ho
  obtain ⟨hv, hk, -⟩ := ho
  refine ⟨fun sc n => ?_, fun sc n => ?_, fun al k => ?_⟩
  · rw [containsTable_eq]
    cases ht : a.indexer.table? (sc, n) with
    | none => simpa using hk.table_none _ ht
    | some cs =>
      obtain ⟨t, h1, h2, -⟩ := hk.table_some _ _ ht
      simp only [Option.isSome_some, true_iff]
      exact ⟨t, h1, h2⟩
  · rw [containsEnum_eq]
    cases ht : a.indexer.enum? (sc, n) with
    | none => simpa using hk.enum_none _ ht
    | some cs =>
      obtain ⟨t, h1, h2, -⟩ := hk.enum_some _ _ ht
      simp only [Option.isSome_some, true_iff]
      exact ⟨t, h1, h2⟩
  · unfold Indexer.resolveAlias
    constructor
    · exact hk.alias_some al k
    · rintro ⟨t, h1, h2, h3⟩
      cases hg : mapGet a.indexer.table_alias_map al with
      | none => exact absurd h2 (hk.alias_none _ hg t h1)
      | some k' =>
        obtain ⟨t', h4, h5, h6⟩ := hk.alias_some _ _ hg
        have := nodup_filterMap_inj hv.tableNames.2.1 h1 h4 h2 h5
        subst this
        rw [← h3, ← h6]

/-- **C39**: the index resolves an endpoint as the specification does. -/
theorem C39_resolve {a : AnalyzedIndexer} (h : analyze s = .ok a) (e : RefIdent) :
    Unaliased s (endOf e) (endOf (a.indexer.resolveRefAlias e)) := by
  have ho := analyze_out s
  rw [h] at ho
  exact resolve_unaliased ho.2.1 e

/-- **C39**: looking up enum values answers exactly: whether the schema exists, whether the enum is declared
in it, and for each asked value whether the enum has it. -/
theorem C39_enum_values {a : AnalyzedIndexer} (h : analyze s = .ok a) (sc : Option Str) (n : Str) (vals : List Str) :
    ((a.indexer.lookupEnumValues sc n vals).1 = true ↔ SchemaDeclared s (sc.getD k!"public")) ∧
    ((a.indexer.lookupEnumValues sc n vals).2.1 = true ↔ ∃ e ∈ s.enums, enumKey e = (sc.getD k!"public", n)) ∧
    (a.indexer.lookupEnumValues sc n vals).2.2.length = vals.length ∧
    ∀ (i : Nat) (v : Str), vals[i]? = some v → ((a.indexer.lookupEnumValues sc n vals).2.2[i]? = some true ↔
      ∃ e ∈ s.enums, enumKey e = (sc.getD k!"public", n) ∧ v ∈ e.values.map (·.value.to_string)) := by
  have ho := analyze_out s
  rw [h] at ho
  obtain ⟨hv, hk, -⟩ := ho
  have hsc := hk.schema (sc.getD k!"public")
  have hn : ∀ e ∈ s.enums, ∀ e' ∈ s.enums, enumKey e = enumKey e' → e = e' :=
    fun e he e' he' hh => nodup_map_inj hv.enumNames.1 he he' hh
  unfold Indexer.lookupEnumValues
  rw [show DEFAULT_SCHEMA = k!"public" from rfl]
  cases hm : mapGet a.indexer.schema_map (sc.getD k!"public") with
  | none =>
    rw [hm] at hsc
    have hno : ∀ e ∈ s.enums, enumKey e ≠ (sc.getD k!"public", n) := fun e he hh => by
      have := hsc.2 (.inr ⟨e, he, by rw [hh]⟩)
      simp at this
    refine ⟨by simpa [SchemaDeclared] using hsc, ?_, by simp, fun i v hi => ?_⟩
    · simpa using hno
    · simp only [List.getElem?_map, hi, Option.map_some, Option.some.injEq, Bool.false_eq_true, false_iff]
      rintro ⟨e, he, h1, -⟩
      exact hno e he h1
  | some b =>
    rw [hm] at hsc
    dsimp only
    cases he : mapGet b.enum_map n with
    | none =>
      have hno := hk.enum_none (sc.getD k!"public", n) (by simp [Indexer.enum?, hm, he])
      refine ⟨by simpa [SchemaDeclared] using hsc, by simpa using hno, by simp, fun i v hi => ?_⟩
      simp only [List.getElem?_map, hi, Option.map_some, Option.some.injEq, Bool.false_eq_true, false_iff]
      rintro ⟨e, he, h1, -⟩
      exact hno e he h1
    | some vs =>
      obtain ⟨e, h1, h2, h3⟩ := hk.enum_some (sc.getD k!"public", n) vs (by simp [Indexer.enum?, hm, he])
      refine ⟨by simpa [SchemaDeclared] using hsc, by simpa using ⟨e, h1, h2⟩, by simp, fun i v hi => ?_⟩
      simp only [List.getElem?_map, hi, Option.map_some, Option.some.injEq, List.contains_iff_mem, h3]
      constructor
      · exact fun hh => ⟨e, h1, h2, hh⟩
      · rintro ⟨e', h1', h2', hh⟩
        rwa [hn e h1 e' h1' (h2.trans h2'.symm)]

/-- **C39**: looking up fields of a table succeeds exactly when the table is declared and has every one of them. -/
theorem C39_table_fields {a : AnalyzedIndexer} (h : analyze s = .ok a) (sc : Option Ident) (t : Ident)
    (fs : List Ident) (inp : Str) :
    a.indexer.lookupTableFields sc t fs inp = .ok () ↔
      ∃ b ∈ s.tables, tableKey b = (schemaOrDefault sc, t.to_string) ∧ ∀ f ∈ fs, f.to_string ∈ colNames b := by
  have ho := analyze_out s
  rw [h] at ho
  obtain ⟨hv, hk, -⟩ := ho
  have hn : ∀ e ∈ s.tables, ∀ e' ∈ s.tables, tableKey e = tableKey e' → e = e' :=
    fun e he e' he' hh => nodup_map_inj hv.tableNames.1 he he' hh
  have hne : ∀ k sp, throwErr k sp inp ≠ (.ok () : Rs Unit) := by
    intro k sp; unfold throwErr; split <;> simp
  unfold Indexer.lookupTableFields
  dsimp only
  cases hm : mapGet a.indexer.schema_map (schemaOrDefault sc) with
  | none =>
    have hno := hk.table_none (schemaOrDefault sc, t.to_string) (by simp [Indexer.table?, hm])
    simp only [hne, false_iff]
    rintro ⟨e, he, h1, -⟩
    exact hno e he h1
  | some b =>
    dsimp only
    cases he : mapGet b.table_map t.to_string with
    | none =>
      have hno := hk.table_none (schemaOrDefault sc, t.to_string) (by simp [Indexer.table?, hm, he])
      simp only [hne, false_iff]
      rintro ⟨e, he, h1, -⟩
      exact hno e he h1
    | some vs =>
      obtain ⟨e, h1, h2, h3⟩ := hk.table_some (schemaOrDefault sc, t.to_string) vs (by simp [Indexer.table?, hm, he])
      dsimp only
      cases hf : (fs.filter fun v => !vs.contains v.to_string).head? with
      | none =>
        simp only [true_iff]
        refine ⟨e, h1, h2, fun f hf' => ?_⟩
        rw [List.head?_eq_none_iff, List.filter_eq_nil_iff] at hf
        have := hf f hf'
        simpa [h3] using this
      | some f =>
        simp only [hne, false_iff]
        rintro ⟨e', h1', h2', hh⟩
        have hmem := List.mem_of_mem_head? hf
        rw [List.mem_filter] at hmem
        have := hh f hmem.1
        rw [← hn e h1 e' h1' (h2.trans h2'.symm), ← h3] at this
        simp [this] at hmem

/-- **C39**: and otherwise it names the missing schema, table or first missing column, where it was asked for. -/
theorem C39_table_fields_error {a : AnalyzedIndexer} (h : analyze s = .ok a) (sc : Option Ident) (t : Ident)
    (fs : List Ident) (inp : Str) :
    (¬ SchemaDeclared s (schemaOrDefault sc) →
      a.indexer.lookupTableFields sc t fs inp = throwErr .schemaNotFound ((sc.map (·.span_range)).getD .zero) inp) ∧
    (SchemaDeclared s (schemaOrDefault sc) → (∀ b ∈ s.tables, tableKey b ≠ (schemaOrDefault sc, t.to_string)) →
      a.indexer.lookupTableFields sc t fs inp = throwErr .tableNotFound t.span_range inp) ∧
    (∀ b ∈ s.tables, tableKey b = (schemaOrDefault sc, t.to_string) → ∀ fs1 f fs2, fs = fs1 ++ f :: fs2 →
      (∀ g ∈ fs1, g.to_string ∈ colNames b) → f.to_string ∉ colNames b →
      a.indexer.lookupTableFields sc t fs inp = throwErr .columnNotFound f.span_range inp) := by
  have ho := analyze_out s
  rw [h] at ho
  obtain ⟨hv, hk, -⟩ := ho
  have hn : ∀ e ∈ s.tables, ∀ e' ∈ s.tables, tableKey e = tableKey e' → e = e' :=
    fun e he e' he' hh => nodup_map_inj hv.tableNames.1 he he' hh
  have hsc := hk.schema (schemaOrDefault sc)
  unfold Indexer.lookupTableFields
  dsimp only
  refine ⟨fun hh => ?_, fun hh hno => ?_, fun b hb hbk fs1 f fs2 hfs h1 h2 => ?_⟩
  · cases hm : mapGet a.indexer.schema_map (schemaOrDefault sc) with
    | none => rfl
    | some b => rw [hm] at hsc; exact absurd (hsc.1 rfl) hh
  · cases hm : mapGet a.indexer.schema_map (schemaOrDefault sc) with
    | none => rw [hm] at hsc; have := hsc.2 hh; simp at this
    | some b =>
      dsimp only
      cases he : mapGet b.table_map t.to_string with
      | none => rfl
      | some vs =>
        obtain ⟨e, h1, h2, -⟩ := hk.table_some (schemaOrDefault sc, t.to_string) vs (by simp [Indexer.table?, hm, he])
        exact absurd h2 (hno e h1)
  · cases hm : a.indexer.table? (schemaOrDefault sc, t.to_string) with
    | none => exact absurd hbk (hk.table_none _ hm b hb)
    | some vs =>
      obtain ⟨e, h4, h5, h3⟩ := hk.table_some _ _ hm
      obtain rfl := hn e h4 b hb (h5.trans hbk.symm)
      unfold Indexer.table? at hm
      cases hx : mapGet a.indexer.schema_map (schemaOrDefault sc) with
      | none => simp [hx] at hm
      | some blk =>
        simp only [hx, Option.bind_some] at hm
        dsimp only
        rw [hm]
        dsimp only
        have e1 : fs1.filter (fun v => !vs.contains v.to_string) = [] := by
          rw [List.filter_eq_nil_iff]
          intro g hg
          simpa [h3] using h1 g hg
        rw [hfs, List.filter_append, e1, List.nil_append, List.filter_cons_of_pos (by simpa [h3] using h2)]
        rfl

example : ∃ a, analyze exAst = .ok a :=
  ((C05_checked_is_unchecked exText exAst).1 ex_accepted).2

/-! ## Stronger claims that are false -/

/-- **C21**: a schema-qualified group item need not exist. -/
theorem C21_qualified_item_unchecked :
    ∃ input s, parseDbml input = .ok s ∧ s.tables = [] ∧ (groupItems s).length = 1 := by
  obtain ⟨s, h1, h2⟩ := accepted_with (t := k!"Project p { } TableGroup g { no.such }")
    (fun s => s.tables.isEmpty && (groupItems s).length == 1) (by decide +kernel)
  simp only [Bool.and_eq_true, List.isEmpty_iff, beq_iff_eq] at h2
  exact ⟨_, s, h1, h2⟩

/-- **C22**: keys may be repeated in the settings of a table group. -/
theorem C22_group_settings_unchecked :
    ∃ input s, parseDbml input = .ok s ∧ ∃ x ∈ groupSettings s, ¬ (x.attributes.map (·.key.to_string)).Nodup := by
  obtain ⟨s, h1, h2⟩ := accepted_with (t := k!"Project p { } TableGroup g [color: #fff, color: #000] { }")
    (fun s => (groupSettings s).any fun x => !decide ((x.attributes.map fun (y : Attribute) => y.key.to_string).Nodup)) (by decide +kernel)
  obtain ⟨x, hx, h3⟩ := List.any_eq_true.1 h2
  exact ⟨_, s, h1, x, hx, by simpa using h3⟩

/-- **C23**: two primary-key indexes made only of expressions are accepted. -/
theorem C23_two_expression_keys :
    ∃ input s, parseDbml input = .ok s ∧ ∃ t ∈ s.tables, 2 ≤ ((defsOf t).filter fun d => IsPkIndex d).length := by
  obtain ⟨s, h1, h2⟩ := accepted_with
    (t := k!"Project p { } Table t { id int Indexes { `a` [pk] `b` [pk] } }")
    (fun s => s.tables.any fun t => decide (2 ≤ ((defsOf t).filter fun d => IsPkIndex d).length)) (by decide +kernel)
  obtain ⟨x, hx, h3⟩ := List.any_eq_true.1 h2
  exact ⟨_, s, h1, x, hx, by simpa using h3⟩

/-- **C26**: an expression index that is unique is rejected as soon as the table has a unique column, since
it is compared as a key without columns. -/
theorem C26_expression_rejected :
    parseDbml k!"Project p { } Table t { id int [unique] Indexes { `a` [unique] } }" =
      .err (.semantic .duplicateUniqueKey ⟨50, 62⟩) := by decide +kernel

/-- **C28**: the largest `i64` is rejected as default of a `bigint`. -/
theorem C28_bigint_max_rejected :
    parseDbml k!"Project p { } Table t { id bigint [default: 9223372036854775807] }" =
      .err (.semantic (.dataTypeExceeded k!"bigint") ⟨44, 63⟩) := by decide +kernel

/-- **C29**: a column without default may have an undeclared type. -/
theorem C29_undeclared_type_accepted :
    ∃ input s, parseDbml input = .ok s ∧ s.enums = [] ∧
      ∃ c ∈ columns s, ∃ n, c.type.type_name = .raw n ∧ ColumnTypeName.fromStr n = none := by
  obtain ⟨s, h1, h2⟩ := accepted_with (t := k!"Project p { } Table t { id nosuch }")
    (fun s => s.enums.isEmpty && (columns s).any fun c => match c.type.type_name with
      | .raw n => (ColumnTypeName.fromStr n).isNone | _ => false) (by decide +kernel)
  simp only [Bool.and_eq_true, List.isEmpty_iff] at h2
  obtain ⟨c, hc, h3⟩ := List.any_eq_true.1 h2.2
  refine ⟨_, s, h1, h2.1, c, hc, ?_⟩
  cases hn : c.type.type_name <;> rw [hn] at h3 <;> simp at h3
  rename_i n
  exact ⟨n, rfl, h3⟩

/-- **C30**: enum types are compared without their schema: a reference between two different enums of the
same name is accepted. -/
theorem C30_enum_schema_ignored :
    (parseDbml k!"Project p { } Enum a.e { x } Enum b.e { y } Table t { id a.e [pk] o b.e [ref: > t.id] }").get?.isSome
      = true := by decide +kernel

/-- **C31**: for a single-column many-to-many reference one key side is enough. -/
theorem C31_many2many_one_key :
    (parseDbml k!"Project p { } Table t { id int [pk] o int [ref: <> t.id] }").get?.isSome = true := by
  decide +kernel

/-- A document with a composite reference, aliases, enums and many relations meets the hypotheses. -/
example : (parseDbml k!"Project p { }
Table a.m as M { x int y int z int [unique] Indexes { (x, y) [pk] } }
Table n { p int q int r int [pk] Indexes { (q, p) [unique] } }
Ref: M.(x, y) < n.(p, q)
Ref: n.r - M.z
Ref { n.r <> M.z [delete: cascade] }").get?.map (fun s => (links s).length) = some 3 := by decide +kernel

end Dbml.Props
