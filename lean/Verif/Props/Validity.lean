import Verif.Proofs.Parsed
import Verif.Props.Parsing

/-!
# Properties of `parse_dbml`: what it accepts, what it reports, when it panics

`Valid`, `StructureOk`, `ColumnOk`, ... are defined in `Verif/Spec/Valid.lean`; `StructDefect`,
`ColumnDefect`, `RefDefect` and `FirstDefect` in `Verif/Spec/Defects.lean`. They are declarative
predicates on the AST that do not mention the analyzer.
-/

namespace Dbml.Props
open Syntax Spec

variable {input : Str} {s : SchemaBlock}

/-- Concrete cases: the text is accepted and its AST satisfies `p`. -/
theorem accepted_with {t : Str} (p : SchemaBlock → Bool) (h : (parseDbml t).get?.map p = some true) :
    ∃ s, parseDbml t = .ok s ∧ p s = true := by
  obtain ⟨s, h1, h2⟩ := Option.map_eq_some_iff.1 h
  exact ⟨s, Rs.eq_ok_of_get? h1, h2⟩

/-- **C33**: a text is accepted exactly when it parses and its AST is valid. -/
theorem C33_accepts_iff_valid (input : Str) (s : SchemaBlock) :
    parseDbml input = .ok s ↔ parseDbmlUnchecked input = .ok s ∧ Valid s := by
  unfold parseDbml
  rw [Rs.bind_eq_ok]
  constructor
  · rintro ⟨b, h1, h2⟩
    obtain ⟨ix, h3, h4⟩ := Rs.bind_eq_ok.1 h2
    cases h4
    have := analyze_out s
    rw [h3] at this
    exact ⟨h1, this.1⟩
  · rintro ⟨h1, hv⟩
    refine ⟨s, h1, Rs.bind_eq_ok.2 ?_⟩
    rcases analyze_parsed (denotes h1) with ⟨a, ha, -⟩ | ⟨e, sp, -, hd⟩ | ⟨-, -, pre, c, post, hs, -, hc⟩
    · exact ⟨a, ha, rfl⟩
    · exact absurd hv (defect_not_valid hd.defect)
    · exact absurd (hv.columns c (by simp [hs])) (columnPanics_not_ok hc)

/-- What an accepted text has. -/
theorem accepted (h : parseDbml input = .ok s) : Valid s := ((C33_accepts_iff_valid input s).1 h).2

/-- **C33** for the analyzer on its own, on any AST whatever its origin: it succeeds exactly on valid
ASTs whose default values have a place (they do when the AST comes from a text). -/
theorem C33_analyze_iff_valid (s : SchemaBlock) :
    (∃ a, analyze s = .ok a) ↔ Valid s ∧ ∀ c ∈ columns s, DefaultPlaced c := by
  have ho := analyze_out s
  constructor
  · rintro ⟨a, ha⟩
    rw [ha] at ho
    exact ⟨ho.1, ho.2.2.2.2⟩
  · rintro ⟨hv, hp⟩
    cases ha : analyze s with
    | ok a => exact ⟨a, rfl⟩
    | err e =>
      rw [ha] at ho
      cases e with
      | semantic e sp => exact absurd hv (defect_not_valid (FirstDefect.defect ho))
      | _ => exact ho.elim
    | panic k =>
      rw [ha] at ho
      rcases ho with ⟨-, pre, c, post, hs, -, hk⟩ | ⟨-, e, sp, hd, -⟩
      · have hc : c ∈ columns s := by simp [hs]
        rcases hk with ⟨-, hk⟩ | ⟨-, hk⟩ | ⟨-, hk, hk'⟩
        · exact absurd (hv.columns c hc) (columnPanics_not_ok hk)
        · obtain ⟨n, ty, hr, -⟩ := hv.columns c hc
          exact absurd hr (hk n)
        · obtain ⟨sp, hsp⟩ := hp c hc hk
          exact absurd hsp (hk' sp)
      · exact absurd hv (defect_not_valid (FirstDefect.defect hd))
    | diverge => rw [ha] at ho; exact ho.elim

example : Valid exAst := accepted ex_accepted

/-! ## C04, C49: panics -/

theorem columnPanics_no_defect {c e sp} (h : ColumnPanics c) : ¬ ColumnDefect s c e sp := by
  obtain ⟨n, ty, v, hr, hf, -, ha, hd⟩ := h
  intro hcd
  cases hcd with
  | typeArgs _ _ h1 => exact h1 ha
  | typeArg _ _ h1 => simp [ha] at h1
  | enumSyntax hr' hf' => rw [HasRaw.unique hr hr', hf'] at hf; cases hf
  | enumSchema hr' hf' => rw [HasRaw.unique hr hr', hf'] at hf; cases hf
  | enumMissing hr' hf' => rw [HasRaw.unique hr hr', hf'] at hf; cases hf
  | enumDefault hr' hf' => rw [HasRaw.unique hr hr', hf'] at hf; cases hf
  | stringDefault _ _ _ _ h1 => exact h1 ha
  | boolDefault _ _ hd' => rw [hd] at hd'; cases hd'
  | intDefault _ _ hd' => rw [hd] at hd'; cases hd'
  | nullDefault hd' => rw [hd] at hd'; cases hd'

/-- The first element that does not satisfy `P` is unique. -/
theorem first_unique {α : Type} {P : α → Prop} {pre pre' post post' : List α} {x x' : α}
    (h : pre ++ x :: post = pre' ++ x' :: post') (h1 : ∀ y ∈ pre, P y) (h2 : ∀ y ∈ pre', P y) (hx : ¬ P x)
    (hx' : ¬ P x') : x = x' := by
  induction pre generalizing pre' with
  | nil =>
    cases pre' with
    | nil => simp at h; exact h.1
    | cons a pre' =>
      simp only [List.nil_append, List.cons_append, List.cons.injEq] at h
      exact absurd (h2 x (by simp [h.1])) hx
  | cons a pre ih =>
    cases pre' with
    | nil =>
      simp only [List.nil_append, List.cons_append, List.cons.injEq] at h
      exact absurd (h1 x' (by simp [h.1])) hx'
    | cons b pre' =>
      simp only [List.cons_append, List.cons.injEq] at h
      exact ih h.2 (fun y hy => h1 y (by simp [hy])) (fun y hy => h2 y (by simp [hy]))

/-- **C04**: `parse_dbml` panics exactly when the text parses, the structure is in order, and the first
column (in document order) that is not valid is a sized type without size with a string default. -/
theorem C04_panics_iff (input : Str) :
    (∃ k, parseDbml input = .panic k) ↔
    ∃ s, parseDbmlUnchecked input = .ok s ∧ StructureOk s ∧
      ∃ pre c post, columns s = pre ++ c :: post ∧ (∀ d ∈ pre, ColumnOk s d) ∧ ColumnPanics c := by
  unfold parseDbml
  constructor
  · rintro ⟨k, hk⟩
    cases hp : parseDbmlUnchecked input with
    | ok s =>
      rw [hp] at hk
      rcases analyze_parsed (denotes hp) with ⟨a, ha, -⟩ | ⟨e, sp, ha, hd⟩ | ⟨ha, h⟩
      · rw [Rs.ok_bind', ha] at hk; cases hk
      · rw [Rs.ok_bind', ha] at hk; cases hk
      · exact ⟨s, rfl, h⟩
    | err e => rw [hp] at hk; cases hk
    | panic k' => exact absurd hp (C01_parse_never_panics input k')
    | diverge => rw [hp] at hk; cases hk
  · rintro ⟨s, hp, hs, pre, c, post, hc, hpre, hpan⟩
    rw [hp, Rs.ok_bind']
    have hbad := columnPanics_not_ok (s := s) hpan
    rcases analyze_parsed (denotes hp) with ⟨a, ha, hv, -⟩ | ⟨e, sp, ha, hd⟩ | ⟨ha, h⟩
    · exact absurd (hv.columns c (by simp [hc])) hbad
    · cases hd with
      | project hd => exact absurd hs (structDefect_not_ok (.project hd))
      | table _ h _ hd => exact absurd hs (structDefect_not_ok (.table h hd))
      | enum _ _ h _ hd => exact absurd hs (structDefect_not_ok (.enum h hd))
      | group _ _ _ h _ hd => exact absurd hs (structDefect_not_ok (.group h hd))
      | keys _ _ _ _ h _ hd => exact absurd hs (structDefect_not_ok (.keys (by simp [h]) hd))
      | @column pre' c' post' _ _ hs' hc' hpre' hd =>
        have := first_unique (hc.symm.trans hc') hpre hpre' hbad (columnDefect_not_ok hs.enumNames.1 hd)
        subst this
        exact absurd hd (columnPanics_no_defect hpan)
      | ref _ hall => exact absurd (hall c (by simp [hc])) hbad
    · exact ⟨.argsIndex, by rw [ha]; rfl⟩

/-- **C04**: the only panic of `parse_dbml` is the out-of-bounds access to the type's arguments. -/
theorem C04_only_panic {k : PanicSite} (h : parseDbml input = .panic k) : k = .argsIndex := by
  unfold parseDbml at h
  cases hp : parseDbmlUnchecked input with
  | ok s =>
    rw [hp, Rs.ok_bind'] at h
    rcases analyze_parsed (denotes hp) with ⟨a, ha, -⟩ | ⟨e, sp, ha, hd⟩ | ⟨ha, -⟩
    · rw [ha] at h; cases h
    · rw [ha] at h; cases h
    · rw [ha] at h; cases h; rfl
  | err e => rw [hp] at h; cases h
  | panic k' => exact absurd hp (C01_parse_never_panics input k')
  | diverge => rw [hp] at h; cases h

/-- **C04**: without a string default on a sized type without size there is no panic. -/
theorem C04_no_panic (h : parseDbmlUnchecked input = .ok s) (hc : ∀ c ∈ columns s, ¬ ColumnPanics c)
    (k : PanicSite) : parseDbml input ≠ .panic k := by
  intro hk
  obtain ⟨s', h1, -, pre, c, post, h2, -, h3⟩ := (C04_panics_iff input).1 ⟨k, hk⟩
  rw [h] at h1; cases h1
  exact hc c (by simp [h2]) h3

/-- **C04**: the blanket claim "never panics" is false. -/
theorem C04_panic_reachable : ∃ input k, parseDbml input = .panic k := by
  refine ⟨k!"Project p { } Table t { id int [pk] name varchar [default: 'x'] }", .argsIndex, ?_⟩
  decide +kernel

/-- **C04**: `parse_dbml` always terminates. -/
theorem C04_terminates (input : Str) : parseDbml input ≠ .diverge := by
  unfold parseDbml
  cases hp : parseDbmlUnchecked input with
  | ok s =>
    rw [Rs.ok_bind']
    rcases analyze_parsed (denotes hp) with ⟨a, ha, -⟩ | ⟨e, sp, ha, hd⟩ | ⟨ha, -⟩ <;> rw [ha] <;>
      intro h <;> cases h
  | err e => intro h; cases h
  | panic k' => intro h; cases h
  | diverge => exact absurd hp (C02_parse_terminates input).2

/-- **C49**: building an analysis error never panics: the span it would be reported at is a range of the
input, for every defect the schema has. -/
theorem C49_error_spans_valid (h : parseDbmlUnchecked input = .ok s) {e : Err} {sp : Span}
    (hd : Defect s e sp) : sp.valid input = true := defect_span (denotes h) hd

theorem C49_no_span_panic (input : Str) : parseDbml input ≠ .panic .spanUnwrap := by
  intro h; have := C04_only_panic h; cases this

/-! ## C35: errors -/

/-- **C35**: an error of `parse_dbml` is the one of `parse_dbml_unchecked`, or it is of a kind, and at a
place, that describes a defect of the AST; the defect is a first one in the order of `FirstDefect`. -/
theorem C35_errors_truthful {e : PError} (h : parseDbml input = .err e) :
    parseDbmlUnchecked input = .err e ∨
    ∃ s er sp, parseDbmlUnchecked input = .ok s ∧ e = .semantic er sp ∧ FirstDefect s er sp ∧
      sp.valid input = true := by
  unfold parseDbml at h
  cases hp : parseDbmlUnchecked input with
  | ok s =>
    rw [hp, Rs.ok_bind'] at h
    rcases analyze_parsed (denotes hp) with ⟨a, ha, -⟩ | ⟨e, sp, ha, hd⟩ | ⟨ha, -⟩
    · rw [ha] at h; cases h
    · rw [ha] at h; cases h; exact .inr ⟨s, e, sp, rfl, rfl, hd, defect_span (denotes hp) hd.defect⟩
    · rw [ha] at h; cases h
  | err e' => rw [hp] at h; left; cases h; rfl
  | panic k' => exact absurd hp (C01_parse_never_panics input k')
  | diverge => rw [hp] at h; cases h

/-- **C35**: a schema with a defect is not accepted, so no error is spurious. -/
theorem C35_defect_rejected {e : Err} {sp : Span} (hd : Defect s e sp) : ¬ Valid s := defect_not_valid hd

/-- **C35**: a schema that is not valid is rejected with an error, or makes the analyzer panic. -/
theorem C35_invalid_reported (h : parseDbmlUnchecked input = .ok s) (hv : ¬ Valid s) :
    (∃ e sp, parseDbml input = .err (.semantic e sp) ∧ FirstDefect s e sp) ∨
    parseDbml input = .panic .argsIndex := by
  unfold parseDbml
  rw [h, Rs.ok_bind']
  rcases analyze_parsed (denotes h) with ⟨a, ha, hv', -⟩ | ⟨e, sp, ha, hd⟩ | ⟨ha, -⟩
  · exact absurd hv' hv
  · exact .inl ⟨e, sp, by rw [ha]; rfl, hd⟩
  · exact .inr (by rw [ha]; rfl)

example : parseDbml k!"Project p { } Table t { id int [pk] id int }" =
    .err (.semantic .duplicateColumnName ⟨36, 43⟩) := by decide +kernel

/-! ## C16–C32: what acceptance guarantees -/

section
variable (h : parseDbml input = .ok s)
include h

/-- **C16**: exactly one project, with distinct property keys. -/
theorem C16_one_project : ∃ p, s.projects = [p] ∧ (p.properties.map (·.key.to_string)).Nodup :=
  (accepted h).project

/-- **C17**: no two tables have the same schema (default `public`) and name. -/
theorem C17_table_names : (s.tables.map fun t => (schemaOf t.ident.schema, t.ident.name.to_string)).Nodup :=
  (accepted h).tableNames.1

/-- **C18**: column names are distinct within each table. -/
theorem C18_column_names : ∀ t ∈ s.tables, (t.cols.map (·.name.to_string)).Nodup :=
  (accepted h).tableNames.2.2

/-- **C19**: table aliases are distinct. -/
theorem C19_aliases : (s.tables.filterMap fun t => t.ident.alias.map (·.to_string)).Nodup :=
  (accepted h).tableNames.2.1

/-- **C20**: enum names are distinct per schema, and values within each enum. -/
theorem C20_enums :
    (s.enums.map fun e => (schemaOf e.ident.schema, e.ident.name.to_string)).Nodup ∧
    ∀ e ∈ s.enums, (e.values.map (·.value.to_string)).Nodup :=
  (accepted h).enumNames

/-- **C21**: group names are distinct; an unqualified item is an alias or a table of `public`; and no group
lists the same table twice. -/
theorem C21_groups :
    (s.table_groups.map (·.ident.to_string)).Nodup ∧
    ∀ g ∈ s.table_groups,
      (∃ ks, GroupTargets s g.items ks ∧ ks.Nodup) ∧
      ∀ i ∈ g.items, i.schema = none →
        ∃ t ∈ s.tables, aliasOf t = some i.ident_alias.to_string ∨
          tableKey t = (k!"public", i.ident_alias.to_string) := by
  have hg := (accepted h).groups
  refine ⟨hg.1, fun g hgm => ⟨hg.2 g hgm, ?_⟩⟩
  intro i hi hn
  obtain ⟨ks, h1, -⟩ := hg.2 g hgm
  obtain ⟨k, -, h2⟩ := h1.mem_left hi
  unfold GroupTarget at h2
  rw [hn] at h2
  rcases h2 with ⟨t, ⟨h3, h4⟩, -⟩ | ⟨-, rfl, t, ht, h4⟩
  · exact ⟨t, h3, .inl h4⟩
  · exact ⟨t, ht, .inr h4⟩

/-- **C22**: keys are distinct in the settings of tables, columns, enum values, index definitions and ref
blocks. -/
theorem C22_setting_keys :
    (∀ x ∈ tableSettings s, (x.attributes.map (·.key.to_string)).Nodup) ∧
    (∀ x ∈ columnSettings s, (x.attributes.map (·.key.to_string)).Nodup) ∧
    (∀ x ∈ enumSettings s, (x.attributes.map (·.key.to_string)).Nodup) ∧
    (∀ x ∈ indexSettings s, (x.attributes.map (·.key.to_string)).Nodup) ∧
    (∀ x ∈ refSettings s, (x.attributes.map (·.key.to_string)).Nodup) := by
  have hs := (accepted h).settings
  simp only [checkedSettings, structSettings, List.mem_append, List.mem_map] at hs
  refine ⟨fun x hx => ?_, fun x hx => ?_, fun x hx => ?_, fun x hx => ?_, fun x hx => ?_⟩ <;>
    refine hs x.attributes ?_
  · exact .inl (.inl (.inl (.inl ⟨x, hx, rfl⟩)))
  · exact .inl (.inl (.inl (.inr ⟨x, hx, rfl⟩)))
  · exact .inl (.inl (.inr ⟨x, hx, rfl⟩))
  · exact .inl (.inr ⟨x, hx, rfl⟩)
  · exact .inr ⟨x, hx, rfl⟩

/-- **C23**: at most one primary-key column; not both a primary-key column and a primary-key index; at
most one primary-key index that names a column. -/
theorem C23_primary_keys : ∀ t ∈ s.tables,
    (t.cols.filter fun c => IsPkCol c).length ≤ 1 ∧
    (∀ c ∈ t.cols, ∀ d ∈ defsOf t, ¬ (IsPkCol c ∧ IsPkIndex d)) ∧
    ((defsOf t).filter fun d => IsPkIndex d ∧ indexNames d ≠ []).length ≤ 1 := by
  intro t ht
  obtain ⟨h1, h2, h3⟩ := ((accepted h).tables t ht).1
  refine ⟨h1, h2, ?_⟩
  have : ((defsOf t).filter fun d => IsPkIndex d ∧ indexNames d ≠ []) =
      ((defsOf t).filter fun d => IsPkIndex d).filter fun d => indexNames d ≠ [] := by
    rw [List.filter_filter]
    congr 1
    funext d
    simp only [Bool.decide_and]
    rw [Bool.and_comm]
  rw [this]
  generalize (defsOf t).filter (fun d => decide (IsPkIndex d)) = l at h3
  induction l with
  | nil => simp
  | cons d l ih =>
    obtain ⟨h4, h5⟩ := List.pairwise_cons.1 h3
    by_cases hd : indexNames d = []
    · rw [List.filter_cons_of_neg (by simpa using hd)]
      exact ih h5
    · cases l with
      | nil => rw [List.filter_cons]; split <;> simp
      | cons e l => exact absurd (h4 e (by simp)) hd

/-- **C24**: a primary-key column is not declared `null` and is not an array; no column is both `null` and
`not null`. -/
theorem C24_column_settings : ∀ c ∈ columns s, ∀ st, c.settings = some st →
    (st.is_pk = true → st.nullable ≠ some .null ∧ c.type.arrays = []) ∧
    ¬ (HasKey k!"null" st.attributes ∧ HasKey k!"not null" st.attributes) := by
  intro c hc st hst
  obtain ⟨t, ht, hc⟩ := List.mem_flatMap.1 hc
  obtain ⟨h1, h2⟩ := ((accepted h).tables t ht).2.1 c hc st hst
  refine ⟨h1, ?_⟩
  rintro ⟨⟨a, ha, ha'⟩, b, hb, hb'⟩
  exact h2 ⟨List.mem_map.2 ⟨a, ha, ha'⟩, List.mem_map.2 ⟨b, hb, hb'⟩⟩

/-- **C25**: an index is not empty, names only columns of its table, and is at most one of pk, unique and
typed. -/
theorem C25_indexes : ∀ t ∈ s.tables, ∀ d ∈ defsOf t,
    d.cols ≠ [] ∧
    (∀ i, IndexesColumnType.string i ∈ d.cols → ∃ c ∈ t.cols, c.name.to_string = i.to_string) ∧
    ∀ st, d.settings = some st →
      ¬ (st.is_pk = true ∧ st.is_unique = true) ∧ ¬ (st.is_pk = true ∧ st.type ≠ none) ∧
      ¬ (st.is_unique = true ∧ st.type ≠ none) := by
  intro t ht d hd
  obtain ⟨h1, h2, h3⟩ := ((accepted h).tables t ht).2.2.1 d hd
  refine ⟨h1, fun i hi => ?_, h3⟩
  have := h2 i.to_string (mem_indexNames.2 ⟨i, hi, rfl⟩)
  obtain ⟨c, hc, he⟩ := List.mem_map.1 this
  exact ⟨c, hc, he⟩

/-- **C26**: no unique key consists of columns of an earlier unique key of the table, and no index repeats
an earlier one. -/
theorem C26_no_redundant_index : ∀ t ∈ s.tables,
    (uniqueKeys t).Pairwise (fun earlier later => ¬ later ⊆ earlier) ∧
    (plainIndexes t).Pairwise (fun earlier later => ¬ Repeats earlier later) :=
  fun t ht => ((accepted h).tables t ht).2.2.2

/-- **C27**: arguments of a built-in type: none, or as many integers as the type takes. -/
theorem C27_type_arguments : ∀ c ∈ columns s, ∀ n ty, c.type.type_name = .raw n →
    ColumnTypeName.fromStr n = some ty →
    c.type.args = [] ∨ (c.type.args.length = arity ty ∧ ∀ v ∈ c.type.args, ∃ n, v = .integer n) := by
  intro c hc n ty hn hty
  obtain ⟨n', ty', hr, hres, ha, -⟩ := (accepted h).columns c hc
  have := HasRaw.unique hn hr; subst this
  have := Resolves.unique (Or.inl hty) hres; subst this
  exact ha hty

/-- **C28**: a default of a column of built-in type fits the type. -/
theorem C28_defaults_fit : ∀ c ∈ columns s, ∀ n ty v, c.type.type_name = .raw n →
    ColumnTypeName.fromStr n = some ty → defaultOf c = some v →
    match v with
    | .string w =>
      ((ty = .bit ∨ ty = .char) → ∃ m, c.type.args = [.integer m] ∧ (blen w : Int) = m) ∧
      ((ty = .varbit ∨ ty = .varchar) → ∃ m, c.type.args = [.integer m] ∧ (blen w : Int) ≤ m)
    | .integer m =>
      (ty = .smallInt → -2 ^ 15 ≤ m ∧ m < 2 ^ 15) ∧ (ty = .integer → -2 ^ 31 ≤ m ∧ m < 2 ^ 31) ∧
      (ty = .bigInt → m < 2 ^ 63 - 1)
    | .bool _ => ty = .bool
    | .null => ∃ st, c.settings = some st ∧ st.nullable = some .null
    | _ => True := by
  intro c hc n ty v hn hty hv
  obtain ⟨n', ty', hr, hres, ha, hd⟩ := (accepted h).columns c hc
  have := HasRaw.unique hn hr; subst this
  have := Resolves.unique (Or.inl hty) hres; subst this
  have hf := (hd v hv).1
  cases v with
  | string w =>
    constructor
    · rintro (rfl | rfl) <;> exact hf
    · rintro (rfl | rfl) <;> exact hf
  | integer m =>
    refine ⟨?_, ?_, ?_⟩
    · rintro rfl
      have hf : (-32768 : Int) ≤ m ∧ m ≤ 32767 := hf
      omega
    · rintro rfl
      have hf : (-2147483648 : Int) ≤ m ∧ m ≤ 2147483647 := hf
      omega
    · rintro rfl
      have hf : m ≠ (-9223372036854775808 : Int) ∧ m ≠ 9223372036854775807 := hf
      have hlt : m < 2 ^ 63 := by
        have hp := parseDbml_ok h
        cases hst : c.settings with
        | none => simp [defaultOf, hst] at hv
        | some st =>
          have hcs := List.mem_filterMap.2 ⟨c, hc, hst⟩
          obtain ⟨q, hq, items, -, -, -, -, -, -, -, -, hdef, -⟩ := has_colSettings (denotes hp) st hcs
          have h0 : st.default = some (.integer m) := by simpa [defaultOf, hst] using hv
          rw [h0] at hdef
          obtain ⟨l, hl, hlv⟩ := Option.map_eq_some_iff.1 hdef.symm
          have hl' : l ∈ literals s := by
            have : some l ∈ valuesOf k!"default" st.attributes := by
              unfold lastValue at hl
              cases hg : (valuesOf k!"default" st.attributes).getLast? with
              | none => simp [hg] at hl
              | some x => rw [hg] at hl; simp only [Option.getD_some] at hl; subst hl; exact List.mem_of_getLast? hg
            unfold valuesOf at this
            obtain ⟨a, ha1, ha2⟩ := List.mem_map.1 this
            have ha3 := (List.mem_filter.1 ha1).1
            simp only [literals, List.mem_append]
            refine .inl (.inl (.inl (List.mem_filterMap.2 ⟨a, ?_, ha2⟩)))
            exact mem_attributes (as := st.attributes)
              (List.mem_append_left _ (mem_checked_col hc (by simp [hst]))) ha3
          exact ((C12_integer_literals hp l hl').2 m hlv).2.2.2
      omega
  | bool b => exact hf
  | null =>
    have hf : nullableOfCol c = some .null := hf
    unfold nullableOfCol at hf
    cases hst : c.settings with
    | none => simp [hst] at hf
    | some st => exact ⟨st, rfl, by simpa [hst] using hf⟩
  | _ => trivial

end

end Dbml.Props
