import Verif.Proofs.Walkers4

/-!
# The tree walkers on columns, tables and the whole document
-/

set_option linter.unusedSimpArgs false

namespace Dbml
open Syntax

/-! ## Column settings -/

/-- How an item changes a column's settings. -/
def colStep (acc : ColumnSettings) : ColItem → ColumnSettings
  | .attr a => applyColAttr acc a
  | .ref r => { acc with refs := acc.refs ++ [r] }

/-- A column settings item's pair. -/
def ColItemN (p : Piece) (pr : Pair) : Prop :=
  ∃ k, pr = .mk .col_attribute p.span p.txt [k] ∧
    (Node .ref_inline RefInlineD parseRefInline p k ∨ Node .attribute AttributeD parseAttribute p k)

theorem col_attribute_emits : Emits G.col_attribute .nonAtomic ColItemN := by
  refine emits_rule' rfl ?_
  intro p rest kids h
  rcases altP h with h | h
  · obtain ⟨k, rfl, hk⟩ := ref_inline_emits.inv h
    exact ⟨k, rfl, .inl hk⟩
  · obtain ⟨k, rfl, hk⟩ := attr_emits.inv h
    exact ⟨k, rfl, .inr hk⟩

section
variable (s : ColumnSettings) (a : Attribute)

theorem colAttr_attributes : (applyColAttr s a).attributes = s.attributes ++ [a] := by
  unfold applyColAttr
  simp only
  split_ifs <;> rfl

theorem colAttr_span : (applyColAttr s a).span_range = s.span_range := by
  unfold applyColAttr
  simp only
  split_ifs <;> rfl

theorem colAttr_refs : (applyColAttr s a).refs = s.refs := by
  unfold applyColAttr
  simp only
  split_ifs <;> rfl

theorem colAttr_unique :
    (applyColAttr s a).is_unique = (s.is_unique || decide (a.key.to_string = k!"unique")) := by
  unfold applyColAttr
  simp only
  split_ifs with h1 h2 h3 h4 h5 h6 h7
  all_goals first
    | (rw [decide_eq_true h1]; simp)
    | (rw [decide_eq_false h1]; simp)

theorem colAttr_pk : (applyColAttr s a).is_pk =
    (s.is_pk || decide (a.key.to_string = k!"primary key" ∨ a.key.to_string = k!"pk")) := by
  unfold applyColAttr
  simp only
  split_ifs with h1 h2 h3 h4 h5 h6 h7
  · rw [decide_eq_false (by rw [h1]; decide)]; simp
  · rw [decide_eq_true h2]; simp
  all_goals rw [decide_eq_false h2]; simp

theorem colAttr_inc : (applyColAttr s a).is_incremental =
    (s.is_incremental || decide (a.key.to_string = k!"increment")) := by
  unfold applyColAttr
  simp only
  split_ifs with h1 h2 h3 h4 h5 h6 h7
  · rw [decide_eq_false (by rw [h1]; decide)]; simp
  · rw [decide_eq_false (by rcases h2 with h | h <;> rw [h] <;> decide)]; simp
  · rw [decide_eq_false (by rw [h3]; decide)]; simp
  · rw [decide_eq_false (by rw [h4]; decide)]; simp
  · rw [decide_eq_true h5]; simp
  all_goals rw [decide_eq_false h5]; simp

theorem colAttr_nullable : (applyColAttr s a).nullable = ((nullableOf a).map some).getD s.nullable := by
  unfold applyColAttr nullableOf
  simp only
  split_ifs with h1 h2 h3 h4 h5 h6 h7 h8 h9 h10 h11 <;> first | rfl | (exfalso; simp_all)

theorem colAttr_default : (applyColAttr s a).default =
    (if a.key.to_string = k!"default" then some ((fun o : Option Literal => o.map (·.value)) a.value) else none).getD s.default := by
  unfold applyColAttr
  simp only
  split_ifs with h1 h2 h3 h4 h5 h6 h7 h8 h9 h10 h11 <;> first | rfl | (exfalso; simp_all)

theorem colAttr_note : (applyColAttr s a).note =
    (if a.key.to_string = k!"note" then some (strOf a.value) else none).getD s.note := by
  unfold applyColAttr
  simp only
  split_ifs with h1 h2 h3 h4 h5 h6 h7 h8 h9 h10 h11 <;> first | rfl | (exfalso; simp_all)
end

/-- Lift a selector on attributes to items. -/
theorem foldl_last_attr {β : Type} {proj : ColumnSettings → β} {sel : Attribute → Option β}
    (h : ∀ s a, proj (applyColAttr s a) = (sel a).getD (proj s))
    (h' : ∀ s r, proj { s with refs := s.refs ++ [r] } = proj s) (xs : List ColItem) (s : ColumnSettings) :
    proj (xs.foldl colStep s) = ((xs.filterMap ColItem.attr?).filterMap sel).getLast?.getD (proj s) := by
  rw [foldl_last (f := colStep) (proj := proj) (sel := fun x => x.attr?.bind sel), List.filterMap_filterMap]
  intro s x
  cases x with
  | attr a => exact h s a
  | ref r => exact h' s r

theorem foldl_any_attr {proj : ColumnSettings → Bool} {test : Attribute → Bool}
    (h : ∀ s a, proj (applyColAttr s a) = (proj s || test a))
    (h' : ∀ s r, proj { s with refs := s.refs ++ [r] } = proj s) (xs : List ColItem) (s : ColumnSettings) :
    proj (xs.foldl colStep s) = (proj s || (xs.filterMap ColItem.attr?).any test) := by
  rw [foldl_any (f := colStep) (proj := proj)
    (test := fun x => match x.attr? with | some a => test a | none => false), List.any_filterMap]
  · congr 2
    funext x
    cases x <;> rfl
  · intro s x
    cases x with
    | attr a => exact h s a
    | ref r => simp [colStep, h', ColItem.attr?]

theorem col_settings_emits :
    Emits G.col_settings .nonAtomic (Node .col_settings ColSettingsD parseColSettings) := by
  refine emits_rule rfl ?_
  intro p rest kids h
  have h := bracketed_inv col_attribute_emits h
  walk' [parseColSettings]
  refine (foldlM_good bracketedD_layout (D := ColItemD) (g := colStep) ?_ h _).mono ?_
  · rintro m pr b ⟨k, rfl, hk⟩
    rcases hk with ⟨hr, -, -, hg⟩ | ⟨hr, -, -, hg⟩
    · walk' [hr]
      exact Good.map hg fun r hr => ⟨.ref r, hr, rfl⟩
    · walk' [hr]
      exact Good.map hg fun a ha => ⟨.attr a, ha, rfl⟩
  · rintro s ⟨xs, hxs, rfl⟩
    have hattr : (xs.foldl colStep ({ span_range := p.span } : ColumnSettings)).attributes =
        xs.filterMap ColItem.attr? := by
      rw [foldl_append' (proj := ColumnSettings.attributes) (sel := ColItem.attr?)]
      · simp
      · intro s x
        cases x <;> simp [colStep, colAttr_attributes, ColItem.attr?]
    refine ⟨xs, hxs, ?_, hattr, ?_, ?_, ?_, ?_, ?_, ?_, ?_⟩
    · rw [foldl_const (proj := ColumnSettings.span_range)]
      intro s x
      cases x <;> simp [colStep, colAttr_span]
    · rw [foldl_append' (proj := ColumnSettings.refs) (sel := ColItem.ref?)]
      · simp
      · intro s x
        cases x <;> simp [colStep, colAttr_refs, ColItem.ref?]
    · rw [hattr, foldl_any_attr (proj := ColumnSettings.is_pk) colAttr_pk (fun s r => rfl), Bool.false_or]
      simp only [List.any_eq_true, decide_eq_true_eq, HasKey]
      constructor
      · rintro ⟨a, h1, h2 | h2⟩
        · exact .inr ⟨a, h1, h2⟩
        · exact .inl ⟨a, h1, h2⟩
      · rintro (⟨a, h1, h2⟩ | ⟨a, h1, h2⟩)
        · exact ⟨a, h1, .inr h2⟩
        · exact ⟨a, h1, .inl h2⟩
    · rw [hattr, foldl_any_attr (proj := ColumnSettings.is_unique) colAttr_unique (fun s r => rfl),
        Bool.false_or, any_key]
    · rw [hattr, foldl_any_attr (proj := ColumnSettings.is_incremental) colAttr_inc (fun s r => rfl),
        Bool.false_or, any_key]
    · rw [hattr, foldl_last_attr (proj := ColumnSettings.nullable) colAttr_nullable (fun s r => rfl),
        ← List.map_filterMap, List.getLast?_map]
      cases ((xs.filterMap ColItem.attr?).filterMap nullableOf).getLast? <;> rfl
    · rw [hattr, foldl_last_attr (proj := ColumnSettings.default) colAttr_default (fun s r => rfl)]
      exact last_valuesOf (h := fun o : Option Literal => o.map (·.value)) rfl _
    · rw [hattr, foldl_last_attr (proj := ColumnSettings.note) colAttr_note (fun s r => rfl)]
      exact last_valuesOf (h := strOf) rfl _

/-! ## Column types -/

theorem ca : Atomicity.compound ≠ .atomic := by decide

theorem integer_emits {a} (ha : a ≠ .atomic) : Emits G.integer a (fun p pr =>
    pr = .mk .integer p.span p.txt [] ∧ IsDigits p.txt) := by
  intro pos c rest ps h
  obtain ⟨rfl, hd⟩ := integer_inv h ha
  exact ⟨_, rfl, rfl, hd⟩

theorem col_type_array_emits :
    Emits G.col_type_array .compound (Node .col_type_array ArrayD parseColTypeArray) := by
  refine emits_rule rfl ?_
  intro p rest kids h
  obtain ⟨p1, p2, k1, k2, rest1, rfl, h1, h2, hp1⟩ := seqP h
  obtain ⟨hl, rfl⟩ := strP h1
  obtain ⟨p3, p4, k3, k4, rest3, rfl, h3, h4, hp2⟩ := seqP h2
  obtain ⟨hr, rfl⟩ := strP h4
  have hparts : Parts .tight p _ := hp1 _ (hp2 _ .one)
  rcases optP (integer_emits ca) h3 with ⟨he, rfl⟩ | ⟨pr, rfl, rfl, hd⟩
  · exact ⟨_, _, _, hparts, hl, hr, .inl ⟨he, rfl⟩⟩
  · walk' [parseColTypeArray]
    cases hn : parseUnsigned p3.txt u32Max with
    | some n =>
      obtain ⟨rfl, hlt⟩ := parseUnsigned_some hn
      exact ⟨_, _, _, hparts, hl, hr, .inr ⟨_, ⟨hd, rfl, by simp only [u32Max] at hlt; omega⟩, rfl⟩⟩
    | none =>
      have := parseUnsigned_none hn
      exact .arrayTooLarge (q := p3) (parts_sub hparts _ (by simp)) hd (by simp only [u32Max] at this; omega)

theorem col_type_arg_emits :
    Emits G.col_type_arg .compound (Node .col_type_arg TypeArgsD parseColTypeArg) := by
  refine emits_rule rfl ?_
  intro p rest kids h
  have h := list_inv (value_emits ca) h
  refine (foldlM_good listD_layout (D := ValueD .tight) (g := fun b x => b ++ [x]) ?_ h _).mono ?_
  · rintro m pr b ⟨hr, -, -, hg⟩
    simp only [hr]
    exact Good.map hg fun v hv => ⟨v, hv, rfl⟩
  · rintro _ ⟨xs, hxs, rfl⟩
    have := foldl_append' (f := fun (b : List Value) x => b ++ [x]) (proj := id) (sel := some)
      (by intro s x; rfl) xs []
    simp only [id, List.nil_append, List.filterMap_some] at this
    rw [this]
    exact hxs

/-- The step of the inner loop of `parse_col_type`. -/
def typeStep (schema : Option Ident) (out : ColumnType) (p2 : Pair) : Rs ColumnType :=
  match p2.rule with
  | .var | .spaced_var =>
    .ok { out with type_name := .raw (buildTypeNameWithSchema schema p2) }
  | .col_type_arg => do
    let args ← parseColTypeArg p2
    return { out with args := args }
  | .col_type_array => do
    let val ← parseColTypeArray p2
    return { out with arrays := out.arrays ++ [val] }
  | _ => throwRules [.var, .spaced_var, .col_type_arg, .col_type_array] p2

theorem arrays_good {schema : Option Ident} {out : ColumnType} {p rest kids}
    (h : MP (.star G.col_type_array) .compound p rest kids) :
    Good p (fun o => ∃ xs, ManyD .tight ArrayD p xs ∧ o = { out with arrays := out.arrays ++ xs })
      (List.foldlM (typeStep schema) out kids) := by
  refine (foldlM_good manyD_layout (D := ArrayD)
    (g := fun (o : ColumnType) x => { o with arrays := o.arrays ++ [x] }) ?_
    (starP col_type_array_emits h) _).mono ?_
  · rintro m pr b ⟨hr, -, -, hg⟩
    simp only [typeStep, hr]
    exact Good.map hg fun v hv => ⟨v, hv, rfl⟩
  · rintro _ ⟨xs, hxs, rfl⟩
    refine ⟨xs, hxs, ?_⟩
    clear hxs
    induction xs generalizing out with
    | nil => simp
    | cons x xs ih => simp [ih]

theorem args_good {schema : Option Ident} {out : ColumnType} {p rest kids} (h0 : out.args = [])
    (h : MP (.opt G.col_type_arg) .compound p rest kids) :
    Good p (fun o => ∃ xs, ((p.txt = [] ∧ xs = []) ∨ TypeArgsD p xs) ∧ o = { out with args := xs })
      (List.foldlM (typeStep schema) out kids) := by
  rcases optP col_type_arg_emits h with ⟨he, rfl⟩ | ⟨pr, rfl, hr, -, -, hg⟩
  · refine Good.nil ⟨[], .inl ⟨he, rfl⟩, ?_⟩
    rw [← h0]
  · refine Good.one ?_
    simp only [typeStep, hr]
    exact Good.map hg fun v hv => ⟨v, .inr hv, rfl⟩

/-- The name with its schema. -/
def qualify (schema : Option Ident) (name : Str) : Str :=
  match schema with
  | some s => s.to_string ++ k!"." ++ name
  | none => name

theorem col_type_body_emits : Emits (.alt G.col_type_quoted G.col_type_unquoted) .compound (fun p pr =>
    (pr.rule = .col_type_quoted ∨ pr.rule = .col_type_unquoted) ∧
    ∀ (schema : Option Ident) (out : ColumnType), out.args = [] → out.arrays = [] →
      Good p (fun o => ∃ name args arrays, BareTypeD p name args arrays ∧
        o = { out with type_name := .raw (qualify schema name), args := args, arrays := arrays })
        (List.foldlM (typeStep schema) out pr.children)) := by
  refine alt_emits (emits_rule' rfl ?_) (emits_rule' rfl ?_)
  · intro p rest kids h
    refine ⟨.inl rfl, fun schema out ha hr => ?_⟩
    obtain ⟨p1, q1, k1, l1, rest1, rfl, h1, i1, hp1⟩ := seqP h
    obtain ⟨hq, rfl⟩ := strP h1
    obtain ⟨p2, q2, k2, l2, rest2, rfl, h2, i2, hp2⟩ := seqP i1
    obtain ⟨pr, rfl, rfl, hv⟩ := (spaced_emits ca).inv h2
    obtain ⟨p3, q3, k3, l3, rest3, rfl, h3, i3, hp3⟩ := seqP i2
    obtain ⟨p4, q4, k4, l4, rest4, rfl, h4, i4, hp4⟩ := seqP i3
    obtain ⟨p5, q5, k5, l5, rest5, rfl, h5, i5, hp5⟩ := seqP i4
    obtain ⟨hq', rfl⟩ := strP h5
    have hparts : Parts .tight p _ := hp1 _ (hp2 _ (hp3 _ (hp4 _ (hp5 _ .one))))
    simp only [Pair.children_mk, List.nil_append, List.cons_append]
    refine Good.cons (D := fun o => o = { out with type_name := .raw (qualify schema p2.txt) }) ?_ ?_
    · cases schema <;> rfl
    rintro _ rfl
    rw [List.foldlM_append]
    refine Good.bind ((args_good (out := { out with type_name := .raw (qualify schema p2.txt) }) (p := p3) ha h3).sub (parts_sub hparts p3 (by simp))) ?_
    rintro _ ⟨xs, hxs, rfl⟩
    rw [List.foldlM_append]
    refine Good.bind ((arrays_good (p := p4) h4).sub (parts_sub hparts p4 (by simp))) ?_
    rintro _ ⟨ys, hys, rfl⟩
    refine ((arrays_good (p := q5) i5).sub (parts_sub hparts q5 (by simp))).mono ?_
    rintro _ ⟨zs, hzs, rfl⟩
    refine ⟨p2.txt, xs, ys ++ zs, .inr ⟨_, _, _, _, _, _, ys, zs, hparts, hq, hq', hv, rfl, hxs, hys, hzs, rfl⟩, ?_⟩
    simp [hr]
  · intro p rest kids h
    refine ⟨.inr rfl, fun schema out ha hr => ?_⟩
    obtain ⟨p2, q2, k2, l2, rest2, rfl, h2, i2, hp2⟩ := seqP h
    obtain ⟨rfl, hv⟩ := var_inv h2 ca
    obtain ⟨p3, q3, k3, l3, rest3, rfl, h3, i3, hp3⟩ := seqP i2
    have hparts : Parts .tight p _ := hp2 _ (hp3 _ .one)
    simp only [Pair.children_mk, List.nil_append, List.cons_append]
    refine Good.cons (D := fun o => o = { out with type_name := .raw (qualify schema p2.txt) }) ?_ ?_
    · cases schema <;> rfl
    rintro _ rfl
    rw [List.foldlM_append]
    refine Good.bind ((args_good (out := { out with type_name := .raw (qualify schema p2.txt) }) (p := p3) ha h3).sub (parts_sub hparts p3 (by simp))) ?_
    rintro _ ⟨xs, hxs, rfl⟩
    refine ((arrays_good (p := q3) i3).sub (parts_sub hparts q3 (by simp))).mono ?_
    rintro _ ⟨zs, hzs, rfl⟩
    refine ⟨p2.txt, xs, zs, .inl ⟨_, _, _, hparts, hv, rfl, hxs, hzs⟩, ?_⟩
    simp [hr]

theorem col_type_emits : Emits G.col_type .nonAtomic (Node .col_type ColTypeD parseColType) := by
  refine emits_rule rfl ?_
  intro p rest kids h
  obtain ⟨p1, p2, k1, k2, rest1, rfl, h1, h2, hp1⟩ := seqP h
  obtain ⟨pr, rfl, hr, hg⟩ := col_type_body_emits.inv h2
  have hparts : Parts .tight p _ := hp1 _ .one
  have hsc : Emits (.seq G.ident (.str k!".")) .compound (fun q y => ∃ n dot,
      Parts .tight q [n, dot] ∧ dot.txt = k!"." ∧ Node .ident (IdentD .tight) parseIdent n y) := by
    intro pos c rest ps h
    obtain ⟨p1, p2, k1, k2, rest1, rfl, h1, h2, hp1⟩ := seqP (p := ⟨pos, c⟩) h
    obtain ⟨pr, rfl, hn⟩ := (ident_emits ca).inv h1
    obtain ⟨hd, rfl⟩ := strP h2
    exact ⟨pr, rfl, p1, p2, hp1 _ .one, hd, hn⟩
  rcases optP hsc h1 with ⟨he, rfl⟩ | ⟨pr1, rfl, s, dot, hp2, hd, hr1, -, -, hg1⟩
  · have hg := (hg none { span_range := p.span, raw := p.txt } rfl rfl).sub (parts_sub hparts _ (by simp))
    rcases hr with hr | hr
    all_goals
      walk' [parseColType, hr]
      refine Good.bind hg ?_
      rintro _ ⟨name, args, arrays, hb, rfl⟩
      exact ⟨_, _, name, hparts, rfl, rfl, hb, .inl ⟨he, rfl⟩⟩
  · have hg1 := hg1.sub ((parts_sub hp2 _ (by simp)).trans (parts_sub hparts _ (by simp)))
    rcases hr with hr | hr
    all_goals
      walk' [parseColType, hr, hr1]
      refine Good.bind hg1 fun i hi => ?_
      have hg := (hg (some i) { span_range := p.span, raw := p.txt } rfl rfl).sub (parts_sub hparts _ (by simp))
      refine Good.bind hg ?_
      rintro _ ⟨name, args, arrays, hb, rfl⟩
      exact ⟨_, _, name, hparts, rfl, rfl, hb, .inr ⟨s, dot, i, hp2, hd, hi, by simp [qualify]⟩⟩

/-! ## Columns and tables -/

theorem col_emits : Emits G.table_col .nonAtomic (Node .table_col ColumnD parseTableCol) := by
  refine emits_rule rfl ?_
  intro p rest kids h
  obtain ⟨p1, p2, k1, k2, rest1, rfl, h1, h2, hp1⟩ := seqP h
  obtain ⟨pr1, rfl, hr1, -, -, hg1⟩ := (ident_emits na).inv h1
  obtain ⟨p3, p4, k3, k4, rest3, rfl, h3, h4, hp2⟩ := seqP h2
  obtain ⟨pr2, rfl, hr2, -, -, hg2⟩ := col_type_emits.inv h3
  have hparts : Parts .loose p _ := hp1 _ (hp2 _ .one)
  have hg1 := hg1.sub (parts_sub hparts _ (by simp))
  have hg2 := hg2.sub (parts_sub hparts _ (by simp))
  rcases optP col_settings_emits h4 with ⟨he, rfl⟩ | ⟨pr3, rfl, hr3, -, -, hg3⟩
  · walk' [parseTableCol, hr1, hr2]
    refine Good.bind hg1 fun i hi => ?_
    refine Good.bind hg2 fun t ht => ?_
    exact ⟨_, _, _, hparts, hi, ht, .inl ⟨he, rfl⟩, rfl⟩
  · have hg3 := hg3.sub (parts_sub hparts _ (by simp))
    walk' [parseTableCol, hr1, hr2, hr3]
    refine Good.bind hg1 fun i hi => ?_
    refine Good.bind hg2 fun t ht => ?_
    refine Good.bind hg3 fun s hs => ?_
    exact ⟨_, _, _, hparts, hi, ht, .inr ⟨s, hs, rfl⟩, rfl⟩

/-- A table item's pair. -/
def TableItemN (p : Piece) (pr : Pair) : Prop :=
  Node .table_col ColumnD parseTableCol p pr ∨ Node .note_decl NoteD parseNoteDecl p pr ∨
  Node .indexes_decl IndexesD parseIndexesDecl p pr

/-- How an item changes the table. -/
def tableStep (acc : TableBlock) : TableItem → TableBlock
  | .col c => { acc with cols := acc.cols ++ [c] }
  | .note n => { acc with note := some n }
  | .indexes i => { acc with indexes := some i }

/-- The step of the loop over a table's body. -/
def tableItemStep (acc : TableBlock) (p2 : Pair) : Rs TableBlock :=
  match p2.rule with
  | .table_col => do
    let c ← parseTableCol p2
    return { acc with cols := acc.cols ++ [c] }
  | .note_decl => do
    let n ← parseNoteDecl p2
    return { acc with note := some n }
  | .indexes_decl => do
    let i ← parseIndexesDecl p2
    return { acc with indexes := some i }
  | _ => throwRules [.table_col, .note_decl, .indexes_decl] p2

theorem table_block_good {p blk : Piece} {kids} {t0 : TableBlock} (hsub : Sub blk p)
    (h : BracedD TableItemN blk kids) (h0 : t0.cols = []) (h1 : t0.note = none) (h2 : t0.indexes = none) :
    Good p (fun t => ∃ items, BracedD TableItemD blk items ∧ t.cols = items.filterMap TableItem.col? ∧
        t.note = (items.filterMap TableItem.note?).getLast? ∧
        t.indexes = (items.filterMap TableItem.indexes?).getLast? ∧
        t.span_range = t0.span_range ∧ t.ident = t0.ident ∧ t.settings = t0.settings)
      (List.foldlM tableItemStep t0 kids) := by
  refine ((foldlM_good bracedD_layout (D := TableItemD) (g := tableStep) ?_ h _).sub hsub).mono ?_
  · intro m pr b hq
    rcases hq with ⟨hr, -, -, hg⟩ | ⟨hr, -, -, hg⟩ | ⟨hr, -, -, hg⟩
    · simp only [tableItemStep, hr]
      exact Good.map hg fun n hn => ⟨.col n, hn, rfl⟩
    · simp only [tableItemStep, hr]
      exact Good.map hg fun n hn => ⟨.note n, hn, rfl⟩
    · simp only [tableItemStep, hr]
      exact Good.map hg fun n hn => ⟨.indexes n, hn, rfl⟩
  · rintro _ ⟨xs, hxs, rfl⟩
    refine ⟨xs, hxs, ?_, ?_, ?_, ?_, ?_, ?_⟩
    · rw [foldl_append' (proj := TableBlock.cols) (sel := TableItem.col?)
        (by intro s x; cases x <;> simp [tableStep, TableItem.col?]), h0, List.nil_append]
    · rw [foldl_last (proj := TableBlock.note) (sel := fun x => x.note?.map some)
        (by intro s x; cases x <;> simp [tableStep, TableItem.note?]), h1]
      rw [← List.map_filterMap, List.getLast?_map]
      cases (xs.filterMap TableItem.note?).getLast? <;> simp
    · rw [foldl_last (proj := TableBlock.indexes) (sel := fun x => x.indexes?.map some)
        (by intro s x; cases x <;> simp [tableStep, TableItem.indexes?]), h2]
      rw [← List.map_filterMap, List.getLast?_map]
      cases (xs.filterMap TableItem.indexes?).getLast? <;> simp
    · rw [foldl_const (proj := TableBlock.span_range) (by intro s x; cases x <;> rfl)]
    · rw [foldl_const (proj := TableBlock.ident) (by intro s x; cases x <;> rfl)]
    · rw [foldl_const (proj := TableBlock.settings) (by intro s x; cases x <;> rfl)]

theorem alias_emits : Emits G.table_alias .nonAtomic (fun p pr => ∃ k, pr = .mk .table_alias p.span p.txt [k] ∧
    k.rule = .ident ∧ Good p (AliasD p) (parseIdent k)) := by
  refine emits_rule' rfl ?_
  intro p rest kids h
  obtain ⟨p1, p2, k1, k2, rest1, rfl, h1, h2, hp1⟩ := seqP h
  obtain ⟨hkw, rfl⟩ := insensP h1
  obtain ⟨pr1, rfl, hr1, -, -, hg1⟩ := (ident_emits na).inv h2
  have hparts : Parts .loose p _ := hp1 _ .one
  exact ⟨pr1, rfl, hr1, (hg1.sub (parts_sub hparts _ (by simp))).mono fun i hi => ⟨_, _, hparts, hkw, hi⟩⟩

theorem table_emits : Emits G.table_decl .nonAtomic (Node .table_decl TableD parseTableDecl) := by
  refine emits_rule rfl ?_
  intro p rest kids h
  obtain ⟨p1, q1, k1, l1, rest1, rfl, h1, i1, hp1⟩ := seqP h
  obtain ⟨hkw, rfl⟩ := insensP h1
  obtain ⟨p2, q2, k2, l2, rest2, rfl, h2, i2, hp2⟩ := seqP i1
  obtain ⟨pr, rfl, hr, hs, -, hg⟩ := decl_ident_emits.inv h2
  obtain ⟨p3, q3, k3, l3, rest3, rfl, h3, i3, hp3⟩ := seqP i2
  obtain ⟨p4, q4, k4, l4, rest4, rfl, h4, i4, hp4⟩ := seqP i3
  obtain ⟨bk, rfl, hb⟩ := rule_inv i4 rfl
  have hb := braced_inv (alt_emits (col_emits.mono fun _ _ h => Or.inl h)
    (alt_emits ((note_emits rfl).mono fun _ _ h => Or.inr (Or.inl h))
      (indexes_emits.mono fun _ _ h => Or.inr (Or.inr h))) : Emits _ _ TableItemN) hb
  have hparts : Parts .loose p _ := hp1 _ (hp2 _ (hp3 _ (hp4 _ .one)))
  have hg := hg.sub (parts_sub hparts _ (by simp))
  have hfin : ∀ (t0 : TableBlock), _ := fun t0 =>
    table_block_good (t0 := t0) (parts_sub hparts q4 (by simp)) hb
  rcases optP alias_emits h3 with ⟨hal, rfl⟩ | ⟨_, rfl, ka, rfl, hra, hga⟩ <;>
  rcases optP block_settings_emits h4 with ⟨hst, rfl⟩ | ⟨prs, rfl, hrs, hss, -, hgs⟩
  · walk' [parseTableDecl, hr]
    refine Good.bind hg ?_
    rintro ⟨sc, nm⟩ hi
    refine Good.bind (hfin _ rfl rfl rfl) ?_
    rintro t ⟨items, hit, e1, e2, e3, e4, e5, e6⟩
    exact ⟨_, _, _, _, _, items, hparts, hkw, by rw [e5]; exact hi, by rw [e5]; exact hs,
      .inl ⟨hal, by rw [e5]⟩, .inl ⟨hst, by rw [e6]⟩, hit, e4, e1, e2, e3⟩
  · have hgs := hgs.sub (parts_sub hparts _ (by simp))
    walk' [parseTableDecl, parseTableSettings, hr, hrs]
    refine Good.bind hg ?_
    rintro ⟨sc, nm⟩ hi
    refine Good.bind hgs fun as has => ?_
    refine Good.bind (hfin _ rfl rfl rfl) ?_
    rintro t ⟨items, hit, e1, e2, e3, e4, e5, e6⟩
    exact ⟨_, _, _, _, _, items, hparts, hkw, by rw [e5]; exact hi, by rw [e5]; exact hs,
      .inl ⟨hal, by rw [e5]⟩, .inr ⟨_, ⟨has, hss⟩, e6⟩, hit, e4, e1, e2, e3⟩
  · have hga := hga.sub (parts_sub hparts _ (by simp))
    walk' [parseTableDecl, hr, hra]
    refine Good.bind hg ?_
    rintro ⟨sc, nm⟩ hi
    refine Good.bind hga fun ia hia => ?_
    refine Good.bind (hfin _ rfl rfl rfl) ?_
    rintro t ⟨items, hit, e1, e2, e3, e4, e5, e6⟩
    exact ⟨_, _, _, _, _, items, hparts, hkw, by rw [e5]; exact hi, by rw [e5]; exact hs,
      .inr ⟨ia, hia, by rw [e5]⟩, .inl ⟨hst, by rw [e6]⟩, hit, e4, e1, e2, e3⟩
  · have hga := hga.sub (parts_sub hparts _ (by simp))
    have hgs := hgs.sub (parts_sub hparts _ (by simp))
    walk' [parseTableDecl, parseTableSettings, hr, hra, hrs]
    refine Good.bind hg ?_
    rintro ⟨sc, nm⟩ hi
    refine Good.bind hga fun ia hia => ?_
    refine Good.bind hgs fun as has => ?_
    refine Good.bind (hfin _ rfl rfl rfl) ?_
    rintro t ⟨items, hit, e1, e2, e3, e4, e5, e6⟩
    exact ⟨_, _, _, _, _, items, hparts, hkw, by rw [e5]; exact hi, by rw [e5]; exact hs,
      .inr ⟨ia, hia, by rw [e5]⟩, .inr ⟨_, ⟨has, hss⟩, e6⟩, hit, e4, e1, e2, e3⟩

end Dbml
