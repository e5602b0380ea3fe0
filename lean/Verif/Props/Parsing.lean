import Verif.Proofs.Slices
import Verif.Props.Example

/-!
# Properties of `parse_dbml_unchecked`

`parseDbmlUnchecked` models `parse_dbml_unchecked`. The words used in the statements (`IsSlice`,
`idents`, `literals`, `IsVar`, `Trivia`, `SchemaD`, ...) are defined in `Verif/Spec`.
-/

namespace Dbml.Props
open Syntax Spec

variable {input : Str} {s : SchemaBlock}

/-- What parsing returns is denoted by the text. -/
theorem denotes (h : parseDbmlUnchecked input = .ok s) : SchemaD input s := by
  rcases read_cases input with ⟨s', h', hd⟩ | ⟨h', -⟩ | ⟨e, h', -⟩ | ⟨h', -⟩ <;> rw [h] at h' <;> cases h'
  exact hd

/-- **C01**: parsing never panics. -/
theorem C01_parse_never_panics (input : Str) (site : PanicSite) :
    parseDbmlUnchecked input ≠ .panic site := by
  rcases read_cases input with ⟨s', h', -⟩ | ⟨h', -⟩ | ⟨e, h', -⟩ | ⟨h', -⟩ <;> rw [h'] <;> simp

/-- **C02**: recognition, and hence parsing, always terminates. -/
theorem C02_parse_terminates (input : Str) :
    pestParse input ≠ .diverge ∧ parseDbmlUnchecked input ≠ .diverge := by
  refine ⟨pest_total input, ?_⟩
  rcases read_cases input with ⟨s', h', -⟩ | ⟨h', -⟩ | ⟨e, h', -⟩ | ⟨h', hd⟩
  · rw [h']; simp
  · rw [h']; simp
  · rw [h']; simp
  · exact absurd hd (pest_total input)

/-- **C03**: an error is pest's syntax error or one of the errors of `ReadErr`, each of which exhibits
its cause in the text. -/
theorem C03_parse_errors {e : PError} (h : parseDbmlUnchecked input = .err e) :
    e = .syntax ∨ ReadErr ⟨0, input⟩ e := by
  rcases read_cases input with ⟨s', h', -⟩ | ⟨h', -⟩ | ⟨e', h', hr⟩ | ⟨h', -⟩ <;> rw [h] at h' <;> cases h'
  · exact .inl rfl
  · exact .inr hr

/-- **C03**, the negative part: the tree walker's own mismatch errors never occur. -/
theorem C03_no_internal_errors {e : PError} (h : parseDbmlUnchecked input = .err e) :
    (∀ rs span, e ≠ .rules rs span) ∧ (∀ er span, e ≠ .semantic er span) ∧
    (∀ span, e ≠ .msg k!"invalid relation symbol" span) ∧
    (∀ span, e ≠ .msg k!"incompatible with boolean value" span) := by
  rcases C03_parse_errors h with rfl | hr
  · simp
  · cases hr <;> refine ⟨by simp, by simp, ?_, ?_⟩ <;> intro span he <;> injection he with h1 h2 <;>
      first
        | exact absurd h1 (by decide)
        | (rw [List.append_assoc] at h1; exact absurd (List.cons.inj h1).1 (by decide))

/-- Each kind of error does occur. -/
example : parseDbmlUnchecked k!"Table" = .err .syntax := by decide +kernel
example : parseDbmlUnchecked k!"Ref: a.b > c.d [update: explode]" =
    .err (.msg k!"invalid referential action" ⟨16, 31⟩) := by decide +kernel
example : parseDbmlUnchecked k!"Table t { a int[4294967296] }" =
    .err (.msg k!"number too large to fit in target type" ⟨16, 26⟩) := by decide +kernel
example : parseDbmlUnchecked k!"Table t { a int indexes { a [type: foo] } }" =
    .err (.msg k!"'foo' type is not supported!" ⟨29, 38⟩) := by decide +kernel

/-- **C06**: every span of the AST is a valid range of the input. -/
theorem C06_spans_valid (h : parseDbmlUnchecked input = .ok s) (n : SNode)
    (hn : SNode.In n (schemaTree s)) :
    n.span.start ≤ n.span.stop ∧ n.span.stop ≤ blen input ∧ n.span.valid input = true := by
  obtain ⟨txt, hs, -⟩ := ((schema_ok (denotes h)).mem hn).isSlice
  exact ⟨hs.bounds.1, hs.bounds.2, hs.valid⟩

/-- **C07**: the raw text of a node is the slice of the input at its span. -/
theorem C07_raw_is_source (h : parseDbmlUnchecked input = .ok s) (n : SNode)
    (hn : SNode.In n (schemaTree s)) (r : Str) (hr : n.raw = some r) : slice input n.span = r := by
  obtain ⟨txt, hs, h2⟩ := ((schema_ok (denotes h)).mem hn).isSlice
  rw [h2 r hr, hs.eq]

/-- **C07**, spelled out for identifiers, literals and column types. -/
theorem C07_raw_fields (h : parseDbmlUnchecked input = .ok s) :
    (∀ i ∈ idents s, slice input i.span_range = i.raw) ∧
    (∀ l ∈ literals s, slice input l.span_range = l.raw) ∧
    (∀ c ∈ columns s, slice input c.type.span_range = c.type.raw) ∧
    (∀ a ∈ attributes s, slice input a.key.span_range = a.key.raw) := by
  have hd := denotes h
  refine ⟨fun i hi => ?_, fun l hl => ?_, fun c hc => ?_, fun a ha => ?_⟩
  · obtain ⟨q, hq, h1, h2, -⟩ := has_ident hd i hi
    rw [h1, h2, (Sub.slice hq).eq]
  · obtain ⟨q, hq, h1, h2, -⟩ := has_literal hd l hl
    rw [h1, h2, (Sub.slice hq).eq]
  · obtain ⟨q, hq, sc, body, name, -, h1, h2, -⟩ := has_colType hd c hc
    rw [h1, h2, (Sub.slice hq).eq]
  · obtain ⟨q, hq, key, tail, hp, -, ⟨-, e⟩, -⟩ := has_attribute hd a ha
    rw [e, (Sub.slice ((parts_sub hp key (by simp)).trans hq)).eq]

example : 20 < (idents exAst).length ∧ 9 < (literals exAst).length ∧ 7 < (columns exAst).length := by
  decide +kernel

/-- **C08**: top-level blocks are in source order, with disjoint spans inside `0..input.len()`. -/
theorem C08_blocks_in_order (h : parseDbmlUnchecked input = .ok s) :
    s.span_range = ⟨0, blen input⟩ ∧ s.input = input ∧
    (s.blocks.map fun b => (blockTree b).span).Pairwise (fun a b => a.stop ≤ b.start) ∧
    ∀ b ∈ s.blocks, (blockTree b).span.stop ≤ blen input := by
  have hd := denotes h
  have hok := schema_ok hd
  obtain ⟨st, de, sp, -, -, -, -, h1, h2⟩ := hd
  refine ⟨h1, h2, ?_, ?_⟩
  · cases hok with
    | mk _ _ hord _ _ =>
      rw [List.pairwise_map]
      exact List.pairwise_map.1 (hord _ (List.mem_cons_self ..))
  · intro b hb
    have hb' : SNode.In (blockTree b) (schemaTree s) :=
      .child (List.mem_cons_self ..) (List.mem_map_of_mem hb) .self
    exact (C06_spans_valid h _ hb').2.1

/-- **C09**: children lie inside their parents, and siblings are in source order and disjoint. -/
theorem C09_children_inside (h : parseDbmlUnchecked input = .ok s) (n : SNode)
    (hn : SNode.In n (schemaTree s)) (g : List SNode) (hg : g ∈ n.groups) :
    (∀ k ∈ g, n.span.start ≤ k.span.start ∧ k.span.stop ≤ n.span.stop) ∧
    g.Pairwise (fun a b => a.span.stop ≤ b.span.start) := by
  cases (schema_ok (denotes h)).mem hn with
  | mk _ _ ho hin _ => exact ⟨hin g hg, ho g hg⟩

/-- The symbol of a relation. -/
def relSymbol : Relation → Option Str
  | .undef => none
  | .one2many => some k!"<"
  | .many2one => some k!">"
  | .one2one => some k!"-"
  | .many2many => some k!"<>"

theorem rel_symbol {p r} (h : RelationD p r) : relSymbol r = some p.txt := by
  rcases h with ⟨h, rfl⟩ | ⟨h, rfl⟩ | ⟨h, rfl⟩ | ⟨h, rfl⟩ <;> simp [relSymbol, h]

theorem parts_cons {g p m m' ms} (h : Parts g p (m :: m' :: ms)) :
    ∃ t c', p.txt = m.txt ++ (t ++ c') ∧ g.Ok t ∧ Parts g ⟨m.pos + blen m.txt + blen t, c'⟩ (m' :: ms) := by
  cases h with
  | cons hg hp => exact ⟨_, _, rfl, hg, hp⟩

/-- **C10**, ref blocks: the relation is the symbol written between the two endpoints, which are what is
written left and right of it. -/
theorem C10_refs_as_written (h : parseDbmlUnchecked input = .ok s) (r : RefBlock) (hr : r ∈ s.refs) :
    (∃ t1 sym t2 tail, slice input r.span_range =
        slice input r.lhs.span_range ++ (t1 ++ (sym ++ (t2 ++ (slice input r.rhs.span_range ++ tail)))) ∧
      Trivia t1 ∧ Trivia t2 ∧ relSymbol r.rel = some sym) ∧
    r.rel ≠ .undef ∧ r.lhs.compositions ≠ [] ∧ r.rhs.compositions ≠ [] := by
  obtain ⟨q, hq, hst⟩ := (has_ref (denotes h) r hr).bind fun q hq => has_refStmt hq
  obtain ⟨l, rel, rr, st, hp, hl, hrel, hrr, -, hsp⟩ := hst
  have sl := Sub.slice ((parts_sub hp l (by simp)).trans hq)
  have sr := Sub.slice ((parts_sub hp rr (by simp)).trans hq)
  have hsym := rel_symbol hrel
  obtain ⟨_, _, _, _, -, -, el, cl, -⟩ := hl
  obtain ⟨_, _, _, _, -, -, er, cr, -⟩ := hrr
  refine ⟨?_, ?_, composition_ne cl, composition_ne cr⟩
  · rw [hsp, (Sub.slice hq).eq, el, er, sl.eq, sr.eq]
    obtain ⟨t1, c1, e1, g1, hp1⟩ := parts_cons hp
    obtain ⟨t2, c2, e2, g2, hp2⟩ := parts_cons hp1
    obtain ⟨t3, c3, e3, g3, hp3⟩ := parts_cons hp2
    simp only at e1 e2 e3
    exact ⟨t1, rel.txt, t2, t3 ++ c3, by rw [e1, e2, e3], g1, g2, hsym⟩
  · intro hu; rw [hu] at hsym; simp [relSymbol] at hsym

/-- **C10**, inline refs. -/
theorem C10_inline_refs_as_written (h : parseDbmlUnchecked input = .ok s) (r : RefInline)
    (hr : r ∈ refInlines s) :
    (∃ t0 t1 t2 sym, slice input r.span_range =
        k!"ref" ++ (t0 ++ (k!":" ++ (t1 ++ (sym ++ (t2 ++ slice input r.rhs.span_range))))) ∧
      Trivia t0 ∧ Trivia t1 ∧ Trivia t2 ∧ relSymbol r.rel = some sym) ∧
    r.rel ≠ .undef ∧ r.rhs.compositions ≠ [] := by
  obtain ⟨q, hq, kw, colon, rel, rhs, hp, hkw, hcol, hrel, hrhs, hsp⟩ := has_refInline (denotes h) r hr
  have sr := Sub.slice ((parts_sub hp rhs (by simp)).trans hq)
  have hsym := rel_symbol hrel
  obtain ⟨_, _, _, _, -, -, er, cr, -⟩ := hrhs
  refine ⟨?_, ?_, composition_ne cr⟩
  · rw [hsp, (Sub.slice hq).eq, er, sr.eq]
    obtain ⟨t1, c1, e1, g1, hp1⟩ := parts_cons hp
    obtain ⟨t2, c2, e2, g2, hp2⟩ := parts_cons hp1
    obtain ⟨t3, c3, e3, g3, hp3⟩ := parts_cons hp2
    simp only at e1 e2 e3
    have e4 : c3 = rhs.txt := by
      cases hp3 with
      | one => rfl
      | cons _ hn => cases hn
    subst e4
    exact ⟨t1, t2, t3, rel.txt, by rw [e1, e2, e3, hkw, hcol], g1, g2, g3, hsym⟩
  · intro hu; rw [hu] at hsym; simp [relSymbol] at hsym

example : exAst.refs.length = 1 ∧ (refInlines exAst).length = 1 := by decide +kernel

theorem bareType_name_ne {p name args arrays} (h : BareTypeD p name args arrays) : name ≠ [] := by
  rcases h with ⟨n, a, r, -, ⟨c, cs, e, -⟩, rfl, -⟩ | ⟨q, n, a, r, q', r', xs, ys, -, -, -, ⟨c, cs, e, -⟩, rfl, -⟩
  · rw [e]; simp
  · rw [e]; simp

/-- **C11**: the type of every parsed column is a non-empty raw name. -/
theorem C11_column_types_raw (h : parseDbmlUnchecked input = .ok s) (c : TableColumn)
    (hc : c ∈ columns s) : ∃ name, name ≠ [] ∧ c.type.type_name = .raw name := by
  obtain ⟨q, hq, sc, body, name, -, -, -, hb, ⟨-, e⟩ | ⟨_, _, i, -, -, -, e⟩⟩ := has_colType (denotes h) c hc
  · exact ⟨name, bareType_name_ne hb, e⟩
  · exact ⟨_, by simp, e⟩

/-- **C11** for `parse_dbml`. -/
theorem C11_column_types_raw_checked (h : parseDbml input = .ok s) (c : TableColumn)
    (hc : c ∈ columns s) : ∃ name, name ≠ [] ∧ c.type.type_name = .raw name :=
  C11_column_types_raw (parseDbml_ok h) c hc

theorem quoted_head {g c q p v} (h : QuotedD g (c :: q) p v) : ∃ cs, p.txt = c :: cs := by
  obtain ⟨t, e, -⟩ := h
  exact ⟨_, e⟩

theorem digits_head {c cs} (h : IsDigits (c :: cs)) : c.isDigit = true := h.2 c (by simp)

theorem alpha_not_digit {c : Char} (h : c.isAlpha = true) : c.isDigit = false := by
  cases hd : c.isDigit with
  | false => rfl
  | true =>
    simp only [Char.isAlpha, Char.isUpper, Char.isLower, Char.isDigit, Bool.or_eq_true,
      Bool.and_eq_true, decide_eq_true_eq] at h hd
    rw [ge_iff_le, UInt32.le_iff_toNat_le, UInt32.le_iff_toNat_le] at hd
    rcases h with h | h <;> rw [ge_iff_le, UInt32.le_iff_toNat_le, UInt32.le_iff_toNat_le] at h <;> simp at h hd <;> omega

/-- **C12**: a literal written with digits has exactly that value and fits `i64`; and integer values
come only from such literals. -/
theorem C12_integer_literals (h : parseDbmlUnchecked input = .ok s) (l : Literal) (hl : l ∈ literals s) :
    (IsDigits l.raw → l.value = .integer (digitsNat l.raw) ∧ digitsNat l.raw < 2 ^ 63) ∧
    (∀ n, l.value = .integer n → IsDigits l.raw ∧ n = digitsNat l.raw ∧ 0 ≤ n ∧ n < 2 ^ 63) := by
  obtain ⟨q, hq, h1, h2, h3⟩ := has_literal (denotes h) l hl
  rw [h2]
  have notQuoted : ∀ {g c qq v}, QuotedD g (c :: qq) q v → c.isDigit = false → IsDigits q.txt → False := by
    intro g c qq v hv hc hd
    obtain ⟨cs, e⟩ := quoted_head hv
    rw [e] at hd
    rw [digits_head hd] at hc; cases hc
  have notAlpha : ∀ {c cs}, q.txt = c :: cs → c.isAlpha = true → IsDigits q.txt → False := by
    intro c cs e hc hd
    rw [e] at hd
    have := alpha_not_digit hc
    rw [digits_head hd] at this; cases this
  rcases h3 with (hv | ⟨⟨c, cs, e, ha, -⟩, hv⟩ | ⟨v, hqd, hv⟩) | ⟨v, hqd, hv⟩
  · generalize l.value = w at hv
    cases hv with
    | string hs =>
      refine ⟨fun hd => ?_, by simp⟩
      rcases hs with hs | hs <;> exact (notQuoted hs (by decide) hd).elim
    | expr hs => exact ⟨fun hd => (notQuoted hs (by decide) hd).elim, by simp⟩
    | true hs => exact ⟨fun hd => (notAlpha hs (by decide) hd).elim, by simp⟩
    | false hs => exact ⟨fun hd => (notAlpha hs (by decide) hd).elim, by simp⟩
    | null hs => exact ⟨fun hd => (notAlpha hs (by decide) hd).elim, by simp⟩
    | integer hd hlt =>
      refine ⟨fun _ => ⟨rfl, hlt⟩, fun n hn => ?_⟩
      cases hn
      exact ⟨hd, rfl, by omega, by exact_mod_cast hlt⟩
    | decimal e ha hb =>
      refine ⟨fun hd => ?_, by simp⟩
      have := hd.2 '.' (by rw [e]; simp)
      simp at this
    | hex e _ _ =>
      refine ⟨fun hd => ?_, by simp⟩
      have := hd.2 '#' (by rw [e]; simp)
      simp at this
  · rw [hv.2]; exact ⟨fun hd => (notAlpha e ha hd).elim, by simp⟩
  · rw [hv]; exact ⟨fun hd => (notQuoted hqd (by decide) hd).elim, by simp⟩
  · rw [hv]; exact ⟨fun hd => (notQuoted hqd (by decide) hd).elim, by simp⟩

theorem has_args {p args} (h : TypeArgsD p args) : ∀ v ∈ args, Has p (ValueD .tight) v := has_list h

theorem valueD_int {g p n} (h : ValueD g p (.integer n)) : IsDigits p.txt ∧ n = digitsNat p.txt ∧ n < 2 ^ 63 := by
  cases h with
  | integer h1 h2 => exact ⟨h1, rfl, by exact_mod_cast h2⟩

theorem has_arr {p o} (h : ArrayD p o) : ∀ n, o = some n → ∃ q, Sub q p ∧ IsDigits q.txt ∧ n = digitsNat q.txt ∧ n < 2 ^ 32 := by
  obtain ⟨l, mid, r, hp, -, -, ho⟩ := h
  intro n hn
  obtain ⟨h1, h2, h3⟩ := has_opt ho n hn
  exact ⟨mid, parts_sub hp mid (by simp), h1, h2, h3⟩

theorem bareType_parts {p name args arrays} (h : BareTypeD p name args arrays) :
    (∀ v ∈ args, Has p (ValueD .tight) v) ∧ (∀ o ∈ arrays, Has p ArrayD o) := by
  rcases h with ⟨n, a, r, hp, -, -, ha, hr⟩ | ⟨q, n, a, r, q', r', xs, ys, hp, -, -, -, -, ha, hr, hr', rfl⟩
  · refine ⟨fun v hv => ?_, fun o ho => (has_many hr o ho).up (parts_sub hp r (by simp))⟩
    rcases ha with ⟨-, rfl⟩ | ha
    · simp at hv
    · exact (has_args ha v hv).up (parts_sub hp a (by simp))
  · refine ⟨fun v hv => ?_, fun o ho => ?_⟩
    · rcases ha with ⟨-, rfl⟩ | ha
      · simp at hv
      · exact (has_args ha v hv).up (parts_sub hp a (by simp))
    · rcases List.mem_append.1 ho with ho | ho
      · exact (has_many hr o ho).up (parts_sub hp r (by simp))
      · exact (has_many hr' o ho).up (parts_sub hp r' (by simp))

/-- **C12** for type arguments and array sizes: each number is the value of a digit sequence inside the
column's type text, and is in range. -/
theorem C12_type_numbers (h : parseDbmlUnchecked input = .ok s) (c : TableColumn) (hc : c ∈ columns s) :
    (∀ n, Value.integer n ∈ c.type.args →
      ∃ ds, ds <:+: c.type.raw ∧ IsDigits ds ∧ n = digitsNat ds ∧ n < 2 ^ 63) ∧
    (∀ n, some n ∈ c.type.arrays →
      ∃ ds, ds <:+: c.type.raw ∧ IsDigits ds ∧ n = digitsNat ds ∧ n < 2 ^ 32) := by
  obtain ⟨q, hq, sc, body, name, hp, -, hraw, hb, -⟩ := has_colType (denotes h) c hc
  have hsub := parts_sub hp body (by simp)
  obtain ⟨ha, hr⟩ := bareType_parts hb
  have infix_of : ∀ {a b : Piece}, Sub a b → a.txt <:+: b.txt := by
    rintro a b ⟨pre, post, e, -⟩
    exact ⟨pre, post, by rw [e, List.append_assoc]⟩
  rw [hraw]
  refine ⟨fun n hn => ?_, fun n hn => ?_⟩
  · obtain ⟨m, hm, hv⟩ := ha _ hn
    obtain ⟨h1, h2, h3⟩ := valueD_int hv
    exact ⟨m.txt, infix_of (hm.trans hsub), h1, h2, h3⟩
  · obtain ⟨m, hm, hv⟩ := hr _ hn
    obtain ⟨k, hk, h1, h2, h3⟩ := has_arr hv n rfl
    exact ⟨k.txt, infix_of ((hk.trans hm).trans hsub), h1, h2, h3⟩

/-- **C13**: the flags of a column's settings are determined by its attributes. -/
theorem C13_column_flags (h : parseDbmlUnchecked input = .ok s) (st : ColumnSettings)
    (hst : st ∈ columnSettings s) :
    (st.is_pk = true ↔ ∃ a ∈ st.attributes, a.key.to_string = k!"pk" ∨ a.key.to_string = k!"primary key") ∧
    (st.is_unique = true ↔ ∃ a ∈ st.attributes, a.key.to_string = k!"unique") ∧
    (st.is_incremental = true ↔ ∃ a ∈ st.attributes, a.key.to_string = k!"increment") ∧
    st.nullable = (st.attributes.filterMap nullableOf).getLast? ∧
    st.default = (lastValue k!"default" st.attributes).map (·.value) ∧
    st.note = (lastValue k!"note" st.attributes).map (·.value.toStr) := by
  obtain ⟨q, hq, items, -, -, -, -, h1, h2, h3, h4, h5, h6⟩ := has_colSettings (denotes h) st hst
  refine ⟨h1.trans ?_, h2, h3, h4, h5, h6⟩
  constructor
  · rintro (⟨a, ha, e⟩ | ⟨a, ha, e⟩)
    · exact ⟨a, ha, .inl e⟩
    · exact ⟨a, ha, .inr e⟩
  · rintro ⟨a, ha, e | e⟩
    · exact .inl ⟨a, ha, e⟩
    · exact .inr ⟨a, ha, e⟩

/-- **C13**, order: attributes and inline refs appear in source order (spans increase), and between
them they are all the items of the bracketed list, in order. -/
theorem C13_column_items_in_order (h : parseDbmlUnchecked input = .ok s) (st : ColumnSettings)
    (hst : st ∈ columnSettings s) :
    ∃ q items, Sub q ⟨0, input⟩ ∧ st.span_range = q.span ∧ BracketedD ColItemD q items ∧
      st.attributes = items.filterMap ColItem.attr? ∧ st.refs = items.filterMap ColItem.ref? := by
  obtain ⟨q, hq, items, h1, h2, h3, h4, -⟩ := has_colSettings (denotes h) st hst
  exact ⟨q, items, hq, h2, h1, h3, h4⟩

/-- **C14**, order: the attributes are all the items of the bracketed list, in order. -/
theorem C14_attributes_in_order (h : parseDbmlUnchecked input = .ok s) (st : IndexesSettings)
    (hst : st ∈ indexSettings s) :
    ∃ q, Sub q ⟨0, input⟩ ∧ st.span_range = q.span ∧ BracketedD AttributeD q st.attributes := by
  obtain ⟨q, hq, h1, h2, -⟩ := has_indexSettings (denotes h) st hst
  exact ⟨q, hq, h2, h1⟩

/-- **C14**: the flags of an index's settings are determined by its attributes. -/
theorem C14_index_flags (h : parseDbmlUnchecked input = .ok s) (st : IndexesSettings)
    (hst : st ∈ indexSettings s) :
    (st.is_pk = true ↔ ∃ a ∈ st.attributes, a.key.to_string = k!"pk") ∧
    (st.is_unique = true ↔ ∃ a ∈ st.attributes, a.key.to_string = k!"unique") ∧
    (∀ t, st.type = some t ↔
      ∃ l, lastValue k!"type" st.attributes = some l ∧ (l.value.toStr, t) ∈ indexTypes) ∧
    (st.type = none ↔ lastValue k!"type" st.attributes = none) ∧
    st.name = (lastValue k!"name" st.attributes).map (·.value.toStr) ∧
    st.note = (lastValue k!"note" st.attributes).map (·.value.toStr) := by
  obtain ⟨q, hq, -, -, h1, h2, h3, h4, h5⟩ := has_indexSettings (denotes h) st hst
  refine ⟨h1, h2, ?_, ?_, h4, h5⟩
  · intro t
    cases hv : lastValue k!"type" st.attributes with
    | none => rw [hv] at h3; simp [h3]
    | some l =>
      rw [hv] at h3
      obtain ⟨t', ht', e⟩ := h3
      rw [e]
      constructor
      · intro he; cases he; exact ⟨l, rfl, ht'⟩
      · rintro ⟨l', hl', ht⟩
        cases hl'
        simp only [indexTypes, List.mem_cons, Prod.mk.injEq, List.not_mem_nil, or_false] at ht ht'
        congr 1
        rcases ht with ⟨e1, rfl⟩ | ⟨e1, rfl⟩ | ⟨e1, rfl⟩ | ⟨e1, rfl⟩ <;>
          rcases ht' with ⟨e2, rfl⟩ | ⟨e2, rfl⟩ | ⟨e2, rfl⟩ | ⟨e2, rfl⟩ <;>
            first | rfl | (rw [e1] at e2; exact absurd e2 (by decide))
  · cases hv : lastValue k!"type" st.attributes with
    | none => rw [hv] at h3; simp [h3]
    | some l =>
      rw [hv] at h3
      obtain ⟨t', ht', e⟩ := h3
      simp [e]

/-- **C15**: the actions of a ref's settings are those named by the last `update` / `delete` attribute. -/
theorem C15_ref_actions (h : parseDbmlUnchecked input = .ok s) (st : RefSettings)
    (hst : st ∈ refSettings s) :
    ActionIs k!"update" st.attributes st.on_update ∧ ActionIs k!"delete" st.attributes st.on_delete := by
  obtain ⟨q, hq, -, -, h1, h2⟩ := has_refSettings (denotes h) st hst
  exact ⟨h1, h2⟩

/-- **C15**: the accepted words are exactly the five actions, each denoting its own action. -/
theorem C15_action_words (w : Str) (a : ReferentialAction) :
    ReferentialAction.fromStr w = some a ↔ (w, a) ∈ actions := by
  unfold ReferentialAction.fromStr actions
  constructor
  · intro h
    split at h
    · cases h; simp [*]
    split at h
    · cases h; simp [*]
    split at h
    · cases h; simp [*]
    split at h
    · cases h; simp [*]
    split at h
    · cases h; simp [*]
    · cases h
  · intro h
    simp only [List.mem_cons, Prod.mk.injEq, List.not_mem_nil, or_false] at h
    rcases h with ⟨rfl, rfl⟩ | ⟨rfl, rfl⟩ | ⟨rfl, rfl⟩ | ⟨rfl, rfl⟩ | ⟨rfl, rfl⟩ <;> decide

/-- **C15**: action names round-trip. -/
theorem C15_action_round_trip (a : ReferentialAction) : ReferentialAction.fromStr a.toStr = some a := by
  cases a <;> decide

theorem C15_action_round_trip' (w : Str) (a : ReferentialAction)
    (h : ReferentialAction.fromStr w = some a) : a.toStr = w := by
  rw [C15_action_words] at h
  simp only [actions, List.mem_cons, Prod.mk.injEq, List.not_mem_nil, or_false] at h
  rcases h with ⟨rfl, rfl⟩ | ⟨rfl, rfl⟩ | ⟨rfl, rfl⟩ | ⟨rfl, rfl⟩ | ⟨rfl, rfl⟩ <;> rfl

example : (refSettings exAst).map (fun s => (s.on_update, s.on_delete)) = [(some .cascade, some .setNull)] := by
  decide +kernel
example : (columnSettings exAst).length = 7 ∧ (indexSettings exAst).length = 2 := by decide +kernel

/-- **C41**: identifiers are unquoted names, or the content of double quotes. -/
theorem C41_identifiers (h : parseDbmlUnchecked input = .ok s) (i : Ident) (hi : i ∈ idents s) :
    (IsVar i.raw ∧ i.to_string = i.raw) ∨
    (∃ t, Trivia t ∧ i.raw = k!"\"" ++ (t ++ (i.to_string ++ k!"\"")) ∧ '"' ∉ i.to_string) := by
  obtain ⟨q, hq, -, h2, ⟨h3, h4⟩ | h3⟩ := has_ident (denotes h) i hi
  · rw [h2]; exact .inl ⟨h3, h4⟩
  · have := quoted_single h3
    obtain ⟨t, e, ht, -⟩ := h3
    rw [h2]
    exact .inr ⟨t, ht, e, this⟩

/-- **C48**: database type, properties and note of a project. -/
theorem C48_project (h : parseDbmlUnchecked input = .ok s) (b : ProjectBlock) (hb : b ∈ s.projects) :
    b.database_type = (b.properties.filterMap dbTypeOf).getLast? ∧
    ∃ blk items, Sub blk ⟨0, input⟩ ∧ BracedD ProjectItemD blk items ∧
      b.properties = items.filterMap ProjectItem.prop? ∧
      b.note = (items.filterMap ProjectItem.note?).getLast? := by
  obtain ⟨q, hq, kw, name, blk, items, hp, -, -, h1, -, h2, h3, h4⟩ := has_project (denotes h) b hb
  exact ⟨h4, blk, items, (parts_sub hp blk (by simp)).trans hq, h1, h2, h3⟩

example : exAst.projects.map (·.database_type) = [some .postgreSQL] := by decide +kernel

/-- **C50**: what a column type denotes. -/
theorem C50_column_types (h : parseDbmlUnchecked input = .ok s) (c : TableColumn) (hc : c ∈ columns s) :
    ∃ q, Sub q ⟨0, input⟩ ∧ ColTypeD q c.type := has_colType (denotes h) c hc

/-- **C50**: a name with a dot is never a built-in type. -/
theorem C50_qualified_not_builtin (n : Str) (h : '.' ∈ n) : ColumnTypeName.fromStr n = none := by
  unfold ColumnTypeName.fromStr
  rw [List.lookup_eq_none_iff]
  intro p hp
  have : ∀ p ∈ ColumnTypeName.table, '.' ∉ p.1 := by decide
  have := this p hp
  simp only [bne_iff_ne, ne_eq]
  rintro rfl
  exact this h

/-- **C51**: the AST is denoted by the text, in the sense of the declarative concrete syntax. -/
theorem C51_ast_denoted (h : parseDbmlUnchecked input = .ok s) : SchemaD input s := denotes h

/-- The hypotheses of the theorems above are met by `exText`. -/
example : parseDbmlUnchecked exText = .ok exAst := ex_reads

end Dbml.Props
