import Verif.Proofs.Reading5

/-!
# Reading columns
-/

namespace Dbml
open Syntax Source

/-! ## Column settings -/

def colItemE : ColItem → ColItem
  | .attr a => .attr (a.mapSpan noPos)
  | .ref r => .ref (r.mapSpan noPos)

def colItemV : ColSet → ColItem
  | .attr a => .attr a.ast
  | .ref r => .ref r.ast

theorem colFold (xs : List ColItem) (sp : Span) {is : List ColSet} (h : xs.map colItemE = is.map colItemV) :
    (xs.foldl colStep ({ span_range := sp } : ColumnSettings)).mapSpan noPos = colSettingsAst is := by
  have e1 := filterMap_er (sel := ColItem.attr?) (selg := ColItem.attr?) (sela := ColSet.attr?)
    (er' := (·.mapSpan noPos)) (by intro b; cases b <;> rfl) (by intro b; cases b <;> rfl) h
  have e2 := filterMap_er (sel := ColItem.ref?) (selg := ColItem.ref?) (sela := ColSet.ref?)
    (er' := (·.mapSpan noPos)) (by intro b; cases b <;> rfl) (by intro b; cases b <;> rfl) h
  generalize hb : (xs.foldl colStep ({ span_range := sp } : ColumnSettings)) = b
  have f1 : b.attributes = xs.filterMap ColItem.attr? := by
    rw [← hb, foldl_append' (proj := ColumnSettings.attributes) (sel := ColItem.attr?)]
    · simp
    · intro s x
      cases x <;> simp [colStep, colAttr_attributes, ColItem.attr?]
  have f2 : b.refs = xs.filterMap ColItem.ref? := by
    rw [← hb, foldl_append' (proj := ColumnSettings.refs) (sel := ColItem.ref?)]
    · simp
    · intro s x
      cases x <;> simp [colStep, colAttr_refs, ColItem.ref?]
  have f3 : b.is_pk = (has k!"pk" (xs.filterMap ColItem.attr?) || has k!"primary key" (xs.filterMap ColItem.attr?)) := by
    rw [← hb, foldl_any_attr (proj := ColumnSettings.is_pk) colAttr_pk (fun s r => rfl), Bool.false_or]
    unfold has
    generalize xs.filterMap ColItem.attr? = ys
    induction ys with
    | nil => rfl
    | cons y ys ih =>
      simp only [List.any_cons, ih]
      by_cases h1 : y.key.to_string = k!"primary key" <;> by_cases h2 : y.key.to_string = k!"pk" <;> simp [h1, h2]
  have f4 : b.is_unique = has k!"unique" (xs.filterMap ColItem.attr?) := by
    rw [← hb, foldl_any_attr (proj := ColumnSettings.is_unique) colAttr_unique (fun s r => rfl), Bool.false_or]; rfl
  have f5 : b.is_incremental = has k!"increment" (xs.filterMap ColItem.attr?) := by
    rw [← hb, foldl_any_attr (proj := ColumnSettings.is_incremental) colAttr_inc (fun s r => rfl), Bool.false_or]; rfl
  have f6 : b.nullable = ((xs.filterMap ColItem.attr?).filterMap nullableOf).getLast? := by
    rw [← hb, foldl_last_attr (proj := ColumnSettings.nullable) colAttr_nullable (fun s r => rfl),
        ← List.map_filterMap, List.getLast?_map]
    cases ((xs.filterMap ColItem.attr?).filterMap nullableOf).getLast? <;> rfl
  have f7 : b.default = (lastValue k!"default" (xs.filterMap ColItem.attr?)).map (·.value) := by
    rw [← hb, foldl_last_attr (proj := ColumnSettings.default) colAttr_default (fun s r => rfl)]
    exact last_valuesOf (h := fun o : Option Literal => o.map (·.value)) rfl _
  have f8 : b.note = (lastValue k!"note" (xs.filterMap ColItem.attr?)).map (·.value.toStr) := by
    rw [← hb, foldl_last_attr (proj := ColumnSettings.note) colAttr_note (fun s r => rfl)]
    exact last_valuesOf (h := strOf) rfl _
  simp only [ColumnSettings.mapSpan, colSettingsAst, f1, f2, f3, f4, f5, f6, f7, f8, ← e1, ← e2, has_map,
    nullable_map, lastValue_map, toStr_map, value_map]

def ColSetP (c : ColSet) (p : Pair) : Prop :=
  ∃ sp t k, p = .mk .col_attribute sp t [k] ∧ match c with
    | .attr a => AttrP a k
    | .ref r => Yields .ref_inline parseRefInline (·.mapSpan noPos) r.ast k

theorem fails_refInline {a : Attr} (ha : a.Ok) {z} (hz : hd z = some ',' ∨ hd z = some ']') :
    Fails G.ref_inline (a.toks ++ z) := by
  obtain ⟨k, v⟩ := a
  obtain ⟨hk, hv⟩ := ha
  have hkw : KwExpr (.str k!"ref") (· = k!"ref") := kwExpr_str (by decide) (by simp [IsWord])
  refine .rule (fails_kw (t := keyTok k) hkw hk (fun _ h => h.1) (by decide) (by decide) ?_ ?_)
  · intro c hc
    have : c ≠ ':' := by rintro rfl; simp [IsWord] at hc
    simp [PExpr.starts, PExpr.nonNull, this]
  · intro _
    cases v with
    | none =>
      refine .seq_left (.of_starts rfl rfl ?_)
      show (hd z == some ':') = false
      rcases hz with h | h <;> rw [h] <;> decide
    | some v =>
      obtain ⟨c, hc, -, h1, h2, h3⟩ := aval_hd (hv v rfl) z
      refine .seq_right (reads_str (s := k!":")) (.seq_left (.of_starts (by decide) (by decide) ?_))
      simp [hc, PExpr.starts, G.relation, h1, h2, h3]

theorem reads_colSet {c : ColSet} (hc : c.Ok) {z} (hz : hd z = some ',' ∨ hd z = some ']') :
    Reads G.col_attribute (c.toks ++ z) z [ColSetP c] := by
  cases c with
  | attr a =>
    refine (Reads.alt_right (fails_refInline hc hz) (reads_attr hc hz)).rule.mono ?_
    rintro ⟨rl, sp, t, ks⟩ ⟨hr, h⟩
    simp only [Pair.rule_mk, Pair.children_mk] at hr h
    subst hr
    obtain ⟨k, rfl, hk⟩ := AllP.one' h
    exact ⟨sp, t, k, rfl, hk⟩
  | ref r =>
    refine (Reads.alt_left (reads_inlineRef hc ?_)).rule.mono ?_
    · rcases hz with h | h <;> rw [h] <;> decide
    rintro ⟨rl, sp, t, ks⟩ ⟨hr, h⟩
    simp only [Pair.rule_mk, Pair.children_mk] at hr h
    subst hr
    obtain ⟨k, rfl, hk⟩ := AllP.one' h
    exact ⟨sp, t, k, rfl, hk⟩

theorem reads_colSettings {is : List ColSet} (h : ∀ i ∈ is, i.Ok) (z) :
    Reads G.col_settings (brackets ColSet.toks is ++ z) z
      [Yields .col_settings parseColSettings (·.mapSpan noPos) (colSettingsAst is)] := by
  refine Reads.yields (reads_brackets is (by decide) (by decide) (by decide)
    (fun a ha _ hz => reads_colSet (h a ha) hz) z) ?_
  intro sp t ks hks
  walk' [parseColSettings]
  refine ex_fold colItemE colItemV colStep is hks ?_ ?_
  · rintro c hc p ⟨sp, t, k, rfl, hk⟩
    cases c with
    | attr a =>
      obtain ⟨hr, x, h1, h2⟩ := hk
      refine ⟨.attr x, by simp [colItemE, colItemV, h2], fun s => ?_⟩
      simp only [Pair.rule_mk, Pair.children_mk, List.foldlM_cons, List.foldlM_nil, hr, h1, Rs.bind_def, Rs.ok_bind,
        Rs.pure_def, colStep]
    | ref r =>
      obtain ⟨hr, x, h1, h2⟩ := hk
      refine ⟨.ref x, by simp [colItemE, colItemV, h2], fun s => ?_⟩
      simp only [Pair.rule_mk, Pair.children_mk, List.foldlM_cons, List.foldlM_nil, hr, h1, Rs.bind_def, Rs.ok_bind,
        Rs.pure_def, colStep]
  · intro bs hbs
    exact colFold bs _ hbs

/-! ## Column types -/

/-- A size between brackets. -/
def SizeOk (o : Option Str) : Prop := ∀ ds, o = some ds → IsDigits ds ∧ digitsNat ds < 2 ^ 32

theorem array_run {o : Option Str} (ho : SizeOk o) (r : Str) (pos) :
    ∃ p, run G.skip G.col_type_array .compound pos (arrayText o ++ r) = .ok (arrayText o) r [p] ∧
      p.rule = .col_type_array ∧ parseColTypeArray p = .ok (o.map digitsNat) := by
  cases o with
  | none =>
    refine ⟨_, rule_normal ca (c := k!"[]") (ps := []) (seq_run (c1 := k!"[") (c2 := k!"]") (p1 := []) (p2 := [])
      compound_ne (str_run (s := k!"[")) (seq_run (c1 := []) (c2 := k!"]") (p1 := []) (p2 := []) compound_ne
        (opt_none ?_) (str_run (s := k!"]")))), rfl, rfl⟩
    exact integer_fail (headP_cons (by decide)) _
  | some ds =>
    obtain ⟨h1, h2⟩ := ho ds rfl
    have hrun := rule_normal (r := .col_type_array) ca (seq_run (p1 := []) compound_ne
      (str_run (s := k!"[") (r := ds ++ (k!"]" ++ r)) (pos := pos))
      (seq_run (p2 := []) compound_ne (opt_some (integer_run ca h1 (headP_cons (by decide)) _))
        (str_run (s := k!"]"))))
    rw [show k!"[" ++ (ds ++ (k!"]" ++ r)) = arrayText (some ds) ++ r by simp [arrayText]] at hrun
    refine ⟨_, hrun, rfl, ?_⟩
    · have : parseUnsigned ds u32Max = some (digitsNat ds) := by
        rw [parseUnsigned]
        simp only [digitsVal_eq]
        rw [if_pos (by simp [u32Max]; omega)]
      simp [parseColTypeArray, this]

/-- No array suffix follows. -/
def NoArr (r : Str) : Prop := ∀ t, r = '[' :: t → HeadP (fun c => c ≠ ']' ∧ c.isDigit = false) t

theorem noArr_head {r : Str} (h : HeadP (· ≠ '[') r) : NoArr r := fun _ e => absurd rfl (h _ _ e)

theorem noArr_fail {r : Str} (h : NoArr r) (pos) : run G.skip G.col_type_array .compound pos r = .fail := by
  by_cases hb : k!"[" <+: r
  · obtain ⟨t, rfl⟩ := hb
    have ht := h t rfl
    refine rule_fail (seq_fail_right (c1 := k!"[") (p1 := []) compound_ne (str_run (s := k!"["))
      (seq_fail_right (c1 := []) (p1 := []) compound_ne
        (opt_none (integer_fail (ht.mono fun _ h => h.2) _)) (str_fail_iff.2 ?_)))
    rintro ⟨u, rfl⟩
    exact (ht _ _ rfl).1 rfl
  · exact rule_fail (seq_fail_left (str_fail_iff.2 hb))

theorem arrays_run {r : Str} (hr : NoArr r) : ∀ (xs : List (Option Str)) (_ : ∀ x ∈ xs, SizeOk x) (pos),
    ∃ ps, run G.skip (.star G.col_type_array) .compound pos (xs.flatMap arrayText ++ r) =
        .ok (xs.flatMap arrayText) r ps ∧
      ∀ schema out, List.foldlM (typeStep schema) out ps =
        .ok { out with arrays := out.arrays ++ xs.map fun o => o.map digitsNat }
  | [], _, pos => by
    exact ⟨[], star_nil (noArr_fail hr pos), fun schema out => by simp⟩
  | x :: xs, h, pos => by
    obtain ⟨p, h1, h2, h3⟩ := array_run (h x (by simp)) (xs.flatMap arrayText ++ r) pos
    obtain ⟨ps, h4, h5⟩ := arrays_run hr xs (fun y hy => h y (by simp [hy])) (pos + blen (arrayText x))
    refine ⟨p :: ps, ?_, fun schema out => ?_⟩
    · have := star_atomic_cons compound_ne gskip_sound (by decide) h1 h4
      simpa using this
    · rw [List.foldlM_cons]
      simp only [typeStep, h2, h3, Rs.bind_def, Rs.ok_bind, Rs.pure_def]
      have := h5 schema { out with arrays := out.arrays ++ [x.map digitsNat] }
      rw [this]
      simp

/-- A literal in a type is followed by a comma or a parenthesis. -/
theorem Source.Lit.in_tight {l : Lit} {r : Str} (h : l.Tight) (hr : HeadP (fun c => c = ',' ∨ c = ')') r) :
    l.In .compound r := by
  cases l with
  | str l => cases l <;> exact h
  | expr x => exact h
  | hex ds =>
    refine ⟨h, ?_⟩
    match ds with
    | [_, _, _] =>
      rintro ⟨a, b, c, t, rfl, ha, -⟩
      have : IsWord a := isHex_word ha
      rcases hr a _ rfl with rfl | rfl <;> simp [IsWord] at this
    | [] | [_] | [_, _] => trivial
    | _ :: _ :: _ :: _ :: _ => trivial
  | _ => exact ⟨h, trivial⟩

theorem argEnd (vs : List Lit) (r : Str) :
    HeadP (fun c => c = ',' ∨ c = ')') (vs.flatMap (fun v => ',' :: v.text) ++ (k!")" ++ r)) := by
  cases vs with
  | nil => exact headP_cons (.inr rfl)
  | cons w ws => exact headP_cons (.inl rfl)

theorem argEnd_lit {r : Str} (h : HeadP (fun c => c = ',' ∨ c = ')') r) : LitHead r :=
  h.mono (by rintro c (rfl | rfl) <;> decide)

theorem argList_run : ∀ (vs : List Lit) (_ : ∀ v ∈ vs, v.Tight) (r : Str) (pos),
    ∃ ps, run G.skip (.star (.str k!"," ~~ G.value)) .compound pos (vs.flatMap (fun v => ',' :: v.text) ++ (k!")" ++ r)) =
        .ok (vs.flatMap (fun v => ',' :: v.text)) (k!")" ++ r) ps ∧
      ∀ acc : List Value, List.foldlM (fun acc p1 =>
        match p1.rule with
        | .value => do
          let v ← parseValue p1
          return acc ++ [v]
        | _ => throwRules [.value] p1) acc ps = (.ok (acc ++ vs.map (·.value)) : Rs (List Value))
  | [], _, r, pos => by
    exact ⟨[], star_nil (seq_fail_left (str_fail_iff.2 (by simp))), fun acc => by simp⟩
  | v :: vs, h, r, pos => by
    obtain ⟨p, h1, h2, -, h3⟩ := value_run (l := v) (r := vs.flatMap (fun v => ',' :: v.text) ++ (k!")" ++ r))
      ca (Source.Lit.in_tight (h v (by simp)) (argEnd vs r)) (argEnd_lit (argEnd vs r)) (pos + blen k!",")
    obtain ⟨ps, h4, h5⟩ := argList_run vs (fun y hy => h y (by simp [hy])) r (pos + blen (k!"," ++ v.text))
    refine ⟨p :: ps, ?_, fun acc => ?_⟩
    · have := star_atomic_cons compound_ne gskip_sound (by decide)
        (seq_run (p1 := []) compound_ne (str_run (s := k!",")) h1) h4
      simpa using this
    · rw [List.foldlM_cons]
      simp only [h2, h3, Rs.bind_def, Rs.ok_bind, Rs.pure_def]
      have := h5 (acc ++ [v.value])
      simp only [Rs.bind_def, Rs.pure_def] at this
      rw [this]
      simp

theorem args_run {r : Str} (hr : HeadP (· ≠ '(') r) (o : Option (List Lit)) (ho : ∀ v ∈ o.getD [], v.Tight) (pos) :
    ∃ ps, run G.skip (.opt G.col_type_arg) .compound pos (argsText o ++ r) = .ok (argsText o) r ps ∧
      ∀ schema out, out.args = [] → List.foldlM (typeStep schema) out ps =
        .ok { out with args := (o.getD []).map (·.value) } := by
  match o, ho with
  | none, _ =>
    refine ⟨[], opt_none (rule_fail (seq_fail_left (str_fail_iff.2 ?_))), fun schema out h => ?_⟩
    · rintro ⟨t, rfl⟩
      exact hr _ _ rfl rfl
    · simp [← h]
  | some [], _ =>
    refine ⟨_, opt_some (rule_normal ca (c := k!"()") (ps := []) (seq_run (c1 := k!"(") (c2 := k!")") (p1 := [])
      (p2 := []) compound_ne (str_run (s := k!"(")) (seq_run (c1 := []) (c2 := k!")") (p1 := []) (p2 := [])
        compound_ne (opt_none (seq_fail_left ?_)) (str_run (s := k!")"))))), fun schema out h => ?_⟩
    · exact fail_of_starts (by decide) (by decide) rfl (by simp)
    · simp [typeStep, parseColTypeArg]
  | some (v :: vs), ho =>
    simp only [Option.getD_some, List.mem_cons, forall_eq_or_imp] at ho
    obtain ⟨p, h1, h2, -, h3⟩ := value_run (l := v) (r := vs.flatMap (fun v => ',' :: v.text) ++ (k!")" ++ r))
      ca (Source.Lit.in_tight ho.1 (argEnd vs r)) (argEnd_lit (argEnd vs r)) (pos + blen k!"(")
    obtain ⟨ps, h4, h5⟩ := argList_run vs ho.2 r (pos + blen k!"(" + blen v.text)
    have hrun := opt_some (rule_normal (r := .col_type_arg) ca (seq_run (p1 := []) compound_ne
      (str_run (s := k!"(") (r := v.text ++ (vs.flatMap (fun v => ',' :: v.text) ++ (k!")" ++ r))))
      (seq_run (y := .str k!")") (p2 := []) compound_ne (opt_some (seq_run compound_ne h1 h4)) str_run)))
    rw [show k!"(" ++ (v.text ++ (vs.flatMap (fun v => ',' :: v.text) ++ (k!")" ++ r))) =
        argsText (some (v :: vs)) ++ r by simp [argsText],
      show k!"(" ++ ((v.text ++ vs.flatMap (fun v => ',' :: v.text)) ++ k!")") =
        argsText (some (v :: vs)) by simp [argsText]] at hrun
    refine ⟨_, hrun, fun schema out h => ?_⟩
    have hpa : ∀ sp t, parseColTypeArg (.mk .col_type_arg sp t (p :: ps)) = .ok ((v :: vs).map (·.value)) := by
      intro sp t
      have := h5 [v.value]
      simp only [parseColTypeArg, Pair.children_mk, List.foldlM_cons, h2, h3, Rs.bind_def, Rs.ok_bind, Rs.pure_def,
        List.nil_append]
      simp only [Rs.bind_def, Rs.pure_def] at this
      exact this
    simp only [List.foldlM_cons, List.foldlM_nil, typeStep, Pair.rule_mk, List.nil_append, List.append_nil,
      List.cons_append, hpa, Rs.bind_def, Rs.ok_bind, Rs.pure_def, Option.getD_some]

/-- What may follow the body of a type. -/
structure TyEnd (b : TBody) (r : Str) : Prop where
  word : (∃ cs c, b.text = cs ++ [c] ∧ IsWord c) → NotW r
  head : HeadP (fun c => c ≠ '(' ∧ c ≠ '.') r
  arr : NoArr r

theorem var_ends {s : Str} (h : IsVar s) : ∃ cs c, s = cs ++ [c] ∧ IsWord c := by
  obtain ⟨c, cs, rfl, hc, hw⟩ := h
  have hne : c :: cs ≠ [] := by simp
  refine ⟨(c :: cs).dropLast, (c :: cs).getLast hne, (List.dropLast_concat_getLast hne).symm, ?_⟩
  have := List.getLast_mem hne
  rcases List.mem_cons.1 this with h | h
  · rw [h]; exact .inl (by simp [Char.isAlphanum, hc])
  · exact hw _ h

theorem headP_append {P : Char → Prop} {s r : Str} (h1 : HeadP P s) (h2 : HeadP P r) : HeadP P (s ++ r) := by
  cases s with
  | nil => exact h2
  | cons c s =>
    rintro d t e
    exact h1 d s (by injection e with e _; rw [e])

theorem headP_append' {P : Char → Prop} {s r : Str} (h1 : HeadP P s) (h2 : s ≠ []) : HeadP P (s ++ r) := by
  cases s with
  | nil => exact absurd rfl h2
  | cons c s => exact headP_cons (h1 c s rfl)

theorem arrays_head {P : Char → Prop} (h : P '[') (xs : List (Option Str)) : HeadP P (xs.flatMap arrayText) := by
  cases xs with
  | nil => intro c t e; simp at e
  | cons x xs => simp only [List.flatMap_cons, arrayText]; exact headP_cons h

theorem args_head {P : Char → Prop} (h : P '(') (o : Option (List Lit)) : HeadP P (argsText o) := by
  match o with
  | none => intro c t e; simp [argsText] at e
  | some [] => exact headP_cons h
  | some (v :: vs) => exact headP_cons h

/-- The pair of a type without schema. -/
def BodyP (b : TBody) (p : Pair) : Prop :=
  (p.rule = .col_type_quoted ∨ p.rule = .col_type_unquoted) ∧
    ∀ schema (out : ColumnType), out.args = [] → out.arrays = [] →
      List.foldlM (typeStep schema) out p.children =
        .ok { out with type_name := .raw (qualify schema b.name), args := (b.args.getD []).map (·.value),
                       arrays := b.arrays.map fun o => o.map digitsNat }

theorem rule_compound {r x a pos inp c rest ps} (ha : a ≠ .atomic)
    (h : run G.skip x .compound pos inp = .ok c rest ps) :
    run G.skip (.rule r .compound x) a pos inp = .ok c rest [.mk r ⟨pos, pos + blen c⟩ c ps] := by
  rw [rule_run (m := .compound) h]
  cases a <;> simp_all [emits]

theorem typeName_step {schema rl sp n} (h : rl = .var ∨ rl = .spaced_var) (out : ColumnType) :
    typeStep schema out (.mk rl sp n []) = .ok { out with type_name := .raw (qualify schema n) } := by
  rcases h with rfl | rfl <;> cases schema <;> rfl

theorem plain_notW {n a xs r} (hn : IsVar n) (hr : TyEnd (.plain n a xs) r) :
    NotW (argsText a ++ (xs.flatMap arrayText ++ r)) := by
  cases a with
  | some a => exact headP_append' (args_head (by simp [IsWord]) (some a)) (by cases a <;> simp [argsText])
  | none =>
    cases xs with
    | cons x xs => simp only [argsText, List.nil_append, List.flatMap_cons, arrayText]; exact headP_cons (by simp [IsWord])
    | nil =>
      simp only [argsText, List.nil_append, List.flatMap_nil]
      exact hr.word (by simpa [TBody.text, argsText] using var_ends hn)

theorem body_run {b : TBody} (hb : b.Ok) {r : Str} (hr : TyEnd b r) (pos) :
    ∃ p, run G.skip (G.col_type_quoted <//> G.col_type_unquoted) .compound pos (b.text ++ r) = .ok b.text r [p] ∧
      BodyP b p := by
  obtain ⟨hn, hargs, harr⟩ := hb
  cases b with
  | plain n a xs =>
    obtain ⟨pa, h2, h3⟩ := args_run (r := xs.flatMap arrayText ++ r) (headP_append (arrays_head (by decide) xs)
      (hr.head.mono fun _ h => h.1)) a hargs (pos + blen n)
    obtain ⟨px, h4, h5⟩ := arrays_run hr.arr xs harr (pos + blen n + blen (argsText a))
    have h1 := var_run (a := .compound) (s := n) (r := argsText a ++ (xs.flatMap arrayText ++ r)) ca hn (plain_notW hn hr) pos
    have hrun := rule_compound (r := .col_type_unquoted) ca (seq_run compound_ne h1 (seq_run compound_ne h2 h4))
    rw [show n ++ (argsText a ++ (xs.flatMap arrayText ++ r)) = (TBody.plain n a xs).text ++ r by
      simp [TBody.text], show n ++ (argsText a ++ xs.flatMap arrayText) = (TBody.plain n a xs).text from rfl] at hrun
    refine ⟨_, alt_right' (rule_fail (seq_fail_left (str_fail_iff.2 ?_))) hrun, .inr rfl, ?_⟩
    · obtain ⟨c, cs, rfl, hc, -⟩ := hn
      rintro ⟨t, ht⟩
      simp [TBody.text] at ht
      exact alpha_ne hc (by decide) ht.1.symm
    · intro schema out h6 h7
      simp only [Pair.children_mk, List.cons_append, List.nil_append, List.foldlM_cons, typeName_step (.inl rfl),
        Rs.bind_def, Rs.ok_bind, List.foldlM_append]
      rw [h3 schema { out with type_name := .raw (qualify schema n) } h6]
      simp only [Rs.ok_bind]
      rw [h5]
      simp [TBody.name, TBody.args, TBody.arrays, h7]
  | quoted n a xs ys =>
    obtain ⟨pa, h2, h3⟩ := args_run (r := xs.flatMap arrayText ++ (k!"\"" ++ (ys.flatMap arrayText ++ r)))
      (headP_append (arrays_head (by decide) xs) (headP_cons (by decide))) a hargs (pos + blen k!"\"" + blen n)
    obtain ⟨px, h4, h5⟩ := arrays_run (r := k!"\"" ++ (ys.flatMap arrayText ++ r)) (noArr_head (headP_cons (by decide))) xs
      (fun x hx => harr x (by simp [TBody.arrays, hx])) (pos + blen k!"\"" + blen n + blen (argsText a))
    obtain ⟨py, h6, h7⟩ := arrays_run hr.arr ys
      (fun x hx => harr x (by simp [TBody.arrays, hx]))
      (pos + blen k!"\"" + blen n + blen (argsText a) + blen (xs.flatMap arrayText) + blen k!"\"")
    have hnc : NoCont (argsText a ++ (xs.flatMap arrayText ++ (k!"\"" ++ (ys.flatMap arrayText ++ r)))) := by
      have : HeadP (fun c => ¬ IsWord c ∧ c ≠ ' ')
          (argsText a ++ (xs.flatMap arrayText ++ (k!"\"" ++ (ys.flatMap arrayText ++ r)))) :=
        headP_append (args_head (by simp [IsWord]) a) (headP_append (arrays_head (by simp [IsWord]) xs)
          (headP_cons (by simp [IsWord])))
      exact ⟨this.mono fun _ h => h.1, fun c t e => absurd rfl (this _ _ e).2⟩
    have h1 := spaced_var_run (a := .compound) ca hn hnc (pos + blen k!"\"")
    have hrun := rule_compound (r := .col_type_quoted) (pos := pos) ca (seq_run (p1 := []) compound_ne
      (str_run (s := k!"\"")) (seq_run compound_ne h1 (seq_run compound_ne h2 (seq_run compound_ne h4
        (seq_run (p1 := []) compound_ne (str_run (s := k!"\"")) h6)))))
    rw [show k!"\"" ++ (n ++ (argsText a ++ (xs.flatMap arrayText ++ (k!"\"" ++ (ys.flatMap arrayText ++ r))))) =
      (TBody.quoted n a xs ys).text ++ r by simp [TBody.text],
      show k!"\"" ++ (n ++ (argsText a ++ (xs.flatMap arrayText ++ (k!"\"" ++ ys.flatMap arrayText)))) =
        (TBody.quoted n a xs ys).text from rfl] at hrun
    refine ⟨_, alt_left hrun, .inl rfl, ?_⟩
    intro schema out h8 h9
    simp only [Pair.children_mk, List.cons_append, List.nil_append, List.foldlM_cons, typeName_step (.inr rfl),
      Rs.bind_def, Rs.ok_bind, List.foldlM_append]
    rw [h3 schema { out with type_name := .raw (qualify schema n) } h8]
    simp only [Rs.ok_bind]
    rw [h5]
    simp only [Rs.ok_bind]
    rw [h7]
    simp [TBody.name, TBody.args, TBody.arrays, h9]

/-- The text up to the first quote. -/
theorem first_quote : ∀ (u : Str), '"' ∈ u →
    ∃ v, u = v ++ ('"' :: (u.dropWhile (· ≠ '"')).drop 1) ∧ '"' ∉ v
  | [], h => by simp at h
  | c :: u, h => by
    by_cases hc : c = '"'
    · exact ⟨[], by simp [hc], by simp⟩
    · obtain ⟨v, h1, h2⟩ := first_quote u (by rcases List.mem_cons.1 h with h | h; exact absurd h.symm hc; exact h)
      refine ⟨c :: v, ?_, by simp [h2, Ne.symm hc]⟩
      rw [List.dropWhile_cons_of_pos (by simp [hc])]
      exact congrArg (c :: ·) h1

theorem closed_of_no_quote {s : Str} (hq : '"' ∉ s) : Closed k!"\"" s := by
  rintro i hi ⟨t, ht⟩
  rw [List.drop_append_of_le_length (by omega), List.drop_eq_getElem_cons hi, List.cons_append] at ht
  have := (List.cons.inj ht).1
  exact hq (this ▸ List.getElem_mem hi)

/-- Without a schema, the attempt to read one fails. -/
theorem noSchema_run {b : TBody} (hb : b.Ok) (hd : b.NoDot) {r : Str} (hr : TyEnd b r) (pos) :
    run G.skip (.opt (G.ident ~~ .str k!".")) .compound pos (b.text ++ r) = .ok [] (b.text ++ r) [] := by
  obtain ⟨hn, hargs, harr⟩ := hb
  have dot : ∀ {u : Str} {pos}, HeadP (· ≠ '.') u → run G.skip (.str k!".") .compound pos u = .fail := by
    intro u pos h
    rw [str_fail_iff]
    rintro ⟨t, rfl⟩
    exact h _ _ rfl rfl
  cases b with
  | plain n a xs =>
    obtain ⟨p, h1, -⟩ := ident_run (n := .word n) (r := argsText a ++ (xs.flatMap arrayText ++ r)) ca
      ⟨hn, plain_notW hn hr⟩ pos
    rw [show (TBody.plain n a xs).text ++ r = (Name.word n).text ++ (argsText a ++ (xs.flatMap arrayText ++ r)) by
      simp [TBody.text, Name.text]]
    exact opt_none (seq_fail_right compound_ne h1 (dot (headP_append (args_head (by decide) a)
      (headP_append (arrays_head (by decide) xs) (hr.head.mono fun _ h => h.2)))))
  | quoted n a xs ys =>
    generalize hu : n ++ (argsText a ++ (xs.flatMap arrayText ++ k!"\"")) = u
    simp only [TBody.NoDot, hu] at hd
    obtain ⟨v, h1, h2⟩ := first_quote u (by simp [← hu])
    generalize (u.dropWhile (· ≠ '"')).drop 1 = w at h1 hd
    have e : (TBody.quoted n a xs ys).text ++ r = (Name.quoted (.of v)).text ++ (w ++ (ys.flatMap arrayText ++ r)) := by
      have : (TBody.quoted n a xs ys).text ++ r = k!"\"" ++ (u ++ (ys.flatMap arrayText ++ r)) := by
        simp [TBody.text, ← hu]
      rw [this, h1]
      simp [Name.text, Quote.text, Quote.of]
    obtain ⟨p, h3, -⟩ := ident_run (n := .quoted (.of v)) (r := w ++ (ys.flatMap arrayText ++ r)) ca
      ⟨rfl, closed_of_no_quote h2⟩ pos
    rw [e]
    refine opt_none (seq_fail_right compound_ne h3 (dot (headP_append ?_ (headP_append (arrays_head (by decide) ys)
      (hr.head.mono fun _ h => h.2)))))
    rintro c t rfl rfl
    simp at hd

abbrev TyP (t : Ty) : Pair → Prop := Yields .col_type parseColType (·.mapSpan noPos) t.ast

theorem Source.Name.in_tight {n : Name} {r : Str} (h : n.Tight) (hr : NotW r) : n.In .compound r := by
  cases n
  · exact ⟨h, hr⟩
  · exact h

theorem type_run {t : Ty} (ht : t.Ok) {r : Str} (hr : TyEnd t.body r) (pos) :
    ∃ p, run G.skip G.col_type .nonAtomic pos (t.text ++ r) = .ok t.text r [p] ∧ TyP t p := by
  obtain ⟨sc, b⟩ := t
  obtain ⟨hs, hb, hd⟩ := ht
  cases sc with
  | none =>
    obtain ⟨p, h1, h2, h3⟩ := body_run hb hr pos
    refine ⟨_, rule_compound (by decide) (seq_run (p1 := []) compound_ne (noSchema_run hb (hd rfl) hr pos) h1), rfl, ?_⟩
    have hf := h3 none { span_range := ⟨pos, pos + blen b.text⟩, raw := b.text } rfl rfl
    refine ⟨⟨⟨pos, pos + blen b.text⟩, b.text, .raw (qualify none b.name), (b.args.getD []).map (·.value),
      b.arrays.map fun o => o.map digitsNat⟩, ?_, ?_⟩
    · unfold parseColType
      rcases h2 with h2 | h2 <;>
      · simp only [Pair.children_mk, Pair.span_mk, Pair.text_mk, List.nil_append, List.foldlM_cons, List.foldlM_nil,
          h2, Rs.bind_def, Rs.pure_def]
        simp only [Ty.text]
        exact (congrArg (fun x => ((Rs.bind x fun out => Rs.ok (out, none)).bind fun init => Rs.ok init).bind
          fun r : ColumnType × Option Ident => Rs.ok r.1) hf)
    · simp [ColumnType.mapSpan, Ty.ast, Ty.text, qualify]
  | some s =>
    obtain ⟨q, hq1, hqr, i, hq2, hq3⟩ := ident_run (n := s) (r := k!"." ++ (b.text ++ r)) (a := .compound) ca
      (s.in_tight (hs s rfl) (headP_cons (by simp [IsWord]))) pos
    obtain ⟨p, h1, h2, h3⟩ := body_run hb hr (pos + blen (s.text ++ k!"."))
    have hrun := rule_compound (r := .col_type) (a := .nonAtomic) (by decide) (seq_run compound_ne
      (opt_some (seq_run (p2 := []) compound_ne hq1 (str_run (s := k!".")))) h1)
    rw [show s.text ++ (k!"." ++ (b.text ++ r)) = Ty.text ⟨some s, b⟩ ++ r by simp [Ty.text],
      show s.text ++ k!"." ++ b.text = Ty.text ⟨some s, b⟩ by simp [Ty.text]] at hrun
    refine ⟨_, hrun, rfl, ?_⟩
    have hf := h3 (some i) { span_range := ⟨pos, pos + blen (Ty.text ⟨some s, b⟩)⟩, raw := Ty.text ⟨some s, b⟩ } rfl rfl
    refine ⟨⟨⟨pos, pos + blen (Ty.text ⟨some s, b⟩)⟩, Ty.text ⟨some s, b⟩, .raw (qualify (some i) b.name),
      (b.args.getD []).map (·.value), b.arrays.map fun o => o.map digitsNat⟩, ?_, ?_⟩
    · unfold parseColType
      rcases h2 with h2 | h2 <;>
      · simp only [Pair.children_mk, Pair.span_mk, Pair.text_mk, List.nil_append, List.append_nil, List.cons_append,
          List.foldlM_cons, List.foldlM_nil, hqr, hq2, Rs.ok_bind, h2, Rs.bind_def, Rs.pure_def]
        exact (congrArg (fun x => ((Rs.bind x fun out => Rs.ok (out, some i)).bind fun init => Rs.ok init).bind
          fun r : ColumnType × Option Ident => Rs.ok r.1) hf)
    · have : i.to_string = s.value := congrArg Ident.to_string hq3
      simp [ColumnType.mapSpan, Ty.ast, qualify, this]

/-- What may follow a type: settings, a name or a closing brace. -/
def TyNext (z : List Tok) : Prop :=
  (∃ c, hd z = some c ∧ (c.isAlpha = true ∨ c = '"' ∨ c = '}')) ∨
  ∃ z', z = lbrack :: z' ∧ ∀ c, hd z' = some c → c.isDigit = false

theorem body_ends {b : TBody} (hb : b.Ok) : b.text ≠ [] := by
  obtain ⟨hn, -⟩ := hb
  cases b with
  | plain n a xs => obtain ⟨c, cs, rfl, -⟩ := hn; simp [TBody.text]
  | quoted => simp [TBody.text]

theorem after_type {t : Ty} {z r} (ht : t.Ok) (hz : TyNext z) (ho : ∀ t ∈ z, TokOk t) (h : After t.tok z r) :
    TyEnd t.body r := by
  obtain ⟨hw, hbr⟩ := h.1
  refine ⟨?_, ?_, ?_⟩
  · rintro ⟨cs, c, e, hc⟩
    refine hw ?_
    obtain ⟨sc, b⟩ := t
    cases sc with
    | none => exact ⟨cs, c, e, hc⟩
    | some n => exact ⟨n.text ++ ('.' :: cs), c, by simp only [Ty.text]; rw [e]; simp, hc⟩
  · refine after_headP (by rintro c (rfl | rfl | rfl | rfl) <;> decide) (by decide) ?_ ho h
    intro c hc
    rcases hz with ⟨d, hd, h⟩ | ⟨z', rfl, -⟩
    · rw [hd] at hc
      injection hc with hc
      subst hc
      rcases h with h | rfl | rfl
      · exact ⟨alpha_ne h (by decide), alpha_ne h (by decide)⟩
      · decide
      · decide
    · simp [hd, lbrack] at hc
      subst hc
      decide
  · intro u e
    have hne : HeadP (· ≠ ']') u := by
      rintro c v rfl rfl
      exact hbr ⟨v, by rw [e]; rfl⟩
    have hz' : ∀ w v, Blank w → r = w ++ v → w = [] ∨ HeadP (· ≠ '[') r := by
      intro w v hb hw
      cases w with
      | nil => exact .inl rfl
      | cons x w =>
        right
        rw [hw]
        refine headP_cons ?_
        rcases blank_head hb x w rfl with h | h
        · rintro rfl; simp [IsSpace] at h
        · rw [h]; decide
    have hP := h.2
    rcases hz with ⟨d, hd', hdd⟩ | ⟨z', rfl, hz2⟩
    · exfalso
      have : HeadP (· ≠ '[') r := after_headP (by rintro c (rfl | rfl | rfl | rfl) <;> decide) (by decide) (by
        intro c hc
        rw [hd'] at hc
        injection hc with hc
        subst hc
        rcases hdd with h | rfl | rfl
        · exact alpha_ne h (by decide)
        · decide
        · decide) ho h
      exact this _ _ e rfl
    · obtain ⟨w, r', hr, hb, -, hw'⟩ := hP
      rcases hz' w _ hb hr with rfl | h
      · simp only [lbrack, List.nil_append, e, List.cons_append, List.cons.injEq, true_and] at hr
        subst hr
        have := after_headP (t := lbrack) (P := fun c => c.isDigit = false)
          (by rintro c (rfl | rfl | rfl | rfl) <;> decide) (by decide) hz2 (fun t h => ho t (by simp [h])) ⟨trivial, hw'⟩
        exact fun c t e => ⟨hne c t e, this c t e⟩
      · exact absurd rfl (h _ _ e)

theorem reads_type {t : Ty} (ht : t.Ok) {z} (hz : TyNext z) : Reads G.col_type (t.tok :: z) z [TyP t] := by
  intro pos s hs
  obtain ⟨r, rfl, ha, ho⟩ := hs.cons
  obtain ⟨p, h1, h2⟩ := type_run ht (after_type ht hz ho ha) pos
  exact ⟨_, r, [p], h1, after_lead ho ha, .one h2⟩

/-! ## Columns -/

abbrev ColP (c : Col) : Pair → Prop := Yields .table_col parseTableCol (·.mapSpan noPos) c.ast

theorem colSet_hd {c : ColSet} (hc : c.Ok) (z) : ∃ d, hd (c.toks ++ z) = some d ∧ d.isAlpha = true := by
  cases c with
  | attr a => exact spaced_hd hc.1 _
  | ref r => exact ⟨'r', rfl, by decide⟩

theorem settings_tyNext {is : Option (List ColSet)} (h : ∀ xs, is = some xs → ∀ i ∈ xs, i.Ok) {z}
    (hz : ItemEnd z) : TyNext (optBrackets ColSet.toks is ++ z) := by
  cases is with
  | none => exact .inl hz
  | some xs =>
    refine .inr ⟨commaSep ColSet.toks xs ++ ([rbrack] ++ z), by simp [optBrackets, brackets], ?_⟩
    cases xs with
    | nil => intro c hc; simp [commaSep, hd, rbrack] at hc; subst hc; decide
    | cons x xs =>
      intro c hc
      obtain ⟨d, h1, h2⟩ := colSet_hd (h _ rfl x (by simp)) ((xs.flatMap fun y => comma :: ColSet.toks y) ++ ([rbrack] ++ z))
      simp only [commaSep, List.append_assoc] at hc h1
      rw [h1] at hc
      injection hc with hc
      exact hc ▸ alpha_not_digit h2

theorem reads_col {c : Col} (hc : c.Ok) {z} (hze : ItemEnd z) :
    Reads G.table_col (c.toks ++ z) z [ColP c] := by
  obtain ⟨h1, h2, h3⟩ := hc
  have hz : hd z ≠ some '[' := hze.ne (by decide) (by decide) (by decide)
  have hset := reads_optBrackets (r := .col_settings) (item := G.col_attribute) (f := ColSet.toks)
    (P := Yields .col_settings parseColSettings (·.mapSpan noPos) (colSettingsAst (c.settings.getD [])))
    c.settings z hz (by intro as has; rw [has]; exact reads_colSettings (h3 as has) z)
  refine Reads.yields ((reads_ident h1).seq ((reads_type h2 (settings_tyNext h3 hze)).seq hset)) ?_
  intro sp t ks h
  obtain ⟨p1, qs, rfl, ⟨hr1, i, hi1, hi2⟩, h2⟩ := h.cons'
  obtain ⟨p2, qs, rfl, ⟨hr2, y, hy1, hy2⟩, h3⟩ := AllP.cons' h2
  cases hset : c.settings with
  | none =>
    rw [hset] at h3
    have := AllP.nil' h3
    subst this
    walk' [parseTableCol, hr1, hr2]
    refine ex_bind hi1 (ex_bind hy1 ⟨_, rfl, ?_⟩)
    simp [TableColumn.mapSpan, Col.ast, hi2, hy2, hset]
  | some as =>
    rw [hset] at h3
    obtain ⟨p3, rfl, hr3, u, hu1, hu2⟩ := AllP.one' h3
    walk' [parseTableCol, hr1, hr2, hr3]
    refine ex_bind hi1 (ex_bind hy1 (ex_bind hu1 ⟨_, rfl, ?_⟩))
    simp only [Option.getD_some] at hu2
    simp [TableColumn.mapSpan, Col.ast, hi2, hy2, hset, hu2]

end Dbml
