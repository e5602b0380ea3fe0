import Verif.Model.Parser
import Verif.Proofs.RsLemmas
import Verif.Spec.MapSpan
import Mathlib.Tactic.SplitIfs

/-!
# The tree walkers only look at some of what the pairs carry

Relabelling the spans of the pairs relabels the spans of the AST in the same way; and the matched texts matter
only for the rules that are `leaf`.
-/

namespace Dbml

/-- Rules whose matched text the walkers may read. The others are the rules that can end in an optional or
repeated part, whose text may include trailing white space. -/
def Rule.leaf : Rule → Bool
  | .attribute | .decl_ident | .ref_ident | .ref_inline | .ref_stmt | .ref_short | .ref_block | .ref_decl | .indexes_multi
  | .indexes_single | .indexes_decl | .enum_value | .enum_decl | .col_attribute | .table_col | .table_decl | .table_group_decl | .project_decl
  | .property | .schema | .EOI => false
  | _ => true

/-- Rules whose inner text the walkers may read. -/
def Rule.quoted : Rule → Bool
  | .double_quoted_string | .backquoted_quoted_string => true
  | _ => false

/-- A relabelling of spans that leaves the default span alone. -/
def F (g : Span → Span) (sp : Span) : Span := if sp = .zero then .zero else g sp

mutual
/-- `q` is `p` with spans relabelled, and the same texts where they matter. -/
inductive E (g : Span → Span) : Pair → Pair → Prop
  | mk {r sp t t' cs ds} : (r.leaf = true → t' = t) →
      (r.quoted = true → innerStr (.mk r (F g sp) t' ds) = innerStr (.mk r sp t cs)) → EL g cs ds →
      E g (.mk r sp t cs) (.mk r (F g sp) t' ds)
/-- Lists of pairs. -/
inductive EL (g : Span → Span) : List Pair → List Pair → Prop
  | nil : EL g [] []
  | cons {p q ps qs} : E g p q → EL g ps qs → EL g (p :: ps) (q :: qs)
end

variable {g : Span → Span}

/-- Relabelling, with different types before and after. -/
def Rs.rel {α β : Type} (g : Span → Span) (m : α → β) : Rs α → Rs β
  | .ok a => .ok (m a)
  | .err e => .err (e.mapSpan (F g))
  | .panic s => .panic s
  | .diverge => .diverge

theorem rel_eq {α : Type} (m : α → α) (x : Rs α) : x.rel g m = x.relabel (F g) m := by cases x <;> rfl

theorem E.rule {p q} (h : E g p q) : q.rule = p.rule := by cases h; rfl
theorem E.text {p q} (h : E g p q) (hl : p.rule.leaf = true) : q.text = p.text := by cases h with | mk h _ _ => exact h hl
theorem E.innerStr {p q} (h : E g p q) (hl : p.rule.quoted = true) : innerStr q = innerStr p := by
  cases h with | mk _ h _ => exact h hl
theorem E.span {p q} (h : E g p q) : q.span = F g p.span := by cases h; rfl
theorem E.kids {p q} (h : E g p q) : EL g p.children q.children := by cases h; assumption

theorem quoted! {p : Pair} {r : Rule} (h : p.rule = r) (h' : r.quoted = true := by rfl) : p.rule.quoted = true := h ▸ h'
theorem leaf! {p : Pair} {r : Rule} (h : p.rule = r) (h' : r.leaf = true := by rfl) : p.rule.leaf = true := h ▸ h'

theorem rel_bind {α β α' β' : Type} {x : Rs α} {x' : Rs α'} {m : α → α'} {m' : β → β'} {k : α → Rs β} {k' : α' → Rs β'}
    (h1 : x' = x.rel g m) (h2 : ∀ a, k' (m a) = (k a).rel g m') : (x' >>= k') = (x >>= k).rel g m' := by
  subst h1
  cases x with
  | ok a => exact h2 a
  | _ => rfl

theorem rel_fold {σ σ' : Type} {m : σ → σ'} {f : σ → Pair → Rs σ} {f' : σ' → Pair → Rs σ'} {ps qs} (h : EL g ps qs) :
    ∀ {b b'}, b' = m b → (∀ s p q, E g p q → f' (m s) q = (f s p).rel g m) →
    List.foldlM f' b' qs = (List.foldlM f b ps).rel g m := by
  intro b b' hb hf
  subst hb
  induction ps generalizing qs b with
  | nil => cases h; rfl
  | cons p ps ih =>
    cases h with
    | cons h1 h2 =>
      simp only [List.foldlM_cons]
      exact rel_bind (hf _ _ _ h1) fun a => ih h2

theorem rel_mapM {α : Type} {m : α → α} {f f' : Pair → Rs α} {ps qs} (h : EL g ps qs)
    (hf : ∀ p q, E g p q → f' q = (f p).rel g m) : List.mapM f' qs = (List.mapM f ps).rel g (List.map m) := by
  induction ps generalizing qs with
  | nil => cases h; rfl
  | cons p ps ih =>
    cases h with
    | cons h1 h2 =>
      simp only [List.mapM_cons]
      refine rel_bind (hf _ _ h1) fun a => ?_
      exact rel_bind (ih h2) fun as => rfl

theorem rel_rules {α β : Type} {m : α → β} {rs p q} (h : E g p q) :
    (throwRules rs q : Rs β) = (throwRules rs p : Rs α).rel g m := by
  simp [throwRules, Rs.rel, PError.mapSpan, h.span]

theorem rel_msg {α β : Type} {m : α → β} {s p q} (h : E g p q) :
    (throwMsg s q : Rs β) = (throwMsg s p : Rs α).rel g m := by
  simp [throwMsg, Rs.rel, PError.mapSpan, h.span]

theorem EL.head {ps qs} (h : EL g ps qs) : (ps.head? = none ∧ qs.head? = none) ∨
    ∃ p q, ps.head? = some p ∧ qs.head? = some q ∧ E g p q := by
  cases h with
  | nil => exact .inl ⟨rfl, rfl⟩
  | cons h1 h2 => exact .inr ⟨_, _, rfl, rfl, h1⟩

theorem rel_head {β β' : Type} {m : β → β'} {ps qs s} (h : EL g ps qs) {k : Pair → Rs β} {k' : Pair → Rs β'}
    (hg : ∀ p q, E g p q → k' q = (k p).rel g m) :
    (Rs.orPanic qs.head? s >>= k') = (Rs.orPanic ps.head? s >>= k).rel g m := by
  rcases h.head with ⟨h1, h2⟩ | ⟨p, q, h1, h2, h3⟩
  · rw [h1, h2]; rfl
  · rw [h1, h2]; exact hg p q h3

theorem stringValue_e {p q} (h : E g p q) : parseStringValue q = (parseStringValue p).rel g id := by
  unfold parseStringValue
  refine rel_fold h.kids rfl ?_
  intro s p q h
  rw [h.rule]
  cases hr : p.rule <;> first | exact rel_rules h | skip
  · refine rel_fold h.kids rfl ?_
    intro s p q h
    rw [h.rule]
    cases hr : p.rule <;> first | exact rel_rules h | skip
    rw [h.text (leaf! hr)]; rfl
  · refine rel_fold h.kids rfl ?_
    intro s p q h
    rw [h.rule]
    cases hr : p.rule <;> first | exact rel_rules h | skip
    rw [h.text (leaf! hr)]; rfl

theorem value_e {p q} (h : E g p q) : parseValue q = (parseValue p).rel g id := by
  unfold parseValue
  refine rel_head h.kids ?_
  intro p q h
  rw [h.rule]
  cases hr : p.rule <;> first | exact rel_rules h | skip
  · rw [h.innerStr (quoted! hr)]; rfl
  · exact rel_bind (stringValue_e h) fun a => rfl
  · refine rel_head h.kids ?_
    intro p q h
    rw [h.rule]
    cases hr : p.rule <;> first | exact rel_rules h | skip
    · simp only [h.text (leaf! hr)]
      split
      · rfl
      · exact rel_msg h
    · simp only [h.text (leaf! hr)]; rfl
  · simp only [h.text (leaf! hr)]
    split
    · rfl
    · exact rel_msg h
  · rw [h.text (leaf! hr)]; rfl

theorem ident_e {p q} (h : E g p q) : parseIdent q = (parseIdent p).rel g (·.mapSpan (F g)) := by
  unfold parseIdent
  refine rel_head h.kids ?_
  intro p q h
  rw [h.rule]
  cases hr : p.rule <;> first | exact rel_rules h | skip
  · simp only [h.innerStr (quoted! hr), h.text (leaf! hr), h.span]; rfl
  · simp only [h.text (leaf! hr), h.span]; rfl

theorem attribute_e {p q} (h : E g p q) : parseAttribute q = (parseAttribute p).rel g (·.mapSpan (F g)) := by
  unfold parseAttribute
  refine rel_fold h.kids (by rw [h.span]; rfl) ?_
  intro s p q h
  rw [h.rule]
  cases hr : p.rule <;> first | exact rel_rules h | skip
  · simp only [h.innerStr (quoted! hr), h.text (leaf! hr), h.span]; rfl
  · simp only [h.text (leaf! hr), h.span]
    show (if s.key.raw.isEmpty = true then _ else _) = _
    split <;> rfl
  · refine rel_bind (value_e h) fun a => ?_
    simp only [h.text (leaf! hr), h.span]; rfl

theorem property_e {p q} (h : E g p q) : parseProperty q = (parseProperty p).rel g (·.mapSpan (F g)) := by
  unfold parseProperty
  refine rel_bind (attribute_e h) fun a => ?_
  cases hv : a.value with
  | none => simp only [Attribute.mapSpan, hv, Option.map_none]; exact rel_rules h
  | some v => simp only [Attribute.mapSpan, hv, Option.map_some]; rfl

theorem attrList_e {p q} (h : E g p q) :
    parseAttrList q = (parseAttrList p).rel g (List.map (·.mapSpan (F g))) := by
  unfold parseAttrList
  refine rel_mapM h.kids ?_
  intro p q h
  rw [h.rule]
  cases hr : p.rule <;> first | exact rel_rules h | skip
  exact attribute_e h

theorem declIdent_e {p q} (h : E g p q) :
    parseDeclIdent q = (parseDeclIdent p).rel g (Prod.map (Option.map (·.mapSpan (F g))) (·.mapSpan (F g))) := by
  unfold parseDeclIdent
  refine rel_bind (m := List.map (·.mapSpan (F g))) (rel_fold h.kids rfl ?_) ?_
  · intro s p q h
    rw [h.rule]
    cases hr : p.rule <;> first | exact rel_rules h | skip
    exact rel_bind (ident_e h) fun a => by simp [Rs.rel]
  · rintro (_ | ⟨a, _ | ⟨b, _ | ⟨c, l⟩⟩⟩) <;> rfl

theorem noteInner_e {p q ps qs} (h : E g p q) (hl : EL g ps qs) :
    parseNoteInner q qs = (parseNoteInner p ps).rel g (Option.map (·.mapSpan (F g))) := by
  cases hl with
  | nil => rfl
  | @cons p2 q2 ps qs h2 _ =>
    simp only [parseNoteInner]
    rw [h2.rule]
    cases hr2 : p2.rule <;> first | exact rel_rules h2 | skip
    refine rel_bind (stringValue_e h2) fun a => ?_
    simp only [h2.text (leaf! hr2), h2.span, h.span]; rfl

theorem noteDecl_e {p q} (h : E g p q) : parseNoteDecl q = (parseNoteDecl p).rel g (·.mapSpan (F g)) := by
  unfold parseNoteDecl
  have : ∀ ps qs, EL g ps qs → parseNoteDecl.go qs = (parseNoteDecl.go ps).rel g (·.mapSpan (F g)) := by
    intro ps
    induction ps with
    | nil => rintro _ ⟨⟩; rfl
    | cons p ps ih =>
      rintro _ (_ | ⟨h, hl⟩)
      simp only [parseNoteDecl.go]
      rw [h.rule]
      cases hr : p.rule <;> first | exact rel_rules h | skip
      all_goals
        refine rel_bind (noteInner_e h h.kids) ?_
        rintro (_ | n)
        · exact ih _ hl
        · rfl
  exact this _ _ h.kids

theorem ite_rel {α β : Type} {c : Prop} [Decidable c] {x y : Rs α} {x' y' : Rs β} {m : α → β}
    (h1 : c → x' = x.rel g m) (h2 : ¬ c → y' = y.rel g m) : (if c then x' else y') = (if c then x else y).rel g m := by
  split
  · exact h1 ‹_›
  · exact h2 ‹_›

theorem project_e {p q} (h : E g p q) : parseProjectDecl q = (parseProjectDecl p).rel g (·.mapSpan (F g)) := by
  unfold parseProjectDecl
  refine rel_fold h.kids (by rw [h.span]; rfl) ?_
  intro s p q h
  rw [h.rule]
  cases hr : p.rule <;> first | exact rel_rules h | skip
  · exact rel_bind (ident_e h) fun a => rfl
  · refine rel_fold h.kids rfl ?_
    intro s p q h
    rw [h.rule]
    cases hr : p.rule <;> first | exact rel_rules h | skip
    · refine rel_bind (property_e h) fun a => ?_
      show _ = Rs.ok _
      simp only [Rs.pure_def, Rs.ok.injEq, Property.mapSpan, Ident.mapSpan, Literal.mapSpan, ProjectBlock.mapSpan]
      by_cases hk : a.key.to_string = k!"database_type"
      · cases hv : a.value.value <;> simp [hk, hv, Property.mapSpan, Ident.mapSpan, Literal.mapSpan]
      · simp [hk, Property.mapSpan, Ident.mapSpan, Literal.mapSpan]
    · exact rel_bind (noteDecl_e h) fun a => rfl

theorem tableSettings_e {p q} (h : E g p q) :
    parseTableSettings q = (parseTableSettings p).rel g (·.mapSpan (F g)) := by
  unfold parseTableSettings
  refine rel_bind (attrList_e h) fun a => ?_
  simp only [h.span]; rfl

theorem groupSettings_e {p q} (h : E g p q) :
    parseTableGroupSettings q = (parseTableGroupSettings p).rel g (·.mapSpan (F g)) := by
  unfold parseTableGroupSettings
  refine rel_bind (attrList_e h) fun a => ?_
  simp only [h.span]; rfl

theorem typeArg_e {p q} (h : E g p q) : parseColTypeArg q = (parseColTypeArg p).rel g id := by
  unfold parseColTypeArg
  refine rel_fold h.kids rfl ?_
  intro s p q h
  rw [h.rule]
  cases hr : p.rule <;> first | exact rel_rules h | skip
  exact rel_bind (value_e h) fun a => rfl

theorem typeArray_e {p q} (h : E g p q) : parseColTypeArray q = (parseColTypeArray p).rel g id := by
  unfold parseColTypeArray
  refine rel_fold h.kids rfl ?_
  intro s p q h
  rw [h.rule]
  cases hr : p.rule <;> first | exact rel_rules h | skip
  simp only [h.text (leaf! hr)]
  split
  · rfl
  · exact rel_msg h

theorem colType_e {p q} (h : E g p q) (hr : p.rule = .col_type) : parseColType q = (parseColType p).rel g (·.mapSpan (F g)) := by
  have inner : ∀ (sc : Option Ident) (p q : Pair), E g p q → ∀ out : ColumnType,
      List.foldlM (fun (out : ColumnType) (p2 : Pair) =>
          match p2.rule with
          | .var | .spaced_var =>
            Rs.ok { out with type_name := .raw (buildTypeNameWithSchema (sc.map (Ident.mapSpan (F g))) p2) }
          | .col_type_arg => do
            let args ← parseColTypeArg p2
            return { out with args := args }
          | .col_type_array => do
            let val ← parseColTypeArray p2
            return { out with arrays := out.arrays ++ [val] }
          | _ => throwRules [.var, .spaced_var, .col_type_arg, .col_type_array] p2) (out.mapSpan (F g)) q.children =
        (List.foldlM (fun (out : ColumnType) (p2 : Pair) =>
          match p2.rule with
          | .var | .spaced_var =>
            Rs.ok { out with type_name := .raw (buildTypeNameWithSchema sc p2) }
          | .col_type_arg => do
            let args ← parseColTypeArg p2
            return { out with args := args }
          | .col_type_array => do
            let val ← parseColTypeArray p2
            return { out with arrays := out.arrays ++ [val] }
          | _ => throwRules [.var, .spaced_var, .col_type_arg, .col_type_array] p2) out p.children).rel g
          (ColumnType.mapSpan (F g)) := by
    intro sc p q h out
    refine rel_fold h.kids rfl ?_
    intro s p q h
    rw [h.rule]
    cases hr : p.rule <;> first | exact rel_rules h | skip
    · cases sc <;> simp only [buildTypeNameWithSchema, Option.map, h.text (leaf! hr)] <;> rfl
    · cases sc <;> simp only [buildTypeNameWithSchema, Option.map, h.text (leaf! hr)] <;> rfl
    · exact rel_bind (typeArg_e h) fun a => rfl
    · exact rel_bind (typeArray_e h) fun a => rfl
  unfold parseColType
  refine rel_bind (m := Prod.map (ColumnType.mapSpan (F g)) (Option.map (Ident.mapSpan (F g))))
    (rel_fold h.kids (by rw [h.span, h.text (leaf! hr)]; rfl) ?_) fun a => rfl
  rintro ⟨out, sc⟩ p q h
  simp only [Prod.map]
  rw [h.rule]
  cases hr : p.rule <;> first | exact rel_rules h | skip
  · exact rel_bind (ident_e h) fun a => rfl
  · exact rel_bind (inner sc p q h out) fun a => rfl
  · exact rel_bind (inner sc p q h out) fun a => rfl

theorem refIdent_e {p q} (h : E g p q) : parseRefIdent q = (parseRefIdent p).rel g (·.mapSpan (F g)) := by
  unfold parseRefIdent
  refine rel_bind (m := Prod.map (List.map (Ident.mapSpan (F g))) (List.map (Ident.mapSpan (F g))))
    (rel_fold h.kids rfl ?_) ?_
  · rintro ⟨a, b⟩ p q h
    simp only [Prod.map]
    rw [h.rule]
    cases hr : p.rule <;> first | exact rel_rules h | skip
    · exact rel_bind (ident_e h) fun a => by simp [Rs.rel, Prod.map]
    · refine rel_bind (m := List.map (·.mapSpan (F g))) (rel_fold h.kids rfl ?_) fun a => rfl
      intro s p q h
      rw [h.rule]
      cases hr : p.rule <;> first | exact rel_rules h | skip
      exact rel_bind (ident_e h) fun a => by simp [Rs.rel]
  · rintro ⟨_ | ⟨a, _ | ⟨b, _ | ⟨c, l⟩⟩⟩, d⟩ <;> simp only [Prod.map, List.map, h.span] <;> rfl

theorem refInline_e {p q} (h : E g p q) : parseRefInline q = (parseRefInline p).rel g (·.mapSpan (F g)) := by
  unfold parseRefInline
  refine rel_fold h.kids (by rw [h.span]; rfl) ?_
  intro s p q h
  rw [h.rule]
  cases hr : p.rule <;> first | exact rel_rules h | skip
  · simp only [h.text (leaf! hr)]
    split
    · rfl
    · exact rel_msg h
  · exact rel_bind (refIdent_e h) fun a => rfl

theorem applyColAttr_e (s : ColumnSettings) (a : Attribute) :
    applyColAttr (s.mapSpan (F g)) (a.mapSpan (F g)) = (applyColAttr s a).mapSpan (F g) := by
  obtain ⟨sp, ⟨ks, kr, k⟩, v⟩ := a
  by_cases h1 : k = k!"unique"
  · subst h1; simp [applyColAttr, ColumnSettings.mapSpan, Attribute.mapSpan, Ident.mapSpan]
  by_cases h2 : k = k!"primary key" ∨ k = k!"pk"
  · simp [applyColAttr, ColumnSettings.mapSpan, Attribute.mapSpan, Ident.mapSpan, h1, h2]
  by_cases h3 : k = k!"null"
  · subst h3; simp [applyColAttr, ColumnSettings.mapSpan, Attribute.mapSpan, Ident.mapSpan]
  by_cases h4 : k = k!"not null"
  · subst h4; simp [applyColAttr, ColumnSettings.mapSpan, Attribute.mapSpan, Ident.mapSpan]
  by_cases h5 : k = k!"increment"
  · subst h5; simp [applyColAttr, ColumnSettings.mapSpan, Attribute.mapSpan, Ident.mapSpan]
  by_cases h6 : k = k!"default"
  · subst h6; cases v <;> simp [applyColAttr, ColumnSettings.mapSpan, Attribute.mapSpan, Ident.mapSpan, Literal.mapSpan]
  by_cases h7 : k = k!"note"
  · subst h7; cases v <;> simp [applyColAttr, ColumnSettings.mapSpan, Attribute.mapSpan, Ident.mapSpan, Literal.mapSpan]
  simp [applyColAttr, ColumnSettings.mapSpan, Attribute.mapSpan, Ident.mapSpan, h1, h2, h3, h4, h5, h6, h7]

theorem colSettings_e {p q} (h : E g p q) : parseColSettings q = (parseColSettings p).rel g (·.mapSpan (F g)) := by
  unfold parseColSettings
  refine rel_fold h.kids (by rw [h.span]; rfl) ?_
  intro s p q h
  rw [h.rule]
  cases hr : p.rule <;> first | exact rel_rules h | skip
  refine rel_fold h.kids rfl ?_
  intro s p q h
  rw [h.rule]
  cases hr : p.rule <;> first | exact rel_rules h | skip
  · refine rel_bind (attribute_e h) fun a => ?_
    show Rs.ok _ = Rs.ok _
    rw [applyColAttr_e]
  · exact rel_bind (refInline_e h) fun a => by simp [Rs.rel, ColumnSettings.mapSpan]

theorem tableCol_e {p q} (h : E g p q) : parseTableCol q = (parseTableCol p).rel g (·.mapSpan (F g)) := by
  unfold parseTableCol
  refine rel_fold h.kids (by rw [h.span]; rfl) ?_
  intro s p q h
  rw [h.rule]
  cases hr : p.rule <;> first | exact rel_rules h | skip
  · exact rel_bind (ident_e h) fun a => rfl
  · exact rel_bind (colSettings_e h) fun a => rfl
  · exact rel_bind (colType_e h hr) fun a => rfl

theorem applyIndexAttr_e (s : IndexesSettings) (a : Attribute) {p q} (h : E g p q) :
    applyIndexAttr (s.mapSpan (F g)) (a.mapSpan (F g)) q = (applyIndexAttr s a p).rel g (·.mapSpan (F g)) := by
  obtain ⟨sp, ⟨ks, kr, k⟩, v⟩ := a
  by_cases h1 : k = k!"unique"
  · subst h1; simp [applyIndexAttr, IndexesSettings.mapSpan, Attribute.mapSpan, Ident.mapSpan, Rs.rel]
  by_cases h2 : k = k!"pk"
  · subst h2; simp [applyIndexAttr, IndexesSettings.mapSpan, Attribute.mapSpan, Ident.mapSpan, Rs.rel]
  by_cases h3 : k = k!"type"
  · subst h3
    cases v with
    | none => simp [applyIndexAttr, IndexesSettings.mapSpan, Attribute.mapSpan, Ident.mapSpan, Rs.rel]
    | some v =>
      cases hv : IndexesType.fromStr v.value.toStr with
      | some t =>
        simp [applyIndexAttr, IndexesSettings.mapSpan, Attribute.mapSpan, Ident.mapSpan, Literal.mapSpan, Rs.rel, hv]
      | none =>
        simp [applyIndexAttr, IndexesSettings.mapSpan, Attribute.mapSpan, Ident.mapSpan, Literal.mapSpan, Rs.rel, hv,
          throwMsg, PError.mapSpan, h.span]
  by_cases h4 : k = k!"name"
  · subst h4
    cases v <;> simp [applyIndexAttr, IndexesSettings.mapSpan, Attribute.mapSpan, Ident.mapSpan, Literal.mapSpan, Rs.rel]
  by_cases h5 : k = k!"note"
  · subst h5
    cases v <;> simp [applyIndexAttr, IndexesSettings.mapSpan, Attribute.mapSpan, Ident.mapSpan, Literal.mapSpan, Rs.rel]
  simp [applyIndexAttr, IndexesSettings.mapSpan, Attribute.mapSpan, Ident.mapSpan, Rs.rel, h1, h2, h3, h4, h5]

theorem indexesSettings_e {p q} (h : E g p q) :
    parseIndexesSettings q = (parseIndexesSettings p).rel g (·.mapSpan (F g)) := by
  unfold parseIndexesSettings
  refine rel_fold h.kids (by rw [h.span]; rfl) ?_
  intro s p q h
  rw [h.rule]
  cases hr : p.rule <;> first | exact rel_rules h | skip
  exact rel_bind (attribute_e h) fun a => applyIndexAttr_e s a h

theorem indexesIdent_e {p q} (h : E g p q) :
    parseIndexesIdent q = (parseIndexesIdent p).rel g (·.mapSpan (F g)) := by
  unfold parseIndexesIdent
  refine rel_head h.kids ?_
  intro p q h
  rw [h.rule]
  cases hr : p.rule <;> first | exact rel_rules h | skip
  · refine rel_head h.kids ?_
    intro p2 q2 h2
    rw [h2.rule]
    cases hr2 : p2.rule <;> first | exact rel_rules h2 | skip
    simp only [h.text (leaf! hr), h.span, h2.text (leaf! hr2)]; rfl
  · exact rel_bind (ident_e h) fun a => rfl

theorem indexesSingleMulti_e {p q} (h : E g p q) :
    parseIndexesSingleMulti q = (parseIndexesSingleMulti p).rel g (·.mapSpan (F g)) := by
  unfold parseIndexesSingleMulti
  refine rel_fold h.kids (by rw [h.span]; rfl) ?_
  intro s p q h
  rw [h.rule]
  cases hr : p.rule <;> first | exact rel_rules h | skip
  · exact rel_bind (indexesSettings_e h) fun a => rfl
  · exact rel_bind (indexesIdent_e h) fun a => by simp [Rs.rel, IndexesDef.mapSpan]

theorem indexesBlock_e {p q} (h : E g p q) :
    parseIndexesBlock q = (parseIndexesBlock p).rel g (·.mapSpan (F g)) := by
  unfold parseIndexesBlock
  refine rel_fold h.kids (by rw [h.span]; rfl) ?_
  intro s p q h
  rw [h.rule]
  cases hr : p.rule <;> first | exact rel_rules h | skip
  all_goals exact rel_bind (indexesSingleMulti_e h) fun a => by simp [Rs.rel, IndexesBlock.mapSpan]

theorem indexesDecl_e {p q} (h : E g p q) :
    parseIndexesDecl q = (parseIndexesDecl p).rel g (·.mapSpan (F g)) := by
  unfold parseIndexesDecl
  refine rel_head h.kids ?_
  intro p q h
  rw [h.rule]
  cases hr : p.rule <;> first | exact rel_rules h | skip
  exact indexesBlock_e h

theorem tableDecl_e {p q} (h : E g p q) : parseTableDecl q = (parseTableDecl p).rel g (·.mapSpan (F g)) := by
  unfold parseTableDecl
  refine rel_fold h.kids (by rw [h.span]; rfl) ?_
  intro s p q h
  rw [h.rule]
  cases hr : p.rule <;> first | exact rel_rules h | skip
  · exact rel_bind (tableSettings_e h) fun a => rfl
  · exact rel_bind (declIdent_e h) fun a => by rw [h.span]; rfl
  · refine rel_fold h.kids rfl ?_
    intro s p q h
    rw [h.rule]
    cases hr : p.rule <;> first | exact rel_rules h | skip
    · exact rel_bind (noteDecl_e h) fun a => rfl
    · exact rel_bind (indexesDecl_e h) fun a => rfl
    · exact rel_bind (tableCol_e h) fun a => by simp [Rs.rel, TableBlock.mapSpan]
  · refine rel_fold h.kids rfl ?_
    intro s p q h
    rw [h.rule]
    cases hr : p.rule <;> first | exact rel_rules h | skip
    exact rel_bind (ident_e h) fun a => rfl

theorem enumValue_e {p q} (h : E g p q) : parseEnumValue q = (parseEnumValue p).rel g (·.mapSpan (F g)) := by
  unfold parseEnumValue
  refine rel_fold h.kids (by rw [h.span]; rfl) ?_
  intro s p q h
  rw [h.rule]
  cases hr : p.rule <;> first | exact rel_rules h | skip
  · exact rel_bind (ident_e h) fun a => rfl
  · refine rel_bind (m := EnumValueSettings.mapSpan (F g)) (rel_fold h.kids (by rw [h.span]; rfl) ?_) fun a => rfl
    intro s p q h
    rw [h.rule]
    cases hr : p.rule <;> first | exact rel_rules h | skip
    refine rel_bind (attribute_e h) fun a => ?_
    by_cases hk : a.key.to_string = k!"note"
    · simp [hk, Rs.rel, EnumValueSettings.mapSpan, Attribute.mapSpan, Ident.mapSpan, Literal.mapSpan, Function.comp_def]
    · simp [hk, Rs.rel, EnumValueSettings.mapSpan, Attribute.mapSpan, Ident.mapSpan, Literal.mapSpan]

theorem enumBlock_e {p q} (h : E g p q) :
    parseEnumBlock q = (parseEnumBlock p).rel g (List.map (·.mapSpan (F g))) := by
  unfold parseEnumBlock
  refine rel_mapM h.kids ?_
  intro p q h
  rw [h.rule]
  cases hr : p.rule <;> first | exact rel_rules h | skip
  exact enumValue_e h

theorem enumDecl_e {p q} (h : E g p q) : parseEnumDecl q = (parseEnumDecl p).rel g (·.mapSpan (F g)) := by
  unfold parseEnumDecl
  refine rel_fold h.kids (by rw [h.span]; rfl) ?_
  intro s p q h
  rw [h.rule]
  cases hr : p.rule <;> first | exact rel_rules h | skip
  · exact rel_bind (declIdent_e h) fun a => by rw [h.span]; rfl
  · exact rel_bind (enumBlock_e h) fun a => rfl

theorem refAction_e (a : Attribute) {p q} (h : E g p q) :
    refAction (a.mapSpan (F g)) q = (refAction a p).rel g id := by
  rcases a with ⟨sp, k, _ | ⟨s2, raw, v⟩⟩
  · rfl
  · cases v <;> try rfl
    simp only [refAction, Attribute.mapSpan, Option.map_some, Literal.mapSpan]
    split
    · rfl
    · exact rel_msg h

theorem applyRelAttr_e (s : RefSettings) (a : Attribute) {p q} (h : E g p q) :
    applyRelAttr (s.mapSpan (F g)) (a.mapSpan (F g)) q = (applyRelAttr s a p).rel g (·.mapSpan (F g)) := by
  have hk : (a.mapSpan (F g)).key.to_string = a.key.to_string := rfl
  simp only [applyRelAttr, hk]
  refine ite_rel (fun _ => ?_) fun _ => ite_rel (fun _ => ?_) fun _ => ?_
  · refine rel_bind (m := RefSettings.mapSpan (F g)) (rel_bind (refAction_e a h) fun b => rfl) fun b => ?_
    simp [Rs.rel, RefSettings.mapSpan]
  · refine rel_bind (m := RefSettings.mapSpan (F g)) (rel_bind (refAction_e a h) fun b => rfl) fun b => ?_
    simp [Rs.rel, RefSettings.mapSpan]
  · simp [Rs.rel, RefSettings.mapSpan]

theorem relSettings_e {p q} (h : E g p q) : parseRelSettings q = (parseRelSettings p).rel g (·.mapSpan (F g)) := by
  unfold parseRelSettings
  refine rel_fold h.kids (by rw [h.span]; rfl) ?_
  intro s p q h
  rw [h.rule]
  cases hr : p.rule <;> first | exact rel_rules h | skip
  exact rel_bind (attribute_e h) fun a => applyRelAttr_e s a h

theorem refStmt_e {p q} (h : E g p q) : parseRefStmt q = (parseRefStmt p).rel g (·.mapSpan (F g)) := by
  unfold parseRefStmt
  refine rel_fold h.kids (by rw [h.span]; rfl) ?_
  intro s p q h
  rw [h.rule]
  cases hr : p.rule <;> first | exact rel_rules h | skip
  · simp only [h.text (leaf! hr)]
    split
    · rfl
    · exact rel_msg h
  · exact rel_bind (relSettings_e h) fun a => rfl
  · exact rel_bind (refIdent_e h) fun a => ite_rel (fun _ => rfl) fun _ => rfl

theorem refInner_e {ps qs} (hl : EL g ps qs) : ∀ n,
    parseRefInner (Option.map (·.mapSpan (F g)) n) qs =
      (parseRefInner n ps).rel g (Option.map (·.mapSpan (F g))) := by
  induction ps generalizing qs with
  | nil => cases hl; intro n; rfl
  | cons p ps ih =>
    cases hl with
    | cons h hl =>
      intro n
      simp only [parseRefInner]
      rw [h.rule]
      cases hr : p.rule <;> first | exact rel_rules h | skip
      · exact rel_bind (ident_e h) fun a => ih hl (some a)
      · exact rel_bind (refStmt_e h) fun a => rfl

theorem refDecl_e {p q} (h : E g p q) : parseRefDecl q = (parseRefDecl p).rel g (·.mapSpan (F g)) := by
  unfold parseRefDecl
  have : ∀ ps qs, EL g ps qs → parseRefDecl.go qs = (parseRefDecl.go ps).rel g (·.mapSpan (F g)) := by
    intro ps
    induction ps with
    | nil => rintro _ ⟨⟩; rfl
    | cons p ps ih =>
      rintro _ (_ | ⟨h, hl⟩)
      simp only [parseRefDecl.go]
      rw [h.rule]
      cases hr : p.rule <;> first | exact rel_rules h | skip
      all_goals
        refine rel_bind (refInner_e h.kids none) ?_
        rintro (_ | n)
        · exact ih _ hl
        · rfl
  exact this _ _ h.kids

theorem groupDecl_e {p q} (h : E g p q) :
    parseTableGroupDecl q = (parseTableGroupDecl p).rel g (·.mapSpan (F g)) := by
  unfold parseTableGroupDecl
  refine rel_fold h.kids (by rw [h.span]; rfl) ?_
  intro s p q h
  rw [h.rule]
  cases hr : p.rule <;> first | exact rel_rules h | skip
  · exact rel_bind (ident_e h) fun a => rfl
  · exact rel_bind (groupSettings_e h) fun a => rfl
  · refine rel_fold h.kids rfl ?_
    intro s p q h
    rw [h.rule]
    cases hr : p.rule <;> first | exact rel_rules h | skip
    · exact rel_bind (declIdent_e h) fun a => by
        simp [Rs.rel, TableGroupBlock.mapSpan, TableGroupItem.mapSpan, h.span]
    · exact rel_bind (noteDecl_e h) fun a => rfl

/-! ## Whole documents -/

theorem schema_e {ps qs : List Pair} (h : EL g ps qs) {e e' sp sp' t t'} (i i' : Str) :
    parseSchema (.mk .schema sp' t' (qs ++ [.mk .EOI e' [] []])) i' =
      (parseSchema (.mk .schema sp t (ps ++ [.mk .EOI e [] []])) i).rel g
        (fun s => { span_range := sp', input := i', blocks := s.blocks.map (·.mapSpan (F g)) }) := by
  unfold parseSchema
  simp only [Pair.children, Pair.span, List.foldlM_append]
  refine rel_bind (m := fun s : SchemaBlock => { span_range := sp', input := i', blocks := s.blocks.map (·.mapSpan (F g)) })
    (rel_fold h rfl ?_) fun a => rfl
  intro s p q h
  rw [h.rule]
  cases hr : p.rule <;> first | exact rel_rules h | skip
  · exact rel_bind (refDecl_e h) fun a => by simp [Rs.rel, TopLevelBlock.mapSpan]
  · exact rel_bind (noteDecl_e h) fun a => by simp [Rs.rel, TopLevelBlock.mapSpan]
  · exact rel_bind (enumDecl_e h) fun a => by simp [Rs.rel, TopLevelBlock.mapSpan]
  · exact rel_bind (tableDecl_e h) fun a => by simp [Rs.rel, TopLevelBlock.mapSpan]
  · exact rel_bind (groupDecl_e h) fun a => by simp [Rs.rel, TopLevelBlock.mapSpan]
  · exact rel_bind (project_e h) fun a => by simp [Rs.rel, TopLevelBlock.mapSpan]
  · rfl


end Dbml
