import Verif.Proofs.Reading1

/-!
# Reading attributes, notes and projects
-/

namespace Dbml
open Syntax Source

/-! ## Attributes -/

/-- The pair of an attribute value. -/
def ValP : AVal → Pair → Prop
  | .lit l, p => p.rule = .value ∧ p.text = l.text ∧ parseValue p = .ok l.value
  | .word s, p => ∃ sp, p = .mk .spaced_var sp s []
  | .dq s, p => ∃ sp sp', p = .mk .double_quoted_string sp (s.text k!"\"")
      [.mk .double_quoted_value sp' s.val []]

def KeyP (k : Str) (p : Pair) : Prop := ∃ sp, p = .mk .spaced_var sp k []

theorem prefix_word {k s r : Str} (hk : ∀ c ∈ k, IsWord c) (hr : NotW r) (h : k <+: s ++ r) : k <+: s := by
  obtain ⟨t, ht⟩ := h
  rcases List.append_eq_append_iff.1 ht with ⟨v, h1, h2⟩ | ⟨v, h1, h2⟩
  · exact ⟨v, h1.symm⟩
  · cases v with
    | nil => exact ⟨[], by simpa using h1⟩
    | cons c v => exact absurd (hk c (by simp [h1])) (hr c (v ++ t) (by simp [h2]))

theorem fails_value_word {s : Str} {z} (hs : IsSpacedVar s) (h1 : ¬ k!"true" <+: s) (h2 : ¬ k!"false" <+: s)
    (h3 : ¬ k!"null" <+: s) : Fails G.value ({ txt := s, next := .spaced } :: z) := by
  obtain ⟨c, hc, ha⟩ := spaced_hd hs (k := .spaced) z
  have ne : ∀ d : Char, d.isAlpha = false → c ≠ d := fun d => alpha_ne ha
  have hd := digit_false (alpha_not_digit ha)
  refine .rule (.alt (.of_starts (by decide) (by decide) ?_) (.alt (.of_starts (by decide) (by decide) ?_)
    (.alt ?_ (.alt (.of_starts (by decide) (by decide) ?_) (.of_starts (by decide) (by decide) ?_)))))
  · simp [hc, PExpr.starts, G.string_value, G.triple_quoted_string, G.single_quoted_string, PExpr.nonNull, ne]
  · simp [hc, PExpr.starts, G.backquoted_quoted_string, PExpr.nonNull, ne]
  · intro pos t ht
    obtain ⟨r, rfl, haf, ho⟩ := ht.cons
    have hr : NotW r := haf.1.1
    have key : ∀ w : Str, (∀ c ∈ w, IsWord c) → ¬ w <+: s → ∀ a, run G.skip (.str w) a pos (s ++ r) = .fail :=
      fun w hw hn a => str_fail_iff.2 fun h => hn (prefix_word hw hr h)
    have w1 : ∀ c ∈ k!"true", IsWord c := by simp [IsWord]
    have w2 : ∀ c ∈ k!"false", IsWord c := by simp [IsWord]
    have w3 : ∀ c ∈ k!"null", IsWord c := by simp [IsWord]
    exact rule_fail (alt_right' (key _ w1 h1 _) (alt_right' (key _ w2 h2 _) (key _ w3 h3 _)))
  · simp [hc, PExpr.starts, G.number_value, G.decimal, G.integer, G.ASCII_DIGIT, PExpr.nonNull, hd]
  · simp [hc, PExpr.starts, G.hex_value, PExpr.nonNull, ne]

/-- Reading an attribute value. -/
theorem reads_aval {v : AVal} {z} (hv : v.Ok) (hz : LitEnd z) :
    Reads (G.value <//> G.spaced_var <//> G.double_quoted_string) (v.tok :: z) z [ValP v] := by
  cases v with
  | lit l => exact .alt_left (reads_value hv hz)
  | word s =>
    obtain ⟨hs, h1, h2, h3⟩ := hv
    exact .alt_right (fails_value_word hs h1 h2 h3) (.alt_left (reads_spaced hs))
  | dq s =>
    refine .alt_right (.of_starts (by decide) (by decide) rfl) (.alt_right (.of_starts (by decide) (by decide) rfl) ?_)
    exact reads_dq hv

theorem reads_pval {v : AVal} {z} (hv : v.Ok) (hd : ∀ s, v ≠ .dq s) (hz : LitEnd z) :
    Reads (G.value <//> G.spaced_var) (v.tok :: z) z [ValP v] := by
  cases v with
  | lit l => exact .alt_left (reads_value hv hz)
  | word s =>
    obtain ⟨hs, h1, h2, h3⟩ := hv
    exact .alt_right (fails_value_word hs h1 h2 h3) (reads_spaced hs)
  | dq s => exact absurd rfl (hd s)

theorem parseAttribute_key {r sp t k kp} (_hk : IsSpacedVar k) (h : KeyP k kp) :
    ∃ a, parseAttribute (.mk r sp t [kp]) = .ok a ∧ a.mapSpan noPos = Attr.ast ⟨k, none⟩ := by
  obtain ⟨sp', rfl⟩ := h
  exact ⟨_, rfl, rfl⟩

theorem parseAttribute_val {r sp t k kp v vp} (hk : IsSpacedVar k) (h : KeyP k kp) (hv : ValP v vp) :
    ∃ a, parseAttribute (.mk r sp t [kp, vp]) = .ok a ∧ a.mapSpan noPos = Attr.ast ⟨k, some v⟩ := by
  obtain ⟨sp', rfl⟩ := h
  cases v with
  | lit l =>
    obtain ⟨h1, h2, h3⟩ := hv
    refine ⟨_, by walk [parseAttribute, h1, h3]; rfl, ?_⟩
    simp [Attribute.mapSpan, Attr.ast, Literal.mapSpan, AVal.ast, AVal.text, AVal.value, h2]; rfl
  | word s =>
    obtain ⟨sp2, rfl⟩ := hv
    refine ⟨⟨sp, ⟨sp', k, k⟩, some ⟨sp2, s, .enum s⟩⟩, ?_, rfl⟩
    have he : k ≠ [] := by rintro rfl; have := spaced_nonempty hk; simp at this
    simp [parseAttribute, he]
  | dq s =>
    obtain ⟨sp2, sp3, rfl⟩ := hv
    exact ⟨_, rfl, rfl⟩

abbrev AttrP (a : Attr) : Pair → Prop := Yields .attribute parseAttribute (·.mapSpan noPos) a.ast

theorem litEnd_list {z} (h : hd z = some ',' ∨ hd z = some ']') : LitEnd z := by
  intro c hc
  rcases h with h | h <;> rw [h] at hc <;> injection hc with hc <;> subst hc <;> decide

theorem reads_attr {a : Attr} (ha : a.Ok) {z} (hz : hd z = some ',' ∨ hd z = some ']') :
    Reads G.attr (a.toks ++ z) z [AttrP a] := by
  obtain ⟨k, v⟩ := a
  obtain ⟨hk, hv⟩ := ha
  cases v with
  | none =>
    refine Reads.yields ((reads_spaced hk).seq (.opt_none (.seq_left (.of_starts rfl rfl ?_)))) ?_
    · show (hd z == some ':') = false
      rcases hz with h | h <;> rw [h] <;> decide
    · intro sp t ks h
      obtain ⟨p, rfl, h1⟩ := h.one'
      exact parseAttribute_key hk h1
  | some v =>
    refine Reads.yields ((reads_spaced hk).seq (.opt ((reads_str (s := k!":")).seq
      (reads_aval (hv v rfl) (litEnd_list hz))))) ?_
    intro sp t ks h
    obtain ⟨p, qs, rfl, h1, h2⟩ := h.cons'
    obtain ⟨q, rfl, h2'⟩ := AllP.one' h2
    exact parseAttribute_val hk h1 h2'

/-- `[attr, ...]` -/
theorem reads_attrs {as : List Attr} (h : ∀ a ∈ as, a.Ok) (z) :
    Reads (G.bracketed G.attr) (brackets Attr.toks as ++ z) z (as.map AttrP) :=
  reads_brackets as (by decide) (by decide) (by decide) (fun a ha _ hz => reads_attr (h a ha) hz) z

theorem attrList {as : List Attr} {ps} (h : AllP (as.map AttrP) ps) :
    ∃ xs : List Attribute, xs.map (·.mapSpan noPos) = attrsAst as ∧
      ps.mapM (fun p1 => match p1.rule with
        | .attribute => parseAttribute p1
        | _ => throwRules [.attribute] p1) = .ok xs := by
  obtain ⟨xs, h1, h2⟩ := mapM_vals (er := fun a : Attribute => a.mapSpan noPos) (v := Attr.ast) as
    (f := fun p1 => match p1.rule with
        | .attribute => parseAttribute p1
        | _ => throwRules [.attribute] p1)
    (by
      rintro a - p ⟨hr, x, h1, h2⟩
      exact ⟨x, h2, by simp only [hr]; exact h1⟩) h
  exact ⟨xs, h1, h2⟩

/-! ## Notes -/

abbrev NoteP (n : Source.Note) : Pair → Prop := Yields .note_decl parseNoteDecl (·.mapSpan noPos) n.ast

theorem string_ne_quote_hd {z} {c} (h : hd z = some c) (hc : c ≠ '\'') : hd z ≠ some '\'' := by
  rw [h]; simpa using hc

theorem reads_note' {n : Source.Note} (hn : n.Ok) {z} 
    (hz : n.braced = true ∨ n.text.text ≠ k!"''" ∨ hd z ≠ some '\'') :
    Reads G.note_decl (n.toks ++ z) z [NoteP n] := by
  obtain ⟨kw, braced, l⟩ := n
  obtain ⟨hk, hl⟩ := hn
  simp only at hk hl
  cases braced with
  | false =>
    refine Reads.yields (.alt_left (((reads_kw' (k := k!"Note") hk rfl).seq ((reads_str (s := k!":")).seq
      (reads_string' hl fun ht => (hz.resolve_left (by simp)).resolve_left (absurd ht)))).rule)) ?_
    intro sp t ks h
    obtain ⟨⟨r, sp', t', ks'⟩, rfl, h1, h2⟩ := h.one'
    simp only [Pair.rule_mk, Pair.children_mk] at h1 h2
    subst h1
    obtain ⟨q, rfl, h3, h4, h5⟩ := AllP.one' h2
    refine ⟨_, by walk [parseNoteDecl, parseNoteDecl.go, parseNoteInner, h3, h5]; rfl, ?_⟩
    simp [NoteBlock.mapSpan, Literal.mapSpan, Source.Note.ast, StrLit.ast, h4]
  | true =>
    refine Reads.yields (.alt_right (.rule (.seq_right (reads_kw' (k := k!"Note") hk rfl)
      (.seq_left (.of_starts rfl rfl rfl)))) (((reads_kw' (k := k!"Note") hk rfl).seq
        ((reads_str (s := k!"{")).seq ((reads_string hl (string_ne_quote_hd rfl (by decide))).seq
          (reads_str (s := k!"}"))))).rule)) ?_
    intro sp t ks h
    obtain ⟨⟨r, sp', t', ks'⟩, rfl, h1, h2⟩ := h.one'
    simp only [Pair.rule_mk, Pair.children_mk] at h1 h2
    subst h1
    obtain ⟨q, rfl, h3, h4, h5⟩ := AllP.one' h2
    refine ⟨_, by walk [parseNoteDecl, parseNoteDecl.go, parseNoteInner, h3, h5]; rfl, ?_⟩
    simp [NoteBlock.mapSpan, Literal.mapSpan, Source.Note.ast, StrLit.ast, h4]

theorem reads_note {n : Source.Note} (hn : n.Ok) {z} (hz : hd z ≠ some '\'') :
    Reads G.note_decl (n.toks ++ z) z [NoteP n] := reads_note' hn (.inr (.inr hz))

/-- `note_decl` fails on a name, unless the name is `note` and a colon and a string or a brace follow. -/
theorem fails_note {t : Tok} {y} (ht : IsSpacedVar t.txt) (hx : ∀ r, t.next r → NotW r)
    (h1 : Keyword k!"note" t.txt → Fails (.str k!":" ~~ G.string_value) y)
    (h2 : Keyword k!"note" t.txt → hd y ≠ some '{') : Fails G.note_decl (t :: y) := by
  have hk : KwExpr (.insens k!"Note") (Keyword k!"note") := kwExpr_insens rfl (by decide) (by decide)
  refine .rule (.alt (.rule (fails_kw hk ht hx (by decide) (by decide) ?_ h1))
    (.rule (fails_kw hk ht hx (by decide) (by decide) ?_ ?_)))
  · intro c hc
    have : c ≠ ':' := by rintro rfl; simp [IsWord] at hc
    simp [PExpr.starts, PExpr.nonNull, this]
  · intro c hc
    have : c ≠ '{' := by rintro rfl; simp [IsWord] at hc
    simp [PExpr.starts, PExpr.nonNull, this]
  · intro h
    refine .seq_left (.of_starts rfl rfl ?_)
    cases hh : (hd y == some '{') <;> simp_all [PExpr.starts]

/-! ## Projects -/

/-- Up to positions. -/
def ProjItemP : ProjItem → Pair → Prop
  | .note n, p => NoteP n p
  | .prop k v, p => Yields .property parseProperty (·.mapSpan noPos)
      { span_range := .zero, key := keyAst k, value := v.ast } p

theorem reads_prop {k : Str} {v : AVal} (hk : IsSpacedVar k) (hv : v.Ok) (hd : ∀ s, v ≠ .dq s) {z}
    (hz : LitEnd z) :
    Reads G.property (keyTok k :: colon :: v.tok :: z) z [ProjItemP (.prop k v)] := by
  refine Reads.yields ((reads_spaced hk).seq ((reads_str (s := k!":")).seq (reads_pval hv hd hz))) ?_
  intro sp t ks h
  obtain ⟨p, qs, rfl, h1, h2⟩ := h.cons'
  obtain ⟨q, rfl, h2'⟩ := AllP.one' h2
  obtain ⟨a, h3, h4⟩ := parseAttribute_val (r := .property) (sp := sp) (t := t) hk h1 h2'
  unfold parseProperty
  rw [h3]
  cases hav : a.value with
  | none => simp [Attribute.mapSpan, Attr.ast, hav] at h4
  | some l =>
    refine ⟨_, by simp only [Rs.bind_def, Rs.ok_bind, hav, Rs.pure_def]; rfl, ?_⟩
    simp [Attribute.mapSpan, Attr.ast, hav] at h4
    simp [Property.mapSpan, h4]

theorem aval_hd {v : AVal} (hv : v.Ok) (z) :
    ∃ c, hd (v.tok :: z) = some c ∧ (c = '\'' → ∃ l, v = .lit (.str l)) ∧ c ≠ '<' ∧ c ≠ '>' ∧ c ≠ '-' := by
  cases v with
  | dq s => exact ⟨'"', rfl, by simp⟩
  | word s =>
    obtain ⟨c, hc, ha⟩ := spaced_hd hv.1 (k := .spaced) z
    refine ⟨c, hc, fun h => absurd (h ▸ ha) (by decide), alpha_ne ha (by decide), alpha_ne ha (by decide),
      alpha_ne ha (by decide)⟩
  | lit l =>
    cases l with
    | str l => cases l <;> exact ⟨'\'', rfl, fun _ => ⟨_, rfl⟩, by decide, by decide, by decide⟩
    | expr s => exact ⟨'`', rfl, by simp⟩
    | tru => exact ⟨'t', rfl, by simp⟩
    | fls => exact ⟨'f', rfl, by simp⟩
    | null => exact ⟨'n', rfl, by simp⟩
    | hex h => exact ⟨'#', rfl, by simp⟩
    | int ds =>
      obtain ⟨⟨hne, hall⟩, -⟩ := hv
      cases ds with
      | nil => exact absurd rfl hne
      | cons c cs =>
        have hc := hall c (by simp)
        exact ⟨c, rfl, fun h => absurd h (digit_ne hc (by decide)), digit_ne hc (by decide),
          digit_ne hc (by decide), digit_ne hc (by decide)⟩
    | dec x y =>
      obtain ⟨⟨hne, hall⟩, -⟩ := hv
      cases x with
      | nil => exact absurd rfl hne
      | cons c cs =>
        have hc := hall c (by simp)
        exact ⟨c, rfl, fun h => absurd h (digit_ne hc (by decide)), digit_ne hc (by decide),
          digit_ne hc (by decide), digit_ne hc (by decide)⟩

/-- What may follow an item of a block: a name or the closing brace. -/
def ItemEnd (z : List Tok) : Prop := ∃ c, hd z = some c ∧ (c.isAlpha = true ∨ c = '"' ∨ c = '}')

theorem ItemEnd.litEnd {z} (h : ItemEnd z) : LitEnd z := by
  obtain ⟨c, hc, h⟩ := h
  intro d hd
  rw [hc] at hd
  injection hd with hd
  subst hd
  rcases h with h | rfl | rfl
  · exact ⟨alpha_ne h (by decide), alpha_ne h (by decide), alpha_not_digit h⟩
  · decide
  · decide

theorem ItemEnd.ne {z} (h : ItemEnd z) {d : Char} (h1 : d.isAlpha = false) (h2 : d ≠ '"') (h3 : d ≠ '}') :
    hd z ≠ some d := by
  obtain ⟨c, hc, h⟩ := h
  rw [hc]
  rintro e
  injection e with e
  subst e
  rcases h with h | h | h
  · simp [h] at h1
  · exact h2 h
  · exact h3 h

theorem itemEnd_rbrace {z} : ItemEnd (rbrace :: z) := ⟨'}', rfl, .inr (.inr rfl)⟩

theorem keyword_hd {k s : Str} (h : Keyword k s) (hk : k ≠ []) (ha : ∀ c ∈ k, c.isAlpha = true) {kd : Next} (z) :
    ∃ c, hd ({ txt := s, next := kd } :: z) = some c ∧ c.isAlpha = true := var_hd (keyword_var h hk ha) z

theorem note_itemEnd {n : Source.Note} (hn : n.Ok) (z) : ItemEnd (n.toks ++ z) := by
  obtain ⟨c, h1, h2⟩ := keyword_hd hn.1 (by decide) (by decide) (kd := .any) []
  exact ⟨c, h1, .inl h2⟩

theorem note_hd {n : Source.Note} (hn : n.Ok) (z) :
    ∃ c, hd (n.toks ++ z) = some c ∧ c.isAlpha = true := keyword_hd hn.1 (by decide) (by decide) (kd := .any) _

theorem reads_projItem {i : ProjItem} (hi : i.Ok) {z} (hz : ItemEnd z) :
    Reads (G.note_decl <//> G.property) (i.toks ++ z) z [ProjItemP i] := by
  cases i with
  | note n => exact .alt_left (reads_note hi (hz.ne (by decide) (by decide) (by decide)))
  | prop k v =>
    obtain ⟨hk, hv, hd, hn⟩ := hi
    refine .alt_right (fails_note (t := keyTok k) (y := colon :: v.tok :: z) hk (fun _ h => h.1) ?_ ?_) ?_
    · intro hkn
      obtain ⟨c, hc, h1, -⟩ := aval_hd hv z
      have : c ≠ '\'' := fun h => hn ⟨hkn, h1 h⟩
      refine .seq_right (reads_str (s := k!":")) (.of_starts (by decide) (by decide) ?_)
      simp [hc, PExpr.starts, G.string_value, G.triple_quoted_string, G.single_quoted_string, PExpr.nonNull, this]
    · intro _; simp [Dbml.hd, colon]
    · exact reads_prop hk hv hd hz.litEnd

theorem projItem_itemEnd {i : ProjItem} (hi : i.Ok) (z) : ItemEnd (i.toks ++ z) := by
  cases i with
  | note n => exact note_itemEnd hi z
  | prop k v =>
    obtain ⟨c, h1, h2⟩ := spaced_hd hi.1 (k := .spaced) []
    exact ⟨c, h1, .inl h2⟩

end Dbml
