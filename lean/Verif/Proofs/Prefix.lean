import Verif.Proofs.Reading8

/-!
# Words that begin like a literal stop the reading of settings
-/

namespace Dbml
open Syntax Source

/-- After white space a word character comes. -/
def Stuck (r : Str) : Prop := ∃ w c x, r = w ++ (c :: x) ∧ Blank w ∧ IsWord c

theorem Stuck.skip {r : Str} (h : Stuck r) : ∃ w c x, G.skip r = .ok w (c :: x) [] ∧ IsWord c ∧ Solid (c :: x) := by
  obtain ⟨w, c, x, rfl, hw, hc⟩ := h
  have hsol := solid_cons (s := x) (word_not_space hc).1 (word_not_space hc).2
  exact ⟨w, c, x, skip_blank hw hsol, hc, hsol⟩

/-- The expression succeeds on the tokens and a word character is next. -/
def Sticks (e : PExpr) (x : List Tok) : Prop :=
  ∀ pos s, At x s → ∃ c r ps, run G.skip e .nonAtomic pos s = .ok c r ps ∧ Stuck r

theorem Sticks.seq {a b x y Ps} (h1 : Reads a x y Ps) (h2 : Sticks b y) : Sticks (a ~~ b) x := by
  intro pos s hs
  obtain ⟨c1, r1, p1, e1, l1, q1⟩ := h1 pos s hs
  obtain ⟨w, r2, e2, l2, -⟩ := l1.skip
  obtain ⟨c3, r3, p3, e3, l3⟩ := h2 (pos + blen c1 + blen w) r2 l2
  exact ⟨c1 ++ w ++ c3, r3, p1 ++ p3, by simp [run, seqRes, skipIf, e1, e2, e3], l3⟩

theorem Sticks.rule {r e x} (h : Sticks e x) : Sticks (.rule r .normal e) x := by
  intro pos s hs
  obtain ⟨c, rest, ps, h1, h2⟩ := h pos s hs
  exact ⟨c, rest, _, rule_normal (by simp) h1, h2⟩

theorem Sticks.opt {e x} (h : Sticks e x) : Sticks (.opt e) x := by
  intro pos s hs
  obtain ⟨c, rest, ps, h1, h2⟩ := h pos s hs
  exact ⟨c, rest, ps, opt_some h1, h2⟩

theorem Sticks.alt_left {a b x} (h : Sticks a x) : Sticks (a <//> b) x := by
  intro pos s hs
  obtain ⟨c, rest, ps, h1, h2⟩ := h pos s hs
  exact ⟨c, rest, ps, Dbml.alt_left h1, h2⟩

theorem Sticks.alt_right {a b x} (h0 : Fails a x) (h : Sticks b x) : Sticks (a <//> b) x := by
  intro pos s hs
  obtain ⟨c, rest, ps, h1, h2⟩ := h pos s hs
  exact ⟨c, rest, ps, alt_right' (h0 pos s hs) h1, h2⟩

/-- Where something is stuck, what does not start with a word character fails. -/
theorem Stuck.fail {e : PExpr} {r : Str} (h : Stuck r) (hw : e.wf = true) (hn : e.nonNull = true)
    (hs : ∀ c, IsWord c → e.starts (some c) = false) {w r2} (hk : G.skip r = .ok w r2 []) (pos) :
    run G.skip e .nonAtomic pos r2 = .fail := by
  obtain ⟨w', c, x, h1, h2, h3⟩ := h.skip
  rw [h1] at hk
  obtain ⟨-, rfl, -⟩ := Res.ok.inj hk
  exact fail_of_starts hw hn (hs c h2) fun _ => h3

theorem Fails.stuck {a b x} (h : Sticks a x) (hw : b.wf = true) (hn : b.nonNull = true)
    (hs : ∀ c, IsWord c → b.starts (some c) = false) : Fails (a ~~ b) x := by
  intro pos s hx
  obtain ⟨c, r, ps, h1, h2⟩ := h pos s hx
  obtain ⟨w, d, u, h3, -⟩ := h2.skip
  have := h2.fail hw hn hs h3 (pos + blen c + blen w)
  simp [run, seqRes, skipIf, h1, h3, this]

/-- The loop of a repetition ends stuck. -/
def LoopSticks (e : PExpr) (x : List Tok) : Prop :=
  ∀ pos s, Lead x s → ∃ c r ps, Loop (stepOf G.skip e .nonAtomic) pos s c r ps ∧ Stuck r

theorem loop_stuck {e : PExpr} (hw : e.wf = true) (hn : e.nonNull = true)
    (hs : ∀ c, IsWord c → e.starts (some c) = false) {r : Str} (h : Stuck r) (pos) :
    Loop (stepOf G.skip e .nonAtomic) pos r [] r [] := by
  obtain ⟨w, d, u, h3, -⟩ := h.skip
  exact .nil (by simp [stepOf, seqRes, skipIf, h3, h.fail hw hn hs h3])

theorem LoopSticks.last {e x} (hw : e.wf = true) (hn : e.nonNull = true)
    (hs : ∀ c, IsWord c → e.starts (some c) = false) (h : Sticks e x) : LoopSticks e x := by
  intro pos s hx
  obtain ⟨w, r, e1, a1, rfl⟩ := hx.skip
  obtain ⟨c, r2, ps, e2, l2⟩ := h (pos + blen w) r a1
  obtain ⟨he, hm⟩ := run_sound gskip_sound _ _ _ _ _ _ _ e2
  have hc : c ≠ [] := nonNull_consumes _ hn hm
  refine ⟨(w ++ c) ++ [], r2, ps ++ [], .cons ?_ ?_ (by simp [hc]) (loop_stuck hw hn hs l2 _), l2⟩
  · simp [stepOf, seqRes, skipIf, e1, e2]
  · simp [he]

theorem LoopSticks.cons {e x y Ps} (hn : e.nonNull = true) (h1 : Reads e x y Ps) (h2 : LoopSticks e y) :
    LoopSticks e x := by
  intro pos s hs
  obtain ⟨w, r, e1, a1, rfl⟩ := hs.skip
  obtain ⟨c, r2, ps, e2, l2, q2⟩ := h1 (pos + blen w) r a1
  obtain ⟨he, hm⟩ := run_sound gskip_sound _ _ _ _ _ _ _ e2
  have hc : c ≠ [] := nonNull_consumes _ hn hm
  obtain ⟨c', r3, ps', e3, l3⟩ := h2 (pos + blen (w ++ c)) r2 l2
  refine ⟨(w ++ c) ++ c', r3, ps ++ ps', .cons ?_ ?_ (by simp [hc]) e3, l3⟩
  · simp [stepOf, seqRes, skipIf, e1, e2]
  · simp [he]

theorem Sticks.star_cons {e x y Ps} (h1 : Reads e x y Ps) (h2 : LoopSticks e y) : Sticks (.star e) x := by
  intro pos s hs
  obtain ⟨c, r2, ps, e2, l2, q2⟩ := h1 pos s hs
  obtain ⟨c', r3, ps', e3, l3⟩ := h2 (pos + blen c) r2 l2
  exact ⟨c ++ c', r3, ps ++ ps', Dbml.star_cons e2 e3, l3⟩

theorem Sticks.star_last {e x} (hw : e.wf = true) (hn : e.nonNull = true)
    (hs : ∀ c, IsWord c → e.starts (some c) = false) (h : Sticks e x) : Sticks (.star e) x := by
  intro pos s hx
  obtain ⟨c, r2, ps, e2, l2⟩ := h pos s hx
  exact ⟨c ++ [], r2, ps ++ [], Dbml.star_cons e2 (loop_stuck hw hn hs l2 _), l2⟩

/-- `a ~ b*` where `a` gets stuck and `b` does not start with a word character. -/
theorem Sticks.seq_star {a b x} (h : Sticks a x) (hw : b.wf = true) (hn : b.nonNull = true)
    (hs : ∀ c, IsWord c → b.starts (some c) = false) : Sticks (a ~~ .star b) x := by
  intro pos s hx
  obtain ⟨c, r, ps, h1, h2⟩ := h pos s hx
  obtain ⟨w, d, u, h3, h4, -⟩ := h2.skip
  have := h2.fail hw hn hs h3 (pos + blen c + blen w)
  refine ⟨c ++ w ++ [], d :: u, ps ++ [], ?_, [], d, u, rfl, .nil, h4⟩
  simp [run, seqRes, skipIf, h1, h3, this]

/-! ## Values -/

theorem value_like {b u : Str} (hb : b = k!"true" ∨ b = k!"false" ∨ b = k!"null") (pos) :
    ∃ ps, run G.skip G.value .nonAtomic pos (b ++ u) = .ok b u ps := by
  have f1 : ∀ c x, b ++ u = c :: x → c.isAlpha = true →
      run G.skip G.string_value .nonAtomic pos (b ++ u) = .fail ∧
      run G.skip G.backquoted_quoted_string .nonAtomic pos (b ++ u) = .fail := by
    intro c x e hc
    have ne : ∀ d : Char, d.isAlpha = false → c ≠ d := fun d => alpha_ne hc
    have hsol := solid_cons (s := x) (alpha_not_space hc).1 (alpha_not_space hc).2
    rw [e]
    refine ⟨fail_of_starts (by decide) (by decide) ?_ fun _ => hsol,
      fail_of_starts (by decide) (by decide) ?_ fun _ => hsol⟩
    · simp [PExpr.starts, G.string_value, G.triple_quoted_string, G.single_quoted_string, PExpr.nonNull, ne]
    · simp [PExpr.starts, G.backquoted_quoted_string, PExpr.nonNull, ne]
  have f2 : run G.skip G.string_value .nonAtomic pos (b ++ u) = .fail ∧
      run G.skip G.backquoted_quoted_string .nonAtomic pos (b ++ u) = .fail := by
    rcases hb with rfl | rfl | rfl
    · exact f1 't' _ rfl rfl
    · exact f1 'f' _ rfl rfl
    · exact f1 'n' _ rfl rfl
  have f3 : ∃ ps, run G.skip G.boolean_value .nonAtomic pos (b ++ u) = .ok b u ps := by
    rcases hb with rfl | rfl | rfl <;> exact ⟨_, by simp [G.boolean_value, run, stripPrefix]; rfl⟩
  obtain ⟨ps, f3⟩ := f3
  exact ⟨_, rule_normal na (alt_right' f2.1 (alt_right' f2.2 (Dbml.alt_left f3)))⟩

/-- A longer word that begins like a literal: the literal is taken, and the rest of the word is next. -/
theorem sticks_value {w : Str} (hw : IsSpacedVar w) {b : Str} (hb : b = k!"true" ∨ b = k!"false" ∨ b = k!"null")
    (hp : b <+: w) (hne : w ≠ b) {k : Next} {z} {e : PExpr} : Sticks (G.value <//> e) ({ txt := w, next := k } :: z) := by
  refine .alt_left ?_
  intro pos s hs
  obtain ⟨r, rfl, -, -⟩ := hs.cons
  obtain ⟨u, hu⟩ := hp
  have hbne : b ≠ [] := by rcases hb with rfl | rfl | rfl <;> simp
  obtain ⟨ps, h1⟩ := value_like (u := u ++ r) hb pos
  refine ⟨b, u ++ r, ps, by simpa [← hu] using h1, ?_⟩
  rcases spaced_suffix hw b u hu.symm hbne with rfl | ⟨c, x, rfl, hc⟩ | ⟨c, x, rfl, hc⟩
  · simp at hu; exact absurd hu.symm hne
  · exact ⟨[], c, x ++ r, rfl, .nil, hc⟩
  · exact ⟨[' '], c, x ++ r, rfl, .space (by simp [IsSpace]) .nil, hc⟩

theorem sticks_attr {key w : Str} (hk : IsSpacedVar key) (hw : IsSpacedVar w) {b : Str}
    (hb : b = k!"true" ∨ b = k!"false" ∨ b = k!"null") (hp : b <+: w) (hne : w ≠ b) {k : Next} {z} :
    Sticks G.attr (keyTok key :: colon :: { txt := w, next := k } :: z) :=
  .rule (.seq (reads_spaced hk) (.opt (.seq (reads_str (s := k!":")) (sticks_value hw hb hp hne))))

theorem sticks_colAttr {key w : Str} (hk : IsSpacedVar key) (hw : IsSpacedVar w) {b : Str}
    (hb : b = k!"true" ∨ b = k!"false" ∨ b = k!"null") (hp : b <+: w) (hne : w ≠ b) {k : Next} {z} :
    Sticks G.col_attribute (keyTok key :: colon :: { txt := w, next := k } :: z) := by
  refine .rule (.alt_right ?_ (sticks_attr hk hw hb hp hne))
  have hkw : KwExpr (.str k!"ref") (· = k!"ref") := kwExpr_str (by decide) (by simp [IsWord])
  refine .rule (fails_kw (t := keyTok key) hkw hk (fun _ h => h.1) (by decide) (by decide) ?_ ?_)
  · intro c hc
    have : c ≠ ':' := by rintro rfl; simp [IsWord] at hc
    simp [PExpr.starts, PExpr.nonNull, this]
  · intro _
    obtain ⟨c, hc, ha⟩ := spaced_hd hw (k := k) z
    have ne : ∀ d : Char, d.isAlpha = false → c ≠ d := fun d => alpha_ne ha
    refine .seq_right (reads_str (s := k!":")) (.seq_left (.of_starts (by decide) (by decide) ?_))
    simp [hc, PExpr.starts, G.relation, ne]

/-! ## Settings lists -/

/-- A settings list with good items and then an item that gets stuck. -/
theorem fails_bracketed {α : Type} {item : PExpr} {f : α → List Tok} {P : α → Pair → Prop} (xs : List α)
    (hw : item.wf = true) (hn : item.nonNull = true)
    (h : ∀ y ∈ xs, ∀ z, hd z = some ',' ∨ hd z = some ']' → Reads item (f y ++ z) z [P y]) {z : List Tok}
    (hz : Sticks item z) : Fails (G.bracketed item) (lbrack :: (xs.flatMap (fun x => f x ++ [comma]) ++ z)) := by
  have ncomma : ∀ c, IsWord c → (PExpr.seq (.str k!",") item).starts (some c) = false := by
    intro c hc
    have : c ≠ ',' := by rintro rfl; simp [IsWord] at hc
    simp [PExpr.starts, PExpr.nonNull, this]
  have nbrack : ∀ c, IsWord c → (PExpr.str k!"]").starts (some c) = false := by
    intro c hc
    have : c ≠ ']' := by rintro rfl; simp [IsWord] at hc
    simp [PExpr.starts, this]
  have loop : ∀ xs : List α, (∀ y ∈ xs, ∀ z, hd z = some ',' ∨ hd z = some ']' → Reads item (f y ++ z) z [P y]) →
      LoopSticks (.str k!"," ~~ item) (comma :: (xs.flatMap (fun x => f x ++ [comma]) ++ z)) := by
    intro xs
    induction xs with
    | nil =>
      intro _
      exact .last (by simp [PExpr.wf, hw]) (by simp [PExpr.nonNull]) ncomma (.seq (reads_str (s := k!",")) hz)
    | cons x xs ih =>
      intro h
      have h1 := Reads.seq (reads_str (s := k!",") (k := .any)) (h x (by simp)
        (comma :: (xs.flatMap (fun x => f x ++ [comma]) ++ z)) (.inl rfl))
      have := LoopSticks.cons (by simp [PExpr.nonNull]) h1 (ih fun y hy => h y (by simp [hy]))
      simpa [comma] using this
  have main : Sticks (item ~~ .star (.str k!"," ~~ item)) (xs.flatMap (fun x => f x ++ [comma]) ++ z) := by
    cases xs with
    | nil => exact .seq_star hz (by simp [PExpr.wf, hw]) (by simp [PExpr.nonNull]) ncomma
    | cons x xs =>
      have h1 := h x (by simp) (comma :: (xs.flatMap (fun x => f x ++ [comma]) ++ z)) (.inl rfl)
      have h2 := loop xs fun y hy => h y (by simp [hy])
      have h3 : Sticks (.star (.str k!"," ~~ item)) (comma :: (xs.flatMap (fun x => f x ++ [comma]) ++ z)) := by
        cases xs with
        | nil => exact .star_last (by simp [PExpr.wf, hw]) (by simp [PExpr.nonNull]) ncomma (.seq (reads_str (s := k!",")) hz)
        | cons y ys =>
          have h4 := Reads.seq (reads_str (s := k!",") (k := .any)) (h y (by simp)
            (comma :: (ys.flatMap (fun x => f x ++ [comma]) ++ z)) (.inl rfl))
          have := Sticks.star_cons h4 (loop ys fun y hy => h y (by simp [hy]))
          simpa [comma] using this
      have := Sticks.seq h1 h3
      simpa using this
  exact .seq_right (reads_str (s := k!"[")) (.stuck (.opt main) rfl rfl nbrack)

/-! ## Tables and documents -/

/-- The tokens of a table up to the opening brace. -/
def Source.Table.headToks (t : Table) : List Tok :=
  { txt := t.kw } :: (qualToks t.schema t.name ++ (t.aliasToks ++ (optBrackets Attr.toks t.settings ++ [lbrace])))

/-- A table whose items are read up to a point where neither an item nor the closing brace follows. -/
theorem fails_table {t : Table} (ht : t.Ok) {x y : List Tok} {Ps}
    (hr : Reads (.star (G.table_col <//> G.note_decl <//> G.indexes_decl)) x y Ps)
    (hy : hd y ≠ some '}') : Fails G.table_decl (t.headToks ++ x) := by
  obtain ⟨hk, hs, hn, hal, hset, hits⟩ := ht
  have hst := reads_optBrackets (r := .block_settings) (item := G.attr) (f := Attr.toks)
    (P := fun p => p.rule = .block_settings ∧ ∃ xs : List Attribute, parseAttrList p = .ok xs ∧
        xs.map (·.mapSpan noPos) = attrsAst (t.settings.getD []))
    t.settings (lbrace :: x) (by simp [hd, lbrace])
    (by intro as has; rw [has]; exact reads_block_settings (hset as has) _)
  have halr := reads_alias hal (optBrackets_hd (f := Attr.toks) t.settings x)
  have hdecl := reads_decl hs hn (aliasToks_hd hal '.' (by decide) (z := optBrackets Attr.toks t.settings ++
    lbrace :: x) (by
      rcases optBrackets_hd (f := Attr.toks) t.settings x with h | h <;> rw [h] <;> decide))
  have hend : Fails (.str k!"}") y := by
    refine .of_starts rfl rfl ?_
    cases hh : (hd y == some '}') <;> simp_all [PExpr.starts]
  have h : Fails G.table_block (lbrace :: x) :=
    .rule (.seq_right (reads_str (s := k!"{") (k := .any)) (.seq_right hr hend))
  have := Fails.seq_right (reads_kw' (k := k!"Table ") (kd := .any) hk rfl) (.seq_right hdecl (.seq_right halr (.seq_right hst h)))
  simp only [Source.Table.headToks, List.cons_append, List.append_assoc, List.nil_append]
  exact .rule this

theorem fails_group_table {s : Str} (h : Keyword k!"table " s) {kd : Next} {y} :
    Fails G.table_group_decl ({ txt := s, next := kd } :: y) := by
  intro pos t ht
  obtain ⟨r, rfl, -, -⟩ := ht.cons
  refine rule_fail (seq_fail_left ?_)
  unfold Keyword at h
  match s, h with
  | a :: b :: c :: d :: e :: f :: u, h =>
    simp only [List.map_cons, List.cons.injEq] at h
    have hf : lowerC f = ' ' := h.2.2.2.2.2.1
    have : asciiLower 'G' ≠ asciiLower f := by rw [asciiLower_eq f, hf]; decide
    simp only [run, List.cons_append, stripPrefixCI]
    simp [this]
  | [], h | [_], h | [_, _], h | [_, _, _], h | [_, _, _, _], h | [_, _, _, _, _], h => simp at h

/-- A top-level declaration that starts as a table can only be a table. -/
theorem fails_top_table {s : Str} (h : Keyword k!"table " s) {kd : Next} {y}
    (ht : Fails G.table_decl ({ txt := s, next := kd } :: y)) : Fails G.top_decl ({ txt := s, next := kd } :: y) := by
  obtain ⟨c, hc, hl⟩ := kw_hd h kd y
  have hl : asciiLower c = 't' := hl
  refine .alt (fails_letter (by decide) (by decide) hc hl fun hs e => ?_) (.alt ht
    (.alt (fails_letter (by decide) (by decide) hc hl fun hs e => ?_)
    (.alt (fails_letter (by decide) (by decide) hc hl fun hs e => ?_) (.alt (fails_group_table h)
    (fails_letter (by decide) (by decide) hc hl fun hs e => ?_)))))
  · rw [starts_project hs] at e; exact absurd e (by decide)
  · rw [starts_enum hs] at e; exact absurd e (by decide)
  · rw [starts_ref hs] at e; exact absurd e (by decide)
  · rw [starts_note hs] at e; exact absurd e (by decide)

/-- A document followed by something that is not a declaration is a syntax error. -/
theorem rejects_doc {d : Doc} (hd' : d.Ok) {x : List Tok} (hx : Fails G.top_decl x) (he : TopEnd x) (hne : x ≠ [])
    (ho : ToksOk x) {txt : Str} (h : Written (d.toks ++ x) txt) : parseDbmlUnchecked txt = .err .syntax := by
  have hr := star_items (e := G.top_decl) (F := TopEnd) (by decide) (z := x) hx he d
    (fun b hb y hy => reads_block (hd' b hb) hy) (fun b hb y => block_topEnd (hd' b hb) y)
  obtain ⟨w, r, h1, h2, -⟩ := (written_lead (toksOk_append (toksOk_doc hd') ho) h).skip
  have h2' : At (d.flatMap (·.toks) ++ x) r := h2
  obtain ⟨c, r2, ks, h3, h4, h5⟩ := hr (0 + blen [] + blen w) r h2'
  obtain ⟨w2, r3, h6, h7, -⟩ := h4.skip
  have hr3 : r3 ≠ [] := by
    rintro rfl
    cases x with
    | nil => exact hne rfl
    | cons t x =>
      obtain ⟨r, e, -⟩ := h7.cons
      obtain ⟨c, cs, e2, -⟩ := ho t (by simp)
      simp [e2] at e
  have : pestParse txt = .fail := by
    have e3 : ∀ p, run G.skip .eoi .nonAtomic p r3 = .fail := by
      intro p
      cases r3 with
      | nil => exact absurd rfl hr3
      | cons a b => rfl
    unfold pestParse G.schema
    refine rule_fail ?_
    have e0 : run G.skip .soi .nonAtomic 0 txt = .ok [] txt [] := by simp [run]
    rw [run, bodyAtomicity, e0]
    simp only [seqRes, skipIf, h1]
    rw [run, h3]
    simp [seqRes, skipIf, h6, e3]
  simp [parseDbmlUnchecked, this]

end Dbml
