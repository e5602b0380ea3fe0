import Verif.Proofs.Reading7
import Verif.Proofs.Read

/-!
# Reading documents
-/

namespace Dbml
open Syntax Source

/-! ## Tokens of well-formed documents -/

abbrev ToksOk (ts : List Tok) : Prop := ∀ t ∈ ts, TokOk t

theorem toksOk_append {a b : List Tok} (h1 : ToksOk a) (h2 : ToksOk b) : ToksOk (a ++ b) := by
  intro t ht
  rcases List.mem_append.1 ht with h | h
  · exact h1 t h
  · exact h2 t h

theorem toksOk_cons {a : Tok} {b : List Tok} (h1 : TokOk a) (h2 : ToksOk b) : ToksOk (a :: b) := by
  intro t ht
  rcases List.mem_cons.1 ht with rfl | h
  · exact h1
  · exact h2 t h

theorem toksOk_nil : ToksOk [] := by intro t ht; simp at ht

theorem toksOk_flatMap {α : Type} {f : α → List Tok} {xs : List α} (h : ∀ x ∈ xs, ToksOk (f x)) :
    ToksOk (xs.flatMap f) := by
  intro t ht
  obtain ⟨x, hx, ht⟩ := List.mem_flatMap.1 ht
  exact h x hx t ht

theorem toksOk_commaSep {α : Type} {f : α → List Tok} {xs : List α} (h : ∀ x ∈ xs, ToksOk (f x)) :
    ToksOk (commaSep f xs) := by
  cases xs with
  | nil => exact toksOk_nil
  | cons x xs =>
    exact toksOk_append (h x (by simp)) (toksOk_flatMap fun y hy =>
      toksOk_cons (tokOk_of (c := ',') (cs := []) rfl (by decide)) (h y (by simp [hy])))

theorem toksOk_brackets {α : Type} {f : α → List Tok} {xs : List α} (h : ∀ x ∈ xs, ToksOk (f x)) :
    ToksOk (brackets f xs) :=
  toksOk_cons (tokOk_of (c := '[') (cs := []) rfl (by decide)) (toksOk_append (toksOk_commaSep h)
    (toksOk_cons (tokOk_of (c := ']') (cs := []) rfl (by decide)) toksOk_nil))

theorem toksOk_optBrackets {α : Type} {f : α → List Tok} {o : Option (List α)}
    (h : ∀ xs, o = some xs → ∀ x ∈ xs, ToksOk (f x)) : ToksOk (optBrackets f o) := by
  cases o with
  | none => exact toksOk_nil
  | some xs => exact toksOk_brackets (h xs rfl)

theorem tokOk_alpha {t : Tok} {c cs} (h : t.txt = c :: cs) (hc : c.isAlpha = true) : TokOk t :=
  tokOk_of h (alpha_not_space hc)

theorem tokOk_kw {k : Char} {ks s : Str} (hk : k.isAlpha = true) (h : Keyword (k :: ks) s) {kd : Next} :
    TokOk { txt := s, next := kd } := by
  unfold Keyword at h
  cases s with
  | nil => simp at h
  | cons c cs => exact tokOk_alpha rfl (lowerC_alpha (List.cons.inj h).1 hk)

theorem tokOk_name {n : Name} (h : n.Ok) : TokOk n.tok := by
  cases n with
  | word s => obtain ⟨c, cs, rfl, hc, -⟩ := h; exact tokOk_alpha rfl hc
  | quoted s => exact tokOk_of (c := '"') (cs := _) rfl (by decide)

theorem tokOk_key {k : Str} (h : IsSpacedVar k) {kd : Next} : TokOk { txt := k, next := kd } := by
  obtain ⟨c, cs, rfl, hc, -⟩ := h
  exact tokOk_alpha rfl hc

theorem tokOk_str (l : StrLit) : TokOk l.tok := by
  cases l <;> exact tokOk_of (c := '\'') (cs := _) rfl (by decide)

theorem lit_head {l : Lit} (h : l.Ok) : ∃ c cs, l.text = c :: cs ∧ ¬ IsSpace c ∧ c ≠ '/' := by
  cases l with
  | str l => cases l <;> exact ⟨'\'', _, rfl, by decide, by decide⟩
  | expr s => exact ⟨'`', _, rfl, by decide, by decide⟩
  | tru => exact ⟨'t', _, rfl, by decide, by decide⟩
  | fls => exact ⟨'f', _, rfl, by decide, by decide⟩
  | null => exact ⟨'n', _, rfl, by decide, by decide⟩
  | hex h => exact ⟨'#', _, rfl, by decide, by decide⟩
  | int ds =>
    obtain ⟨⟨hne, hall⟩, -⟩ := h
    cases ds with
    | nil => exact absurd rfl hne
    | cons c cs => exact ⟨c, cs, rfl, digit_not_space (hall c (by simp))⟩
  | dec a b =>
    obtain ⟨⟨hne, hall⟩, -⟩ := h
    cases a with
    | nil => exact absurd rfl hne
    | cons c cs => exact ⟨c, _, rfl, digit_not_space (hall c (by simp))⟩

theorem tokOk_aval {v : AVal} (h : v.Ok) : TokOk v.tok := by
  cases v with
  | lit l => obtain ⟨c, cs, e, h⟩ := lit_head h; exact tokOk_of e h
  | word s => exact tokOk_key h.1
  | dq s => exact tokOk_of (c := '"') (cs := _) rfl (by decide)

theorem tokOk_colon : TokOk colon := tokOk_of (c := ':') (cs := []) rfl (by decide)
theorem tokOk_dot : TokOk dot := tokOk_of (c := '.') (cs := []) rfl (by decide)
theorem tokOk_lbrace : TokOk lbrace := tokOk_of (c := '{') (cs := []) rfl (by decide)
theorem tokOk_rbrace : TokOk rbrace := tokOk_of (c := '}') (cs := []) rfl (by decide)
theorem tokOk_lparen : TokOk lparen := tokOk_of (c := '(') (cs := []) rfl (by decide)
theorem tokOk_rparen : TokOk rparen := tokOk_of (c := ')') (cs := []) rfl (by decide)

theorem toksOk_one {a : Tok} (h : TokOk a) : ToksOk [a] := toksOk_cons h toksOk_nil

theorem toksOk_attr {a : Attr} (h : a.Ok) : ToksOk a.toks := by
  obtain ⟨k, v⟩ := a
  obtain ⟨h1, h2⟩ := h
  refine toksOk_cons (tokOk_key h1) ?_
  cases v with
  | none => exact toksOk_nil
  | some v => exact toksOk_cons tokOk_colon (toksOk_one (tokOk_aval (h2 v rfl)))

theorem toksOk_note {n : Source.Note} (h : n.Ok) : ToksOk n.toks := by
  refine toksOk_cons (tokOk_kw (by decide) h.1) ?_
  cases n.braced with
  | true => exact toksOk_cons tokOk_lbrace (toksOk_cons (tokOk_str _) (toksOk_one tokOk_rbrace))
  | false => exact toksOk_cons tokOk_colon (toksOk_one (tokOk_str _))

theorem toksOk_body {α : Type} {f : α → List Tok} {xs : List α} (h : ∀ x ∈ xs, ToksOk (f x)) :
    ToksOk (lbrace :: (xs.flatMap f ++ [rbrace])) :=
  toksOk_cons tokOk_lbrace (toksOk_append (toksOk_flatMap h) (toksOk_one tokOk_rbrace))

theorem toksOk_project {p : Source.Project} (h : p.Ok) : ToksOk p.toks := by
  obtain ⟨h1, h2, h3⟩ := h
  refine toksOk_cons (tokOk_kw (by decide) h1) (toksOk_cons (tokOk_name h2) (toksOk_body fun i hi => ?_))
  have := h3 i hi
  cases i with
  | note n => exact toksOk_note this
  | prop k v => exact toksOk_cons (tokOk_key this.1) (toksOk_cons tokOk_colon (toksOk_one (tokOk_aval this.2.1)))

theorem toksOk_qual {s : Option Name} {n : Name} (h1 : ∀ x, s = some x → x.Ok) (h2 : n.Ok) : ToksOk (qualToks s n) := by
  cases s with
  | none => exact toksOk_one (tokOk_name h2)
  | some s => exact toksOk_cons (tokOk_name (h1 s rfl)) (toksOk_cons tokOk_dot (toksOk_one (tokOk_name h2)))

theorem toksOk_rend {r : REnd} (h : r.Ok) : ToksOk r.toks := by
  obtain ⟨h1, h2, h3⟩ := h
  refine toksOk_append (toksOk_qual h1 h2) (toksOk_cons tokOk_dot ?_)
  cases hc : r.cols with
  | one n => exact toksOk_one (tokOk_name (h3 n (by simp [hc, Comp.names])))
  | many n ns =>
    refine toksOk_cons tokOk_lparen (toksOk_append (toksOk_commaSep fun m hm => toksOk_one (tokOk_name (h3 m ?_)))
      (toksOk_one tokOk_rparen))
    simpa [hc, Comp.names] using hm

theorem tokOk_rel {r : Relation} (h : r ≠ .undef) : TokOk (relTok r) := by
  cases r <;> first | exact absurd rfl h | exact tokOk_of (c := _) (cs := _) rfl (by decide)

theorem toksOk_ref {r : Source.Ref} (h : r.Ok) : ToksOk r.toks := by
  obtain ⟨h1, h2, h3, h4, h5, h6⟩ := h
  have hst : ToksOk r.stmtToks := toksOk_append (toksOk_rend h3) (toksOk_cons (tokOk_rel h4)
    (toksOk_append (toksOk_rend h5) (toksOk_optBrackets fun xs hxs x hx => toksOk_attr ((h6 xs hxs).1 x hx))))
  refine toksOk_cons (tokOk_kw (by decide) h1) (toksOk_append ?_ ?_)
  · cases hn : r.name with
    | none => exact toksOk_nil
    | some n => exact toksOk_one (tokOk_name (h2 n hn))
  · cases r.braced with
    | true => exact toksOk_cons tokOk_lbrace (toksOk_append hst (toksOk_one tokOk_rbrace))
    | false => exact toksOk_cons tokOk_colon hst

theorem tokOk_icol {c : ICol} (h : c.Ok) : TokOk c.tok := by
  cases c with
  | name n => exact tokOk_name h
  | expr s => exact tokOk_of (c := '`') (cs := _) rfl (by decide)

theorem toksOk_idxs {i : Idxs} (h : i.Ok) : ToksOk i.toks := by
  refine toksOk_cons (tokOk_kw (by decide) h.1) (toksOk_body fun d hd => ?_)
  obtain ⟨h1, h2⟩ := h.2 d hd
  have hset : ToksOk (optBrackets Attr.toks d.settings) :=
    toksOk_optBrackets fun xs hxs x hx => toksOk_attr ((h2 xs hxs).1 x hx)
  cases d with
  | single c s => exact toksOk_cons (tokOk_icol (h1 c (by simp [IDef.cols]))) hset
  | multi cs s =>
    exact toksOk_cons tokOk_lparen (toksOk_append (toksOk_commaSep fun c hc => toksOk_one (tokOk_icol (h1 c hc)))
      (toksOk_cons tokOk_rparen hset))

theorem toksOk_enum {e : Source.Enum} (h : e.Ok) : ToksOk e.toks := by
  obtain ⟨h1, h2, h3, h4⟩ := h
  refine toksOk_cons (tokOk_kw (by decide) h1) (toksOk_append (toksOk_qual h2 h3) (toksOk_body fun v hv => ?_))
  obtain ⟨h5, h6⟩ := h4 v hv
  exact toksOk_cons (tokOk_name h5) (toksOk_optBrackets fun xs hxs x hx => toksOk_attr (h6 xs hxs x hx))

theorem body_head {b : TBody} (h : b.Ok) : ∃ c cs, b.text = c :: cs ∧ ¬ IsSpace c ∧ c ≠ '/' := by
  cases b with
  | plain n a xs =>
    obtain ⟨⟨c, cs, rfl, hc, -⟩, -⟩ := h
    exact ⟨c, _, rfl, alpha_not_space hc⟩
  | quoted n a xs ys => exact ⟨'"', _, rfl, by decide, by decide⟩

theorem tokOk_type {t : Ty} (h : t.Ok) : TokOk t.tok := by
  obtain ⟨sc, b⟩ := t
  cases sc with
  | none => obtain ⟨c, cs, e, h⟩ := body_head h.2.1; exact tokOk_of e h
  | some s =>
    obtain ⟨c, cs, h1, h2⟩ : ∃ c cs, s.text = c :: cs ∧ ¬ IsSpace c ∧ c ≠ '/' := by
      have := h.1 s rfl
      cases s with
      | word w => obtain ⟨c, cs, rfl, hc, -⟩ := this; exact ⟨c, cs, rfl, alpha_not_space hc⟩
      | quoted x => exact ⟨'"', _, rfl, by decide, by decide⟩
    exact tokOk_of (cs := cs ++ ('.' :: b.text)) (by simp [Ty.tok, Ty.text, h1]) h2

theorem toksOk_col {c : Col} (h : c.Ok) : ToksOk c.toks := by
  obtain ⟨h1, h2, h3⟩ := h
  refine toksOk_cons (tokOk_name h1) (toksOk_cons (tokOk_type h2) (toksOk_optBrackets fun xs hxs x hx => ?_))
  have := h3 xs hxs x hx
  cases x with
  | attr a => exact toksOk_attr this
  | ref r =>
    exact toksOk_cons (tokOk_of (c := 'r') (cs := _) rfl (by decide)) (toksOk_cons tokOk_colon (toksOk_cons (tokOk_rel this.1)
      (toksOk_rend this.2)))

theorem toksOk_table {t : Table} (h : t.Ok) : ToksOk t.toks := by
  obtain ⟨h1, h2, h3, h4, h5, h6⟩ := h
  refine toksOk_cons (tokOk_kw (by decide) h1) (toksOk_append (toksOk_qual h2 h3) (toksOk_append ?_
    (toksOk_append (toksOk_optBrackets fun xs hxs x hx => toksOk_attr (h5 xs hxs x hx)) (toksOk_body fun i hi => ?_))))
  · unfold Table.aliasToks
    cases ha : t.alias with
    | none => exact toksOk_nil
    | some a => exact toksOk_cons (tokOk_kw (by decide) (h4 a ha).1) (toksOk_one (tokOk_name (h4 a ha).2))
  · have := h6 i hi
    cases i with
    | col c => exact toksOk_col this
    | note n => exact toksOk_note this
    | indexes i => exact toksOk_idxs this

theorem toksOk_group {g : Group} (h : g.Ok) : ToksOk g.toks := by
  obtain ⟨h1, h2, h3, h4⟩ := h
  refine toksOk_cons (tokOk_kw (by decide) h1) (toksOk_cons (tokOk_name h2) (toksOk_append
    (toksOk_optBrackets fun xs hxs x hx => toksOk_attr (h3 xs hxs x hx)) (toksOk_body fun i hi => ?_)))
  have := h4 i hi
  cases i with
  | note n => exact toksOk_note this
  | item s n => exact toksOk_qual this.1 this.2

theorem toksOk_block {b : Block} (h : b.Ok) : ToksOk b.toks := by
  cases b with
  | project p => exact toksOk_project h
  | table p => exact toksOk_table h
  | group p => exact toksOk_group h
  | note p => exact toksOk_note h
  | ref p => exact toksOk_ref h
  | enum p => exact toksOk_enum h

theorem toksOk_doc {d : Doc} (h : d.Ok) : ToksOk d.toks := toksOk_flatMap fun b hb => toksOk_block (h b hb)

/-! ## Choosing the declaration -/

/-- The first letter of the keyword of a declaration. -/
def Source.Block.letter : Block → Char
  | .project _ => 'p'
  | .table _ => 't'
  | .group _ => 't'
  | .note _ => 'n'
  | .ref _ => 'r'
  | .enum _ => 'e'

theorem kw_hd {k : Char} {ks s : Str} (h : Keyword (k :: ks) s) (kd : Next) (z) :
    ∃ c, hd ({ txt := s, next := kd } :: z) = some c ∧ asciiLower c = lowerC k := by
  unfold Keyword at h
  cases s with
  | nil => simp at h
  | cons c cs => exact ⟨c, rfl, by rw [asciiLower_eq]; exact (List.cons.inj h).1⟩

theorem block_hd {b : Block} (h : b.Ok) (z) : ∃ c, hd (b.toks ++ z) = some c ∧ asciiLower c = b.letter := by
  cases b with
  | project p => exact kw_hd h.1 .any _
  | table p => exact kw_hd h.1 .any _
  | group p => exact kw_hd h.1 .any _
  | note p => exact kw_hd h.1 .any _
  | ref p => exact kw_hd h.1 .any _
  | enum p => exact kw_hd h.1 .any _

theorem fails_letter {e : PExpr} (hw : e.wf = true) (hn : e.nonNull = true) {x : List Tok} {c k : Char}
    (h : hd x = some c) (hc : asciiLower c = k) (hs : e.starts (some c) = true → asciiLower c ≠ k) : Fails e x := by
  refine .of_starts hw hn ?_
  rw [h]
  cases he : e.starts (some c) with
  | false => rfl
  | true => exact absurd hc (hs he)

theorem starts_project {c : Char} (h : G.project_decl.starts (some c) = true) : asciiLower c = 'p' := by
  simp [G.project_decl, PExpr.starts, PExpr.nonNull] at h
  exact h.symm
theorem starts_table {c : Char} (h : G.table_decl.starts (some c) = true) : asciiLower c = 't' := by
  simp [G.table_decl, PExpr.starts, PExpr.nonNull] at h
  exact h.symm
theorem starts_group {c : Char} (h : G.table_group_decl.starts (some c) = true) : asciiLower c = 't' := by
  simp [G.table_group_decl, PExpr.starts, PExpr.nonNull] at h
  exact h.symm
theorem starts_enum {c : Char} (h : G.enum_decl.starts (some c) = true) : asciiLower c = 'e' := by
  simp [G.enum_decl, PExpr.starts, PExpr.nonNull] at h
  exact h.symm
theorem starts_ref {c : Char} (h : G.ref_decl.starts (some c) = true) : asciiLower c = 'r' := by
  simp [G.ref_decl, G.ref_block, G.ref_short, PExpr.starts, PExpr.nonNull] at h
  exact h.symm
theorem starts_note {c : Char} (h : G.note_decl.starts (some c) = true) : asciiLower c = 'n' := by
  simp [G.note_decl, G.note_block, G.note_short, PExpr.starts, PExpr.nonNull] at h
  exact h.symm

/-- `TableGroup ...` is not a table. -/
theorem fails_table_group {s : Str} (h : Keyword k!"tablegroup " s) {kd : Next} {y} :
    Fails G.table_decl ({ txt := s, next := kd } :: y) := by
  intro pos t ht
  obtain ⟨r, rfl, -, -⟩ := ht.cons
  refine rule_fail (seq_fail_left ?_)
  unfold Keyword at h
  match s, h with
  | a :: b :: c :: d :: e :: f :: u, h =>
    simp only [List.map_cons, List.cons.injEq] at h
    have hf : lowerC f = 'g' := h.2.2.2.2.2.1
    have : asciiLower ' ' ≠ asciiLower f := by rw [asciiLower_eq f, hf]; decide
    simp only [run, List.cons_append, stripPrefixCI]
    simp [this]
  | [], h | [_], h | [_, _], h | [_, _, _], h | [_, _, _, _], h | [_, _, _, _, _], h => simp at h

/-- The pair of a declaration. -/
def BlockP : Block → Pair → Prop
  | .project p => ProjectP p
  | .table p => TableP p
  | .group p => GroupP p
  | .note p => NoteP p
  | .ref p => RefP p
  | .enum p => EnumP p

/-- What follows a declaration: a letter, or nothing. -/
def TopEnd (z : List Tok) : Prop := ∀ c, hd z = some c → c.isAlpha = true

theorem TopEnd.ne {z} (h : TopEnd z) {d : Char} (hd' : d.isAlpha = false) : hd z ≠ some d := by
  intro e
  exact absurd (h d e) (by simp [hd'])

theorem reads_block {b : Block} (hb : b.Ok) {z} (hz : TopEnd z) : Reads G.top_decl (b.toks ++ z) z [BlockP b] := by
  obtain ⟨c, hc, hl⟩ := block_hd hb z
  have fp (h : b.letter ≠ 'p') : Fails G.project_decl (b.toks ++ z) :=
    fails_letter (by decide) (by decide) hc hl fun hs e => h (e ▸ starts_project hs)
  have ft (h : b.letter ≠ 't') : Fails G.table_decl (b.toks ++ z) :=
    fails_letter (by decide) (by decide) hc hl fun hs e => h (e ▸ starts_table hs)
  have fe (h : b.letter ≠ 'e') : Fails G.enum_decl (b.toks ++ z) :=
    fails_letter (by decide) (by decide) hc hl fun hs e => h (e ▸ starts_enum hs)
  have fr (h : b.letter ≠ 'r') : Fails G.ref_decl (b.toks ++ z) :=
    fails_letter (by decide) (by decide) hc hl fun hs e => h (e ▸ starts_ref hs)
  have fg (h : b.letter ≠ 't') : Fails G.table_group_decl (b.toks ++ z) :=
    fails_letter (by decide) (by decide) hc hl fun hs e => h (e ▸ starts_group hs)
  cases b with
  | project p => exact .alt_left (reads_project hb z)
  | table p => exact .alt_right (fp (by simp [Block.letter])) (.alt_left (reads_table hb z))
  | enum p => exact .alt_right (fp (by simp [Block.letter])) (.alt_right (ft (by simp [Block.letter])) (.alt_left (reads_enum hb z)))
  | ref p =>
    exact .alt_right (fp (by simp [Block.letter])) (.alt_right (ft (by simp [Block.letter])) (.alt_right (fe (by simp [Block.letter]))
      (.alt_left (reads_ref hb (hz.ne (by decide)) (hz.ne (by decide))))))
  | group p =>
    exact .alt_right (fp (by simp [Block.letter])) (.alt_right (fails_table_group hb.1) (.alt_right (fe (by simp [Block.letter]))
      (.alt_right (fr (by simp [Block.letter])) (.alt_left (reads_group hb z)))))
  | note p =>
    exact .alt_right (fp (by simp [Block.letter])) (.alt_right (ft (by simp [Block.letter])) (.alt_right (fe (by simp [Block.letter]))
      (.alt_right (fr (by simp [Block.letter])) (.alt_right (fg (by simp [Block.letter])) (reads_note hb (hz.ne (by decide)))))))

theorem block_topEnd {b : Block} (hb : b.Ok) (z) : TopEnd (b.toks ++ z) := by
  intro c hc
  obtain ⟨d, h1, h2⟩ := block_hd hb z
  rw [h1] at hc
  obtain rfl := Option.some.inj hc
  refine lowerC_alpha (d := b.letter) ?_ (by cases b <;> rfl)
  rw [← asciiLower_eq, h2]
  cases b <;> rfl

/-! ## Documents -/

theorem reads_doc {d : Doc} (hd' : d.Ok) : Reads (.star G.top_decl) d.toks [] (d.map BlockP) := by
  have := star_items (e := G.top_decl) (F := TopEnd) (by decide) (z := []) (.of_starts (by decide) (by decide) rfl)
    (by intro c h; simp [hd] at h) d (fun b hb y hy => reads_block (hd' b hb) hy)
    (fun b hb y => block_topEnd (hd' b hb) y)
  simpa [Doc.toks] using this

theorem seq_skip3 {x y pos inp c1 r1 p1 w r2 c3 r3 p3} (e1 : run G.skip x .nonAtomic pos inp = .ok c1 r1 p1)
    (e2 : G.skip r1 = .ok w r2 []) (e3 : run G.skip y .nonAtomic (pos + blen c1 + blen w) r2 = .ok c3 r3 p3) :
    run G.skip (x ~~ y) .nonAtomic pos inp = .ok (c1 ++ w ++ c3) r3 (p1 ++ p3) := by
  simp [run, seqRes, skipIf, e1, e2, e3]

theorem pest_doc {d : Doc} (hd' : d.Ok) {txt : Str} (h : Written d.toks txt) :
    ∃ ks e, pestParse txt = .ok txt [] [.mk .schema ⟨0, blen txt⟩ txt (ks ++ [.mk .EOI e [] []])] ∧
      AllP (d.map BlockP) ks := by
  obtain ⟨w, r, h1, h2, -⟩ := (written_lead (toksOk_doc hd') h).skip
  obtain ⟨c, r2, ks, h3, h4, h5⟩ := reads_doc hd' (0 + blen [] + blen w) r h2
  obtain ⟨w2, r3, h6, h7, -⟩ := h4.skip
  have hr3 : r3 = [] := h7.2
  subst hr3
  have hrun : ∃ c' e, run G.skip (.soi ~~ .star G.top_decl ~~ .eoi) .nonAtomic 0 txt =
      .ok c' [] (ks ++ [.mk .EOI e [] []]) := by
    refine ⟨_, _, seq_skip3 (p1 := []) (c1 := []) (r1 := txt) (by simp [run]) h1 (seq_skip3 h3 h6
      (show run G.skip .eoi .nonAtomic _ [] = .ok [] [] [.mk .EOI ⟨_, _⟩ [] []] from rfl))⟩
  obtain ⟨c', e, hrun⟩ := hrun
  have hc : c' = txt := by
    have := (run_sound gskip_sound _ _ _ _ _ _ _ hrun).1
    simpa using this.symm
  subst hc
  refine ⟨ks, e, ?_, h5⟩
  have := rule_normal (r := .schema) na hrun
  rw [Nat.zero_add] at this
  exact this

theorem reads_back {d : Doc} (hd' : d.Ok) {txt : Str} (h : Written d.toks txt) :
    ∃ s, parseDbmlUnchecked txt = .ok s ∧ s.blocks.map (·.mapSpan noPos) = d.ast ∧ s.input = txt ∧
      s.span_range = ⟨0, blen txt⟩ := by
  obtain ⟨ks, e, h1, h2⟩ := pest_doc hd' h
  unfold parseDbmlUnchecked
  rw [h1]
  simp only [List.head?_cons, Rs.orPanic, Rs.bind_def, Rs.ok_bind, Pair.rule_mk]
  unfold parseSchema
  simp only [Pair.children_mk, Pair.span_mk, List.foldlM_append]
  refine ex_fold_bind (fun b : TopLevelBlock => b.mapSpan noPos) Block.ast schemaStep d h2 ?_ ?_
  · intro x _ p hp
    cases x with
    | project x =>
      obtain ⟨hr, b, h1, h2⟩ := hp
      refine ⟨.project b, by simp [TopLevelBlock.mapSpan, Block.ast, h2], fun s => ?_⟩
      simp only [hr, h1, Rs.bind_def, Rs.ok_bind, Rs.pure_def]; rfl
    | table x =>
      obtain ⟨hr, b, h1, h2⟩ := hp
      refine ⟨.table b, by simp [TopLevelBlock.mapSpan, Block.ast, h2], fun s => ?_⟩
      simp only [hr, h1, Rs.bind_def, Rs.ok_bind, Rs.pure_def]; rfl
    | group x =>
      obtain ⟨hr, b, h1, h2⟩ := hp
      refine ⟨.tableGroup b, by simp [TopLevelBlock.mapSpan, Block.ast, h2], fun s => ?_⟩
      simp only [hr, h1, Rs.bind_def, Rs.ok_bind, Rs.pure_def]; rfl
    | note x =>
      obtain ⟨hr, b, h1, h2⟩ := hp
      refine ⟨.note b, by simp [TopLevelBlock.mapSpan, Block.ast, h2], fun s => ?_⟩
      simp only [hr, h1, Rs.bind_def, Rs.ok_bind, Rs.pure_def]; rfl
    | ref x =>
      obtain ⟨hr, b, h1, h2⟩ := hp
      refine ⟨.ref b, by simp [TopLevelBlock.mapSpan, Block.ast, h2], fun s => ?_⟩
      simp only [hr, h1, Rs.bind_def, Rs.ok_bind, Rs.pure_def]; rfl
    | enum x =>
      obtain ⟨hr, b, h1, h2⟩ := hp
      refine ⟨.enum b, by simp [TopLevelBlock.mapSpan, Block.ast, h2], fun s => ?_⟩
      simp only [hr, h1, Rs.bind_def, Rs.ok_bind, Rs.pure_def]; rfl
  · intro bs hbs
    refine ⟨_, rfl, ?_⟩
    rw [schemaStep_foldl]
    exact ⟨hbs, rfl, rfl⟩

end Dbml
