import Verif.Proofs.Printable
import Verif.Spec.Truncate
import Verif.Proofs.SkipExact
import Verif.Proofs.Reading8

/-!
# Reading a text and a longer one

If a text is a layout of a document, then a longer text begins with a layout of the same document, except for what
the last declaration, if it is a one-line ref or note, becomes.
-/

namespace Dbml
open Syntax Source Spec

/-- A text written with the tokens `ts ++ us` can be continued after `us`, if enough of it is left for `us`. -/
theorem written_extend {us : List Tok} : ∀ {ts : List Tok} {p : Str}, AllBreak ts → Written (ts ++ us) p →
    ∃ x y, p = x ++ y ∧ Written us y ∧ ∀ q vs, Settled y → (¬ k!"/*" <:+: p ∨ '/' ∉ q) → Written vs (y ++ q) →
      Written (ts ++ vs) (x ++ (y ++ q))
  | [], p, _, h => ⟨[], p, rfl, h, fun _ _ _ _ h => h⟩
  | t :: ts, _, hb, ⟨w, r, e, hw, hn, h⟩ => by
    obtain ⟨x, y, hr, hy, hv⟩ := written_extend (fun u hu => hb u (by simp [hu])) h
    refine ⟨w ++ (t.txt ++ x), y, by simp [e, hr], hy, fun q vs hs hc hvs => ?_⟩
    have hc' : ¬ k!"/*" <:+: r ∨ '/' ∉ q := hc.imp_left fun hc hi => hc (hi.trans ⟨w ++ t.txt, [], by simp [e]⟩)
    refine ⟨w, x ++ (y ++ q), by simp, hw, ?_, hv q vs hs hc' hvs⟩
    have := (hb t (by simp)).2.2.2 r q (by rw [hr]; simpa using hs.append x [])
      (hc.imp_left fun hc hi => hc (hi.trans ⟨w, r, by simp [e]⟩)) hn
    simpa [hr] using this

theorem blockP_unique {b b' : Block} {p : Pair} (h : BlockP b p) (h' : BlockP b' p) : b.ast = b'.ast := by
  cases b <;> cases b' <;> obtain ⟨hr, x, h1, h2⟩ := h <;> obtain ⟨hr', x', h1', h2'⟩ := h' <;>
    first
    | (rw [hr] at hr'; exact absurd hr' (by decide))
    | (rw [h1] at h1'; cases h1'; simp only [Block.ast, ← h2, ← h2'])

/-- The blocks of `d` can be read one after the other, before `z`. -/
def Readable (z : List Tok) : Doc → Prop
  | [] => True
  | b :: d => Reads G.top_decl (b.toks ++ (Doc.toks d ++ z)) (Doc.toks d ++ z) [BlockP b] ∧ Readable z d

/-- Reading is deterministic: if a text begins with the tokens of a document, and is a layout of another, then the
other begins with declarations that stand for the same. -/
theorem same_reading {z : List Tok} : ∀ {d dt : Doc} {s : Str}, Readable z d → d.Ok → dt.Ok →
    Lead (Doc.toks d ++ z) s → Lead (Doc.toks dt) s →
    ∃ dt1 dt2 s', dt = dt1 ++ dt2 ∧ Doc.ast dt1 = Doc.ast d ∧ Lead z s' ∧ Lead (Doc.toks dt2) s'
  | [], dt, s, _, _, _, h1, h2 => ⟨[], dt, s, rfl, rfl, h1, h2⟩
  | b :: d, dt, s, hr, hd', hdt, h1, h2 => by
    obtain ⟨w, r, e, a1, -⟩ := h1.skip
    obtain ⟨w', r', e', a2, -⟩ := h2.skip
    rw [e] at e'
    obtain ⟨rfl, rfl, -⟩ := Res.ok.inj e'
    cases dt with
    | nil =>
      have hh := a1.head
      rw [a2.head] at hh
      have e3 : Doc.toks (b :: d) ++ z = b.toks ++ (Doc.toks d ++ z) := by simp [Doc.toks]
      obtain ⟨c, hc, -⟩ := block_hd (hd' b (by simp)) (Doc.toks d ++ z)
      rw [e3, hc] at hh
      simp [Doc.toks, hd] at hh
    | cons b' dt =>
      have e3 : Doc.toks (b :: d) ++ z = b.toks ++ (Doc.toks d ++ z) := by simp [Doc.toks]
      have e4 : Doc.toks (b' :: dt) = b'.toks ++ Doc.toks dt := by simp [Doc.toks]
      rw [e3] at a1
      rw [e4] at a2
      have hte : TopEnd (Doc.toks dt) := by
        cases dt with
        | nil => intro c h; simp [Doc.toks, hd] at h
        | cons b2 dt =>
          have := block_topEnd (hdt b2 (by simp)) (Doc.toks dt)
          simpa [Doc.toks] using this
      obtain ⟨c1, r1, ps1, e1, l1, q1⟩ := hr.1 0 r a1
      obtain ⟨c2, r2, ps2, e2, l2, q2⟩ := reads_block (hdt b' (by simp)) hte 0 r a2
      rw [e1] at e2
      obtain ⟨rfl, rfl, rfl⟩ := Res.ok.inj e2
      obtain ⟨p1, rfl, hp1⟩ := q1.one'
      obtain ⟨p2, hp, hp2⟩ := q2.one'
      obtain rfl : p1 = p2 := by simpa using hp
      obtain ⟨dt1, dt2, s', rfl, ha, hl1, hl2⟩ := same_reading (dt := dt) hr.2 (fun x hx => hd' x (by simp [hx]))
        (fun x hx => hdt x (by simp [hx])) l1 l2
      refine ⟨b' :: dt1, dt2, s', rfl, ?_, hl1, hl2⟩
      have := blockP_unique hp1 hp2
      simp only [Doc.ast, List.map_cons] at ha ⊢
      rw [this, ha]

theorem readable_topEnd {z : List Tok} (hz : TopEnd z) : ∀ {d : Doc}, d.Ok → Readable z d
  | [], _ => trivial
  | b :: d, h => by
    refine ⟨reads_block (h b (by simp)) ?_, readable_topEnd hz fun x hx => h x (by simp [hx])⟩
    cases d with
    | nil => simpa [Doc.toks] using hz
    | cons b2 d =>
      have := block_topEnd (h b2 (by simp)) (Doc.toks d ++ z)
      simpa [Doc.toks] using this

/-- The declaration ends with a closing brace or bracket, or with a string other than `''`. -/
def Firm : Block → Prop
  | .note n => n.braced = true ∨ n.text.text ≠ k!"''"
  | .ref r => r.braced = true ∨ r.settings.isSome = true
  | _ => True

instance (b : Block) : Decidable (Firm b) := by
  cases b <;> unfold Firm <;> infer_instance

/-- A token after which anything may follow that is separated from it by `r`, whatever `r` is. -/
def FirmTok (t : Tok) : Prop :=
  Settled t.txt ∧ ∀ r q, (¬ k!"/*" <:+: t.txt ∨ '/' ∉ q) → t.next r → t.next (r ++ q)

theorem firm_rbrace : FirmTok rbrace := ⟨.inr (.inl (by simp [rbrace])), fun _ _ _ _ => trivial⟩
theorem firm_rbrack : FirmTok rbrack := ⟨.inr (.inr (by simp [rbrack])), fun _ _ _ _ => trivial⟩

theorem firm_str {l : StrLit} (h : l.text ≠ k!"''") : FirmTok l.tok := by
  cases l with
  | single x =>
    refine ⟨.inl ?_, fun r q h hr => quote_extend h hr⟩
    obtain ⟨pad, v⟩ := x
    cases pad with
    | cons c pad => simp [StrLit.tok, StrLit.text, Quote.text]; omega
    | nil =>
      cases v with
      | nil => exact absurd rfl h
      | cons c v => simp [StrLit.tok, StrLit.text, Quote.text]
  | triple x => exact ⟨.inl (by simp [StrLit.tok, StrLit.text, Quote.text]), fun r q h hr => quote_extend h hr⟩

theorem firm_toks {b : Block} (h : Firm b) : ∃ ts t, b.toks = ts ++ [t] ∧ AllBreak ts ∧ FirmTok t := by
  have hb := breaks_block b
  have key : ∃ ts t, b.toks = ts ++ [t] ∧ FirmTok t := by
    cases b with
    | project p =>
      exact ⟨{ txt := p.kw } :: p.name.tok :: lbrace :: p.items.flatMap (·.toks), rbrace, by
        simp [Block.toks, Source.Project.toks], firm_rbrace⟩
    | table t =>
      exact ⟨{ txt := t.kw } :: (qualToks t.schema t.name ++ (t.aliasToks ++ (optBrackets Attr.toks t.settings ++
        (lbrace :: (t.items.flatMap (·.toks)))))), rbrace, by simp [Block.toks, Source.Table.toks], firm_rbrace⟩
    | group t =>
      exact ⟨{ txt := t.kw } :: t.name.tok :: (optBrackets Attr.toks t.settings ++
        (lbrace :: (t.items.flatMap (·.toks)))), rbrace, by simp [Block.toks, Source.Group.toks], firm_rbrace⟩
    | enum t =>
      exact ⟨{ txt := t.kw } :: (qualToks t.schema t.name ++
        (lbrace :: (t.values.flatMap (·.toks)))), rbrace, by simp [Block.toks, Source.Enum.toks], firm_rbrace⟩
    | note n =>
      cases hn : n.braced with
      | true =>
        exact ⟨[{ txt := n.kw }, lbrace, n.text.tok], rbrace, by simp [Block.toks, Source.Note.toks, hn], firm_rbrace⟩
      | false =>
        have : n.text.text ≠ k!"''" := h.resolve_left (by simp [hn])
        exact ⟨[{ txt := n.kw }, colon], n.text.tok, by simp [Block.toks, Source.Note.toks, hn], firm_str this⟩
    | ref r =>
      cases hr : r.braced with
      | true =>
        exact ⟨{ txt := r.kw } :: ((r.name.toList.map (·.tok)) ++ lbrace :: r.stmtToks), rbrace, by
          simp [Block.toks, Source.Ref.toks, hr], firm_rbrace⟩
      | false =>
        have : r.settings.isSome = true := h.resolve_left (by simp [hr])
        obtain ⟨as, has⟩ := Option.isSome_iff_exists.1 this
        exact ⟨{ txt := r.kw } :: ((r.name.toList.map (·.tok)) ++ colon :: (r.lhs.toks ++ (relTok r.rel ::
          (r.rhs.toks ++ (lbrack :: commaSep Attr.toks as))))), rbrack, by
          simp [Block.toks, Source.Ref.toks, hr, Source.Ref.stmtToks, has, optBrackets, brackets], firm_rbrack⟩
  obtain ⟨ts, t, e, hf⟩ := key
  refine ⟨ts, t, e, fun u hu => hb u (by rw [e]; simp [hu]), hf⟩

/-- A firm declaration can be read before anything. -/
theorem reads_firm {b : Block} (hb : b.Ok) (h : Firm b) (z) : Reads G.top_decl (b.toks ++ z) z [BlockP b] := by
  obtain ⟨c, hc, hl⟩ := block_hd hb z
  have fp (h : b.letter ≠ 'p') : Fails G.project_decl (b.toks ++ z) :=
    fails_letter (by decide) (by decide) hc hl fun hs e => h (e ▸ starts_project hs)
  have ft (h : b.letter ≠ 't') : Fails G.table_decl (b.toks ++ z) :=
    fails_letter (by decide) (by decide) hc hl fun hs e => h (e ▸ starts_table hs)
  have fe (h : b.letter ≠ 'e') : Fails G.enum_decl (b.toks ++ z) :=
    fails_letter (by decide) (by decide) hc hl fun hs e => h (e ▸ starts_enum hs)
  have fr (h : b.letter ≠ 'r') : Fails G.ref_decl (b.toks ++ z) :=
    fails_letter (by decide) (by decide) hc hl fun hs e => h (e ▸ starts_ref hs)
  have fg (h : b.letter ≠ 't') : Fails G.table_group_decl (b.toks ++ z) :=
    fails_letter (by decide) (by decide) hc hl fun hs e => h (e ▸ starts_group hs)
  cases b with
  | project p => exact .alt_left (reads_project hb z)
  | table p => exact .alt_right (fp (by simp [Block.letter])) (.alt_left (reads_table hb z))
  | enum p => exact .alt_right (fp (by simp [Block.letter])) (.alt_right (ft (by simp [Block.letter])) (.alt_left (reads_enum hb z)))
  | ref p =>
    exact .alt_right (fp (by simp [Block.letter])) (.alt_right (ft (by simp [Block.letter])) (.alt_right (fe (by simp [Block.letter]))
      (.alt_left (reads_ref' hb (h.imp_right .inl)))))
  | group p =>
    exact .alt_right (fp (by simp [Block.letter])) (.alt_right (fails_table_group hb.1) (.alt_right (fe (by simp [Block.letter]))
      (.alt_right (fr (by simp [Block.letter])) (.alt_left (reads_group hb z)))))
  | note p =>
    exact .alt_right (fp (by simp [Block.letter])) (.alt_right (ft (by simp [Block.letter])) (.alt_right (fe (by simp [Block.letter]))
      (.alt_right (fr (by simp [Block.letter])) (.alt_right (fg (by simp [Block.letter])) (reads_note' hb (h.imp_right .inl))))))

theorem readable_firm {b : Block} (hb : b.Ok) (h : Firm b) (z) : ∀ {d : Doc}, d.Ok → Readable z (d ++ [b])
  | [], _ => ⟨by simpa [Doc.toks] using reads_firm hb h z, trivial⟩
  | b1 :: d, hd' => by
    refine ⟨reads_block (hd' b1 (by simp)) ?_, readable_firm hb h z fun x hx => hd' x (by simp [hx])⟩
    cases d with
    | nil =>
      have := block_topEnd hb z
      simpa [Doc.toks] using this
    | cons b2 d =>
      have := block_topEnd (hd' b2 (by simp)) (Doc.toks (d ++ [b]) ++ z)
      simpa [Doc.toks] using this

/-- The rest of a text, as trivia and at most one token. -/
theorem rest_toks (s : Str) : ∃ z : List Tok, ToksOk z ∧ Written z s := by
  rcases blank_split s with ⟨w, r, rfl, hw, hr⟩ | h
  · cases r with
    | nil => exact ⟨[], toksOk_nil, .inl (by simpa using hw)⟩
    | cons c cs =>
      refine ⟨[{ txt := c :: cs, next := fun r => r = [] }], toksOk_one ⟨c, cs, rfl, ?_, ?_⟩, w, [], by simp, hw, rfl,
        .inl .nil⟩
      · intro hc
        exact hr (.inl ⟨c, cs, rfl, hc⟩)
      · rintro - r hr'
        obtain rfl : r = [] := hr'
        simpa using hr
  · exact ⟨[], toksOk_nil, h⟩

theorem kw_length {k s : Str} (h : Keyword k s) : s.length = k.length := by
  have := congrArg List.length h
  simpa using this

theorem written_length : ∀ {ts : List Tok} {s : Str}, ToksOk ts → Written ts s → ts.length ≤ s.length
  | [], _, _, _ => by simp
  | t :: ts, _, ho, ⟨w, r, e, _, _, h⟩ => by
    have ih := written_length (fun u hu => ho u (by simp [hu])) h
    obtain ⟨c, cs, ec, -⟩ := ho t (by simp)
    simp [e, ec]
    omega

/-! ## One step, read in two ways -/

theorem same_at {x x' : List Tok} {s : Str} (h : Lead x s) (h' : Lead x' s) : ∃ r, At x r ∧ At x' r := by
  obtain ⟨w, r, e, a1, -⟩ := h.skip
  obtain ⟨w', r', e', a2, -⟩ := h'.skip
  rw [e] at e'
  obtain ⟨rfl, rfl, -⟩ := Res.ok.inj e'
  exact ⟨r, a1, a2⟩

theorem same_step {e : PExpr} {x x' z z' : List Tok} {Ps Ps' : List (Pair → Prop)} {s : Str} (h : Lead x s)
    (h' : Lead x' s) (hr : Reads e x z Ps) (hr' : Reads e x' z' Ps') :
    ∃ r ps, Lead z r ∧ Lead z' r ∧ AllP Ps ps ∧ AllP Ps' ps := by
  obtain ⟨r, a1, a2⟩ := same_at h h'
  obtain ⟨c1, r1, ps1, e1, l1, q1⟩ := hr 0 r a1
  obtain ⟨c2, r2, ps2, e2, l2, q2⟩ := hr' 0 r a2
  rw [e1] at e2
  obtain ⟨rfl, rfl, rfl⟩ := Res.ok.inj e2
  exact ⟨r1, ps1, l1, l2, q1, q2⟩

theorem same_head {x x' : List Tok} {s : Str} (h : Lead x s) (h' : Lead x' s) : hd x = hd x' := by
  obtain ⟨r, a1, a2⟩ := same_at h h'
  rw [← a1.head, ← a2.head]

theorem optName_unique {o o' : Option Name} {ps} (h : AllP (o.toList.map IdentP) ps)
    (h' : AllP (o'.toList.map IdentP) ps) : o'.map (·.ast) = o.map (·.ast) := by
  cases o with
  | none =>
    have := AllP.nil' h
    subst this
    cases o' with
    | none => rfl
    | some n => cases h'
  | some n =>
    obtain ⟨p, rfl, -, i, h1, h2⟩ := AllP.one' h
    cases o' with
    | none => cases h'
    | some n' =>
      obtain ⟨p', e, -, i', h1', h2'⟩ := AllP.one' h'
      obtain rfl : p = p' := by simpa using e
      rw [h1] at h1'
      cases h1'
      simp only [Option.map_some, ← h2, ← h2']

theorem ref_continues {r r' : Source.Ref} (hr : r.Ok) (hr' : r'.Ok) (hs : r.settings = none)
    {z z' : List Tok} {s : Str} (hz : hd z ≠ some '>')
    (h : Lead ({ txt := r.kw } :: ((r.name.toList.map (·.tok)) ++ colon :: (r.lhs.toks ++ (relTok r.rel :: z)))) s)
    (h' : Lead (r'.toks ++ z') s) : Continues (.ref r.ast) (.ref r'.ast) := by
  obtain ⟨hk, hn, hl, hrel, hrr, -⟩ := hr
  obtain ⟨hk', hn', hl', hrel', hrr', -⟩ := hr'
  refine ⟨by simp [Source.Ref.ast, hs], ?_⟩
  have hb' : r'.braced = false := by
    cases hbb : r'.braced with
    | false => rfl
    | true =>
      simp only [Source.Ref.toks, hbb, if_true, List.cons_append, List.append_assoc] at h'
      obtain ⟨s1, _, l1, l1', -, -⟩ := same_step h h' (reads_kw' (k := k!"Ref") (kd := .any) hk rfl)
        (reads_kw' (k := k!"Ref") (kd := .any) hk' rfl)
      obtain ⟨s2, _, l2, l2', -, -⟩ := same_step l1 l1' (reads_optName r.name hn rfl (.inl rfl))
        (reads_optName r'.name hn' rfl (.inr rfl))
      exact absurd (same_head l2 l2') (by simp [hd, colon, lbrace])
  simp only [Source.Ref.toks, hb', Bool.false_eq_true, if_false, Source.Ref.stmtToks, List.cons_append,
    List.append_assoc] at h'
  obtain ⟨s1, _, l1, l1', -, -⟩ := same_step h h' (reads_kw' (k := k!"Ref") (kd := .any) hk rfl)
    (reads_kw' (k := k!"Ref") (kd := .any) hk' rfl)
  obtain ⟨s2, ps, l2, l2', q, q'⟩ := same_step l1 l1' (reads_optName r.name hn rfl (.inl rfl))
    (reads_optName r'.name hn' rfl (.inl rfl))
  obtain ⟨s3, _, l3, l3', -, -⟩ := same_step l2 l2' (reads_str (s := k!":") (k := .any)) (reads_str (s := k!":") (k := .any))
  obtain ⟨d, hd1, hd2⟩ := rel_hd hrel z
  obtain ⟨d', hd1', hd2'⟩ := rel_hd hrel' (r'.rhs.toks ++ (optBrackets Attr.toks r'.settings ++ z'))
  obtain ⟨s4, _, l4, l4', q4, q4'⟩ := same_step l3 l3'
    (reads_refIdent hl (hd_ne_of hd1 (by rcases hd2 with rfl | rfl | rfl <;> decide)))
    (reads_refIdent hl' (hd_ne_of hd1' (by rcases hd2' with rfl | rfl | rfl <;> decide)))
  obtain ⟨c', hc1', hc2'⟩ := rend_hd hrr' (optBrackets Attr.toks r'.settings ++ z')
  obtain ⟨s5, _, l5, l5', q5, q5'⟩ := same_step l4 l4' (reads_relation (k := .any) hrel hz)
    (reads_relation (k := .any) hrel' (hd_ne_of hc1' (by
      rcases hc2' with h | rfl
      · exact alpha_ne h (by decide)
      · decide)))
  refine ⟨optName_unique q q', ?_, ?_⟩
  · obtain ⟨p, rfl, -, x, h1, h2⟩ := q4.one'
    obtain ⟨p', e, -, x', h1', h2'⟩ := q4'.one'
    obtain rfl : p = p' := by simpa using e
    rw [h1] at h1'
    cases h1'
    simp only [Source.Ref.ast, ← h2, ← h2']
  · obtain ⟨p, rfl, -, h1⟩ := q5.one'
    obtain ⟨p', e, -, h1'⟩ := q5'.one'
    obtain rfl : p = p' := by simpa using e
    rw [h1] at h1'
    exact (Option.some.inj h1').symm

theorem rest_token {c : Char} {cs : Str} (hc : ¬ IsSpace c ∧ c ≠ '/') {w : Str} (hw : Blank w) :
    ToksOk [{ txt := c :: cs, next := fun r => r = [] }] ∧
      Written [{ txt := c :: cs, next := fun r => r = [] }] (w ++ c :: cs) :=
  ⟨toksOk_one (tokOk_of rfl hc), w, [], by simp, hw, rfl, .inl .nil⟩

theorem letter_note {b : Block} (h : b.letter = 'n') : ∃ n, b = .note n := by
  cases b <;> first | exact ⟨_, rfl⟩ | exact absurd h (by simp [Block.letter])
theorem letter_ref {b : Block} (h : b.letter = 'r') : ∃ n, b = .ref n := by
  cases b <;> first | exact ⟨_, rfl⟩ | exact absurd h (by simp [Block.letter])

/-- The next declaration begins with the same letter. -/
theorem next_block {dt : Doc} (hdt : dt.Ok) {c : Char} {z : List Tok} {s : Str} (h : Lead z s) (hz : hd z = some c)
    (h' : Lead (Doc.toks dt) s) : ∃ b' dt', dt = b' :: dt' ∧ b'.letter = asciiLower c := by
  have hh := same_head h h'
  rw [hz] at hh
  cases dt with
  | nil => simp [Doc.toks, hd] at hh
  | cons b' dt =>
    refine ⟨b', dt, rfl, ?_⟩
    obtain ⟨c1, h1, h2⟩ := block_hd (hdt b' (by simp)) (Doc.toks dt)
    have e5 : Doc.toks (b' :: dt) = b'.toks ++ Doc.toks dt := by simp [Doc.toks]
    rw [e5, h1] at hh
    rw [Option.some.inj hh, h2]

/-- If a text is a layout of the document `d ++ [b]` and a longer text is one of `dt`, then `dt` begins with
declarations that stand for the same as `d`, and then one that stands for the same as `b` or continues it. -/
theorem truncated {d : Doc} {b : Block} (hd' : d.Ok) (hb : b.Ok) {dt : Doc} (hdt : dt.Ok) {p q : Str}
    (hp : Written (Doc.toks (d ++ [b])) p) (ht : Written (Doc.toks dt) (p ++ q))
    (hc : ¬ k!"/*" <:+: p ∨ '/' ∉ q) :
    ∃ dt1 b' dt2, dt = dt1 ++ b' :: dt2 ∧ Doc.ast dt1 = Doc.ast d ∧ (b'.ast = b.ast ∨ Continues b.ast b'.ast) := by
  by_cases hbr : Firm b
  · obtain ⟨ts, t, e, hts, hft⟩ := firm_toks hbr
    have e1 : Doc.toks (d ++ [b]) = (Doc.toks d ++ ts) ++ [t] := by simp [Doc.toks, e]
    rw [e1] at hp
    obtain ⟨x, y, rfl, hy, hv⟩ := written_extend ((breaks_doc d).append hts) hp
    obtain ⟨w, r, rfl, hw, hn, hr⟩ := hy
    obtain ⟨z, hz1, hz2⟩ := rest_toks (r ++ q)
    have hwr := hv q (t :: z) (hft.1.append w r) hc ⟨w, r ++ q, by simp, hw,
      hft.2 r q (hc.imp_left fun h hi => h (hi.trans ⟨x ++ w, r, by simp⟩)) hn, hz2⟩
    have hd2 : Doc.Ok (d ++ [b]) := by
      intro x hx
      rcases List.mem_append.1 hx with hx | hx
      · exact hd' x hx
      · simp at hx; subst hx; exact hb
    have e2 : (Doc.toks d ++ ts) ++ t :: z = Doc.toks (d ++ [b]) ++ z := by rw [e1]; simp
    rw [e2] at hwr
    have hl1 := written_lead (toksOk_append (toksOk_doc hd2) hz1) hwr
    have hl2 := written_lead (toksOk_doc hdt) ht
    simp only [List.append_assoc] at hl1 hl2
    obtain ⟨dt1, dt2, s', rfl, ha, -, -⟩ := same_reading (readable_firm hb hbr z hd') hd2 hdt hl1 hl2
    rw [Doc.ast, Doc.ast, List.map_append, List.map_eq_append_iff] at ha
    obtain ⟨l1, l2, rfl, ha1, ha2⟩ := ha
    cases l2 with
    | nil => simp at ha2
    | cons b' l2 =>
      cases l2 with
      | cons _ _ => simp at ha2
      | nil => exact ⟨l1, b', dt2, by simp, ha1, .inl (by simpa using ha2)⟩
  · cases b with
    | note n =>
      simp only [Firm, not_or, Bool.not_eq_true, Decidable.not_not] at hbr
      obtain ⟨hbr, htx⟩ := hbr
      have e1 : Doc.toks (d ++ [.note n]) = Doc.toks d ++ ({ txt := n.kw } :: [colon, n.text.tok]) := by
        simp [Doc.toks, Block.toks, Source.Note.toks, hbr]
      rw [e1] at hp
      obtain ⟨x, y, rfl, hy, hv⟩ := written_extend (breaks_doc d) hp
      obtain ⟨w, r, rfl, hw, -, -⟩ := hy
      obtain ⟨c, hc1, hc2⟩ := block_hd (b := .note n) hb []
      have hlen := kw_length hb.1
      obtain ⟨cs, ek⟩ : ∃ cs, n.kw = c :: cs := by
        simp only [Block.toks, Source.Note.toks, List.cons_append, hd] at hc1
        exact List.head?_eq_some_iff.1 hc1
      have hca : c.isAlpha = true := block_topEnd (b := .note n) hb [] c hc1
      obtain ⟨hg1, hg2⟩ := rest_token (cs := cs ++ (r ++ q)) (alpha_not_space hca) hw
      have hwr := hv q [{ txt := c :: (cs ++ (r ++ q)), next := fun r => r = [] }] (.inl (by simp [hlen]; omega)) hc
        (by simpa [ek] using hg2)
      have hl1 := written_lead (toksOk_append (toksOk_doc hd') hg1) hwr
      have hl2 := written_lead (toksOk_doc hdt) ht
      simp only [List.append_assoc] at hl1 hl2
      obtain ⟨dt1, dt2, s', rfl, ha, hs1, hs2⟩ := same_reading (readable_topEnd (by
        intro c' hc'
        simp [hd] at hc'
        exact hc' ▸ hca) hd') hd' hdt hl1 hl2
      obtain ⟨b', dt2, rfl, hlet⟩ := next_block (fun x hx => hdt x (by simp [hx])) hs1 rfl hs2
      rw [hc2] at hlet
      obtain ⟨n', rfl⟩ := letter_note hlet
      exact ⟨dt1, _, dt2, rfl, ha, .inr htx⟩
    | ref r =>
      simp only [Firm, not_or, Bool.not_eq_true, Option.isSome_eq_false_iff, Option.isNone_iff_eq_none] at hbr
      obtain ⟨hbr, hset⟩ := hbr
      let pre : List Tok := { txt := r.kw } :: ((r.name.toList.map (·.tok)) ++ colon :: (r.lhs.toks ++ [relTok r.rel]))
      have e0 : Block.toks (.ref r) = pre ++ r.rhs.toks := by
        simp [Block.toks, Source.Ref.toks, hbr, Source.Ref.stmtToks, hset, optBrackets, pre]
      have hbk := breaks_block (.ref r)
      have hok := toksOk_block (b := .ref r) hb
      rw [e0] at hbk hok
      have e1 : Doc.toks (d ++ [.ref r]) = (Doc.toks d ++ pre) ++ r.rhs.toks := by
        simp [Doc.toks, e0]
      rw [e1] at hp
      obtain ⟨x, y, rfl, hy, hv⟩ := written_extend ((breaks_doc d).append fun u hu => hbk u (by simp [hu])) hp
      have hlen := written_length (fun u hu => hok u (by simp [hu])) hy
      have hl3 : 3 ≤ r.rhs.toks.length := by
        simp only [REnd.toks]
        cases r.rhs.schema <;> cases r.rhs.cols <;> simp [qualToks, Comp.toks]
      obtain ⟨c, hc1, hc2⟩ := rend_hd hb.2.2.2.2.1 []
      obtain ⟨t, ts, et⟩ : ∃ t ts, r.rhs.toks = t :: ts := by
        cases h : r.rhs.toks with
        | nil => simp [h] at hl3
        | cons t ts => exact ⟨t, ts, rfl⟩
      have hyl : Settled y := .inl (by omega)
      rw [et] at hy hc1
      obtain ⟨w, r1, rfl, hw, -, -⟩ := hy
      obtain ⟨cs, ek⟩ : ∃ cs, t.txt = c :: cs := List.head?_eq_some_iff.1 hc1
      obtain ⟨hg1, hg2⟩ := rest_token (c := c) (cs := cs ++ (r1 ++ q)) (by
        rcases hc2 with h | rfl
        · exact alpha_not_space h
        · decide) hw
      have hwr := hv q [{ txt := c :: (cs ++ (r1 ++ q)), next := fun r => r = [] }] hyl hc (by simpa [ek] using hg2)
      have hl1 := written_lead (toksOk_append (toksOk_append (toksOk_doc hd') fun u hu => hok u (by simp [hu])) hg1) hwr
      have hl2 := written_lead (toksOk_doc hdt) ht
      simp only [List.append_assoc] at hl1 hl2
      obtain ⟨c', hc1', hc2'⟩ := block_hd (b := .ref r) hb []
      have hch : hd (pre ++ [{ txt := c :: (cs ++ (r1 ++ q)), next := fun r => r = [] }]) = some c' := hc1'
      have hca : c'.isAlpha = true := block_topEnd (b := .ref r) hb [] c' hc1'
      obtain ⟨dt1, dt2, s', rfl, ha, hs1, hs2⟩ := same_reading (readable_topEnd (by
        intro c2 hc2
        rw [hch] at hc2
        exact (Option.some.inj hc2) ▸ hca) hd') hd' hdt hl1 hl2
      obtain ⟨b', dt2, rfl, hlet⟩ := next_block (fun x hx => hdt x (by simp [hx])) hs1 hch hs2
      rw [hc2'] at hlet
      obtain ⟨r', rfl⟩ := letter_ref hlet
      refine ⟨dt1, _, dt2, rfl, ha, .inr (ref_continues hb (hdt (.ref r') (by simp)) hset (s := s')
        (z := [{ txt := c :: (cs ++ (r1 ++ q)), next := fun r => r = [] }]) (z' := Doc.toks dt2) ?_ ?_ ?_)⟩
      · simp only [hd, List.head?_cons]
        intro h
        rw [Option.some.inj h] at hc2
        rcases hc2 with h | h <;> simp at h
      · simpa [pre] using hs1
      · simpa [Doc.toks, Block.toks] using hs2
    | _ => exact absurd trivial hbr

end Dbml
