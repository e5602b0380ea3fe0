import Verif.Proofs.Prefix
import Verif.Props.Parsing
import Verif.Props.RoundTrip

/-!
# C45: words that begin with `true`, `false` or `null`

`LikeLiteral` (`Verif/Spec/Syntax.lean`) says that a text begins with one of these words.
-/

namespace Dbml.Props

open Dbml Spec Syntax Source

variable {input : Str} {s : SchemaBlock}

/-- **C45.** In every accepted text: a literal whose source begins with `true`, `false` or `null` is exactly that
word and has the corresponding value; so no bare word (`Value.enum`) begins like that. Conversely the values `true`,
`false` and `null` come only from these words. -/
theorem C45_literal_words (h : parseDbmlUnchecked input = .ok s) (l : Literal) (hl : l ∈ literals s) :
    (k!"true" <+: l.raw → l.raw = k!"true" ∧ l.value = .bool true) ∧
    (k!"false" <+: l.raw → l.raw = k!"false" ∧ l.value = .bool false) ∧
    (k!"null" <+: l.raw → l.raw = k!"null" ∧ l.value = .null) ∧
    (l.value = .bool true → l.raw = k!"true") ∧ (l.value = .bool false → l.raw = k!"false") ∧
    (l.value = .null → l.raw = k!"null") := by
  obtain ⟨q, hq, h1, h2, h3⟩ := has_literal (denotes h) l hl
  rw [h2]
  -- a text that starts with a character other than `t`, `f`, `n`
  have other : ∀ {c cs}, q.txt = c :: cs → c ≠ 't' ∧ c ≠ 'f' ∧ c ≠ 'n' → ¬ LikeLiteral q.txt := by
    rintro c cs e ⟨n1, n2, n3⟩ (⟨r, h⟩ | ⟨r, h⟩ | ⟨r, h⟩) <;> rw [e] at h <;> simp at h
    · exact n1 h.1.symm
    · exact n2 h.1.symm
    · exact n3 h.1.symm
  have fin : ¬ LikeLiteral q.txt → (l.value ≠ .bool true ∧ l.value ≠ .bool false ∧ l.value ≠ .null) →
      (k!"true" <+: q.txt → q.txt = k!"true" ∧ l.value = .bool true) ∧
      (k!"false" <+: q.txt → q.txt = k!"false" ∧ l.value = .bool false) ∧
      (k!"null" <+: q.txt → q.txt = k!"null" ∧ l.value = .null) ∧
      (l.value = .bool true → q.txt = k!"true") ∧ (l.value = .bool false → q.txt = k!"false") ∧
      (l.value = .null → q.txt = k!"null") := by
    rintro hn ⟨v1, v2, v3⟩
    exact ⟨fun h => absurd (.inl h) hn, fun h => absurd (.inr (.inl h)) hn, fun h => absurd (.inr (.inr h)) hn,
      fun h => absurd h v1, fun h => absurd h v2, fun h => absurd h v3⟩
  have digit : ∀ {a b : Str}, q.txt = a ++ b → IsDigits a → ¬ LikeLiteral q.txt := by
    intro a b e hd
    obtain ⟨hne, hall⟩ := hd
    cases a with
    | nil => exact absurd rfl hne
    | cons c cs =>
      have hc := hall c (by simp)
      refine other (c := c) e ⟨?_, ?_, ?_⟩ <;> rintro rfl <;> simp at hc
  have quoted : ∀ {g c qq v}, QuotedD g (c :: qq) q v → c ≠ 't' ∧ c ≠ 'f' ∧ c ≠ 'n' → ¬ LikeLiteral q.txt := by
    intro g c qq v hv hc
    obtain ⟨cs, e⟩ := quoted_head hv
    exact other e hc
  rcases h3 with (hv | ⟨-, hnl, hv⟩ | ⟨v, hqd, hv⟩) | ⟨v, hqd, hv⟩
  · generalize l.value = w at hv fin
    cases hv with
    | string hs =>
      rcases hs with hs | hs <;> exact fin (quoted hs (by decide)) ⟨by simp, by simp, by simp⟩
    | expr hs => exact fin (quoted hs (by decide)) ⟨by simp, by simp, by simp⟩
    | true hs => rw [hs]; simp
    | false hs => rw [hs]; simp
    | null hs => rw [hs]; simp
    | integer hd hlt => exact fin (digit (b := []) (by simp) hd) ⟨by simp, by simp, by simp⟩
    | decimal e ha hb => exact fin (digit e ha) ⟨by simp, by simp, by simp⟩
    | hex e _ _ => exact fin (other e (by decide)) ⟨by simp, by simp, by simp⟩
  · exact fin hnl (by rw [hv]; simp)
  · exact fin (quoted hqd (by decide)) (by rw [hv]; simp)
  · exact fin (quoted hqd (by decide)) (by rw [hv]; simp)

/-- Column settings with good items, then an attribute with a value, then anything. -/
def settingsThen (items : List ColSet) (key value : Str) (rest : List Tok) : List Tok :=
  lbrack :: (items.flatMap (fun i => i.toks ++ [comma]) ++
    (keyTok key :: colon :: { txt := value, next := .spaced } :: rest))

/-- **C45.** A column attribute whose value is a bare word that begins with `true`, `false` or `null` without being
that word is a syntax error, whatever comes before it (declarations, items of the table, settings of the column),
whatever comes after it, and however the text is laid out. -/
theorem C45_longer_word_is_error (d : Doc) (hd : d.Ok) (t : Source.Table) (ht : t.Ok) (n : Name) (hn : n.Ok) (ty : Ty)
    (hty : ty.Ok) (items : List ColSet) (hi : ∀ i ∈ items, i.Ok) (key w : Str) (hk : IsSpacedVar key)
    (hw : IsSpacedVar w) (hl : LikeLiteral w) (hne : w ≠ k!"true" ∧ w ≠ k!"false" ∧ w ≠ k!"null")
    (rest : List Tok) (hr : ∀ x ∈ rest, TokOk x) (txt : Str)
    (h : Written (d.toks ++ (t.headToks ++ (t.items.flatMap (·.toks) ++
      (n.tok :: ty.tok :: settingsThen items key w rest)))) txt) :
    parseDbmlUnchecked txt = .err .syntax := by
  obtain ⟨b, hb, hp, hne'⟩ : ∃ b, (b = k!"true" ∨ b = k!"false" ∨ b = k!"null") ∧ b <+: w ∧ w ≠ b := by
    rcases hl with h | h | h
    · exact ⟨_, .inl rfl, h, hne.1⟩
    · exact ⟨_, .inr (.inl rfl), h, hne.2.1⟩
    · exact ⟨_, .inr (.inr rfl), h, hne.2.2⟩
  have hset : Fails G.col_settings (settingsThen items key w rest) :=
    .rule (fails_bracketed items (by decide) (by decide) (fun i hi' z hz => reads_colSet (hi i hi') hz)
      (sticks_colAttr hk hw hb hp hne'))
  have htn : TyNext (settingsThen items key w rest) := by
    refine .inr ⟨_, rfl, ?_⟩
    cases items with
    | nil =>
      intro c hc
      obtain ⟨d, ds, rfl, h2, -⟩ := hk
      simp only [List.flatMap_nil, List.nil_append, Dbml.hd, keyTok, List.head?_cons, Option.some.injEq] at hc
      exact hc ▸ alpha_not_digit h2
    | cons i is =>
      intro c hc
      obtain ⟨d, h1, h2⟩ := colSet_hd (hi i (by simp)) ([comma] ++ (is.flatMap (fun i => i.toks ++ [comma]) ++
        (keyTok key :: colon :: { txt := w, next := .spaced } :: rest)))
      simp only [List.flatMap_cons, List.append_assoc] at hc h1
      rw [h1] at hc
      injection hc with hc
      exact hc ▸ alpha_not_digit h2
  have hcol : Reads (G.table_col <//> G.note_decl <//> G.indexes_decl)
      (n.tok :: ty.tok :: settingsThen items key w rest) (settingsThen items key w rest) [fun p => p.rule = .table_col ∧ _] :=
    .alt_left (((reads_ident hn).seq ((reads_type hty htn).seq (.opt_none hset))).rule)
  have hstop : Fails (G.table_col <//> G.note_decl <//> G.indexes_decl) (settingsThen items key w rest) :=
    .of_starts (by decide) (by decide) rfl
  -- the items before, then the column
  have hitems : ∃ Ps, Reads (.star (G.table_col <//> G.note_decl <//> G.indexes_decl))
      (t.items.flatMap (·.toks) ++ (n.tok :: ty.tok :: settingsThen items key w rest))
      (settingsThen items key w rest) Ps := by
    have hend : ItemEnd (n.tok :: ty.tok :: settingsThen items key w rest) := by
      obtain ⟨c, h1, h2⟩ := name_hd hn (ty.tok :: settingsThen items key w rest)
      exact ⟨c, h1, h2.elim .inl fun h => .inr (.inl h)⟩
    have hits := ht.2.2.2.2.2
    have hloop : ∀ is : List TItem, (∀ i ∈ is, i.Ok) → ∃ Ps, LoopReads (G.table_col <//> G.note_decl <//> G.indexes_decl)
        (is.flatMap (·.toks) ++ (n.tok :: ty.tok :: settingsThen items key w rest)) (settingsThen items key w rest) Ps := by
      intro is
      induction is with
      | nil => intro _; exact ⟨_, .cons (by decide) hcol (.nil hstop)⟩
      | cons i is ih =>
        intro hok
        obtain ⟨Ps, h1⟩ := ih fun j hj => hok j (by simp [hj])
        have hz : ItemEnd (is.flatMap (·.toks) ++ (n.tok :: ty.tok :: settingsThen items key w rest)) := by
          cases is with
          | nil => exact hend
          | cons j js => simpa using titem_itemEnd (hok j (by simp)) _
        have := LoopReads.cons (by decide) (reads_titem (hok i (by simp)) hz) h1
        exact ⟨_, by simpa using this⟩
    generalize t.items = is at hits
    cases is with
    | nil => exact ⟨_, .star_cons hcol (.nil hstop)⟩
    | cons i is =>
      obtain ⟨Ps, h1⟩ := hloop is fun j hj => hits j (by simp [hj])
      have hz : ItemEnd (is.flatMap (·.toks) ++ (n.tok :: ty.tok :: settingsThen items key w rest)) := by
        cases is with
        | nil => exact hend
        | cons j js => simpa using titem_itemEnd (hits j (by simp)) _
      have := Reads.star_cons (reads_titem (hits i (by simp)) hz) h1
      exact ⟨_, by simpa using this⟩
  obtain ⟨Ps, hitems⟩ := hitems
  have htab := fails_table ht hitems (by simp [Dbml.hd, settingsThen, lbrack])
  have htop := fails_top_table (kd := .any) ht.1 htab
  refine rejects_doc hd htop ?_ (by simp) ?_ h
  · intro c hc
    obtain ⟨c', h1, h2⟩ := kw_hd ht.1 .any ((qualToks t.schema t.name ++ (t.aliasToks ++
      (optBrackets Attr.toks t.settings ++ [lbrace]))) ++ (t.items.flatMap (·.toks) ++
      (n.tok :: ty.tok :: settingsThen items key w rest)))
    have hc' : some c' = some c := by rw [← h1]; exact hc
    obtain rfl := Option.some.inj hc'
    exact lowerC_alpha (d := 't') (by rw [← asciiLower_eq, h2]) (by decide)
  · have hall := toksOk_table ht
    have hhead : ToksOk (t.headToks ++ t.items.flatMap (·.toks)) := by
      intro x hx
      refine hall x ?_
      simp only [Source.Table.headToks, List.mem_append, List.mem_cons, List.not_mem_nil, or_false] at hx
      simp only [Source.Table.toks, List.mem_append, List.mem_cons, List.not_mem_nil, or_false]
      rcases hx with (h | h | h | h | h) | h <;> simp [h]
    refine toksOk_append (fun x hx => hhead x (List.mem_append_left _ hx)) (toksOk_append
      (fun x hx => hhead x (List.mem_append_right _ hx)) (toksOk_cons (tokOk_name hn) (toksOk_cons (tokOk_type hty) (toksOk_cons (a := lbrack)
      (tokOk_of (c := '[') (cs := []) rfl (by decide)) (toksOk_append (toksOk_flatMap fun i hi' => toksOk_append ?_
        (toksOk_one (a := comma) (tokOk_of (c := ',') (cs := []) rfl (by decide)))) (toksOk_cons (tokOk_key hk) (toksOk_cons tokOk_colon
          (toksOk_cons (tokOk_key hw) hr))))))))
    have := toksOk_col (c := { name := n, type := ty, settings := some [i] }) ⟨hn, hty, by
      rintro _ ⟨⟩ j hj
      obtain rfl := List.mem_singleton.1 hj
      exact hi j hi'⟩
    intro x hx
    exact this x (by simp [Col.toks, optBrackets, brackets, commaSep, hx])

/-- A witness for the hypotheses: a document with an enum, and a table with a note and a column before the offending
one, which has a good setting before the offending one; one token per line. -/
example : parseDbmlUnchecked (k!"Enum \ne\n{\nx\n}\n" ++ k!"Table \nt\n{\nnote\n:\n'a'\na\nint\n" ++
    k!"b\ntext\n[\npk\n,\ndefault\n:\nnullable\n]\n}\n") = .err .syntax := by
  refine C45_longer_word_is_error
    [.enum { kw := k!"Enum ", schema := none, name := .word k!"e", values := [⟨.word k!"x", none⟩] }]
    (by decide)
    { kw := k!"Table ", schema := none, name := .word k!"t", alias := none, settings := none
      items := [.note ⟨k!"note", false, .single (.of k!"a")⟩, .col ⟨.word k!"a", ⟨none, .plain k!"int" none []⟩, none⟩] }
    (by decide) (.word k!"b") (by decide) ⟨none, .plain k!"text" none []⟩ (by decide)
    [.attr ⟨k!"pk", none⟩] (by decide) k!"default" k!"nullable" (by decide) (by decide) (.inr (.inr ⟨k!"able", rfl⟩))
    (by decide) [rbrack, rbrace] ?_ _ (lines_written _ ?_)
  rotate_left
  · have hall := AllBreak.append (breaks_doc [.enum { kw := k!"Enum ", schema := none, name := .word k!"e", values := [⟨.word k!"x", none⟩] }])
      (.append (AllBreak.append (.one (breaks_any (t := { txt := k!"Table " }) rfl)) (.cons (breaks_name (.word k!"t")) (.one (breaks_any (t := lbrace) rfl)))) (.append
      (AllBreak.flatMap (xs := [.note ⟨k!"note", false, .single (.of k!"a")⟩, .col ⟨.word k!"a", ⟨none, .plain k!"int" none []⟩, none⟩]) breaks_titem)
      (.cons (breaks_name (.word k!"b")) (.cons (breaks_ty ⟨none, .plain k!"text" none []⟩) (.cons (breaks_any (t := lbrack) rfl) (.append
        (AllBreak.flatMap (xs := [ColSet.attr ⟨k!"pk", none⟩]) fun i => .append (breaks_colset i) (.one (breaks_any (t := comma) rfl)))
        (.cons (breaks_key k!"default") (.cons (breaks_any (t := colon) rfl) (.cons (breaks_key k!"nullable") (.cons (breaks_any (t := rbrack) rfl)
      (.one (breaks_any (t := rbrace) rfl))))))))))))
    exact fun t ht => (hall t ht).1 ((by decide +kernel : ∀ t ∈ _, ¬ k!"/*" <:+: Tok.txt t) t ht)
  intro x hx
  simp only [List.mem_cons, List.not_mem_nil, or_false] at hx
  rcases hx with rfl | rfl <;> exact tokOk_of (cs := _) rfl (by decide)

/-- The whole words, by contrast, are values. -/
example : (parseDbmlUnchecked k!"Table t { a int [default: null] b int [default: true, x: false] }").get?.map
    (fun s => (literals s).map (·.value)) = some [.null, .bool true, .bool false] := by decide +kernel

end Dbml.Props
