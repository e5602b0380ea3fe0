import Verif.Proofs.Invert1

/-!
# From a successful run back to the tokens: names, attributes, notes, projects
-/

namespace Dbml
open Syntax Source

/-- The walker accepts the pair. -/
abbrev Acc {α : Type} (f : Pair → Rs α) (p : Pair) : Prop := ∃ x, f p = .ok x

/-- Like `Gets`; the pair is of rule `rl`. -/
def GetsR {α : Type} (e : PExpr) (rl : Rule) (W : Pair → Prop) (ok : α → Prop) (toks : α → List Tok) : Prop :=
  ∀ pos s c r ps, run G.skip e .nonAtomic pos s = .ok c r ps →
    ∃ p, ps = [p] ∧ p.rule = rl ∧ (W p → ∃ x, ok x ∧ Lay (toks x) s r)

theorem GetsR.gets {α : Type} {e : PExpr} {rl : Rule} {W W' : Pair → Prop} {ok : α → Prop} {toks : α → List Tok}
    (h : GetsR e rl W ok toks) (hw : ∀ p, p.rule = rl → W' p → W p) : Gets e W' ok toks := by
  intro pos s c r ps hr
  obtain ⟨p, h1, h2, h3⟩ := h _ _ _ _ _ hr
  exact ⟨p, h1, fun hp => h3 (hw p h2 hp)⟩

/-- Change of the construct. -/
theorem GetsR.map {α β : Type} {e : PExpr} {rl : Rule} {W : Pair → Prop} {ok : α → Prop} {toks : α → List Tok}
    {ok' : β → Prop} {toks' : β → List Tok} (f : α → β) (h : GetsR e rl W ok toks) (h1 : ∀ x, ok x → ok' (f x))
    (h2 : ∀ x, toks' (f x) = toks x) : GetsR e rl W ok' toks' := by
  intro pos s c r ps hr
  obtain ⟨p, e1, e2, h3⟩ := h _ _ _ _ _ hr
  refine ⟨p, e1, e2, fun hp => ?_⟩
  obtain ⟨x, hx, hl⟩ := h3 hp
  exact ⟨f x, h1 x hx, by rw [h2]; exact hl⟩

theorem Gets.map {α β : Type} {e : PExpr} {W : Pair → Prop} {ok : α → Prop} {toks : α → List Tok}
    {ok' : β → Prop} {toks' : β → List Tok} (f : α → β) (h : Gets e W ok toks) (h1 : ∀ x, ok x → ok' (f x))
    (h2 : ∀ x, toks' (f x) = toks x) : Gets e W ok' toks' := by
  intro pos s c r ps hr
  obtain ⟨p, e1, h3⟩ := h _ _ _ _ _ hr
  refine ⟨p, e1, fun hp => ?_⟩
  obtain ⟨x, hx, hl⟩ := h3 hp
  exact ⟨f x, h1 x hx, by rw [h2]; exact hl⟩

theorem Gets.alt {α : Type} {e e' : PExpr} {W : Pair → Prop} {ok : α → Prop} {toks : α → List Tok}
    (h : Gets e W ok toks) (h' : Gets e' W ok toks) : Gets (.alt e e') W ok toks := by
  intro pos s c r ps hr
  rcases alt_ok hr with hr | ⟨-, hr⟩
  · exact h _ _ _ _ _ hr
  · exact h' _ _ _ _ _ hr

/-! ## Tokens -/

theorem quote_text_ne {q : Str} (hq : q ≠ []) (x : Quote) : x.text q ≠ [] := by simp [Quote.text, hq]

theorem Source.Name.of_loose {n : Name} {r : Str} (h : n.In .nonAtomic r) : n.Ok ∧ n.next r := by
  cases n <;> exact h

theorem Source.StrLit.of_loose {n : StrLit} {r : Str} (h : n.In .nonAtomic r) : n.Ok ∧ n.next r := by
  cases n <;> exact h

theorem Source.Lit.of_loose {n : Lit} {r : Str} (h : n.In .nonAtomic r) : n.Ok ∧ n.next r := by
  cases n with
  | str l => exact StrLit.of_loose h
  | _ => exact h

theorem Source.Name.text_ne {n : Name} (h : n.Ok) : n.text ≠ [] := by
  cases n with
  | word s => exact var_ne h
  | quoted x => exact quote_text_ne (by simp) x

theorem Source.StrLit.text_ne (l : StrLit) : l.text ≠ [] := by
  cases l <;> exact quote_text_ne (by simp) _

theorem Source.Lit.text_ne {l : Lit} (h : l.Ok) : l.text ≠ [] := by
  cases l with
  | str l => exact l.text_ne
  | expr x => exact quote_text_ne (by simp) _
  | int ds => exact h.1.1
  | dec a b => simp [Lit.text]
  | hex h => simp [Lit.text]
  | _ => simp [Lit.text]

theorem ident_lay : GetsR G.ident .ident (fun _ => True) Name.Ok (fun n => [n.tok]) := by
  intro pos s c r ps h
  obtain ⟨n, hn, rfl, rfl, p, rfl, hr, -⟩ := ident_ok na h
  obtain ⟨h1, h2⟩ := Name.of_loose hn
  exact ⟨p, rfl, hr, fun _ => ⟨n, h1, .tok rfl (Name.text_ne h1) h2⟩⟩

theorem string_lay : GetsR G.string_value .string_value (fun _ => True) StrLit.Ok (fun n => [n.tok]) := by
  intro pos s c r ps h
  obtain ⟨n, hn, rfl, rfl, p, rfl, hr, -⟩ := string_ok na h
  obtain ⟨h1, h2⟩ := StrLit.of_loose hn
  exact ⟨p, rfl, hr, fun _ => ⟨n, h1, .tok rfl n.text_ne h2⟩⟩

/-! ## Attributes -/

/-- A pair that stands for the value of an attribute. -/
def ValI (p : Pair) (s r : Str) (Q : AVal → Prop) : Prop :=
  ∀ k sp0 t sp rl x, IsSpacedVar k → parseAttribute (.mk rl sp0 t [.mk .spaced_var sp k [], p]) = .ok x →
    ∃ v : AVal, v.Ok ∧ Lay [v.tok] s r ∧ x.mapSpan noPos = { key := keyAst k, value := some v.ast } ∧ Q v

theorem ValI.mono {p s r} {Q Q' : AVal → Prop} (h : ValI p s r Q) (hq : ∀ v, Q v → Q' v) : ValI p s r Q' := by
  intro k sp0 t sp rl x hk hx
  obtain ⟨v, h1, h2, h3, h4⟩ := h k sp0 t sp rl x hk hx
  exact ⟨v, h1, h2, h3, hq v h4⟩

/-- `value | spaced_var` -/
theorem pval_lay {pos s c r ps} (h : run G.skip (.alt G.value G.spaced_var) .nonAtomic pos s = .ok c r ps) :
    ∃ p, ps = [p] ∧ ValI p s r (fun v => (∀ x, v ≠ .dq x) ∧
      ((∃ sl, v = .lit (.str sl)) → ∃ c r ps, run G.skip G.string_value .nonAtomic pos s = .ok c r ps)) := by
  rcases alt_ok h with h | ⟨hf, h⟩
  · obtain ⟨⟨rl, sp, t, ks⟩, rfl, hr, ht, rfl, hv⟩ := value_ok na h
    simp only [Pair.rule_mk, Pair.text_mk] at hr ht
    subst hr ht
    refine ⟨_, rfl, ?_⟩
    intro k sp0 t' sp' rl x hk hx
    simp only [parseAttribute, Pair.children_mk, List.foldlM_cons, List.foldlM_nil, Pair.rule_mk, Pair.span_mk,
      Pair.text_mk, Rs.bind_def, Rs.pure_def, List.isEmpty_nil, if_true, Rs.ok_bind] at hx
    obtain ⟨x', hx', hx⟩ := Rs.bind_ok.1 hx
    cases hx
    obtain ⟨v, hv', hx'⟩ := Rs.bind_ok.1 hx'
    cases hx'
    obtain ⟨l, h1, rfl, rfl, h4⟩ := hv v hv'
    obtain ⟨h1, h2⟩ := Lit.of_loose h1
    refine ⟨.lit l, h1, .tok rfl (Lit.text_ne h1) h2, rfl, by simp, ?_⟩
    rintro ⟨sl, hsl⟩
    injection hsl with hsl
    exact h4 ⟨sl, hsl⟩
  · obtain ⟨h1, h2, rfl, sp, rfl⟩ := spaced_ok na h
    refine ⟨_, rfl, ?_⟩
    intro k sp0 t' sp' rl x hk hx
    have hk' := spaced_nonempty hk
    simp only [parseAttribute, Pair.children_mk, List.foldlM_cons, List.foldlM_nil, Pair.rule_mk, Pair.span_mk,
      Pair.text_mk, Rs.bind_def, Rs.pure_def, List.isEmpty_nil, if_true, Rs.ok_bind, hk', Bool.false_eq_true,
      if_false] at hx
    cases hx
    have hl : ¬ LikeLiteral c := fun hl => value_fail_like hf (like_append hl)
    refine ⟨.word c, ⟨h1, ?_, ?_, ?_⟩, .tok rfl (spaced_ne h1) h2, rfl, by simp, by simp⟩
    · exact fun h => hl (.inl h)
    · exact fun h => hl (.inr (.inl h))
    · exact fun h => hl (.inr (.inr h))

/-- `value | spaced_var | double_quoted_string` -/
theorem aval_lay {pos s c r ps}
    (h : run G.skip (.alt G.value (.alt G.spaced_var G.double_quoted_string)) .nonAtomic pos s = .ok c r ps) :
    ∃ p, ps = [p] ∧ ValI p s r (fun _ => True) := by
  have h' : run G.skip (.alt G.value G.spaced_var) .nonAtomic pos s = .ok c r ps ∨
      run G.skip G.double_quoted_string .nonAtomic pos s = .ok c r ps := by
    rcases alt_ok h with h | ⟨hf, h⟩
    · exact .inl (alt_left h)
    · rcases alt_ok h with h | ⟨-, h⟩
      · exact .inl (by rw [alt_right hf]; exact h)
      · exact .inr h
  rcases h' with h | h
  · obtain ⟨p, h1, h2⟩ := pval_lay h
    exact ⟨p, h1, h2.mono fun _ _ => trivial⟩
  · obtain ⟨y, hy, rfl, rfl, sp, sp', rfl⟩ := dq_ok na h
    refine ⟨_, rfl, ?_⟩
    intro k sp0 t' sp' rl x hk hx
    cases hx
    exact ⟨.dq y, hy.1, .tok rfl (quote_text_ne (by simp) _) hy.2, rfl, trivial⟩

theorem attr_lay {pos s c r ps} (h : run G.skip G.attr .nonAtomic pos s = .ok c r ps) :
    ∃ p, ps = [p] ∧ p.rule = .attribute ∧ ∀ x, parseAttribute p = .ok x →
      ∃ a : Attr, a.Ok ∧ Lay a.toks s r ∧ x.mapSpan noPos = a.ast := by
  obtain ⟨kids, sp, rfl, hb⟩ := rule_ok h rfl
  refine ⟨_, rfl, rfl, ?_⟩
  intro x hx
  obtain ⟨c1, r1, p1, pos', r2, c2, p2, h1, hg, h2, rfl⟩ := seq_ok' hb
  obtain ⟨hk, hn, rfl, sp', rfl⟩ := spaced_ok na h1
  have l1 : Lay [keyTok c1] (c1 ++ r1) r1 := .tok rfl (spaced_ne hk) hn
  rcases opt_ok h2 with ⟨-, rfl, rfl, rfl⟩ | h2
  · cases hx
    exact ⟨⟨c1, none⟩, ⟨hk, by simp⟩, l1.seq hg .nil, rfl⟩
  · obtain ⟨c3, r3, p3, pos'', r4, c4, p4, h3, hg', h4, rfl⟩ := seq_ok' h2
    obtain ⟨l2, rfl⟩ := lay_str (by simp) h3
    obtain ⟨p, rfl, hv⟩ := aval_lay h4
    obtain ⟨v, hv, l3, hx, -⟩ := hv _ _ _ _ _ x hk hx
    exact ⟨⟨c1, some v⟩, ⟨hk, by rintro _ ⟨⟩; exact hv⟩, l1.seq hg (l2.seq hg' l3), hx⟩

theorem attr_gets : GetsR G.attr .attribute (Acc parseAttribute) Attr.Ok Attr.toks := by
  intro pos s c r ps h
  obtain ⟨p, h1, h2, h3⟩ := attr_lay h
  refine ⟨p, h1, h2, ?_⟩
  rintro ⟨x, hx⟩
  obtain ⟨a, ha, hl, -⟩ := h3 x hx
  exact ⟨a, ha, hl⟩

/-! ## Notes -/

theorem note_lay : GetsR G.note_decl .note_decl (fun _ => True) Source.Note.Ok Source.Note.toks := by
  intro pos s c r ps h
  obtain ⟨kids, sp, rfl, hb⟩ := rule_ok h rfl
  refine ⟨_, rfl, rfl, fun _ => ?_⟩
  rcases alt_ok hb with h | ⟨-, h⟩
  · obtain ⟨kids, sp, rfl, hc⟩ := rule_ok h rfl
    obtain ⟨c1, r1, p1, pos', r2, c2, p2, h1, hg, h2, rfl⟩ := seq_ok' hc
    obtain ⟨kw, hk, l1, rfl⟩ := lay_kw (k' := k!"note") (by decide) (by simp) h1
    obtain ⟨c3, r3, p3, pos'', r4, c4, p4, h3, hg', h4, rfl⟩ := seq_ok' h2
    obtain ⟨l2, rfl⟩ := lay_str (by simp) h3
    obtain ⟨p, rfl, -, hs⟩ := string_lay _ _ _ _ _ h4
    obtain ⟨l, hl, l3⟩ := hs trivial
    exact ⟨⟨kw, false, l⟩, ⟨hk, hl⟩, l1.seq hg (l2.seq hg' l3)⟩
  · obtain ⟨kids, sp, rfl, hc⟩ := rule_ok h rfl
    obtain ⟨c1, r1, p1, pos', r2, c2, p2, h1, hg, h2, rfl⟩ := seq_ok' hc
    obtain ⟨kw, hk, l1, rfl⟩ := lay_kw (k' := k!"note") (by decide) (by simp) h1
    obtain ⟨c3, r3, p3, pos'', r4, c4, p4, h3, hg', h4, rfl⟩ := seq_ok' h2
    obtain ⟨l2, rfl⟩ := lay_str (by simp) h3
    obtain ⟨c5, r5, p5, pos3, r6, c6, p6, h5, hg3, h6, rfl⟩ := seq_ok' h4
    obtain ⟨p, rfl, -, hs⟩ := string_lay _ _ _ _ _ h5
    obtain ⟨l4, rfl⟩ := lay_str (by simp) h6
    obtain ⟨l, hl, l3⟩ := hs trivial
    exact ⟨⟨kw, true, l⟩, ⟨hk, hl⟩, l1.seq hg (l2.seq hg' (l3.seq hg3 l4))⟩

/-! ## Projects -/

/-- The step of the project block's loop accepts the pair. -/
abbrev ProjAcc (p : Pair) : Prop :=
  (p.rule = .note_decl ∧ Acc parseNoteDecl p) ∨ (p.rule = .property ∧ Acc parseProperty p)

theorem note_short_at {k w1 w2 s pos} {r2 : Str} (hk : Keyword k!"note" k) (hg : Gap1 w1 (k!":" ++ r2))
    (hw : r2 = w2 ++ s) (hg' : Gap1 w2 s)
    (h : ∃ c r ps, run G.skip G.string_value .nonAtomic (pos + blen k + blen w1 + blen k!":" + blen w2) s = .ok c r ps) :
    run G.skip G.note_decl .nonAtomic pos (k ++ (w1 ++ (k!":" ++ r2))) ≠ .fail := by
  obtain ⟨c, r, ps, h⟩ := h
  subst hw
  have hs1 := (skip_of_solid hg.solid).2 hg
  have hs2 := (skip_of_solid hg'.solid).2 hg'
  have hk' : run G.skip (.insens k!"Note") .nonAtomic pos (k ++ (w1 ++ (k!":" ++ (w2 ++ s)))) =
      .ok k (w1 ++ (k!":" ++ (w2 ++ s))) [] := insens_run (by exact hk)
  have h1 := seq_skip (a := .nonAtomic) hs1 hk' (seq_skip (a := .nonAtomic) hs2 (str_run (s := k!":")) h)
  have h2 := rule_normal (r := .note_short) na h1
  have h3 := rule_normal (r := .note_decl) na (alt_left (y := G.note_block) h2)
  intro hf
  rw [show G.note_decl = .rule .note_decl .normal (.alt (.rule .note_short .normal (.seq (.insens k!"Note")
    (.seq (.str k!":") G.string_value))) G.note_block) from rfl, h3] at hf
  simp at hf

theorem proj_item_lay : Gets (.alt G.note_decl G.property) ProjAcc ProjItem.Ok ProjItem.toks := by
  intro pos s c r ps h
  rcases alt_ok h with h | ⟨hf, h⟩
  · obtain ⟨p, h1, -, h3⟩ := note_lay _ _ _ _ _ h
    refine ⟨p, h1, fun _ => ?_⟩
    obtain ⟨n, hn, hl⟩ := h3 trivial
    exact ⟨.note n, hn, hl⟩
  · obtain ⟨kids, sp, rfl, hb⟩ := rule_ok h rfl
    refine ⟨_, rfl, ?_⟩
    rintro (⟨hr, -⟩ | ⟨-, x, hx⟩)
    · simp at hr
    obtain ⟨c1, r1, p1, w1, r2, c2, p2, h1, rfl, hg, h2, -, rfl⟩ := seq_ok hb
    obtain ⟨hk, hn, rfl, sp', rfl⟩ := spaced_ok na h1
    have l1 : Lay [keyTok c1] (c1 ++ (w1 ++ r2)) (w1 ++ r2) := .tok rfl (spaced_ne hk) hn
    obtain ⟨c3, r3, p3, w2, r4, c4, p4, h3, rfl, hg', h4, -, rfl⟩ := seq_ok h2
    obtain ⟨l2, rfl⟩ := lay_str (by simp) h3
    obtain ⟨rfl, rfl, -⟩ := str_ok h3
    obtain ⟨p, rfl, hv⟩ := pval_lay h4
    unfold parseProperty at hx
    obtain ⟨i, hi, -⟩ := Rs.bind_eq_ok.1 hx
    obtain ⟨v, hv, l3, -, hd, hstr⟩ := hv _ _ _ _ _ i hk hi
    refine ⟨.prop c1 v, ⟨hk, hv, hd, ?_⟩, l1.seq ⟨_, rfl, hg⟩ (l2.seq ⟨_, rfl, hg'⟩ l3)⟩
    rintro ⟨hkw, hsl⟩
    exact note_short_at hkw hg rfl hg' (hstr hsl) hf

theorem project_lay : GetsR G.project_decl .project_decl (Acc parseProjectDecl) Source.Project.Ok
    Source.Project.toks := by
  intro pos s c r ps h
  obtain ⟨kids, sp, rfl, hb⟩ := rule_ok h rfl
  refine ⟨_, rfl, rfl, ?_⟩
  rintro ⟨x, hx⟩
  obtain ⟨c1, r1, p1, pos', r2, c2, p2, h1, hg, h2, rfl⟩ := seq_ok' hb
  obtain ⟨kw, hk, l1, rfl⟩ := lay_kw (k' := k!"project ") (by decide) (by simp) h1
  obtain ⟨c3, r3, p3, pos'', r4, c4, p4, h3, hg', h4, rfl⟩ := seq_ok' h2
  obtain ⟨p, rfl, hr, hi⟩ := ident_lay _ _ _ _ _ h3
  obtain ⟨n, hn, l2⟩ := hi trivial
  obtain ⟨kids, sp', rfl, hb'⟩ := rule_ok h4 rfl
  have hkids : ∀ p ∈ kids, ProjAcc p := by
    obtain ⟨a, a', ha⟩ := foldlM_steps hx (.mk .project_block sp' c4 kids) (by simp)
    simp only [Pair.rule_mk, Pair.children_mk] at ha
    intro q hq
    obtain ⟨b, b', hb⟩ := foldlM_steps ha q hq
    split at hb
    · rename_i hr
      obtain ⟨y, hy, -⟩ := Rs.bind_eq_ok.1 hb
      exact .inr ⟨hr, y, hy⟩
    · rename_i hr
      obtain ⟨y, hy, -⟩ := Rs.bind_eq_ok.1 hb
      exact .inl ⟨hr, y, hy⟩
    · simp [throwRules] at hb
  obtain ⟨is, his, l3⟩ := braced_lay proj_item_lay hb' hkids
  exact ⟨⟨kw, n, is⟩, ⟨hk, hn, his⟩, l1.seq hg (l2.seq hg' l3)⟩

end Dbml
