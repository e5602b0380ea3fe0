import Verif.Proofs.Tail

/-!
# Whole texts with white space appended
-/

namespace Dbml
open Syntax Source

variable {n : Nat}

/-! ## Pairs that stay below an offset -/

mutual
/-- The pair and those inside start and end at `n` at the latest; quoted strings have at most one pair inside, which is a
`leaf`. -/
inductive Fine (n : Nat) : Pair → Prop
  | mk {r sp t cs} : sp.start ≤ n ∧ sp.stop ≤ n → (r.quoted = true → cs = [] ∨ ∃ c, cs = [c] ∧ c.rule.leaf = true) → FineL n cs →
      Fine n (.mk r sp t cs)
inductive FineL (n : Nat) : List Pair → Prop
  | nil : FineL n []
  | cons {p ps} : Fine n p → FineL n ps → FineL n (p :: ps)
end

theorem FineL.append {a b : List Pair} (ha : FineL n a) (hb : FineL n b) : FineL n (a ++ b) := by
  induction a with
  | nil => exact hb
  | cons p a ih => cases ha with | cons h1 h2 => exact .cons h1 (ih h2)

/-- At most one pair, of a `leaf` rule. -/
def PExpr.single : PExpr → Bool
  | .rule r _ b => r.leaf && b.pairless
  | .seq a b => (a.pairless && b.single) || (a.single && b.pairless)
  | .str _ | .insens _ | .cls _ | .soi | .neg _ => true
  | e => e.pairless

/-- Quoted strings have at most one pair inside. -/
def PExpr.thin : PExpr → Bool
  | .str _ | .insens _ | .cls _ | .soi | .eoi => true
  | .seq a b | .alt a b => a.thin && b.thin
  | .opt a | .star a | .neg a => a.thin
  | .rule r _ b => b.thin && (!r.quoted || b.single)

theorem single_pairs {skip T} : ∀ (e : PExpr) {a pos c rest ps}, e.single = true →
    Matches skip T e a pos c rest ps → ps = [] ∨ ∃ p, ps = [p] ∧ p.rule.leaf = true
  | .rule r m b, a, pos, c, rest, ps, hs, h => by
    simp only [PExpr.single, Bool.and_eq_true] at hs
    obtain ⟨ps', h, rfl⟩ := h
    have := pairless_nil b hs.2 h
    subst this
    split
    · exact .inr ⟨_, rfl, hs.1⟩
    · exact .inl rfl
  | .seq x y, a, pos, c, rest, ps, hs, h => by
    obtain ⟨c1, t, c2, p1, p2, -, rfl, h1, -, h2⟩ := h
    simp only [PExpr.single, Bool.or_eq_true, Bool.and_eq_true] at hs
    rcases hs with hs | hs
    · rw [pairless_nil x hs.1 h1]; exact single_pairs y hs.2 h2
    · rw [pairless_nil y hs.2 h2, List.append_nil]; exact single_pairs x hs.1 h1
  | .str _, _, _, _, _, _, _, h | .insens _, _, _, _, _, _, _, h | .cls _, _, _, _, _, _, _, h
  | .soi, _, _, _, _, _, _, h | .neg _, _, _, _, _, _, _, h => .inl (pairless_nil _ rfl h)
  | .eoi, _, _, _, _, _, hs, h | .opt _, _, _, _, _, _, hs, h | .star _, _, _, _, _, _, hs, h
  | .alt _ _, _, _, _, _, _, hs, h => .inl (pairless_nil _ hs h)

theorem fine_of {skip T} : ∀ (e : PExpr) {a pos c rest ps}, e.thin = true → pos + blen c ≤ n →
    Matches skip T e a pos c rest ps → FineL n ps
  | .str s, a, pos, c, rest, ps, ht, hn, h => by rw [h.2]; exact .nil
  | .insens s, a, pos, c, rest, ps, ht, hn, h => by rw [h.2]; exact .nil
  | .cls p, a, pos, c, rest, ps, ht, hn, h => by obtain ⟨x, -, -, rfl⟩ := h; exact .nil
  | .soi, a, pos, c, rest, ps, ht, hn, h => by rw [h.2.2]; exact .nil
  | .eoi, a, pos, c, rest, ps, ht, hn, h => by
    obtain ⟨rfl, -, rfl⟩ := h
    split
    · exact .nil
    · exact .cons (.mk (by simp only [blen] at hn; exact ⟨hn, hn⟩) (fun _ => .inl rfl) .nil) .nil
  | .seq x y, a, pos, c, rest, ps, ht, hn, h => by
    obtain ⟨c1, t, c2, p1, p2, rfl, rfl, h1, -, h2⟩ := h
    simp only [PExpr.thin, Bool.and_eq_true] at ht
    simp only [blen_append] at hn
    exact (fine_of x ht.1 (by omega) h1).append (fine_of y ht.2 (by omega) h2)
  | .alt x y, a, pos, c, rest, ps, ht, hn, h => by
    simp only [PExpr.thin, Bool.and_eq_true] at ht
    rcases h with h | ⟨-, h⟩
    · exact fine_of x ht.1 hn h
    · exact fine_of y ht.2 hn h
  | .opt x, a, pos, c, rest, ps, ht, hn, h => by
    rcases h with ⟨-, rfl, -⟩ | h
    · exact .nil
    · exact fine_of x ht hn h
  | .neg x, a, pos, c, rest, ps, ht, hn, h => by rw [h.2.1]; exact .nil
  | .star x, a, pos, c, rest, ps, ht, hn, h => by
    rcases h with ⟨-, rfl, -⟩ | ⟨c1, c2, p1, p2, rfl, rfl, h1, hc⟩
    · exact .nil
    · simp only [blen_append] at hn
      refine (fine_of x ht (by omega) h1).append ?_
      replace hn : pos + blen c1 + blen c2 ≤ n := by omega
      clear h1
      revert hn
      generalize pos + blen c1 = pos at hc
      intro hn
      induction hc with
      | nil => exact .nil
      | cons _ h _ ih =>
        simp only [blen_append] at hn
        exact (fine_of x ht (by omega) h).append (ih (by omega))
  | .rule r m b, a, pos, c, rest, ps, ht, hn, h => by
    simp only [PExpr.thin, Bool.and_eq_true, Bool.or_eq_true, Bool.not_eq_true'] at ht
    obtain ⟨ps', h, rfl⟩ := h
    have hf := fine_of b ht.1 hn h
    split
    · refine .cons (.mk ⟨by simp only; omega, hn⟩ (fun hq => ?_) hf) .nil
      rcases ht.2 with h2 | h2
      · rw [hq] at h2; contradiction
      · exact single_pairs b h2 h
    · exact hf

/-! ## Cut pairs are relabelled pairs -/

theorem er_rule (p : Pair) : (er n p).rule = p.rule := by cases p; rfl
theorem er_text {p : Pair} (h : p.rule.leaf = true) : (er n p).text = p.text := by
  cases p with | mk r sp t cs => simp only [Pair.rule] at h; simp [er, Pair.text, h]

theorem er_innerStr {r sp t t' sp' cs} (h : cs = [] ∨ ∃ c, cs = [c] ∧ c.rule.leaf = true) :
    innerStr (.mk r sp' t' (erL n cs)) = innerStr (.mk r sp t cs) := by
  rcases h with rfl | ⟨c, rfl, h⟩
  · rfl
  · exact er_text h

theorem F_id (sp : Span) : F id sp = sp := by simp only [F]; split <;> simp_all

mutual
theorem Fine.cut : ∀ {m p}, Fine m p → E (clamp n) p (er n p)
  | _, .mk r sp t cs, h => by
    cases h with
    | mk h1 h2 h3 => exact .mk (fun h => by simp [h]) (fun h => er_innerStr (h2 h)) h3.cut
theorem FineL.cut : ∀ {m ps}, FineL m ps → EL (clamp n) ps (erL n ps)
  | _, [], _ => .nil
  | _, p :: ps, h => by cases h with | cons h1 h2 => exact .cons h1.cut h2.cut
end

mutual
theorem Fine.keep : ∀ {p}, Fine n p → E id p (er n p)
  | .mk r sp t cs, h => by
    cases h with
    | mk h1 h2 h3 =>
      have e : F (clamp n) sp = F id sp := by
        rw [F_id]
        simp only [F]
        split
        · simp_all
        · cases sp with | mk a b => simp only [Span.cut, Span.mk.injEq]; simp only at h1; omega
      rw [er, e]
      exact .mk (fun h => by simp [h]) (fun h => er_innerStr (h2 h)) h3.keep
theorem FineL.keep : ∀ {ps}, FineL n ps → EL id ps (erL n ps)
  | [], _ => .nil
  | p :: ps, h => by cases h with | cons h1 h2 => exact .cons h1.keep h2.keep
end

/-! ## Recognising a text with white space appended -/

theorem top_good : (PExpr.star G.top_decl).good .nonAtomic = true := by decide
theorem top_wf : (PExpr.star G.top_decl).wf = true := by decide
theorem top_notbad : ((PExpr.star G.top_decl).flags .nonAtomic).bad = false := by decide
theorem top_notlate : ((PExpr.star G.top_decl).flags .nonAtomic).late = false := by decide
theorem top_thin : (PExpr.star G.top_decl).thin = true := by decide

/-- What the top rule does, from what the skipper and the repetition of declarations do. -/
theorem pest_eq {t c r c1 r1 t1 r2 : Str} {ps : List Pair} (h1 : G.skip t = .ok c r [])
    (h2 : run G.skip (.star G.top_decl) .nonAtomic (blen c) r = .ok c1 r1 ps) (h3 : G.skip r1 = .ok t1 r2 []) :
    (r2 ≠ [] ∧ pestParse t = .fail) ∨
    (r2 = [] ∧ pestParse t = .ok t [] [.mk .schema ⟨0, blen t⟩ t (ps ++ [.mk .EOI ⟨blen t, blen t⟩ [] []])]) := by
  have e1 := (skip_sound _ _ _ _ h1).1
  have e2 := (run_sound skip_sound _ _ _ _ _ _ _ h2).1
  have e3 := (skip_sound _ _ _ _ h3).1
  simp only [pestParse, G.schema]
  generalize PExpr.star G.top_decl = st at h2 ⊢
  simp only [run, bodyAtomicity, emits, seqRes, skipIf, h1, h2, h3, if_true, blen, Nat.zero_add, List.nil_append]
  cases r2 with
  | cons x xs => left; exact ⟨by simp, rfl⟩
  | nil =>
    right
    have e : c ++ (c1 ++ t1) = t := by rw [e1, e2, e3]; simp
    have e' : blen c + blen c1 + blen t1 = blen t := by rw [← e]; simp only [blen_append]; omega
    refine ⟨rfl, ?_⟩
    simp [e, e']

theorem pest_append {w : Str} (hw : White w) (t : Str) :
    (pestParse t = .fail ∧ pestParse (t ++ w) = .fail) ∨
    ∃ ps qs e e', erL (blen t) ps = erL (blen t) qs ∧ FineL (blen t) ps ∧ FineL (blen (t ++ w)) qs ∧
      pestParse t = .ok t [] [.mk .schema ⟨0, blen t⟩ t (ps ++ [.mk .EOI e [] []])] ∧
      pestParse (t ++ w) = .ok (t ++ w) [] [.mk .schema ⟨0, blen (t ++ w)⟩ (t ++ w) (qs ++ [.mk .EOI e' [] []])] := by
  obtain ⟨c, r, h1, h2⟩ := skip_tail hw t
  have hs := (skip_sound _ _ _ _ h1).1
  have hbt : blen t = blen c + blen r := by rw [hs, blen_append]
  -- the second run after skipping
  have h2' : ∃ c' v, G.skip (t ++ w) = .ok c' (r ++ v) [] ∧ White v ∧ (blen c = blen c' ∨ r = []) := by
    rcases h2 with ⟨h2, h3⟩ | ⟨h2, h3⟩
    · exact ⟨c, w, h3, hw, .inl rfl⟩
    · subst h2; exact ⟨c ++ w, [], h3, white_nil, .inr rfl⟩
  obtain ⟨c', v, h2, hv, hp⟩ := h2'
  have hsw := (skip_sound _ _ _ _ h2).1
  have key := run_tail (n := blen t) (.star G.top_decl) top_wf .nonAtomic top_good v hv (blen c) (blen c') r hp (by omega)
  have fine : ∀ p i c1 r1 ps, run G.skip (.star G.top_decl) .nonAtomic p i = .ok c1 r1 ps → ∀ k, p + blen i = k → FineL k ps := by
    intro p i c1 r1 ps h k hk
    obtain ⟨e, hm⟩ := run_sound skip_sound _ _ _ _ _ _ _ h
    rw [e, blen_append] at hk
    exact fine_of _ top_thin (by omega) hm
  have nofail : run G.skip (.star G.top_decl) .nonAtomic (blen c) r ≠ .fail := by
    generalize G.top_decl = d
    simp only [run]
    split
    · simp
    · simp
    · split
      · simp
      · rename_i h; exact absurd h (repLoop_ne_fail _ _ _)
      · simp
  have bt : blen c + blen r = blen t := hbt.symm
  have btw : blen c' + blen (r ++ v) = blen (t ++ w) := by rw [hsw]; simp only [blen_append]
  generalize hX : run G.skip (.star G.top_decl) .nonAtomic (blen c) r = X at key nofail
  generalize hY : run G.skip (.star G.top_decl) .nonAtomic (blen c') (r ++ v) = Y at key
  cases key with
  | fail => exact absurd rfl nofail
  | late => exact absurd rfl nofail
  | @same c1 r1 ps e =>
    obtain ⟨t1, r2, k1, ⟨k2, k3⟩ | ⟨rfl, k3⟩⟩ := skip_tail hv r1
    · rcases pest_eq h1 hX k1 with ⟨-, g1⟩ | ⟨g1, -⟩
      · rcases pest_eq h2 hY k3 with ⟨-, g2⟩ | ⟨g2, -⟩
        · exact .inl ⟨g1, g2⟩
        · simp [k2] at g2
      · exact absurd g1 k2
    · rcases pest_eq h1 hX k1 with ⟨g1, -⟩ | ⟨-, g1⟩
      · exact absurd rfl g1
      · rcases pest_eq h2 hY k3 with ⟨g2, -⟩ | ⟨-, g2⟩
        · exact absurd rfl g2
        · exact .inr ⟨ps, ps, _, _, rfl, fine _ _ _ _ _ hX _ bt, fine _ _ _ _ _ hY _ btw, g1, g2⟩
  | @loose w1 w2 ps qs e h3 h4 =>
    subst e
    rcases pest_eq h1 hX (Skips.nil solid_nil).skip with ⟨g1, -⟩ | ⟨-, g1⟩
    · exact absurd rfl g1
    · rcases pest_eq h2 hY (skips_white hv.tail).skip with ⟨g2, -⟩ | ⟨-, g2⟩
      · exact absurd rfl g2
      · exact .inr ⟨ps, qs, _, _, h4 top_notbad, fine _ _ _ _ _ hX _ bt, fine _ _ _ _ _ hY _ btw, g1, g2⟩

/-- A walked file keeps the given text and the whole span. -/
theorem parseSchema_header (p : Pair) (i : Str) (s : SchemaBlock) (h : parseSchema p i = .ok s) :
    s.span_range = p.span ∧ s.input = i := by
  unfold parseSchema at h
  generalize p.children = l at h
  have key : ∀ (l : List Pair) (a s : SchemaBlock), l.foldlM (m := Rs) (init := a) (fun acc p1 =>
      match p1.rule with
      | .project_decl => do
        let b ← parseProjectDecl p1
        return { acc with blocks := acc.blocks ++ [.project b] }
      | .table_decl => do
        let b ← parseTableDecl p1
        return { acc with blocks := acc.blocks ++ [.table b] }
      | .enum_decl => do
        let b ← parseEnumDecl p1
        return { acc with blocks := acc.blocks ++ [.enum b] }
      | .ref_decl => do
        let b ← parseRefDecl p1
        return { acc with blocks := acc.blocks ++ [.ref b] }
      | .note_decl => do
        let b ← parseNoteDecl p1
        return { acc with blocks := acc.blocks ++ [.note b] }
      | .table_group_decl => do
        let b ← parseTableGroupDecl p1
        return { acc with blocks := acc.blocks ++ [.tableGroup b] }
      | .EOI => .ok acc
      | _ => throwRules [.project_decl, .table_decl, .enum_decl, .ref_decl, .table_group_decl] p1) = .ok s →
      s.span_range = a.span_range ∧ s.input = a.input := by
    intro l
    induction l with
    | nil => intro a s h; cases h; exact ⟨rfl, rfl⟩
    | cons x l ih =>
      intro a s h
      rw [List.foldlM_cons] at h
      obtain ⟨b, h1, h2⟩ := Rs.bind_eq_ok.1 h
      obtain ⟨h3, h4⟩ := ih _ _ h2
      rw [h3, h4]
      split at h1 <;> first
        | (obtain ⟨c, _, h5⟩ := Rs.bind_eq_ok.1 h1; cases h5; exact ⟨rfl, rfl⟩)
        | (cases h1; done)
        | (cases h1; exact ⟨rfl, rfl⟩)
  exact key l _ s h

end Dbml
