import Verif.Proofs.SkipExact
import Verif.Proofs.Reading8

/-!
# From a successful run back to the tokens: the framework, and tokens

`Lay ts s r`: the text `s` is the tokens `ts`, laid out, followed by `r`. Every successful run of a grammar
expression whose pairs the tree walkers accept lays out the tokens of a well-formed construct.
-/

namespace Dbml
open Syntax Source

/-- A layout of non-empty tokens. -/
def Wr (zs : List Tok) (s : Str) : Prop := Written zs s ∧ ∀ t ∈ zs, t.txt ≠ []

/-- In front of any layout of further tokens at `r`, the text `s` adds the tokens `ts`. -/
def Lay (ts : List Tok) (s r : Str) : Prop := ∀ zs, Wr zs r → Wr (ts ++ zs) s

/-- Implicit skipping at `r1` leads to `r2`. -/
def Gapped (r1 r2 : Str) : Prop := ∃ w, r1 = w ++ r2 ∧ Gap1 w r2

theorem Gapped.wr {r1 r2 zs} (h : Gapped r1 r2) (hz : Wr zs r2) : Wr zs r1 := by
  obtain ⟨w, rfl, hg⟩ := h
  refine ⟨?_, hz.2⟩
  cases zs with
  | nil =>
    rcases hg with ⟨hb, -⟩ | ⟨rfl, hb⟩
    · exact blank_end_append hb hz.1
    · rw [List.append_nil]; exact hb
  | cons t ts =>
    obtain ⟨w', r', rfl, hw, hn, hr⟩ := hz.1
    have hne : w' ++ (t.txt ++ r') ≠ [] := by
      have := hz.2 t (by simp)
      simp [this]
    exact ⟨w ++ w', r', by simp, blank_append (hg.blank hne) hw, hn, hr⟩

theorem Lay.nil {s} : Lay [] s s := fun _ h => h

theorem Lay.tok {t : Tok} {c r : Str} (hc : t.txt = c) (hne : c ≠ []) (hn : t.next r) : Lay [t] (c ++ r) r := by
  intro zs hz
  refine ⟨⟨[], r, by simp [hc], .nil, hn, hz.1⟩, ?_⟩
  intro x hx
  simp at hx
  rcases hx with rfl | hx
  · rwa [hc]
  · exact hz.2 x hx

theorem Lay.seq {t1 t2 s r1 r2 r} (h1 : Lay t1 s r1) (hg : Gapped r1 r2) (h2 : Lay t2 r2 r) :
    Lay (t1 ++ t2) s r := by
  intro zs hz
  have := h1 _ (hg.wr (h2 zs hz))
  simpa using this

theorem Lay.cast {t1 t2 s r} (h : Lay t1 s r) (e : t1 = t2) : Lay t2 s r := e ▸ h

/-! ## Inverting runs -/

theorem seq_ok {x y pos s c r ps} (h : run G.skip (.seq x y) .nonAtomic pos s = .ok c r ps) :
    ∃ c1 r1 p1 t r2 c2 p2, run G.skip x .nonAtomic pos s = .ok c1 r1 p1 ∧ r1 = t ++ r2 ∧ Gap1 t r2 ∧
      run G.skip y .nonAtomic (pos + blen c1 + blen t) r2 = .ok c2 r p2 ∧ c = c1 ++ (t ++ c2) ∧
      ps = p1 ++ p2 := by
  simp only [run] at h
  obtain ⟨c1, r1, p1, t, r2, q, c2, p2, h1, h2, h3, h4, h5⟩ := seqRes_ok h
  obtain ⟨e, hg⟩ := skip_exact _ _ _ _ h2
  exact ⟨c1, r1, p1, t, r2, c2, p2, h1, e, hg, h3, h4, h5⟩

/-- The same, without texts. -/
theorem seq_ok' {x y pos s c r ps} (h : run G.skip (.seq x y) .nonAtomic pos s = .ok c r ps) :
    ∃ c1 r1 p1 pos' r2 c2 p2, run G.skip x .nonAtomic pos s = .ok c1 r1 p1 ∧ Gapped r1 r2 ∧
      run G.skip y .nonAtomic pos' r2 = .ok c2 r p2 ∧ ps = p1 ++ p2 := by
  obtain ⟨c1, r1, p1, t, r2, c2, p2, h1, e, hg, h3, h4, h5⟩ := seq_ok h
  exact ⟨c1, r1, p1, _, r2, c2, p2, h1, ⟨t, e, hg⟩, h3, h5⟩

theorem alt_ok {skip x y a pos s c r ps} (h : run skip (.alt x y) a pos s = .ok c r ps) :
    run skip x a pos s = .ok c r ps ∨ (run skip x a pos s = .fail ∧ run skip y a pos s = .ok c r ps) := by
  simp only [run] at h
  split at h
  · exact .inr ⟨by assumption, h⟩
  · exact .inl h

theorem opt_ok {skip x a pos s c r ps} (h : run skip (.opt x) a pos s = .ok c r ps) :
    (run skip x a pos s = .fail ∧ c = [] ∧ r = s ∧ ps = []) ∨ run skip x a pos s = .ok c r ps := by
  simp only [run] at h
  split at h
  · injection h with h1 h2 h3
    exact .inl ⟨by assumption, h1.symm, h2.symm, h3.symm⟩
  · exact .inr h

theorem str_ok {skip k a pos s c r ps} (h : run skip (.str k) a pos s = .ok c r ps) :
    c = k ∧ s = k ++ r ∧ ps = [] := by
  simp only [run] at h
  split at h <;> try contradiction
  rename_i h1
  injection h with e1 e2 e3; subst e1 e2 e3
  exact ⟨rfl, stripPrefix_some h1, rfl⟩

theorem insens_ok {skip k a pos s c r ps} (h : run skip (.insens k) a pos s = .ok c r ps) :
    Keyword k c ∧ s = c ++ r ∧ ps = [] := by
  simp only [run] at h
  split at h <;> try contradiction
  rename_i h1
  injection h with e1 e2 e3; subst e1 e2 e3
  have := stripPrefixCI_some h1
  exact ⟨keyword_of this.2, this.1, rfl⟩

theorem rule_ok {r m body a pos s c rest ps} (h : run G.skip (.rule r m body) a pos s = .ok c rest ps)
    (he : emits m a = true) :
    ∃ kids sp, ps = [.mk r sp c kids] ∧ run G.skip body (bodyAtomicity m a) pos s = .ok c rest kids := by
  simp only [run] at h
  split at h <;> try contradiction
  rename_i h1
  injection h with e1 e2 e3; subst e1 e2 e3
  exact ⟨_, _, by rw [if_pos he], h1⟩

theorem run_split {e a pos s c r ps} (h : run G.skip e a pos s = .ok c r ps) : s = c ++ r :=
  (run_sound skip_exact _ _ _ _ _ _ _ h).1

/-- Constants. -/
theorem lay_str {k a pos s c r ps} (hk : k ≠ []) (h : run G.skip (.str k) a pos s = .ok c r ps) :
    Lay [{ txt := k }] s r ∧ ps = [] := by
  obtain ⟨rfl, rfl, rfl⟩ := str_ok h
  exact ⟨.tok rfl hk trivial, rfl⟩

/-- Keywords. -/
theorem lay_kw {k k' : Str} {a pos s c r ps} (hk : k.map lowerC = k'.map lowerC) (hne : k ≠ [])
    (h : run G.skip (.insens k) a pos s = .ok c r ps) :
    ∃ kw, Keyword k' kw ∧ Lay [{ txt := kw }] s r ∧ ps = [] := by
  obtain ⟨h1, rfl, rfl⟩ := insens_ok h
  refine ⟨c, h1.trans hk, .tok rfl ?_ trivial, rfl⟩
  rintro rfl
  simp [Keyword] at h1
  exact hne h1

/-! ## Items -/

/-- Every run of `e` emits one pair, and if this pair satisfies `W`, then the run lays out a construct. -/
def Gets {α : Type} (e : PExpr) (W : Pair → Prop) (ok : α → Prop) (toks : α → List Tok) : Prop :=
  ∀ pos s c r ps, run G.skip e .nonAtomic pos s = .ok c r ps →
    ∃ p, ps = [p] ∧ (W p → ∃ x, ok x ∧ Lay (toks x) s r)

theorem Gets.weaken {α : Type} {e : PExpr} {W W' : Pair → Prop} {ok : α → Prop} {toks : α → List Tok}
    (h : Gets e W ok toks) (hw : ∀ p, W' p → W p) : Gets e W' ok toks := by
  intro pos s c r ps hr
  obtain ⟨p, h1, h2⟩ := h _ _ _ _ _ hr
  exact ⟨p, h1, fun hp => h2 (hw p hp)⟩

theorem loop_lay {α : Type} {e : PExpr} {W : Pair → Prop} {ok : α → Prop} {toks : α → List Tok}
    (h : Gets e W ok toks) : ∀ fuel pos s c r ps, repLoop (stepOf G.skip e .nonAtomic) fuel pos s = .ok c r ps →
    (∀ p ∈ ps, W p) → ∃ xs : List α, (∀ x ∈ xs, ok x) ∧
      (xs = [] ∧ r = s ∨ ∃ s', Gapped s s' ∧ Lay (xs.flatMap toks) s' r) := by
  intro fuel
  induction fuel with
  | zero => intro pos s c r ps hr; simp [repLoop] at hr
  | succ n ih =>
    intro pos s c r ps hr hw
    simp only [repLoop] at hr
    split at hr
    · injection hr with e1 e2 e3
      subst e1 e2 e3
      exact ⟨[], by simp, .inl ⟨rfl, rfl⟩⟩
    · contradiction
    · contradiction
    · rename_i c1 r1 p1 _ hs
      split at hr <;> try contradiction
      rename_i c2 r2 p2 hl
      injection hr with e1 e2 e3
      subst e1 e2 e3
      obtain ⟨c1', r1', p1', t, r2', q, c2', p2', h1, h2, h3, h4, h5⟩ := seqRes_ok hs
      injection h1 with e1 e2 e3
      subst e1 e2 e3
      obtain ⟨e2, hg⟩ := skip_exact _ _ _ _ h2
      obtain ⟨p, hp, hx⟩ := h _ _ _ _ _ h3
      subst hp
      simp only [List.nil_append] at h5
      subst h5
      obtain ⟨x, hok, hlay⟩ := hx (hw p (by simp))
      obtain ⟨xs, hoks, hrest⟩ := ih _ _ _ _ _ hl (fun p hp => hw p (by simp [hp]))
      refine ⟨x :: xs, ?_, .inr ⟨r2', ⟨t, e2, hg⟩, ?_⟩⟩
      · intro y hy
        simp at hy
        rcases hy with rfl | hy
        · exact hok
        · exact hoks y hy
      · rcases hrest with ⟨rfl, rfl⟩ | ⟨s', hg', hl'⟩
        · simpa using hlay
        · simpa using Lay.seq hlay hg' hl'

/-- A repetition lays out a list of items. -/
theorem star_lay {α : Type} {e : PExpr} {W : Pair → Prop} {ok : α → Prop} {toks : α → List Tok}
    (h : Gets e W ok toks) {pos s c r ps} (hr : run G.skip (.star e) .nonAtomic pos s = .ok c r ps)
    (hw : ∀ p ∈ ps, W p) : ∃ xs : List α, (∀ x ∈ xs, ok x) ∧ Lay (xs.flatMap toks) s r := by
  simp only [run] at hr
  split at hr
  · injection hr with e1 e2 e3
    subst e1 e2 e3
    exact ⟨[], by simp, .nil⟩
  · contradiction
  · rename_i c1 r1 p1 h1
    split at hr <;> try contradiction
    rename_i c2 r2 p2 hl
    injection hr with e1 e2 e3
    subst e1 e2 e3
    obtain ⟨p, rfl, hx⟩ := h _ _ _ _ _ h1
    obtain ⟨x, hok, hlay⟩ := hx (hw p (by simp))
    obtain ⟨xs, hoks, hrest⟩ := loop_lay h _ _ _ _ _ _ hl (fun p hp => hw p (by simp [hp]))
    refine ⟨x :: xs, ?_, ?_⟩
    · intro y hy
      simp at hy
      rcases hy with rfl | hy
      · exact hok
      · exact hoks y hy
    · rcases hrest with ⟨rfl, rfl⟩ | ⟨s', hg', hl'⟩
      · simpa using hlay
      · simpa using Lay.seq hlay hg' hl'

/-- `item ("," item)*` -/
theorem comma_lay {α : Type} {e : PExpr} {W : Pair → Prop} {ok : α → Prop} {toks : α → List Tok}
    (h : Gets e W ok toks) {pos s c r ps}
    (hr : run G.skip (.seq e (.star (.seq (.str k!",") e))) .nonAtomic pos s = .ok c r ps)
    (hw : ∀ p ∈ ps, W p) : ∃ (x : α) (xs : List α), (∀ y ∈ x :: xs, ok y) ∧ Lay (commaSep toks (x :: xs)) s r := by
  obtain ⟨c1, r1, p1, pos', r2, c2, p2, h1, hg, h2, rfl⟩ := seq_ok' hr
  obtain ⟨p, rfl, hx⟩ := h _ _ _ _ _ h1
  obtain ⟨x, hok, hlay⟩ := hx (hw p (by simp))
  have hitem : Gets (.seq (.str k!",") e) W ok (fun x => comma :: toks x) := by
    intro pos s c r ps hr
    obtain ⟨c1, r1, p1, pos', r2, c2, p2, h1, hg, h2, rfl⟩ := seq_ok' hr
    obtain ⟨l1, rfl⟩ := lay_str (by simp) h1
    obtain ⟨p, rfl, hx⟩ := h _ _ _ _ _ h2
    refine ⟨p, rfl, fun hp => ?_⟩
    obtain ⟨x, hok, hlay⟩ := hx hp
    exact ⟨x, hok, l1.seq hg hlay⟩
  obtain ⟨xs, hoks, hlays⟩ := star_lay hitem h2 (fun p hp => hw p (by simp [hp]))
  refine ⟨x, xs, ?_, hlay.seq hg hlays⟩
  intro y hy
  simp at hy
  rcases hy with rfl | hy
  · exact hok
  · exact hoks y hy

/-- `(item ("," item)*)?` between two constants. -/
theorem list_lay {α : Type} {e : PExpr} {W : Pair → Prop} {ok : α → Prop} {toks : α → List Tok}
    (h : Gets e W ok toks) {pos s c r ps}
    (hr : run G.skip (.opt (.seq e (.star (.seq (.str k!",") e)))) .nonAtomic pos s = .ok c r ps)
    (hw : ∀ p ∈ ps, W p) : ∃ (xs : List α), (∀ y ∈ xs, ok y) ∧ Lay (commaSep toks xs) s r := by
  rcases opt_ok hr with ⟨-, rfl, rfl, rfl⟩ | hr
  · exact ⟨[], by simp, .nil⟩
  · obtain ⟨x, xs, h1, h2⟩ := comma_lay h hr hw
    exact ⟨_, h1, h2⟩

theorem bracketed_lay {α : Type} {e : PExpr} {W : Pair → Prop} {ok : α → Prop} {toks : α → List Tok}
    (h : Gets e W ok toks) {pos s c r ps} (hr : run G.skip (G.bracketed e) .nonAtomic pos s = .ok c r ps)
    (hw : ∀ p ∈ ps, W p) : ∃ (xs : List α), (∀ y ∈ xs, ok y) ∧ Lay (brackets toks xs) s r := by
  obtain ⟨c1, r1, p1, pos', r2, c2, p2, h1, hg, h2, rfl⟩ := seq_ok' hr
  obtain ⟨l1, rfl⟩ := lay_str (by simp) h1
  obtain ⟨c1, r1, p1, pos', r2, c2, p2, h3, hg', h4, rfl⟩ := seq_ok' h2
  obtain ⟨l2, rfl⟩ := lay_str (by simp) h4
  obtain ⟨xs, hok, hl⟩ := list_lay h h3 (fun p hp => hw p (by simp [hp]))
  exact ⟨xs, hok, l1.seq hg (hl.seq hg' l2)⟩

/-- `"{" item* "}"` -/
theorem braced_lay {α : Type} {e : PExpr} {W : Pair → Prop} {ok : α → Prop} {toks : α → List Tok}
    (h : Gets e W ok toks) {pos s c r ps}
    (hr : run G.skip (.seq (.str k!"{") (.seq (.star e) (.str k!"}"))) .nonAtomic pos s = .ok c r ps)
    (hw : ∀ p ∈ ps, W p) :
    ∃ (xs : List α), (∀ y ∈ xs, ok y) ∧ Lay (lbrace :: (xs.flatMap toks ++ [rbrace])) s r := by
  obtain ⟨c1, r1, p1, pos', r2, c2, p2, h1, hg, h2, rfl⟩ := seq_ok' hr
  obtain ⟨l1, rfl⟩ := lay_str (by simp) h1
  obtain ⟨c1, r1, p1, pos', r2, c2, p2, h3, hg', h4, rfl⟩ := seq_ok' h2
  obtain ⟨l2, rfl⟩ := lay_str (by simp) h4
  obtain ⟨xs, hok, hl⟩ := star_lay h h3 (fun p hp => hw p (by simp [hp]))
  exact ⟨xs, hok, l1.seq hg (hl.seq hg' l2)⟩

/-- If a fold succeeds, then every step does. -/
theorem foldlM_steps {β γ : Type} {f : β → γ → Rs β} : ∀ {l : List γ} {b y : β}, l.foldlM f b = .ok y →
    ∀ p ∈ l, ∃ a a', f a p = .ok a'
  | [], _, _, _, p, hp => by simp at hp
  | q :: l, b, y, h, p, hp => by
    rw [List.foldlM_cons] at h
    obtain ⟨b', h1, h2⟩ := Rs.bind_eq_ok.1 h
    simp at hp
    rcases hp with rfl | hp
    · exact ⟨b, b', h1⟩
    · exact foldlM_steps h2 p hp

theorem mapM_steps {β γ : Type} {f : γ → Rs β} : ∀ {l : List γ} {y : List β}, l.mapM f = .ok y →
    ∀ p ∈ l, ∃ a, f p = .ok a
  | [], _, _, p, hp => by simp at hp
  | q :: l, y, h, p, hp => by
    rw [List.mapM_cons] at h
    obtain ⟨b', h1, h2⟩ := Rs.bind_eq_ok.1 h
    obtain ⟨b'', h3, h4⟩ := Rs.bind_eq_ok.1 h2
    simp at hp
    rcases hp with rfl | hp
    · exact ⟨b', h1⟩
    · exact mapM_steps h3 p hp

/-! ## Words -/

theorem clsStar_ok {p a pos c rest ps} (ha : a ≠ .nonAtomic)
    (h : Matches G.skip Gap1 (.star (.cls p)) a pos c rest ps) :
    ps = [] ∧ (∀ x ∈ c, p x = true) ∧ HeadP (fun x => ¬ p x = true) rest := by
  refine star_atomic ha (fun _ c rest ps => ps = [] ∧ (∀ x ∈ c, p x = true) ∧ HeadP (fun x => ¬ p x = true) rest)
    ?_ ?_ h
  · rintro pos rest hf
    refine ⟨rfl, by simp, ?_⟩
    rintro x t rfl hx
    simp [run, hx] at hf
  · rintro pos c c' rest p p' ⟨x, rfl, hx, rfl⟩ ⟨rfl, h2, h3⟩
    refine ⟨rfl, ?_, h3⟩
    simp [hx]
    exact h2

theorem var_ok {a pos s c r ps} (ha : a ≠ .atomic) (h : run G.skip G.var a pos s = .ok c r ps) :
    IsVar c ∧ Next.word r ∧ s = c ++ r ∧ ∃ sp, ps = [.mk .var sp c []] := by
  obtain ⟨kids, sp, rfl, hb⟩ := rule_ok h (by simpa [emits] using ha)
  obtain ⟨e, hm⟩ := run_sound skip_exact _ _ _ _ _ _ _ hb
  rw [seq_atomic (by simp [bodyAtomicity])] at hm
  obtain ⟨c1, c2, p1, p2, rfl, rfl, ⟨x, rfl, hx, rfl⟩, h2⟩ := hm
  obtain ⟨rfl, h3, h4⟩ := clsStar_ok (by simp [bodyAtomicity]) h2
  refine ⟨⟨x, c2, rfl, (isAlpha_iff _).1 hx, fun y hy => (isWordChar_iff _).1 (h3 y hy)⟩, ?_, e, sp, rfl⟩
  intro y t e hw
  exact h4 y t e ((isWordChar_iff _).2 hw)

theorem spaced_ok {a pos s c r ps} (ha : a ≠ .atomic) (h : run G.skip G.spaced_var a pos s = .ok c r ps) :
    IsSpacedVar c ∧ Next.spaced r ∧ s = c ++ r ∧ ∃ sp, ps = [.mk .spaced_var sp c []] := by
  obtain ⟨kids, sp, rfl, hb⟩ := rule_ok h (by simpa [emits] using ha)
  obtain ⟨e, hm⟩ := run_sound skip_exact _ _ _ _ _ _ _ hb
  rw [seq_atomic (by simp [bodyAtomicity])] at hm
  obtain ⟨c1, c2, p1, p2, rfl, rfl, ⟨x, rfl, hx, rfl⟩, h2⟩ := hm
  have := star_atomic (by simp [bodyAtomicity]) (fun _ c r ps => ps = [] ∧ SpacedTail c ∧ Next.spaced r) (by
    intro pos rest hf
    refine ⟨rfl, .nil, ?_, ?_⟩
    · rintro y t rfl hw
      have hsp : y ≠ ' ' := by rintro rfl; simp [IsWord] at hw
      have := (isWordChar_iff _).2 hw
      simp [run, bodyAtomicity, stripPrefix, Ne.symm hsp, seqRes, skipIf, G.WORD, this] at hf
    · rintro y t rfl hw
      have := (isWordChar_iff _).2 hw
      simp [run, bodyAtomicity, stripPrefix, seqRes, skipIf, G.WORD, this] at hf) (by
    intro pos c c' rest p p' hm ⟨hp, ht, hn⟩
    rw [seq_atomic (by simp [bodyAtomicity])] at hm
    obtain ⟨c1, c2, p1, p2, rfl, rfl, h1, ⟨y, rfl, hy, rfl⟩⟩ := hm
    have hw := (isWordChar_iff _).1 hy
    rcases h1 with ⟨rfl, rfl, -⟩ | ⟨rfl, rfl⟩
    · exact ⟨by simpa using hp, .word hw ht, hn⟩
    · exact ⟨by simpa using hp, .blank hw ht, hn⟩) h2
  obtain ⟨rfl, ht, hn⟩ := this
  exact ⟨⟨x, c2, rfl, (isAlpha_iff _).1 hx, ht⟩, hn, e, sp, rfl⟩

theorem spaced_ne {s : Str} (h : IsSpacedVar s) : s ≠ [] := by
  obtain ⟨c, cs, rfl, -⟩ := h; simp
theorem var_ne {s : Str} (h : IsVar s) : s ≠ [] := by
  obtain ⟨c, cs, rfl, -⟩ := h; simp

/-! ## Quoted texts -/

theorem quoted_ok {q : Str} {rl rv : Rule} {a pos s c r ps} (ha : a ≠ .atomic)
    (hq : ∃ x xs, q = x :: xs ∧ ¬ IsSpace x ∧ x ≠ '/')
    (h : run G.skip (.rule rl .normal (.seq (.str q)
      (.seq (.rule rv .atomic (.star (.seq (.neg (.str q)) G.ANY))) (.str q)))) a pos s = .ok c r ps) :
    ∃ x : Quote, x.In a q r ∧ c = x.text q ∧ s = c ++ r ∧
      ∃ sp sp', ps = [.mk rl sp c [.mk rv sp' x.val []]] := by
  obtain ⟨kids, sp, rfl, hb⟩ := rule_ok h (emits_normal ha)
  obtain ⟨e, hm⟩ := run_sound skip_exact _ _ _ _ _ _ _ hb
  simp only [bodyAtomicity] at hm
  obtain ⟨c1, t, c2, p1, p2, rfl, rfl, ⟨rfl, rfl⟩, ht, h2⟩ := hm
  obtain ⟨c3, t2, c4, p3, p4, rfl, rfl, h3, ht2, ⟨rfl, rfl⟩⟩ := h2
  obtain ⟨kids, hu, rfl⟩ := h3
  obtain ⟨rfl, hi, he⟩ := until_matches (by simp [bodyAtomicity]) str_pos hu
  simp only [str_fail_iff] at hi
  obtain ⟨x, xs, rfl, hx1, hx2⟩ := hq
  have ht2' : t2 = [] := by
    have hbl : Blank t2 := by
      cases a with
      | nonAtomic => exact Gap1.blank ht2 (by simp)
      | atomic => exact absurd rfl ha
      | compound => rw [show t2 = [] from ht2]; exact .nil
    cases t2 with
    | nil => rfl
    | cons d ds =>
      rcases he with he | he
      · rw [ne_eq, str_fail_iff, Classical.not_not] at he
        simp at he
        rcases blank_head hbl d ds rfl with hd | hd
        · exact absurd (he.1 ▸ hd) hx1
        · exact absurd (he.1.trans hd) hx2
      · simp at he
  subst ht2'
  have hcl : Closed (x :: xs) c3 := by
    intro i hlt hp
    refine hi i hlt (hp.trans ?_)
    rw [List.drop_append_of_le_length (by omega), List.drop_append_of_le_length (by omega)]
    simp
  refine ⟨⟨t, c3⟩, ?_, by simp [Quote.text], e, _, _, by rw [emits_atomic ha]; simp; exact ⟨rfl, rfl⟩⟩
  cases a with
  | atomic => exact absurd rfl ha
  | compound => exact ⟨ht, hcl⟩
  | nonAtomic =>
    have hg : Gap1 t (c3 ++ ((x :: xs) ++ r)) := by simpa [TrivIf] using ht
    have hs := hg.solid
    simp only [Solid, StartsBlank, not_or] at hs
    refine ⟨⟨hg.blank (by simp), hcl, ?_, ?_⟩, ?_⟩
    · intro d ds hd hsp
      simp only at hd
      subst hd
      exact hs.1 ⟨d, _, rfl, hsp⟩
    · intro hp
      exact hs.2.1 (List.IsPrefix.trans hp (List.prefix_append _ _))
    · intro hp hinf
      simp only at hp hinf
      refine hs.2.2 ⟨hp.trans (List.prefix_append _ _), ?_⟩
      have : 2 ≤ c3.length := hp.length_le
      rw [List.drop_append_of_le_length this]
      exact hinf

theorem dq_ok {a pos s c r ps} (ha : a ≠ .atomic) (h : run G.skip G.double_quoted_string a pos s = .ok c r ps) :
    ∃ x : Quote, x.In a k!"\"" r ∧ c = x.text k!"\"" ∧ s = c ++ r ∧
      ∃ sp sp', ps = [.mk .double_quoted_string sp c [.mk .double_quoted_value sp' x.val []]] :=
  quoted_ok ha ⟨_, _, rfl, by decide, by decide⟩ h

theorem sq_ok {a pos s c r ps} (ha : a ≠ .atomic) (h : run G.skip G.single_quoted_string a pos s = .ok c r ps) :
    ∃ x : Quote, x.In a k!"'" r ∧ c = x.text k!"'" ∧ s = c ++ r ∧
      ∃ sp sp', ps = [.mk .single_quoted_string sp c [.mk .single_quoted_value sp' x.val []]] :=
  quoted_ok ha ⟨_, _, rfl, by decide, by decide⟩ h

theorem bq_ok {a pos s c r ps} (ha : a ≠ .atomic)
    (h : run G.skip G.backquoted_quoted_string a pos s = .ok c r ps) :
    ∃ x : Quote, x.In a k!"`" r ∧ c = x.text k!"`" ∧ s = c ++ r ∧
      ∃ sp sp', ps = [.mk .backquoted_quoted_string sp c [.mk .backquoted_quoted_value sp' x.val []]] :=
  quoted_ok ha ⟨_, _, rfl, by decide, by decide⟩ h

theorem tq_ok {a pos s c r ps} (ha : a ≠ .atomic) (h : run G.skip G.triple_quoted_string a pos s = .ok c r ps) :
    ∃ x : Quote, x.In a k!"'''" r ∧ c = x.text k!"'''" ∧ s = c ++ r ∧
      ∃ sp sp', ps = [.mk .triple_quoted_string sp c [.mk .triple_quoted_value sp' x.val []]] :=
  quoted_ok ha ⟨_, _, rfl, by decide, by decide⟩ h

/-! ## Names and literals -/

theorem ident_ok {a pos s c r ps} (ha : a ≠ .atomic) (h : run G.skip G.ident a pos s = .ok c r ps) :
    ∃ n : Name, n.In a r ∧ c = n.text ∧ s = c ++ r ∧ ∃ p, ps = [p] ∧ p.rule = .ident ∧
      ∀ x, parseIdent p = .ok x → x.to_string = n.value := by
  obtain ⟨kids, sp, rfl, hb⟩ := rule_ok h (emits_normal ha)
  rcases alt_ok hb with hb | ⟨-, hb⟩
  · obtain ⟨h1, h2, h3, sp', rfl⟩ := var_ok ha hb
    exact ⟨.word c, ⟨h1, h2⟩, rfl, h3, _, rfl, rfl, by rintro x ⟨⟩; rfl⟩
  · obtain ⟨x, h1, h2, h3, sp', sp'', rfl⟩ := dq_ok ha hb
    exact ⟨.quoted x, h1, h2, h3, _, rfl, rfl, by rintro x ⟨⟩; rfl⟩

theorem string_ok {a pos s c r ps} (ha : a ≠ .atomic) (h : run G.skip G.string_value a pos s = .ok c r ps) :
    ∃ l : StrLit, l.In a r ∧ c = l.text ∧ s = c ++ r ∧ ∃ p, ps = [p] ∧ p.rule = .string_value ∧ p.text = c ∧
      ∀ x, parseStringValue p = .ok x → x = l.value := by
  obtain ⟨kids, sp, rfl, hb⟩ := rule_ok h (emits_normal ha)
  rcases alt_ok hb with hb | ⟨-, hb⟩
  · obtain ⟨x, h1, h2, h3, sp', sp'', rfl⟩ := tq_ok ha hb
    exact ⟨.triple x, h1, h2, h3, _, rfl, rfl, rfl, by rintro x ⟨⟩; rfl⟩
  · obtain ⟨x, h1, h2, h3, sp', sp'', rfl⟩ := sq_ok ha hb
    exact ⟨.single x, h1, h2, h3, _, rfl, rfl, rfl, by rintro x ⟨⟩; rfl⟩

theorem hex3_ok {a pos c rest ps} (ha : a ≠ .nonAtomic) (h : Matches G.skip Gap1 G.hex3 a pos c rest ps) :
    ps = [] ∧ c.length = 3 ∧ ∀ x ∈ c, IsHexDigit x := by
  rw [G.hex3, seq_atomic ha] at h
  obtain ⟨c1, c2, p1, p2, rfl, rfl, ⟨x, rfl, hx, rfl⟩, h2⟩ := h
  rw [seq_atomic ha] at h2
  obtain ⟨c1, c2, p1, p2, rfl, rfl, ⟨y, rfl, hy, rfl⟩, ⟨z, rfl, hz, rfl⟩⟩ := h2
  refine ⟨rfl, rfl, ?_⟩
  simp [← isHex_iff, hx, hy, hz]

theorem hex_ok {a pos s c r ps} (ha : a ≠ .atomic) (h : run G.skip G.hex_value a pos s = .ok c r ps) :
    ∃ ds, c = '#' :: ds ∧ (Lit.hex ds).NumOk ∧ (Lit.hex ds).next r ∧ s = c ++ r ∧
      ∃ sp, ps = [.mk .hex_value sp c []] := by
  obtain ⟨kids, sp, rfl, hb⟩ := rule_ok h (by simpa [emits] using ha)
  obtain ⟨e, hm⟩ := run_sound skip_exact _ _ _ _ _ _ _ hb
  have hne : bodyAtomicity .atomic a ≠ .nonAtomic := by simp [bodyAtomicity]
  rw [seq_atomic hne] at hm
  obtain ⟨c1, c2, p1, p2, rfl, rfl, ⟨rfl, rfl⟩, h2⟩ := hm
  rw [seq_atomic hne] at h2
  obtain ⟨c3, c4, p3, p4, rfl, rfl, h3, h4⟩ := h2
  obtain ⟨rfl, l3, x3⟩ := hex3_ok hne h3
  rcases h4 with ⟨rfl, rfl, hf⟩ | h4
  · refine ⟨c3, by simp, ⟨x3, .inl l3⟩, ?_, e, sp, rfl⟩
    match c3, l3 with
    | [x, y, z], _ =>
      rintro ⟨d1, d2, d3, t, rfl, h1, h2, h3⟩
      have h1 := (isHex_iff _).2 h1
      have h2 := (isHex_iff _).2 h2
      have h3 := (isHex_iff _).2 h3
      simp [bodyAtomicity, G.hex3, G.ASCII_HEX_DIGIT, run, seqRes, skipIf, h1, h2, h3] at hf
  · obtain ⟨rfl, l4, x4⟩ := hex3_ok hne h4
    refine ⟨c3 ++ c4, by simp, ⟨?_, .inr (by simp [l3, l4])⟩, ?_, e, sp, rfl⟩
    · simp only [List.mem_append]
      rintro d (h | h)
      · exact x3 d h
      · exact x4 d h
    · match c3, c4, l3, l4 with
      | [_, _, _], [_, _, _], _, _ => trivial

theorem digits_ok {a pos c rest ps} (ha : a ≠ .nonAtomic)
    (h : Matches G.skip Gap1 (.seq G.ASCII_DIGIT (.star G.ASCII_DIGIT)) a pos c rest ps) :
    ps = [] ∧ IsDigits c := by
  rw [seq_atomic ha] at h
  obtain ⟨c1, c2, p1, p2, rfl, rfl, ⟨x, rfl, hx, rfl⟩, h2⟩ := h
  obtain ⟨rfl, h3, -⟩ := clsStar_ok ha h2
  refine ⟨rfl, by simp, ?_⟩
  intro c hc
  simp at hc
  rcases hc with rfl | hc
  · exact (isDigit_iff _).1 hx
  · exact (isDigit_iff _).1 (h3 _ hc)

theorem integer_ok {a pos s c r ps} (ha : a ≠ .atomic) (h : run G.skip G.integer a pos s = .ok c r ps) :
    IsDigits c ∧ s = c ++ r ∧ ∃ sp, ps = [.mk .integer sp c []] := by
  obtain ⟨kids, sp, rfl, hb⟩ := rule_ok h (by simpa [emits] using ha)
  obtain ⟨e, hm⟩ := run_sound skip_exact _ _ _ _ _ _ _ hb
  obtain ⟨rfl, hv⟩ := digits_ok (by simp [bodyAtomicity]) hm
  exact ⟨hv, e, sp, rfl⟩

theorem decimal_ok {a pos s c r ps} (ha : a ≠ .atomic) (h : run G.skip G.decimal a pos s = .ok c r ps) :
    ∃ x y, c = x ++ ('.' :: y) ∧ (Lit.dec x y).NumOk ∧ s = c ++ r ∧ ∃ sp, ps = [.mk .decimal sp c []] := by
  obtain ⟨kids, sp, rfl, hb⟩ := rule_ok h (by simpa [emits] using ha)
  obtain ⟨e, hm⟩ := run_sound skip_exact _ _ _ _ _ _ _ hb
  have hne : bodyAtomicity .atomic a ≠ .nonAtomic := by simp [bodyAtomicity]
  rw [seq_atomic hne] at hm
  obtain ⟨c1, c2, p1, p2, rfl, rfl, h1, h2⟩ := hm
  obtain ⟨rfl, hd⟩ := digits_ok hne h1
  rw [seq_atomic hne] at h2
  obtain ⟨c3, c4, p3, p4, rfl, rfl, ⟨rfl, rfl⟩, h4⟩ := h2
  obtain ⟨rfl, h5, -⟩ := clsStar_ok hne h4
  exact ⟨c1, c4, by simp, ⟨hd, fun d hd => (isDigit_iff _).1 (h5 _ hd)⟩, e, sp, rfl⟩

theorem value_ok {a pos s c r ps} (ha : a ≠ .atomic) (h : run G.skip G.value a pos s = .ok c r ps) :
    ∃ p, ps = [p] ∧ p.rule = .value ∧ p.text = c ∧ s = c ++ r ∧
      ∀ v, parseValue p = .ok v → ∃ l : Lit, l.In a r ∧ c = l.text ∧ v = l.value ∧
        ((∃ sl, l = .str sl) → ∃ c r ps, run G.skip G.string_value a pos s = .ok c r ps) := by
  obtain ⟨kids, sp, rfl, hb⟩ := rule_ok h (emits_normal ha)
  refine ⟨_, rfl, rfl, rfl, run_split h, ?_⟩
  intro v hv
  simp only [bodyAtomicity] at hb
  rcases alt_ok hb with hb | ⟨-, hb⟩
  · obtain ⟨l, h1, h2, h3, p, rfl, hr, ht, hw⟩ := string_ok ha hb
    simp only [parseValue, Pair.children_mk, List.head?_cons, Rs.orPanic, Rs.bind_def, Rs.ok_bind, hr] at hv
    obtain ⟨x, hx, hv⟩ := Rs.bind_ok.1 hv
    cases hv
    exact ⟨.str l, h1, h2, by rw [hw x hx]; rfl, fun _ => ⟨_, _, _, hb⟩⟩
  rcases alt_ok hb with hb | ⟨-, hb⟩
  · obtain ⟨x, h1, h2, h3, sp, sp', rfl⟩ := bq_ok ha hb
    cases hv
    exact ⟨.expr x, h1, h2, rfl, by rintro ⟨sl, ⟨⟩⟩⟩
  rcases alt_ok hb with hb | ⟨-, hb⟩
  · obtain ⟨kids, sp, rfl, hc⟩ := rule_ok hb (by simpa [emits] using ha)
    have hb := hc
    rcases alt_ok hb with hb | ⟨-, hb⟩
    · obtain ⟨rfl, -, rfl⟩ := str_ok hb
      cases hv
      exact ⟨.tru, ⟨trivial, trivial⟩, rfl, rfl, by rintro ⟨sl, ⟨⟩⟩⟩
    rcases alt_ok hb with hb | ⟨-, hb⟩
    · obtain ⟨rfl, -, rfl⟩ := str_ok hb
      cases hv
      exact ⟨.fls, ⟨trivial, trivial⟩, rfl, rfl, by rintro ⟨sl, ⟨⟩⟩⟩
    · obtain ⟨rfl, -, rfl⟩ := str_ok hb
      cases hv
      exact ⟨.null, ⟨trivial, trivial⟩, rfl, rfl, by rintro ⟨sl, ⟨⟩⟩⟩
  rcases alt_ok hb with hb | ⟨-, hb⟩
  · obtain ⟨kids, sp, rfl, hc⟩ := rule_ok hb (emits_normal ha)
    have hb := hc
    simp only [bodyAtomicity] at hb
    rcases alt_ok hb with hb | ⟨-, hb⟩
    · obtain ⟨x, y, h1, h2, h3, sp, rfl⟩ := decimal_ok ha hb
      cases hv
      exact ⟨.dec x y, ⟨h2, trivial⟩, h1, by rw [h1]; rfl, by rintro ⟨sl, ⟨⟩⟩⟩
    · obtain ⟨h1, h2, sp, rfl⟩ := integer_ok ha hb
      simp only [parseValue, Pair.children_mk, List.head?_cons, Rs.orPanic, Rs.bind_def, Rs.ok_bind, Pair.rule_mk,
        Pair.text_mk] at hv
      cases hn : parseUnsigned c i64Max with
      | none => simp [hn, throwMsg] at hv
      | some n =>
        simp [hn] at hv
        obtain ⟨rfl, hlt⟩ := parseUnsigned_some hn
        exact ⟨.int c, ⟨⟨h1, by simp only [i64Max] at hlt; omega⟩, trivial⟩, rfl, hv.symm, by rintro ⟨sl, ⟨⟩⟩⟩
  · obtain ⟨ds, h1, h2, h3, h4, sp, rfl⟩ := hex_ok ha hb
    cases hv
    exact ⟨.hex ds, ⟨h2, h3⟩, h1, by rw [h1]; rfl, by rintro ⟨sl, ⟨⟩⟩⟩

end Dbml
