import Verif.Proofs.Rename1
import Mathlib.Data.List.Forall2

/-!
# Renaming: runs with located tokens, the framework
-/

namespace Dbml
open Syntax Source Spec

/-! ## New spellings -/

/-- New spellings of the names at some positions. -/
abbrev Sp := Nat → Option Name

def noSp : Sp := fun _ => none

def SpOk (g : Sp) : Prop := ∀ p w, g p = some w → w.Ok

/-- The identifier in its new spelling. -/
def ren (g : Sp) (i : Ident) : Ident :=
  match g i.span_range.start with
  | some w => { i with raw := w.text, to_string := w.value }
  | none => i

/-- The identifier stands where one of the tokens stands. -/
def HasAt (ls : List LT) (i : Ident) : Prop := i.span_range ∈ ls.filterMap LT.span?

theorem HasAt.left {l1 l2 : List LT} {i} (h : HasAt l1 i) : HasAt (l1 ++ l2) i := by
  unfold HasAt at *; rw [List.filterMap_append]; exact List.mem_append_left _ h
theorem HasAt.right {l1 l2 : List LT} {i} (h : HasAt l2 i) : HasAt (l1 ++ l2) i := by
  unfold HasAt at *; rw [List.filterMap_append]; exact List.mem_append_right _ h

theorem tok_append (g : Sp) (a b : List LT) : (a ++ b).map (LT.tok g) = a.map (LT.tok g) ++ b.map (LT.tok g) :=
  List.map_append

/-- Whatever the new spellings, the tokens are those of a well-formed construct. -/
def Tr {α : Type} (ok : α → Prop) (toks : α → List Tok) (ls : List LT) (X : Sp → α) : Prop :=
  (∀ g, SpOk g → ok (X g)) ∧ ∀ g, ls.map (LT.tok g) = toks (X g)

/-- The tokens `ls` are those of the construct `X`, which is what `b` stands for. -/
def Got {α β : Type} (ok : α → Prop) (toks : α → List Tok) (ids : β → List Ident) (T : (Sp → α) → β → Prop)
    (ls : List LT) (X : Sp → α) (b : β) : Prop := Tr ok toks ls X ∧ (∀ i ∈ ids b, HasAt ls i) ∧ T X b

/-- The same for lists. -/
def GotL {α β : Type} (ok : α → Prop) (toks : List α → List Tok) (ids : β → List Ident) (T : (Sp → α) → β → Prop)
    (ls : List LT) (Xs : List (Sp → α)) (bs : List β) : Prop :=
  (∀ g, SpOk g → ∀ X ∈ Xs, ok (X g)) ∧ (∀ g, ls.map (LT.tok g) = toks (Xs.map (· g))) ∧
    (∀ b ∈ bs, ∀ i ∈ ids b, HasAt ls i) ∧ List.Forall₂ T Xs bs

/-- Every run of `e` emits one pair, with `R`; if it stands for `b`, then the run lays out such a construct. -/
def Item {α β : Type} (D : Prop) (e : PExpr) (D' : Prop) (R : Pair → Prop) (W : Pair → β → Prop) (ok : α → Prop)
    (toks : α → List Tok) (ids : β → List Ident) (T : (Sp → α) → β → Prop) : Prop :=
  ∀ pos s c r ps, run G.skip e .nonAtomic pos s = .ok c r ps → ∃ p, ps = [p] ∧ R p ∧ ∀ b, W p b →
    ∃ ls X, LayD D ls pos s D' (pos + blen c) r ∧ Got ok toks ids T ls X b

section
variable {α β : Type} {D D' : Prop} {e : PExpr} {R : Pair → Prop} {W : Pair → β → Prop} {ok : α → Prop}
  {toks : α → List Tok} {ids : β → List Ident} {T : (Sp → α) → β → Prop}

theorem Item.any (h : Item D e D' R W ok toks ids T) : Item D e True R W ok toks ids T := by
  intro pos s c r ps hr
  obtain ⟨p, h1, h2, h3⟩ := h _ _ _ _ _ hr
  refine ⟨p, h1, h2, fun b hb => ?_⟩
  obtain ⟨ls, X, hl, hg⟩ := h3 b hb
  exact ⟨ls, X, hl.any, hg⟩

theorem Item.rule {R' : Pair → Prop} (h : Item D e D' R W ok toks ids T) (hr : ∀ p, R p → R' p) :
    Item D e D' R' W ok toks ids T := by
  intro pos s c r ps hrun
  obtain ⟨p, h1, h2, h3⟩ := h _ _ _ _ _ hrun
  exact ⟨p, h1, hr p h2, h3⟩

theorem Item.alt {e' : PExpr} (h : Item D e D' R W ok toks ids T) (h' : Item D e' D' R W ok toks ids T) :
    Item D (.alt e e') D' R W ok toks ids T := by
  intro pos s c r ps hr
  rcases alt_ok hr with hr | ⟨-, hr⟩
  · exact h _ _ _ _ _ hr
  · exact h' _ _ _ _ _ hr

/-- Change of the construct. -/
theorem Item.map {α' β' : Type} {W' : Pair → β' → Prop} {ok' : α' → Prop} {toks' : α' → List Tok}
    {ids' : β' → List Ident} {T' : (Sp → α') → β' → Prop} (f : α → α')
    (h : Item D e D' R W ok toks ids T) (hw : ∀ p b', R p → W' p b' → ∃ b, W p b ∧ ids b = ids' b' ∧
      ∀ X, T X b → T' (fun g => f (X g)) b')
    (h1 : ∀ x, ok x → ok' (f x)) (h2 : ∀ x, toks' (f x) = toks x) : Item D e D' R W' ok' toks' ids' T' := by
  intro pos s c r ps hr
  obtain ⟨p, e1, e2, h3⟩ := h _ _ _ _ _ hr
  refine ⟨p, e1, e2, fun b' hb' => ?_⟩
  obtain ⟨b, hb, hi, ht⟩ := hw p b' e2 hb'
  obtain ⟨ls, X, hl, ⟨g1, g2⟩, g3, g4⟩ := h3 b hb
  exact ⟨ls, fun g => f (X g), hl, ⟨fun g hg => h1 _ (g1 g hg), fun g => by rw [h2]; exact g2 g⟩, hi ▸ g3, ht X g4⟩

/-! ## Sequences -/

theorem seq_okP {x y : PExpr} {pos s c r ps} (h : run G.skip (.seq x y) .nonAtomic pos s = .ok c r ps) :
    ∃ c1 r1 p1 pos2 r2 c2 p2, run G.skip x .nonAtomic pos s = .ok c1 r1 p1 ∧ GappedP (pos + blen c1) r1 pos2 r2 ∧
      run G.skip y .nonAtomic pos2 r2 = .ok c2 r p2 ∧ pos2 + blen c2 = pos + blen c ∧ ps = p1 ++ p2 := by
  obtain ⟨c1, r1, p1, t, r2, c2, p2, h1, e, hg, h3, h4, h5⟩ := seq_ok h
  refine ⟨c1, r1, p1, _, r2, c2, p2, h1, ⟨t, e, hg, rfl⟩, h3, ?_, h5⟩
  rw [h4, blen_append, blen_append]
  omega

theorem keep_str {k a pos s c r ps} {D : Prop} (hk : k ≠ []) (hx : D → ∃ x ∈ k, ¬ IsHexDigit x)
    (h : run G.skip (.str k) a pos s = .ok c r ps) :
    LayD D [.keep { txt := k }] pos s False (pos + blen c) r ∧ ps = [] := by
  obtain ⟨rfl, rfl, rfl⟩ := str_ok h
  exact ⟨.keep rfl hk (soft_any rfl) hx trivial, rfl⟩

theorem keep_kw {k k' : Str} {a pos s c r ps} (hk : k.map lowerC = k'.map lowerC) (hne : k ≠ [])
    (h : run G.skip (.insens k) a pos s = .ok c r ps) :
    ∃ kw, Keyword k' kw ∧ LayD False [.keep { txt := kw }] pos s False (pos + blen c) r ∧ ps = [] := by
  obtain ⟨h1, rfl, rfl⟩ := insens_ok h
  refine ⟨c, h1.trans hk, .keep rfl ?_ (soft_any rfl) (fun h => h.elim) trivial, rfl⟩
  rintro rfl
  simp [Keyword] at h1
  exact hne h1

/-! ## Lists -/

theorem GotL.nil {toksL : List α → List Tok} (h : toksL [] = []) : GotL ok toksL ids T [] [] [] :=
  ⟨by simp, fun g => by simp [h], by simp, .nil⟩

theorem GotL.cons {ls1 ls2 X Xs b bs} (h1 : Got ok toks ids T ls1 X b)
    (h2 : GotL ok (fun xs => xs.flatMap toks) ids T ls2 Xs bs) :
    GotL ok (fun xs => xs.flatMap toks) ids T (ls1 ++ ls2) (X :: Xs) (b :: bs) := by
  obtain ⟨⟨a1, a2⟩, a3, a4⟩ := h1
  obtain ⟨b1, b2, b3, b4⟩ := h2
  refine ⟨?_, ?_, ?_, .cons a4 b4⟩
  · intro g hg Y hY
    rcases List.mem_cons.1 hY with rfl | hY
    · exact a1 g hg
    · exact b1 g hg Y hY
  · intro g
    rw [tok_append, a2 g, b2 g]
    rfl
  · intro y hy i hi
    rcases List.mem_cons.1 hy with rfl | hy
    · exact (a3 i hi).left
    · exact (b3 y hy i hi).right

theorem loop_item (h : Item D e D R W ok toks ids T) : ∀ fuel pos s c r ps,
    repLoop (stepOf G.skip e .nonAtomic) fuel pos s = .ok c r ps → (∀ p ∈ ps, R p) ∧
      ∀ bs, List.Forall₂ W ps bs → ∃ ls Xs, GotL ok (fun xs => xs.flatMap toks) ids T ls Xs bs ∧
        ((ls = [] ∧ c = [] ∧ r = s) ∨ ∃ pos' s', GappedP pos s pos' s' ∧ LayD D ls pos' s' D (pos + blen c) r) := by
  intro fuel
  induction fuel with
  | zero => intro pos s c r ps hr; simp [repLoop] at hr
  | succ n ih =>
    intro pos s c r ps hr
    simp only [repLoop] at hr
    split at hr
    · injection hr with e1 e2 e3
      subst e1 e2 e3
      refine ⟨by simp, ?_⟩
      rintro bs hbs
      cases hbs
      exact ⟨[], [], .nil rfl, .inl ⟨rfl, rfl, rfl⟩⟩
    · contradiction
    · contradiction
    · rename_i c1 r1 p1 _ hs
      split at hr <;> try contradiction
      rename_i c2 r2 p2 hl
      injection hr with e1 e2 e3
      subst e1 e2 e3
      obtain ⟨c1', r1', p1', t, r2', q, c2', p2', h1, h2, h3, h4, h5⟩ := seqRes_ok hs
      injection h1 with e1 e2 e3
      subst e1 e2 e3
      obtain ⟨e2, hg⟩ := skip_exact _ _ _ _ h2
      obtain ⟨p, hp, hR, hx⟩ := h _ _ _ _ _ h3
      subst hp
      simp only [List.nil_append] at h5
      subst h5
      obtain ⟨hRs, hrest⟩ := ih _ _ _ _ _ hl
      refine ⟨?_, ?_⟩
      · intro y hy
        rcases List.mem_append.1 hy with hy | hy
        · simp at hy; exact hy ▸ hR
        · exact hRs y hy
      intro bs hbs
      cases hbs with
      | cons hb hbs =>
      obtain ⟨ls1, X, l1, g1⟩ := hx _ hb
      obtain ⟨ls2, Xs, g2, hrest⟩ := hrest _ hbs
      refine ⟨ls1 ++ ls2, X :: Xs, GotL.cons g1 g2, .inr ⟨_, r2', ⟨t, e2, hg, rfl⟩, ?_⟩⟩
      have hpos : pos + blen t + blen c2' = pos + blen c1 := by
        rw [h4]; simp [blen_append, Nat.add_assoc]
      have hpos0 : pos + blen ([] : Str) + blen t = pos + blen t := by simp
      rw [hpos0] at l1
      rw [hpos] at l1
      rcases hrest with ⟨rfl, rfl, rfl⟩ | ⟨pos', s', hg', hl'⟩
      · simpa using l1
      · exact (l1.seq hg' hl').at (by rw [blen_append]; omega)

theorem star_item (h : Item D e D R W ok toks ids T) {pos s c r ps}
    (hr : run G.skip (.star e) .nonAtomic pos s = .ok c r ps) : (∀ p ∈ ps, R p) ∧
      ∀ bs, List.Forall₂ W ps bs → ∃ ls Xs, LayD D ls pos s D (pos + blen c) r ∧
        GotL ok (fun xs => xs.flatMap toks) ids T ls Xs bs := by
  simp only [run] at hr
  split at hr
  · injection hr with e1 e2 e3
    subst e1 e2 e3
    refine ⟨by simp, ?_⟩
    intro bs hbs
    cases hbs
    exact ⟨[], [], .nil, .nil rfl⟩
  · contradiction
  · rename_i c1 r1 p1 h1
    split at hr <;> try contradiction
    rename_i c2 r2 p2 hl
    injection hr with e1 e2 e3
    subst e1 e2 e3
    obtain ⟨p, rfl, hR, hx⟩ := h _ _ _ _ _ h1
    obtain ⟨hRs, hrest⟩ := loop_item h _ _ _ _ _ _ hl
    refine ⟨?_, ?_⟩
    · intro y hy
      rcases List.mem_append.1 hy with hy | hy
      · simp at hy; exact hy ▸ hR
      · exact hRs y hy
    intro bs hbs
    cases hbs with
    | cons hb hbs =>
    obtain ⟨ls1, X, l1, g1⟩ := hx _ hb
    obtain ⟨ls2, Xs, g2, hrest⟩ := hrest _ hbs
    refine ⟨ls1 ++ ls2, X :: Xs, ?_, GotL.cons g1 g2⟩
    rcases hrest with ⟨rfl, rfl, rfl⟩ | ⟨pos', s', hg', hl'⟩
    · simpa using l1
    · exact (l1.seq hg' hl').at (by rw [blen_append]; omega)

/-- `item ("," item)*` -/
theorem comma_item (h : Item False e True R W ok toks ids T) {pos s c r ps}
    (hr : run G.skip (.seq e (.star (.seq (.str k!",") e))) .nonAtomic pos s = .ok c r ps) :
    (∀ p ∈ ps, R p) ∧ ∀ bs, List.Forall₂ W ps bs → ∃ ls X Xs, LayD False ls pos s True (pos + blen c) r ∧
      GotL ok (commaSep toks) ids T ls (X :: Xs) bs := by
  obtain ⟨c1, r1, p1, pos2, r2, c2, p2, h1, hg, h2, hp, rfl⟩ := seq_okP hr
  obtain ⟨p, rfl, hR, hx⟩ := h _ _ _ _ _ h1
  have hitem : Item True (.seq (.str k!",") e) True R W ok (fun x => comma :: toks x) ids T := by
    intro pos s c r ps hr
    obtain ⟨c1, r1, p1, pos2, r2, c2, p2, h1, hg, h2, hp, rfl⟩ := seq_okP hr
    obtain ⟨l1, rfl⟩ := keep_str (D := True) (by simp) (fun _ => ⟨',', by simp, by decide⟩) h1
    obtain ⟨p, rfl, hR, hx⟩ := h _ _ _ _ _ h2
    refine ⟨p, rfl, hR, fun b hb => ?_⟩
    obtain ⟨ls, X, l2, ⟨g1, g2⟩, g3, g4⟩ := hx b hb
    refine ⟨_, X, (l1.seq hg l2).at hp, ⟨g1, ?_⟩, fun i hi => (g3 i hi).right, g4⟩
    intro g
    rw [tok_append, g2 g]
    rfl
  obtain ⟨hRs, hrest⟩ := star_item hitem h2
  refine ⟨?_, ?_⟩
  · intro y hy
    rcases List.mem_append.1 hy with hy | hy
    · simp at hy; exact hy ▸ hR
    · exact hRs y hy
  intro bs hbs
  cases hbs with
  | cons hb hbs =>
  obtain ⟨ls1, X, l1, ⟨a1, a2⟩, a3, a4⟩ := hx _ hb
  obtain ⟨ls2, Xs, l2, b1, b2, b3, b4⟩ := hrest _ hbs
  refine ⟨ls1 ++ ls2, X, Xs, (l1.seq hg l2).at hp, ?_, ?_, ?_, .cons a4 b4⟩
  · intro g hg Y hY
    rcases List.mem_cons.1 hY with rfl | hY
    · exact a1 g hg
    · exact b1 g hg Y hY
  · intro g
    rw [tok_append, a2 g, b2 g]
    rfl
  · intro y hy i hi
    rcases List.mem_cons.1 hy with rfl | hy
    · exact (a3 i hi).left
    · exact (b3 y hy i hi).right

theorem list_item (h : Item False e True R W ok toks ids T) {pos s c r ps}
    (hr : run G.skip (.opt (.seq e (.star (.seq (.str k!",") e)))) .nonAtomic pos s = .ok c r ps) :
    (∀ p ∈ ps, R p) ∧ ∀ bs, List.Forall₂ W ps bs → ∃ ls Xs, LayD False ls pos s True (pos + blen c) r ∧
      GotL ok (commaSep toks) ids T ls Xs bs := by
  rcases opt_ok hr with ⟨-, rfl, rfl, rfl⟩ | hr
  · refine ⟨by simp, ?_⟩
    intro bs hbs
    cases hbs
    exact ⟨[], [], LayD.nil.any, .nil rfl⟩
  · obtain ⟨h1, h2⟩ := comma_item h hr
    refine ⟨h1, fun bs hbs => ?_⟩
    obtain ⟨ls, X, Xs, h3, h4⟩ := h2 bs hbs
    exact ⟨ls, _, h3, h4⟩

/-- `"[" (item ("," item)*)? "]"` -/
theorem bracketed_item (h : Item False e True R W ok toks ids T) {pos s c r ps}
    (hr : run G.skip (G.bracketed e) .nonAtomic pos s = .ok c r ps) :
    (∀ p ∈ ps, R p) ∧ ∀ bs, List.Forall₂ W ps bs → ∃ ls Xs, LayD False ls pos s False (pos + blen c) r ∧
      GotL ok (brackets toks) ids T ls Xs bs := by
  obtain ⟨c1, r1, p1, pos2, r2, c2, p2, h1, hg, h2, hp, rfl⟩ := seq_okP hr
  obtain ⟨l1, rfl⟩ := keep_str (D := False) (by simp) (fun h => h.elim) h1
  obtain ⟨c3, r3, p3, pos3, r4, c4, p4, h3, hg', h4, hp', rfl⟩ := seq_okP h2
  obtain ⟨l3, rfl⟩ := keep_str (D := True) (by simp) (fun _ => ⟨']', by simp, by decide⟩) h4
  obtain ⟨h5, h6⟩ := list_item h h3
  refine ⟨by simpa using h5, fun bs hbs => ?_⟩
  obtain ⟨ls, Xs, l2, g1, g2, g3, g4⟩ := h6 bs (by simpa using hbs)
  refine ⟨_, Xs, (l1.seq hg (l2.seq hg' l3)).at (by omega), g1, ?_, fun b hb i hi => ((g3 b hb i hi).left).right, g4⟩
  intro g
  rw [tok_append, tok_append, g2 g]
  rfl

/-- `"{" item* "}"` -/
theorem braced_item (h : Item False e False R W ok toks ids T) {pos s c r ps}
    (hr : run G.skip (.seq (.str k!"{") (.seq (.star e) (.str k!"}"))) .nonAtomic pos s = .ok c r ps) :
    (∀ p ∈ ps, R p) ∧ ∀ bs, List.Forall₂ W ps bs → ∃ ls Xs, LayD False ls pos s False (pos + blen c) r ∧
      GotL ok (fun xs => lbrace :: (xs.flatMap toks ++ [rbrace])) ids T ls Xs bs := by
  obtain ⟨c1, r1, p1, pos2, r2, c2, p2, h1, hg, h2, hp, rfl⟩ := seq_okP hr
  obtain ⟨l1, rfl⟩ := keep_str (D := False) (by simp) (fun h => h.elim) h1
  obtain ⟨c3, r3, p3, pos3, r4, c4, p4, h3, hg', h4, hp', rfl⟩ := seq_okP h2
  obtain ⟨l3, rfl⟩ := keep_str (D := False) (by simp) (fun h => h.elim) h4
  obtain ⟨h5, h6⟩ := star_item h h3
  refine ⟨by simpa using h5, fun bs hbs => ?_⟩
  obtain ⟨ls, Xs, l2, g1, g2, g3, g4⟩ := h6 bs (by simpa using hbs)
  refine ⟨_, Xs, (l1.seq hg (l2.seq hg' l3)).at (by omega), g1, ?_, fun b hb i hi => ((g3 b hb i hi).left).right, g4⟩
  intro g
  rw [tok_append, tok_append, g2 g]
  rfl

end

/-- Constructs without names. -/
theorem LayD.ofRun {ts : List Tok} {e : PExpr} {a pos s c r ps} (hr : run G.skip e a pos s = .ok c r ps) (h : Lay ts s r)
    (hs : ∀ t ∈ ts, Semi t) : LayD False (ts.map .keep) pos s (EndsP False ts) (pos + blen c) r := by
  obtain rfl := run_split hr
  exact .of h hs

/-! ## Folds -/

/-- A fold that succeeds runs through the results of its steps. -/
theorem foldlM_inv {σ β γ : Type} {f : σ → γ → Rs σ} {B : γ → β → Prop} {g : σ → β → σ} : ∀ {l : List γ} {s y : σ},
    (∀ p ∈ l, ∀ s s', f s p = .ok s' → ∃ b, B p b ∧ s' = g s b) → l.foldlM f s = .ok y →
    ∃ bs, List.Forall₂ B l bs ∧ y = bs.foldl g s
  | [], s, y, _, h => by cases h; exact ⟨[], .nil, rfl⟩
  | q :: l, s, y, hf, h => by
    rw [List.foldlM_cons] at h
    obtain ⟨s', h1, h2⟩ := Rs.bind_eq_ok.1 h
    obtain ⟨b, hb, rfl⟩ := hf q (by simp) _ _ h1
    obtain ⟨bs, hbs, rfl⟩ := foldlM_inv (fun p hp => hf p (by simp [hp])) h2
    exact ⟨b :: bs, .cons hb hbs, rfl⟩

theorem mapM_inv {β γ : Type} {f : γ → Rs β} : ∀ {l : List γ} {y : List β}, l.mapM f = .ok y →
    List.Forall₂ (fun p b => f p = .ok b) l y
  | [], y, h => by cases h; exact .nil
  | q :: l, y, h => by
    rw [List.mapM_cons] at h
    obtain ⟨b, h1, h2⟩ := Rs.bind_eq_ok.1 h
    obtain ⟨bs, h3, h4⟩ := Rs.bind_eq_ok.1 h2
    cases h4
    exact .cons h1 (mapM_inv h3)

theorem forall₂_imp_mem {α β : Type} {R S : α → β → Prop} : ∀ {l : List α} {m : List β}, (∀ a ∈ l, ∀ b, R a b → S a b) →
    List.Forall₂ R l m → List.Forall₂ S l m
  | _, _, _, .nil => .nil
  | _, _, h, .cons hab hl => .cons (h _ (by simp) _ hab) (forall₂_imp_mem (fun a ha => h a (by simp [ha])) hl)

end Dbml
