import Verif.Proofs.Lex
import Verif.Proofs.RsLemmas

/-!
# Generic lemmas for the tree walkers
-/

namespace Dbml
open Syntax

/-- The outcome of a walker on the piece `p`: a value satisfying `D`, or one of the legitimate
errors located in `p`; never a panic. -/
def Good {α : Type} (p : Piece) (D : α → Prop) (x : Rs α) : Prop :=
  match x with
  | .ok a => D a
  | .err e => ReadErr p e
  | .panic _ => False
  | .diverge => False

theorem Syntax.Sub.refl (p : Piece) : Sub p p := ⟨[], [], by simp, by simp⟩

theorem Syntax.Sub.trans {a b c : Piece} (h1 : Sub a b) (h2 : Sub b c) : Sub a c := by
  obtain ⟨x, y, e1, e2⟩ := h1
  obtain ⟨x', y', e3, e4⟩ := h2
  exact ⟨x' ++ x, y ++ y', by rw [e3, e1]; simp, by rw [e2, e4, blen_append]; omega⟩

theorem Syntax.ReadErr.sub {q p : Piece} {e} (h : Sub q p) (he : ReadErr q e) : ReadErr p e := by
  cases he with
  | intTooLarge h1 h2 h3 => exact .intTooLarge (h1.trans h) h2 h3
  | arrayTooLarge h1 h2 h3 => exact .arrayTooLarge (h1.trans h) h2 h3
  | badAction h1 h2 h3 h4 h5 h6 => exact .badAction (h1.trans h) h2 h3 h4 h5 h6
  | badIndexType h1 h2 h3 h4 h5 => exact .badIndexType (h1.trans h) h2 h3 h4 h5

theorem Good.sub {α} {q p : Piece} {D : α → Prop} {x} (h : Sub q p) (hx : Good q D x) :
    Good p D x := by
  cases x with
  | ok a => exact hx
  | err e => exact ReadErr.sub h hx
  | panic => exact hx
  | diverge => exact hx

theorem Good.mono {α} {p : Piece} {D D' : α → Prop} {x} (h : ∀ a, D a → D' a) (hx : Good p D x) :
    Good p D' x := by
  cases x with
  | ok a => exact h _ hx
  | err e => exact hx
  | panic => exact hx
  | diverge => exact hx

theorem Good.bind {α β} {p : Piece} {D : α → Prop} {D' : β → Prop} {x : Rs α} {f : α → Rs β}
    (hx : Good p D x) (hf : ∀ a, D a → Good p D' (f a)) : Good p D' (Rs.bind x f) := by
  cases x with
  | ok a => exact hf _ hx
  | err e => exact hx
  | panic => exact hx
  | diverge => exact hx

theorem Good.nil {β γ} {p : Piece} {D : β → Prop} {step : β → γ → Rs β} {b : β} (h : D b) :
    Good p D (List.foldlM step b []) := h

theorem Good.cons {β γ} {p : Piece} {D D' : β → Prop} {step : β → γ → Rs β} {b : β} {x xs}
    (hx : Good p D (step b x)) (hf : ∀ b', D b' → Good p D' (List.foldlM step b' xs)) :
    Good p D' (List.foldlM step b (x :: xs)) := Good.bind hx hf

theorem Good.one {β γ} {p : Piece} {D : β → Prop} {step : β → γ → Rs β} {b : β} {x}
    (hx : Good p D (step b x)) : Good p D (List.foldlM step b [x]) := Good.cons hx fun _ h => h

theorem Good.pure {β} {p : Piece} {D : β → Prop} {b : β} (h : D b) : Good p D (Pure.pure b) := h

theorem Good.map {α β} {p : Piece} {D : α → Prop} {D' : β → Prop} {x : Rs α} {f : α → β}
    (hx : Good p D x) (hf : ∀ a, D a → D' (f a)) : Good p D' (x >>= fun a => Pure.pure (f a)) :=
  Good.bind hx hf

theorem parts_sub {g p ms} (h : Parts g p ms) : ∀ m ∈ ms, Sub m p := by
  induction h with
  | one => intro m hm; simp at hm; subst hm; exact Sub.refl _
  | @cons pos c t c' ps _ _ ih =>
    intro m hm
    simp at hm
    rcases hm with rfl | hm
    · exact ⟨[], t ++ c', by simp, by simp⟩
    · refine (ih m hm).trans ⟨c ++ t, [], by simp, ?_⟩
      simp [blen_append]; omega

theorem many_sub {g p ms} (h : Many g p ms) : ∀ m ∈ ms, Sub m p := by
  rcases h with ⟨_, rfl⟩ | h
  · simp
  · exact parts_sub h

theorem Syntax.Each.mono {α} {D D' : Piece → α → Prop} {ms xs} (h : ∀ m x, m ∈ ms → D m x → D' m x)
    (he : Each D ms xs) : Each D' ms xs := by
  induction he with
  | nil => exact .nil
  | cons h1 _ ih =>
    exact .cons (h _ _ (by simp) h1) (ih fun m x hm => h m x (by simp [hm]))

/-- A way of laying out a list of items as pieces. -/
def Layout (C : ∀ {α : Type}, (Piece → α → Prop) → Piece → List α → Prop) : Prop :=
  ∀ {α : Type} {Q : Piece → α → Prop} {p xs}, C Q p xs →
    ∃ ms, (∀ m ∈ ms, Sub m p) ∧ Each Q ms xs ∧
      ∀ {β : Type} (D : Piece → β → Prop) ys, Each D ms ys → C D p ys

theorem manyD_layout {g} : Layout (fun D => ManyD g D) := by
  rintro α Q p xs ⟨ms, h1, h2⟩
  exact ⟨ms, many_sub h1, h2, fun D ys h => ⟨ms, h1, h⟩⟩

theorem each_comma {α g} {Q : Piece → α → Prop} {k : Str} {ms xs}
    (h : Each (fun q y => ∃ comma item, Parts g q [comma, item] ∧ comma.txt = k ∧ Q item y) ms xs) :
    ∃ is, (∀ i ∈ is, ∃ m ∈ ms, Sub i m) ∧ Each Q is xs ∧
      ∀ {β : Type} (D : Piece → β → Prop) ys, Each D is ys →
        Each (fun q y => ∃ comma item, Parts g q [comma, item] ∧ comma.txt = k ∧ D item y) ms ys := by
  induction h with
  | nil => exact ⟨[], by simp, .nil, fun D ys h => by cases h; exact .nil⟩
  | @cons m ms x xs h1 _ ih =>
    obtain ⟨comma, item, hp, hk, hq⟩ := h1
    obtain ⟨is, h1, h2, h3⟩ := ih
    refine ⟨item :: is, ?_, .cons hq h2, ?_⟩
    · intro i hi
      simp at hi
      rcases hi with rfl | hi
      · exact ⟨m, by simp, parts_sub hp _ (by simp)⟩
      · obtain ⟨m', hm, hs⟩ := h1 i hi
        exact ⟨m', by simp [hm], hs⟩
    · intro β D ys h
      cases h with
      | cons hd ht => exact .cons ⟨comma, item, hp, hk, hd⟩ (h3 D _ ht)

theorem commaD_layout {g} : Layout (fun D => CommaD g D) := by
  rintro α Q p xs ⟨first, more, x, xs', hp, hx, ⟨ms, hm, he⟩, rfl⟩
  obtain ⟨is, h1, h2, h3⟩ := each_comma he
  refine ⟨first :: is, ?_, .cons hx h2, ?_⟩
  · intro i hi
    simp at hi
    rcases hi with rfl | hi
    · exact parts_sub hp _ (by simp)
    · obtain ⟨m, hm', hs⟩ := h1 i hi
      exact hs.trans ((many_sub hm m hm').trans (parts_sub hp _ (by simp)))
  · intro β D ys h
    cases h with
    | cons hd ht => exact ⟨first, more, _, _, hp, hd, ⟨ms, hm, h3 D _ ht⟩, rfl⟩

theorem listD_layout {g op cl} : Layout (fun D => ListD g op cl D) := by
  rintro α Q p xs ⟨l, mid, r, hp, hl, hr, h⟩
  rcases h with ⟨h, rfl⟩ | h
  · exact ⟨[], by simp, .nil, fun D ys hy => by
      cases hy; exact ⟨l, mid, r, hp, hl, hr, .inl ⟨h, rfl⟩⟩⟩
  · obtain ⟨ms, h1, h2, h3⟩ := commaD_layout h
    exact ⟨ms, fun m hm => (h1 m hm).trans (parts_sub hp _ (by simp)), h2,
      fun D ys hy => ⟨l, mid, r, hp, hl, hr, .inr (h3 D ys hy)⟩⟩

theorem bracketedD_layout : Layout (fun D => BracketedD D) := listD_layout

theorem bracedD_layout : Layout (fun D => BracedD D) := by
  rintro α Q p xs ⟨l, mid, r, hp, hl, hr, h⟩
  obtain ⟨ms, h1, h2, h3⟩ := manyD_layout h
  exact ⟨ms, fun m hm => (h1 m hm).trans (parts_sub hp _ (by simp)), h2,
    fun D ys hy => ⟨l, mid, r, hp, hl, hr, h3 D ys hy⟩⟩

/-- Folding a walker step over laid-out pairs. -/
theorem foldlM_good {α β : Type} {C : ∀ {α : Type}, (Piece → α → Prop) → Piece → List α → Prop}
    (hC : Layout C) {Q : Piece → Pair → Prop} {D : Piece → α → Prop} {step : β → Pair → Rs β}
    {g : β → α → β} {p ps}
    (hstep : ∀ m pr b, Q m pr → Good m (fun b' => ∃ x, D m x ∧ b' = g b x) (step b pr))
    (h : C Q p ps) (b : β) :
    Good p (fun b' => ∃ xs, C D p xs ∧ b' = xs.foldl g b) (ps.foldlM step b) := by
  obtain ⟨ms, h1, h2, h3⟩ := hC h
  suffices Good p (fun b' => ∃ xs, Each D ms xs ∧ b' = xs.foldl g b) (ps.foldlM step b) by
    refine this.mono ?_
    rintro b' ⟨xs, he, rfl⟩
    exact ⟨xs, h3 D xs he, rfl⟩
  clear h3 h
  induction h2 generalizing b with
  | nil => exact ⟨[], .nil, rfl⟩
  | @cons m ms pr ps hq _ ih =>
    simp only [List.foldlM_cons, Rs.bind_def]
    refine ((hstep m pr b hq).sub (h1 _ (by simp))).bind ?_
    rintro b' ⟨x, hx, rfl⟩
    refine (ih (g b x) (fun m hm => h1 m (by simp [hm]))).mono ?_
    rintro b' ⟨xs, he, rfl⟩
    exact ⟨x :: xs, .cons hx he, rfl⟩

theorem mapM_good {α : Type} {C : ∀ {α : Type}, (Piece → α → Prop) → Piece → List α → Prop}
    (hC : Layout C) {Q : Piece → Pair → Prop} {D : Piece → α → Prop} {f : Pair → Rs α} {p ps}
    (hf : ∀ m pr, Q m pr → Good m (D m) (f pr)) (h : C Q p ps) :
    Good p (fun xs => C D p xs) (ps.mapM f) := by
  obtain ⟨ms, h1, h2, h3⟩ := hC h
  suffices Good p (fun xs => Each D ms xs) (ps.mapM f) from this.mono fun xs he => h3 D xs he
  clear h3 h
  induction h2 with
  | nil => exact Each.nil
  | @cons m ms pr ps hq _ ih =>
    simp only [List.mapM_cons, Rs.bind_def, Rs.pure_def]
    refine ((hf m pr hq).sub (h1 _ (by simp))).bind ?_
    intro x hx
    refine (ih (fun m hm => h1 m (by simp [hm]))).bind ?_
    intro xs he
    exact Each.cons hx he

/-- `x` emits exactly one pair, related to the consumed piece by `Q`. -/
def Emits (x : PExpr) (a : Atomicity) (Q : Piece → Pair → Prop) : Prop :=
  ∀ pos c rest ps, M x a pos c rest ps → ∃ pr, ps = [pr] ∧ Q ⟨pos, c⟩ pr

/-- Sequences as parts. -/
theorem seq_inv {x y a pos c rest ps} (h : M (.seq x y) a pos c rest ps) :
    ∃ c1 t c2 p1 p2, c = c1 ++ (t ++ c2) ∧ ps = p1 ++ p2 ∧ (gapOf a).Ok t ∧
      M x a pos c1 (t ++ (c2 ++ rest)) p1 ∧ M y a (pos + blen c1 + blen t) c2 rest p2 := by
  obtain ⟨c1, t, c2, p1, p2, h1, h2, h3, h4, h5⟩ := h
  exact ⟨c1, t, c2, p1, p2, h1, h2, gap_ok h4, h3, h5⟩

theorem star_inv {x a Q} (hx : Emits x a Q) {pos c rest ps} (h : M (.star x) a pos c rest ps) :
    ManyD (gapOf a) Q ⟨pos, c⟩ ps := by
  rcases h with ⟨rfl, rfl, -⟩ | ⟨c1, c2, p1, p2, rfl, rfl, h1, hc⟩
  · exact ⟨[], .inl ⟨rfl, rfl⟩, .nil⟩
  · have key : ∀ pos0 c0 pr, Q ⟨pos0, c0⟩ pr → ∀ {pos c rest ps},
        Chain (TrivIf (fun t rest => Trivia t ∧ NoWs rest) a)
          (fun pos c rest ps => M x a pos c rest ps)
          (fun p i => seqRes G.skip a p (.ok [] i []) (fun p' i' => run G.skip x a p' i') = .fail)
          pos c rest ps → pos = pos0 + blen c0 →
        ∃ ms, Parts (gapOf a) ⟨pos0, c0 ++ c⟩ ms ∧ Each Q ms (pr :: ps) := by
      intro pos0 c0 pr hq pos c rest ps hc
      induction hc generalizing pos0 c0 pr with
      | nil h =>
        rintro rfl
        exact ⟨[⟨pos0, c0⟩], by simpa using Parts.one, .cons hq .nil⟩
      | @cons pos t c1 c' rest p p' ht hp hc ih =>
        rintro rfl
        obtain ⟨pr', rfl, hq'⟩ := hx _ _ _ _ hp
        obtain ⟨ms, h1, h2⟩ := ih _ _ _ hq' rfl
        exact ⟨_, .cons (gap_ok ht) h1, .cons hq h2⟩
    obtain ⟨pr, rfl, hq⟩ := hx _ _ _ _ h1
    obtain ⟨ms, hp, he⟩ := key _ _ _ hq hc rfl
    exact ⟨ms, .inr hp, he⟩

theorem commaItem_inv {x a Q k} (hx : Emits x a Q) :
    Emits (.seq (.str k) x) a (fun q y => ∃ comma item, Parts (gapOf a) q [comma, item] ∧
      comma.txt = k ∧ Q item y) := by
  intro pos c rest ps h
  obtain ⟨c1, t, c2, p1, p2, rfl, rfl, ht, ⟨rfl, rfl⟩, h2⟩ := seq_inv h
  obtain ⟨pr, rfl, hq⟩ := hx _ _ _ _ h2
  exact ⟨pr, rfl, _, _, .cons ht .one, rfl, hq⟩

theorem comma_inv {x a Q} (hx : Emits x a Q) {pos c rest ps}
    (h : M (.seq x (.star (.seq (.str k!",") x))) a pos c rest ps) :
    CommaD (gapOf a) Q ⟨pos, c⟩ ps := by
  obtain ⟨c1, t, c2, p1, p2, rfl, rfl, ht, h1, h2⟩ := seq_inv h
  obtain ⟨pr, rfl, hq⟩ := hx _ _ _ _ h1
  exact ⟨_, _, _, _, .cons ht .one, hq, star_inv (commaItem_inv hx) h2, rfl⟩

theorem optComma_inv {x a Q} (hx : Emits x a Q) {pos c rest ps}
    (h : M (.opt (.seq x (.star (.seq (.str k!",") x)))) a pos c rest ps) :
    (c = [] ∧ ps = []) ∨ CommaD (gapOf a) Q ⟨pos, c⟩ ps := by
  rcases h with ⟨rfl, rfl, -⟩ | h
  · exact .inl ⟨rfl, rfl⟩
  · exact .inr (comma_inv hx h)

theorem list_inv {x a Q op cl} (hx : Emits x a Q) {pos c rest ps}
    (h : M (.seq (.str op) (.seq (.opt (.seq x (.star (.seq (.str k!",") x)))) (.str cl))) a pos c rest ps) :
    ListD (gapOf a) op cl Q ⟨pos, c⟩ ps := by
  obtain ⟨c1, t, c2, p1, p2, rfl, rfl, ht, ⟨rfl, rfl⟩, h2⟩ := seq_inv h
  obtain ⟨c3, t2, c4, p3, p4, rfl, rfl, ht2, h3, ⟨rfl, rfl⟩⟩ := seq_inv h2
  refine ⟨_, _, _, .cons ht (.cons ht2 .one), rfl, rfl, ?_⟩
  simpa using optComma_inv hx h3

theorem bracketed_inv {x Q} (hx : Emits x .nonAtomic Q) {pos c rest ps}
    (h : M (G.bracketed x) .nonAtomic pos c rest ps) : BracketedD Q ⟨pos, c⟩ ps :=
  list_inv hx h

theorem braced_inv {x Q} (hx : Emits x .nonAtomic Q) {pos c rest ps}
    (h : M (.seq (.str k!"{") (.seq (.star x) (.str k!"}"))) .nonAtomic pos c rest ps) :
    BracedD Q ⟨pos, c⟩ ps := by
  obtain ⟨c1, t, c2, p1, p2, rfl, rfl, ht, ⟨rfl, rfl⟩, h2⟩ := seq_inv h
  obtain ⟨c3, t2, c4, p3, p4, rfl, rfl, ht2, h3, ⟨rfl, rfl⟩⟩ := seq_inv h2
  refine ⟨_, _, _, .cons ht (.cons ht2 .one), rfl, rfl, ?_⟩
  rw [List.nil_append, List.append_nil]; exact star_inv hx h3

theorem opt_inv {x a Q} (hx : Emits x a Q) {pos c rest ps} (h : M (.opt x) a pos c rest ps) :
    (c = [] ∧ ps = []) ∨ ∃ pr, ps = [pr] ∧ Q ⟨pos, c⟩ pr := by
  rcases h with ⟨rfl, rfl, -⟩ | h
  · exact .inl ⟨rfl, rfl⟩
  · exact .inr (hx _ _ _ _ h)

theorem alt_emits {x y a Q} (hx : Emits x a Q) (hy : Emits y a Q) : Emits (.alt x y) a Q := by
  intro pos c rest ps h
  rcases h with h | ⟨-, h⟩
  · exact hx _ _ _ _ h
  · exact hy _ _ _ _ h

theorem Emits.mono {x a} {Q Q' : Piece → Pair → Prop} (h : ∀ m pr, Q m pr → Q' m pr)
    (hx : Emits x a Q) : Emits x a Q' := by
  intro pos c rest ps hm
  obtain ⟨pr, h1, h2⟩ := hx _ _ _ _ hm
  exact ⟨pr, h1, h _ _ h2⟩

/-- The pair is a node of rule `r` covering the piece, on which the walker `f` yields something
denoted by the piece. -/
def Node {α : Type} (r : Rule) (D : Piece → α → Prop) (f : Pair → Rs α) (p : Piece) (pr : Pair) : Prop :=
  pr.rule = r ∧ pr.span = p.span ∧ pr.text = p.txt ∧ Good p (D p) (f pr)

/-- Matching, for a piece. -/
def MP (x : PExpr) (a : Atomicity) (p : Piece) (rest : Str) (ps : List Pair) : Prop :=
  M x a p.pos p.txt rest ps

theorem Emits.inv {x a Q} (hx : Emits x a Q) {p rest ps} (h : MP x a p rest ps) :
    ∃ pr, ps = [pr] ∧ Q p pr := hx _ _ _ _ h

theorem seqP {x y a p rest ps} (h : MP (.seq x y) a p rest ps) :
    ∃ p1 p2 k1 k2 rest1, ps = k1 ++ k2 ∧ MP x a p1 rest1 k1 ∧ MP y a p2 rest k2 ∧
      ∀ ms, Parts (gapOf a) p2 ms → Parts (gapOf a) p (p1 :: ms) := by
  obtain ⟨pos, c⟩ := p
  obtain ⟨c1, t, c2, p1, p2, rfl, rfl, ht, h1, h2⟩ := seq_inv h
  exact ⟨⟨pos, c1⟩, ⟨_, c2⟩, p1, p2, _, rfl, h1, h2, fun ms hm => .cons ht hm⟩

theorem strP {s a p rest ps} (h : MP (.str s) a p rest ps) : p.txt = s ∧ ps = [] := h

theorem insensP {s a p rest ps} (h : MP (.insens s) a p rest ps) : Keyword s p.txt ∧ ps = [] :=
  ⟨keyword_of h.1, h.2⟩

theorem altP {x y a p rest ps} (h : MP (.alt x y) a p rest ps) :
    MP x a p rest ps ∨ MP y a p rest ps := by
  rcases h with h | ⟨-, h⟩
  · exact .inl h
  · exact .inr h

theorem optP {x a Q} (hx : Emits x a Q) {p rest ps} (h : MP (.opt x) a p rest ps) :
    (p.txt = [] ∧ ps = []) ∨ ∃ pr, ps = [pr] ∧ Q p pr := opt_inv hx h

theorem starP {x a Q} (hx : Emits x a Q) {p rest ps} (h : MP (.star x) a p rest ps) :
    ManyD (gapOf a) Q p ps := star_inv hx h

/-- A way to prove `Emits` for a rule outside atomic mode. -/
theorem emits_rule {α r m body a} {D : Piece → α → Prop} {f : Pair → Rs α} (ha : emits m a = true)
    (h : ∀ p rest kids, MP body (bodyAtomicity m a) p rest kids →
      Good p (D p) (f (.mk r p.span p.txt kids))) :
    Emits (.rule r m body) a (Node r D f) := by
  intro pos c rest ps hm
  obtain ⟨kids, rfl, hb⟩ := rule_inv hm ha
  exact ⟨_, rfl, rfl, rfl, rfl, h ⟨pos, c⟩ _ _ hb⟩

/-- The same for rules whose pair is inspected directly. -/
theorem emits_rule' {r m body a} {Q : Piece → Pair → Prop} (ha : emits m a = true)
    (h : ∀ p rest kids, MP body (bodyAtomicity m a) p rest kids → Q p (.mk r p.span p.txt kids)) :
    Emits (.rule r m body) a Q := by
  intro pos c rest ps hm
  obtain ⟨kids, rfl, hb⟩ := rule_inv hm ha
  exact ⟨_, rfl, h ⟨pos, c⟩ _ _ hb⟩

theorem Parts.sub_of {g p ms m} (h : Parts g p ms) (hm : m ∈ ms) : Sub m p := parts_sub h m hm

end Dbml
