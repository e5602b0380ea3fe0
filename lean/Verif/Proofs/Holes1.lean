import Verif.Proofs.Locate
import Mathlib.Data.List.Forall2

/-!
# Members of a declaration: where they stand

A `Hole` is a stretch of a text with the tokens before it, in it and after it.
-/

namespace Dbml
open Syntax Source Spec Props

/-! ## Replacing the text that follows some tokens -/

theorem written_over {m : Str} : ∀ {ts us : List Tok} {a z : Str}, (∀ t ∈ ts, Breaks t) →
    Written (ts ++ [endTok m]) (a ++ m) → Written us z →
    (k!"*/" <:+: z → ¬ k!"/*" <:+: a ∨ k!"*/" <:+: m) → Written (ts ++ us) (a ++ '\n' :: z)
  | [], us, a, z, _, ⟨w, r, e, hw, hn, _⟩, hz, _ => by
    cases (show r = [] from hn)
    have e : a ++ m = w ++ m := by simpa [endTok] using e
    cases List.append_cancel_right e
    have := written_prepend (blank_append hw (.space (.inr (.inr (.inl rfl))) .nil)) hz
    simpa using this
  | t :: ts, us, a, z, hb, ⟨w, r, e, hw, hn, h⟩, hz, hc => by
    obtain ⟨b, rfl, hwr⟩ := written_endTok (fun x hx => hb x (by simp [hx])) h
    have e : a ++ m = (w ++ (t.txt ++ b)) ++ m := by simpa using e
    cases List.append_cancel_right e
    refine ⟨w, b ++ '\n' :: z, by simp, hw, ?_, ?_⟩
    · refine (hb t (by simp)).2.1 b z ?_ ((hb t (by simp)).2.2.1 _ _ hn)
      by_cases hz' : k!"*/" <:+: z
      · rcases hc hz' with h | h
        · exact .inl fun hi => h (hi.trans ⟨w, b, by simp⟩)
        · exact .inr fun _ => ⟨b ++ m, h.trans ⟨b, [], by simp⟩, hn⟩
      · exact .inr fun h => absurd h hz'
    · refine written_over (fun x hx => hb x (by simp [hx])) h hz fun hz' => (hc hz').imp_left fun h hi => ?_
      exact h (hi.trans ⟨w ++ t.txt, [], by simp⟩)

theorem lay_over {ts us : List Tok} {a m z : Str} (hb : ∀ t ∈ ts, Breaks t) (h : Lay ts (a ++ m) m)
    (hz : Written us z) (hc : k!"*/" <:+: z → ¬ k!"/*" <:+: a ∨ k!"*/" <:+: m) :
    Written (ts ++ us) (a ++ '\n' :: z) := by
  by_cases hm : m = []
  · subst hm
    have h1 := (h.cut hb).1
    refine written_join hb h1 hz ?_
    by_cases hz' : k!"*/" <:+: z
    · exact .inl ((hc hz').resolve_right (by simp))
    · exact .inr hz'
  · exact written_over hb (h _ (endTok_wr hm)).1 hz hc

/-! ## Positions -/

/-- `s'` at `pos'` is what remains of `s` at `pos`. -/
def Rem (pos : Nat) (s : Str) (pos' : Nat) (s' : Str) : Prop := ∃ a, s = a ++ s' ∧ pos' = pos + blen a

theorem Rem.trans {p s p1 s1 p2 s2} (h : Rem p s p1 s1) (h' : Rem p1 s1 p2 s2) : Rem p s p2 s2 := by
  obtain ⟨a, rfl, rfl⟩ := h
  obtain ⟨b, rfl, rfl⟩ := h'
  exact ⟨a ++ b, by simp, by rw [blen_append]; omega⟩

theorem Rem.refl {p s} : Rem p s p s := ⟨[], rfl, by simp [blen]⟩

theorem seq_okA {x y pos s c r ps} (h : run G.skip (.seq x y) .nonAtomic pos s = .ok c r ps) :
    ∃ c1 r1 p1 pos' r2 c2 p2, run G.skip x .nonAtomic pos s = .ok c1 r1 p1 ∧ Gapped r1 r2 ∧ Rem pos s pos' r2 ∧
      run G.skip y .nonAtomic pos' r2 = .ok c2 r p2 ∧ ps = p1 ++ p2 := by
  obtain ⟨c1, r1, p1, t, r2, c2, p2, h1, e, hg, h3, h4, h5⟩ := seq_ok h
  have := run_split h1
  subst e
  exact ⟨c1, _, p1, _, r2, c2, p2, h1, ⟨t, rfl, hg⟩, ⟨c1 ++ t, by simp [this], by rw [blen_append]; omega⟩, h3, h5⟩

theorem rule_okA {r m body a pos s c rest ps} (h : run G.skip (.rule r m body) a pos s = .ok c rest ps)
    (he : emits m a = true) :
    ∃ kids, ps = [.mk r ⟨pos, pos + blen c⟩ c kids] ∧
      run G.skip body (bodyAtomicity m a) pos s = .ok c rest kids := by
  simp only [run] at h
  split at h <;> try contradiction
  rename_i h1
  injection h with e1 e2 e3; subst e1 e2 e3
  exact ⟨_, by rw [if_pos he], h1⟩

/-! ## Holes -/

/-- The text `s` at `pos` up to `r`: the tokens `A`, then at the span `sp` the tokens `M`, then the tokens `B`. -/
def Hole (pos : Nat) (s r : Str) (sp : Span) (A M B : List Tok) : Prop :=
  ∃ a x r1, s = a ++ (x ++ r1) ∧ sp = ⟨pos + blen a, pos + blen a + blen x⟩ ∧
    Lay A s (x ++ r1) ∧ Lay M (x ++ r1) r1 ∧ Lay B r1 r

theorem Hole.pre {pos0 s0 pos s r sp A0 A M B} (h : Hole pos s r sp A M B) (ha : Rem pos0 s0 pos s)
    (hl : Lay A0 s0 s) : Hole pos0 s0 r sp (A0 ++ A) M B := by
  obtain ⟨a, x, r1, rfl, rfl, h1, h2, h3⟩ := h
  obtain ⟨b, rfl, rfl⟩ := ha
  exact ⟨b ++ a, x, r1, by simp, by simp [blen_append, Nat.add_assoc], hl.trans h1, h2, h3⟩

theorem Hole.post {pos s r r' sp A M B B'} (h : Hole pos s r sp A M B) (hl : Lay B' r r') :
    Hole pos s r' sp A M (B ++ B') := by
  obtain ⟨a, x, r1, rfl, rfl, h1, h2, h3⟩ := h
  exact ⟨a, x, r1, rfl, rfl, h1, h2, h3.trans hl⟩

theorem Hole.cast {pos s r sp A M B A' B'} (h : Hole pos s r sp A M B) (ha : A = A') (hb : B = B') :
    Hole pos s r sp A' M B' := by subst ha hb; exact h

/-! ## Items in their places -/

/-- The items of a repetition, where they stand, with the pairs read there. -/
inductive Seats {α : Type} (toks : α → List Tok) (N : Piece → Str → Pair → α → Prop) :
    Nat → Str → List (Pair × α) → Str → Prop
  | nil {pos s} : Seats toks N pos s [] s
  | cons {pos w c r1 p x ys r} : Blank w → Lay (toks x) (c ++ r1) r1 → N ⟨pos + blen w, c⟩ r1 p x →
      Seats toks N (pos + blen w + blen c) r1 ys r → Seats toks N pos (w ++ (c ++ r1)) ((p, x) :: ys) r

/-- The list of tokens of the items. -/
def seatToks {α : Type} (toks : α → List Tok) (ys : List (Pair × α)) : List Tok := (ys.map (·.2)).flatMap toks

theorem seats_of {α : Type} {toks : α → List Tok} {N : Piece → Str → Pair → α → Prop} {pos s ps r}
    (h : Spread (fun q r p => ∃ x, Lay (toks x) (q.txt ++ r) r ∧ N q r p x) pos s ps r) :
    ∃ ys, ps = ys.map (·.1) ∧ Seats toks N pos s ys r := by
  induction h with
  | nil => exact ⟨[], rfl, .nil⟩
  | cons hw hk _ ih =>
    obtain ⟨ys, rfl, hs⟩ := ih
    obtain ⟨x, hl, hn⟩ := hk
    exact ⟨(_, x) :: ys, rfl, .cons hw hl hn hs⟩

theorem Seats.lay {α : Type} {toks : α → List Tok} {N : Piece → Str → Pair → α → Prop} {pos s ys r}
    (h : Seats toks N pos s ys r) : Lay (seatToks toks ys) s r := by
  induction h with
  | nil => exact .nil
  | cons hw hl _ _ ih => simpa [seatToks] using Lay.blank hw (hl.trans ih)

theorem Seats.all {α : Type} {toks : α → List Tok} {N : Piece → Str → Pair → α → Prop} {pos s ys r}
    (h : Seats toks N pos s ys r) : ∀ y ∈ ys, ∃ q r', N q r' y.1 y.2 := by
  induction h with
  | nil => simp
  | cons _ _ hn _ ih =>
    intro y hy
    rcases List.mem_cons.1 hy with rfl | hy
    · exact ⟨_, _, hn⟩
    · exact ih y hy

/-- One item among the others. -/
theorem Seats.split {α : Type} {toks : α → List Tok} {N : Piece → Str → Pair → α → Prop} {pos s ys r}
    (h : Seats toks N pos s ys r) : ∀ {y1 p x y2}, ys = y1 ++ (p, x) :: y2 →
    ∃ q c r1, Rem pos s q (c ++ r1) ∧ N ⟨q, c⟩ r1 p x ∧ Lay (seatToks toks y1) s (c ++ r1) ∧
      Lay (toks x) (c ++ r1) r1 ∧ Lay (seatToks toks y2) r1 r := by
  induction h with
  | nil => intro y1 p x y2 e; simp at e
  | @cons pos w c r1 p' x' ys r hw hl hn hs ih =>
    intro y1 p x y2 e
    cases y1 with
    | nil =>
      simp only [List.nil_append, List.cons.injEq, Prod.mk.injEq] at e
      obtain ⟨⟨rfl, rfl⟩, rfl⟩ := e
      exact ⟨_, c, r1, ⟨w, rfl, rfl⟩, hn, Lay.blank hw .nil, hl, hs.lay⟩
    | cons y y1 =>
      simp only [List.cons_append, List.cons.injEq] at e
      obtain ⟨rfl, rfl⟩ := e
      obtain ⟨q, c', r1', h1, h2, h3, h4, h5⟩ := ih rfl
      refine ⟨q, c', r1', Rem.trans ⟨w ++ c, by simp, by rw [blen_append]; omega⟩ h1, h2, ?_, h4, h5⟩
      simpa [seatToks] using Lay.blank hw (hl.trans h3)

theorem Seats.hole {α : Type} {toks : α → List Tok} {N : Piece → Str → Pair → α → Prop} {pos s ys r}
    (h : Seats toks N pos s ys r) (hN : ∀ q r p x, N q r p x → p.span = q.span) {y1 p x y2}
    (e : ys = y1 ++ (p, x) :: y2) :
    Hole pos s r p.span (seatToks toks y1) (toks x) (seatToks toks y2) := by
  obtain ⟨q, c, r1, ⟨a, rfl, rfl⟩, h2, h3, h4, h5⟩ := h.split e
  exact ⟨a, c, r1, rfl, hN _ _ _ _ h2, h3, h4, h5⟩

/-- `"{" item* "}"` -/
theorem braced_seats {α : Type} {e : PExpr} {W : Pair → Prop} {toks : α → List Tok}
    {N : Piece → Str → Pair → α → Prop}
    (h : Places e W (fun q r p => ∃ x, Lay (toks x) (q.txt ++ r) r ∧ N q r p x)) {pos s c r ps}
    (hr : run G.skip (.seq (.str k!"{") (.seq (.star e) (.str k!"}"))) .nonAtomic pos s = .ok c r ps)
    (hw : ∀ p ∈ ps, W p) :
    ∃ ys pos1 s1 s2, ps = ys.map (·.1) ∧ Rem pos s pos1 s1 ∧ Lay [lbrace] s s1 ∧ Seats toks N pos1 s1 ys s2 ∧
      Lay [rbrace] s2 r := by
  obtain ⟨c1, r1, p1, pos', r2, c2, p2, h1, hg, ha, h2, rfl⟩ := seq_okA hr
  obtain ⟨l1, rfl⟩ := lay_str (by simp) h1
  obtain ⟨c1, r1, p1, pos', r2, c2, p2, h3, hg', h4, rfl⟩ := seq_ok' h2
  obtain ⟨l2, rfl⟩ := lay_str (by simp) h4
  simp only [List.nil_append, List.append_nil] at *
  obtain ⟨ys, rfl, hs⟩ := seats_of (star_spread h h3 hw)
  exact ⟨ys, _, _, _, rfl, ha, l1.seq hg .nil, hs, Lay.nil.seq hg' l2⟩

/-- Splitting what a fold over pairs collects. -/
theorem fold_picks {σ β γ : Type} {f : σ → γ → Rs σ} {isM : γ → Bool} {get : γ → β → Prop} {sel : σ → List β}
    (hf : ∀ s p s', f s p = .ok s' → (isM p = false ∧ sel s' = sel s) ∨ (isM p = true ∧ ∃ c, get p c ∧ sel s' = sel s ++ [c])) :
    ∀ {l : List γ} {s y : σ}, l.foldlM f s = .ok y →
      ∃ cs, sel y = sel s ++ cs ∧ List.Forall₂ get (l.filter isM) cs
  | [], s, y, h => by cases h; exact ⟨[], by simp, .nil⟩
  | p :: l, s, y, h => by
    rw [List.foldlM_cons] at h
    obtain ⟨s', h1, h2⟩ := Rs.bind_eq_ok.1 h
    obtain ⟨cs, e, hc⟩ := fold_picks hf h2
    rcases hf _ _ _ h1 with ⟨hm, e'⟩ | ⟨hm, c, hg, e'⟩
    · exact ⟨cs, by rw [e, e'], by simpa [hm] using hc⟩
    · exact ⟨c :: cs, by rw [e, e']; simp, by simpa [hm] using ⟨hg, hc⟩⟩

theorem forall₂_split {β γ : Type} {R : γ → β → Prop} : ∀ {l : List γ} {cs1 : List β} {c cs2},
    List.Forall₂ R l (cs1 ++ c :: cs2) → ∃ l1 p l2, l = l1 ++ p :: l2 ∧ l1.length = cs1.length ∧ R p c
  | _, [], c, cs2, h => by
    cases h with
    | cons h _ => exact ⟨[], _, _, rfl, rfl, h⟩
  | _, b :: cs1, c, cs2, h => by
    cases h with
    | cons h h' =>
      obtain ⟨l1, p, l2, rfl, e, hr⟩ := forall₂_split h'
      exact ⟨_ :: l1, p, l2, rfl, by simp [e], hr⟩

theorem filter_split {γ : Type} {isM : γ → Bool} : ∀ {l f1 : List γ} {p f2}, l.filter isM = f1 ++ p :: f2 →
    ∃ l1 l2, l = l1 ++ p :: l2 ∧ l1.filter isM = f1 ∧ l2.filter isM = f2 ∧ isM p = true
  | [], f1, p, f2, h => by simp at h
  | x :: l, f1, p, f2, h => by
    by_cases hx : isM x = true
    · rw [List.filter_cons_of_pos hx] at h
      cases f1 with
      | nil =>
        simp only [List.nil_append, List.cons.injEq] at h
        obtain ⟨rfl, rfl⟩ := h
        exact ⟨[], l, rfl, rfl, rfl, hx⟩
      | cons y f1 =>
        simp only [List.cons_append, List.cons.injEq] at h
        obtain ⟨rfl, h⟩ := h
        obtain ⟨l1, l2, rfl, h1, h2, h3⟩ := filter_split h
        exact ⟨x :: l1, l2, rfl, by rw [List.filter_cons_of_pos hx, h1], h2, h3⟩
    · rw [List.filter_cons_of_neg hx] at h
      obtain ⟨l1, l2, rfl, h1, h2, h3⟩ := filter_split h
      exact ⟨x :: l1, l2, rfl, by rw [List.filter_cons_of_neg hx, h1], h2, h3⟩

/-- The members that a fold over the pairs of the seats collects, and their seats. -/
theorem seats_pick {σ β α : Type} {f : σ → Pair → Rs σ} {isM : Pair → Bool} {get : Pair → β → Prop}
    {sel : σ → List β}
    (hf : ∀ s p s', f s p = .ok s' → (isM p = false ∧ sel s' = sel s) ∨ (isM p = true ∧ ∃ c, get p c ∧ sel s' = sel s ++ [c]))
    {ys : List (Pair × α)} {s y : σ} (h : (ys.map (·.1)).foldlM f s = .ok y) (h0 : sel s = []) {cs1 c cs2}
    (e : sel y = cs1 ++ c :: cs2) :
    ∃ y1 p x y2, ys = y1 ++ (p, x) :: y2 ∧ (y1.filter (isM ·.1)).length = cs1.length ∧ isM p = true ∧ get p c := by
  obtain ⟨cs, e1, h1⟩ := fold_picks hf h
  rw [h0, List.nil_append] at e1
  subst e1
  rw [e, List.filter_map] at h1
  obtain ⟨l1, p, l2, e2, e3, hg⟩ := forall₂_split h1
  rw [List.map_eq_append_iff] at e2
  obtain ⟨f1, f2, e4, rfl, e5⟩ := e2
  rw [List.map_eq_cons_iff] at e5
  obtain ⟨⟨p', x⟩, f3, rfl, rfl, rfl⟩ := e5
  obtain ⟨y1, y2, rfl, h2, h3, h4⟩ := filter_split e4
  refine ⟨y1, _, x, y2, rfl, ?_, h4, hg⟩
  rw [← e3, List.length_map, ← h2]
  rfl

end Dbml
