import Verif.Proofs.Locate
import Verif.Proofs.Slices
import Verif.Spec.Rename

/-!
# Renaming: located tokens, and texts that differ in names only
-/

namespace Dbml
open Syntax Source Spec

/-! ## Texts that differ in names only -/

/-- `r'` is `r` with some names replaced. -/
inductive Sim : Str → Str → Prop
  | refl {r} : Sim r r
  | cons {c r r'} : Sim r r' → Sim (c :: r) (c :: r')
  | name {n w : Name} {r r'} : n.Ok → Fits n.text w → Sim r r' → Sim (n.text ++ r) (w.text ++ r')

theorem Sim.append {r r' : Str} (h : Sim r r') : ∀ u, Sim (u ++ r) (u ++ r')
  | [] => h
  | _ :: u => .cons (Sim.append h u)

theorem isVar_head {s : Str} (h : IsVar s) : ∃ c cs, s = c :: cs ∧ IsWord c := by
  obtain ⟨c, cs, e, h1, -⟩ := h
  exact ⟨c, cs, e, alpha_word h1⟩

/-- A spelling begins with a quote, or both begin with a letter. -/
theorem fits_head {raw : Str} {w : Name} (h : Fits raw w) :
    (∃ t, w.text = '"' :: t) ∨ ((∃ c t, w.text = c :: t ∧ IsWord c) ∧ ∃ c t, raw = c :: t ∧ IsWord c) := by
  cases w with
  | word s => exact .inr ⟨isVar_head h.1, isVar_head h.2⟩
  | quoted x => exact .inl ⟨x.pad ++ (x.val ++ k!"\""), rfl⟩

theorem Sim.word {r r' : Str} (h : Sim r r') (hr : Next.word r) : Next.word r' := by
  cases h with
  | refl => exact hr
  | cons h =>
    rintro c t e hw
    injection e with e _
    subst e
    exact hr _ _ rfl hw
  | name hn hf h =>
    rcases fits_head hf with ⟨t, e⟩ | ⟨-, c, t, e, hc⟩
    · rw [e]
      rintro c t e hw
      injection e with e _
      subst e
      simp [IsWord] at hw
    · rw [e] at hr
      exact absurd hc (hr _ _ rfl)

theorem Sim.spaced {r r' : Str} (h : Sim r r') (hr : Next.spaced r) : Next.spaced r' := by
  refine ⟨h.word hr.1, ?_⟩
  cases h with
  | refl => exact hr.2
  | cons h =>
    rintro c t e
    injection e with e1 e2
    subst e1
    exact h.word (fun c t e => hr.2 c t (by rw [e])) c t e2
  | name hn hf h =>
    rintro c t e
    rcases fits_head hf with ⟨u, e'⟩ | ⟨⟨d, u, e', hc⟩, -⟩ <;> rw [e'] at e <;> injection e with e _
    · simp at e
    · subst e; simp [IsWord] at hc

theorem Sim.array {r r' : Str} (h : Sim r r') (hr : ¬ k!"[]" <+: r) : ¬ k!"[]" <+: r' := by
  rintro ⟨u, rfl⟩
  generalize e : k!"[]" ++ u = r' at h
  cases h with
  | refl => exact hr ⟨u, e⟩
  | cons h =>
    injection e with e1 e2
    subst e1
    rename_i r0 r0'
    have e2 : ']' :: u = r0' := e2
    cases h with
    | refl => subst e2; exact hr ⟨u, rfl⟩
    | cons h =>
      injection e2 with e3 e4
      subst e3
      exact hr ⟨_, rfl⟩
    | name hn hf h =>
      rcases fits_head hf with ⟨u', e'⟩ | ⟨⟨d, u', e', hc⟩, -⟩ <;> rw [e'] at e2 <;> injection e2 with e3 _
      · simp at e3
      · subst e3; simp [IsWord] at hc
  | name hn hf h =>
    rcases fits_head hf with ⟨u', e'⟩ | ⟨⟨d, u', e', hc⟩, -⟩ <;> rw [e'] at e <;> injection e with e3 _
    · simp at e3
    · subst e3; simp [IsWord] at hc

/-- An occurrence of `*/` is in one of the parts or between them. -/
theorem star_slash_append : ∀ {a b : Str}, k!"*/" <:+: a ++ b →
    k!"*/" <:+: a ∨ k!"*/" <:+: b ∨ ((∃ a', a = a' ++ ['*']) ∧ ∃ b', b = '/' :: b')
  | [], b, h => .inr (.inl h)
  | x :: a, b, h => by
    rw [List.cons_append] at h
    rcases List.infix_cons_iff.1 h with h | h
    · cases a with
      | nil =>
        obtain ⟨u, e⟩ := h
        injection e with e1 e2
        subst e1
        exact .inr (.inr ⟨⟨[], rfl⟩, u, e2.symm⟩)
      | cons y a =>
        obtain ⟨u, e⟩ := h
        injection e with e1 e2
        injection e2 with e2 e3
        subst e1 e2
        exact .inl ⟨[], a, rfl⟩
    · rcases star_slash_append h with h | h | ⟨⟨a', e1⟩, h⟩
      · exact .inl (List.infix_cons_iff.2 (.inr h))
      · exact .inr (.inl h)
      · exact .inr (.inr ⟨⟨x :: a', by simp [e1]⟩, h⟩)

theorem fits_star {raw : Str} {w : Name} (h : Fits raw w) :
    ¬ k!"*/" <:+: w.text ∧ (¬ ∃ t, w.text = '/' :: t) ∧ ¬ ∃ t, w.text = t ++ ['*'] := by
  cases w with
  | word s =>
    have hw : ∀ c ∈ s, IsWord c := by
      obtain ⟨c, cs, e, h1, h2⟩ := h.1
      subst e
      intro x hx
      rcases List.mem_cons.1 hx with rfl | hx
      · exact alpha_word h1
      · exact h2 x hx
    have h1 : '*' ∉ s := fun hc => by have := hw _ hc; simp [IsWord] at this
    have h2 : '/' ∉ s := fun hc => by have := hw _ hc; simp [IsWord] at this
    refine ⟨fun hi => h1 (hi.subset (by simp)), ?_, ?_⟩
    · rintro ⟨t, e⟩; exact h2 (by rw [show s = _ from e]; simp)
    · rintro ⟨t, e⟩; exact h1 (by rw [show s = _ from e]; simp)
  | quoted x =>
    refine ⟨h.2.1, ?_, ?_⟩
    · rintro ⟨t, e⟩
      simp [Name.text, Quote.text] at e
    · rintro ⟨t, e⟩
      have : (k!"\"" ++ (x.pad ++ x.val)) ++ ['"'] = t ++ ['*'] := by
        rw [← e]; simp [Name.text, Quote.text]
      have := List.append_inj_right' this rfl
      simp at this

theorem Sim.star {r r' : Str} (h : Sim r r') : ∀ u, k!"*/" <:+: u ++ r' → k!"*/" <:+: u ++ r := by
  induction h with
  | refl => intro u h; exact h
  | @cons c r r' _ ih =>
    intro u h
    have := ih (u ++ [c]) (by simpa using h)
    simpa using this
  | @name n w r r' hn hf h ih =>
    intro u hi
    obtain ⟨f1, f2, f3⟩ := fits_star hf
    rcases star_slash_append hi with hi | hi | ⟨-, b, e⟩
    · exact hi.trans ⟨[], _, by simp; rfl⟩
    · rcases star_slash_append hi with hi | hi | ⟨⟨a, e⟩, -⟩
      · exact absurd hi f1
      · have := ih [] hi
        exact this.trans ⟨u ++ n.text, [], by simp⟩
      · exact absurd ⟨a, e⟩ f3
    · rcases fits_head hf with ⟨t, e'⟩ | ⟨⟨c, t, e', hc⟩, -⟩ <;> rw [e'] at e <;> injection e with e _
      · simp at e
      · subst e; simp [IsWord] at hc

/-- As many hexadecimal digits at the beginning of `r'` as of `r`, at most. -/
def HexSim (r r' : Str) : Prop :=
  ∀ k, (∃ a b, r' = a ++ b ∧ a.length = k ∧ ∀ c ∈ a, IsHexDigit c) → ∃ a b, r = a ++ b ∧ a.length = k ∧ ∀ c ∈ a, IsHexDigit c

theorem HexSim.refl {r} : HexSim r r := fun _ h => h

theorem HexSim.cons {c r r'} (h : HexSim r r') : HexSim (c :: r) (c :: r') := by
  rintro k ⟨a, b, e, rfl, ha⟩
  cases a with
  | nil => exact ⟨[], _, rfl, rfl, by simp⟩
  | cons x a =>
    injection e with e1 e2
    subst e1
    obtain ⟨a', b', e3, h1, h2⟩ := h a.length ⟨a, b, e2, rfl, fun c hc => ha c (by simp [hc])⟩
    refine ⟨c :: a', b', by rw [e3]; rfl, by simp [h1], ?_⟩
    intro x hx
    rcases List.mem_cons.1 hx with rfl | hx
    · exact ha _ (by simp)
    · exact h2 x hx

theorem HexSim.stop {c r r'} (hc : ¬ IsHexDigit c) : HexSim (c :: r) (c :: r') := by
  rintro k ⟨a, b, e, rfl, ha⟩
  cases a with
  | nil => exact ⟨[], _, rfl, rfl, by simp⟩
  | cons x a =>
    injection e with e1 e2
    subst e1
    exact absurd (ha _ (by simp)) hc

theorem HexSim.append {r r' : Str} : ∀ {u : Str}, ((∀ c ∈ u, IsHexDigit c) → HexSim r r') → HexSim (u ++ r) (u ++ r')
  | [], h => h (by simp)
  | c :: u, h => by
    by_cases hc : IsHexDigit c
    · exact .cons (HexSim.append fun hu => h (by
        intro x hx
        rcases List.mem_cons.1 hx with rfl | hx
        · exact hc
        · exact hu x hx))
    · exact .stop hc

/-! ## Tokens -/

/-- Replacing names in what follows a token does not matter to it. -/
def Soft (t : Tok) : Prop := ∀ r r', Sim r r' → t.next r → t.next r'

/-- The same, unless hexadecimal digits come up. -/
def Semi (t : Tok) : Prop := ∀ r r', Sim r r' → HexSim r r' → t.next r → t.next r'

theorem Soft.semi {t} (h : Soft t) : Semi t := fun r r' h1 _ => h r r' h1

theorem soft_any {t : Tok} (h : t.next = .any) : Soft t := by
  intro r r' _ _; rw [h]; trivial
theorem soft_word {t : Tok} (h : t.next = .word) : Soft t := by
  intro r r' h1 h2; rw [h] at *; exact h1.word h2
theorem soft_spaced {t : Tok} (h : t.next = .spaced) : Soft t := by
  intro r r' h1 h2; rw [h] at *; exact h1.spaced h2
theorem soft_quote {t : Tok} {x : Quote} {q : Str} (h : t.next = x.next q) : Soft t := by
  intro r r' h1 h2
  rw [h] at *
  intro hp hi
  refine h2 hp ?_
  have := h1.star (x.val.drop 2 ++ q) (by simpa using hi)
  simpa using this
theorem soft_name (n : Name) : Soft n.tok := by
  cases n with
  | word s => exact soft_word rfl
  | quoted x => exact soft_quote (x := x) rfl
theorem soft_str (l : StrLit) : Soft l.tok := by
  cases l with
  | single x => exact soft_quote (x := x) rfl
  | triple x => exact soft_quote (x := x) rfl
theorem soft_ty (t : Ty) : Soft t.tok := by
  intro r r' h1 h2
  exact ⟨fun hw => h1.word (h2.1 hw), h1.array h2.2⟩

theorem semi_lit (l : Lit) : Semi { txt := l.text, next := l.next } := by
  unfold Lit.next
  split
  · exact (soft_str _).semi
  · rename_i x; exact (soft_quote (x := x) rfl).semi
  · rintro r r' _ h1 h2 ⟨a, b, c, t, e, ha, hb, hc⟩
    obtain ⟨u, v, e', hl, hu⟩ := h1 3 ⟨[a, b, c], t, e, rfl, by simp [ha, hb, hc]⟩
    match u, hl with
    | [x, y, z], _ =>
      simp at hu
      exact h2 ⟨x, y, z, v, e', hu⟩
  · exact (soft_any rfl).semi

theorem semi_aval (v : AVal) : Semi v.tok := by
  cases v with
  | lit l => exact semi_lit l
  | word s => exact (soft_spaced rfl).semi
  | dq x => exact (soft_quote (x := x) rfl).semi

theorem semi_attr (a : Attr) : ∀ t ∈ a.toks, Semi t := by
  intro t ht
  unfold Attr.toks at ht
  rcases List.mem_cons.1 ht with rfl | ht
  · exact (soft_spaced rfl).semi
  · cases hv : a.value with
    | none => simp [hv] at ht
    | some v =>
      simp [hv] at ht
      rcases ht with rfl | rfl
      · exact (soft_any rfl).semi
      · exact semi_aval v

theorem semi_commaSep {α : Type} {f : α → List Tok} {xs : List α} (h : ∀ x, ∀ t ∈ f x, Semi t) :
    ∀ t ∈ commaSep f xs, Semi t := by
  cases xs with
  | nil => simp [commaSep]
  | cons x xs =>
    intro t ht
    simp only [commaSep, List.mem_append, List.mem_flatMap, List.mem_cons] at ht
    rcases ht with ht | ⟨y, -, rfl | ht⟩
    · exact h x t ht
    · exact (soft_any rfl).semi
    · exact h y t ht

theorem semi_brackets {α : Type} {f : α → List Tok} {xs : List α} (h : ∀ x, ∀ t ∈ f x, Semi t) :
    ∀ t ∈ brackets f xs, Semi t := by
  intro t ht
  simp only [brackets, List.mem_cons, List.mem_append, List.not_mem_nil, or_false] at ht
  rcases ht with rfl | ht | rfl
  · exact (soft_any rfl).semi
  · exact semi_commaSep h t ht
  · exact (soft_any rfl).semi

theorem soft_note (n : Source.Note) : ∀ t ∈ n.toks, Soft t := by
  intro t ht
  unfold Source.Note.toks at ht
  split at ht <;> simp at ht
  · rcases ht with rfl | rfl | rfl | rfl
    · exact soft_any rfl
    · exact soft_any rfl
    · exact soft_str _
    · exact soft_any rfl
  · rcases ht with rfl | rfl | rfl
    · exact soft_any rfl
    · exact soft_any rfl
    · exact soft_str _

/-! ## Located tokens -/

/-- A token, and where it stands if it is a name. -/
inductive LT where
  | keep (t : Tok) | name (n : Name) (pos : Nat)

namespace LT
def txt : LT → Str
  | keep t => t.txt
  | name n _ => n.text
/-- The token, with the name at `p` replaced by `g p`. -/
def tok (g : Nat → Option Name) : LT → Tok
  | keep t => t
  | name n p => ((g p).getD n).tok
def span? : LT → Option Span
  | keep _ => none
  | name n p => some ⟨p, p + blen n.text⟩
end LT

/-- What a token leaves pending: a color, and hexadecimal digits after it. -/
def Pend (D : Prop) (t : Tok) : Prop := ¬ Soft t ∨ (D ∧ ∀ c ∈ t.txt, IsHexDigit c)

/-- The text is a layout of the tokens, each name standing where it says; no name comes when `D` is pending. -/
def WrP : Prop → List LT → Nat → Str → Prop
  | _, [], _, s => BlankEnd s
  | D, .keep t :: ls, pos, s => ∃ w r, s = w ++ (t.txt ++ r) ∧ Blank w ∧ t.txt ≠ [] ∧ t.next r ∧ Semi t ∧
      WrP (Pend D t) ls (pos + blen w + blen t.txt) r
  | D, .name n p :: ls, pos, s => ∃ w r, s = w ++ (n.text ++ r) ∧ Blank w ∧ n.Ok ∧ n.next r ∧ ¬ D ∧ p = pos + blen w ∧
      WrP False ls (p + blen n.text) r

theorem WrP.mono : ∀ {ls : List LT} {D D' : Prop} {pos s}, (D' → D) → WrP D ls pos s → WrP D' ls pos s
  | [], _, _, _, _, _, h => h
  | .keep t :: ls, D, D', pos, s, hd, ⟨w, r, e, h1, h2, h3, h4, h5⟩ =>
    ⟨w, r, e, h1, h2, h3, h4, WrP.mono (fun h => h.imp id fun h => ⟨hd h.1, h.2⟩) h5⟩
  | .name n p :: ls, D, D', pos, s, hd, ⟨w, r, e, h1, h2, h3, h4, h5⟩ =>
    ⟨w, r, e, h1, h2, h3, fun h => h4 (hd h), h5⟩

/-- In front of any layout of further tokens at `r`, the text `s` adds the tokens `ls`. -/
def LayD (D : Prop) (ls : List LT) (pos : Nat) (s : Str) (D' : Prop) (pos' : Nat) (r : Str) : Prop :=
  ∀ zs, WrP D' zs pos' r → WrP D (ls ++ zs) pos s

abbrev LayP (ls : List LT) (pos : Nat) (s : Str) (pos' : Nat) (r : Str) : Prop := LayD False ls pos s False pos' r

/-- Implicit skipping at `r1` leads to `r2`. -/
def GappedP (p1 : Nat) (r1 : Str) (p2 : Nat) (r2 : Str) : Prop := ∃ w, r1 = w ++ r2 ∧ Gap1 w r2 ∧ p2 = p1 + blen w

theorem WrP.blank {D zs w s pos} (hw : Blank w) (h : WrP D zs (pos + blen w) s) : WrP D zs pos (w ++ s) := by
  match zs, h with
  | [], h => exact blank_end_append hw h
  | .keep t :: ls, ⟨w', r, e, h1, h2, h3, h4, h5⟩ =>
    exact ⟨w ++ w', r, by simp [e], blank_append hw h1, h2, h3, h4, by simpa [blen_append, Nat.add_assoc] using h5⟩
  | .name n p :: ls, ⟨w', r, e, h1, h2, h3, h4, h5, h6⟩ =>
    exact ⟨w ++ w', r, by simp [e], blank_append hw h1, h2, h3, h4, by simpa [blen_append, Nat.add_assoc] using h5, h6⟩

theorem GappedP.wr {D p1 r1 p2 r2 zs} (h : GappedP p1 r1 p2 r2) (hz : WrP D zs p2 r2) : WrP D zs p1 r1 := by
  obtain ⟨w, rfl, hg, rfl⟩ := h
  by_cases hne : r2 = []
  · subst hne
    cases zs with
    | nil =>
      rcases hg with ⟨hb, -⟩ | ⟨-, hb⟩
      · exact blank_end_append hb hz
      · rw [List.append_nil]; exact hb
    | cons l ls =>
      exfalso
      cases l with
      | keep t =>
        obtain ⟨w', r', e, -, h2, -⟩ := hz
        simp at e
        exact h2 e.2.1
      | name n p =>
        obtain ⟨w', r', e, -, h2, -⟩ := hz
        simp at e
        exact Name.text_ne h2 e.2.1
  · exact WrP.blank (hg.blank hne) hz

theorem LayD.nil {D pos s} : LayD D [] pos s D pos s := fun _ h => h

theorem LayD.seq {D l1 pos s D1 p1 r1 p2 r2 l2 D2 p3 r} (h1 : LayD D l1 pos s D1 p1 r1) (hg : GappedP p1 r1 p2 r2)
    (h2 : LayD D1 l2 p2 r2 D2 p3 r) : LayD D (l1 ++ l2) pos s D2 p3 r := by
  intro zs hz
  have := h1 _ (hg.wr (h2 zs hz))
  simpa using this

theorem LayD.cast {D l1 l2 pos s D' pos' r} (h : LayD D l1 pos s D' pos' r) (e : l1 = l2) :
    LayD D l2 pos s D' pos' r := e ▸ h

theorem LayD.at {D l pos s D' p q r} (h : LayD D l pos s D' p r) (e : p = q) : LayD D l pos s D' q r := e ▸ h

theorem LayD.weaken {D l pos s D1 D2 p r} (h : LayD D l pos s D1 p r) (hd : D1 → D2) : LayD D l pos s D2 p r :=
  fun zs hz => h zs (hz.mono hd)

theorem LayD.any {D l pos s D1 p r} (h : LayD D l pos s D1 p r) : LayD D l pos s True p r := h.weaken fun _ => trivial

theorem LayD.keep {D} {t : Tok} {c r : Str} {pos} (hc : t.txt = c) (hne : c ≠ []) (hs : Soft t)
    (hx : D → ∃ x ∈ c, ¬ IsHexDigit x) (hn : t.next r) : LayD D [.keep t] pos (c ++ r) False (pos + blen c) r := by
  subst hc
  intro zs hz
  refine ⟨[], r, rfl, .nil, hne, hn, hs.semi, ?_⟩
  refine (hz.mono ?_ : WrP _ zs (pos + blen t.txt) r)
  rintro (h | ⟨hd, h⟩)
  · exact h hs
  · obtain ⟨x, h1, h2⟩ := hx hd
    exact h2 (h x h1)

theorem LayD.name {n : Name} {r : Str} {pos} (h : n.Ok) (hn : n.next r) :
    LayP [.name n pos] pos (n.text ++ r) (pos + blen n.text) r := by
  intro zs hz
  exact ⟨[], r, rfl, .nil, h, hn, fun h => h, rfl, hz⟩

/-- What is pending after the tokens. -/
def EndsP (D : Prop) : List Tok → Prop
  | [] => D
  | t :: ts => EndsP (Pend D t) ts

theorem ends_soft : ∀ {ts : List Tok} {D : Prop}, (∀ t ∈ ts, Soft t) → ¬ D → ¬ EndsP D ts
  | [], _, _, hd => hd
  | t :: ts, D, h, hd => ends_soft (fun x hx => h x (by simp [hx]))
    (D := Pend D t) (fun h' => h'.elim (fun h' => h' (h t (by simp))) fun h' => hd h'.1)

theorem ends_last {t : Tok} (hs : Soft t) (hx : ∃ x ∈ t.txt, ¬ IsHexDigit x) : ∀ {ts : List Tok} {D : Prop},
    ¬ EndsP D (ts ++ [t])
  | [], D => by
    rintro (h | ⟨-, h⟩)
    · exact h hs
    · obtain ⟨x, h1, h2⟩ := hx
      exact h2 (h x h1)
  | _ :: ts, D => ends_last hs hx (ts := ts)

theorem wrp_of_written {r : Str} {zs : List LT} : ∀ {ts : List Tok} {a : Str} {D : Prop} {pos : Nat},
    Written (ts ++ [endTok r]) (a ++ r) → (∀ t ∈ ts, Semi t ∧ t.txt ≠ []) → WrP (EndsP D ts) zs (pos + blen a) r →
    WrP D (ts.map .keep ++ zs) pos (a ++ r)
  | [], a, D, pos, ⟨w, r', e, hw, hn, _⟩, _, hz => by
    cases (show r' = [] from hn)
    simp only [endTok, List.append_nil] at e
    cases List.append_cancel_right e
    exact WrP.blank hw hz
  | t :: ts, a, D, pos, ⟨w, r', e, hw, hn, h⟩, hs, hz => by
    have hb : ∃ a', r' = a' ++ r := by
      clear hz e hn hs
      induction ts generalizing r' with
      | nil =>
        obtain ⟨w, r', e, hw, hn, _⟩ := h
        cases (show r' = [] from hn)
        exact ⟨w, by simpa [endTok] using e⟩
      | cons x xs ih =>
        obtain ⟨w, r'', e, hw, hn, h⟩ := h
        obtain ⟨a', rfl⟩ := ih _ h
        exact ⟨w ++ (x.txt ++ a'), by simp [e]⟩
    obtain ⟨a', rfl⟩ := hb
    have e' : a ++ r = (w ++ (t.txt ++ a')) ++ r := by simpa using e
    cases List.append_cancel_right e'
    refine ⟨w, a' ++ r, by simp, hw, (hs t (by simp)).2, hn, (hs t (by simp)).1, ?_⟩
    refine wrp_of_written h (fun x hx => hs x (by simp [hx])) ?_
    have hz' : WrP (EndsP (Pend D t) ts) zs (pos + blen (w ++ (t.txt ++ a'))) r := hz
    simpa [blen_append, Nat.add_assoc] using hz'

/-- Constructs without names. -/
theorem LayD.of {ts : List Tok} {c r : Str} {pos} (h : Lay ts (c ++ r) r) (hs : ∀ t ∈ ts, Semi t) :
    LayD False (ts.map .keep) pos (c ++ r) (EndsP False ts) (pos + blen c) r := by
  intro zs hz
  by_cases hr : r = []
  · subst hr
    obtain ⟨h1, h2⟩ := h [] ⟨.inl .nil, by simp⟩
    have hzs : zs = [] := by
      cases zs with
      | nil => rfl
      | cons l ls =>
        exfalso
        cases l with
        | keep t =>
          obtain ⟨w', r', e, -, h2, -⟩ := hz
          simp at e
          exact h2 e.2.1
        | name n p =>
          obtain ⟨w', r', e, -, h2, -⟩ := hz
          simp at e
          exact Name.text_ne h2 e.2.1
    subst hzs
    simp only [List.append_nil] at *
    clear hz h
    have : ∀ (ts : List Tok) (s : Str) (D : Prop) (pos : Nat), Written ts s → (∀ t ∈ ts, Semi t) →
        (∀ t ∈ ts, t.txt ≠ []) → WrP D (ts.map .keep) pos s := by
      intro ts
      induction ts with
      | nil => intro s D pos h _ _; exact h
      | cons t ts ih =>
        rintro s D pos ⟨w, r, e, hw, hn, h⟩ h1 h2
        exact ⟨w, r, e, hw, h2 t (by simp), hn, h1 t (by simp), ih _ _ _ h (fun x hx => h1 x (by simp [hx]))
          (fun x hx => h2 x (by simp [hx]))⟩
    exact this ts c _ _ h1 hs h2
  · obtain ⟨h1, h2⟩ := h _ (endTok_wr hr)
    exact wrp_of_written h1 (fun t ht => ⟨hs t ht, h2 t (by simp [ht])⟩) hz

theorem map_keep_tok (g : Nat → Option Name) (ts : List Tok) : (ts.map LT.keep).map (LT.tok g) = ts := by
  induction ts with
  | nil => rfl
  | cons t ts ih => simp only [List.map_cons, ih]; rfl

theorem keep_spans (ts : List Tok) : (ts.map LT.keep).filterMap LT.span? = [] := by
  induction ts with
  | nil => rfl
  | cons t ts ih => simp only [List.map_cons, List.filterMap_cons, LT.span?, ih]

end Dbml
