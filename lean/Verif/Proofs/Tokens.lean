import Verif.Proofs.LexRun

/-!
# Reading token lists

`Reads e x z Ps`: wherever the tokens `x` are written, `e` succeeds, what is left are the tokens `z`, and the
emitted pairs satisfy the predicates `Ps`, one each. `Fails e x`: wherever the tokens `x` are written, `e` fails.
-/

namespace Dbml
open Syntax Source

/-- Tokens begin with a character that cannot begin trivia; if it is a slash, then no comment begins here. -/
def TokOk (t : Tok) : Prop :=
  ∃ c cs, t.txt = c :: cs ∧ ¬ IsSpace c ∧ (c = '/' → ∀ r, t.next r → Solid (t.txt ++ r))

theorem tokOk_of {t : Tok} {c cs} (h : t.txt = c :: cs) (hc : ¬ IsSpace c ∧ c ≠ '/') : TokOk t :=
  ⟨c, cs, h, hc.1, fun e => absurd e hc.2⟩

/-- The first character of a token list. -/
def hd : List Tok → Option Char
  | [] => none
  | t :: _ => t.txt.head?

/-- What may follow the token `t`, if the tokens `ts` come next. -/
def After (t : Tok) (ts : List Tok) (r : Str) : Prop := t.next r ∧ Written ts r

/-- The text starts with the first token. -/
def Laid : List Tok → Str → Prop
  | [], s => s = []
  | t :: ts, s => ∃ r, s = t.txt ++ r ∧ After t ts r

/-- The text starts with the tokens `ts`. -/
def At (ts : List Tok) (s : Str) : Prop := (∀ t ∈ ts, TokOk t) ∧ Laid ts s

/-- The text starts with trivia and then the tokens `ts`. -/
def Lead (ts : List Tok) (s : Str) : Prop :=
  ∃ w r, s = w ++ r ∧ At ts r ∧ (Blank w ∨ (ts = [] ∧ BlankEnd w))

theorem At.head {ts s} (h : At ts s) : s.head? = hd ts := by
  cases ts with
  | nil => rw [show s = [] from h.2]; rfl
  | cons t ts =>
    obtain ⟨r, rfl, -⟩ := h.2
    obtain ⟨c, cs, e, -⟩ := h.1 t (by simp)
    simp [hd, e]

theorem At.solid {ts s} (h : At ts s) : Solid s := by
  cases ts with
  | nil => rw [show s = [] from h.2]; exact solid_nil
  | cons t ts =>
    obtain ⟨r, rfl, ha⟩ := h.2
    obtain ⟨c, cs, e, h1, h2⟩ := h.1 t (by simp)
    by_cases hc : c = '/'
    · exact h2 hc r ha.1
    · rw [e]
      exact solid_cons h1 hc

theorem At.lead {ts s} (h : At ts s) : Lead ts s := ⟨[], s, rfl, h, .inl .nil⟩

theorem Lead.skip {ts s} (h : Lead ts s) : ∃ w r, G.skip s = .ok w r [] ∧ At ts r ∧ s = w ++ r := by
  obtain ⟨w, r, rfl, ha, hw | ⟨rfl, hw⟩⟩ := h
  · exact ⟨w, r, skip_blank hw ha.solid, ha, rfl⟩
  · have : r = [] := ha.2
    subst this
    exact ⟨w, [], by simpa using skip_end hw, ha, rfl⟩

theorem written_lead {ts s} (ho : ∀ t ∈ ts, TokOk t) (h : Written ts s) : Lead ts s := by
  cases ts with
  | nil => exact ⟨s, [], by simp, ⟨by simp, rfl⟩, .inr ⟨rfl, h⟩⟩
  | cons b ts =>
    obtain ⟨w, r', rfl, hw, ha⟩ := h
    exact ⟨w, _, rfl, ⟨ho, r', rfl, ha⟩, .inl hw⟩

theorem after_lead {t ts r} (ho : ∀ t ∈ ts, TokOk t) (h : After t ts r) : Lead ts r := written_lead ho h.2

theorem At.cons {t ts s} (h : At (t :: ts) s) : ∃ r, s = t.txt ++ r ∧ After t ts r ∧ ∀ t ∈ ts, TokOk t := by
  obtain ⟨r, rfl, ha⟩ := h.2
  exact ⟨r, rfl, ha, fun x hx => h.1 x (by simp [hx])⟩

theorem blankEnd_head {w : Str} (h : BlankEnd w) : ∀ c t, w = c :: t → IsSpace c ∨ c = '/' := by
  rcases h with h | ⟨w, body, rfl, h, -⟩
  · exact blank_head h
  · intro c t e
    cases w with
    | nil => simp at e; exact .inr e.1.symm
    | cons x xs => simp at e; exact e.1 ▸ blank_head h x xs rfl

/-- What directly follows a token: a blank, a slash or the first character of the next token. -/
theorem after_headP {P : Char → Prop} {t z r} (hsp : ∀ c, IsSpace c → P c) (hsl : P '/')
    (hz : ∀ c, hd z = some c → P c) (ho : ∀ t ∈ z, TokOk t) (h : After t z r) : HeadP P r := by
  intro c u e
  replace h := h.2
  cases z with
  | nil =>
    rcases blankEnd_head h c u e with h | rfl
    · exact hsp _ h
    · exact hsl
  | cons b z =>
    obtain ⟨w, r', rfl, hw, -⟩ := h
    cases w with
    | nil =>
      obtain ⟨d, ds, e', -⟩ := ho b (by simp)
      rw [e'] at e
      simp at e
      exact hz c (by simp [hd, e', e.1])
    | cons x xs =>
      simp at e
      rcases blank_head hw x xs rfl with h | h
      · exact hsp _ (e.1 ▸ h)
      · rw [← e.1, h]; exact hsl

theorem space_not_word {c : Char} (h : IsSpace c) : ¬ IsWord c := by
  rcases h with rfl | rfl | rfl | rfl <;> simp [IsWord]
theorem slash_not_word : ¬ IsWord '/' := by simp [IsWord]

/-! ## The judgements -/

/-- Each pair satisfies the predicate at its place. -/
inductive AllP : List (Pair → Prop) → List Pair → Prop
  | nil : AllP [] []
  | cons {P p Ps ps} : P p → AllP Ps ps → AllP (P :: Ps) (p :: ps)

def Reads (e : PExpr) (x z : List Tok) (Ps : List (Pair → Prop)) : Prop :=
  ∀ pos s, At x s → ∃ c r ps, run G.skip e .nonAtomic pos s = .ok c r ps ∧ Lead z r ∧ AllP Ps ps

def Fails (e : PExpr) (x : List Tok) : Prop := ∀ pos s, At x s → run G.skip e .nonAtomic pos s = .fail

theorem AllP.append {Ps ps Qs qs} (h1 : AllP Ps ps) (h2 : AllP Qs qs) : AllP (Ps ++ Qs) (ps ++ qs) := by
  induction h1 with
  | nil => exact h2
  | cons h _ ih => exact .cons h ih

theorem AllP.one {P p} (h : P p) : AllP [P] [p] := .cons h .nil
theorem AllP.one' {P ps} (h : AllP [P] ps) : ∃ p, ps = [p] ∧ P p := by
  cases h with | cons h1 h2 => cases h2; exact ⟨_, rfl, h1⟩
theorem AllP.cons' {P Ps ps} (h : AllP (P :: Ps) ps) : ∃ p qs, ps = p :: qs ∧ P p ∧ AllP Ps qs := by
  cases h with | cons h1 h2 => exact ⟨_, _, rfl, h1, h2⟩
theorem AllP.nil' {ps} (h : AllP [] ps) : ps = [] := by cases h; rfl

theorem Reads.mono {e x z} {P Q : Pair → Prop} (h : Reads e x z [P]) (hpq : ∀ p, P p → Q p) :
    Reads e x z [Q] := by
  intro pos s hs
  obtain ⟨c, r, ps, h1, h2, h3⟩ := h pos s hs
  exact ⟨c, r, ps, h1, h2, (by obtain ⟨p, rfl, h⟩ := h3.one'; exact .one (hpq p h))⟩

theorem Reads.seq {a b x y z Ps Qs} (h1 : Reads a x y Ps) (h2 : Reads b y z Qs) :
    Reads (a ~~ b) x z (Ps ++ Qs) := by
  intro pos s hs
  obtain ⟨c1, r1, p1, e1, l1, q1⟩ := h1 pos s hs
  obtain ⟨w, r2, e2, l2, -⟩ := l1.skip
  obtain ⟨c3, r3, p3, e3, l3, q3⟩ := h2 (pos + blen c1 + blen w) r2 l2
  exact ⟨c1 ++ w ++ c3, r3, p1 ++ p3, by simp [run, seqRes, skipIf, e1, e2, e3], l3, q1.append q3⟩

theorem Reads.rule {r e x z Ps} (h : Reads e x z Ps) :
    Reads (.rule r .normal e) x z [fun p => p.rule = r ∧ AllP Ps p.children] := by
  intro pos s hs
  obtain ⟨c, rest, ps, h1, h2, h3⟩ := h pos s hs
  exact ⟨c, rest, _, rule_normal (by simp) h1, h2, .cons ⟨rfl, h3⟩ .nil⟩

theorem Reads.alt_left {a b x z Ps} (h : Reads a x z Ps) : Reads (a <//> b) x z Ps := by
  intro pos s hs
  obtain ⟨c, rest, ps, h1, h2, h3⟩ := h pos s hs
  exact ⟨c, rest, ps, Dbml.alt_left h1, h2, h3⟩

theorem Reads.alt_right {a b x z Ps} (h0 : Fails a x) (h : Reads b x z Ps) : Reads (a <//> b) x z Ps := by
  intro pos s hs
  obtain ⟨c, rest, ps, h1, h2, h3⟩ := h pos s hs
  exact ⟨c, rest, ps, alt_right' (h0 pos s hs) h1, h2, h3⟩

theorem Reads.opt {a x z Ps} (h : Reads a x z Ps) : Reads (.opt a) x z Ps := by
  intro pos s hs
  obtain ⟨c, rest, ps, h1, h2, h3⟩ := h pos s hs
  exact ⟨c, rest, ps, opt_some h1, h2, h3⟩

theorem Reads.opt_none {a x} (h : Fails a x) : Reads (.opt a) x x [] := by
  intro pos s hs
  exact ⟨[], s, [], Dbml.opt_none (h pos s hs), hs.lead, .nil⟩

theorem Fails.of_starts {e x} (hw : e.wf = true) (hn : e.nonNull = true) (hs : e.starts (hd x) = false) :
    Fails e x := by
  intro pos s h
  exact fail_of_starts hw hn (by rw [h.head]; exact hs) fun _ => h.solid

theorem Fails.seq_left {a b x} (h : Fails a x) : Fails (a ~~ b) x :=
  fun pos s hs => seq_fail_left (h pos s hs)

theorem Fails.seq_right {a b x y Ps} (h1 : Reads a x y Ps) (h2 : Fails b y) : Fails (a ~~ b) x := by
  intro pos s hs
  obtain ⟨c1, r1, p1, e1, l1, q1⟩ := h1 pos s hs
  obtain ⟨w, r2, e2, l2, -⟩ := l1.skip
  simp [run, seqRes, skipIf, e1, e2, h2 _ _ l2]

theorem Fails.rule {r a x} (h : Fails a x) : Fails (.rule r .normal a) x :=
  fun pos s hs => rule_fail (h pos s hs)

theorem Fails.alt {a b x} (h1 : Fails a x) (h2 : Fails b x) : Fails (a <//> b) x :=
  fun pos s hs => alt_right' (h1 pos s hs) (h2 pos s hs)

/-! ## Repetitions -/

/-- The loop of a repetition, starting before the trivia in front of the next item. -/
def LoopReads (e : PExpr) (x z : List Tok) (Ps : List (Pair → Prop)) : Prop :=
  ∀ pos s, Lead x s → ∃ c r ps, Loop (stepOf G.skip e .nonAtomic) pos s c r ps ∧ Lead z r ∧ AllP Ps ps

theorem LoopReads.nil {e z} (h : Fails e z) : LoopReads e z z [] := by
  intro pos s hs
  obtain ⟨w, r, e1, h1, -⟩ := hs.skip
  exact ⟨[], s, [], .nil (by simp [stepOf, seqRes, skipIf, e1, h _ _ h1]), hs, .nil⟩

theorem LoopReads.cons {e x y z Ps Qs} (hn : e.nonNull = true) (h1 : Reads e x y Ps)
    (h2 : LoopReads e y z Qs) : LoopReads e x z (Ps ++ Qs) := by
  intro pos s hs
  obtain ⟨w, r, e1, a1, rfl⟩ := hs.skip
  obtain ⟨c, r2, ps, e2, l2, q2⟩ := h1 (pos + blen w) r a1
  obtain ⟨he, hm⟩ := run_sound gskip_sound _ _ _ _ _ _ _ e2
  have hc : c ≠ [] := nonNull_consumes _ hn hm
  obtain ⟨c', r3, ps', e3, l3, q3⟩ := h2 (pos + blen (w ++ c)) r2 l2
  refine ⟨(w ++ c) ++ c', r3, ps ++ ps', .cons ?_ ?_ (by simp [hc]) e3, l3, q2.append q3⟩
  · simp [stepOf, seqRes, skipIf, e1, e2]
  · simp [he]

theorem Reads.star_nil {e z} (h : Fails e z) : Reads (.star e) z z [] := by
  intro pos s hs
  exact ⟨[], s, [], Dbml.star_nil (h pos s hs), hs.lead, .nil⟩

theorem Reads.star_cons {e x y z Ps Qs} (h1 : Reads e x y Ps) (h2 : LoopReads e y z Qs) :
    Reads (.star e) x z (Ps ++ Qs) := by
  intro pos s hs
  obtain ⟨c, r2, ps, e2, l2, q2⟩ := h1 pos s hs
  obtain ⟨c', r3, ps', e3, l3, q3⟩ := h2 (pos + blen c) r2 l2
  exact ⟨c ++ c', r3, ps ++ ps', Dbml.star_cons e2 e3, l3, q2.append q3⟩

/-- Reading a list of items; `F` is what may follow an item. -/
theorem loop_items {α : Type} {e : PExpr} {toks : α → List Tok} {P : α → Pair → Prop} {F : List Tok → Prop}
    (hn : e.nonNull = true) {z : List Tok} (hz : Fails e z) (hF : F z) : ∀ (xs : List α),
    (∀ x ∈ xs, ∀ y, F y → Reads e (toks x ++ y) y [P x]) → (∀ x ∈ xs, ∀ y, F (toks x ++ y)) →
    LoopReads e (xs.flatMap toks ++ z) z (xs.map P)
  | [], _, _ => .nil hz
  | x :: xs, h1, h2 => by
    have ih := loop_items hn hz hF xs (fun y hy => h1 y (by simp [hy])) (fun y hy => h2 y (by simp [hy]))
    have hf : F (xs.flatMap toks ++ z) := by
      cases xs with
      | nil => exact hF
      | cons y ys => simpa using h2 y (by simp) _
    have := LoopReads.cons hn (h1 x (by simp) _ hf) ih
    simpa using this

theorem star_items {α : Type} {e : PExpr} {toks : α → List Tok} {P : α → Pair → Prop} {F : List Tok → Prop}
    (hn : e.nonNull = true) {z : List Tok} (hz : Fails e z) (hF : F z) (xs : List α)
    (h1 : ∀ x ∈ xs, ∀ y, F y → Reads e (toks x ++ y) y [P x]) (h2 : ∀ x ∈ xs, ∀ y, F (toks x ++ y)) :
    Reads (.star e) (xs.flatMap toks ++ z) z (xs.map P) := by
  cases xs with
  | nil => exact .star_nil hz
  | cons x xs =>
    have ih := loop_items hn hz hF xs (fun y hy => h1 y (by simp [hy])) (fun y hy => h2 y (by simp [hy]))
    have hf : F (xs.flatMap toks ++ z) := by
      cases xs with
      | nil => exact hF
      | cons y ys => simpa using h2 y (by simp) _
    have := Reads.star_cons (h1 x (by simp) _ hf) ih
    simpa using this

/-! ## Tokens -/

theorem reads_str {s : Str} {k : Next} {z} : Reads (.str s) ({ txt := s, next := k } :: z) z [] := by
  intro pos t h
  obtain ⟨r, rfl, ha, ho⟩ := h.cons
  exact ⟨s, r, [], str_run, after_lead ho ha, .nil⟩

theorem reads_kw {k s : Str} {kd : Next} {z} (h : Keyword k s) :
    Reads (.insens k) ({ txt := s, next := kd } :: z) z [] := by
  intro pos t ht
  obtain ⟨r, rfl, ha, ho⟩ := ht.cons
  exact ⟨s, r, [], insens_run h, after_lead ho ha, .nil⟩

abbrev IdentP (n : Name) : Pair → Prop := Yields .ident parseIdent (·.mapSpan noPos) n.ast

theorem reads_ident {n : Name} {z} (hn : n.Ok) : Reads G.ident (n.tok :: z) z [IdentP n] := by
  intro pos t ht
  obtain ⟨r, rfl, ha, ho⟩ := ht.cons
  obtain ⟨p, h1, h2⟩ := ident_run (r := r) (a := .nonAtomic) (by simp) (n.in_loose hn ha.1) pos
  exact ⟨_, r, [p], h1, after_lead ho ha, .cons h2 .nil⟩

/-- A spaced word: the pair is known exactly, up to its position. -/
theorem reads_spaced {s : Str} {z} (hs : IsSpacedVar s) :
    Reads G.spaced_var ({ txt := s, next := .spaced } :: z) z
      [fun p => ∃ sp, p = .mk .spaced_var sp s []] := by
  intro pos t ht
  obtain ⟨r, rfl, ha, ho⟩ := ht.cons
  exact ⟨_, r, _, spaced_var_run (by simp) hs ha.1 pos, after_lead ho ha, .cons ⟨_, rfl⟩ .nil⟩

theorem reads_string' {l : StrLit} {z} (hl : l.Ok) (hz : l.text = k!"''" → hd z ≠ some '\'') :
    Reads G.string_value (l.tok :: z) z
      [fun p => p.rule = .string_value ∧ p.text = l.text ∧ parseStringValue p = .ok l.value] := by
  intro pos t ht
  obtain ⟨r, rfl, ha, ho⟩ := ht.cons
  obtain ⟨p, h1, h2⟩ := string_run (r := r) (a := .nonAtomic) (by simp) (l.in_loose hl ha.1)
    (fun ht => after_headP (P := (· ≠ '\'')) (by rintro c (rfl | rfl | rfl | rfl) <;> decide) (by decide)
      (by rintro c hc rfl; exact hz ht hc) ho ha) pos
  exact ⟨_, r, [p], h1, after_lead ho ha, .cons h2 .nil⟩

theorem reads_string {l : StrLit} {z} (hl : l.Ok) (hz : hd z ≠ some '\'') :
    Reads G.string_value (l.tok :: z) z
      [fun p => p.rule = .string_value ∧ p.text = l.text ∧ parseStringValue p = .ok l.value] :=
  reads_string' hl fun _ => hz

/-- The first character of what follows a literal. -/
def LitEnd (z : List Tok) : Prop := ∀ c, hd z = some c → c ≠ '.' ∧ c ≠ '\'' ∧ c.isDigit = false

theorem reads_value {l : Lit} {z} (hl : l.Ok) (hz : LitEnd z) :
    Reads G.value ({ txt := l.text, next := l.next } :: z) z
      [fun p => p.rule = .value ∧ p.text = l.text ∧ parseValue p = .ok l.value] := by
  intro pos t ht
  obtain ⟨r, rfl, ha, ho⟩ := ht.cons
  have hf : LitHead r := after_headP (P := fun c => c ≠ '.' ∧ c ≠ '\'' ∧ c.isDigit = false)
    (by rintro c (rfl | rfl | rfl | rfl) <;> decide) (by decide) hz ho ha
  obtain ⟨p, h1, h2⟩ := value_run (r := r) (a := .nonAtomic) (by simp) (l.in_loose hl ha.1) hf pos
  exact ⟨_, r, [p], h1, after_lead ho ha, .cons h2 .nil⟩

theorem reads_dq {x : Quote} {z} (hs : x.Ok k!"\"") :
    Reads G.double_quoted_string ({ txt := x.text k!"\"", next := x.next k!"\"" } :: z) z
      [fun p => ∃ sp sp', p = .mk .double_quoted_string sp (x.text k!"\"")
        [.mk .double_quoted_value sp' x.val []]] := by
  intro pos t ht
  obtain ⟨r, rfl, ha, ho⟩ := ht.cons
  obtain ⟨sp, sp', h1⟩ := dq_run (r := r) (a := .nonAtomic) (by simp) ⟨hs, ha.1⟩ pos
  exact ⟨_, r, _, h1, after_lead ho ha, .cons ⟨_, _, rfl⟩ .nil⟩

theorem reads_bq {x : Quote} {z} (hs : x.Ok k!"`") :
    Reads G.backquoted_quoted_string ({ txt := x.text k!"`", next := x.next k!"`" } :: z) z
      [fun p => ∃ sp sp', p = .mk .backquoted_quoted_string sp (x.text k!"`")
        [.mk .backquoted_quoted_value sp' x.val []]] := by
  intro pos t ht
  obtain ⟨r, rfl, ha, ho⟩ := ht.cons
  obtain ⟨sp, sp', h1⟩ := bq_run (r := r) (a := .nonAtomic) (by simp) ⟨hs, ha.1⟩ pos
  exact ⟨_, r, _, h1, after_lead ho ha, .cons ⟨_, _, rfl⟩ .nil⟩

end Dbml
