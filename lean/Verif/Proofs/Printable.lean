import Verif.Spec.Source

/-!
# Tokens before a line break

Any token of a document may be followed by a line break, unless its text contains `/*`.
-/

namespace Dbml
open Syntax Source

/-- Three characters, or fewer with a closing brace or bracket: no token depends on more of what follows it. -/
def Settled (r : Str) : Prop := 3 ≤ r.length ∨ '}' ∈ r ∨ ']' ∈ r

theorem Settled.append {r : Str} (h : Settled r) (a b : Str) : Settled (a ++ (r ++ b)) := by
  rcases h with h | h
  · exact .inl (by simp; omega)
  · exact .inr (h.imp (fun h => by simp [h]) fun h => by simp [h])

/-- The token may be followed by a line break, if its text does not contain `/*`. And if `r` may follow it, then
also `r`, a line break and any other text `r'`, if the text of the token does not contain `/*`, or `r'` does not
contain `*/`, or some text that contains `*/` may follow it. And if some text may follow it, then also its beginning. And if `r` is long enough, then also `r` and any
text `q`, if the text of the token does not contain `/*` or `q` no slash. -/
def Breaks (t : Tok) : Prop :=
  (¬ k!"/*" <:+: t.txt → ∀ r, t.next ('\n' :: r)) ∧
  (∀ r r', (¬ k!"/*" <:+: t.txt ∨ (k!"*/" <:+: r' → ∃ x, k!"*/" <:+: x ∧ t.next x)) → t.next r →
    t.next (r ++ '\n' :: r')) ∧
  (∀ r r', t.next (r ++ r') → t.next r) ∧
  ∀ r q, Settled r → (¬ k!"/*" <:+: t.txt ∨ '/' ∉ q) → t.next r → t.next (r ++ q)

def AllBreak (ts : List Tok) : Prop := ∀ t ∈ ts, Breaks t

theorem AllBreak.nil : AllBreak [] := by intro t h; simp at h
theorem AllBreak.cons {t ts} (h : Breaks t) (hs : AllBreak ts) : AllBreak (t :: ts) := by
  intro x hx
  rcases List.mem_cons.1 hx with rfl | hx
  · exact h
  · exact hs x hx
theorem AllBreak.append {a b} (h1 : AllBreak a) (h2 : AllBreak b) : AllBreak (a ++ b) := by
  intro x hx
  rcases List.mem_append.1 hx with hx | hx
  · exact h1 x hx
  · exact h2 x hx
theorem AllBreak.flatMap {α : Type} {f : α → List Tok} {xs : List α} (h : ∀ x, AllBreak (f x)) :
    AllBreak (xs.flatMap f) := by
  intro t ht
  obtain ⟨x, -, h1⟩ := List.mem_flatMap.1 ht
  exact h x t h1

theorem breaks_any {t : Tok} (h : t.next = .any) : Breaks t := by
  rw [Breaks, h]
  exact ⟨fun _ _ => trivial, fun _ _ _ _ => trivial, fun _ _ _ => trivial, fun _ _ _ _ _ => trivial⟩

theorem word_break (r : Str) : Next.word ('\n' :: r) := by
  rintro c u e
  injection e with e _
  subst e
  simp [IsWord]

theorem word_break_append {r : Str} (h : Next.word r) (r' : Str) : Next.word (r ++ '\n' :: r') := by
  cases r with
  | nil => exact word_break r'
  | cons x xs =>
    rintro c u e
    injection e with e _
    exact h c xs (by rw [e])

theorem word_cut {r r' : Str} (h : Next.word (r ++ r')) : Next.word r := by
  rintro c u rfl
  exact h c (u ++ r') rfl

theorem word_extend {r q : Str} (hs : Settled r) (h : Next.word r) : Next.word (r ++ q) := by
  cases r with
  | nil => simp [Settled] at hs
  | cons x xs =>
    rintro c u e
    injection e with e _
    exact h c xs (by rw [e])

theorem breaks_word {t : Tok} (h : t.next = .word) : Breaks t := by
  rw [Breaks, h]
  exact ⟨fun _ r => word_break r, fun r r' _ h => word_break_append h r', fun _ _ => word_cut,
    fun _ _ hs _ => word_extend hs⟩

theorem breaks_spaced {t : Tok} (h : t.next = .spaced) : Breaks t := by
  rw [Breaks, h]
  refine ⟨fun _ r => ⟨word_break r, ?_⟩, fun r r' _ h => ⟨word_break_append h.1 r', ?_⟩,
    fun r r' h => ⟨word_cut h.1, ?_⟩, fun r q hs _ h => ⟨word_extend hs h.1, ?_⟩⟩
  · rintro c u e
    simp at e
  · rintro c u e
    match r, h with
    | [], _ => simp at e
    | [x], _ =>
      simp at e
      rw [← e.2.1]
      simp [IsWord]
    | x :: y :: xs, h =>
      simp at e
      exact h.2 c xs (by rw [e.1, e.2.1])
  · rintro c u rfl
    exact h.2 c (u ++ r') rfl
  · rintro c u e
    match r, h, hs with
    | [], _, hs => simp [Settled] at hs
    | [x], _, hs =>
      simp [Settled] at hs
      rcases hs with rfl | rfl <;> simp at e
    | x :: y :: xs, h, _ =>
      simp at e
      exact h.2 c xs (by rw [e.1, e.2.1])

/-- `*/` cannot reach over a line break. -/
theorem infix_break {a b : Str} (h : k!"*/" <:+: a ++ '\n' :: b) : k!"*/" <:+: a ∨ k!"*/" <:+: b := by
  induction a with
  | nil =>
    rw [List.nil_append, List.infix_cons_iff] at h
    rcases h with h | h
    · obtain ⟨t, h⟩ := h
      simp at h
    · exact .inr h
  | cons x xs ih =>
    rw [List.cons_append, List.infix_cons_iff] at h
    rcases h with h | h
    · cases xs with
      | nil =>
        obtain ⟨t, h⟩ := h
        simp at h
      | cons y ys =>
        obtain ⟨t, h⟩ := h
        simp at h
        obtain ⟨rfl, rfl, -⟩ := h
        exact .inl ⟨[], ys, rfl⟩
    · rcases ih h with h | h
      · exact .inl (List.infix_cons_iff.2 (.inr h))
      · exact .inr h

/-- `*/` ends with a slash. -/
theorem infix_no_slash {a q : Str} (hq : '/' ∉ q) (h : k!"*/" <:+: a ++ q) : k!"*/" <:+: a := by
  obtain ⟨u, v, e⟩ := h
  by_cases hl : (u ++ k!"*/").length ≤ a.length
  · have hp : u ++ k!"*/" <+: a :=
      List.prefix_of_prefix_length_le ⟨v, e⟩ (List.prefix_append a q) hl
    obtain ⟨w, rfl⟩ := hp
    exact ⟨u, w, by simp⟩
  · refine absurd ?_ hq
    have h1 : (a ++ q)[u.length + 1]? = some '/' := by rw [← e]; simp [List.getElem?_append]
    have hge : a.length ≤ u.length + 1 := by simp at hl; omega
    rw [List.getElem?_append_right hge] at h1
    exact List.mem_of_getElem? h1

theorem quote_infix {x : Quote} {q : Str} (hp : k!"/*" <+: x.val) : k!"/*" <:+: x.text q :=
  hp.isInfix.trans ⟨q ++ x.pad, q, by simp [Quote.text]⟩

theorem quote_extend {x : Quote} {d r q : Str} (h : ¬ k!"/*" <:+: x.text d ∨ '/' ∉ q) (hr : x.next d r) :
    x.next d (r ++ q) := by
  intro hp hi
  rcases h with h | h
  · exact h (quote_infix hp)
  · have e : x.val.drop 2 ++ (d ++ (r ++ q)) = (x.val.drop 2 ++ (d ++ r)) ++ q := by simp
    rw [e] at hi
    exact hr hp (infix_no_slash h hi)

theorem breaks_quote {t : Tok} {x : Quote} {q : Str} (h1 : t.txt = x.text q) (h2 : t.next = x.next q) : Breaks t := by
  rw [Breaks, h1, h2]
  refine ⟨fun h r hp => absurd (quote_infix hp) h, fun r r' h hr hp => ?_, fun r r' h hp hi => ?_,
    fun r q _ h hr => quote_extend h hr⟩
  rotate_left
  · refine h hp (hi.trans ⟨[], r', by simp⟩)
  rcases h with h | h
  · exact absurd (quote_infix hp) h
  · intro hi
    have e : x.val.drop 2 ++ (q ++ (r ++ '\n' :: r')) = (x.val.drop 2 ++ (q ++ r)) ++ '\n' :: r' := by simp
    rw [e] at hi
    rcases infix_break hi with hi | hi
    · exact hr hp hi
    · obtain ⟨u, hu, hn⟩ := h hi
      exact hn hp (hu.trans ⟨x.val.drop 2 ++ q, [], by simp⟩)

theorem breaks_name (n : Name) : Breaks n.tok := by
  cases n with
  | word s => exact breaks_word rfl
  | quoted x => exact breaks_quote rfl rfl

theorem breaks_str (l : StrLit) : Breaks l.tok := by
  cases l <;> exact breaks_quote rfl rfl

theorem breaks_key (k : Str) : Breaks (keyTok k) := breaks_spaced rfl

theorem breaks_hex {t : Tok} (h : t.next = fun r => ¬ ∃ a b c t, r = a :: b :: c :: t ∧ IsHexDigit a ∧
    IsHexDigit b ∧ IsHexDigit c) : Breaks t := by
  have hnl : ¬ IsHexDigit '\n' := by simp [IsHexDigit]
  rw [Breaks, h]
  refine ⟨?_, ?_, ?_, ?_⟩
  · rintro _ r ⟨a, b, c, t, e, h, -⟩
    injection e with e _
    exact hnl (e ▸ h)
  · rintro r r' _ hr ⟨a, b, c, t, e, h1, h2, h3⟩
    match r, hr with
    | [], _ =>
      simp at e
      exact hnl (e.1 ▸ h1)
    | [x], _ =>
      simp at e
      exact hnl (e.2.1 ▸ h2)
    | [x, y], _ =>
      simp at e
      exact hnl (e.2.2.1 ▸ h3)
    | x :: y :: z :: r, hr =>
      simp at e
      obtain ⟨rfl, rfl, rfl, -⟩ := e
      exact hr ⟨_, _, _, _, rfl, h1, h2, h3⟩
  · rintro r r' hr ⟨a, b, c, t, rfl, h1, h2, h3⟩
    exact hr ⟨a, b, c, t ++ r', rfl, h1, h2, h3⟩
  · have hb : ¬ IsHexDigit '}' := by simp [IsHexDigit]
    have hb' : ¬ IsHexDigit ']' := by simp [IsHexDigit]
    rintro r q hs _ hr ⟨a, b, c, t, e, h1, h2, h3⟩
    match r, hr, hs with
    | [], _, hs => simp [Settled] at hs
    | [x], _, hs =>
      simp [Settled] at hs
      simp at e
      rcases hs with rfl | rfl
      · exact hb (e.1 ▸ h1)
      · exact hb' (e.1 ▸ h1)
    | [x, y], _, hs =>
      simp [Settled] at hs
      simp at e
      rcases hs with (h | h) | h | h
      · exact hb (h ▸ e.1 ▸ h1)
      · exact hb (h ▸ e.2.1 ▸ h2)
      · exact hb' (h ▸ e.1 ▸ h1)
      · exact hb' (h ▸ e.2.1 ▸ h2)
    | x :: y :: z :: r, hr, _ =>
      simp at e
      obtain ⟨rfl, rfl, rfl, -⟩ := e
      exact hr ⟨_, _, _, _, rfl, h1, h2, h3⟩

theorem breaks_lit (l : Lit) : Breaks { txt := l.text, next := l.next } := by
  unfold Lit.next
  split
  · exact breaks_str _
  · exact breaks_quote rfl rfl
  · exact breaks_hex rfl
  · exact breaks_any rfl

theorem breaks_aval (v : AVal) : Breaks v.tok := by
  cases v with
  | lit l => exact breaks_lit l
  | word s => exact breaks_spaced rfl
  | dq x => exact breaks_quote rfl rfl

theorem breaks_icol (c : ICol) : Breaks c.tok := by
  cases c with
  | name n => exact breaks_name n
  | expr x => exact breaks_quote rfl rfl

theorem breaks_ty (t : Ty) : Breaks t.tok := by
  refine ⟨fun _ r => ⟨fun _ => word_break r, by simp⟩, fun r r' _ h => ⟨fun hw => word_break_append (h.1 hw) r', ?_⟩,
    fun r r' h => ⟨fun hw => word_cut (h.1 hw), fun hp => h.2 (hp.trans (List.prefix_append _ _))⟩,
    fun r q hs _ h => ⟨fun hw => word_extend hs (h.1 hw), ?_⟩⟩
  rotate_left
  · match r, h, hs with
    | [], _, hs => simp [Settled] at hs
    | [x], _, hs =>
      simp [Settled] at hs
      rcases hs with rfl | rfl <;> simp
    | x :: y :: xs, h, _ =>
      intro hp
      refine h.2 ?_
      simpa using hp
  match r, h with
  | [], _ => simp
  | [x], _ => simp
  | x :: y :: xs, h =>
    intro hp
    refine h.2 ?_
    simpa using hp

theorem AllBreak.one {t} (h : Breaks t) : AllBreak [t] := .cons h .nil

theorem AllBreak.commaSep {α : Type} {f : α → List Tok} {xs : List α} (h : ∀ x, AllBreak (f x)) :
    AllBreak (Source.commaSep f xs) := by
  cases xs with
  | nil => exact .nil
  | cons x xs => exact .append (h x) (.flatMap fun y => .cons (breaks_any rfl) (h y))

theorem AllBreak.optBrackets {α : Type} {f : α → List Tok} {o : Option (List α)} (h : ∀ x, AllBreak (f x)) :
    AllBreak (Source.optBrackets f o) := by
  cases o with
  | none => exact .nil
  | some xs => exact .cons (breaks_any rfl) (.append (.commaSep h) (.one (breaks_any rfl)))

theorem AllBreak.body {α : Type} {f : α → List Tok} {xs : List α} (h : ∀ x, AllBreak (f x)) :
    AllBreak (lbrace :: (xs.flatMap f ++ [rbrace])) :=
  .cons (breaks_any rfl) (.append (.flatMap h) (.one (breaks_any rfl)))

theorem breaks_attr (a : Attr) : AllBreak a.toks := by
  refine .cons (breaks_key _) ?_
  cases a.value with
  | none => exact .nil
  | some v => exact .cons (breaks_any rfl) (.one (breaks_aval v))

theorem breaks_note (n : Note) : AllBreak n.toks := by
  refine .cons (breaks_any rfl) ?_
  cases n.braced with
  | true => exact .cons (breaks_any rfl) (.cons (breaks_str _) (.one (breaks_any rfl)))
  | false => exact .cons (breaks_any rfl) (.one (breaks_str _))

theorem breaks_qual (s : Option Name) (n : Name) : AllBreak (qualToks s n) := by
  cases s with
  | none => exact .one (breaks_name n)
  | some s => exact .cons (breaks_name s) (.cons (breaks_any rfl) (.one (breaks_name n)))

theorem breaks_rend (r : REnd) : AllBreak r.toks := by
  refine .append (breaks_qual _ _) (.cons (breaks_any rfl) ?_)
  cases r.cols with
  | one n => exact .one (breaks_name n)
  | many n ns =>
    exact .cons (breaks_any rfl) (.append (.commaSep fun m => .one (breaks_name m)) (.one (breaks_any rfl)))

theorem breaks_stmt (r : Ref) : AllBreak r.stmtToks :=
  .append (breaks_rend _) (.cons (breaks_any rfl) (.append (breaks_rend _) (.optBrackets breaks_attr)))

theorem breaks_ref (r : Ref) : AllBreak r.toks := by
  refine .cons (breaks_any rfl) (.append ?_ ?_)
  · cases r.name with
    | none => exact .nil
    | some n => exact .one (breaks_name n)
  · cases r.braced with
    | true => exact .cons (breaks_any rfl) (.append (breaks_stmt r) (.one (breaks_any rfl)))
    | false => exact .cons (breaks_any rfl) (breaks_stmt r)

theorem breaks_idef (d : IDef) : AllBreak d.toks := by
  cases d with
  | single c s => exact .cons (breaks_icol c) (.optBrackets breaks_attr)
  | multi cs s =>
    exact .cons (breaks_any rfl) (.append (.commaSep fun c => .one (breaks_icol c))
      (.cons (breaks_any rfl) (.optBrackets breaks_attr)))

theorem breaks_colset (c : ColSet) : AllBreak c.toks := by
  cases c with
  | attr a => exact breaks_attr a
  | ref r => exact .cons (breaks_any rfl) (.cons (breaks_any rfl) (.cons (breaks_any rfl) (breaks_rend _)))

theorem breaks_titem (i : TItem) : AllBreak i.toks := by
  cases i with
  | col c => exact .cons (breaks_name _) (.cons (breaks_ty _) (.optBrackets breaks_colset))
  | note n => exact breaks_note n
  | indexes i => exact .cons (breaks_any rfl) (.body breaks_idef)

theorem breaks_block (b : Block) : AllBreak b.toks := by
  cases b with
  | project p =>
    refine .cons (breaks_any rfl) (.cons (breaks_name _) (.body fun i => ?_))
    cases i with
    | note n => exact breaks_note n
    | prop k v => exact .cons (breaks_key k) (.cons (breaks_any rfl) (.one (breaks_aval v)))
  | table t =>
    refine .cons (breaks_any rfl) (.append (breaks_qual _ _) (.append ?_ (.append (.optBrackets breaks_attr)
      (.body breaks_titem))))
    unfold Table.aliasToks
    cases t.alias with
    | none => exact .nil
    | some a => exact .cons (breaks_any rfl) (.one (breaks_name _))
  | group g =>
    refine .cons (breaks_any rfl) (.cons (breaks_name _) (.append (.optBrackets breaks_attr) (.body fun i => ?_)))
    cases i with
    | note n => exact breaks_note n
    | item s n => exact breaks_qual s n
  | note n => exact breaks_note n
  | ref r => exact breaks_ref r
  | enum e =>
    exact .cons (breaks_any rfl) (.append (breaks_qual _ _) (.body fun v => .cons (breaks_name _)
      (.optBrackets breaks_attr)))

theorem breaks_doc (d : Doc) : AllBreak d.toks := .flatMap breaks_block

end Dbml
