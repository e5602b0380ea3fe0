import Verif.Spec.Members
import Verif.Props.Language
import Verif.Proofs.Holes5

/-!
# Texts of members between braces
-/

namespace Dbml
open Syntax Source Spec Props

/-! ## No token ends with a line break -/

/-- Not empty, and the last character is not a line break. -/
def Trim (s : Str) : Prop := ∃ x c, s = x ++ [c] ∧ c ≠ '\n'

theorem Trim.pre {s : Str} (h : Trim s) (a : Str) : Trim (a ++ s) := by
  obtain ⟨x, c, rfl, hc⟩ := h
  exact ⟨a ++ x, c, by simp, hc⟩

theorem Trim.of {s : Str} (h : s ≠ []) (hn : '\n' ∉ s) : Trim s := by
  rcases List.eq_nil_or_concat s with rfl | ⟨x, c, rfl⟩
  · exact absurd rfl h
  · refine ⟨x, c, by simp, ?_⟩
    rintro rfl
    simp at hn

theorem Trim.one {c : Char} (h : c ≠ '\n') : Trim [c] := ⟨[], c, rfl, h⟩

theorem word_nl : ¬ IsWord '\n' := by
  rintro (h | h) <;> revert h <;> decide

theorem var_nl {s : Str} (h : IsVar s) : '\n' ∉ s := by
  obtain ⟨c, cs, rfl, hc, hw⟩ := h
  simp only [List.mem_cons, not_or]
  refine ⟨?_, fun h => word_nl (hw _ h)⟩
  rintro rfl
  revert hc; decide

theorem tail_nl {s : Str} (h : SpacedTail s) : '\n' ∉ s := by
  induction h with
  | nil => simp
  | word hc _ ih =>
    simp only [List.mem_cons, not_or]
    exact ⟨fun h => word_nl (h ▸ hc), ih⟩
  | blank hc _ ih =>
    simp only [List.mem_cons, not_or]
    exact ⟨by decide, fun h => word_nl (h ▸ hc), ih⟩

theorem spaced_nl {s : Str} (h : IsSpacedVar s) : '\n' ∉ s := by
  obtain ⟨c, cs, rfl, hc, hw⟩ := h
  simp only [List.mem_cons, not_or]
  refine ⟨?_, tail_nl hw⟩
  rintro rfl
  revert hc; decide

theorem trim_var {s : Str} (h : IsVar s) : Trim s := by
  refine .of ?_ (var_nl h)
  obtain ⟨c, cs, rfl, -⟩ := h
  simp

theorem trim_spaced {s : Str} (h : IsSpacedVar s) : Trim s := by
  refine .of ?_ (spaced_nl h)
  obtain ⟨c, cs, rfl, -⟩ := h
  simp

theorem digits_nl {s : Str} (h : ∀ c ∈ s, c.isDigit = true) : '\n' ∉ s := fun hn => by
  have := h _ hn
  revert this; decide

theorem trim_quote (x : Quote) {q : Str} (h : Trim q) : Trim (x.text q) :=
  ((h.pre x.val).pre x.pad).pre q

/-- No token of the list ends with a line break. -/
def AllTrim (ts : List Tok) : Prop := ∀ t ∈ ts, Trim t.txt

theorem AllTrim.nil : AllTrim [] := by intro t h; simp at h
theorem AllTrim.cons {t ts} (h : Trim t.txt) (hs : AllTrim ts) : AllTrim (t :: ts) := by
  intro x hx
  rcases List.mem_cons.1 hx with rfl | hx
  · exact h
  · exact hs x hx
theorem AllTrim.append {a b} (h1 : AllTrim a) (h2 : AllTrim b) : AllTrim (a ++ b) := by
  intro x hx
  rcases List.mem_append.1 hx with hx | hx
  · exact h1 x hx
  · exact h2 x hx
theorem AllTrim.flatMap {α : Type} {f : α → List Tok} {xs : List α} (h : ∀ x ∈ xs, AllTrim (f x)) :
    AllTrim (xs.flatMap f) := by
  intro t ht
  obtain ⟨x, hx, h1⟩ := List.mem_flatMap.1 ht
  exact h x hx t h1
theorem AllTrim.commaSep {α : Type} {f : α → List Tok} {xs : List α} (h : ∀ x ∈ xs, AllTrim (f x)) :
    AllTrim (Source.commaSep f xs) := by
  cases xs with
  | nil => exact .nil
  | cons x xs =>
    exact .append (h x (by simp)) (.flatMap fun y hy => .cons (.one (by decide)) (h y (by simp [hy])))
theorem AllTrim.optBrackets {α : Type} {f : α → List Tok} {o : Option (List α)}
    (h : ∀ xs, o = some xs → ∀ x ∈ xs, AllTrim (f x)) : AllTrim (Source.optBrackets f o) := by
  cases o with
  | none => exact .nil
  | some xs =>
    exact .cons (.one (by decide)) (.append (.commaSep (h xs rfl)) (.cons (.one (by decide)) .nil))

theorem trim_name {n : Name} (h : n.Ok) : Trim n.text := by
  cases n with
  | word s => exact trim_var h
  | quoted x => exact trim_quote x (.one (by decide))

theorem trim_str (l : StrLit) : Trim l.text := by
  cases l with
  | single x => exact trim_quote x (.one (by decide))
  | triple x => exact trim_quote x ⟨k!"''", '\'', rfl, by decide⟩

theorem trim_lit {l : Lit} (h : l.Ok) : Trim l.text := by
  cases l with
  | str l => exact trim_str l
  | expr x => exact trim_quote x (.one (by decide))
  | tru => exact ⟨k!"tru", 'e', rfl, by decide⟩
  | fls => exact ⟨k!"fals", 'e', rfl, by decide⟩
  | null => exact ⟨k!"nul", 'l', rfl, by decide⟩
  | int ds =>
    obtain ⟨⟨h1, h2⟩, -⟩ := h
    exact .of h1 (digits_nl h2)
  | dec a b =>
    obtain ⟨-, h2⟩ := h
    refine (Trim.of (by simp) ?_).pre a
    simp only [List.mem_cons, not_or]
    exact ⟨by decide, digits_nl h2⟩
  | hex s =>
    obtain ⟨h1, -⟩ := h
    refine Trim.of (by simp [Lit.text]) ?_
    simp only [Lit.text, List.mem_cons, not_or]
    refine ⟨by decide, fun hn => ?_⟩
    have := h1 _ hn
    revert this
    unfold IsHexDigit
    decide

theorem trim_aval {v : AVal} (h : v.Ok) : Trim v.text := by
  cases v with
  | lit l => exact trim_lit h
  | word s => exact trim_spaced h.1
  | dq x => exact trim_quote x (.one (by decide))

theorem trim_attr {a : Attr} (h : a.Ok) : AllTrim a.toks := by
  refine .cons (trim_spaced h.1) ?_
  split
  · exact .nil
  · rename_i v hv
    exact .cons (.one (by decide)) (.cons (trim_aval (h.2 v hv)) .nil)

theorem trim_qual {s : Option Name} {n : Name} (hs : ∀ x, s = some x → x.Ok) (hn : n.Ok) : AllTrim (qualToks s n) := by
  cases s with
  | none => exact .cons (trim_name hn) .nil
  | some x => exact .cons (trim_name (hs x rfl)) (.cons (.one (by decide)) (.cons (trim_name hn) .nil))

theorem trim_rend {r : REnd} (h : r.Ok) : AllTrim r.toks := by
  obtain ⟨h1, h2, h3⟩ := h
  refine .append (trim_qual h1 h2) (.cons (.one (by decide)) ?_)
  cases hc : r.cols with
  | one n => exact .cons (trim_name (h3 n (by simp [hc, Comp.names]))) .nil
  | many n ns =>
    exact .cons (.one (by decide)) (.append (.commaSep fun m hm =>
      .cons (trim_name (h3 m (by simpa [hc, Comp.names] using hm))) .nil) (.cons (.one (by decide)) .nil))

theorem trim_rel {r : Relation} (h : r ≠ .undef) : Trim (relText r) := by
  cases r with
  | undef => exact absurd rfl h
  | many2many => exact ⟨k!"<", '>', rfl, by decide⟩
  | _ => exact .one (by decide)

theorem trim_colset {c : ColSet} (h : c.Ok) : AllTrim c.toks := by
  cases c with
  | attr a => exact trim_attr h
  | ref r =>
    exact .cons ⟨k!"re", 'f', rfl, by decide⟩ (.cons (.one (by decide)) (.cons (trim_rel h.1) (trim_rend h.2)))

theorem trim_arrays (as : List (Option Str)) (h : as ≠ []) : Trim (as.flatMap arrayText) := by
  rcases List.eq_nil_or_concat as with rfl | ⟨x, a, rfl⟩
  · exact absurd rfl h
  · rw [List.concat_eq_append, List.flatMap_append]
    refine Trim.pre ?_ _
    refine ⟨'[' :: a.getD [], ']', ?_, by decide⟩
    simp [arrayText]

theorem trim_args {a : Option (List Lit)} (h : a ≠ none) : Trim (argsText a) := by
  cases a with
  | none => exact absurd rfl h
  | some vs =>
    cases vs with
    | nil => exact ⟨k!"(", ')', rfl, by decide⟩
    | cons v vs => exact (((Trim.one (c := ')') (by decide)).pre _).pre _).pre _

theorem trim_body {b : TBody} (h : b.Ok) : Trim b.text := by
  cases b with
  | plain n a r =>
    by_cases hr : r = []
    · by_cases ha : a = none
      · subst hr ha
        have := trim_var h.1
        simpa [TBody.text, argsText] using this
      · subst hr
        have := (trim_args ha).pre n
        simpa [TBody.text] using this
    · exact ((trim_arrays r hr).pre _).pre _
  | quoted n a r r' =>
    refine ((Trim.pre ?_ _).pre _).pre _ |>.pre _
    by_cases hr : r' = []
    · subst hr
      exact .one (by decide)
    · exact (trim_arrays r' hr).pre _

theorem trim_ty {t : Ty} (h : t.Ok) : Trim t.text := by
  unfold Ty.text
  split
  · exact trim_body h.2.1
  · rename_i x _
    have := ((trim_body h.2.1).pre k!".").pre x.text
    simpa using this

theorem trim_col {c : Col} (h : c.Ok) : AllTrim c.toks :=
  .cons (trim_name h.1) (.cons (trim_ty h.2.1) (.optBrackets fun xs hx x hm => trim_colset (h.2.2 xs hx x hm)))

theorem trim_eval {v : EVal} (h : v.Ok) : AllTrim v.toks :=
  .cons (trim_name h.1) (.optBrackets fun xs hx x hm => trim_attr (h.2 xs hx x hm))

/-! ## Up to the last brace -/

theorem blank_close {r : Str} (h : Blank r) : ∀ x, r ≠ x ++ ['}'] := by
  induction h with
  | nil => intro x h; simp at h
  | @space c t hc _ ih =>
    intro x h
    cases x with
    | nil =>
      simp only [List.nil_append, List.cons.injEq] at h
      obtain ⟨rfl, -⟩ := h
      revert hc; unfold IsSpace; decide
    | cons y x =>
      simp only [List.cons_append, List.cons.injEq] at h
      exact ih x h.2
  | @line body nl t hb hnl _ ih =>
    intro x h
    rcases List.eq_nil_or_concat t with rfl | ⟨t, c, rfl⟩
    · rw [← List.append_assoc, ← List.concat_eq_append, ← List.concat_eq_append] at h
      have := (List.concat_inj.1 h).2
      subst this
      revert hnl; decide
    · have h' : (k!"//" ++ (body ++ (nl :: t))) ++ [c] = x ++ ['}'] := by simpa using h
      have := (List.append_inj' h' rfl).2
      cases this
      exact ih t (by simp)
  | @block body t hb _ ih =>
    intro x h
    rcases List.eq_nil_or_concat t with rfl | ⟨t, c, rfl⟩
    · have h' : (k!"/*" ++ (body ++ k!"*")) ++ ['/'] = x ++ ['}'] := by simpa using h
      have := (List.append_inj' h' rfl).2
      cases this
    · have h' : (k!"/*" ++ (body ++ (k!"*/" ++ t))) ++ [c] = x ++ ['}'] := by simpa using h
      have := (List.append_inj' h' rfl).2
      cases this
      exact ih t (by simp)

theorem blankEnd_close {r : Str} (h : BlankEnd r) : r ≠ ['}'] ∧ ∀ x, r ≠ x ++ k!"\n}" := by
  rcases h with h | ⟨w, body, rfl, hw, hb⟩
  · exact ⟨blank_close h [], fun x => by simpa using blank_close h (x ++ ['\n'])⟩
  · rcases List.eq_nil_or_concat body with rfl | ⟨b, c, rfl⟩
    · refine ⟨fun h => ?_, fun x h => ?_⟩
      · have h' : (w ++ k!"/") ++ ['/'] = [] ++ ['}'] := by simpa using h
        cases (List.append_inj' h' rfl).2
      · have h' : (w ++ k!"/") ++ ['/'] = (x ++ ['\n']) ++ ['}'] := by simpa using h
        cases (List.append_inj' h' rfl).2
    · refine ⟨fun h => ?_, fun x h => ?_⟩
      · have h := congrArg List.length h
        simp at h
        omega
      · have h' : (w ++ (k!"//" ++ b)) ++ [c] = (x ++ ['\n']) ++ ['}'] := by simpa using h
        obtain ⟨h', -⟩ := List.append_inj' h' rfl
        rcases List.eq_nil_or_concat b with rfl | ⟨b, c, rfl⟩
        · have h' : (w ++ k!"/") ++ ['/'] = x ++ ['\n'] := by simpa using h'
          cases (List.append_inj' h' rfl).2
        · have h' : (w ++ (k!"//" ++ b)) ++ [c] = x ++ ['\n'] := by simpa using h'
          cases (List.append_inj' h' rfl).2
          exact (hb '\n' (by simp)).1 rfl

theorem blank_unbreak {s : Str} (h : Blank s) : ∀ u, s = u ++ ['\n'] → BlankEnd u := by
  induction h with
  | nil => intro u h; simp at h
  | @space c t hc ht ih =>
    intro u h
    cases u with
    | nil => exact .inl .nil
    | cons y u =>
      simp only [List.cons_append, List.cons.injEq] at h
      obtain ⟨rfl, h⟩ := h
      exact blank_end_append (a := [c]) (.space hc .nil) (ih u h)
  | @line body nl t hb hnl ht ih =>
    intro u h
    rcases List.eq_nil_or_concat t with rfl | ⟨t, c, rfl⟩
    · have h' : (k!"//" ++ body) ++ [nl] = u ++ ['\n'] := by simpa using h
      cases (List.append_inj' h' rfl).1
      exact .inr ⟨[], body, rfl, .nil, hb⟩
    · have h' : (k!"//" ++ (body ++ (nl :: t))) ++ [c] = u ++ ['\n'] := by simpa using h
      obtain ⟨e1, e2⟩ := List.append_inj' h' rfl
      cases e2
      subst e1
      have := blank_end_append (a := k!"//" ++ (body ++ [nl])) (.line hb hnl .nil) (ih t (by simp))
      simpa using this
  | @block body t hb ht ih =>
    intro u h
    rcases List.eq_nil_or_concat t with rfl | ⟨t, c, rfl⟩
    · have h' : (k!"/*" ++ (body ++ k!"*")) ++ ['/'] = u ++ ['\n'] := by simpa using h
      cases (List.append_inj' h' rfl).2
    · have h' : (k!"/*" ++ (body ++ (k!"*/" ++ t))) ++ [c] = u ++ ['\n'] := by simpa using h
      obtain ⟨e1, e2⟩ := List.append_inj' h' rfl
      cases e2
      subst e1
      have := blank_end_append (a := k!"/*" ++ (body ++ k!"*/")) (by simpa using Blank.block hb .nil) (ih t (by simp))
      simpa using this

theorem written_close : ∀ {ts : List Tok} {u : Str}, AllBreak ts → AllTrim ts →
    Written (ts ++ [rbrace]) (u ++ k!"\n}") → Written ts u
  | [], u, _, _, ⟨w, r, e, hw, _, hr⟩ => by
    have hr : BlankEnd r := hr
    have e : u ++ k!"\n}" = w ++ '}' :: r := by simpa [rbrace] using e
    have hr0 : r = [] := by
      rcases List.eq_nil_or_concat r with rfl | ⟨r1, c, rfl⟩
      · rfl
      · exfalso
        have e1 : (u ++ ['\n']) ++ ['}'] = (w ++ '}' :: r1) ++ [c] := by simpa using e
        obtain ⟨e2, e3⟩ := List.append_inj' e1 rfl
        cases e3
        rcases List.eq_nil_or_concat r1 with rfl | ⟨r2, c, rfl⟩
        · exact (blankEnd_close hr).1 (by simp)
        · have e4 : u ++ ['\n'] = (w ++ '}' :: r2) ++ [c] := by simpa using e2
          cases (List.append_inj' e4 rfl).2
          exact (blankEnd_close hr).2 r2 (by simp)
    subst hr0
    have e : (u ++ ['\n']) ++ ['}'] = w ++ ['}'] := by simpa using e
    cases (List.append_inj' e rfl).1
    exact blank_unbreak hw u rfl
  | t :: ts, u, hb, ht, ⟨w, r, e, hw, hn, h⟩ => by
    have hr : k!"}" <:+: r := written_infix h rbrace (by simp)
    have key : ∃ r0, r = r0 ++ k!"\n}" ∧ u = w ++ (t.txt ++ r0) := by
      rcases List.eq_nil_or_concat r with rfl | ⟨r1, c, rfl⟩
      · simp at hr
      · have e1 : (u ++ ['\n']) ++ ['}'] = (w ++ (t.txt ++ r1)) ++ [c] := by simpa using e
        obtain ⟨e2, e3⟩ := List.append_inj' e1 rfl
        cases e3
        rcases List.eq_nil_or_concat r1 with rfl | ⟨r2, c, rfl⟩
        · exfalso
          obtain ⟨x, c, hx, hc⟩ := ht t (by simp)
          rw [hx] at e2
          have e4 : u ++ ['\n'] = (w ++ x) ++ [c] := by simpa using e2
          cases (List.append_inj' e4 rfl).2
          exact hc rfl
        · have e4 : u ++ ['\n'] = (w ++ (t.txt ++ r2)) ++ [c] := by simpa using e2
          obtain ⟨e5, e6⟩ := List.append_inj' e4 rfl
          cases e6
          exact ⟨r2, by simp, e5⟩
    obtain ⟨r0, rfl, rfl⟩ := key
    exact ⟨w, r0, rfl, hw, (hb t (by simp)).2.2.1 _ _ hn,
      written_close (fun x hx => hb x (by simp [hx])) (fun x hx => ht x (by simp [hx])) h⟩

/-! ## After the first brace -/

theorem blank_none {w : Str} {c : Char} {z : Str} (hw : Blank w) (hc : ¬ IsSpace c) (hs : c ≠ '/') {y : Str}
    (e : c :: z = w ++ y) : w = [] := by
  cases hw with
  | nil => rfl
  | space h _ => simp only [List.cons_append, List.cons.injEq] at e; exact absurd (e.1 ▸ h) hc
  | line => simp at e; exact absurd e.1 hs
  | block => simp at e; exact absurd e.1 hs

/-- `kw t {`, then the rest. -/
theorem open_name {k : Str} {c : Char} {kt : Str} {n : Name} {ts : List Tok} {z : Str} (hc : ¬ IsSpace c) (hs : c ≠ '/')
    (hk : k.length = (c :: kt).length) (hn : n.Ok)
    (h : Written ({ txt := k } :: n.tok :: ts) (c :: (kt ++ (k!"t {" ++ z)))) : Written ts (k!" {" ++ z) := by
  obtain ⟨w, r, e, hw, -, w1, r1, e1, hw1, -, h⟩ := h
  cases blank_none hw hc hs e
  have e' : (c :: kt) ++ (k!"t {" ++ z) = k ++ r := by simpa using e
  obtain ⟨rfl, rfl⟩ := List.append_inj e' hk.symm
  cases blank_none hw1 (by unfold IsSpace; decide) (by decide) e1
  have key : r1 = k!" {" ++ z := by
    cases n with
    | quoted x => simp [Name.tok, Name.text, Quote.text] at e1
    | word s =>
      obtain ⟨x, cs, rfl, hx, hcs⟩ := hn
      simp only [Name.tok, Name.text, List.cons_append, List.nil_append, List.cons.injEq] at e1
      obtain ⟨-, e1⟩ := e1
      cases cs with
      | nil => exact e1.symm
      | cons y cs =>
        simp only [List.cons_append, List.cons.injEq] at e1
        have := hcs y (by simp)
        rw [← e1.1] at this
        exact absurd this (by unfold IsWord; decide)
  subst key
  exact h

/-- The token that begins with `{`. -/
theorem open_brace {t : Tok} {ts : List Tok} {z : Str} {c : Char} {cs : Str} (ht : t.txt = c :: cs) (hc : c ≠ ' ')
    (h : Written (t :: ts) (k!" {" ++ z)) : c = '{' ∧ ∃ r, z = cs ++ r ∧ Written ts r := by
  obtain ⟨w, r, e, hw, -, h⟩ := h
  rw [ht] at e
  cases hw with
  | nil => simp at e; exact absurd e.1.symm hc
  | space hx hw =>
    simp only [List.cons_append, List.cons.injEq, List.nil_append] at e
    obtain ⟨-, e⟩ := e
    cases blank_none hw (by unfold IsSpace; decide) (by decide) e
    simp only [List.nil_append, List.cons.injEq] at e
    exact ⟨e.1.symm, r, e.2, h⟩
  | line => simp at e
  | block => simp at e

/-! ## Members between braces -/

theorem items_cols : ∀ {is : List TItem}, is.filterMap (·.note?) = [] → is.filterMap (·.indexes?) = [] →
    ∃ xs : List Col, is = xs.map .col
  | [], _, _ => ⟨[], rfl⟩
  | .col c :: is, h1, h2 => by
    obtain ⟨xs, rfl⟩ := items_cols (is := is) (by simpa [TItem.note?] using h1) (by simpa [TItem.indexes?] using h2)
    exact ⟨c :: xs, rfl⟩
  | .note n :: is, h1, _ => by simp [TItem.note?] at h1
  | .indexes n :: is, _, h2 => by simp [TItem.indexes?] at h2

theorem gitems_names : ∀ {is : List GItem}, is.filterMap (·.note?) = [] →
    ∃ xs : List (Option Name × Name), is = xs.map gname
  | [], _ => ⟨[], rfl⟩
  | .item s n :: is, h1 => by
    obtain ⟨xs, rfl⟩ := gitems_names (is := is) (by simpa [GItem.note?] using h1)
    exact ⟨(s, n) :: xs, rfl⟩
  | .note n :: is, h1 => by simp [GItem.note?] at h1

theorem getLast?_none {α : Type} {l : List α} (h : l.getLast? = none) : l = [] := by simpa using h

theorem keyword_length {k s : Str} (h : Keyword k s) : s.length = k.length := by
  have := congrArg List.length h
  simpa using this

theorem table_between {T : Source.Table} {u : Str} (hok : T.Ok) (hw : Written T.toks (k!"Table t {" ++ (u ++ k!"\n}"))) :
    Written (T.items.flatMap (·.toks) ++ [rbrace]) (u ++ k!"\n}") := by
  obtain ⟨hk, hs, hn, ha, -, -⟩ := hok
  have hk := keyword_length hk
  unfold Source.Table.toks qualToks at hw
  cases hsc : T.schema with
  | some x =>
    rw [hsc] at hw
    have := open_name (c := 'T') (kt := k!"able ") (by unfold IsSpace; decide) (by decide) hk (hs x hsc) hw
    have := (open_brace (c := '.') (cs := []) rfl (by decide) this).1
    exact absurd this (by decide)
  | none =>
    rw [hsc] at hw
    have := open_name (c := 'T') (kt := k!"able ") (by unfold IsSpace; decide) (by decide) hk hn hw
    unfold Source.Table.aliasToks at this
    cases hal : T.alias with
    | some a =>
      exfalso
      rw [hal] at this
      have hka := (ha a hal).1
      cases hkw : a.kw with
      | nil => rw [hkw] at hka; exact absurd (keyword_length hka) (by simp)
      | cons c cs =>
        have hc : lowerC c = 'a' := by
          rw [hkw] at hka
          exact (List.cons.inj hka).1
        have := (open_brace (t := { txt := a.kw }) hkw (by rintro rfl; revert hc; decide) this).1
        subst this
        revert hc; decide
    | none =>
      rw [hal] at this
      cases hse : T.settings with
      | some as =>
        rw [hse] at this
        have := (open_brace (c := '[') (cs := []) rfl (by decide) this).1
        exact absurd this (by decide)
      | none =>
        rw [hse] at this
        obtain ⟨-, r, e, h⟩ := open_brace (c := '{') (cs := []) rfl (by decide) this
        rw [e]; exact h

theorem enum_between {T : Source.Enum} {u : Str} (hok : T.Ok) (hw : Written T.toks (k!"Enum t {" ++ (u ++ k!"\n}"))) :
    Written (T.values.flatMap (·.toks) ++ [rbrace]) (u ++ k!"\n}") := by
  obtain ⟨hk, hs, hn, -⟩ := hok
  have hk := keyword_length hk
  unfold Source.Enum.toks qualToks at hw
  cases hsc : T.schema with
  | some x =>
    rw [hsc] at hw
    have := open_name (c := 'E') (kt := k!"num ") (by unfold IsSpace; decide) (by decide) hk (hs x hsc) hw
    have := (open_brace (c := '.') (cs := []) rfl (by decide) this).1
    exact absurd this (by decide)
  | none =>
    rw [hsc] at hw
    have := open_name (c := 'E') (kt := k!"num ") (by unfold IsSpace; decide) (by decide) hk hn hw
    obtain ⟨-, r, e, h⟩ := open_brace (c := '{') (cs := []) rfl (by decide) this
    rw [e]; exact h

theorem group_between {T : Source.Group} {u : Str} (hok : T.Ok)
    (hw : Written T.toks (k!"TableGroup t {" ++ (u ++ k!"\n}"))) :
    Written (T.items.flatMap (·.toks) ++ [rbrace]) (u ++ k!"\n}") := by
  obtain ⟨hk, hn, hs, -⟩ := hok
  have hk := keyword_length hk
  unfold Source.Group.toks at hw
  have := open_name (c := 'T') (kt := k!"ableGroup ") (by unfold IsSpace; decide) (by decide) hk hn hw
  cases hse : T.settings with
  | some as =>
    rw [hse] at this
    have := (open_brace (c := '[') (cs := []) rfl (by decide) this).1
    exact absurd this (by decide)
  | none =>
    rw [hse] at this
    obtain ⟨-, r, e, h⟩ := open_brace (c := '{') (cs := []) rfl (by decide) this
    rw [e]; exact h

end Dbml
