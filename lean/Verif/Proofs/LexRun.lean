import Verif.Proofs.First
import Verif.Proofs.Walkers1

/-!
# Recognizing names and literals
-/

namespace Dbml
open Syntax Source

/-- The first character of `r`, if any, satisfies `P`. -/
def HeadP (P : Char → Prop) (r : Str) : Prop := ∀ c t, r = c :: t → P c

theorem HeadP.mono {P Q : Char → Prop} {r} (h : HeadP P r) (hpq : ∀ c, P c → Q c) : HeadP Q r :=
  fun c t e => hpq c (h c t e)

theorem headP_cons {P : Char → Prop} {c r} (h : P c) : HeadP P (c :: r) := by
  rintro d t e; injection e with e _; exact e ▸ h

abbrev NotW (r : Str) : Prop := HeadP (fun c => ¬ IsWord c) r

theorem seq_tight {x y a pos inp c1 r1 p1 c2 r2 p2} (ha : a = .nonAtomic → Solid r1)
    (h1 : run G.skip x a pos inp = .ok c1 r1 p1) (h2 : run G.skip y a (pos + blen c1) r1 = .ok c2 r2 p2) :
    run G.skip (.seq x y) a pos inp = .ok (c1 ++ c2) r2 (p1 ++ p2) := by
  cases a with
  | nonAtomic => simp [run, h1, seqRes, skipIf, skip_solid (ha rfl), h2]
  | _ => exact seq_run (by simp) h1 h2

theorem seq_tight_fail {x y a pos inp c1 r1 p1} (ha : a = .nonAtomic → Solid r1)
    (h1 : run G.skip x a pos inp = .ok c1 r1 p1) (h2 : run G.skip y a (pos + blen c1) r1 = .fail) :
    run G.skip (.seq x y) a pos inp = .fail := by
  cases a with
  | nonAtomic => simp [run, h1, seqRes, skipIf, skip_solid (ha rfl), h2]
  | _ => exact seq_fail_right (by simp) h1 h2

theorem emits_atomic {a : Atomicity} (ha : a ≠ .atomic) : emits .atomic a = true := by simpa [emits] using ha

theorem rule_normal {r x a pos inp c rest ps} (ha : a ≠ .atomic)
    (h : run G.skip x a pos inp = .ok c rest ps) :
    run G.skip (.rule r .normal x) a pos inp = .ok c rest [.mk r ⟨pos, pos + blen c⟩ c ps] := by
  rw [rule_run (m := .normal) h, emits_normal ha]; rfl

theorem rule_atomic {r x a pos inp c rest ps} (ha : a ≠ .atomic)
    (h : run G.skip x .atomic pos inp = .ok c rest ps) :
    run G.skip (.rule r .atomic x) a pos inp = .ok c rest [.mk r ⟨pos, pos + blen c⟩ c ps] := by
  rw [rule_run (m := .atomic) h, emits_atomic ha]; rfl

theorem pull3 {r x a pos inp c rest q} {P : Pair → Prop} (ha : a ≠ .atomic)
    (h : run G.skip x a pos inp = .ok c rest [q]) (hp : ∀ sp, P (.mk r sp c [q])) :
    ∃ p, run G.skip (.rule r .normal x) a pos inp = .ok c rest [p] ∧ p.rule = r ∧ p.text = c ∧ P p :=
  ⟨_, rule_normal ha h, rfl, rfl, hp _⟩

theorem pull2 {r x a pos inp c rest q} {P : Pair → Prop} (ha : a ≠ .atomic)
    (h : run G.skip x a pos inp = .ok c rest [q]) (hp : ∀ sp, P (.mk r sp c [q])) :
    ∃ p, run G.skip (.rule r .normal x) a pos inp = .ok c rest [p] ∧ p.rule = r ∧ P p :=
  ⟨_, rule_normal ha h, rfl, hp _⟩

/-! ## Quoted texts -/

/-- What a quoted text needs in each mode, if `r` follows it. -/
def Source.Quote.In (a : Atomicity) (q : Str) (x : Quote) (r : Str) : Prop :=
  match a with
  | .nonAtomic => x.Ok q ∧ x.next q r
  | _ => x.Tight q

theorem Source.Quote.In.closed {a q x r} (h : Quote.In a q x r) : Closed q x.val := by
  cases a
  · exact h.1.2.1
  · exact h.2
  · exact h.2

theorem solid_quote {q r : Str} {x : Quote} {y : Char} {t : Str} (hq : q = y :: t) (h1 : ¬ IsSpace y) (h2 : y ≠ '/')
    (h3 : y ≠ '*') (hs : x.Ok q) (hn : x.next q r) : Solid (x.val ++ (q ++ r)) := by
  obtain ⟨pad, s⟩ := x
  obtain ⟨-, -, hs1, hs2⟩ := hs
  simp only [Quote.next] at hn hs1 hs2 ⊢
  match s, hs1, hs2, hn with
  | [], _, _, _ => subst hq; exact solid_cons h1 h2
  | [c], hs1, _, _ =>
    subst hq
    rintro (⟨d, ds, h, hd⟩ | ⟨u, h⟩ | ⟨⟨u, h⟩, -⟩)
    · simp at h; exact hs1 c [] rfl (h.1 ▸ hd)
    · simp at h; exact h2 h.2.1.symm
    · simp at h; exact h3 h.2.1.symm
  | c :: d :: s, hs1, hs2, hn =>
    rintro (⟨e, es, h, hd⟩ | ⟨u, h⟩ | ⟨⟨u, h⟩, hc⟩)
    · simp at h; exact hs1 c _ rfl (h.1 ▸ hd)
    · simp at h; exact hs2 ⟨s, by simp [← h.1, ← h.2.1]⟩
    · simp at h
      refine hn ⟨s, by simp [← h.1, ← h.2.1]⟩ ?_
      simpa using hc

theorem quotable_drop {q s r : Str} (h : Closed q s) :
    ∀ i < s.length, ¬ q <+: (s ++ (q ++ r)).drop i := by
  intro i hi hp
  apply h i hi
  rw [List.drop_append_of_le_length (by omega)] at hp ⊢
  rw [← List.append_assoc] at hp
  refine List.prefix_of_prefix_length_le hp (List.prefix_append _ r) ?_
  simp

/-- Sequencing over what is dropped. -/
theorem seq_skip {x y a pos inp c1 w r1 p1 c2 r2 p2} (hw : skipIf G.skip a (w ++ r1) = .ok w r1 [])
    (h1 : run G.skip x a pos inp = .ok c1 (w ++ r1) p1)
    (h2 : run G.skip y a (pos + blen c1 + blen w) r1 = .ok c2 r2 p2) :
    run G.skip (.seq x y) a pos inp = .ok (c1 ++ (w ++ c2)) r2 (p1 ++ p2) := by
  simp [run, h1, seqRes, hw, h2]

theorem quoted_run {q r : Str} {x : Quote} {rl rv : Rule} {a} (ha : a ≠ .atomic)
    (hq : ∃ x xs, q = x :: xs ∧ ¬ IsSpace x ∧ x ≠ '/' ∧ x ≠ '*') (hs : x.In a q r) (pos : Nat) :
    ∃ sp sp', run G.skip (.rule rl .normal (.seq (.str q)
      (.seq (.rule rv .atomic (.star (.seq (.neg (.str q)) G.ANY))) (.str q)))) a pos (x.text q ++ r) =
      .ok (x.text q) r [.mk rl sp (x.text q) [.mk rv sp' x.val []]] := by
  have hcl := hs.closed
  obtain ⟨y, ys, e, h1, h2, h3⟩ := hq
  have hsk : skipIf G.skip a (x.pad ++ (x.val ++ (q ++ r))) = .ok x.pad (x.val ++ (q ++ r)) [] := by
    cases a with
    | nonAtomic => exact skip_blank hs.1.1 (solid_quote e h1 h2 h3 hs.1 hs.2)
    | atomic => exact absurd rfl ha
    | compound =>
      have : x.pad = [] := hs.1
      simp [skipIf, this]
  have hi : x.text q ++ r = q ++ (x.pad ++ (x.val ++ (q ++ r))) := by simp [Quote.text]
  rw [hi]
  have hmain := rule_normal (r := rl) ha (seq_skip (p1 := []) (c1 := q) (pos := pos) hsk (str_run (s := q))
    (seq_tight (p2 := []) (fun _ => by rw [e]; exact solid_cons h1 h2)
      (rule_atomic (r := rv) ha (until_run (x := .str q) atomic_ne gskip_sound (fun _ _ => str_no_diverge) (.inr (by
        intro pos
        rw [ne_eq, str_fail_iff, Classical.not_not]
        exact ⟨r, rfl⟩)) (by
        intro i hi pos
        rw [str_fail_iff]
        exact quotable_drop hcl i hi) _)) str_run))
  exact ⟨_, _, hmain⟩

theorem dq_run {x : Quote} {r a} (ha : a ≠ .atomic) (hs : x.In a k!"\"" r) (pos) :
    ∃ sp sp', run G.skip G.double_quoted_string a pos (x.text k!"\"" ++ r) =
      .ok (x.text k!"\"") r
        [.mk .double_quoted_string sp (x.text k!"\"") [.mk .double_quoted_value sp' x.val []]] :=
  quoted_run ha ⟨_, _, rfl, by decide, by decide, by decide⟩ hs pos

theorem sq_run {x : Quote} {r a} (ha : a ≠ .atomic) (hs : x.In a k!"'" r) (pos) :
    ∃ sp sp', run G.skip G.single_quoted_string a pos (x.text k!"'" ++ r) =
      .ok (x.text k!"'") r
        [.mk .single_quoted_string sp (x.text k!"'") [.mk .single_quoted_value sp' x.val []]] :=
  quoted_run ha ⟨_, _, rfl, by decide, by decide, by decide⟩ hs pos

theorem bq_run {x : Quote} {r a} (ha : a ≠ .atomic) (hs : x.In a k!"`" r) (pos) :
    ∃ sp sp', run G.skip G.backquoted_quoted_string a pos (x.text k!"`" ++ r) =
      .ok (x.text k!"`") r
        [.mk .backquoted_quoted_string sp (x.text k!"`") [.mk .backquoted_quoted_value sp' x.val []]] :=
  quoted_run ha ⟨_, _, rfl, by decide, by decide, by decide⟩ hs pos

theorem tq_run {x : Quote} {r a} (ha : a ≠ .atomic) (hs : x.In a k!"'''" r) (pos) :
    ∃ sp sp', run G.skip G.triple_quoted_string a pos (x.text k!"'''" ++ r) =
      .ok (x.text k!"'''") r
        [.mk .triple_quoted_string sp (x.text k!"'''") [.mk .triple_quoted_value sp' x.val []]] :=
  quoted_run ha ⟨_, _, rfl, by decide, by decide, by decide⟩ hs pos

/-! ## Words -/

theorem word_false {c : Char} (h : ¬ IsWord c) : G.isWordChar c = false := by
  cases hh : G.isWordChar c with
  | false => rfl
  | true => exact absurd ((isWordChar_iff c).1 hh) h

theorem var_run {s r a} (ha : a ≠ .atomic) (hs : IsVar s) (hr : NotW r) (pos) :
    run G.skip G.var a pos (s ++ r) = .ok s r [.mk .var ⟨pos, pos + blen s⟩ s []] := by
  obtain ⟨c, cs, rfl, hc, hw⟩ := hs
  refine rule_atomic ha (c := c :: cs) (seq_run (c1 := [c]) (p1 := []) (p2 := []) atomic_ne
    (cls_run ((isAlpha_iff _).2 hc))
    (clsStar_run atomic_ne gskip_sound (fun x hx => (isWordChar_iff _).2 (hw x hx)) ?_ _))
  exact fun c t h => word_false (hr c t h)

/-- What follows does not continue a spaced word. -/
def NoCont (r : Str) : Prop := NotW r ∧ ∀ c t, r = ' ' :: c :: t → ¬ IsWord c

theorem spacedTail_run {s r : Str} (hs : SpacedTail s) (hr : NoCont r) (pos) :
    run G.skip (.star (.seq (.opt (.str k!" ")) G.WORD)) .atomic pos (s ++ r) = .ok s r [] := by
  induction hs generalizing pos with
  | nil =>
    refine star_nil ?_
    by_cases hsp : ∃ t, r = ' ' :: t
    · obtain ⟨t, rfl⟩ := hsp
      refine seq_fail_right (c1 := k!" ") (r1 := t) (p1 := []) atomic_ne (opt_some str_run) (cls_fail ?_)
      rintro c u rfl
      exact word_false (hr.2 c u rfl)
    · refine seq_fail_right atomic_ne (opt_none ?_) (cls_fail fun c t h => word_false (hr.1 c t h))
      rw [str_fail_iff]
      rintro ⟨t, rfl⟩
      exact hsp ⟨t, rfl⟩
  | @word c t hc ht ih =>
    refine star_atomic_cons (c := [c]) (ps := []) (ps' := []) atomic_ne gskip_sound rfl
      (seq_run (c1 := []) (c2 := [c]) (p1 := []) (p2 := []) atomic_ne (opt_none ?_)
        (cls_run ((isWordChar_iff _).2 hc))) (ih _)
    rw [str_fail_iff]
    rintro ⟨u, h⟩
    simp at h
    rw [← h.1] at hc
    simp [IsWord] at hc
  | @blank c t hc ht ih =>
    exact star_atomic_cons (c := [' ', c]) (ps := []) (ps' := []) atomic_ne gskip_sound rfl
      (seq_run (c1 := [' ']) (c2 := [c]) (p1 := []) (p2 := []) atomic_ne (opt_some (str_run (s := k!" ")))
        (cls_run ((isWordChar_iff _).2 hc))) (ih _)

theorem spaced_var_run {s r a} (ha : a ≠ .atomic) (hs : IsSpacedVar s) (hr : NoCont r) (pos) :
    run G.skip G.spaced_var a pos (s ++ r) = .ok s r [.mk .spaced_var ⟨pos, pos + blen s⟩ s []] := by
  obtain ⟨c, cs, rfl, hc, hw⟩ := hs
  exact rule_atomic ha (c := c :: cs) (seq_run (c1 := [c]) (p1 := []) (p2 := []) atomic_ne
    (cls_run ((isAlpha_iff _).2 hc)) (spacedTail_run hw hr _))

theorem var_fail {a pos inp} (h : HeadP (fun c => c.isAlpha = false) inp) :
    run G.skip G.var a pos inp = .fail := by
  refine rule_fail (seq_fail_left (cls_fail ?_))
  intro c r e
  cases hh : G.isAlpha c with
  | false => rfl
  | true => have := (isAlpha_iff c).1 hh; simp [h c r e] at this

/-- `p` is a pair of rule `r` with text `t` that `f` turns into `a` (up to positions, forgotten by `er`). -/
def Yields {α : Type} (r : Rule) (f : Pair → Rs α) (er : α → α) (v : α) (p : Pair) : Prop :=
  p.rule = r ∧ ∃ a, f p = .ok a ∧ er a = v

theorem innerStr_single {r sp t r' sp' s ks} : innerStr (.mk r sp t [.mk r' sp' s ks]) = s := rfl

/-- What a name needs in each mode, if `r` follows it. -/
def Source.Name.In (a : Atomicity) (n : Name) (r : Str) : Prop :=
  match n with
  | .word s => IsVar s ∧ NotW r
  | .quoted x => x.In a k!"\"" r

theorem Source.Name.in_loose {n : Name} {r : Str} (h : n.Ok) (hr : n.next r) : n.In .nonAtomic r := by
  cases n <;> exact ⟨h, hr⟩

theorem ident_run {n : Name} {r a} (ha : a ≠ .atomic) (hn : n.In a r) (pos) :
    ∃ p, run G.skip G.ident a pos (n.text ++ r) = .ok n.text r [p] ∧
      Yields .ident parseIdent (·.mapSpan noPos) n.ast p := by
  cases n with
  | word s =>
    refine ⟨_, rule_normal ha (alt_left (var_run ha hn.1 hn.2 pos)), rfl, ?_⟩
    simp [parseIdent, Pair.children, Pair.rule, Rs.orPanic, Ident.mapSpan, Name.ast, Name.text, Name.value, Pair.text]
  | quoted x =>
    obtain ⟨sp, sp', h⟩ := dq_run (r := r) ha hn pos
    apply pull2 ha
    · rw [alt_right (var_fail ?_)]
      · exact h
      · simp only [Name.text]; exact headP_cons (by decide)
    · simp [parseIdent, Pair.children, Pair.rule, Rs.orPanic, Ident.mapSpan, Name.ast, Name.text, Name.value,
        Pair.text, innerStr]

/-! ## Literals -/

/-- What a string needs in each mode, if `r` follows it. -/
def Source.StrLit.In (a : Atomicity) (l : StrLit) (r : Str) : Prop :=
  match l with
  | .single x => x.In a k!"'" r
  | .triple x => x.In a k!"'''" r

theorem Source.StrLit.in_loose {n : StrLit} {r : Str} (h : n.Ok) (hr : n.next r) : n.In .nonAtomic r := by
  cases n <;> exact ⟨h, hr⟩

theorem blank_head {w : Str} (h : Blank w) : ∀ c t, w = c :: t → IsSpace c ∨ c = '/' := by
  intro c t e
  cases h with
  | nil => simp at e
  | space hc _ => injection e with e _; exact .inl (e ▸ hc)
  | line _ _ _ => simp at e; exact .inr e.1.symm
  | block _ _ => simp at e; exact .inr e.1.symm

theorem pad_head {a q r} {x : Quote} (ha : a ≠ .atomic) (h : x.In a q r) :
    ∀ c t, x.pad = c :: t → IsSpace c ∨ c = '/' := by
  cases a with
  | nonAtomic => exact blank_head h.1.1
  | atomic => exact absurd rfl ha
  | compound => intro c t e; rw [h.1] at e; simp at e

theorem string_run {l : StrLit} {r a} (ha : a ≠ .atomic) (hl : l.In a r)
    (hr : l.text = k!"''" → HeadP (· ≠ '\'') r) (pos) : ∃ p, run G.skip G.string_value a pos (l.text ++ r) = .ok l.text r [p] ∧ p.rule = .string_value ∧
      p.text = l.text ∧ parseStringValue p = .ok l.value := by
  cases l with
  | single x =>
    obtain ⟨sp, sp', h⟩ := sq_run (r := r) ha hl pos
    have hcl : Closed k!"'" x.val := Quote.In.closed hl
    have hpad := pad_head ha hl
    apply pull3 ha
    · rw [alt_right]
      · exact h
      · refine rule_fail (seq_fail_left ?_)
        rw [str_fail_iff]
        rintro ⟨t, ht⟩
        obtain ⟨pad, s⟩ := x
        simp [StrLit.text, Quote.text] at ht
        cases pad with
        | cons c pad =>
          simp at ht
          rcases hpad c pad rfl with h | h
          · rw [← ht.1] at h; simp [IsSpace] at h
          · rw [← ht.1] at h; simp at h
        | nil =>
          cases s with
          | nil =>
            simp at ht
            exact hr rfl _ _ ht.symm rfl
          | cons c s =>
            simp at ht
            exact hcl 0 (by simp) ⟨s ++ k!"'", by simp [← ht.1]⟩
    · simp [parseStringValue, Pair.children, Pair.rule, Pair.text, StrLit.value]
  | triple x =>
    obtain ⟨sp, sp', h⟩ := tq_run (r := r) ha hl pos
    apply pull3 ha
    · exact alt_left h
    · simp [parseStringValue, Pair.children, Pair.rule, Pair.text, StrLit.value]

/-- What a literal needs in each mode, if `r` follows it. -/
def Source.Lit.In (a : Atomicity) (l : Lit) (r : Str) : Prop :=
  match l with
  | .str l => l.In a r
  | .expr x => x.In a k!"`" r
  | l => l.NumOk ∧ l.next r

theorem Source.Lit.in_loose {l : Lit} {r : Str} (h : l.Ok) (hr : l.next r) : l.In .nonAtomic r := by
  cases l with
  | str l => exact StrLit.in_loose h hr
  | _ => exact ⟨h, hr⟩

/-- The first character of what follows a literal. -/
abbrev LitHead (r : Str) : Prop := HeadP (fun c => c ≠ '.' ∧ c ≠ '\'' ∧ c.isDigit = false) r

theorem digit_false {c : Char} (h : c.isDigit = false) : G.isDigit c = false := by
  cases hh : G.isDigit c with
  | false => rfl
  | true => have := (isDigit_iff c).1 hh; simp [h] at this

theorem digits_run {ds r : Str} {a} (ha : a ≠ .nonAtomic) (h : IsDigits ds)
    (hr : HeadP (fun c => c.isDigit = false) r) (pos) :
    run G.skip (.seq G.ASCII_DIGIT (.star G.ASCII_DIGIT)) a pos (ds ++ r) = .ok ds r [] := by
  obtain ⟨hne, hd⟩ := h
  cases ds with
  | nil => exact absurd rfl hne
  | cons c cs =>
    simp at hd
    exact seq_run (c1 := [c]) (p1 := []) (p2 := []) ha (cls_run ((isDigit_iff _).2 hd.1))
      (clsStar_run ha gskip_sound (fun x hx => (isDigit_iff _).2 (hd.2 x hx))
        (fun c t h => digit_false (hr c t h)) _)

theorem integer_run {ds r : Str} {a} (ha : a ≠ .atomic) (h : IsDigits ds)
    (hr : HeadP (fun c => c.isDigit = false) r) (pos) :
    run G.skip G.integer a pos (ds ++ r) = .ok ds r [.mk .integer ⟨pos, pos + blen ds⟩ ds []] :=
  rule_atomic ha (digits_run atomic_ne h hr pos)

theorem integer_fail {r a} (hr : HeadP (fun c => c.isDigit = false) r) (pos) :
    run G.skip G.integer a pos r = .fail :=
  rule_fail (seq_fail_left (cls_fail fun c t h => digit_false (hr c t h)))

theorem decimal_run {x y r : Str} {a} (ha : a ≠ .atomic) (h : IsDigits x) (hy : ∀ c ∈ y, c.isDigit = true)
    (hr : HeadP (fun c => c.isDigit = false) r) (pos) :
    run G.skip G.decimal a pos (x ++ ('.' :: (y ++ r))) =
      .ok (x ++ ('.' :: y)) r [.mk .decimal ⟨pos, pos + blen (x ++ ('.' :: y))⟩ (x ++ ('.' :: y)) []] := by
  refine rule_atomic ha (seq_run (c1 := x) (c2 := '.' :: y) (p1 := []) (p2 := []) atomic_ne
    (digits_run atomic_ne h (headP_cons (by decide)) pos)
    (seq_run (c1 := k!".") (c2 := y) (p1 := []) (p2 := []) atomic_ne (str_run (s := k!".")) ?_))
  exact clsStar_run atomic_ne gskip_sound (fun c hc => (isDigit_iff _).2 (hy c hc))
    (fun c t h => digit_false (hr c t h)) _

theorem decimal_fail {x r : Str} {a} (h : IsDigits x)
    (hr : HeadP (fun c => c ≠ '.' ∧ c.isDigit = false) r) (pos) :
    run G.skip G.decimal a pos (x ++ r) = .fail := by
  refine rule_fail (seq_fail_right atomic_ne (digits_run atomic_ne h (hr.mono fun _ h => h.2) pos)
    (seq_fail_left ?_))
  rw [str_fail_iff]
  rintro ⟨t, rfl⟩
  exact (hr _ _ rfl).1 rfl

theorem isHex_word {c : Char} (h : IsHexDigit c) : IsWord c := by
  rw [← isWordChar_iff]
  simp only [IsHexDigit, ← isDigit_iff] at h
  simp only [G.isWordChar, G.isAlnum, G.isAlpha, Bool.or_eq_true, Bool.and_eq_true, decide_eq_true_eq]
  rcases h with h | h | h
  · simp [h]
  · simp only [Char.le_def, UInt32.le_iff_toNat_le]
    have h1 : c.toNat = c.val.toNat := rfl
    have h2 : ('a' : Char).val.toNat = 97 := rfl
    have h3 : ('z' : Char).val.toNat = 122 := rfl
    omega
  · simp only [Char.le_def, UInt32.le_iff_toNat_le]
    have h1 : c.toNat = c.val.toNat := rfl
    have h2 : ('A' : Char).val.toNat = 65 := rfl
    have h3 : ('Z' : Char).val.toNat = 90 := rfl
    omega

theorem hex3_run {x y z : Char} {r : Str} (hx : IsHexDigit x) (hy : IsHexDigit y) (hz : IsHexDigit z) (pos) :
    run G.skip G.hex3 .atomic pos (x :: y :: z :: r) = .ok [x, y, z] r [] :=
  seq_run (c1 := [x]) (c2 := [y, z]) (p1 := []) (p2 := []) atomic_ne (cls_run ((isHex_iff _).2 hx))
    (seq_run (c1 := [y]) (c2 := [z]) (p1 := []) (p2 := []) atomic_ne (cls_run ((isHex_iff _).2 hy))
      (cls_run ((isHex_iff _).2 hz)))

theorem hex_run {h r : Str} {a} (ha : a ≠ .atomic) (hh : ∀ c ∈ h, IsHexDigit c)
    (hl : h.length = 3 ∨ h.length = 6) (hr : (Lit.hex h).next r) (pos) :
    run G.skip G.hex_value a pos ('#' :: (h ++ r)) =
      .ok ('#' :: h) r [.mk .hex_value ⟨pos, pos + blen ('#' :: h)⟩ ('#' :: h) []] := by
  refine rule_atomic ha (seq_run (c1 := k!"#") (c2 := h) (p1 := []) (p2 := []) atomic_ne
    (str_run (s := k!"#")) ?_)
  match h, hl, hh, hr with
  | [x, y, z], _, hh, hr =>
    simp at hh
    have hf : ∀ pos, run G.skip G.hex3 .atomic pos r = .fail := by
      intro pos
      cases hc : run G.skip G.hex3 .atomic pos r with
      | fail => rfl
      | diverge => exact absurd hc (run_no_diverge (by decide) _ _ _)
      | ok c r' ps =>
        exfalso
        obtain ⟨rfl, hm⟩ := run_sound skip_sound _ _ _ _ _ _ _ hc
        obtain ⟨-, hlen, hx⟩ := hex3_inv atomic_ne hm
        match c, hlen, hx with
        | [a, b, c], _, hx =>
          simp at hx
          exact hr ⟨a, b, c, r', rfl, hx.1, hx.2.1, hx.2.2⟩
    exact seq_run (c1 := [x, y, z]) (c2 := []) (p1 := []) (p2 := []) atomic_ne
      (hex3_run hh.1 hh.2.1 hh.2.2 _) (opt_none (hf _))
  | [x, y, z, u, v, w], _, hh, _ =>
    simp at hh
    exact seq_run (c1 := [x, y, z]) (c2 := [u, v, w]) (p1 := []) (p2 := []) atomic_ne
      (hex3_run hh.1 hh.2.1 hh.2.2.1 _)
      (opt_some (hex3_run hh.2.2.2.1 hh.2.2.2.2.1 hh.2.2.2.2.2 _))
  | [], hl, _, _ | [_], hl, _, _ | [_, _], hl, _, _ | [_, _, _, _], hl, _, _ | [_, _, _, _, _], hl, _, _ => simp at hl
  | _ :: _ :: _ :: _ :: _ :: _ :: _ :: _, hl, _, _ => simp at hl

theorem alt_right' {skip x y a pos inp res} (h : run skip x a pos inp = .fail)
    (h2 : run skip y a pos inp = res) : run skip (.alt x y) a pos inp = res := by rw [alt_right h, h2]

/-- An alternative that cannot start here is passed over. -/
theorem alt_skip {x y : PExpr} {a pos inp res} (hw : x.wf = true) (hn : x.nonNull = true)
    (hs : x.starts inp.head? = false) (hsol : a = .nonAtomic → Solid inp)
    (h : run G.skip y a pos inp = res) : run G.skip (.alt x y) a pos inp = res := by
  rw [alt_right (fail_of_starts hw hn hs hsol), h]

theorem solid_head {inp : Str} {c : Char} (h : inp.head? = some c) (h1 : ¬ IsSpace c) (h2 : c ≠ '/') :
    Solid inp := by
  cases inp with
  | nil => simp at h
  | cons d t => simp at h; subst h; exact solid_cons h1 h2

theorem digit_not_space {c : Char} (h : c.isDigit = true) : ¬ IsSpace c ∧ c ≠ '/' := by
  constructor
  · rintro (rfl | rfl | rfl | rfl) <;> simp [Char.isDigit] at h
  · rintro rfl; simp [Char.isDigit] at h

theorem digit_ne {c d : Char} (h : c.isDigit = true) (hd : d.isDigit = false) : c ≠ d := by
  rintro rfl; simp [h] at hd

theorem value_run {l : Lit} {r a} (ha : a ≠ .atomic) (hl : l.In a r) (hr : LitHead r) (pos) :
    ∃ p, run G.skip G.value a pos (l.text ++ r) = .ok l.text r [p] ∧ p.rule = .value ∧ p.text = l.text ∧
      parseValue p = .ok l.value := by
  have hquote : HeadP (· ≠ '\'') r := hr.mono fun _ h => h.2.1
  have hdig : HeadP (fun c => c.isDigit = false) r := hr.mono fun _ h => h.2.2
  cases l with
  | str l =>
    obtain ⟨p, h, h1, h2, h3⟩ := string_run (l := l) ha hl (fun _ => hquote) pos
    refine ⟨_, rule_normal ha (alt_left h), rfl, rfl, ?_⟩
    simp [parseValue, Pair.children, h1, h3, Rs.orPanic, Lit.value]
  | expr s =>
    obtain ⟨sp, sp', h⟩ := bq_run (r := r) ha hl pos
    apply pull3 ha
    · refine alt_skip (by decide) (by decide) rfl (fun _ => solid_head rfl (by decide) (by decide)) ?_
      exact alt_left h
    · simp [parseValue, Pair.children, Pair.rule, Rs.orPanic, Lit.value, innerStr, Pair.text]
  | tru =>
    apply pull3 ha
    · refine alt_skip (by decide) (by decide) rfl (fun _ => solid_head rfl (by decide) (by decide)) ?_
      refine alt_skip (by decide) (by decide) rfl (fun _ => solid_head rfl (by decide) (by decide)) ?_
      exact alt_left (rule_atomic ha (alt_left (str_run (s := k!"true"))))
    · simp [parseValue, Pair.children, Pair.rule, Rs.orPanic, Lit.value, Lit.text, Pair.text, Value.fromStr]
  | fls =>
    apply pull3 ha
    · refine alt_skip (by decide) (by decide) rfl (fun _ => solid_head rfl (by decide) (by decide)) ?_
      refine alt_skip (by decide) (by decide) rfl (fun _ => solid_head rfl (by decide) (by decide)) ?_
      refine alt_left (rule_atomic ha (ps := []) ?_)
      rw [alt_right (by rw [str_fail_iff]; rintro ⟨t, h⟩; simp [Lit.text] at h)]
      exact alt_left (str_run (s := k!"false"))
    · simp [parseValue, Pair.children, Pair.rule, Rs.orPanic, Lit.value, Lit.text, Pair.text, Value.fromStr]
  | null =>
    apply pull3 ha
    · refine alt_skip (by decide) (by decide) rfl (fun _ => solid_head rfl (by decide) (by decide)) ?_
      refine alt_skip (by decide) (by decide) rfl (fun _ => solid_head rfl (by decide) (by decide)) ?_
      refine alt_left (rule_atomic ha (ps := []) ?_)
      rw [alt_right (by rw [str_fail_iff]; rintro ⟨t, h⟩; simp [Lit.text] at h),
        alt_right (by rw [str_fail_iff]; rintro ⟨t, h⟩; simp [Lit.text] at h)]
      exact str_run (s := k!"null")
    · simp [parseValue, Pair.children, Pair.rule, Rs.orPanic, Lit.value, Lit.text, Pair.text, Value.fromStr]
  | hex h =>
    apply pull3 ha
    · refine alt_skip (by decide) (by decide) rfl (fun _ => solid_head rfl (by decide) (by decide)) ?_
      refine alt_skip (by decide) (by decide) rfl (fun _ => solid_head rfl (by decide) (by decide)) ?_
      refine alt_skip (by decide) (by decide) rfl (fun _ => solid_head rfl (by decide) (by decide)) ?_
      refine alt_skip (by decide) (by decide) rfl (fun _ => solid_head rfl (by decide) (by decide)) ?_
      exact hex_run ha hl.1.1 hl.1.2 hl.2 _
    · simp [parseValue, Pair.children, Pair.rule, Rs.orPanic, Lit.value, Pair.text]
  | int ds =>
    obtain ⟨⟨hd, hlt⟩, -⟩ := hl
    have hd' := hd
    obtain ⟨hne, hall⟩ := hd'
    obtain ⟨c, cs, rfl⟩ : ∃ c cs, ds = c :: cs := by cases ds <;> simp_all
    have hc := hall c (by simp)
    have hsol : Solid (c :: (cs ++ r)) := solid_cons (digit_not_space hc).1 (digit_not_space hc).2
    have ne : ∀ d : Char, d.isDigit = false → c ≠ d := fun d => digit_ne hc
    apply pull3 ha
    · simp only [Lit.text, List.cons_append]
      refine alt_skip (by decide) (by decide) ?_ (fun _ => hsol) (alt_skip (by decide) (by decide) ?_
        (fun _ => hsol) (alt_skip (by decide) (by decide) ?_ (fun _ => hsol) ?_))
      rotate_right
      · exact alt_left (rule_normal ha (alt_right' (decimal_fail (x := c :: cs) (r := r) hd
          (hr.mono fun _ h => ⟨h.1, h.2.2⟩) pos) (integer_run ha hd hdig pos)))
      all_goals
        simp [PExpr.starts, G.string_value, G.backquoted_quoted_string, G.boolean_value,
          G.triple_quoted_string, G.single_quoted_string, PExpr.nonNull, ne]
    · have : parseUnsigned (c :: cs) i64Max = some (digitsNat (c :: cs)) := by
        rw [parseUnsigned]
        simp only [digitsVal_eq]
        rw [if_pos (by simp [i64Max]; omega)]
      simp [parseValue, Pair.children, Pair.rule, Rs.orPanic, Lit.value, Pair.text, this]
  | dec x y =>
    obtain ⟨⟨hd, hy⟩, -⟩ := hl
    have hd' := hd
    obtain ⟨hne, hall⟩ := hd'
    obtain ⟨c, cs, rfl⟩ : ∃ c cs, x = c :: cs := by cases x <;> simp_all
    have hc := hall c (by simp)
    have hsol : Solid (c :: (cs ++ ('.' :: (y ++ r)))) := solid_cons (digit_not_space hc).1 (digit_not_space hc).2
    have ne : ∀ d : Char, d.isDigit = false → c ≠ d := fun d => digit_ne hc
    apply pull3 ha
    · simp only [Lit.text, List.cons_append, List.append_assoc]
      refine alt_skip (by decide) (by decide) ?_ (fun _ => hsol) (alt_skip (by decide) (by decide) ?_
        (fun _ => hsol) (alt_skip (by decide) (by decide) ?_ (fun _ => hsol) ?_))
      rotate_right
      · exact alt_left (rule_normal ha (ps := [_]) (alt_left (decimal_run ha hd hy hdig pos)))
      all_goals
        simp [PExpr.starts, G.string_value, G.backquoted_quoted_string, G.boolean_value,
          G.triple_quoted_string, G.single_quoted_string, PExpr.nonNull, ne]
    · simp [parseValue, Pair.children, Pair.rule, Rs.orPanic, Lit.value, Pair.text]

end Dbml
