import Verif.Proofs.Term
import Verif.Proofs.Lex
import Verif.Spec.Source

/-!
# Running the recognizer forward: repetitions, literals, trivia
-/

namespace Dbml
open Syntax Source

/-! ## Repetitions -/

theorem repLoop_mono {step : Nat → Str → Res} {c r ps} :
    ∀ {n m pos inp}, n ≤ m → repLoop step n pos inp = .ok c r ps → repLoop step m pos inp = .ok c r ps := by
  intro n
  induction n generalizing c r ps with
  | zero => intro m pos inp _ h; simp [repLoop] at h
  | succ n ih =>
    intro m pos inp hle h
    obtain ⟨m, rfl⟩ : ∃ k, m = k + 1 := ⟨m - 1, by omega⟩
    unfold repLoop at h ⊢
    cases hs : step pos inp with
    | fail => simpa [hs] using h
    | diverge => simp [hs] at h
    | ok c1 r1 p1 =>
      simp only [hs] at h ⊢
      cases c1 with
      | nil => simp at h
      | cons x xs =>
        simp only at h ⊢
        cases hr : repLoop step n (pos + blen (x :: xs)) r1 with
        | fail => simp [hr] at h
        | diverge => simp [hr] at h
        | ok c2 r2 p2 =>
          simp only [hr] at h
          rw [ih (by omega) hr]
          simpa using h

/-- The loop of a repetition, with enough fuel. -/
def Loop (step : Nat → Str → Res) (pos : Nat) (inp c r : Str) (ps : List Pair) : Prop :=
  repLoop step (inp.length + 1) pos inp = .ok c r ps

theorem Loop.nil {step pos inp} (h : step pos inp = .fail) : Loop step pos inp [] inp [] := by
  simp [Loop, repLoop, h]

theorem Loop.cons {step pos inp c r ps c' r' ps'} (h : step pos inp = .ok c r ps) (hi : inp = c ++ r)
    (hc : c ≠ []) (hl : Loop step (pos + blen c) r c' r' ps') :
    Loop step pos inp (c ++ c') r' (ps ++ ps') := by
  unfold Loop at *
  unfold repLoop
  cases c with
  | nil => exact absurd rfl hc
  | cons x xs =>
    subst hi
    simp only [h]
    rw [repLoop_mono (m := ((x :: xs) ++ r).length) (by simp) hl]

/-- The step of the loop of `e*`. -/
abbrev stepOf (skip : Str → Res) (e : PExpr) (a : Atomicity) : Nat → Str → Res :=
  fun p i => seqRes skip a p (.ok [] i []) (fun p' i' => run skip e a p' i')

theorem star_nil {skip e a pos inp} (h : run skip e a pos inp = .fail) :
    run skip (.star e) a pos inp = .ok [] inp [] := by
  simp [run, h]

theorem star_cons {skip e a pos inp c r ps c' r' ps'} (h : run skip e a pos inp = .ok c r ps)
    (hl : Loop (stepOf skip e a) (pos + blen c) r c' r' ps') :
    run skip (.star e) a pos inp = .ok (c ++ c') r' (ps ++ ps') := by
  unfold Loop at hl
  simp only [run, h, hl]

theorem step_atomic {skip e a pos inp} (ha : a ≠ .nonAtomic) :
    stepOf skip e a pos inp = run skip e a pos inp := seqRes_nil_atomic ha

/-- In a mode without skipping a loop is a repetition. -/
theorem loop_of_star {skip e a pos inp c r ps} (ha : a ≠ .nonAtomic)
    (hs : SkipSound skip fun _ _ => True) (hn : e.nonNull = true)
    (h : run skip (.star e) a pos inp = .ok c r ps) : Loop (stepOf skip e a) pos inp c r ps := by
  simp only [run] at h
  cases he : run skip e a pos inp with
  | fail =>
    simp only [he] at h
    injection h with h1 h2 h3
    subst h1 h2 h3
    exact .nil (by rw [step_atomic ha]; exact he)
  | diverge => simp [he] at h
  | ok c1 r1 p1 =>
    simp only [he] at h
    split at h <;> try contradiction
    rename_i c2 r2 p2 hl
    injection h with h1 h2 h3
    subst h1 h2 h3
    obtain ⟨h1, h2⟩ := run_sound hs _ _ _ _ _ _ _ he
    exact .cons (by rw [step_atomic ha]; exact he) h1 (nonNull_consumes _ hn h2) hl

/-- In a mode without skipping: one more item. -/
theorem star_atomic_cons {skip e a pos inp c r ps c' r' ps'} (ha : a ≠ .nonAtomic)
    (hs : SkipSound skip fun _ _ => True) (hn : e.nonNull = true)
    (h : run skip e a pos inp = .ok c r ps) (hr : run skip (.star e) a (pos + blen c) r = .ok c' r' ps') :
    run skip (.star e) a pos inp = .ok (c ++ c') r' (ps ++ ps') :=
  star_cons h (loop_of_star ha hs hn hr)

theorem skipSound_true {skip T} (h : SkipSound skip T) : SkipSound skip fun _ _ => True :=
  fun i c r ps hh => ⟨(h i c r ps hh).1, trivial⟩

theorem gskip_sound : SkipSound G.skip fun _ _ => True := skipSound_true skip_sound

/-! ## Sequences in modes without skipping -/

theorem seq_run {skip x y a pos inp c1 r1 p1 c2 r2 p2} (ha : a ≠ .nonAtomic)
    (h1 : run skip x a pos inp = .ok c1 r1 p1) (h2 : run skip y a (pos + blen c1) r1 = .ok c2 r2 p2) :
    run skip (.seq x y) a pos inp = .ok (c1 ++ c2) r2 (p1 ++ p2) := by
  cases a <;> simp_all [run, seqRes, skipIf]

theorem seq_fail_left {skip x y a pos inp} (h1 : run skip x a pos inp = .fail) :
    run skip (.seq x y) a pos inp = .fail := by
  simp [run, h1, seqRes]

theorem seq_fail_right {skip x y a pos inp c1 r1 p1} (ha : a ≠ .nonAtomic)
    (h1 : run skip x a pos inp = .ok c1 r1 p1) (h2 : run skip y a (pos + blen c1) r1 = .fail) :
    run skip (.seq x y) a pos inp = .fail := by
  cases a <;> simp_all [run, seqRes, skipIf]

theorem alt_left {skip x y a pos inp c r ps} (h : run skip x a pos inp = .ok c r ps) :
    run skip (.alt x y) a pos inp = .ok c r ps := by simp [run, h]

theorem alt_right {skip x y a pos inp} (h : run skip x a pos inp = .fail) :
    run skip (.alt x y) a pos inp = run skip y a pos inp := by simp [run, h]

theorem opt_some {skip x a pos inp c r ps} (h : run skip x a pos inp = .ok c r ps) :
    run skip (.opt x) a pos inp = .ok c r ps := by simp [run, h]

theorem opt_none {skip x a pos inp} (h : run skip x a pos inp = .fail) :
    run skip (.opt x) a pos inp = .ok [] inp [] := by simp [run, h]

theorem neg_fail {skip x a pos inp} (h : run skip x a pos inp = .fail) :
    run skip (.neg x) a pos inp = .ok [] inp [] := by simp [run, h]

theorem rule_run {skip r m x a pos inp c rest ps} (h : run skip x (bodyAtomicity m a) pos inp = .ok c rest ps) :
    run skip (.rule r m x) a pos inp =
      .ok c rest (if emits m a then [.mk r ⟨pos, pos + blen c⟩ c ps] else ps) := by simp [run, h]

theorem rule_fail {skip r m x a pos inp} (h : run skip x (bodyAtomicity m a) pos inp = .fail) :
    run skip (.rule r m x) a pos inp = .fail := by simp [run, h]

/-! ## Literals and classes -/

theorem stripPrefix_append (s r : Str) : stripPrefix s (s ++ r) = some r := by
  induction s with
  | nil => rfl
  | cons k ks ih => simp [stripPrefix, ih]

theorem str_run {skip s a pos r} : run skip (.str s) a pos (s ++ r) = .ok s r [] := by
  simp [run, stripPrefix_append]

theorem str_run' {skip s a pos inp r} (h : inp = s ++ r) : run skip (.str s) a pos inp = .ok s r [] := by
  subst h; exact str_run

theorem stripPrefixCI_append {k m : Str} (h : m.map asciiLower = k.map asciiLower) (r : Str) :
    stripPrefixCI k (m ++ r) = some (m, r) := by
  induction k generalizing m with
  | nil => cases m <;> simp_all [stripPrefixCI]
  | cons x xs ih =>
    cases m with
    | nil => simp at h
    | cons y ys =>
      simp at h
      simp [stripPrefixCI, h.1, ih h.2]

theorem insens_run {skip k m a pos r} (h : Keyword k m) : run skip (.insens k) a pos (m ++ r) = .ok m r [] := by
  have : asciiLower = lowerC := funext asciiLower_eq
  have := stripPrefixCI_append (k := k) (m := m) (by rw [this]; exact h) r
  simp [run, this]

theorem cls_run {skip p a pos c r} (h : p c = true) : run skip (.cls p) a pos (c :: r) = .ok [c] r [] := by
  simp [run, h]

theorem cls_fail {skip p a pos inp} (h : ∀ c r, inp = c :: r → p c = false) :
    run skip (.cls p) a pos inp = .fail := by
  cases inp with
  | nil => rfl
  | cons c r => simp [run, h c r rfl]

theorem clsStar_run {skip p a} (ha : a ≠ .nonAtomic) (hs : SkipSound skip fun _ _ => True) {cs r : Str}
    (h : ∀ c ∈ cs, p c = true) (hr : ∀ c t, r = c :: t → p c = false) :
    ∀ pos, run skip (.star (.cls p)) a pos (cs ++ r) = .ok cs r [] := by
  induction cs with
  | nil => intro pos; exact star_nil (cls_fail hr)
  | cons c cs ih =>
    intro pos
    simp at h
    exact star_atomic_cons (c := [c]) (ps := []) (ps' := []) ha hs rfl (cls_run h.1) (ih h.2 _)

/-- `(!x ~ ANY)*` consumes `v` if `x` fails at each of its positions and not after it. -/
theorem until_run {skip x a} (ha : a ≠ .nonAtomic) (hs : SkipSound skip fun _ _ => True)
    (hx : ∀ pos inp, run skip x a pos inp ≠ .diverge) {v r : Str}
    (hr : r = [] ∨ ∀ pos, run skip x a pos r ≠ .fail)
    (h : ∀ i < v.length, ∀ pos, run skip x a pos ((v ++ r).drop i) = .fail) :
    ∀ pos, run skip (.star (.seq (.neg x) G.ANY)) a pos (v ++ r) = .ok v r [] := by
  induction v with
  | nil =>
    intro pos
    refine star_nil ?_
    rcases hr with rfl | hr
    · cases hh : run skip x a pos [] with
      | fail => exact seq_fail_right ha (neg_fail hh) (cls_fail (by simp))
      | diverge => exact absurd hh (hx _ _)
      | ok => exact seq_fail_left (by simp [run, hh])
    · refine seq_fail_left ?_
      have h1 := hr pos
      have h2 := hx pos r
      cases hh : run skip x a pos r <;> simp_all [run]
  | cons c cs ih =>
    intro pos
    refine star_atomic_cons (c := [c]) (ps := []) (ps' := []) ha hs rfl ?_ (ih ?_ _)
    · have := seq_run (skip := skip) (x := .neg x) (y := G.ANY) (c1 := []) (c2 := [c]) ha
        (neg_fail (h 0 (by simp) pos)) (cls_run (skip := skip) (p := fun _ => true) (c := c) (r := cs ++ r) rfl)
      exact this
    · intro i hi pos
      exact h (i + 1) (by simpa using hi) pos

/-! ## Trivia -/

instance (c : Char) : Decidable (IsSpace c) := by unfold IsSpace; infer_instance

/-- The text begins with white space or with a comment. -/
def StartsBlank (t : Str) : Prop :=
  (∃ c cs, t = c :: cs ∧ IsSpace c) ∨ k!"//" <+: t ∨ (k!"/*" <+: t ∧ k!"*/" <:+: t.drop 2)

/-- The text begins neither with white space nor with a comment. -/
def Solid (s : Str) : Prop := ¬ StartsBlank s

theorem solid_nil : Solid [] := by rintro (⟨c, cs, h, -⟩ | h | ⟨h, -⟩) <;> simp at h

theorem solid_cons {c : Char} {s : Str} (h1 : ¬ IsSpace c) (h2 : c ≠ '/') : Solid (c :: s) := by
  rintro (⟨c, cs, h, h3⟩ | ⟨t, h⟩ | ⟨⟨t, h⟩, -⟩)
  · injection h with h _; exact h1 (h ▸ h3)
  all_goals
    simp at h
    exact h2 h.1.symm

/-- `WHITESPACE` on a text with a leading blank: consumes one blank, or `\r\n`. -/
theorem ws_run {skip a pos} {c : Char} (hc : IsSpace c) (t : Str) :
    (run skip G.WHITESPACE a pos (c :: t) = .ok [c] t []) ∨
    ∃ t', t = '\n' :: t' ∧ run skip G.WHITESPACE a pos (c :: t) = .ok [c, '\n'] t' [] := by
  rcases hc with rfl | rfl | rfl | rfl
  · left; simp [G.WHITESPACE, run, stripPrefix]
  · left; simp [G.WHITESPACE, run, stripPrefix]
  · left; simp [G.WHITESPACE, G.NEWLINE, run, stripPrefix]
  · cases t with
    | nil => left; simp [G.WHITESPACE, G.NEWLINE, run, stripPrefix]
    | cons d ds =>
      by_cases hd : d = '\n'
      · subst hd; right; exact ⟨ds, rfl, by simp [G.WHITESPACE, G.NEWLINE, run, stripPrefix]⟩
      · left
        have : ¬ '\n' = d := fun h => hd h.symm
        simp [G.WHITESPACE, G.NEWLINE, run, stripPrefix, this]

theorem ws_run_fail {skip a pos} {s : Str} (h : NoWs s) : run skip G.WHITESPACE a pos s = .fail := by
  cases s with
  | nil => rfl
  | cons c t =>
    have hc := h c t rfl
    simp only [IsSpace, not_or] at hc
    have h1 : ¬ ' ' = c := fun h => hc.1 h.symm
    have h2 : ¬ '\t' = c := fun h => hc.2.1 h.symm
    have h3 : ¬ '\n' = c := fun h => hc.2.2.1 h.symm
    have h4 : ¬ '\r' = c := fun h => hc.2.2.2 h.symm
    simp [G.WHITESPACE, G.NEWLINE, run, stripPrefix, h1, h2, h3, h4]

theorem wsStar_run {w s : Str} (hw : ∀ c ∈ w, IsSpace c) (hs : NoWs s) :
    ∀ pos, run NoSkip (.star G.WHITESPACE) .atomic pos (w ++ s) = .ok w s [] := by
  generalize hn : w.length = n
  induction n using Nat.strongRecOn generalizing w with
  | _ n ih =>
    intro pos
    cases w with
    | nil => exact star_nil (ws_run_fail hs)
    | cons c t =>
      have hc := hw c (by simp)
      rcases ws_run (skip := NoSkip) (a := .atomic) (pos := pos) hc (t ++ s) with h | ⟨t', h1, h⟩
      · have := star_atomic_cons (skip := NoSkip) atomic_ne noSkip_sound (e := G.WHITESPACE) rfl h
          (ih t.length (by simp at hn; omega) (fun x hx => hw x (by simp [hx])) rfl _)
        simpa using this
      · cases t with
        | nil => exact absurd (show IsSpace '\n' by simp [IsSpace]) (hs _ _ h1)
        | cons d ds =>
          injection h1 with h1 h2
          subst h1 h2
          have := star_atomic_cons (skip := NoSkip) atomic_ne noSkip_sound (e := G.WHITESPACE) rfl h
            (ih ds.length (by simp at hn; omega) (fun x hx => hw x (by simp [hx])) rfl _)
          simpa using this

/-- Splitting off the leading blanks. -/
theorem split_blanks (s : Str) : ∃ w r, s = w ++ r ∧ (∀ c ∈ w, IsSpace c) ∧ NoWs r := by
  refine ⟨s.takeWhile fun c => decide (IsSpace c), s.dropWhile fun c => decide (IsSpace c), by simp, ?_, ?_⟩
  · intro c hc
    have := List.all_takeWhile (p := fun c => decide (IsSpace c)) (l := s)
    rw [List.all_eq_true] at this
    simpa using this c hc
  · intro c cs h hc
    have := List.head?_dropWhile_not (fun c => decide (IsSpace c)) s
    rw [h] at this
    simp [hc] at this

theorem newline_fail {skip a pos} {c : Char} (h1 : c ≠ '\n') (h2 : c ≠ '\r') (t : Str) :
    run skip G.NEWLINE a pos (c :: t) = .fail := by
  have h1 : ¬ '\n' = c := fun h => h1 h.symm
  have h2 : ¬ '\r' = c := fun h => h2 h.symm
  simp [G.NEWLINE, run, stripPrefix, h1, h2]

theorem newline_no_diverge {skip a pos inp} : run skip G.NEWLINE a pos inp ≠ .diverge := by
  simp only [G.NEWLINE, run]
  repeat' split
  all_goals simp_all

theorem line_run {body r : Str} (hb : ∀ x ∈ body, x ≠ '\n' ∧ x ≠ '\r')
    (hr : r = [] ∨ ∃ c t, r = c :: t ∧ (c = '\n' ∨ c = '\r')) (pos : Nat) :
    run NoSkip G.COMMENT .atomic pos (k!"//" ++ (body ++ r)) = .ok (k!"//" ++ body) r [] := by
  refine alt_left (seq_run (p1 := []) (p2 := []) atomic_ne str_run (until_run atomic_ne noSkip_sound ?_ ?_ ?_ _))
  · exact fun _ _ => newline_no_diverge
  · rcases hr with h | ⟨c, t, rfl, h⟩
    · exact .inl h
    · exact .inr fun pos => newline_ok_of h
  · intro i hi pos
    rw [List.drop_eq_getElem_cons (by simp; omega), List.getElem_append_left hi]
    have := hb _ (List.getElem_mem hi)
    exact newline_fail this.1 this.2 _

theorem str_no_diverge {skip s a pos inp} : run skip (.str s) a pos inp ≠ .diverge := by
  simp only [run]; split <;> simp

theorem block_run {body r : Str} (hb : ¬ k!"*/" <:+: body) (pos : Nat) :
    run NoSkip G.COMMENT .atomic pos (k!"/*" ++ (body ++ (k!"*/" ++ r))) =
      .ok (k!"/*" ++ (body ++ k!"*/")) r [] := by
  unfold G.COMMENT
  rw [alt_right]
  · refine seq_run (p1 := []) (p2 := []) atomic_ne str_run (seq_run (p1 := []) (p2 := []) atomic_ne
      (until_run atomic_ne noSkip_sound ?_ ?_ ?_ _) str_run)
    · exact fun _ _ => str_no_diverge
    · right
      intro pos
      rw [ne_eq, str_fail_iff, Classical.not_not]
      exact ⟨r, rfl⟩
    · intro i hi pos
      rw [str_fail_iff]
      rintro ⟨t, ht⟩
      apply hb
      rw [List.drop_append_of_le_length (by omega)] at ht
      generalize hd : body.drop i = d at ht
      have hsuf : d <:+ body := hd ▸ List.drop_suffix i body
      match d, ht, hsuf, hd with
      | [], _, _, hd => simp at hd; omega
      | [x], ht, _, _ => simp at ht
      | x :: y :: d, ht, hsuf, _ =>
        simp at ht
        obtain ⟨rfl, rfl, -⟩ := ht
        exact List.IsInfix.trans ⟨[], d, rfl⟩ hsuf.isInfix
  · refine seq_fail_left ?_
    rw [str_fail_iff]
    rintro ⟨t, ht⟩
    simp at ht

theorem comment_fail {s : Str} (h1 : ¬ k!"//" <+: s) (h2 : ¬ (k!"/*" <+: s ∧ k!"*/" <:+: s.drop 2)) (pos : Nat) :
    run NoSkip G.COMMENT .atomic pos s = .fail := by
  unfold G.COMMENT
  rw [alt_right]
  · by_cases ho : k!"/*" <+: s
    · obtain ⟨v, rfl⟩ := ho
      have hv : ¬ k!"*/" <:+: v := fun h => h2 ⟨⟨v, rfl⟩, h⟩
      refine seq_fail_right (p1 := []) atomic_ne str_run ?_
      have hu : ∀ pos, run NoSkip (.star (.seq (.neg (.str k!"*/")) G.ANY)) .atomic pos v = .ok v [] [] := by
        intro pos
        have := until_run (skip := NoSkip) (x := .str k!"*/") (v := v) (r := []) atomic_ne noSkip_sound
          (fun _ _ => str_no_diverge) (.inl rfl) (fun i hi pos => by
            rw [str_fail_iff, List.append_nil]
            exact fun h => hv (h.isInfix.trans (List.drop_suffix i v).isInfix)) pos
        simpa using this
      exact seq_fail_right (p1 := []) atomic_ne (hu _) (str_fail_iff.2 (by simp))
    · exact seq_fail_left (str_fail_iff.2 ho)
  · exact seq_fail_left (str_fail_iff.2 h1)

/-- The comments-and-blanks loop of the skipper. -/
def commentsExpr : PExpr := .star (G.COMMENT ~~ .star G.WHITESPACE)

/-- `s` is skipped up to `r`: the statement that is carried through the induction. -/
def Skips (s w r : Str) : Prop :=
  ∃ w1 s1 w2, s = w1 ++ s1 ∧ w = w1 ++ w2 ∧ (∀ c ∈ w1, IsSpace c) ∧ NoWs s1 ∧
    ∀ pos, run NoSkip commentsExpr .atomic pos s1 = .ok w2 r []

theorem Skips.skip {s w r} (h : Skips s w r) : G.skip s = .ok w r [] := by
  obtain ⟨w1, s1, w2, rfl, rfl, h1, h2, h3⟩ := h
  exact seq_run (p1 := []) (p2 := []) atomic_ne (wsStar_run h1 h2 _) (h3 _)

theorem Skips.nil {s} (h : Solid s) : Skips s [] s := by
  simp only [Solid, StartsBlank, not_or] at h
  refine ⟨[], s, [], rfl, rfl, by simp, ?_, ?_⟩
  · exact fun c cs h1 h2 => h.1 ⟨c, cs, h1, h2⟩
  · intro pos
    exact star_nil (seq_fail_left (comment_fail h.2.1 h.2.2 _))

theorem Skips.space {c s w r} (hc : IsSpace c) (h : Skips s w r) : Skips (c :: s) (c :: w) r := by
  obtain ⟨w1, s1, w2, rfl, rfl, h1, h2, h3⟩ := h
  exact ⟨c :: w1, s1, w2, rfl, rfl, by simpa using ⟨hc, h1⟩, h2, h3⟩

theorem Skips.comment {k s w r} (hk : k ≠ []) (hn : NoWs (k ++ s))
    (hr : ∀ pos, run NoSkip G.COMMENT .atomic pos (k ++ s) = .ok k s []) (h : Skips s w r) :
    Skips (k ++ s) (k ++ w) r := by
  obtain ⟨w1, s1, w2, rfl, rfl, h1, h2, h3⟩ := h
  refine ⟨[], k ++ (w1 ++ s1), k ++ (w1 ++ w2), rfl, rfl, by simp, hn, ?_⟩
  intro pos
  have hi : run NoSkip (G.COMMENT ~~ .star G.WHITESPACE) .atomic pos (k ++ (w1 ++ s1)) =
      .ok (k ++ w1) s1 [] :=
    seq_run (p1 := []) (p2 := []) atomic_ne (hr pos) (wsStar_run h1 h2 _)
  have := star_atomic_cons (skip := NoSkip) atomic_ne noSkip_sound (e := G.COMMENT ~~ .star G.WHITESPACE)
    (by rfl) hi (h3 _)
  simpa [commentsExpr] using this

theorem noWs_cons {c s} (h : ¬ IsSpace c) : NoWs (c :: s) := by
  rintro d t h1 h2
  injection h1 with h1 _
  exact h (h1 ▸ h2)

theorem slash_noWs {s : Str} : NoWs ('/' :: s) := noWs_cons (by simp [IsSpace])

/-- Trivia before something solid is skipped exactly. -/
theorem skips_blank {w s : Str} (hw : Blank w) (hs : Solid s) : Skips (w ++ s) w s := by
  induction hw with
  | nil => exact .nil hs
  | space hc _ ih => exact .space hc ih
  | @line body nl t hb hnl _ ih =>
    have := Skips.comment (k := k!"//" ++ body) (s := nl :: (t ++ s)) (by simp) slash_noWs
      (fun pos => by
        have := line_run (r := nl :: (t ++ s)) hb (.inr ⟨_, _, rfl, hnl⟩) pos
        simpa using this)
      (.space (by rcases hnl with rfl | rfl <;> simp [IsSpace]) ih)
    simpa using this
  | @block body t hb _ ih =>
    have := Skips.comment (k := k!"/*" ++ (body ++ k!"*/")) (s := t ++ s) (by simp) slash_noWs
      (fun pos => by
        have := block_run (r := t ++ s) hb pos
        simpa using this) ih
    simpa using this

theorem skip_blank {w s : Str} (hw : Blank w) (hs : Solid s) : G.skip (w ++ s) = .ok w s [] :=
  (skips_blank hw hs).skip

theorem skip_solid {s : Str} (hs : Solid s) : G.skip s = .ok [] s [] := skip_blank .nil hs

/-- What follows the last token is skipped completely. -/
theorem skip_end {s : Str} (h : BlankEnd s) : G.skip s = .ok s [] [] := by
  rcases h with h | ⟨w, body, rfl, hw, hb⟩
  · have := skip_blank h solid_nil
    simpa using this
  · have : Skips (k!"//" ++ body) (k!"//" ++ body) [] := by
      have := Skips.comment (k := k!"//" ++ body) (s := []) (w := []) (r := []) (by simp) slash_noWs
        (fun pos => by
          have := line_run (r := []) hb (.inl rfl) pos
          simpa using this) (.nil solid_nil)
      simpa using this
    have key : ∀ w, Blank w → Skips (w ++ (k!"//" ++ body)) (w ++ (k!"//" ++ body)) [] := by
      intro w hw
      induction hw with
      | nil => exact this
      | space hc _ ih => exact .space hc ih
      | @line body' nl t hb' hnl _ ih =>
        have := Skips.comment (k := k!"//" ++ body') (s := nl :: (t ++ (k!"//" ++ body))) (by simp) slash_noWs
          (fun pos => by
            have := line_run (r := nl :: (t ++ (k!"//" ++ body))) hb' (.inr ⟨_, _, rfl, hnl⟩) pos
            simpa using this)
          (.space (by rcases hnl with rfl | rfl <;> simp [IsSpace]) ih)
        simpa using this
      | @block body' t hb' _ ih =>
        have := Skips.comment (k := k!"/*" ++ (body' ++ k!"*/")) (s := t ++ (k!"//" ++ body)) (by simp)
          slash_noWs
          (fun pos => by
            have := block_run (r := t ++ (k!"//" ++ body)) hb' pos
            simpa using this) ih
        simpa using this
    exact (key w hw).skip

end Dbml
