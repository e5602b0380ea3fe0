import Verif.Proofs.Peg
import Verif.Spec.Syntax

/-!
# What implicit skipping consumes
-/

namespace Dbml
open Syntax

/-- The skipper used where skipping never happens. -/
abbrev NoSkip : Str → Res := fun i => .ok [] i []

theorem noSkip_sound : SkipSound NoSkip (fun _ _ => True) := by
  intro inp c r ps h
  simp [NoSkip] at h
  obtain ⟨rfl, rfl, rfl⟩ := h
  simp

theorem seqRes_nil_atomic {skip a pos inp kb} (ha : a ≠ .nonAtomic) :
    seqRes skip a pos (.ok [] inp []) kb = kb pos inp := by
  cases a <;> simp [seqRes, skipIf] at * <;> split <;> simp_all

/-- Induction over a repetition in a mode without skipping. -/
theorem star_atomic {skip T x a} (ha : a ≠ .nonAtomic)
    (motive : Nat → Str → Str → List Pair → Prop)
    (hnil : ∀ pos rest, run skip x a pos rest = .fail → motive pos [] rest [])
    (hcons : ∀ pos c c' rest p p', Matches skip T x a pos c (c' ++ rest) p →
      motive (pos + blen c) c' rest p' → motive pos (c ++ c') rest (p ++ p')) :
    ∀ {pos c rest ps}, Matches skip T (.star x) a pos c rest ps → motive pos c rest ps := by
  intro pos c rest ps h
  rcases h with ⟨rfl, rfl, hf⟩ | ⟨c1, c2, p1, p2, rfl, rfl, h1, hc⟩
  · exact hnil _ _ hf
  · refine hcons _ _ _ _ _ _ h1 ?_
    clear h1
    generalize pos + blen c1 = pos at hc
    induction hc with
    | nil h => rw [seqRes_nil_atomic ha] at h; exact hnil _ _ h
    | @cons pos t _ _ _ _ _ ht hp _ ih =>
      have : t = [] := by cases a <;> simp_all [TrivIf]
      subst this
      simpa using hcons _ _ _ _ _ _ hp (by simpa using ih)

/-- Sequencing in a mode without skipping. -/
theorem seq_atomic {skip T x y a} (ha : a ≠ .nonAtomic) {pos c rest ps} :
    Matches skip T (.seq x y) a pos c rest ps ↔
      ∃ c1 c2 p1 p2, c = c1 ++ c2 ∧ ps = p1 ++ p2 ∧ Matches skip T x a pos c1 (c2 ++ rest) p1 ∧
        Matches skip T y a (pos + blen c1) c2 rest p2 := by
  constructor
  · rintro ⟨c1, t, c2, p1, p2, rfl, rfl, h1, ht, h2⟩
    have : t = [] := by cases a <;> simp_all [TrivIf]
    subst this
    exact ⟨c1, c2, p1, p2, by simp, rfl, by simpa using h1, by simpa using h2⟩
  · rintro ⟨c1, c2, p1, p2, rfl, rfl, h1, h2⟩
    exact ⟨c1, [], c2, p1, p2, by simp, rfl, by simpa using h1, by cases a <;> simp_all [TrivIf],
      by simpa using h2⟩

/-- The remaining text does not begin with white space. -/
def NoWs (rest : Str) : Prop := ∀ c cs, rest = c :: cs → ¬ IsSpace c

theorem ws_matches {skip T a pos c rest ps} (h : Matches skip T G.WHITESPACE a pos c rest ps) :
    c ≠ [] ∧ ps = [] ∧ ∀ t, Trivia t → Trivia (c ++ t) := by
  simp only [G.WHITESPACE, G.NEWLINE, Matches] at h
  rcases h with h | ⟨-, h | ⟨-, h | ⟨-, h | ⟨-, h⟩⟩⟩⟩ <;> obtain ⟨rfl, rfl⟩ := h <;>
    refine ⟨by simp, rfl, fun t ht => ?_⟩ <;>
    (try exact .space (by simp [IsSpace]) ht)
  exact .space (by simp [IsSpace]) (.space (by simp [IsSpace]) ht)

theorem ws_fail {skip a pos rest} (h : run skip G.WHITESPACE a pos rest = .fail) : NoWs rest := by
  rintro c cs rfl hs
  simp only [G.WHITESPACE, G.NEWLINE, run, stripPrefix] at h
  rcases hs with rfl | rfl | rfl | rfl <;> simp at h
  revert h
  cases cs with
  | nil => simp [stripPrefix]
  | cons d ds =>
    simp only [stripPrefix]
    by_cases hd : '\n' = d
    · subst hd; simp
    · simp [hd]

theorem newline_ok_of {skip a pos c cs} (h : c = '\n' ∨ c = '\r') :
    run skip G.NEWLINE a pos (c :: cs) ≠ .fail := by
  intro hf
  have : NoWs (c :: cs) := by
    apply ws_fail (skip := skip) (a := a) (pos := pos)
    rcases h with rfl | rfl <;> simpa [G.WHITESPACE, run, stripPrefix] using hf
  exact this c cs rfl (by rcases h with rfl | rfl <;> simp [IsSpace])

theorem wsStar_matches {skip T a pos c rest ps} (ha : a ≠ .nonAtomic)
    (h : Matches skip T (.star G.WHITESPACE) a pos c rest ps) :
    ps = [] ∧ (∀ t, Trivia t → Trivia (c ++ t)) ∧ NoWs rest := by
  refine star_atomic ha (fun _ c rest ps => ps = [] ∧ (∀ t, Trivia t → Trivia (c ++ t)) ∧ NoWs rest)
    ?_ ?_ h
  · intro pos rest hf
    exact ⟨rfl, fun t ht => ht, ws_fail hf⟩
  · intro pos c c' rest p p' hm ⟨hp, ht, hn⟩
    obtain ⟨_, rfl, h2⟩ := ws_matches hm
    exact ⟨by simp [hp], fun t h => by rw [List.append_assoc]; exact h2 _ (ht _ h), hn⟩

theorem matches_any_neg {skip T x a pos c rest ps} (ha : a ≠ .nonAtomic)
    (h : Matches skip T (.seq (.neg x) G.ANY) a pos c rest ps) :
    ∃ d, c = [d] ∧ ps = [] ∧ run skip x a pos (d :: rest) = .fail := by
  rw [seq_atomic ha] at h
  obtain ⟨c1, c2, p1, p2, rfl, rfl, ⟨rfl, rfl, h1⟩, d, rfl, -, rfl⟩ := h
  exact ⟨d, by simp, by simp, by simpa using h1⟩

/-- Body of a repetition `(!x ~ ANY)*` without skipping: at no position does `x` match, and at the
end `x` matches or the input is exhausted. -/
theorem until_matches {skip T x a pos c rest ps} (ha : a ≠ .nonAtomic)
    (hpos : ∀ p q i, run skip x a p i = .fail → run skip x a q i = .fail)
    (h : Matches skip T (.star (.seq (.neg x) G.ANY)) a pos c rest ps) :
    ps = [] ∧ (∀ i < c.length, run skip x a 0 ((c ++ rest).drop i) = .fail) ∧
      (run skip x a 0 rest ≠ .fail ∨ rest = []) := by
  refine star_atomic ha (fun _ c rest ps => ps = [] ∧
    (∀ i < c.length, run skip x a 0 ((c ++ rest).drop i) = .fail) ∧
      (run skip x a 0 rest ≠ .fail ∨ rest = [])) ?_ ?_ h
  · intro pos rest hf
    refine ⟨rfl, by simp, ?_⟩
    cases rest with
    | nil => exact .inr rfl
    | cons d ds =>
      left
      intro hx
      simp only [run, hpos 0 pos _ hx, seqRes] at hf
      cases a <;> simp_all [skipIf, G.ANY, run]
  · intro pos c c' rest p p' hm ⟨hp, hi, hr⟩
    obtain ⟨d, rfl, rfl, hd⟩ := matches_any_neg ha hm
    refine ⟨by simp [hp], ?_, hr⟩
    intro i hlt
    cases i with
    | zero => simpa using hpos _ 0 _ hd
    | succ i => simpa using hi i (by simpa using hlt)

theorem str_fail_iff {skip s a pos inp} :
    run skip (.str s) a pos inp = .fail ↔ ¬ s <+: inp := by
  simp only [run]
  constructor
  · intro h hp
    obtain ⟨r, rfl⟩ := hp
    have : stripPrefix s (s ++ r) = some r := by
      clear h; induction s with
      | nil => rfl
      | cons k ks ih => simp [stripPrefix, ih]
    simp [this] at h
  · intro h
    split
    · rename_i r hr
      exact absurd ⟨r, (stripPrefix_some hr).symm⟩ h
    · rfl

theorem str_pos {skip s a} : ∀ p q i, run skip (.str s) a p i = .fail → run skip (.str s) a q i = .fail := by
  intro p q i h; rw [str_fail_iff] at *; exact h

theorem not_infix_of {q v r : Str} (hq : q ≠ []) (h : ∀ i < v.length, ¬ q <+: (v ++ r).drop i) :
    ¬ q <:+: v := by
  rintro ⟨a, b, rfl⟩
  refine h a.length ?_ ?_
  · have : 0 < q.length := by cases q <;> simp_all
    simp; omega
  · simp

theorem comment_matches {skip T a pos c rest ps} (ha : a ≠ .nonAtomic)
    (h : Matches skip T G.COMMENT a pos c rest ps) :
    c ≠ [] ∧ ps = [] ∧ ∀ t, Trivia t → Trivia (c ++ t) := by
  rcases h with h | ⟨-, h⟩
  · simp only [G.single_line_comment] at h
    rw [seq_atomic ha] at h
    obtain ⟨c1, c2, p1, p2, rfl, rfl, ⟨rfl, rfl⟩, h2⟩ := h
    obtain ⟨rfl, hi, -⟩ := until_matches ha (by
      intro p q i h; simpa [G.NEWLINE, run] using h) h2
    refine ⟨by simp, rfl, fun t ht => ?_⟩
    rw [List.append_assoc]
    refine .line ?_ ht
    intro x hx
    obtain ⟨i, hlt, rfl⟩ := List.getElem_of_mem hx
    have := hi i hlt
    rw [List.drop_eq_getElem_cons (by simp; omega), List.getElem_append_left hlt] at this
    constructor <;> intro he <;> exact newline_ok_of (by simp [he]) this
  · simp only [G.multi_line_comment] at h
    rw [seq_atomic ha] at h
    obtain ⟨c1, c2, p1, p2, rfl, rfl, ⟨rfl, rfl⟩, h2⟩ := h
    rw [seq_atomic ha] at h2
    obtain ⟨c3, c4, p3, p4, rfl, rfl, h3, ⟨rfl, rfl⟩⟩ := h2
    obtain ⟨rfl, hi, -⟩ := until_matches ha str_pos h3
    refine ⟨by simp, rfl, fun t ht => ?_⟩
    simp only [str_fail_iff] at hi
    have := Trivia.block (not_infix_of (by simp) hi) ht
    simpa using this

theorem skip_sound : SkipSound G.skip (fun t rest => Trivia t ∧ NoWs rest) := by
  intro inp c r ps h
  have ha : Atomicity.atomic ≠ Atomicity.nonAtomic := by decide
  obtain ⟨rfl, hm⟩ := run_sound noSkip_sound _ _ _ _ _ _ _ h
  refine ⟨rfl, ?_⟩
  simp only [G.skipExpr] at hm
  rw [seq_atomic ha] at hm
  obtain ⟨c1, c2, p1, p2, rfl, rfl, h1, h2⟩ := hm
  obtain ⟨-, ht1, hn1⟩ := wsStar_matches ha h1
  have := star_atomic ha (fun _ c rest _ => Trivia c ∧ (c ≠ [] → NoWs rest)) (by
    intro pos rest _; exact ⟨.nil, by simp⟩) (by
    intro pos c c' rest p p' hm ⟨ht, hn⟩
    rw [seq_atomic ha] at hm
    obtain ⟨c1, c2, p1, p2, rfl, rfl, h1, h2⟩ := hm
    obtain ⟨_, -, hc⟩ := comment_matches ha h1
    obtain ⟨-, hw, hn'⟩ := wsStar_matches ha h2
    refine ⟨?_, ?_⟩
    · rw [List.append_assoc]; exact hc _ (hw _ ht)
    · intro _
      cases c' with
      | nil => simpa using hn'
      | cons x xs => exact hn (by simp)) h2
  refine ⟨ht1 _ this.1, ?_⟩
  cases c2 with
  | nil => simpa using hn1
  | cons x xs => exact this.2 (by simp)

end Dbml
