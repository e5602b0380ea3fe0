import Verif.Model.Expected
import Verif.Proofs.Expected

/-!
# pest's optimizer does not change what the grammar means

`pest_derive` does not compile `/repo/src/dbml.pest` as written: `pest_meta`'s optimizer rewrites it first. Of its passes,
three apply to this grammar: *rotation* (sequences and choices are associated to the right), *unrolling* (`x+`, `x{3}`,
`x{1,2}`) and *skipping* (`(!"x" ~ ANY)*` in an `@` rule becomes one search for `"x"`, `ParserState::skip_until`).
`Model/Grammar.lean` is written in rotated and unrolled, but not in skipped form. The theorems here say that rotation and
skipping do not matter: neither for the outcome, nor for where an error is reported, nor for what is reported as expected.
-/

namespace Dbml

/-- Rotation of a sequence: the outcome. -/
theorem run_seq_assoc (sk : Str → Res) (e f g : PExpr) (a : Atomicity) (pos : Nat) (s : Str) :
    run sk (.seq (.seq e f) g) a pos s = run sk (.seq e (.seq f g)) a pos s := by
  simp only [run, seqRes]
  cases run sk e a pos s with
  | fail => rfl
  | diverge => rfl
  | ok c1 r1 p1 =>
    simp only
    cases skipIf sk a r1 with
    | fail => rfl
    | diverge => rfl
    | ok c2 r2 p2 =>
      simp only
      cases run sk f a (pos + blen c1 + blen c2) r2 with
      | fail => rfl
      | diverge => rfl
      | ok c3 r3 p3 =>
        simp only
        cases skipIf sk a r3 with
        | fail => rfl
        | diverge => rfl
        | ok c4 r4 p4 =>
          simp only [blen_append, Nat.add_assoc]
          cases run sk g a (pos + (blen c1 + (blen c2 + (blen c3 + blen c4)))) r4 <;> simp

/-- Rotation of a choice: the outcome. -/
theorem run_alt_assoc (sk : Str → Res) (e f g : PExpr) (a : Atomicity) (pos : Nat) (s : Str) :
    run sk (.alt (.alt e f) g) a pos s = run sk (.alt e (.alt f g)) a pos s := by
  simp only [run]
  cases run sk e a pos s <;> rfl

/-- Rotation of a sequence: what is tracked. -/
theorem expect_seq_assoc (sk : Str → Res) (e f g : PExpr) (a : Atomicity) (pos : Nat) (s : Str) (t : Attempts) :
    expect sk (.seq (.seq e f) g) a pos s t = expect sk (.seq e (.seq f g)) a pos s t := by
  simp only [expect, run, seqRes, expectNext]
  cases run sk e a pos s with
  | fail => rfl
  | diverge => rfl
  | ok c1 r1 p1 =>
    simp only
    cases skipIf sk a r1 with
    | fail => rfl
    | diverge => rfl
    | ok c2 r2 p2 =>
      simp only
      cases run sk f a (pos + blen c1 + blen c2) r2 with
      | fail => rfl
      | diverge => rfl
      | ok c3 r3 p3 =>
        simp only
        cases skipIf sk a r3 with
        | fail => rfl
        | diverge => rfl
        | ok c4 r4 p4 => simp only [blen_append, Nat.add_assoc]

/-- Rotation of a choice: what is tracked. -/
theorem expect_alt_assoc (sk : Str → Res) (e f g : PExpr) (a : Atomicity) (pos : Nat) (s : Str) (t : Attempts) :
    expect sk (.alt (.alt e f) g) a pos s t = expect sk (.alt e (.alt f g)) a pos s t := by
  simp only [expect, run]
  cases run sk e a pos s <;> rfl

/-- The text up to the first place at which one of the words stands, or all of it; and what is left.
`ParserState::skip_until` (pest runtime behind `/repo/src/parser/mod.rs:57-58`). -/
def skipUntil (words : List Str) : Str → Str × Str
  | [] => ([], [])
  | c :: s =>
    if words.any fun w => w.isPrefixOf (c :: s) then ([], c :: s)
    else let r := skipUntil words s; (c :: r.1, r.2)

theorem stripPrefix_isPrefixOf (w s : Str) : (stripPrefix w s).isSome = w.isPrefixOf s := by
  induction w generalizing s with
  | nil => simp [stripPrefix]
  | cons c w ih =>
    cases s with
    | nil => simp [stripPrefix]
    | cons d s =>
      simp only [stripPrefix, List.isPrefixOf]
      by_cases h : c = d
      · simp [h, ih]
      · simp [h]

theorem skipUntil_split (ws : List Str) (s : Str) : (skipUntil ws s).1 ++ (skipUntil ws s).2 = s := by
  induction s with
  | nil => rfl
  | cons c s ih =>
    simp only [skipUntil]
    split
    · rfl
    · simpa using ih

theorem until_step (sk : Str → Res) (w : Str) (hw : w ≠ []) (pos : Nat) (s : Str) :
    run sk (.seq (.neg (.str w)) G.ANY) .atomic pos s =
      match s with
      | [] => .fail
      | c :: t => if w.isPrefixOf (c :: t) then .fail else .ok [c] t [] := by
  simp only [run, seqRes, skipIf, G.ANY]
  have hp := stripPrefix_isPrefixOf w s
  cases hs : stripPrefix w s with
  | some r =>
    rw [hs] at hp
    cases s with
    | nil => cases w <;> simp [stripPrefix] at hs hw
    | cons c t => simp [← hp]
  | none =>
    rw [hs] at hp
    cases s with
    | nil => simp
    | cons c t => simp [← hp]

theorem until_loop (sk : Str → Res) (w : Str) (hw : w ≠ []) : ∀ (fuel pos : Nat) (s : Str), s.length < fuel →
    repLoop (fun p i => seqRes sk .atomic p (.ok [] i []) (fun p' i' => run sk (.seq (.neg (.str w)) G.ANY) .atomic p' i'))
      fuel pos s = .ok (skipUntil [w] s).1 (skipUntil [w] s).2 []
  | 0, _, _, h => absurd h (Nat.not_lt_zero _)
  | fuel + 1, pos, s, h => by
    have hst : ∀ t, seqRes sk .atomic pos (.ok [] t []) (fun p' i' => run sk (.seq (.neg (.str w)) G.ANY) .atomic p' i') =
        run sk (.seq (.neg (.str w)) G.ANY) .atomic pos t := by
      intro t
      simp only [seqRes, skipIf, show pos + blen [] + blen [] = pos from rfl]
      cases run sk (.seq (.neg (.str w)) G.ANY) .atomic pos t <;> simp
    rw [repLoop, hst, until_step sk w hw]
    cases s with
    | nil => simp [skipUntil]
    | cons c t =>
      by_cases hp : w.isPrefixOf (c :: t) = true
      · simp [skipUntil, hp]
      · simp only [hp, Bool.false_eq_true, if_false]
        rw [until_loop sk w hw fuel (pos + blen [c]) t (by simpa using h)]
        simp [skipUntil, hp]

/-- Skipping: a repetition of "anything that is not the beginning of `w`" finds the first `w`. -/
theorem run_skipUntil (sk : Str → Res) (w : Str) (hw : w ≠ []) (pos : Nat) (s : Str) :
    run sk (.star (.seq (.neg (.str w)) G.ANY)) .atomic pos s = .ok (skipUntil [w] s).1 (skipUntil [w] s).2 [] := by
  rw [run, until_step sk w hw]
  cases s with
  | nil => simp [skipUntil]
  | cons c t =>
    by_cases hp : w.isPrefixOf (c :: t) = true
    · simp [skipUntil, hp]
    · simp only [hp, Bool.false_eq_true, if_false]
      rw [until_loop sk w hw _ _ _ (Nat.lt_succ_self _)]
      simp [skipUntil, hp]

/-- Skipping: nothing is tracked in either form. -/
theorem expect_skipUntil (sk : Str → Res) (w : Str) (pos : Nat) (s : Str) (t : Attempts) :
    expect sk (.star (.seq (.neg (.str w)) G.ANY)) .atomic pos s t = t := by
  have h0 : ∀ p i, expect sk (.seq (.neg (.str w)) G.ANY) .atomic p i t = t := by
    intro p i
    simp only [expect, expectNext, G.ANY]
    cases run sk (.neg (.str w)) .atomic p i with
    | ok c r ps => cases skipIf sk .atomic r <;> rfl
    | _ => rfl
  have h1 : ∀ fuel p i, expectLoop (fun p i => seqRes sk .atomic p (.ok [] i []) (fun p' i' => run sk (.seq (.neg (.str w)) G.ANY) .atomic p' i'))
      (fun p i => expectNext sk .atomic p (.ok [] i []) fun p' i' => expect sk (.seq (.neg (.str w)) G.ANY) .atomic p' i') fuel p i t = t := by
    intro fuel
    induction fuel with
    | zero => intros; rfl
    | succ n ih =>
      intro p i
      have h2 : expectNext sk .atomic p (.ok [] i []) (fun p' i' => expect sk (.seq (.neg (.str w)) G.ANY) .atomic p' i') t = t := by
        simp only [expectNext, skipIf]
        exact h0 _ _
      rw [expectLoop]
      split
      · rw [h2]; exact ih _ _
      · exact h2
  rw [expect]
  split
  · rw [h0]; exact h1 _ _ _
  · exact h0 _ _

/-- The search, applied: a quoted string ends at the first quote. -/
example : skipUntil [k!"'''"] k!"a'b''c'''d'''" = (k!"a'b''c", k!"'''d'''") := by decide

end Dbml
