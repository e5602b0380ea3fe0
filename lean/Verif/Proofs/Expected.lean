import Verif.Model.Expected
import Verif.Spec.Expected
import Verif.Proofs.ErrorPos

/-!
# What a syntax error says was expected: proofs
-/

namespace Dbml
open Syntax Source Spec

/-! ## Every named rule in the grammar is the one of that name, and `!` is applied to plain expressions -/

/-- No named rule. -/
def plainExpr : PExpr → Bool
  | .str _ | .insens _ | .cls _ | .soi => true
  | .eoi => false
  | .seq a b | .alt a b => plainExpr a && plainExpr b
  | .opt a | .star a | .neg a => plainExpr a
  | .rule _ _ _ => false

/-- Operands of `!` contain no named rule, and no named rule occurs in an atomic one. -/
def negPlain : PExpr → Bool
  | .str _ | .insens _ | .cls _ | .soi | .eoi => true
  | .seq a b | .alt a b => negPlain a && negPlain b
  | .opt a | .star a => negPlain a
  | .neg a => plainExpr a
  | .rule _ m b => if m = .atomic then plainExpr b else negPlain b

/-- The simplifications of `attempt` and `expect` are justified for this grammar. -/
theorem schema_negPlain : negPlain G.schema = true := by decide

/-- All named rules inside are as defined. -/
def Defined : PExpr → Prop
  | .str _ | .insens _ | .cls _ | .soi | .eoi => True
  | .seq a b | .alt a b => Defined a ∧ Defined b
  | .opt a | .star a | .neg a => Defined a
  | .rule r m b => definition r = .rule r m b ∧ Defined b

theorem schema_defined : Defined G.schema := by
  simp only [G.schema, G.top_decl, Defined]
  repeat' first
    | exact trivial
    | rfl
    | apply And.intro

/-! ## The invariant -/

/-- The rules collected are not at the place; something was collected unless nothing has happened yet. -/
structure AInv (t : Str) (a : Attempts) : Prop where
  notAt : ∀ r ∈ a.rules, NotAt t a.pos r
  some : 0 < a.pos → a.rules ≠ []

theorem AInv.init (t : Str) : AInv t {} := ⟨by simp, by simp⟩

/-- The effect of a failed rule. -/
theorem Attempts.failed_cases (b a : Attempts) (r : Rule) (p : Nat) :
    (b.failed a r p = a ∧ a.pos = p ∧ a.rules ≠ []) ∨
    (∃ k, b.failed a r p = ⟨p, a.rules.take k ++ [r]⟩ ∧ p = a.pos) ∨
    (b.failed a r p = ⟨p, [r]⟩ ∧ a.pos < p) ∨ (b.failed a r p = a ∧ p < a.pos) := by
  unfold Attempts.failed Attempts.track
  split
  · rename_i h
    left
    by_cases hp : a.pos = p
    · refine ⟨rfl, hp, ?_⟩
      intro hn
      simp [Attempts.countAt, hn] at h
    · simp [Attempts.countAt, hp] at h
  · right
    dsimp only
    by_cases h1 : p = a.pos
    · left
      refine ⟨b.index p, ?_, h1⟩
      simp [h1]
    · rw [if_neg h1]
      by_cases h2 : a.pos < p
      · right; left
        simp [h2]
      · right; right
        rw [if_neg h2, if_neg h1]
        exact ⟨rfl, by omega⟩

theorem Attempts.failed_pos (b a : Attempts) (r : Rule) (p : Nat) : (b.failed a r p).pos = max a.pos p := by
  rcases Attempts.failed_cases b a r p with ⟨h, h1, -⟩ | ⟨k, h, h1⟩ | ⟨h, h1⟩ | ⟨h, h1⟩ <;> rw [h] <;>
    first | omega | (simp only; omega)

theorem Attempts.failed_some {t : Str} {b a : Attempts} {r : Rule} {p : Nat} (h : AInv t a) :
    (b.failed a r p).rules ≠ [] := by
  rcases Attempts.failed_cases b a r p with ⟨h', h1, h2⟩ | ⟨k, h', h1⟩ | ⟨h', h1⟩ | ⟨h', h1⟩ <;> rw [h']
  · exact h2
  · simp
  · simp
  · exact h.some (by omega)

theorem Attempts.failed_mem {b a : Attempts} {r x : Rule} {p : Nat} (h : x ∈ (b.failed a r p).rules) :
    (x ∈ a.rules ∧ (b.failed a r p).pos = a.pos) ∨ (x = r ∧ (b.failed a r p).pos = p) := by
  rcases Attempts.failed_cases b a r p with ⟨h', h1, h2⟩ | ⟨k, h', h1⟩ | ⟨h', h1⟩ | ⟨h', h1⟩ <;> rw [h'] at h ⊢
  · exact .inl ⟨h, rfl⟩
  · rcases List.mem_append.1 h with h | h
    · exact .inl ⟨List.mem_of_mem_take h, h1⟩
    · exact .inr ⟨by simpa using h, rfl⟩
  · exact .inr ⟨by simpa using h, rfl⟩
  · exact .inl ⟨h, rfl⟩

theorem AInv.failed {t : Str} {b a : Attempts} {r : Rule} {p : Nat} (h : AInv t a) (hn : NotAt t p r) :
    AInv t (b.failed a r p) := by
  refine ⟨fun x hx => ?_, fun _ => Attempts.failed_some h⟩
  rcases Attempts.failed_mem hx with ⟨h1, h2⟩ | ⟨rfl, h2⟩
  · rw [h2]; exact h.notAt x h1
  · rw [h2]; exact hn

/-- `pos` is the offset of the suffix `inp` of the text. -/
def Here (t : Str) (pos : Nat) (inp : Str) : Prop := ∃ u, t = u ++ inp ∧ pos = blen u

theorem Here.next {t pos c r} (h : Here t pos (c ++ r)) : Here t (pos + blen c) r := by
  obtain ⟨u, rfl, rfl⟩ := h
  exact ⟨u ++ c, by simp, by simp [blen_append]⟩

theorem expectNext_inv {t : Str} {at' pos ra kb a} (ha : AInv t a) (hr : ∀ c r ps, ra = .ok c r ps → Here t (pos + blen c) r)
    (hk : ∀ p i a, Here t p i → AInv t a → AInv t (kb p i a)) : AInv t (expectNext G.skip at' pos ra kb a) := by
  unfold expectNext
  split
  · rename_i c1 r1 p1
    split
    · rename_i c2 r2 p2 h2
      refine hk _ _ _ ?_ ha
      have := hr _ _ _ rfl
      rw [skipIf_split h2] at this
      exact this.next
    · exact ha
  · exact ha

theorem expectLoop_inv {t : Str} {step : Nat → Str → Res} {att : Nat → Str → Attempts → Attempts}
    (h1 : ∀ p i c r ps, step p i = .ok c r ps → i = c ++ r)
    (h2 : ∀ p i a, Here t p i → AInv t a → AInv t (att p i a)) :
    ∀ fuel p i a, Here t p i → AInv t a → AInv t (expectLoop step att fuel p i a)
  | 0, p, i, a, _, ha => ha
  | fuel + 1, p, i, a, hp, ha => by
    unfold expectLoop
    split
    · rename_i y ys r ps hs
      refine expectLoop_inv h1 h2 fuel _ _ _ ?_ (h2 _ _ _ hp ha)
      rw [h1 _ _ _ _ _ hs] at hp
      exact hp.next
    · exact h2 _ _ _ hp ha

theorem expect_inv {t : Str} : ∀ (e : PExpr), Defined e → ∀ at' pos inp a, Here t pos inp → AInv t a →
    AInv t (expect G.skip e at' pos inp a)
  | .str _, _, _, _, _, _, _, ha | .insens _, _, _, _, _, _, _, ha | .cls _, _, _, _, _, _, _, ha
  | .soi, _, _, _, _, _, _, ha | .neg _, _, _, _, _, _, _, ha => ha
  | .eoi, _, at', pos, inp, a, hp, ha => by
    unfold expect
    split
    · exact ha
    · rename_i hne
      split
      · exact ha
      · rename_i hat
        obtain ⟨u, h1, h2⟩ := hp
        refine ha.failed ⟨u, inp, at', h1, h2, hat, ?_⟩
        cases inp with
        | nil => exact absurd rfl hne
        | cons x xs => rfl
  | .seq e f, hd, at', pos, inp, a, hp, ha => by
    unfold expect
    refine expectNext_inv (expect_inv e hd.1 _ _ _ _ hp ha) (fun c r ps hr => ?_)
      fun p i a' hp' ha' => expect_inv f hd.2 _ _ _ _ hp' ha'
    rw [run_split hr] at hp
    exact hp.next
  | .alt e f, hd, at', pos, inp, a, hp, ha => by
    unfold expect
    split
    · exact expect_inv f hd.2 _ _ _ _ hp (expect_inv e hd.1 _ _ _ _ hp ha)
    · exact expect_inv e hd.1 _ _ _ _ hp ha
  | .opt e, hd, at', pos, inp, a, hp, ha => by
    unfold expect
    exact expect_inv e hd _ _ _ _ hp ha
  | .star e, hd, at', pos, inp, a, hp, ha => by
    unfold expect
    split
    · rename_i c r ps hr
      have hp' := hp
      rw [run_split hr] at hp'
      refine expectLoop_inv (fun p i c r ps h => stepOf_split h) ?_ _ _ _ _ hp'.next (expect_inv e hd _ _ _ _ hp ha)
      intro p i a hp ha
      refine expectNext_inv ha (fun c r ps hr => ?_) fun p i a' hp' ha' => expect_inv e hd _ _ _ _ hp' ha'
      cases hr
      exact hp
    · exact expect_inv e hd _ _ _ _ hp ha
  | .rule r m b, hd, at', pos, inp, a, hp, ha => by
    unfold expect
    have hb := expect_inv b hd.2 (bodyAtomicity m at') _ _ _ hp ha
    split
    · rename_i hf
      split
      · rename_i he
        refine hb.failed ?_
        obtain ⟨u, h1, h2⟩ := hp
        by_cases hm : m = .compound
        · subst hm
          refine ⟨u, inp, .compound, h1, h2, by simp, ?_⟩
          rw [hd.1, run]
          simp only [bodyAtomicity] at hf ⊢
          rw [hf]
        · refine ⟨u, inp, at', h1, h2, ?_, ?_⟩
          · cases m <;> simp_all [emits]
          · rw [hd.1, run, hf]
      · exact hb
    · exact hb

/-! ## The position agrees with `attempt` -/

theorem further_max (a b : Option Nat) (n : Nat) :
    max n ((further a b).getD 0) = max (max n (a.getD 0)) (b.getD 0) := by
  cases a <;> cases b <;> simp [further]

theorem expectNext_pos {at' pos ra kb katt} (a : Attempts)
    (hk : ∀ p i a, (kb p i a : Attempts).pos = max a.pos ((katt p i : Option Nat).getD 0)) :
    (expectNext G.skip at' pos ra kb a).pos = max a.pos ((attemptNext G.skip at' pos ra katt).getD 0) := by
  unfold expectNext attemptNext
  cases ra with
  | ok c1 r1 p1 =>
    dsimp only
    cases skipIf G.skip at' r1 with
    | ok c2 r2 p2 => exact hk _ _ _
    | fail => simp
    | diverge => simp
  | fail => simp
  | diverge => simp

theorem expectLoop_pos {step : Nat → Str → Res} {att : Nat → Str → Attempts → Attempts} {katt : Nat → Str → Option Nat}
    (h2 : ∀ p i a, (att p i a).pos = max a.pos ((katt p i).getD 0)) :
    ∀ fuel p i a, (expectLoop step att fuel p i a).pos = max a.pos ((attemptLoop step katt fuel p i).getD 0)
  | 0, p, i, a => by simp [expectLoop, attemptLoop]
  | fuel + 1, p, i, a => by
    unfold expectLoop attemptLoop
    cases step p i with
    | ok c r ps =>
      cases c with
      | nil => exact h2 _ _ _
      | cons y ys =>
        dsimp only
        rw [expectLoop_pos h2 fuel, h2, further_max]
    | fail => exact h2 _ _ _
    | diverge => exact h2 _ _ _

theorem expect_pos : ∀ (e : PExpr) at' pos inp a,
    (expect G.skip e at' pos inp a).pos = max a.pos ((attempt G.skip e at' pos inp).getD 0)
  | .str _, _, _, _, a | .insens _, _, _, _, a | .cls _, _, _, _, a | .soi, _, _, _, a | .neg _, _, _, _, a => by
    simp [expect, attempt]
  | .eoi, at', pos, inp, a => by
    unfold expect attempt
    split
    · simp
    · split
      · simp
      · simp [Attempts.failed_pos]
  | .seq e f, at', pos, inp, a => by
    unfold expect attempt
    rw [expectNext_pos _ fun p i a => expect_pos f at' p i a, further_max, expect_pos e]
  | .alt e f, at', pos, inp, a => by
    unfold expect attempt
    cases run G.skip e at' pos inp with
    | fail => dsimp only; rw [expect_pos f, expect_pos e, further_max]
    | ok c r ps => exact expect_pos e _ _ _ _
    | diverge => exact expect_pos e _ _ _ _
  | .opt e, at', pos, inp, a => by
    unfold expect attempt
    exact expect_pos e _ _ _ _
  | .star e, at', pos, inp, a => by
    unfold expect attempt
    cases run G.skip e at' pos inp with
    | ok c r ps =>
      dsimp only
      rw [expectLoop_pos (katt := fun p i => attemptNext G.skip at' p (.ok [] i []) fun p' i' => attempt G.skip e at' p' i'),
        expect_pos e, further_max]
      intro p i a
      exact expectNext_pos _ fun p i a => expect_pos e at' p i a
    | fail => exact expect_pos e _ _ _ _
    | diverge => exact expect_pos e _ _ _ _
  | .rule r m b, at', pos, inp, a => by
    unfold expect attempt
    cases run G.skip b (bodyAtomicity m at') pos inp with
    | fail =>
      dsimp only
      rw [further_max]
      split
      · rw [Attempts.failed_pos, expect_pos b]; simp
      · rw [expect_pos b]; simp
    | ok c r ps => exact expect_pos b _ _ _ _
    | diverge => exact expect_pos b _ _ _ _

/-! ## The result -/

/-- The state at the end. -/
def finalAttempts (t : Str) : Attempts := expect G.skip G.schema .nonAtomic 0 t {}

theorem finalAttempts_pos (t : Str) : (finalAttempts t).pos = syntaxErrorPos t := by
  unfold finalAttempts syntaxErrorPos
  rw [expect_pos]
  simp

theorem finalAttempts_inv (t : Str) : AInv t (finalAttempts t) :=
  expect_inv _ schema_defined _ _ _ _ ⟨[], rfl, rfl⟩ (AInv.init t)

theorem inOrder_complete (r : Rule) : r ∈ Rule.inOrder := by cases r <;> decide

theorem mem_expectedRules {t : Str} {r : Rule} : r ∈ expectedRules t ↔ r ∈ (finalAttempts t).rules := by
  simp [expectedRules, finalAttempts, inOrder_complete]

theorem expectedRules_some {t : Str} (h : pestParse t = .fail) : expectedRules t ≠ [] := by
  have : (finalAttempts t).rules ≠ [] := by
    unfold finalAttempts G.schema
    unfold pestParse G.schema at h
    rw [expect]
    rw [run] at h
    split at h
    · rename_i hb
      rw [show bodyAtomicity .normal .nonAtomic = .nonAtomic from rfl] at hb ⊢
      rw [hb]
      simp only [emits, ne_eq, reduceCtorEq, not_false_eq_true, decide_true, if_true]
      refine Attempts.failed_some (t := t) (expect_inv _ ?_ _ _ _ _ ⟨[], rfl, rfl⟩ (AInv.init t))
      exact schema_defined.2
    · cases h
    · cases h
  obtain ⟨r, hr⟩ := List.exists_mem_of_ne_nil _ this
  intro hn
  have := mem_expectedRules.2 hr
  rw [hn] at this
  cases this


/-! ## Where the reading of declarations stops -/

/-- What was collected at the offset `q`. -/
def Attempts.base (a : Attempts) (q : Nat) : List Rule := if a.pos = q then a.rules else []

theorem Attempts.failed_self {a : Attempts} {q : Nat} (h : a.pos ≤ q) (r : Rule) :
    a.failed a r q = ⟨q, a.base q ++ [r]⟩ := by
  unfold Attempts.failed Attempts.track Attempts.base
  rw [if_neg (by omega)]
  by_cases h1 : q = a.pos
  · subst h1
    simp [Attempts.index]
  · have h2 : a.pos < q := by omega
    simp [h1, h2, Ne.symm h1]

theorem Attempts.failed_two {a : Attempts} {q : Nat} (h : a.pos ≤ q) (x y r : Rule) :
    a.failed ⟨q, a.base q ++ [x, y]⟩ r q = ⟨q, a.base q ++ [r]⟩ := by
  unfold Attempts.failed Attempts.track Attempts.base
  by_cases h1 : a.pos = q
  · subst h1
    simp [Attempts.index, Attempts.countAt]
  · simp [Attempts.index, Attempts.countAt, h1, Ne.symm h1]

/-- Nothing is collected where `attempt` finds nothing. -/
theorem expectNext_none {at' pos ra kb} {katt : Nat → Str → Option Nat} {a : Attempts}
    (hk : ∀ p i, katt p i = none → kb p i a = a) (h : attemptNext G.skip at' pos ra katt = none) :
    expectNext G.skip at' pos ra kb a = a := by
  unfold expectNext
  unfold attemptNext at h
  cases ra with
  | ok c1 r1 p1 =>
    dsimp only at h ⊢
    cases hs : skipIf G.skip at' r1 with
    | ok c2 r2 p2 => rw [hs] at h; exact hk _ _ h
    | fail => rfl
    | diverge => rfl
  | fail => rfl
  | diverge => rfl

theorem further_none {a b : Option Nat} (h : further a b = none) : a = none ∧ b = none := by
  cases a <;> cases b <;> simp [further] at h ⊢

theorem expectLoop_none {step : Nat → Str → Res} {att : Nat → Str → Attempts → Attempts} {katt : Nat → Str → Option Nat}
    {a : Attempts} (h2 : ∀ p i, katt p i = none → att p i a = a) :
    ∀ fuel p i, attemptLoop step katt fuel p i = none → expectLoop step att fuel p i a = a
  | 0, p, i, _ => rfl
  | fuel + 1, p, i, h => by
    unfold expectLoop
    unfold attemptLoop at h
    cases hs : step p i with
    | ok c r ps =>
      rw [hs] at h
      cases c with
      | nil => exact h2 _ _ h
      | cons y ys =>
        dsimp only at h ⊢
        obtain ⟨h3, h4⟩ := further_none h
        rw [h2 _ _ h3]
        exact expectLoop_none h2 fuel _ _ h4
    | fail => rw [hs] at h; exact h2 _ _ h
    | diverge => rw [hs] at h; exact h2 _ _ h

theorem expect_none : ∀ (e : PExpr) at' pos inp a, attempt G.skip e at' pos inp = none →
    expect G.skip e at' pos inp a = a
  | .str _, _, _, _, a, _ | .insens _, _, _, _, a, _ | .cls _, _, _, _, a, _ | .soi, _, _, _, a, _
  | .neg _, _, _, _, a, _ => by simp [expect]
  | .eoi, at', pos, inp, a, h => by
    unfold attempt at h
    unfold expect
    cases inp with
    | nil => rfl
    | cons x xs =>
      dsimp only at h ⊢
      split at h
      · rename_i h1; rw [if_pos h1]
      · cases h
  | .seq e f, at', pos, inp, a, h => by
    unfold attempt at h
    unfold expect
    obtain ⟨h1, h2⟩ := further_none h
    rw [expect_none e _ _ _ _ h1]
    exact expectNext_none (fun p i => expect_none f at' p i a) h2
  | .alt e f, at', pos, inp, a, h => by
    unfold attempt at h
    unfold expect
    cases hr : run G.skip e at' pos inp with
    | fail =>
      rw [hr] at h
      obtain ⟨h1, h2⟩ := further_none h
      dsimp only
      rw [expect_none e _ _ _ _ h1]
      exact expect_none f _ _ _ _ h2
    | ok c r ps => rw [hr] at h; exact expect_none e _ _ _ _ h
    | diverge => rw [hr] at h; exact expect_none e _ _ _ _ h
  | .opt e, at', pos, inp, a, h => by
    unfold attempt at h
    unfold expect
    exact expect_none e _ _ _ _ h
  | .star e, at', pos, inp, a, h => by
    unfold attempt at h
    unfold expect
    cases hr : run G.skip e at' pos inp with
    | ok c r ps =>
      rw [hr] at h
      obtain ⟨h1, h2⟩ := further_none h
      dsimp only
      rw [expect_none e _ _ _ _ h1]
      refine expectLoop_none ?_ _ _ _ h2
      intro p i h3
      exact expectNext_none (fun p i => expect_none e at' p i a) h3
    | fail => rw [hr] at h; exact expect_none e _ _ _ _ h
    | diverge => rw [hr] at h; exact expect_none e _ _ _ _ h
  | .rule r m b, at', pos, inp, a, h => by
    unfold attempt at h
    unfold expect
    cases hr : run G.skip b (bodyAtomicity m at') pos inp with
    | fail =>
      rw [hr] at h
      obtain ⟨h1, h2⟩ := further_none h
      dsimp only
      rw [expect_none b _ _ _ _ h1]
      split
      · rename_i he; rw [if_pos he] at h2; cases h2
      · rfl
    | ok c r ps => rw [hr] at h; exact expect_none b _ _ _ _ h
    | diverge => rw [hr] at h; exact expect_none b _ _ _ _ h

theorem expect_grows (e : PExpr) (at' pos inp) (a : Attempts) : a.pos ≤ (expect G.skip e at' pos inp a).pos := by
  rw [expect_pos]; omega

/-- After a keyword attempts are further on. -/
theorem attempt_keyword {k : Str} {e : PExpr} {q : Nat} {s : Str} (hk : k ≠ []) :
    attempt G.skip (.insens k ~~ e) .nonAtomic q s = none ∨
    ∃ x, q < x ∧ attempt G.skip (.insens k ~~ e) .nonAtomic q s = some x := by
  cases h : attempt G.skip (.insens k ~~ e) .nonAtomic q s with
  | none => exact .inl rfl
  | some x =>
    refine .inr ⟨x, ?_, rfl⟩
    unfold attempt at h
    rw [show attempt G.skip (.insens k) .nonAtomic q s = none from rfl,
      show ∀ y, further none y = y from fun y => rfl] at h
    unfold attemptNext at h
    cases hr : run G.skip (.insens k) .nonAtomic q s with
    | fail => rw [hr] at h; cases h
    | diverge => rw [hr] at h; cases h
    | ok c r ps =>
      rw [hr] at h
      dsimp only at h
      have hc : c ≠ [] := nonNull_consumes (.insens k) (by cases k <;> simp_all [PExpr.nonNull])
        (run_sound gskip_sound _ _ _ _ _ _ _ hr).2
      cases hs : skipIf G.skip .nonAtomic r with
      | fail => rw [hs] at h; cases h
      | diverge => rw [hs] at h; cases h
      | ok c2 r2 p2 =>
        rw [hs] at h
        obtain ⟨u, v, -, rfl⟩ := attempt_inside _ _ _ _ _ h
        have : 0 < blen c := by
          cases c with
          | nil => exact absurd rfl hc
          | cons y ys =>
            have := Char.utf8Size_pos y
            simp only [blen, List.map_cons, List.sum_cons]; omega
        omega

/-- A rule that fails. -/
theorem expect_rule_fail {rl : Rule} {b : PExpr} {q : Nat} {s : Str} {a : Attempts}
    (hf : run G.skip b .nonAtomic q s = .fail) :
    expect G.skip (.rule rl .normal b) .nonAtomic q s a = a.failed (expect G.skip b .nonAtomic q s a) rl q := by
  rw [expect, show bodyAtomicity .normal .nonAtomic = .nonAtomic from rfl, hf]
  rfl

/-- A rule that begins with a keyword and fails without attempts further on is itself collected. -/
theorem expect_keyword {rl : Rule} {k : Str} {e : PExpr} {q : Nat} {s : Str} {a : Attempts} (hk : k ≠ [])
    (hf : run G.skip (.rule rl .normal (.insens k ~~ e)) .nonAtomic q s = .fail)
    (hp : (expect G.skip (.rule rl .normal (.insens k ~~ e)) .nonAtomic q s a).pos ≤ q) :
    expect G.skip (.rule rl .normal (.insens k ~~ e)) .nonAtomic q s a = ⟨q, a.base q ++ [rl]⟩ := by
  have hf' : run G.skip (.insens k ~~ e) .nonAtomic q s = .fail := by
    rw [run] at hf
    split at hf
    · assumption
    · cases hf
    · cases hf
  have heq : expect G.skip (.rule rl .normal (.insens k ~~ e)) .nonAtomic q s a =
      a.failed (expect G.skip (.insens k ~~ e) .nonAtomic q s a) rl q := expect_rule_fail hf'
  rw [heq] at hp ⊢
  rw [Attempts.failed_pos] at hp
  rcases attempt_keyword (e := e) (q := q) (s := s) hk with h | ⟨x, hx, h⟩
  · rw [expect_none _ _ _ _ _ h] at hp ⊢
    exact Attempts.failed_self (by omega) rl
  · exfalso
    rw [expect_pos, h] at hp
    simp at hp
    omega

theorem rule_fail_inv {rl e q s} (hf : run G.skip (.rule rl .normal e) .nonAtomic q s = .fail) :
    run G.skip e .nonAtomic q s = .fail := by
  rw [run] at hf
  split at hf
  · assumption
  · cases hf
  · cases hf

theorem alt_fail_inv {e f q s} (hf : run G.skip (.alt e f) .nonAtomic q s = .fail) :
    run G.skip e .nonAtomic q s = .fail ∧ run G.skip f .nonAtomic q s = .fail := by
  rw [run] at hf
  split at hf
  · exact ⟨by assumption, hf⟩
  · rename_i h; exact absurd hf h

theorem expect_alt_fail {e f q s} {a : Attempts} (hf : run G.skip e .nonAtomic q s = .fail) :
    expect G.skip (.alt e f) .nonAtomic q s a = expect G.skip f .nonAtomic q s (expect G.skip e .nonAtomic q s a) := by
  rw [expect, hf]

/-- The same for a choice of two such rules. -/
theorem expect_keyword_two {rl r1 r2 : Rule} {k1 k2 : Str} {e1 e2 : PExpr} {q : Nat} {s : Str} {a : Attempts}
    (hk1 : k1 ≠ []) (hk2 : k2 ≠ [])
    (hf : run G.skip (.rule rl .normal (.alt (.rule r1 .normal (.insens k1 ~~ e1)) (.rule r2 .normal (.insens k2 ~~ e2))))
      .nonAtomic q s = .fail)
    (hp : (expect G.skip (.rule rl .normal
      (.alt (.rule r1 .normal (.insens k1 ~~ e1)) (.rule r2 .normal (.insens k2 ~~ e2)))) .nonAtomic q s a).pos ≤ q) :
    expect G.skip (.rule rl .normal
      (.alt (.rule r1 .normal (.insens k1 ~~ e1)) (.rule r2 .normal (.insens k2 ~~ e2)))) .nonAtomic q s a =
      ⟨q, a.base q ++ [rl]⟩ := by
  have hf' := rule_fail_inv hf
  obtain ⟨h1, h2⟩ := alt_fail_inv hf'
  have heq : expect G.skip (.rule rl .normal
      (.alt (.rule r1 .normal (.insens k1 ~~ e1)) (.rule r2 .normal (.insens k2 ~~ e2)))) .nonAtomic q s a =
      a.failed (expect G.skip (.rule r2 .normal (.insens k2 ~~ e2)) .nonAtomic q s
        (expect G.skip (.rule r1 .normal (.insens k1 ~~ e1)) .nonAtomic q s a)) rl q := by
    rw [expect_rule_fail hf', expect_alt_fail h1]
  rw [heq] at hp ⊢
  rw [Attempts.failed_pos] at hp
  have g2 := expect_grows (.rule r2 .normal (.insens k2 ~~ e2)) .nonAtomic q s
    (expect G.skip (.rule r1 .normal (.insens k1 ~~ e1)) .nonAtomic q s a)
  have g1 := expect_grows (.rule r1 .normal (.insens k1 ~~ e1)) .nonAtomic q s a
  rw [expect_keyword hk2 h2 (by omega), expect_keyword hk1 h1 (by omega)]
  have : (⟨q, a.base q ++ [r1]⟩ : Attempts).base q ++ [r2] = a.base q ++ [r1, r2] := by simp [Attempts.base]
  rw [this]
  exact Attempts.failed_two (by omega) _ _ _

/-- The declarations a text can have. -/
def declRules : List Rule := [.project_decl, .table_decl, .enum_decl, .ref_decl, .table_group_decl, .note_decl]

/-- No declaration, and no attempts further on: all kinds of declarations are collected. -/
theorem expect_top {q : Nat} {s : Str} {a : Attempts} (hf : run G.skip G.top_decl .nonAtomic q s = .fail)
    (hp : (expect G.skip G.top_decl .nonAtomic q s a).pos ≤ q) :
    expect G.skip G.top_decl .nonAtomic q s a = ⟨q, a.base q ++ declRules⟩ := by
  unfold G.top_decl at hf hp ⊢
  obtain ⟨f1, hf⟩ := alt_fail_inv hf
  obtain ⟨f2, hf⟩ := alt_fail_inv hf
  obtain ⟨f3, hf⟩ := alt_fail_inv hf
  obtain ⟨f4, hf⟩ := alt_fail_inv hf
  obtain ⟨f5, f6⟩ := alt_fail_inv hf
  rw [expect_alt_fail f1, expect_alt_fail f2, expect_alt_fail f3, expect_alt_fail f4, expect_alt_fail f5] at hp ⊢
  have g1 := expect_grows G.project_decl .nonAtomic q s a
  generalize h1 : expect G.skip G.project_decl .nonAtomic q s a = a1 at hp g1 ⊢
  have g2 := expect_grows G.table_decl .nonAtomic q s a1
  generalize h2 : expect G.skip G.table_decl .nonAtomic q s a1 = a2 at hp g2 ⊢
  have g3 := expect_grows G.enum_decl .nonAtomic q s a2
  generalize h3 : expect G.skip G.enum_decl .nonAtomic q s a2 = a3 at hp g3 ⊢
  have g4 := expect_grows G.ref_decl .nonAtomic q s a3
  generalize h4 : expect G.skip G.ref_decl .nonAtomic q s a3 = a4 at hp g4 ⊢
  have g5 := expect_grows G.table_group_decl .nonAtomic q s a4
  generalize h5 : expect G.skip G.table_group_decl .nonAtomic q s a4 = a5 at hp g5 ⊢
  have g6 := expect_grows G.note_decl .nonAtomic q s a5
  have e1 : a1 = ⟨q, a.base q ++ [.project_decl]⟩ := h1.symm.trans
    (expect_keyword (by decide) f1 (Nat.le_trans (Nat.le_of_eq (congrArg Attempts.pos h1)) (by omega)))
  have e2 : a2 = ⟨q, a1.base q ++ [.table_decl]⟩ := h2.symm.trans
    (expect_keyword (by decide) f2 (Nat.le_trans (Nat.le_of_eq (congrArg Attempts.pos h2)) (by omega)))
  have e3 : a3 = ⟨q, a2.base q ++ [.enum_decl]⟩ := h3.symm.trans
    (expect_keyword (by decide) f3 (Nat.le_trans (Nat.le_of_eq (congrArg Attempts.pos h3)) (by omega)))
  have e4 : a4 = ⟨q, a3.base q ++ [.ref_decl]⟩ := h4.symm.trans
    (expect_keyword_two (by decide) (by decide) f4
      (Nat.le_trans (Nat.le_of_eq (congrArg Attempts.pos h4)) (by omega)))
  have e5 : a5 = ⟨q, a4.base q ++ [.table_group_decl]⟩ := h5.symm.trans
    (expect_keyword (by decide) f5 (Nat.le_trans (Nat.le_of_eq (congrArg Attempts.pos h5)) (by omega)))
  have e6 : expect G.skip G.note_decl .nonAtomic q s a5 = ⟨q, a5.base q ++ [.note_decl]⟩ :=
    expect_keyword_two (by decide) (by decide) f6 hp
  refine e6.trans ?_
  rw [e5, e4, e3, e2, e1]
  simp [Attempts.base, declRules]

theorem expectLoop_last {step : Nat → Str → Res} {att : Nat → Str → Attempts → Attempts} :
    ∀ fuel p i c r ps a, repLoop step fuel p i = .ok c r ps →
      ∃ a', expectLoop step att fuel p i a = att (p + blen c) r a' ∧ step (p + blen c) r = .fail
  | 0, p, i, c, r, ps, a, h => by simp [repLoop] at h
  | fuel + 1, p, i, c, r, ps, a, h => by
    unfold repLoop at h
    unfold expectLoop
    cases hs : step p i with
    | fail => rw [hs] at h; cases h; exact ⟨a, by simp, by simpa using hs⟩
    | diverge => rw [hs] at h; cases h
    | ok c1 r1 p1 =>
      rw [hs] at h
      cases c1 with
      | nil => simp at h
      | cons y ys =>
        dsimp only at h ⊢
        cases hr : repLoop step fuel (p + blen (y :: ys)) r1 with
        | fail => simp [hr] at h
        | diverge => simp [hr] at h
        | ok c2 r2 p2 =>
          simp only [hr] at h
          cases h
          obtain ⟨a', h1, h2⟩ := expectLoop_last fuel _ _ _ _ _ (att p i a) hr
          refine ⟨a', ?_, ?_⟩
          · rw [h1, blen_append]; congr 1; omega
          · rw [blen_append, ← Nat.add_assoc]; exact h2

/-- The last attempt of a repetition is that of its body, after the skip. -/
theorem expect_star_last {e : PExpr} {pos s c r ps w1 r2} {a : Attempts} (hs : Solid s)
    (h : run G.skip (.star e) .nonAtomic pos s = .ok c r ps) (h3 : G.skip r = .ok w1 r2 []) :
    ∃ a', expect G.skip (.star e) .nonAtomic pos s a = expect G.skip e .nonAtomic (pos + blen c + blen w1) r2 a' ∧
      run G.skip e .nonAtomic (pos + blen c + blen w1) r2 = .fail := by
  rw [run] at h
  rw [expect]
  cases hr : run G.skip e .nonAtomic pos s with
  | fail =>
    rw [hr] at h
    cases h
    rw [skip_solid hs] at h3
    cases h3
    exact ⟨a, by simp, by simpa using hr⟩
  | diverge => rw [hr] at h; cases h
  | ok c1 r1 p1 =>
    rw [hr] at h
    dsimp only at h ⊢
    split at h
    · rename_i c2 r2' p2 hl
      cases h
      obtain ⟨a', h1, h2⟩ := expectLoop_last (att := fun p i => expectNext G.skip .nonAtomic p (.ok [] i []) fun p' i' =>
        expect G.skip e .nonAtomic p' i') _ _ _ _ _ _ (expect G.skip e .nonAtomic pos s a) hl
      refine ⟨a', ?_, ?_⟩
      · rw [h1]
        simp only [expectNext, skipIf, h3, blen_append]
        congr 1
        simp
        omega
      · simp only [seqRes, skipIf, h3] at h2
        rw [blen_append]
        rw [show pos + (blen c1 + blen c2) + blen w1 = pos + blen c1 + blen c2 + blen [] + blen w1 by simp; omega]
        split at h2
        · assumption
        · cases h2
        · cases h2
    · cases h
    · cases h

/-- If the error is where the reading of declarations stops, everything that could come there is listed. -/
theorem expected_stop {t w r c r1 ps w1 x xs} (h1 : G.skip t = .ok w r [])
    (h2 : run G.skip (.star G.top_decl) .nonAtomic (blen w) r = .ok c r1 ps) (h3 : G.skip r1 = .ok w1 (x :: xs) [])
    (hp : syntaxErrorPos t = blen w + blen c + blen w1) (h0 : 0 < syntaxErrorPos t) :
    ∃ base, (finalAttempts t).rules = base ++ declRules ++ [.EOI] := by
  have e0 : run G.skip .soi .nonAtomic 0 t = .ok [] t [] := by simp [run]
  have hpos := finalAttempts_pos t
  have hfail : run G.skip (.soi ~~ .star G.top_decl ~~ .eoi) .nonAtomic 0 t = .fail := by
    rw [run, e0]
    simp only [seqRes, skipIf, h1]
    rw [run, show 0 + blen [] + blen w = blen w by simp, h2]
    simp [seqRes, skipIf, h3, run]
  obtain ⟨a', ha', hf⟩ := expect_star_last (a := {}) (skip_exact _ _ _ _ h1).2.solid h2 h3
  have hb : expect G.skip (.soi ~~ .star G.top_decl ~~ .eoi) .nonAtomic 0 t {} =
      (expect G.skip G.top_decl .nonAtomic (blen w + blen c + blen w1) (x :: xs) a').failed
        (expect G.skip G.top_decl .nonAtomic (blen w + blen c + blen w1) (x :: xs) a') .EOI
        (blen w + blen c + blen w1) := by
    rw [expect, e0]
    simp only [expectNext, skipIf, h1]
    rw [show 0 + blen [] + blen w = blen w by simp, show expect G.skip .soi .nonAtomic 0 t {} = {} from rfl, expect, h2]
    simp only [expectNext, skipIf, h3, ha']
    simp [expect]
  have hfin : finalAttempts t = (({} : Attempts).failed
      (expect G.skip (.soi ~~ .star G.top_decl ~~ .eoi) .nonAtomic 0 t {}) .schema 0) :=
    expect_rule_fail hfail
  rw [hb] at hfin
  generalize hq : blen w + blen c + blen w1 = q at *
  have hle : (expect G.skip G.top_decl .nonAtomic q (x :: xs) a').pos ≤ q := by
    rw [hfin, Attempts.failed_pos, Attempts.failed_pos] at hpos
    omega
  rw [expect_top hf hle] at hfin
  rw [Attempts.failed_self (Nat.le_refl q)] at hfin
  have : finalAttempts t = ⟨q, a'.base q ++ declRules ++ [.EOI]⟩ := by
    rw [hfin]
    unfold Attempts.failed Attempts.track
    have hq0 : q ≠ 0 := by omega
    simp [Attempts.countAt, Attempts.base, hq0, Ne.symm hq0]
  exact ⟨a'.base q, by rw [this]⟩

end Dbml
