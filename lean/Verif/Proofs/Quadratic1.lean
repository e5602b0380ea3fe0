import Verif.Proofs.Cost
import Verif.Proofs.First
import Verif.Proofs.SkipExact

/-!
# Amortised bounds on the number of steps

A bound has a part per consumed character, a part per success, a part per failure, and an extra that is only
charged if what follows (after a success) or the text at hand (after a failure) satisfies a predicate. That predicate is used to
show that such an extra is charged at most once in a repetition.
-/

namespace Dbml

/-- A skipper with linear cost. -/
structure Sk where
  fn : Str → Res × Nat
  κ : Nat
  ok : ∀ i, ∃ c r, (fn i).1 = .ok c r [] ∧ i = c ++ r
  le : ∀ (N : Nat) (i : Str), i.length ≤ N → (fn i).2 ≤ κ * (N + 1)

/-- The result of a run. -/
abbrev Sk.run (s : Sk) (e : PExpr) (a : Atomicity) (pos : Nat) (inp : Str) : Res := Dbml.run (fun i => (s.fn i).1) e a pos inp
/-- The cost of a run. -/
abbrev Sk.cost (s : Sk) (e : PExpr) (a : Atomicity) (pos : Nat) (inp : Str) : Nat := (runC s.fn e a pos inp).2
/-- The result of skipping. -/
abbrev Sk.skip (s : Sk) (i : Str) : Res := (s.fn i).1

theorem Sk.sound (s : Sk) : SkipSound (fun i => (s.fn i).1) fun _ _ => True := by
  intro i c r ps h
  obtain ⟨c', r', h1, h2⟩ := s.ok i
  have h := h1.symm.trans h
  injection h with e1 e2 e3
  subst e1 e2
  exact ⟨h2, trivial⟩

theorem Sk.split (s : Sk) {e a pos inp c r ps} (h : s.run e a pos inp = .ok c r ps) : inp = c ++ r :=
  (run_sound s.sound _ _ _ _ _ _ _ h).1

/-- The skip between the parts of a sequence. -/
def Sk.κa (s : Sk) (a : Atomicity) (N : Nat) : Nat := if a = .nonAtomic then s.κ * (N + 1) else 0

theorem Sk.skipIf_ok (s : Sk) (a : Atomicity) (i : Str) :
    ∃ c r k, skipIfC s.fn a i = (.ok c r [], k) ∧ i = c ++ r ∧ (a = .nonAtomic → s.skip i = .ok c r []) ∧
      (a ≠ .nonAtomic → c = []) ∧ ∀ N, i.length ≤ N → k ≤ s.κa a N := by
  cases a with
  | nonAtomic =>
    obtain ⟨c, r, h, e⟩ := s.ok i
    refine ⟨c, r, (s.fn i).2, ?_, e, fun _ => h, by simp, fun N hN => ?_⟩
    · rw [skipIfC, ← h]
    · simpa [Sk.κa] using s.le N i hN
  | atomic => exact ⟨[], i, 0, rfl, rfl, by simp, by simp, by simp⟩
  | compound => exact ⟨[], i, 0, rfl, rfl, by simp, by simp, by simp⟩

/-- Where the second part of a sequence begins. -/
def Sk.Then (s : Sk) (a : Atomicity) (r1 c2 r2 : Str) : Prop :=
  r1 = c2 ++ r2 ∧ (a = .nonAtomic → s.skip r1 = .ok c2 r2 []) ∧ (a ≠ .nonAtomic → c2 = [])

theorem seqResC_cases (s : Sk) {a pos ra kb} {N : Nat} :
    (ra.1 = .fail ∧ (seqResC s.fn a pos ra kb) = (.fail, ra.2 + 1)) ∨
    (ra.1 = .diverge ∧ (seqResC s.fn a pos ra kb).1 = .diverge) ∨
    ∃ c1 r1 p1 c2 r2, ra.1 = .ok c1 r1 p1 ∧ s.Then a r1 c2 r2 ∧
      (r1.length ≤ N → (seqResC s.fn a pos ra kb).2 ≤ ra.2 + s.κa a N + (kb (pos + blen c1 + blen c2) r2).2 + 1) ∧
      (((kb (pos + blen c1 + blen c2) r2).1 = .fail ∧ (seqResC s.fn a pos ra kb).1 = .fail) ∨
       ((kb (pos + blen c1 + blen c2) r2).1 = .diverge ∧ (seqResC s.fn a pos ra kb).1 = .diverge) ∨
       ∃ c3 r3 p3, (kb (pos + blen c1 + blen c2) r2).1 = .ok c3 r3 p3 ∧
        (seqResC s.fn a pos ra kb).1 = .ok (c1 ++ c2 ++ c3) r3 (p1 ++ p3)) := by
  unfold seqResC
  cases hra : ra.1 with
  | fail => exact .inl ⟨rfl, rfl⟩
  | diverge => exact .inr (.inl ⟨rfl, rfl⟩)
  | ok c1 r1 p1 =>
    right; right
    obtain ⟨c2, r2, k, h1, h2, h3, h4, h5⟩ := s.skipIf_ok a r1
    refine ⟨c1, r1, p1, c2, r2, rfl, ⟨h2, h3, h4⟩, ?_, ?_⟩
    · intro hN
      have := h5 N hN
      simp only [h1]
      cases (kb (pos + blen c1 + blen c2) r2).1 <;> simp only <;> omega
    · simp only [h1]
      cases (kb (pos + blen c1 + blen c2) r2).1 with
      | fail => exact .inl ⟨rfl, rfl⟩
      | diverge => exact .inr (.inl ⟨rfl, rfl⟩)
      | ok c3 r3 p3 => exact .inr (.inr ⟨_, _, _, rfl, rfl⟩)

theorem seq_cost_ok (s : Sk) {x y a pos inp k r ps} {N : Nat} (hN : inp.length ≤ N) (h : s.run (.seq x y) a pos inp = .ok k r ps) :
    ∃ c1 r1 p1 c2 r2 c3 p3, s.run x a pos inp = .ok c1 r1 p1 ∧ s.Then a r1 c2 r2 ∧
      s.run y a (pos + blen c1 + blen c2) r2 = .ok c3 r p3 ∧ k = c1 ++ c2 ++ c3 ∧ inp = c1 ++ r1 ∧
      s.cost (.seq x y) a pos inp ≤ s.cost x a pos inp + s.κa a N + s.cost y a (pos + blen c1 + blen c2) r2 + 1 := by
  have h0 : (runC s.fn (.seq x y) a pos inp).1 = .ok k r ps := (runC_fst _ _ _ _ _).trans h
  have hx := runC_fst s.fn x a pos inp
  have hy := fun p i => runC_fst s.fn y a p i
  rcases seqResC_cases s (a := a) (pos := pos) (ra := runC s.fn x a pos inp) (kb := fun p i => runC s.fn y a p i) (N := N)
    with ⟨h1, h2⟩ | ⟨h1, h2⟩ | ⟨c1, r1, p1, c2, r2, h1, h2, h3, ⟨h4, h5⟩ | ⟨h4, h5⟩ | ⟨c3, r3, p3, h4, h5⟩⟩
  · rw [runC, h2] at h0; simp at h0
  · rw [runC, h2] at h0; simp at h0
  · rw [runC, h5] at h0; simp at h0
  · rw [runC, h5] at h0; simp at h0
  · rw [runC, h5] at h0
    injection h0 with e1 e2 e3
    subst e1 e2
    rw [hx] at h1
    have e := s.split h1
    refine ⟨c1, r1, p1, c2, r2, c3, p3, h1, h2, (hy _ _).symm.trans h4, rfl, e, ?_⟩
    exact h3 (by rw [e] at hN; simp at hN; omega)

theorem seq_cost_fail (s : Sk) {x y a pos inp} {N : Nat} (hN : inp.length ≤ N) (h : s.run (.seq x y) a pos inp = .fail) :
    (s.run x a pos inp = .fail ∧ s.cost (.seq x y) a pos inp = s.cost x a pos inp + 1) ∨
    ∃ c1 r1 p1 c2 r2, s.run x a pos inp = .ok c1 r1 p1 ∧ s.Then a r1 c2 r2 ∧
      s.run y a (pos + blen c1 + blen c2) r2 = .fail ∧ inp = c1 ++ r1 ∧
      s.cost (.seq x y) a pos inp ≤ s.cost x a pos inp + s.κa a N + s.cost y a (pos + blen c1 + blen c2) r2 + 1 := by
  have h0 : (runC s.fn (.seq x y) a pos inp).1 = .fail := (runC_fst _ _ _ _ _).trans h
  have hx := runC_fst s.fn x a pos inp
  have hy := fun p i => runC_fst s.fn y a p i
  rcases seqResC_cases s (a := a) (pos := pos) (ra := runC s.fn x a pos inp) (kb := fun p i => runC s.fn y a p i) (N := N)
    with ⟨h1, h2⟩ | ⟨h1, h2⟩ | ⟨c1, r1, p1, c2, r2, h1, h2, h3, ⟨h4, h5⟩ | ⟨h4, h5⟩ | ⟨c3, r3, p3, h4, h5⟩⟩
  · left
    refine ⟨by rw [← h1, hx], ?_⟩
    rw [Sk.cost, runC, h2]
  · rw [runC, h2] at h0; simp at h0
  · right
    rw [hx] at h1
    have e := s.split h1
    refine ⟨c1, r1, p1, c2, r2, h1, h2, (hy _ _).symm.trans h4, e, ?_⟩
    exact h3 (by rw [e] at hN; simp at hN; omega)
  · rw [runC, h5] at h0; simp at h0
  · rw [runC, h5] at h0; simp at h0

/-- The steps of a repetition: an extra is charged at most twice. -/
theorem loop_sum {step : Nat → Str → Res × Nat} {N A b E : Nat} {S T : Str → Prop}
    (hl : ∀ p i c r ps, (step p i).1 = .ok c r ps → i = c ++ r)
    (h1 : ∀ p (i : Str) c r ps, i.length ≤ N → c ≠ [] → (step p i).1 = .ok c r ps →
      (step p i).2 ≤ A * c.length ∨ (S r ∧ (step p i).2 ≤ A * c.length + E))
    (h2 : ∀ p (i : Str), i.length ≤ N → (step p i).1 = .fail → (step p i).2 ≤ b ∨ (T i ∧ (step p i).2 ≤ b + E))
    (h3 : ∀ p i, S i → (step p i).1 = .fail) :
    ∀ fuel p (i : Str) c r ps, i.length ≤ N → (repLoopC step fuel p i).1 = .ok c r ps →
      (repLoopC step fuel p i).2 ≤ (A + 1) * c.length + b + 1 ∨
      ((S r ∨ T r) ∧ (repLoopC step fuel p i).2 ≤ (A + 1) * c.length + b + 1 + 2 * E) := by
  intro fuel
  induction fuel with
  | zero => intro p i c r ps _ h; simp [repLoopC] at h
  | succ n ih =>
    intro p i c r ps hN h
    unfold repLoopC at h ⊢
    dsimp only at h ⊢
    cases hst : (step p i).1 with
    | fail =>
      simp only [hst] at h ⊢
      injection h with e1 e2 e3
      subst e1 e2
      rcases h2 p i hN hst with h4 | ⟨h4, h5⟩
      · left; simp; omega
      · right; exact ⟨.inr h4, by simp; omega⟩
    | diverge => simp [hst] at h
    | ok c1 r1 p1 =>
      cases c1 with
      | nil => simp [hst] at h
      | cons x xs =>
        simp only [hst] at h ⊢
        have hs := hl p i _ _ _ hst
        have hN1 : r1.length ≤ N := by rw [hs] at hN; simp at hN; omega
        cases ht : (repLoopC step n (p + blen (x :: xs)) r1).1 with
        | fail => simp [ht] at h
        | diverge => simp [ht] at h
        | ok c2 r2 p2 =>
          simp only [ht] at h ⊢
          injection h with e1 e2 e3
          subst e1 e2 e3
          have hA : (A + 1) * ((x :: xs) ++ c2).length = A * (x :: xs).length + (x :: xs).length + (A + 1) * c2.length := by
            rw [List.length_append, Nat.mul_add, Nat.add_mul]; omega
          have hpos : 1 ≤ (x :: xs).length := by simp
          rcases h1 p i _ _ _ hN (by simp) hst with h4 | ⟨h4, h5⟩
          · rcases ih _ _ _ _ _ hN1 ht with h6 | ⟨h6, h7⟩
            · left; omega
            · right; exact ⟨h6, by omega⟩
          · right
            have hf := h3 (p + blen (x :: xs)) r1 h4
            cases n with
            | zero => simp [repLoopC] at ht
            | succ n =>
              unfold repLoopC at ht ⊢
              dsimp only at ht ⊢
              simp only [hf] at ht ⊢
              injection ht with e4 e5 e6
              subst e4 e5 e6
              refine ⟨.inl h4, ?_⟩
              rcases h2 _ r1 hN1 hf with h8 | ⟨-, h8⟩ <;> simp only [List.length_nil, Nat.mul_zero] at hA <;> omega

end Dbml
