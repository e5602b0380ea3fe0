import Verif.Proofs.Expected
import Verif.Proofs.Invert1

/-!
# Where rules are tried, independently of offsets

`Tried R e a s v`: while running `e` on `s`, the named rule `R` was tried, and failed, at the suffix `v`.
-/

namespace Dbml.Vp
open Syntax Source

variable {R : Rule}

/-- `e` succeeds on `s`, consumes `c` and leaves `r`. -/
def Rn (e : PExpr) (a : Atomicity) (s c r : Str) : Prop := ∀ pos, ∃ ps, run G.skip e a pos s = .ok c r ps
/-- `e` fails on `s`. -/
def Fl (e : PExpr) (a : Atomicity) (s : Str) : Prop := ∀ pos, run G.skip e a pos s = .fail

theorem Rn.of {e : PExpr} (h : e.noSoi = true) {a pos s c r ps} (hr : run G.skip e a pos s = .ok c r ps) : Rn e a s c r := by
  intro p
  have := run_sm G.skip e h a pos p s
  rw [hr] at this
  cases hh : run G.skip e a p s <;> rw [hh] at this <;> cases this
  exact ⟨_, rfl⟩

theorem Fl.of {e : PExpr} (h : e.noSoi = true) {a pos s} (hr : run G.skip e a pos s = .fail) : Fl e a s := by
  intro p
  have := run_sm G.skip e h a pos p s
  rw [hr] at this
  cases hh : run G.skip e a p s <;> rw [hh] at this <;> first | rfl | cases this

theorem Rn.split {e a s c r} (h : Rn e a s c r) : s = c ++ r := by
  obtain ⟨ps, h⟩ := h 0
  exact run_split h

theorem Rn.not_fl {e a s c r} (h : Rn e a s c r) : ¬ Fl e a s := by
  intro h'
  obtain ⟨ps, h⟩ := h 0
  rw [h' 0] at h
  cases h

theorem Rn.det {e a s c r c' r'} (h : Rn e a s c r) (h' : Rn e a s c' r') : c' = c ∧ r' = r := by
  obtain ⟨ps, h⟩ := h 0
  obtain ⟨ps', h'⟩ := h' 0
  rw [h] at h'
  injection h' with h1 h2
  exact ⟨h1.symm, h2.symm⟩

theorem rn_or_fl {e : PExpr} (hn : e.noSoi = true) (hw : e.wf = true) (a s) : (∃ c r, Rn e a s c r) ∨ Fl e a s := by
  cases h : run G.skip e a 0 s with
  | ok c r ps => exact .inl ⟨c, r, .of hn h⟩
  | fail => exact .inr (.of hn h)
  | diverge => exact absurd h (run_no_diverge hw _ _ _)

theorem Rn.ne {e : PExpr} (hn : e.nonNull = true) {a s c r} (h : Rn e a s c r) : c ≠ [] := by
  obtain ⟨ps, h⟩ := h 0
  exact nonNull_consumes e hn (run_sound gskip_sound _ _ _ _ _ _ _ h).2

inductive Tried (R : Rule) : PExpr → Atomicity → Str → Str → Prop
  | eoi {a s} : R = .EOI → a ≠ .atomic → s ≠ [] → Tried R .eoi a s s
  | seqL {x y a s v} : Tried R x a s v → Tried R (.seq x y) a s v
  | seqR {x y a s c r g r2 q v} : Rn x a s c r → skipIf G.skip a r = .ok g r2 q → Tried R y a r2 v → Tried R (.seq x y) a s v
  | altL {x y a s v} : Tried R x a s v → Tried R (.alt x y) a s v
  | altR {x y a s v} : Fl x a s → Tried R y a s v → Tried R (.alt x y) a s v
  | opt {x a s v} : Tried R x a s v → Tried R (.opt x) a s v
  | star1 {x a s v} : Tried R x a s v → Tried R (.star x) a s v
  | star2 {x a s c r g r2 q v} : Rn x a s c r → skipIf G.skip a r = .ok g r2 q → Tried R (.star x) a r2 v →
      Tried R (.star x) a s v
  | ruleIn {rl m b a s v} : Tried R b (bodyAtomicity m a) s v → Tried R (.rule rl m b) a s v
  | ruleAt {m b a s} : Fl b (bodyAtomicity m a) s → emits m a = true → Tried R (.rule R m b) a s s

/-- The rules collected while running `e` were there before, or were tried inside. -/
def Col (e : PExpr) (a : Atomicity) (pos : Nat) (s : Str) (A B : Attempts) : Prop :=
  ∀ x ∈ B.rules, (x ∈ A.rules ∧ B.pos = A.pos) ∨ ∃ u v, s = u ++ v ∧ B.pos = pos + blen u ∧ Tried x e a s v

theorem col_loop {e : PExpr} {a : Atomicity} (hn : e.noSoi = true)
    (ih : ∀ pos s A, Col e a pos s A (expect G.skip e a pos s A)) :
    ∀ fuel pos s A, ∀ x ∈ (expectLoop (stepOf G.skip e a)
      (fun p i => expectNext G.skip a p (.ok [] i []) fun p' i' => expect G.skip e a p' i') fuel pos s A).rules,
    (x ∈ A.rules ∧ (expectLoop (stepOf G.skip e a)
      (fun p i => expectNext G.skip a p (.ok [] i []) fun p' i' => expect G.skip e a p' i') fuel pos s A).pos = A.pos) ∨
    ∃ u v g r2 q, s = u ++ v ∧ (expectLoop (stepOf G.skip e a)
      (fun p i => expectNext G.skip a p (.ok [] i []) fun p' i' => expect G.skip e a p' i') fuel pos s A).pos = pos + blen u ∧
      skipIf G.skip a s = .ok g r2 q ∧ Tried x (.star e) a r2 v
  | 0, _, _, _, x, h => by
    unfold expectLoop at h ⊢
    exact .inl ⟨h, rfl⟩
  | fuel + 1, pos, s, A, x, h => by
    have hatt : ∀ x ∈ (expectNext G.skip a pos (.ok [] s []) (fun p' i' => expect G.skip e a p' i') A).rules,
        (x ∈ A.rules ∧ (expectNext G.skip a pos (.ok [] s []) (fun p' i' => expect G.skip e a p' i') A).pos = A.pos) ∨
        ∃ u v g r2 q, s = u ++ v ∧ (expectNext G.skip a pos (.ok [] s []) (fun p' i' => expect G.skip e a p' i') A).pos = pos + blen u ∧
          skipIf G.skip a s = .ok g r2 q ∧ Tried x (.star e) a r2 v := by
      intro x h
      unfold expectNext at h ⊢
      cases hs : skipIf G.skip a s with
      | fail => simp only [hs] at h ⊢; exact .inl ⟨h, trivial⟩
      | diverge => simp only [hs] at h ⊢; exact .inl ⟨h, trivial⟩
      | ok g r2 q =>
        simp only [hs] at h ⊢
        rcases ih _ _ _ x h with h | ⟨u, v, e1, e2, ht⟩
        · exact .inl h
        · refine .inr ⟨g ++ u, v, g, r2, q, by rw [skipIf_split hs, e1]; simp, ?_, rfl, .star1 ht⟩
          rw [e2, blen_append]; simp [blen]; omega
    unfold expectLoop at h ⊢
    cases hs : stepOf G.skip e a pos s with
    | fail => simp only [hs] at h ⊢; exact hatt x h
    | diverge => simp only [hs] at h ⊢; exact hatt x h
    | ok c r ps =>
      cases c with
      | nil => simp only [hs] at h ⊢; exact hatt x h
      | cons y ys =>
        simp only [hs] at h ⊢
        rcases col_loop hn ih fuel _ _ _ x h with ⟨h1, h2⟩ | ⟨u, v, g, r2, q, e1, e2, h1, h2⟩
        · rw [h2]; exact hatt x h1
        · right
          have hsp := stepOf_split hs
          simp only [stepOf] at hs
          obtain ⟨c1, r1, p1, c2, r3, p2, c3, p3, f1, f2, f3, f4, -⟩ := seqRes_ok hs
          cases f1
          refine ⟨y :: ys ++ u, v, c2, r3, p2, by rw [hsp, e1]; simp, ?_, f2, .star2 (.of hn f3) h1 h2⟩
          rw [e2, blen_append]; omega

theorem Col.trans {e : PExpr} {a pos s A B C} (h1 : Col e a pos s A B)
    (h2 : ∀ x ∈ C.rules, (x ∈ B.rules ∧ C.pos = B.pos) ∨ ∃ u v, s = u ++ v ∧ C.pos = pos + blen u ∧ Tried x e a s v) :
    Col e a pos s A C := by
  intro x h
  rcases h2 x h with ⟨h, hp⟩ | h
  · rw [hp]; exact h1 x h
  · exact .inr h

theorem Col.mono {e f : PExpr} {a b : Atomicity} {pos s A B} (h : Col e a pos s A B) (hm : ∀ x v, Tried x e a s v → Tried x f b s v) :
    Col f b pos s A B := by
  intro x hx
  rcases h x hx with h | ⟨u, v, h1, h2, h3⟩
  · exact .inl h
  · exact .inr ⟨u, v, h1, h2, hm x v h3⟩

theorem Col.failed {e : PExpr} {a : Atomicity} {pos s A B r} (h : Col e a pos s A B) (ht : Tried r e a s s) : Col e a pos s A (A.failed B r pos) := by
  refine h.trans fun x hx => ?_
  rcases Attempts.failed_mem hx with h | ⟨rfl, h⟩
  · exact .inl h
  · exact .inr ⟨[], s, rfl, by simp [h, blen], ht⟩

theorem expect_tried : ∀ (e : PExpr), e.noSoi = true → ∀ a pos s A, Col e a pos s A (expect G.skip e a pos s A)
  | .str _, _, _, _, _, _ | .insens _, _, _, _, _, _ | .cls _, _, _, _, _, _ | .soi, _, _, _, _, _
  | .neg _, _, _, _, _, _ => by
    intro x h
    simp only [expect] at h ⊢
    exact .inl ⟨h, trivial⟩
  | .eoi, _, a, pos, s, A => by
    have h0 : Col .eoi a pos s A A := fun x h => .inl ⟨h, rfl⟩
    unfold expect
    split
    · exact h0
    · rename_i hs
      split
      · exact h0
      · rename_i ha
        exact h0.failed (.eoi rfl ha (by rintro rfl; exact hs rfl))
  | .seq e f, hn, a, pos, s, A => by
    simp only [PExpr.noSoi, Bool.and_eq_true] at hn
    unfold expect
    refine ((expect_tried e hn.1 a pos s A).mono fun x v h => .seqL h).trans fun x h => ?_
    unfold expectNext at h ⊢
    cases hr : run G.skip e a pos s with
    | fail => simp only [hr] at h ⊢; exact .inl ⟨h, trivial⟩
    | diverge => simp only [hr] at h ⊢; exact .inl ⟨h, trivial⟩
    | ok c r ps =>
      simp only [hr] at h ⊢
      cases hs : skipIf G.skip a r with
      | fail => simp only [hs] at h ⊢; exact .inl ⟨h, trivial⟩
      | diverge => simp only [hs] at h ⊢; exact .inl ⟨h, trivial⟩
      | ok g r2 q =>
        simp only [hs] at h ⊢
        rcases expect_tried f hn.2 a _ _ _ x h with h | ⟨u, v, e1, e2, ht⟩
        · exact .inl h
        · refine .inr ⟨c ++ (g ++ u), v, by rw [run_split hr, skipIf_split hs, e1]; simp, ?_, .seqR (.of hn.1 hr) hs ht⟩
          rw [e2, blen_append, blen_append]; omega
  | .alt e f, hn, a, pos, s, A => by
    simp only [PExpr.noSoi, Bool.and_eq_true] at hn
    have hl := (expect_tried e hn.1 a pos s A).mono (f := .alt e f) fun x v h => .altL h
    unfold expect
    split
    · rename_i hf
      refine hl.trans ?_
      exact (expect_tried f hn.2 a pos s _).mono (f := .alt e f) fun x v h => .altR (.of hn.1 hf) h
    · exact hl
  | .opt e, hn, a, pos, s, A => by
    unfold expect
    exact (expect_tried e hn a pos s A).mono fun x v h => .opt h
  | .star e, hn, a, pos, s, A => by
    have hl := (expect_tried e hn a pos s A).mono (f := .star e) fun x v h => .star1 h
    unfold expect
    split
    · rename_i c r ps hr
      refine hl.trans fun x h => ?_
      rcases col_loop (e := e) (a := a) hn (expect_tried e hn a) _ _ _ _ x h with h | ⟨u, v, g, r2, q, e1, e2, h1, h2⟩
      · exact .inl h
      · refine .inr ⟨c ++ u, v, by rw [run_split hr, e1]; simp, ?_, .star2 (.of (e := e) hn hr) h1 h2⟩
        rw [blen_append, ← Nat.add_assoc]
        exact e2
    · exact hl
  | .rule rl m b, hn, a, pos, s, A => by
    have hl := (expect_tried b hn (bodyAtomicity m a) pos s A).mono (f := .rule rl m b) (b := a) fun x v h => .ruleIn h
    unfold expect
    split
    · rename_i hf
      split
      · rename_i he
        exact hl.failed (.ruleAt (.of (e := b) hn hf) he)
      · exact hl
    · exact hl

/-- The rules that can be tried at the start. -/
def firsts : PExpr → List Rule
  | .str _ | .insens _ | .cls _ | .soi | .neg _ => []
  | .eoi => [.EOI]
  | .seq a b => firsts a ++ (if a.nonNull then [] else firsts b)
  | .alt a b => firsts a ++ firsts b
  | .opt a | .star a => firsts a
  | .rule r _ b => r :: firsts b

/-- What is tried is a suffix. -/
theorem Tried.suffix {e a s v} (h : Tried R e a s v) : ∃ u, s = u ++ v := by
  induction h with
  | eoi => exact ⟨[], rfl⟩
  | @seqR x y a s c r g r2 q v h1 h2 _ ih =>
    obtain ⟨u, rfl⟩ := ih
    exact ⟨c ++ (g ++ u), by rw [h1.split, skipIf_split h2]; simp only [List.append_assoc]⟩
  | @star2 x a s c r g r2 q v h1 h2 _ ih =>
    obtain ⟨u, rfl⟩ := ih
    exact ⟨c ++ (g ++ u), by rw [h1.split, skipIf_split h2]; simp only [List.append_assoc]⟩
  | ruleAt => exact ⟨[], rfl⟩
  | _ => assumption

/-- Something inside is only tried if the first character allows it. -/
theorem Tried.head {e a s v} (h : Tried R e a s v) : e.wf = true → (a = .nonAtomic → Solid s) →
    v = s ∨ e.starts s.head? = true := by
  have key : ∀ {x : PExpr} {a s c r g r2 q}, x.wf = true → (a = .nonAtomic → Solid s) → Rn x a s c r →
      skipIf G.skip a r = .ok g r2 q → x.starts s.head? = true ∨ (c = [] ∧ r2 = s) := by
    intro x a s c r g r2 q hw hs hr hg
    cases hst : x.starts s.head? with
    | true => exact .inl rfl
    | false =>
      obtain ⟨ps, hr⟩ := hr 0
      obtain ⟨rfl, rfl⟩ := starts_sound x hw hst hs hr
      refine .inr ⟨rfl, ?_⟩
      cases a with
      | nonAtomic =>
        simp only [skipIf, skip_solid (hs rfl)] at hg
        injection hg with _ h2; exact h2.symm
      | _ => simp [skipIf] at hg; exact hg.2.1.symm
  induction h with
  | eoi => intro _ _; exact .inl rfl
  | seqL _ ih =>
    intro hw hs
    simp only [PExpr.wf, Bool.and_eq_true] at hw
    rcases ih hw.1 hs with h | h
    · exact .inl h
    · exact .inr (by simp [PExpr.starts, h])
  | @seqR x y a s c r g r2 q v h1 h2 _ ih =>
    intro hw hs
    simp only [PExpr.wf, Bool.and_eq_true] at hw
    rcases key hw.1 hs h1 h2 with h | ⟨rfl, rfl⟩
    · exact .inr (by simp [PExpr.starts, h])
    · rcases ih hw.2 hs with h | h
      · exact .inl h
      · refine .inr ?_
        have : x.nonNull = false := by
          cases hn : x.nonNull with
          | false => rfl
          | true => exact absurd rfl (h1.ne hn)
        simp [PExpr.starts, h, this]
  | altL _ ih =>
    intro hw hs
    simp only [PExpr.wf, Bool.and_eq_true] at hw
    rcases ih hw.1 hs with h | h
    · exact .inl h
    · exact .inr (by simp [PExpr.starts, h])
  | altR _ _ ih =>
    intro hw hs
    simp only [PExpr.wf, Bool.and_eq_true] at hw
    rcases ih hw.2 hs with h | h
    · exact .inl h
    · exact .inr (by simp [PExpr.starts, h])
  | opt _ ih => intro hw hs; exact ih hw hs
  | star1 _ ih =>
    intro hw hs
    simp only [PExpr.wf, Bool.and_eq_true] at hw
    exact ih hw.2 hs
  | star2 h1 h2 _ ih =>
    intro hw hs
    have hw' := hw
    simp only [PExpr.wf, Bool.and_eq_true] at hw
    rcases key hw.2 hs h1 h2 with h | ⟨rfl, -⟩
    · exact .inr h
    · exact absurd rfl (h1.ne hw.1)
  | @ruleIn rl m b a s v _ ih =>
    intro hw hs
    refine ih hw ?_
    intro h
    cases m <;> simp [bodyAtomicity] at h
    exact hs h
  | ruleAt => intro _ _; exact .inl rfl

theorem Tried.first {e a s v} (h : Tried R e a s v) : e.wf = true → v.length = s.length → R ∈ firsts e := by
  have sfx : ∀ {e : PExpr} {a s v}, Tried R e a s v → v.length ≤ s.length := by
    intro e a s v h
    obtain ⟨u, rfl⟩ := h.suffix
    simp
  induction h with
  | eoi h _ _ => intro _ _; simp [firsts, h]
  | seqL _ ih =>
    intro hw hl
    simp only [PExpr.wf, Bool.and_eq_true] at hw
    simp [firsts, ih hw.1 hl]
  | @seqR x y a s c r g r2 q v h1 h2 h3 ih =>
    intro hw hl
    simp only [PExpr.wf, Bool.and_eq_true] at hw
    have e1 := congrArg List.length h1.split
    have e2 := congrArg List.length (skipIf_split h2)
    have e3 := sfx h3
    simp only [List.length_append] at e1 e2
    have hc : c = [] := List.length_eq_zero_iff.1 (by omega)
    have hn : x.nonNull = false := by
      cases hn : x.nonNull with
      | false => rfl
      | true => exact absurd hc (h1.ne hn)
    have := ih hw.2 (by omega)
    simp [firsts, hn, this]
  | altL _ ih =>
    intro hw hl
    simp only [PExpr.wf, Bool.and_eq_true] at hw
    simp [firsts, ih hw.1 hl]
  | altR _ _ ih =>
    intro hw hl
    simp only [PExpr.wf, Bool.and_eq_true] at hw
    simp [firsts, ih hw.2 hl]
  | opt _ ih => intro hw hl; exact ih hw hl
  | star1 _ ih =>
    intro hw hl
    simp only [PExpr.wf, Bool.and_eq_true] at hw
    exact ih hw.2 hl
  | @star2 x a s c r g r2 q v h1 h2 h3 ih =>
    intro hw hl
    simp only [PExpr.wf, Bool.and_eq_true] at hw
    have e1 := congrArg List.length h1.split
    have e2 := congrArg List.length (skipIf_split h2)
    have e3 := sfx h3
    simp only [List.length_append] at e1 e2
    exact absurd (List.length_eq_zero_iff.1 (by omega)) (h1.ne hw.1)
  | ruleIn _ ih => intro hw hl; simp [firsts, ih hw hl]
  | ruleAt => intro _ _; simp [firsts]

end Dbml.Vp
