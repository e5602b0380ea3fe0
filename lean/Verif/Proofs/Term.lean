import Verif.Proofs.Read

/-!
# Recognition terminates
-/

namespace Dbml
open Syntax

/-- `e` never succeeds without consuming a character. -/
def PExpr.nonNull : PExpr → Bool
  | .str s => !s.isEmpty
  | .insens s => !s.isEmpty
  | .cls _ => true
  | .soi | .eoi => false
  | .seq a b => a.nonNull || b.nonNull
  | .alt a b => a.nonNull && b.nonNull
  | .opt _ | .star _ | .neg _ => false
  | .rule _ _ b => b.nonNull

/-- Every repetition in `e` repeats something that consumes. -/
def PExpr.wf : PExpr → Bool
  | .str _ | .insens _ | .cls _ | .soi | .eoi => true
  | .seq a b | .alt a b => a.wf && b.wf
  | .opt a | .neg a => a.wf
  | .star a => a.nonNull && a.wf
  | .rule _ _ b => b.wf

theorem nonNull_consumes {skip T} : ∀ (e : PExpr) {a pos c rest ps}, e.nonNull = true →
    Matches skip T e a pos c rest ps → c ≠ []
  | .str s, a, pos, c, rest, ps, hn, h => by
    obtain ⟨rfl, -⟩ := h; rintro rfl; simp [PExpr.nonNull] at hn
  | .insens s, a, pos, c, rest, ps, hn, h => by
    obtain ⟨h, -⟩ := h; rintro rfl
    cases s <;> simp [PExpr.nonNull] at hn h
  | .cls p, a, pos, c, rest, ps, hn, h => by
    obtain ⟨x, rfl, -⟩ := h; simp
  | .soi, _, _, _, _, _, hn, _ | .eoi, _, _, _, _, _, hn, _ | .opt _, _, _, _, _, _, hn, _
  | .star _, _, _, _, _, _, hn, _ | .neg _, _, _, _, _, _, hn, _ => by simp [PExpr.nonNull] at hn
  | .seq x y, a, pos, c, rest, ps, hn, h => by
    obtain ⟨c1, t, c2, p1, p2, rfl, -, h1, -, h2⟩ := h
    simp only [PExpr.nonNull, Bool.or_eq_true] at hn
    rcases hn with hn | hn
    · have := nonNull_consumes x hn h1; simp [this]
    · have := nonNull_consumes y hn h2; simp [this]
  | .alt x y, a, pos, c, rest, ps, hn, h => by
    simp only [PExpr.nonNull, Bool.and_eq_true] at hn
    rcases h with h | ⟨-, h⟩
    · exact nonNull_consumes x hn.1 h
    · exact nonNull_consumes y hn.2 h
  | .rule r m b, a, pos, c, rest, ps, hn, h => by
    obtain ⟨ps', h, -⟩ := h
    exact nonNull_consumes b hn h

theorem repLoop_total {step : Nat → Str → Res}
    (h1 : ∀ p i, step p i ≠ .diverge)
    (h2 : ∀ p i c r ps, step p i = .ok c r ps → i = c ++ r ∧ c ≠ []) :
    ∀ fuel pos inp, inp.length < fuel → repLoop step fuel pos inp ≠ .diverge := by
  intro fuel
  induction fuel with
  | zero => intro pos inp h; omega
  | succ n ih =>
    intro pos inp hl
    unfold repLoop
    cases hs : step pos inp with
    | fail => simp
    | diverge => exact absurd hs (h1 _ _)
    | ok c r ps =>
      obtain ⟨rfl, hne⟩ := h2 _ _ _ _ _ hs
      cases c with
      | nil => exact absurd rfl hne
      | cons x xs =>
        have := ih (pos + blen (x :: xs)) r (by simp at hl; omega)
        simp only
        cases hr : repLoop step n (pos + blen (x :: xs)) r <;> simp_all

theorem repLoop_ne_fail {step : Nat → Str → Res} :
    ∀ fuel pos inp, repLoop step fuel pos inp ≠ .fail := by
  intro fuel
  induction fuel with
  | zero => intro pos inp; simp [repLoop]
  | succ n ih =>
    intro pos inp
    unfold repLoop
    cases hs : step pos inp with
    | fail => simp
    | diverge => simp
    | ok c r ps =>
      cases c with
      | nil => simp
      | cons x xs =>
        have := ih (pos + blen (x :: xs)) r
        simp only
        cases hr : repLoop step n (pos + blen (x :: xs)) r <;> simp_all

theorem skipIf_total {skip : Str → Res} (hs : ∀ i, skip i ≠ .diverge) (a i) : skipIf skip a i ≠ .diverge := by
  cases a <;> simp [skipIf, hs]

theorem seqRes_total {skip : Str → Res} (hs : ∀ i, skip i ≠ .diverge) {a pos ra kb}
    (h1 : ra ≠ .diverge) (h2 : ∀ p i, kb p i ≠ .diverge) : seqRes skip a pos ra kb ≠ .diverge := by
  unfold seqRes
  cases ra with
  | fail => simp
  | diverge => exact absurd rfl h1
  | ok c r ps =>
    simp only
    cases hk : skipIf skip a r with
    | fail => simp
    | diverge => exact absurd hk (skipIf_total hs _ _)
    | ok c2 r2 p2 =>
      simp only
      cases hb : kb (pos + blen c + blen c2) r2 with
      | fail => simp
      | diverge => exact absurd hb (h2 _ _)
      | ok => simp

theorem run_total {skip : Str → Res} {T} (hsound : SkipSound skip T) (hs : ∀ i, skip i ≠ .diverge) :
    ∀ (e : PExpr), e.wf = true → ∀ a pos inp, run skip e a pos inp ≠ .diverge
  | .str s, _, a, pos, inp => by simp only [run]; split <;> simp
  | .insens s, _, a, pos, inp => by simp only [run]; split <;> simp
  | .cls p, _, a, pos, inp => by
    simp only [run]; split
    · split <;> simp
    · simp
  | .soi, _, a, pos, inp => by simp only [run]; split <;> simp
  | .eoi, _, a, pos, inp => by simp only [run]; split <;> simp
  | .seq x y, hw, a, pos, inp => by
    simp only [PExpr.wf, Bool.and_eq_true] at hw
    simp only [run]
    exact seqRes_total hs (run_total hsound hs x hw.1 _ _ _) fun p i => run_total hsound hs y hw.2 _ _ _
  | .alt x y, hw, a, pos, inp => by
    simp only [PExpr.wf, Bool.and_eq_true] at hw
    simp only [run]
    have h1 := run_total hsound hs x hw.1 a pos inp
    have h2 := run_total hsound hs y hw.2 a pos inp
    cases hx : run skip x a pos inp <;> simp_all
  | .opt x, hw, a, pos, inp => by
    simp only [run]
    have h1 := run_total hsound hs x hw a pos inp
    cases hx : run skip x a pos inp <;> simp_all
  | .neg x, hw, a, pos, inp => by
    simp only [run]
    have h1 := run_total hsound hs x hw a pos inp
    cases hx : run skip x a pos inp <;> simp_all
  | .rule r m b, hw, a, pos, inp => by
    simp only [run]
    have h1 := run_total hsound hs b hw (bodyAtomicity m a) pos inp
    cases hx : run skip b (bodyAtomicity m a) pos inp <;> simp_all
  | .star x, hw, a, pos, inp => by
    simp only [PExpr.wf, Bool.and_eq_true] at hw
    simp only [run]
    have h1 := run_total hsound hs x hw.2
    cases hx : run skip x a pos inp with
    | fail => simp
    | diverge => exact absurd hx (h1 _ _ _)
    | ok c r ps =>
      simp only
      have := repLoop_total
        (step := fun p i => seqRes skip a p (.ok [] i []) (fun p' i' => run skip x a p' i'))
        (fun p i => seqRes_total hs (by simp) fun p i => h1 _ _ _)
        (by
          intro p i c r ps h
          obtain ⟨c1, r1, p1, t, r2, q, c2, p2, e1, e2, e3, e4, -⟩ := seqRes_ok h
          injection e1 with e1 e5
          subst e1 e5
          obtain ⟨e6, -⟩ := skipIf_sound hsound e2
          obtain ⟨e7, hm⟩ := run_sound hsound _ _ _ _ _ _ _ e3
          refine ⟨by rw [e4, e6, e7]; simp, ?_⟩
          have := nonNull_consumes x hw.1 hm
          simp [e4, this])
        (r.length + 1) (pos + blen c) r (by omega)
      cases hr : repLoop
        (fun p i => seqRes skip a p (.ok [] i []) (fun p' i' => run skip x a p' i'))
        (r.length + 1) (pos + blen c) r <;> simp_all

theorem skip_total (i : Str) : G.skip i ≠ .diverge :=
  run_total (T := fun t _ => t = []) (by
    intro inp c r ps h
    injection h with h1 h2
    subst h1 h2
    simp) (by simp) G.skipExpr (by decide) _ _ _

theorem schema_wf : G.schema.wf = true := by decide

/-- Recognising a text with the grammar always ends. -/
theorem pest_total (input : Str) : pestParse input ≠ .diverge :=
  run_total skip_sound skip_total _ schema_wf _ _ _

end Dbml
