import Verif.Model.ErrorPos
import Verif.Proofs.Prefix
import Verif.Proofs.Invert1
import Verif.Proofs.Slices
import Verif.Proofs.ShiftWalk

/-!
# Where a syntax error is reported: proofs
-/

namespace Dbml
open Syntax Source

theorem further_some {a b : Option Nat} {x : Nat} (h : further a b = some x) : a = some x ∨ b = some x := by
  cases a <;> cases b <;> simp_all [further]
  omega

theorem further_getD_left (a b : Option Nat) : a.getD 0 ≤ (further a b).getD 0 := by
  cases a <;> cases b <;> simp [further]
  omega

theorem further_getD_right (a b : Option Nat) : b.getD 0 ≤ (further a b).getD 0 := by
  cases a <;> cases b <;> simp [further]
  omega

/-! ## The position is a character boundary of the text -/

/-- The offset `x` is that of a suffix of the text `s`, which starts at `pos`. -/
def Inside (pos : Nat) (s : Str) (x : Nat) : Prop := ∃ u v, s = u ++ v ∧ x = pos + blen u

theorem Inside.here {pos s} : Inside pos s pos := ⟨[], s, rfl, rfl⟩

theorem Inside.after {pos c r s x} (h : Inside (pos + blen c) r x) (e : s = c ++ r) : Inside pos s x := by
  obtain ⟨u, v, rfl, rfl⟩ := h
  exact ⟨c ++ u, v, by simp [e], by simp [blen_append]; omega⟩

theorem skipIf_split {a s c r ps} (h : skipIf G.skip a s = .ok c r ps) : s = c ++ r := by
  unfold skipIf at h
  split at h
  · exact (skip_sound _ _ _ _ h).1
  · cases h; rfl

theorem attemptNext_inside {a pos ra kb s x} (hr : ∀ c r ps, ra = .ok c r ps → s = c ++ r)
    (hk : ∀ p i x, kb p i = some x → Inside p i x) (h : attemptNext G.skip a pos ra kb = some x) : Inside pos s x := by
  unfold attemptNext at h
  split at h
  · rename_i c1 r1 p1
    split at h
    · rename_i c2 r2 p2 h2
      obtain rfl := skipIf_split h2
      exact ((hk _ _ _ h).after rfl).after (hr _ _ _ rfl)
    · simp at h
  · simp at h

theorem attemptLoop_inside {step : Nat → Str → Res} {att : Nat → Str → Option Nat}
    (h1 : ∀ p i c r ps, step p i = .ok c r ps → i = c ++ r) (h2 : ∀ p i x, att p i = some x → Inside p i x) :
    ∀ fuel p i x, attemptLoop step att fuel p i = some x → Inside p i x
  | 0, p, i, x, h => by simp [attemptLoop] at h
  | fuel + 1, p, i, x, h => by
    unfold attemptLoop at h
    split at h
    · rename_i y ys r ps hs
      rcases further_some h with h | h
      · exact h2 _ _ _ h
      · exact (attemptLoop_inside h1 h2 fuel _ _ _ h).after (h1 _ _ _ _ _ hs)
    · exact h2 _ _ _ h

theorem stepOf_split {e a p i c r ps} (h : stepOf G.skip e a p i = .ok c r ps) : i = c ++ r := by
  simp only [stepOf] at h
  obtain ⟨c1, r1, p1, c2, r2, p2, c3, p3, e1, e2, e3, rfl, -⟩ := seqRes_ok h
  cases e1
  have h1 := skipIf_split e2
  have h2 := run_split e3
  simp [h1, h2]

theorem attempt_inside : ∀ (e : PExpr) a pos s x, attempt G.skip e a pos s = some x → Inside pos s x
  | .str _, _, _, _, _, h | .insens _, _, _, _, _, h | .cls _, _, _, _, _, h | .soi, _, _, _, _, h
  | .neg _, _, _, _, _, h => by simp [attempt] at h
  | .eoi, a, pos, s, x, h => by
    unfold attempt at h
    split at h
    · simp at h
    · split at h
      · simp at h
      · obtain rfl := Option.some.inj h
        exact .here
  | .seq e f, a, pos, s, x, h => by
    unfold attempt at h
    rcases further_some h with h | h
    · exact attempt_inside e _ _ _ _ h
    · exact attemptNext_inside (fun c r ps hr => run_split hr) (fun p i x => attempt_inside f a p i x) h
  | .alt e f, a, pos, s, x, h => by
    unfold attempt at h
    split at h
    · rcases further_some h with h | h
      · exact attempt_inside e _ _ _ _ h
      · exact attempt_inside f _ _ _ _ h
    · exact attempt_inside e _ _ _ _ h
  | .opt e, a, pos, s, x, h => by
    unfold attempt at h
    exact attempt_inside e _ _ _ _ h
  | .star e, a, pos, s, x, h => by
    unfold attempt at h
    split at h
    · rename_i c r ps hr
      rcases further_some h with h | h
      · exact attempt_inside e _ _ _ _ h
      · refine Inside.after ?_ (run_split hr)
        refine attemptLoop_inside (fun p i c r ps h => stepOf_split h) ?_ _ _ _ _ h
        intro p i x h
        exact attemptNext_inside (ra := .ok [] i []) (by rintro _ _ _ ⟨⟩; rfl) (fun p i x => attempt_inside e a p i x) h
    · exact attempt_inside e _ _ _ _ h
  | .rule _ m b, a, pos, s, x, h => by
    unfold attempt at h
    split at h
    · rcases further_some h with h | h
      · exact attempt_inside b _ _ _ _ h
      · split at h
        · obtain rfl := Option.some.inj h
          exact .here
        · simp at h
    · exact attempt_inside b _ _ _ _ h

/-- The reported offset is that of a suffix of the text. -/
theorem syntaxErrorPos_split (s : Str) : ∃ u v, s = u ++ v ∧ syntaxErrorPos s = blen u := by
  unfold syntaxErrorPos
  cases h : attempt G.skip G.schema .nonAtomic 0 s with
  | none => exact ⟨[], s, rfl, rfl⟩
  | some x =>
    obtain ⟨u, v, h1, h2⟩ := attempt_inside _ _ _ _ _ h
    exact ⟨u, v, h1, by simp [h2]⟩

/-! ## The top level -/

/-- A rejected text: skip, read declarations as far as possible, skip, and there is something left. -/
theorem pest_fail_shape {s : Str} (h : pestParse s = .fail) :
    ∃ w r c r1 ps w1 x xs, G.skip s = .ok w r [] ∧ run G.skip (.star G.top_decl) .nonAtomic (blen w) r = .ok c r1 ps ∧
      G.skip r1 = .ok w1 (x :: xs) [] := by
  obtain ⟨w, r, h1⟩ := skips_total s
  replace h1 := h1.skip
  have ht : run G.skip (.star G.top_decl) .nonAtomic (blen w) r ≠ .diverge :=
    run_total skip_sound skip_total _ (by decide) _ _ _
  have hf : run G.skip (.star G.top_decl) .nonAtomic (blen w) r ≠ .fail := by
    generalize G.top_decl = d
    simp only [run]
    split
    · simp
    · simp
    · split
      · simp
      · rename_i h; exact absurd h (repLoop_ne_fail _ _ _)
      · simp
  cases hr : run G.skip (.star G.top_decl) .nonAtomic (blen w) r with
  | fail => exact absurd hr hf
  | diverge => exact absurd hr ht
  | ok c r1 ps =>
    obtain ⟨w1, r2, h2⟩ := skips_total r1
    replace h2 := h2.skip
    cases r2 with
    | cons x xs => exact ⟨w, r, c, r1, ps, w1, x, xs, h1, hr, h2⟩
    | nil =>
      exfalso
      unfold pestParse G.schema at h
      have e0 : run G.skip .soi .nonAtomic 0 s = .ok [] s [] := by simp [run]
      rw [run, bodyAtomicity, run, e0] at h
      simp only [seqRes, skipIf, h1] at h
      rw [run, show 0 + blen [] + blen w = blen w by simp, hr] at h
      simp [seqRes, skipIf, h2, run] at h

theorem attempt_rule_fail {rl e pos s} (h : run G.skip e .nonAtomic pos s = .fail) :
    attempt G.skip (.rule rl .normal e) .nonAtomic pos s =
      further (attempt G.skip e .nonAtomic pos s) (some pos) := by
  rw [attempt, show bodyAtomicity .normal .nonAtomic = .nonAtomic from rfl, h]
  rfl

/-- The attempts of a rejected text: those of the declarations, then the end of input. -/
theorem attempt_schema {s w r c r1 ps w1 x xs} (h1 : G.skip s = .ok w r [])
    (h2 : run G.skip (.star G.top_decl) .nonAtomic (blen w) r = .ok c r1 ps) (h3 : G.skip r1 = .ok w1 (x :: xs) []) :
    syntaxErrorPos s = (further (attempt G.skip (.star G.top_decl) .nonAtomic (blen w) r)
      (some (blen w + blen c + blen w1))).getD 0 := by
  have e0 : run G.skip .soi .nonAtomic 0 s = .ok [] s [] := by simp [run]
  unfold syntaxErrorPos G.schema
  have hfail : run G.skip (.soi ~~ .star G.top_decl ~~ .eoi) .nonAtomic 0 s = .fail := by
    rw [run, e0]
    simp only [seqRes, skipIf, h1]
    rw [run, show 0 + blen [] + blen w = blen w by simp, h2]
    simp [seqRes, skipIf, h3, run]
  have hb : attempt G.skip (.soi ~~ .star G.top_decl ~~ .eoi) .nonAtomic 0 s =
      further (attempt G.skip (.star G.top_decl) .nonAtomic (blen w) r) (some (blen w + blen c + blen w1)) := by
    rw [attempt, e0]
    simp only [attemptNext, skipIf, h1]
    rw [show 0 + blen [] + blen w = blen w by simp, show attempt G.skip .soi .nonAtomic 0 s = none from rfl,
      show ∀ y, further none y = y from fun y => rfl, attempt, h2]
    simp only [attemptNext, skipIf, h3]
    simp [attempt]
  rw [attempt_rule_fail hfail, hb]
  generalize attempt G.skip (.star G.top_decl) .nonAtomic (blen w) r = y
  cases y <;> simp [further]

/-! ## The beginning that was read is not blamed -/

/-- The loop of declarations gets through the declarations of a document. -/
theorem loop_reaches {x : List Tok} (hx : TopEnd x) : ∀ (d : Doc), d.Ok → ∀ fuel pos s c r ps,
    Lead (d.toks ++ x) s → repLoop (stepOf G.skip G.top_decl .nonAtomic) fuel pos s = .ok c r ps →
    ∃ fuel' pos' s' c' ps', Lead x s' ∧ repLoop (stepOf G.skip G.top_decl .nonAtomic) fuel' pos' s' = .ok c' r ps'
  | [], _, fuel, pos, s, c, r, ps, hl, h => ⟨fuel, pos, s, c, ps, hl, h⟩
  | b :: d, hd', 0, pos, s, c, r, ps, hl, h => by simp [repLoop] at h
  | b :: d, hd', fuel + 1, pos, s, c, r, ps, hl, h => by
    have hF : TopEnd (Doc.toks d ++ x) := by
      cases d with
      | nil => simpa [Doc.toks] using hx
      | cons b' d => simpa [Doc.toks] using block_topEnd (hd' b' (by simp)) (Doc.toks d ++ x)
    obtain ⟨w, r1, e1, a1, rfl⟩ := hl.skip
    have a1' : At (b.toks ++ (Doc.toks d ++ x)) r1 := by simpa [Doc.toks] using a1
    obtain ⟨c2, r2, p2, e2, l2, -⟩ := reads_block (hd' b (by simp)) hF (pos + blen w) r1 a1'
    have hc : c2 ≠ [] := nonNull_consumes _ (by decide) (run_sound gskip_sound _ _ _ _ _ _ _ e2).2
    have hs : stepOf G.skip G.top_decl .nonAtomic pos (w ++ r1) = .ok (w ++ c2) r2 p2 := by
      simp [stepOf, seqRes, skipIf, e1, e2]
    rw [repLoop, hs] at h
    cases hwc : w ++ c2 with
    | nil => simp at hwc; exact absurd hwc.2 hc
    | cons y ys =>
      rw [hwc] at h
      dsimp only at h
      cases hr : repLoop (stepOf G.skip G.top_decl .nonAtomic) fuel (pos + blen (y :: ys)) r2 with
      | fail => simp [hr] at h
      | diverge => simp [hr] at h
      | ok c3 r3 p3 =>
        simp only [hr] at h
        cases h
        exact loop_reaches hx d (fun b hb => hd' b (by simp [hb])) _ _ _ _ _ _ l2 hr

theorem loop_suffix {fuel pos s c r ps} (h : repLoop (stepOf G.skip G.top_decl .nonAtomic) fuel pos s = .ok c r ps) :
    s = c ++ r ∧ (c ≠ [] → ∃ c1 r1 ps1 c2, stepOf G.skip G.top_decl .nonAtomic pos s = .ok c1 r1 ps1 ∧ r1 = c2 ++ r) := by
  have key : ∀ fuel pos s c r ps, repLoop (stepOf G.skip G.top_decl .nonAtomic) fuel pos s = .ok c r ps → s = c ++ r := by
    intro fuel
    induction fuel with
    | zero => intro pos s c r ps h; simp [repLoop] at h
    | succ n ih =>
      intro pos s c r ps h
      rw [repLoop] at h
      cases hs : stepOf G.skip G.top_decl .nonAtomic pos s with
      | fail => simp only [hs] at h; cases h; rfl
      | diverge => simp [hs] at h
      | ok c1 r1 p1 =>
        have h0 := stepOf_split hs
        simp only [hs] at h
        cases c1 with
        | nil => simp at h
        | cons y ys =>
          dsimp only at h
          cases hr : repLoop (stepOf G.skip G.top_decl .nonAtomic) n (pos + blen (y :: ys)) r1 with
          | fail => simp [hr] at h
          | diverge => simp [hr] at h
          | ok c2 r2 p2 =>
            have := ih _ _ _ _ _ hr
            simp only [hr] at h
            cases h
            rw [h0, this]; simp
  refine ⟨key _ _ _ _ _ _ h, fun hc => ?_⟩
  cases fuel with
  | zero => simp [repLoop] at h
  | succ n =>
    rw [repLoop] at h
    cases hs : stepOf G.skip G.top_decl .nonAtomic pos s with
    | fail => simp only [hs] at h; cases h; exact absurd rfl hc
    | diverge => simp [hs] at h
    | ok c1 r1 p1 =>
      simp only [hs] at h
      cases c1 with
      | nil => simp at h
      | cons y ys =>
        dsimp only at h
        cases hr : repLoop (stepOf G.skip G.top_decl .nonAtomic) n (pos + blen (y :: ys)) r1 with
        | fail => simp [hr] at h
        | diverge => simp [hr] at h
        | ok c2 r2 p2 =>
          have := key _ _ _ _ _ _ hr
          simp only [hr] at h
          cases h
          exact ⟨_, _, _, c2, rfl, this⟩

/-- A text that begins with a document and goes on with `g`, a letter first: the declarations are read at least up to
`g`. -/
theorem stop_after {d : Doc} (hd' : d.Ok) {t g : Str} {a : Char} (hg : g.head? = some a) (ha : a.isAlpha = true)
    (hw : Written (d.toks ++ [{ txt := g, next := fun r => r = [] }]) (t ++ g)) {w r c r1 ps w1 y ys}
    (h1 : G.skip (t ++ g) = .ok w r []) (h2 : run G.skip (.star G.top_decl) .nonAtomic (blen w) r = .ok c r1 ps)
    (h3 : G.skip r1 = .ok w1 (y :: ys) []) : blen t ≤ blen w + blen c + blen w1 := by
  have htok : TokOk { txt := g, next := fun r => r = [] } := by
    cases g with
    | nil => simp at hg
    | cons b g => simp at hg; subst hg; exact tokOk_alpha rfl ha
  have hx : TopEnd [{ txt := g, next := fun r => r = [] }] := by
    intro c hc
    simp only [hd, hg] at hc
    obtain rfl := Option.some.inj hc
    exact ha
  have hlead := written_lead (toksOk_append (toksOk_doc hd') (toksOk_one htok)) hw
  have hat : ∀ s, At [{ txt := g, next := fun r => r = [] }] s → s = g := by
    intro s hs
    obtain ⟨r, e, h, -⟩ := hs.cons
    have : r = [] := h.1
    simpa [this] using e
  -- what is left after the declarations and the skip is no longer than `g`
  have hleft : blen (y :: ys) ≤ blen g := by
    have fin : ∀ s, Lead [{ txt := g, next := fun r => r = [] }] s → G.skip s = .ok w1 (y :: ys) [] →
        blen (y :: ys) ≤ blen g := by
      intro s hs hk
      obtain ⟨w', r', e, ha', -⟩ := hs.skip
      rw [e] at hk
      obtain ⟨-, h, -⟩ := Res.ok.inj hk
      rw [← h, hat _ ha']
      exact Nat.le_refl _
    have h3' := (skip_sound _ _ _ _ h3).1
    obtain ⟨w', r', e', ha', -⟩ := hlead.skip
    rw [h1] at e'
    obtain ⟨-, e', -⟩ := Res.ok.inj e'
    subst e'
    -- the loop after the first declaration
    have inner : ∀ d : Doc, d.Ok → ∀ fuel pos s c ps, Lead (d.toks ++ [{ txt := g, next := fun r => r = [] }]) s →
        repLoop (stepOf G.skip G.top_decl .nonAtomic) fuel pos s = .ok c r1 ps → blen (y :: ys) ≤ blen g := by
      intro d hd fuel pos s c ps hl hr
      obtain ⟨fuel', pos', s', c', ps', hl', hr'⟩ := loop_reaches hx d hd _ _ _ _ _ _ hl hr
      obtain ⟨hs, hsuf⟩ := loop_suffix hr'
      by_cases hc : c' = []
      · subst hc
        simp only [List.nil_append] at hs
        subst hs
        exact fin _ hl' h3
      · obtain ⟨c1, r1', ps1, c2, e1, rfl⟩ := hsuf hc
        obtain ⟨wk, rk, ek, ak, -⟩ := hl'.skip
        obtain rfl := hat _ ak
        simp only [stepOf] at e1
        obtain ⟨d1, s1, q1, d2, s2, q2, d3, q3, f1, f2, f3, -, -⟩ := seqRes_ok e1
        obtain ⟨-, rfl, -⟩ := Res.ok.inj f1
        simp only [skipIf, ek] at f2
        obtain ⟨-, rfl, -⟩ := Res.ok.inj f2
        have := run_split f3
        rw [this, h3']
        simp only [blen_append]
        omega
    cases d with
    | nil =>
      -- no declaration: the loop starts at `g`
      have hr : r = g := hat _ (by simpa [Doc.toks] using ha')
      subst hr
      have := run_split h2
      rw [this, h3']
      simp only [blen_append]
      omega
    | cons b d =>
      have hF : TopEnd (Doc.toks d ++ [{ txt := g, next := fun r => r = [] }]) := by
        cases d with
        | nil => simpa [Doc.toks] using hx
        | cons b' d => simpa [Doc.toks] using block_topEnd (hd' b' (by simp)) (Doc.toks d ++ [{ txt := g, next := fun r => r = [] }])
      have ha'' : At (b.toks ++ (Doc.toks d ++ [{ txt := g, next := fun r => r = [] }])) r := by
        simpa [Doc.toks] using ha'
      obtain ⟨c2, r2, p2, e2, l2, -⟩ := reads_block (hd' b (by simp)) hF (blen w) r ha''
      rw [run, e2] at h2
      dsimp only at h2
      split at h2
      · rename_i c3 r3 p3 hr
        obtain ⟨-, rfl, -⟩ := Res.ok.inj h2
        exact inner d (fun b hb => hd' b (by simp [hb])) _ _ _ _ _ l2 hr
      · simp at h2
      · simp at h2
  have e1 := (skip_sound _ _ _ _ h1).1
  have e2 := run_split h2
  have e3 := (skip_sound _ _ _ _ h3).1
  have : blen (t ++ g) = blen w + (blen c + (blen w1 + blen (y :: ys))) := by
    rw [e1, e2, e3]; simp only [blen_append]
  rw [blen_append] at this
  omega

/-- A rejected text that begins with a document and goes on with `g`, a letter first: the error is not before `g`. -/
theorem errorPos_after {d : Doc} (hd' : d.Ok) {t g : Str} {a : Char} (hg : g.head? = some a) (ha : a.isAlpha = true)
    (hw : Written (d.toks ++ [{ txt := g, next := fun r => r = [] }]) (t ++ g))
    (hf : pestParse (t ++ g) = .fail) : blen t ≤ syntaxErrorPos (t ++ g) := by
  obtain ⟨w, r, c, r1, ps, w1, y, ys, h1, h2, h3⟩ := pest_fail_shape hf
  rw [attempt_schema h1 h2 h3]
  exact Nat.le_trans (stop_after hd' hg ha hw h1 h2 h3)
    (further_getD_right _ (some (blen w + blen c + blen w1)))

/-! ## At another offset -/

/-- The same outcome, up to the pairs. -/
inductive ResSm : Res → Res → Prop
  | ok {c r ps qs} : ResSm (.ok c r ps) (.ok c r qs)
  | fail : ResSm .fail .fail
  | diverge : ResSm .diverge .diverge

theorem seqRes_sm {skip a p q ra ra'} {kb kb' : Nat → Str → Res} (h1 : ResSm ra ra')
    (h2 : ∀ p q i, ResSm (kb p i) (kb' q i)) : ResSm (seqRes skip a p ra kb) (seqRes skip a q ra' kb') := by
  cases h1 with
  | fail => exact .fail
  | diverge => exact .diverge
  | @ok c r ps qs =>
    simp only [seqRes]
    cases skipIf skip a r with
    | fail => exact .fail
    | diverge => exact .diverge
    | ok c2 r2 p2 =>
      have := h2 (p + blen c + blen c2) (q + blen c + blen c2) r2
      revert this
      dsimp only
      generalize kb (p + blen c + blen c2) r2 = x
      generalize kb' (q + blen c + blen c2) r2 = y
      rintro (_ | _ | _)
      · exact .ok
      · exact .fail
      · exact .diverge

theorem repLoop_sm {s s' : Nat → Str → Res} (h : ∀ p q i, ResSm (s p i) (s' q i)) : ∀ fuel p q i,
    ResSm (repLoop s fuel p i) (repLoop s' fuel q i)
  | 0, p, q, i => .diverge
  | fuel + 1, p, q, i => by
    have h1 := h p q i
    simp only [repLoop]
    revert h1
    generalize s p i = x
    generalize s' q i = y
    rintro (_ | _ | _)
    · rename_i c r ps qs
      cases c with
      | nil => exact .diverge
      | cons c cs =>
        have h2 := repLoop_sm h fuel (p + blen (c :: cs)) (q + blen (c :: cs)) r
        dsimp only
        revert h2
        generalize repLoop s fuel (p + blen (c :: cs)) r = x
        generalize repLoop s' fuel (q + blen (c :: cs)) r = y
        rintro (_ | _ | _)
        · exact .ok
        · exact .fail
        · exact .diverge
    · exact .ok
    · exact .diverge

/-- What is read does not depend on the offset. -/
theorem run_sm (skip : Str → Res) : ∀ (e : PExpr), e.noSoi = true → ∀ a p q i,
    ResSm (run skip e a p i) (run skip e a q i)
  | .str s, _, a, p, q, i => by
    simp only [run]; split
    · exact .ok
    · exact .fail
  | .insens s, _, a, p, q, i => by
    simp only [run]; split
    · exact .ok
    · exact .fail
  | .cls f, _, a, p, q, i => by
    simp only [run]; split
    · split
      · exact .ok
      · exact .fail
    · exact .fail
  | .soi, hn, _, _, _, _ => by simp [PExpr.noSoi] at hn
  | .eoi, _, a, p, q, i => by
    simp only [run]; split
    · exact .ok
    · exact .fail
  | .seq x y, hn, a, p, q, i => by
    simp only [PExpr.noSoi, Bool.and_eq_true] at hn
    simp only [run]
    exact seqRes_sm (run_sm skip x hn.1 a p q i) fun p q i => run_sm skip y hn.2 a p q i
  | .alt x y, hn, a, p, q, i => by
    simp only [PExpr.noSoi, Bool.and_eq_true] at hn
    have h1 := run_sm skip x hn.1 a p q i
    have h2 := run_sm skip y hn.2 a p q i
    simp only [run]
    revert h1
    generalize run skip x a p i = u
    generalize run skip x a q i = v
    rintro (_ | _ | _)
    · exact .ok
    · exact h2
    · exact .diverge
  | .opt x, hn, a, p, q, i => by
    have h1 := run_sm skip x hn a p q i
    simp only [run]
    revert h1
    generalize run skip x a p i = u
    generalize run skip x a q i = v
    rintro (_ | _ | _)
    · exact .ok
    · exact .ok
    · exact .diverge
  | .neg x, hn, a, p, q, i => by
    have h1 := run_sm skip x hn a p q i
    simp only [run]
    revert h1
    generalize run skip x a p i = u
    generalize run skip x a q i = v
    rintro (_ | _ | _)
    · exact .fail
    · exact .ok
    · exact .diverge
  | .rule r m b, hn, a, p, q, i => by
    have h1 := run_sm skip b hn (bodyAtomicity m a) p q i
    simp only [run]
    revert h1
    generalize run skip b (bodyAtomicity m a) p i = u
    generalize run skip b (bodyAtomicity m a) q i = v
    rintro (_ | _ | _)
    · exact .ok
    · exact .fail
    · exact .diverge
  | .star x, hn, a, p, q, i => by
    have hn' : x.noSoi = true := hn
    have h1 := run_sm skip x hn' a p q i
    simp only [run]
    revert h1
    generalize hu : run skip x a p i = u
    generalize hv : run skip x a q i = v
    rintro (_ | _ | _)
    · rename_i c r ps qs
      have h3 := repLoop_sm (s := fun p i => seqRes skip a p (.ok [] i []) (fun p' i' => run skip x a p' i'))
        (s' := fun p i => seqRes skip a p (.ok [] i []) (fun p' i' => run skip x a p' i'))
        (fun p q i => seqRes_sm .ok fun p q i => run_sm skip x hn' a p q i) (r.length + 1) (p + blen c) (q + blen c) r
      dsimp only
      revert h3
      generalize repLoop _ (r.length + 1) (p + blen c) r = u
      generalize repLoop _ (r.length + 1) (q + blen c) r = v
      rintro (_ | _ | _)
      · exact .ok
      · exact .fail
      · exact .diverge
    · exact .ok
    · exact .diverge

/-- Moving an attempt to the right. -/
def later (δ : Nat) (x : Option Nat) : Option Nat := x.map (· + δ)

theorem later_further (δ : Nat) (x y) : later δ (further x y) = further (later δ x) (later δ y) := by
  cases x <;> cases y <;> simp [further, later]

theorem attemptNext_sh {skip a p δ ra ra'} {kb : Nat → Str → Option Nat} (h1 : ResSm ra ra')
    (h2 : ∀ p i, kb (p + δ) i = later δ (kb p i)) :
    attemptNext skip a (p + δ) ra' kb = later δ (attemptNext skip a p ra kb) := by
  cases h1 with
  | fail => rfl
  | diverge => rfl
  | @ok c r ps qs =>
    simp only [attemptNext]
    split
    · rename_i c2 r2 p2 _
      rw [show p + δ + blen c + blen c2 = p + blen c + blen c2 + δ by omega]
      exact h2 _ _
    · rfl

theorem attemptLoop_sh {δ : Nat} {s : Nat → Str → Res} {att : Nat → Str → Option Nat}
    (h : ∀ p q i, ResSm (s p i) (s q i)) (h2 : ∀ p i, att (p + δ) i = later δ (att p i)) : ∀ fuel p i,
    attemptLoop s att fuel (p + δ) i = later δ (attemptLoop s att fuel p i)
  | 0, p, i => rfl
  | fuel + 1, p, i => by
    have h1 := h p (p + δ) i
    simp only [attemptLoop, h2]
    revert h1
    generalize s p i = x
    generalize s (p + δ) i = y
    rintro (_ | _ | _)
    · rename_i c r ps qs
      cases c with
      | nil => rfl
      | cons c cs =>
        dsimp only
        rw [later_further, ← attemptLoop_sh h h2 fuel (p + blen (c :: cs)) r,
          show p + δ + blen (c :: cs) = p + blen (c :: cs) + δ by omega]
    · rfl
    · rfl

theorem attempt_sh (skip : Str → Res) (δ : Nat) : ∀ (e : PExpr), e.noSoi = true → ∀ a p i,
    attempt skip e a (p + δ) i = later δ (attempt skip e a p i)
  | .str _, _, _, _, _ | .insens _, _, _, _, _ | .cls _, _, _, _, _ | .neg _, _, _, _, _ => rfl
  | .soi, hn, _, _, _ => by simp [PExpr.noSoi] at hn
  | .eoi, _, a, p, i => by
    simp only [attempt]
    split
    · rfl
    · split <;> rfl
  | .seq x y, hn, a, p, i => by
    simp only [PExpr.noSoi, Bool.and_eq_true] at hn
    simp only [attempt]
    rw [later_further, attempt_sh skip δ x hn.1]
    congr 1
    exact attemptNext_sh (run_sm skip x hn.1 a _ _ _) fun p i => attempt_sh skip δ y hn.2 a p i
  | .alt x y, hn, a, p, i => by
    simp only [PExpr.noSoi, Bool.and_eq_true] at hn
    have h1 := run_sm skip x hn.1 a p (p + δ) i
    simp only [attempt, attempt_sh skip δ x hn.1, attempt_sh skip δ y hn.2]
    revert h1
    generalize run skip x a p i = u
    generalize run skip x a (p + δ) i = v
    rintro (_ | _ | _)
    · rfl
    · exact (later_further _ _ _).symm
    · rfl
  | .opt x, hn, a, p, i => by
    simp only [attempt]
    exact attempt_sh skip δ x hn a p i
  | .rule r m b, hn, a, p, i => by
    have hn' : b.noSoi = true := hn
    have h1 := run_sm skip b hn' (bodyAtomicity m a) p (p + δ) i
    simp only [attempt, attempt_sh skip δ b hn']
    revert h1
    generalize run skip b (bodyAtomicity m a) p i = u
    generalize run skip b (bodyAtomicity m a) (p + δ) i = v
    rintro (_ | _ | _)
    · rfl
    · dsimp only
      rw [later_further]
      congr 1
      split <;> rfl
    · rfl
  | .star x, hn, a, p, i => by
    have hn' : x.noSoi = true := hn
    have h1 := run_sm skip x hn' a p (p + δ) i
    simp only [attempt, attempt_sh skip δ x hn']
    revert h1
    generalize run skip x a p i = u
    generalize run skip x a (p + δ) i = v
    rintro (_ | _ | _)
    · rename_i c r ps qs
      dsimp only
      rw [later_further, show p + δ + blen c = p + blen c + δ by omega]
      congr 1
      refine attemptLoop_sh ?_ ?_ _ _ _
      · exact fun p q i => seqRes_sm .ok fun p q i => run_sm skip x hn' a p q i
      exact fun p i => attemptNext_sh .ok fun p i => attempt_sh skip δ x hn' a p i
    · rfl
    · rfl

/-- Trivia in front of a rejected text moves the error. -/
theorem errorPos_prepend {w : Str} (hw : Blank w) {t : Str} (hf : pestParse t = .fail) :
    syntaxErrorPos (w ++ t) = blen w + syntaxErrorPos t := by
  obtain ⟨w0, r, c, r1, ps, w1, y, ys, h1, h2, h3⟩ := pest_fail_shape hf
  obtain ⟨c0, r0, k1, k2⟩ := skip_prepend hw t
  rw [h1] at k1
  obtain ⟨rfl, rfl, -⟩ := Res.ok.inj k1
  have hp : blen (w ++ w0) = blen w0 + blen w := by rw [blen_append, Nat.add_comm]
  have hsm := run_sm G.skip (.star G.top_decl) (by decide) .nonAtomic (blen w0) (blen (w ++ w0)) r
  rw [h2] at hsm
  generalize hv : run G.skip (.star G.top_decl) .nonAtomic (blen (w ++ w0)) r = v at hsm
  cases hsm with
  | @ok c r1 ps qs =>
    rw [attempt_schema h1 h2 h3, attempt_schema k2 hv h3, hp, attempt_sh G.skip (blen w) (.star G.top_decl) (by decide)]
    generalize attempt G.skip (.star G.top_decl) .nonAtomic (blen w0) r = z
    cases z with
    | none => simp [further, later]; omega
    | some z => simp [further, later]; omega

end Dbml
