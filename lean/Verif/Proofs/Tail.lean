import Verif.Proofs.SkipTail
import Verif.Proofs.First
import Verif.Proofs.RelabelWalk

/-!
# Recognition, with white space appended to the text

`run_tail`: what an expression does on `s` and on `s ++ w`, for `w` all white space.
-/

namespace Dbml
open Syntax Source

abbrev clamp : Nat → Span → Span := Span.cut

variable {n : Nat}

mutual
/-- A pair with its spans cut at `n` and without the texts of the rules that may end in trivia. -/
def er (n : Nat) : Pair → Pair
  | .mk r sp t cs => .mk r (F (clamp n) sp) (if r.leaf then t else []) (erL n cs)
def erL (n : Nat) : List Pair → List Pair
  | [] => []
  | p :: ps => er n p :: erL n ps
end

theorem erL_append (a b : List Pair) : erL n (a ++ b) = erL n a ++ erL n b := by
  induction a with
  | nil => rfl
  | cons p a ih => simp [erL, ih]

/-- The expression emits no pairs. -/
def PExpr.pairless : PExpr → Bool
  | .str _ | .insens _ | .cls _ | .soi => true
  | .eoi => false
  | .seq a b | .alt a b => a.pairless && b.pairless
  | .opt a | .star a => a.pairless
  | .neg _ => true
  | .rule .. => false

theorem pairless_nil {skip T} : ∀ (e : PExpr) {a pos c rest ps}, e.pairless = true →
    Matches skip T e a pos c rest ps → ps = []
  | .str s, a, pos, c, rest, ps, hn, h => h.2
  | .insens s, a, pos, c, rest, ps, hn, h => h.2
  | .cls p, a, pos, c, rest, ps, hn, h => by obtain ⟨x, -, -, h⟩ := h; exact h
  | .soi, a, pos, c, rest, ps, hn, h => h.2.2
  | .eoi, _, _, _, _, _, hn, _ | .rule .., _, _, _, _, _, hn, _ => by simp [PExpr.pairless] at hn
  | .seq x y, a, pos, c, rest, ps, hn, h => by
    obtain ⟨c1, t, c2, p1, p2, -, rfl, h1, -, h2⟩ := h
    simp only [PExpr.pairless, Bool.and_eq_true] at hn
    simp [pairless_nil x hn.1 h1, pairless_nil y hn.2 h2]
  | .alt x y, a, pos, c, rest, ps, hn, h => by
    simp only [PExpr.pairless, Bool.and_eq_true] at hn
    rcases h with h | ⟨-, h⟩
    · exact pairless_nil x hn.1 h
    · exact pairless_nil y hn.2 h
  | .opt x, a, pos, c, rest, ps, hn, h => by
    rcases h with ⟨-, h, -⟩ | h
    · exact h
    · exact pairless_nil x hn h
  | .neg x, a, pos, c, rest, ps, hn, h => h.2.1
  | .star x, a, pos, c, rest, ps, hn, h => by
    rcases h with ⟨-, h, -⟩ | ⟨c1, c2, p1, p2, -, rfl, h1, hc⟩
    · exact h
    · have : p2 = [] := by
        clear h1
        generalize pos + blen c1 = pos at hc
        induction hc with
        | nil => rfl
        | cons _ h _ ih => simp [pairless_nil x hn h, ih]
      simp [pairless_nil x hn h1, this]

def isWhite (c : Char) : Bool := decide (IsSpace c)

/-- Fails at the end of the text and, where nothing is skipped, on white space. -/
def PExpr.hard (e : PExpr) (a : Atomicity) : Bool :=
  e.wf && e.nonNull && !e.starts none &&
    (a == .nonAtomic || (!e.starts (some ' ') && !e.starts (some '\t') && !e.starts (some '\n') && !e.starts (some '\r')))

theorem hard_fail {e : PExpr} {a} (h : e.hard a = true) {pos i} (hi : White i) (ha : a = .nonAtomic → i = []) :
    run G.skip e a pos i = .fail := by
  simp only [PExpr.hard, Bool.and_eq_true, Bool.or_eq_true, Bool.not_eq_true', beq_iff_eq] at h
  obtain ⟨⟨⟨h1, h2⟩, h3⟩, h4⟩ := h
  refine fail_of_starts h1 h2 ?_ ?_
  · cases i with
    | nil => exact h3
    | cons c i =>
      rcases h4 with h4 | ⟨⟨⟨h4, h5⟩, h6⟩, h7⟩
      · exact absurd (ha h4) (by simp)
      · rcases hi c (by simp) with rfl | rfl | rfl | rfl <;> assumption
  · intro h; rw [ha h]; exact solid_nil

/-- What appended white space may do to an expression. -/
structure Flags where
  /-- it fails on some text and succeeds with white space appended -/
  late : Bool
  /-- the same, on a non-empty text -/
  latep : Bool
  /-- it succeeds on both, consuming some of the white space -/
  loose : Bool
  /-- in that case, the pairs may differ in more than where they end -/
  bad : Bool

def Flags.none : Flags := ⟨false, false, false, false⟩

/-- Sequences: `h` says that the second part is `hard`, `z` that the first consumes nothing and nothing is skipped. -/
def Flags.seq (a : Atomicity) (x y : Flags) (h z : Bool) : Flags where
  late := y.late || (x.late && !h)
  latep := y.latep || (x.latep && !h) || (y.late && !z)
  loose := y.loose || (!h && (x.loose || a == .nonAtomic))
  bad := y.bad || (x.bad && !h)

/-- Repetitions, from the flags of a step; `p`: the step emits no pairs. -/
def Flags.rep (x : Flags) (p : Bool) : Flags := ⟨false, false, x.loose || x.late, x.bad || (x.late && !p)⟩

def whiteLast (k : Str) : Bool :=
  match k.getLast? with
  | some c => isWhite c
  | none => false

def PExpr.isNeg : PExpr → Bool
  | .neg _ => true
  | _ => false

def PExpr.flags : PExpr → Atomicity → Flags
  | .str k, _ => ⟨whiteLast k, whiteLast k && decide (1 < k.length), false, false⟩
  | .insens k, _ => ⟨whiteLast (k.map asciiLower), whiteLast (k.map asciiLower) && decide (1 < k.length), false, false⟩
  | .cls p, _ => ⟨p ' ' || p '\t' || p '\n' || p '\r', false, false, false⟩
  | .soi, _ | .eoi, _ | .neg _, _ => .none
  | .seq x y, a => .seq a (x.flags a) (y.flags a) (y.hard a) (x.isNeg && a != .nonAtomic)
  | .alt x y, a =>
    ⟨(y.flags a).late, (y.flags a).latep, (x.flags a).loose || (y.flags a).loose, (x.flags a).bad || (y.flags a).bad⟩
  | .opt x, a => (x.flags a).rep x.pairless
  | .star x, a => (Flags.seq a .none (x.flags a) (x.hard a) (a != .nonAtomic)).rep x.pairless
  | .rule r m b, a =>
    let f := b.flags (bodyAtomicity m a)
    ⟨f.late, f.latep, f.loose || !b.nonNull, f.bad || (r.leaf && f.loose) || !b.nonNull⟩

/-- The expressions for which the flags are right. -/
def PExpr.good : PExpr → Atomicity → Bool
  | .str _, _ | .insens _, _ | .cls _, _ => true
  | .soi, _ | .eoi, _ => false
  | .seq x y, a => x.good a && y.good a
  | .alt x y, a => x.good a && y.good a && !(x.flags a).late
  | .opt x, a => x.good a && !(x.flags a).latep
  | .neg x, a => x.good a && !(x.flags a).late
  | .star x, a => x.good a && x.nonNull && !(Flags.seq a .none (x.flags a) (x.hard a) (a != .nonAtomic)).latep &&
      !(x.flags a).latep
  | .rule _ m b, a => b.good (bodyAtomicity m a)

/-- Outcomes on `s` and on `s ++ w`. -/
inductive Out (n : Nat) (w s : Str) (f : Flags) : Res → Res → Prop
  | fail : Out n w s f .fail .fail
  | same {c r ps} : s = c ++ r → Out n w s f (.ok c r ps) (.ok c (r ++ w) ps)
  | loose {w1 w2 ps qs} : w = w1 ++ w2 → f.loose = true → (f.bad = false → erL n ps = erL n qs) →
      Out n w s f (.ok s [] ps) (.ok (s ++ w1) w2 qs)
  | late {w1 w2 qs} : w = w1 ++ w2 → f.late = true → (s ≠ [] → f.latep = true) →
      Out n w s f .fail (.ok (s ++ w1) w2 qs)


theorem Out.mono {w s f f' x y} (h : Out n w s f x y) (h1 : f.late = true → f'.late = true)
    (h2 : f.latep = true → f'.latep = true) (h3 : f.loose = true → f'.loose = true)
    (h4 : f'.bad = false → f.bad = false) : Out n w s f' x y := by
  cases h with
  | fail => exact .fail
  | same h => exact .same h
  | loose e h h' => exact .loose e (h3 h) fun hb => h' (h4 hb)
  | late e h h' => exact .late e (h1 h) fun hs => h2 (h' hs)

/-! ## Literals -/

theorem stripPrefix_grow {k s r w : Str} (h : stripPrefix k s = some r) : stripPrefix k (s ++ w) = some (r ++ w) := by
  induction k generalizing s with
  | nil => simp [stripPrefix] at h ⊢; exact h
  | cons c k ih =>
    cases s with
    | nil => simp [stripPrefix] at h
    | cons d s =>
      simp only [stripPrefix, List.cons_append] at h ⊢
      split at h
      · rename_i hcd; rw [if_pos hcd]; exact ih h
      · contradiction

theorem stripPrefix_late {k s r w : Str} (h : stripPrefix k s = none) (h' : stripPrefix k (s ++ w) = some r) :
    ∃ w1, w1 ≠ [] ∧ k = s ++ w1 ∧ w = w1 ++ r := by
  induction k generalizing s with
  | nil => simp [stripPrefix] at h
  | cons c k ih =>
    cases s with
    | nil => exact ⟨c :: k, by simp, rfl, by simpa using stripPrefix_some h'⟩
    | cons d s =>
      simp only [stripPrefix, List.cons_append] at h h'
      split at h
      · rename_i hcd
        rw [if_pos hcd] at h'
        obtain ⟨w1, h1, h2, h3⟩ := ih h h'
        exact ⟨w1, h1, by rw [hcd, h2]; rfl, h3⟩
      · rename_i hcd; rw [if_neg hcd] at h'; contradiction

theorem stripPrefixCI_grow {k s m r w : Str} (h : stripPrefixCI k s = some (m, r)) :
    stripPrefixCI k (s ++ w) = some (m, r ++ w) := by
  induction k generalizing s m with
  | nil => simp [stripPrefixCI] at h ⊢; exact ⟨h.1, by rw [h.2]⟩
  | cons c k ih =>
    cases s with
    | nil => simp [stripPrefixCI] at h
    | cons d s =>
      simp only [stripPrefixCI, List.cons_append] at h ⊢
      split at h
      · rename_i hcd
        simp only [Option.map_eq_some_iff] at h
        obtain ⟨⟨m', r'⟩, h1, h2⟩ := h
        simp only [Prod.mk.injEq] at h2
        obtain ⟨rfl, rfl⟩ := h2
        rw [if_pos hcd, ih h1]; rfl
      · contradiction

theorem stripPrefixCI_late {k s m r w : Str} (h : stripPrefixCI k s = none) (h' : stripPrefixCI k (s ++ w) = some (m, r)) :
    ∃ w1, w1 ≠ [] ∧ m = s ++ w1 ∧ w = w1 ++ r := by
  induction k generalizing s m with
  | nil => simp [stripPrefixCI] at h
  | cons c k ih =>
    cases s with
    | nil =>
      have := stripPrefixCI_some h'
      refine ⟨m, ?_, rfl, by simpa using this.1⟩
      rintro rfl
      simp at this
    | cons d s =>
      simp only [stripPrefixCI, List.cons_append] at h h'
      split at h
      · rename_i hcd
        rw [if_pos hcd] at h'
        simp only [Option.map_eq_none_iff] at h
        simp only [Option.map_eq_some_iff] at h'
        obtain ⟨⟨m', r'⟩, h1, h2⟩ := h'
        simp only [Prod.mk.injEq] at h2
        obtain ⟨rfl, rfl⟩ := h2
        obtain ⟨w1, h2, h3, h4⟩ := ih h h1
        exact ⟨w1, h2, by rw [h3]; rfl, h4⟩
      · rename_i hcd; rw [if_neg hcd] at h'; contradiction

theorem whiteLast_of {s w1 : Str} (h : w1 ≠ []) (hw : White w1) : whiteLast (s ++ w1) = true := by
  rcases List.eq_nil_or_concat w1 with rfl | ⟨l, x, rfl⟩
  · exact absurd rfl h
  · rw [List.concat_eq_append] at *
    have hx := hw x (by simp)
    have : (s ++ (l ++ [x])).getLast? = some x := by rw [← List.append_assoc]; simp
    simp only [whiteLast, this, isWhite, hx, decide_true]

theorem lower_white {c : Char} (h : IsSpace c) : asciiLower c = c := by
  rcases h with rfl | rfl | rfl | rfl <;> rfl

theorem map_lower_white {w : Str} (h : White w) : w.map asciiLower = w := by
  induction w with
  | nil => rfl
  | cons c w ih => simp [lower_white (h c (by simp)), ih fun x hx => h x (by simp [hx])]

/-! ## Sequences -/

/-- Put what came before in front of an outcome. -/
def Res.app (c0 : Str) (ps : List Pair) : Res → Res
  | .ok c r qs => .ok (c0 ++ c) r (ps ++ qs)
  | .fail => .fail
  | .diverge => .diverge

theorem seqRes_eq {a pos c1 r1 p1 c2 r2 q kb} (h : skipIf G.skip a r1 = .ok c2 r2 q) :
    seqRes G.skip a pos (.ok c1 r1 p1) kb = (kb (pos + blen c1 + blen c2) r2).app (c1 ++ c2) p1 := by
  simp only [seqRes, h]
  cases kb (pos + blen c1 + blen c2) r2 <;> rfl

theorem seqRes_out {a w s pos pos'} {fx fy : Flags} {hd z : Bool} {ra ra' : Res} {kb : Nat → Str → Res}
    (hw : White w) (hp : pos = pos' ∨ s = []) (hn : pos + blen s = n) (hra : Out n w s fx ra ra')
    (hk : ∀ p p' i v, White v → (p = p' ∨ i = []) → p + blen i = n → Out n v i fy (kb p i) (kb p' (i ++ v)))
    (hhard : hd = true → ∀ p i, White i → (a = .nonAtomic → i = []) → kb p i = .fail)
    (hsound : ∀ p i c r ps, kb p i = .ok c r ps → i = c ++ r) (htot : ∀ p i, kb p i ≠ .diverge)
    (hz : z = true → a ≠ .nonAtomic ∧ ∀ c r ps, ra = .ok c r ps → c = []) :
    Out n w s (.seq a fx fy hd z) (seqRes G.skip a pos ra kb) (seqRes G.skip a pos' ra' kb) := by
  -- the second part, after the two runs have reached the same place
  have A : ∀ c0 i ps p p', s = c0 ++ i → (p = p' ∨ i = []) → p + blen i = n → (z = true → c0 = []) →
      Out n w s (.seq a fx fy hd z)
        ((kb p i).app (c0) ps)
        ((kb p' (i ++ w)).app (c0) ps) := by
    rintro c0 i ps p p' rfl hpi hn hz
    have := hk p p' i w hw hpi hn
    revert this
    generalize kb p i = X
    generalize kb p' (i ++ w) = Y
    rintro (_ | h | ⟨h1, h2, h3⟩ | ⟨h1, h2, h3⟩)
    · exact .fail
    · exact .same (by rw [h, List.append_assoc])
    · simp only [Res.app, ← List.append_assoc]
      refine .loose h1 (by simp [Flags.seq, h2]) fun hb => ?_
      simp only [Flags.seq, Bool.or_eq_false_iff] at hb
      rw [erL_append, erL_append, h3 hb.1]
    · simp only [Res.app, ← List.append_assoc]
      refine .late h1 (by simp [Flags.seq, h2]) fun hs => ?_
      by_cases hi : i = []
      · subst hi
        cases z with
        | true => simp [hz rfl] at hs
        | false => simp [Flags.seq, h2]
      · simp [Flags.seq, h3 hi]
  -- the second part, after the first has reached the end of the text
  have B : ∀ u v ps qs p p', p = n → w = u ++ v → (fx.loose = true ∨ a = .nonAtomic) → (a = .nonAtomic → v = []) →
      (z = true → s = []) → (fx.bad = false → erL n ps = erL n qs) →
      Out n w s (.seq a fx fy hd z)
        ((kb p []).app (s) ps)
        ((kb p' v).app (s ++ u) qs) := by
    rintro u v ps qs p p' hpn rfl hl hv hz he
    have := hk p p' [] v hw.tail (.inr rfl) hpn
    have hh := hhard
    have hnh : kb p [] ≠ .fail → hd = false := by
      intro h
      cases hd with
      | false => rfl
      | true => exact absurd (hh rfl p [] white_nil fun _ => rfl) h
    revert this hnh
    rw [List.nil_append]
    generalize kb p [] = X
    generalize kb p' v = Y
    rintro (_ | h | ⟨h1, h2, h3⟩ | ⟨h1, h2, h3⟩) hnh
    · exact .fail
    · rename_i c r ps3
      have := hnh (by simp)
      obtain ⟨rfl, rfl⟩ : c = [] ∧ r = [] := by simpa using h.symm
      have e : Out n (u ++ v) s (.seq a fx fy hd z) (.ok s [] (ps ++ ps3)) (.ok (s ++ u) v (qs ++ ps3)) := by
        refine .loose rfl ?_ fun hb => ?_
        · rcases hl with hl | hl <;> simp [Flags.seq, this, hl]
        · simp only [Flags.seq, this, Bool.or_eq_false_iff, Bool.not_false, Bool.and_true] at hb
          rw [erL_append, erL_append, he hb.2]
      simpa [Res.app] using e
    · rename_i w1 w2 ps3 qs3
      have := hnh (by simp)
      subst h1
      have e : Out n (u ++ (w1 ++ w2)) s (.seq a fx fy hd z) (.ok s [] (ps ++ ps3)) (.ok (s ++ (u ++ w1)) w2 (qs ++ qs3)) := by
        refine .loose (by simp) (by simp [Flags.seq, h2]) fun hb => ?_
        simp only [Flags.seq, this, Bool.or_eq_false_iff, Bool.not_false, Bool.and_true] at hb
        rw [erL_append, erL_append, he hb.2, h3 hb.1]
      simpa [Res.app] using e
    · rename_i w1 w2 qs3
      subst h1
      have e : Out n (u ++ (w1 ++ w2)) s (.seq a fx fy hd z) .fail (.ok (s ++ (u ++ w1)) w2 (qs ++ qs3)) := by
        refine .late (by simp) (by simp [Flags.seq, h2]) fun hs => ?_
        cases z with
        | true => exact absurd (hz rfl) hs
        | false => simp [Flags.seq, h2]
      simpa [Res.app] using e
  have skip_nil : G.skip [] = .ok [] [] [] := (Skips.nil solid_nil).skip
  cases hra with
  | fail => exact .fail
  | late e h1 h2 =>
    rename_i w1 w2 qs
    subst e
    -- what is left after skipping
    have hsk : ∃ t i, skipIf G.skip a w2 = .ok t i [] ∧ w2 = t ++ i ∧ (a = .nonAtomic → i = []) := by
      cases a with
      | nonAtomic => exact ⟨w2, [], (skips_white hw.tail).skip, by simp, fun _ => rfl⟩
      | compound => exact ⟨[], w2, rfl, rfl, fun h => by cases h⟩
      | atomic => exact ⟨[], w2, rfl, rfl, fun h => by cases h⟩
    obtain ⟨t, i, hsk, rfl, hi⟩ := hsk
    rw [seqRes_eq hsk]
    simp only [seqRes]
    have hwi : White i := hw.tail.tail
    generalize hX : kb (pos' + blen (s ++ w1) + blen t) i = X
    cases X with
    | fail => exact .fail
    | diverge => exact absurd hX (htot _ _)
    | ok c3 r3 p3 =>
      have hdf : hd = false := by
        cases hd with
        | false => rfl
        | true => rw [hhard rfl _ i hwi hi] at hX; cases hX
      have := hsound _ _ _ _ _ hX
      subst this
      have e : Out n (w1 ++ (t ++ (c3 ++ r3))) s (.seq a fx fy hd z) .fail (.ok (s ++ (w1 ++ t ++ c3)) r3 (qs ++ p3)) :=
        .late (by simp) (by simp [Flags.seq, h1, hdf]) fun hs => by simp [Flags.seq, h2 hs, hdf]
      simpa [Res.app] using e
  | @same c r ps hs =>
    by_cases ha : a = .nonAtomic
    · subst ha
      have hzf : z = false := by
        cases z with
        | false => rfl
        | true => exact absurd rfl (hz rfl).1
      obtain ⟨c2, r2, h1, ⟨h2, h3⟩ | ⟨rfl, h3⟩⟩ := skip_tail hw r
      · have hr := (skip_sound _ _ _ _ h1).1
        have hpp : pos = pos' := by
          rcases hp with hp | hp
          · exact hp
          · subst hr; subst hs; simp [h2] at hp
        subst hpp
        rw [seqRes_eq (a := .nonAtomic) h1, seqRes_eq (a := .nonAtomic) h3]
        exact A (c ++ c2) r2 ps _ _ (by rw [hs, hr]; simp) (.inl rfl)
          (by rw [← hn, hs, hr]; simp only [blen_append]; omega) (by simp [hzf])
      · have hr := (skip_sound _ _ _ _ h1).1
        rw [seqRes_eq (a := .nonAtomic) h1, seqRes_eq (a := .nonAtomic) h3]
        have hs2 : c ++ c2 = s := by rw [hs, hr]; simp
        have := B w [] ps ps (pos + blen c + blen c2) (pos' + blen c + blen (c2 ++ w))
          (by rw [← hn, hs, hr]; simp only [blen_append, blen_nil]; omega) (by simp) (.inr rfl) (fun _ => rfl)
          (by simp [hzf]) (fun _ => rfl)
        rw [← hs2] at this ⊢
        simpa using this
    · have hsk : ∀ i, skipIf G.skip a i = .ok [] i [] := by intro i; cases a <;> first | rfl | exact absurd rfl ha
      rw [seqRes_eq (hsk _), seqRes_eq (hsk _)]
      simp only [List.append_nil]
      refine A c r ps _ _ hs ?_ (by rw [← hn, hs]; simp only [blen_append, blen_nil]; omega) fun h => (hz h).2 _ _ _ rfl
      rcases hp with rfl | hp
      · exact .inl rfl
      · subst hs; right; simp at hp; exact hp.2
  | @loose w1 w2 ps qs e h1 h2 =>
    by_cases ha : a = .nonAtomic
    · subst ha
      subst e
      rw [seqRes_eq (a := .nonAtomic) skip_nil, seqRes_eq (a := .nonAtomic) (skips_white hw.tail).skip]
      have := B (w1 ++ w2) [] ps qs (pos + blen s + blen []) (pos' + blen (s ++ w1) + blen w2)
          (by rw [← hn]; simp) (by simp) (.inr rfl) (fun _ => rfl)
          (fun h => absurd rfl (hz h).1) h2
      simpa using this
    · have hsk : ∀ i, skipIf G.skip a i = .ok [] i [] := by intro i; cases a <;> first | rfl | exact absurd rfl ha
      rw [seqRes_eq (hsk _), seqRes_eq (hsk _)]
      simp only [List.append_nil]
      exact B w1 w2 ps qs _ _ (by rw [← hn]; simp) e (.inl h1) (fun h => absurd h ha) (fun h => (hz h).2 _ _ _ rfl) h2

/-! ## Repetitions -/

/-- What comes after the first item: nothing if there is none. -/
def cont (s : Str) (L : Nat → Str → Res) (pos : Nat) : Res → Res
  | .fail => .ok [] s []
  | .diverge => .diverge
  | .ok c r ps => (L (pos + blen c) r).app c ps

def loopOf (step : Nat → Str → Res) (pos : Nat) (i : Str) : Res := repLoop step (i.length + 1) pos i

theorem loop_ok {step : Nat → Str → Res} (ht : ∀ p i, step p i ≠ .diverge)
    (hc : ∀ p i c r ps, step p i = .ok c r ps → i = c ++ r ∧ c ≠ []) (pos : Nat) (i : Str) :
    ∃ c r ps, loopOf step pos i = .ok c r ps := by
  cases h : loopOf step pos i with
  | ok c r ps => exact ⟨c, r, ps, rfl⟩
  | fail => exact absurd h (repLoop_ne_fail _ _ _)
  | diverge => exact absurd h (repLoop_total ht hc _ _ _ (by omega))

theorem loop_unfold {step : Nat → Str → Res} (ht : ∀ p i, step p i ≠ .diverge)
    (hc : ∀ p i c r ps, step p i = .ok c r ps → i = c ++ r ∧ c ≠ []) (pos : Nat) (i : Str) :
    loopOf step pos i = cont i (loopOf step) pos (step pos i) := by
  unfold loopOf
  rw [repLoop]
  cases h : step pos i with
  | fail => rfl
  | diverge => rfl
  | ok c r ps =>
    obtain ⟨rfl, hne⟩ := hc _ _ _ _ _ h
    cases c with
    | nil => exact absurd rfl hne
    | cons x xs =>
      obtain ⟨c', r', ps', h'⟩ := loop_ok ht hc (pos + blen (x :: xs)) r
      simp only [cont]
      rw [show repLoop step (r.length + 1) (pos + blen (x :: xs)) r = _ from h',
        repLoop_mono (m := (x :: xs ++ r).length) (by simp) h']
      rfl

theorem loop_split {step : Nat → Str → Res}
    (hc : ∀ p i c r ps, step p i = .ok c r ps → i = c ++ r ∧ c ≠ []) {pos i c r ps} (h : loopOf step pos i = .ok c r ps) :
    i = c ++ r :=
  (repLoop_sound (T := fun _ _ => True) (P := fun _ _ _ _ => True)
    (fun pos inp c r ps h => ⟨(hc _ _ _ _ _ h).1, [], c, rfl, trivial, trivial⟩) _ _ _ _ _ _ h).1

theorem loop_pairless {step : Nat → Str → Res} (hp : ∀ p i c r ps, step p i = .ok c r ps → ps = []) :
    ∀ n pos i c r ps, repLoop step n pos i = .ok c r ps → ps = []
  | 0, pos, i, c, r, ps, h => by simp [repLoop] at h
  | n + 1, pos, i, c, r, ps, h => by
    rw [repLoop] at h
    split at h
    · injection h with _ _ h; exact h.symm
    · contradiction
    · contradiction
    · rename_i hs
      split at h <;> try contradiction
      rename_i hl
      injection h with _ _ h
      rw [← h, hp _ _ _ _ _ hs, loop_pairless hp n _ _ _ _ _ hl]
      rfl

/-- One item and the rest of the loop. -/
theorem cont_out {step : Nat → Str → Res} {f : Flags} {pl : Bool} (ht : ∀ p i, step p i ≠ .diverge)
    (hc : ∀ p i c r ps, step p i = .ok c r ps → i = c ++ r ∧ c ≠ [])
    (hpl : pl = true → ∀ p i c r ps, step p i = .ok c r ps → ps = [])
    (hS : ∀ p p' i v, White v → (p = p' ∨ i = []) → p + blen i = n → Out n v i f (step p i) (step p' (i ++ v)))
    {w s pos pos'} (hw : White w) (hp : pos = pos' ∨ s = []) (hn : pos + blen s = n) {x x' : Res} (hx : Out n w s f x x')
    (hlp : f.latep = false) (hx1 : ∀ c r ps, x = .ok c r ps → c ≠ []) (hpx : pl = true → ∀ c r ps, x' = .ok c r ps → ps = [])
    (hL : ∀ r, r.length < s.length → ∀ p, p + blen r = n → Out n w r (f.rep pl) (loopOf step p r) (loopOf step p (r ++ w))) :
    Out n w s (f.rep pl) (cont s (loopOf step) pos x) (cont (s ++ w) (loopOf step) pos' x') := by
  have hnil : ∀ p, step p [] = .fail := by
    intro p
    cases h : step p [] with
    | fail => rfl
    | diverge => exact absurd h (ht _ _)
    | ok c r ps => have := hc _ _ _ _ _ h; simp at this; exact absurd this.1.1 this.2
  have hlnil : ∀ p, loopOf step p [] = .ok [] [] [] := by
    intro p; rw [loop_unfold ht hc, hnil]; rfl
  -- the loop on white space alone
  have hlw : ∀ p v, White v → ∃ c r ps, loopOf step p v = .ok c r ps ∧ v = c ++ r ∧ ((f.late && !pl) = false → ps = []) := by
    intro p v hv
    obtain ⟨c, r, ps, h⟩ := loop_ok ht hc p v
    refine ⟨c, r, ps, h, loop_split hc h, fun hb => ?_⟩
    cases pl with
    | true => exact loop_pairless (hpl rfl) _ _ _ _ _ _ h
    | false =>
      have hl : f.late = false := by simpa using hb
      have := hS n p [] v hv (.inr rfl) rfl
      rw [hnil, List.nil_append] at this
      rw [loop_unfold ht hc] at h
      revert this h
      generalize step p v = Y
      intro h' hY
      cases hY with
      | fail => injection h' with _ _ h; exact h.symm
      | late _ h _ => rw [hl] at h; contradiction
  cases hx with
  | fail => exact .same rfl
  | @same c r ps hs =>
    have hne := hx1 _ _ _ rfl
    have hpp : pos = pos' := by
      rcases hp with hp | hp
      · exact hp
      · subst hp; simp at hs; exact absurd hs.1 hne
    subst hpp hs
    have := hL r (by cases c with | nil => exact absurd rfl hne | cons => simp; omega) (pos + blen c)
      (by rw [← hn]; simp only [blen_append]; omega)
    simp only [cont]
    revert this
    generalize loopOf step (pos + blen c) r = X
    generalize loopOf step (pos + blen c) (r ++ w) = Y
    rintro (_ | h | ⟨h1, h2, h3⟩ | ⟨h1, h2, h3⟩)
    · exact .fail
    · exact .same (by rw [h]; simp)
    · simp only [Res.app, ← List.append_assoc]
      exact .loose h1 h2 fun hb => by rw [erL_append, erL_append, h3 hb]
    · simp [Flags.rep] at h2
  | @loose w1 w2 ps qs e h1 h2 =>
    subst e
    obtain ⟨c, r, qs2, h3, rfl, h4⟩ := hlw (pos' + blen (s ++ w1)) w2 hw.tail
    simp only [cont, hlnil, h3, Res.app, List.append_nil]
    have e : Out n (w1 ++ (c ++ r)) s (f.rep pl) (.ok s [] ps) (.ok (s ++ (w1 ++ c)) r (qs ++ qs2)) := by
      refine .loose (by simp) (by simp [Flags.rep, h1]) fun hb => ?_
      simp only [Flags.rep, Bool.or_eq_false_iff] at hb
      rw [h4 hb.2, h2 hb.1, List.append_nil]
    simpa using e
  | @late w1 w2 qs e h1 h2 =>
    subst e
    have hs : s = [] := by
      cases s with
      | nil => rfl
      | cons c s => rw [h2 (by simp)] at hlp; contradiction
    subst hs
    obtain ⟨c, r, qs2, h3, rfl, h4⟩ := hlw (pos' + blen ([] ++ w1)) w2 hw.tail
    have hpx := fun h => hpx h _ _ _ rfl
    simp only [cont, h3, Res.app]
    have e : Out n (w1 ++ (c ++ r)) [] (f.rep pl) (.ok [] [] []) (.ok ([] ++ (w1 ++ c)) r (qs ++ qs2)) := by
      refine .loose (by simp) (by simp [Flags.rep, h1]) fun hb => ?_
      simp only [Flags.rep, Bool.or_eq_false_iff] at hb
      rw [h4 hb.2, hpx (by simpa [h1] using hb.2)]; rfl
    simpa using e

theorem loop_out {step : Nat → Str → Res} {f : Flags} {pl : Bool} (ht : ∀ p i, step p i ≠ .diverge)
    (hc : ∀ p i c r ps, step p i = .ok c r ps → i = c ++ r ∧ c ≠ [])
    (hpl : pl = true → ∀ p i c r ps, step p i = .ok c r ps → ps = [])
    (hS : ∀ p p' i v, White v → (p = p' ∨ i = []) → p + blen i = n → Out n v i f (step p i) (step p' (i ++ v)))
    (hlp : f.latep = false) {w} (hw : White w) :
    ∀ k s, s.length < k → ∀ p, p + blen s = n → Out n w s (f.rep pl) (loopOf step p s) (loopOf step p (s ++ w))
  | 0, s, h, p, _ => by omega
  | k + 1, s, h, p, hn => by
    rw [loop_unfold ht hc, loop_unfold ht hc]
    exact cont_out ht hc hpl hS hw (.inl rfl) hn (hS _ _ _ _ hw (.inl rfl) hn) hlp (fun c r ps h => (hc _ _ _ _ _ h).2)
      (fun h c r ps h' => hpl h _ _ _ _ _ h') fun r hr p hp =>
        loop_out ht hc hpl hS hlp hw k r (by omega) p hp

/-! ## All expressions -/

theorem isNeg_empty {x : PExpr} (h : x.isNeg = true) {a pos s c r ps} (hr : run G.skip x a pos s = .ok c r ps) : c = [] := by
  cases x <;> simp [PExpr.isNeg] at h
  exact (run_sound skip_sound _ _ _ _ _ _ _ hr).2.1

/-- **White space at the end of the text.** -/
theorem run_tail : ∀ (e : PExpr), e.wf = true → ∀ a, e.good a = true → ∀ w, White w → ∀ pos pos' s, (pos = pos' ∨ s = []) → pos + blen s = n →
    Out n w s (e.flags a) (run G.skip e a pos s) (run G.skip e a pos' (s ++ w))
  | .str k, _, a, _, w, hw, pos, pos', s, _, _ => by
    simp only [run]
    cases h : stripPrefix k s with
    | some r => rw [stripPrefix_grow h]; exact .same (stripPrefix_some h)
    | none =>
      cases h' : stripPrefix k (s ++ w) with
      | none => exact .fail
      | some r =>
        obtain ⟨w1, h1, rfl, rfl⟩ := stripPrefix_late h h'
        have := whiteLast_of (s := s) h1 hw.head
        refine .late rfl (by simp [PExpr.flags, this]) fun hs => ?_
        cases s <;> cases w1 <;> simp_all [PExpr.flags]
        omega
  | .insens k, _, a, _, w, hw, pos, pos', s, _, _ => by
    simp only [run]
    cases h : stripPrefixCI k s with
    | some x =>
      obtain ⟨m, r⟩ := x
      rw [stripPrefixCI_grow h]; exact .same (stripPrefixCI_some h).1
    | none =>
      cases h' : stripPrefixCI k (s ++ w) with
      | none => exact .fail
      | some x =>
        obtain ⟨m, r⟩ := x
        obtain ⟨w1, h1, rfl, rfl⟩ := stripPrefixCI_late h h'
        have hk := (stripPrefixCI_some h').2
        have := whiteLast_of (s := s.map asciiLower) h1 hw.head
        rw [← map_lower_white hw.head, ← List.map_append, hk] at this
        have hlen : k.length = (s ++ w1).length := by simpa using (congrArg List.length hk).symm
        refine .late rfl (by simp [PExpr.flags, this]) fun hs => ?_
        cases s <;> cases w1 <;> simp_all [PExpr.flags]
        omega
  | .cls p, _, a, _, w, hw, pos, pos', s, _, _ => by
    cases s with
    | cons c s =>
      simp only [run, List.cons_append]
      split
      · exact .same (c := [c]) rfl
      · exact .fail
    | nil =>
      cases w with
      | nil => exact .fail
      | cons c w =>
        simp only [run, List.nil_append]
        split
        · rename_i hc
          refine .late (w1 := [c]) (s := []) rfl ?_ fun h => absurd rfl h
          rcases hw c (by simp) with rfl | rfl | rfl | rfl <;> simp [PExpr.flags, hc]
        · exact .fail
  | .soi, _, a, hg, _, _, _, _, _, _, _ | .eoi, _, a, hg, _, _, _, _, _, _, _ => by simp [PExpr.good] at hg
  | .seq x y, hwf, a, hg, w, hw, pos, pos', s, hp, hn => by
    simp only [PExpr.wf, Bool.and_eq_true] at hwf
    simp only [PExpr.good, Bool.and_eq_true] at hg
    simp only [run]
    refine seqRes_out hw hp hn (run_tail x hwf.1 a hg.1 w hw pos pos' s hp hn)
      (fun p p' i v hv hpi hin => run_tail y hwf.2 a hg.2 v hv p p' i hpi hin)
      (fun h p i hi ha => hard_fail h hi ha) (fun p i c r ps h => (run_sound skip_sound _ _ _ _ _ _ _ h).1)
      (fun p i => run_total skip_sound skip_total y hwf.2 a p i) ?_
    intro h
    simp only [Bool.and_eq_true, bne_iff_ne, ne_eq] at h
    exact ⟨h.2, fun c r ps hr => isNeg_empty h.1 hr⟩
  | .alt x y, hwf, a, hg, w, hw, pos, pos', s, hp, hn => by
    simp only [PExpr.wf, Bool.and_eq_true] at hwf
    simp only [PExpr.good, Bool.and_eq_true, Bool.not_eq_true'] at hg
    have h1 := run_tail x hwf.1 a hg.1.1 w hw pos pos' s hp hn
    have h2 := run_tail y hwf.2 a hg.1.2 w hw pos pos' s hp hn
    simp only [run]
    revert h1
    generalize run G.skip x a pos s = X
    generalize run G.skip x a pos' (s ++ w) = Y
    rintro (_ | h | ⟨h1, h3, h4⟩ | ⟨h1, h3, h4⟩)
    · exact h2.mono id id (by simp +contextual [PExpr.flags]) (by simp +contextual [PExpr.flags])
    · exact .same h
    · exact .loose h1 (by simp [PExpr.flags, h3]) fun hb => h4 (by simp only [PExpr.flags, Bool.or_eq_false_iff] at hb; exact hb.1)
    · rw [hg.2] at h3; contradiction
  | .opt x, hwf, a, hg, w, hw, pos, pos', s, hp, hn => by
    simp only [PExpr.good, Bool.and_eq_true, Bool.not_eq_true'] at hg
    have h1 := run_tail x hwf a hg.1 w hw pos pos' s hp hn
    have hpl : x.pairless = true → ∀ c r ps, run G.skip x a pos' (s ++ w) = .ok c r ps → ps = [] :=
      fun h c r ps hr => pairless_nil x h (run_sound skip_sound _ _ _ _ _ _ _ hr).2
    simp only [run]
    revert h1 hpl
    generalize run G.skip x a pos s = X
    generalize run G.skip x a pos' (s ++ w) = Y
    rintro (_ | h | ⟨h1, h3, h4⟩ | ⟨h1, h3, h4⟩) hpl
    · exact .same rfl
    · exact .same h
    · exact .loose h1 (by simp [PExpr.flags, Flags.rep, h3]) fun hb => h4 (by
        simp only [PExpr.flags, Flags.rep, Bool.or_eq_false_iff] at hb; exact hb.1)
    · have hs : s = [] := by
        cases s with
        | nil => rfl
        | cons c s => rw [h4 (by simp)] at hg; simp at hg
      subst hs
      refine .loose (s := []) h1 (by simp [PExpr.flags, Flags.rep, h3]) fun hb => ?_
      simp only [PExpr.flags, Flags.rep, h3, Bool.or_eq_false_iff, Bool.true_and, Bool.not_eq_false'] at hb
      rw [hpl hb.2 _ _ _ rfl]
  | .neg x, hwf, a, hg, w, hw, pos, pos', s, hp, hn => by
    simp only [PExpr.good, Bool.and_eq_true, Bool.not_eq_true'] at hg
    have h1 := run_tail x hwf a hg.1 w hw pos pos' s hp hn
    simp only [run]
    revert h1
    generalize run G.skip x a pos s = X
    generalize run G.skip x a pos' (s ++ w) = Y
    rintro (_ | h | ⟨h1, h3, h4⟩ | ⟨h1, h3, h4⟩)
    · exact .same rfl
    · exact .fail
    · exact .fail
    · rw [hg.2] at h3; contradiction
  | .rule r m b, hwf, a, hg, w, hw, pos, pos', s, hp, hn => by
    have h1 := run_tail b hwf (bodyAtomicity m a) hg w hw pos pos' s hp hn
    have hnn : b.nonNull = true → ∀ c r ps, run G.skip b (bodyAtomicity m a) pos s = .ok c r ps → c ≠ [] :=
      fun h c r ps hr => nonNull_consumes b h (run_sound skip_sound _ _ _ _ _ _ _ hr).2
    simp only [run]
    revert h1 hnn
    generalize run G.skip b (bodyAtomicity m a) pos s = X
    generalize run G.skip b (bodyAtomicity m a) pos' (s ++ w) = Y
    rintro (_ | h | ⟨h1, h3, h4⟩ | ⟨h1, h3, h4⟩) hnn
    · exact .fail
    · rename_i c rest ps
      rcases hp with rfl | rfl
      · exact .same h
      · obtain ⟨rfl, rfl⟩ : c = [] ∧ rest = [] := by simpa using h.symm
        have hb : b.nonNull = false := by
          cases hb : b.nonNull with
          | false => rfl
          | true => exact absurd rfl (hnn hb _ _ _ rfl)
        refine .loose (s := []) (w1 := []) rfl (by simp [PExpr.flags, hb]) fun h => ?_
        simp [PExpr.flags, hb] at h
    · rename_i w1 w2 ps qs
      refine .loose h1 (by simp [PExpr.flags, h3]) fun hb => ?_
      simp only [PExpr.flags, h3, Bool.and_true, Bool.or_eq_false_iff, Bool.not_eq_false'] at hb
      obtain ⟨⟨hb1, hb2⟩, hb3⟩ := hb
      have hs := hnn hb3 _ _ _ rfl
      have hpp : pos = pos' := hp.resolve_right hs
      subst hpp
      split
      · simp only [erL, er, hb2, h4 hb1]
        congr 2
        have hb : 0 < blen s := blen_pos hs
        have e : ∀ k, blen s ≤ k → F (clamp n) ⟨pos, pos + k⟩ = ⟨pos, n⟩ := by
          intro k hk
          have : (⟨pos, pos + k⟩ : Span) ≠ .zero := by
            intro h; simp [Span.zero] at h; omega
          simp only [F, clamp, Span.cut, this, if_false, Span.mk.injEq, true_and]
          omega
        rw [e _ (by omega), e _ (by rw [blen_append]; omega)]
      · exact h4 hb1
    · exact .late h1 (by simp [PExpr.flags, h3]) fun hs => by simp [PExpr.flags, h4 hs]
  | .star x, hwf, a, hg, w, hw, pos, pos', s, hp, hn => by
    have hwfs := hwf
    simp only [PExpr.wf, Bool.and_eq_true] at hwf
    simp only [PExpr.good, Bool.and_eq_true, Bool.not_eq_true'] at hg
    obtain ⟨⟨⟨hg1, hg2⟩, hg3⟩, hg4⟩ := hg
    have hsnd : ∀ p i c r ps, run G.skip x a p i = .ok c r ps → i = c ++ r :=
      fun p i c r ps h => (run_sound skip_sound _ _ _ _ _ _ _ h).1
    have hcons : ∀ p i c r ps, run G.skip x a p i = .ok c r ps → c ≠ [] :=
      fun p i c r ps h => nonNull_consumes x hg2 (run_sound skip_sound _ _ _ _ _ _ _ h).2
    have hplx : x.pairless = true → ∀ p i c r ps, run G.skip x a p i = .ok c r ps → ps = [] :=
      fun h p i c r ps hr => pairless_nil x h (run_sound skip_sound _ _ _ _ _ _ _ hr).2
    have htx : ∀ p i, run G.skip x a p i ≠ .diverge := fun p i => run_total skip_sound skip_total x hwf.2 a p i
    let step : Nat → Str → Res := stepOf G.skip x a
    let f : Flags := Flags.seq a .none (x.flags a) (x.hard a) (a != .nonAtomic)
    have hstep : ∀ p i c r ps, step p i = .ok c r ps →
        ∃ t c', i = c ++ r ∧ c = t ++ c' ∧ run G.skip x a (p + blen t) (c' ++ r) = .ok c' r ps := by
      intro p i c r ps h
      obtain ⟨c1, r1, p1, t, r2, q, c2, p2, hx, hsk, hy, rfl, rfl⟩ := seqRes_ok h
      injection hx with e1 e2 e3; subst e1 e2 e3
      have e2 := (skipIf_sound skip_sound hsk).1
      have e3 := hsnd _ _ _ _ _ hy
      subst e3 e2
      exact ⟨t, c2, by simp, by simp, by simpa using hy⟩
    have ht : ∀ p i, step p i ≠ .diverge := fun p i => seqRes_total skip_total (by simp) htx
    have hc : ∀ p i c r ps, step p i = .ok c r ps → i = c ++ r ∧ c ≠ [] := by
      intro p i c r ps h
      obtain ⟨t, c', h1, rfl, h2⟩ := hstep _ _ _ _ _ h
      exact ⟨h1, by have := hcons _ _ _ _ _ h2; simp [this]⟩
    have hpl : x.pairless = true → ∀ p i c r ps, step p i = .ok c r ps → ps = [] := by
      intro hh p i c r ps h
      obtain ⟨t, c', h1, rfl, h2⟩ := hstep _ _ _ _ _ h
      exact hplx hh _ _ _ _ _ h2
    have hS : ∀ p p' i v, White v → (p = p' ∨ i = []) → p + blen i = n → Out n v i f (step p i) (step p' (i ++ v)) := by
      intro p p' i v hv hpi hin
      refine seqRes_out (fx := .none) hv hpi hin (.same (c := []) rfl)
        (fun p p' i v hv hpi hin => run_tail x hwf.2 a hg1 v hv p p' i hpi hin)
        (fun h p i hi ha => hard_fail h hi ha) hsnd htx ?_
      intro h
      simp only [bne_iff_ne, ne_eq] at h
      exact ⟨h, fun c r ps hr => by injection hr with hr; exact hr.symm⟩
    have hlp : f.latep = false := hg3
    have hfirst := run_tail x hwf.2 a hg1 w hw pos pos' s hp hn
    have e : ∀ p i, run G.skip (.star x) a p i = cont i (loopOf step) p (run G.skip x a p i) := by
      intro p i
      simp only [run]
      cases h : run G.skip x a p i with
      | fail => rfl
      | diverge => rfl
      | ok c r ps =>
        simp only [cont]
        show (match loopOf step (p + blen c) r with
          | .ok c' r' ps' => Res.ok (c ++ c') r' (ps ++ ps') | .fail => .fail | .diverge => .diverge) = _
        cases loopOf step (p + blen c) r <;> rfl
    rw [e, e]
    refine cont_out (f := f) ht hc hpl hS hw hp hn ?_ hlp (fun c r ps h => hcons _ _ _ _ _ h)
      (fun h c r ps h' => hplx h _ _ _ _ _ h') fun r hr p hrn => loop_out ht hc hpl hS hlp hw _ r hr p hrn
    revert hfirst
    generalize run G.skip x a pos s = X
    generalize run G.skip x a pos' (s ++ w) = Y
    rintro (_ | h | ⟨h1, h3, h4⟩ | ⟨h1, h3, h4⟩)
    · exact .fail
    · exact .same h
    · exact .loose h1 (by simp [f, Flags.seq, h3]) fun hb => h4 (by
        simp only [f, Flags.seq, Bool.or_eq_false_iff] at hb; exact hb.1)
    · exact .late h1 (by simp [f, Flags.seq, h3]) fun hs => by rw [h4 hs] at hg4; contradiction

end Dbml
