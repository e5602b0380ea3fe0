import Verif.Spec.PairCount
import Verif.Proofs.Cost

/-!
# The number of pairs is bounded by the number of characters

For a weight `w` of a pair and `v` of a character, `excess w v e a` bounds `w * pairs - v * characters` over all
successes of `e`; there is no bound (`none`) when a repetition could go on gaining.
-/

namespace Dbml

/-- The larger of two bounds. -/
def optMax : Option Int → Option Int → Option Int
  | some x, some y => some (max x y)
  | _, _ => none

/-- The sum of two bounds. -/
def optAdd : Option Int → Option Int → Option Int
  | some x, some y => some (x + y)
  | _, _ => none

/-- A bound on `w * pairs - v * characters` over all successes of an expression. -/
def PExpr.excess (w v : Int) : PExpr → Atomicity → Option Int
  | .str s, _ => some (-(v * s.length))
  | .insens s, _ => some (-(v * s.length))
  | .cls _, _ => some (-v)
  | .soi, _ => some 0
  | .eoi, a => some (if a = .atomic then 0 else w)
  | .seq x y, a => optAdd (x.excess w v a) (y.excess w v a)
  | .alt x y, a => optMax (x.excess w v a) (y.excess w v a)
  | .opt x, a => optMax (x.excess w v a) (some 0)
  | .star x, a =>
    match x.excess w v a with
    | some i => if i ≤ 0 then some 0 else none
    | none => none
  | .neg _, _ => some 0
  | .rule _ m b, a => optAdd (b.excess w v (bodyAtomicity m a)) (some (if emits m a then w else 0))

theorem counts_append (ps qs : List Pair) : Pair.counts (ps ++ qs) = Pair.counts ps + Pair.counts qs := by
  induction ps with
  | nil => simp [Pair.counts]
  | cons p ps ih => simp [Pair.counts, ih, Nat.add_assoc]

/-- What a success gains: `w` for every pair, less `v` for every character. -/
def gain (w v : Int) (c : Str) (ps : List Pair) : Int := w * Pair.counts ps - v * c.length

theorem gain_append (w v : Int) (c c' : Str) (ps qs : List Pair) :
    gain w v (c ++ c') (ps ++ qs) = gain w v c ps + gain w v c' qs := by
  unfold gain
  rw [counts_append, List.length_append]
  push_cast
  rw [Int.mul_add, Int.mul_add]
  omega

theorem gain_nil (w v : Int) : gain w v [] [] = 0 := by simp [gain, Pair.counts]

theorem gain_skip {w v : Int} (hv : 0 ≤ v) (c : Str) : gain w v c [] ≤ 0 := by
  have := Int.mul_nonneg hv (Int.natCast_nonneg c.length)
  simp only [gain, Pair.counts]
  omega

theorem optAdd_some {x y z} (h : optAdd x y = some z) : ∃ a b, x = some a ∧ y = some b ∧ z = a + b := by
  cases x <;> cases y <;> simp_all [optAdd]

theorem optMax_some {x y z} (h : optMax x y = some z) : ∃ a b, x = some a ∧ y = some b ∧ z = max a b := by
  cases x <;> cases y <;> simp_all [optMax]

theorem seqRes_gain {w v skip at' pos ra kb m n c r ps} (hv : 0 ≤ v) (ha : ∀ c r ps, ra = .ok c r ps → gain w v c ps ≤ m)
    (hb : ∀ p i c r ps, kb p i = .ok c r ps → gain w v c ps ≤ n) (h : seqRes skip at' pos ra kb = .ok c r ps) :
    gain w v c ps ≤ m + n := by
  unfold seqRes at h
  split at h
  · cases h
  · cases h
  · rename_i c1 r1 p1
    split at h
    · cases h
    · cases h
    · rename_i c2 r2 _ _
      split at h
      · cases h
      · cases h
      · rename_i c3 r3 p3 hk
        cases h
        have h1 := ha _ _ _ rfl
        have h2 := gain_skip (w := w) hv c2
        have h3 := hb _ _ _ _ _ hk
        have h4 := gain_append w v c1 c2 p1 []
        have h5 := gain_append w v (c1 ++ c2) c3 p1 p3
        rw [List.append_nil] at h4
        omega

theorem repLoop_gain {w v step} (hs : ∀ p i c r ps, step p i = .ok c r ps → gain w v c ps ≤ 0) :
    ∀ m p i c r ps, repLoop step m p i = .ok c r ps → gain w v c ps ≤ 0
  | 0, _, _, _, _, _, h => by simp [repLoop] at h
  | m + 1, p, i, c, r, ps, h => by
    unfold repLoop at h
    split at h
    · cases h; simp [gain_nil]
    · cases h
    · cases h
    · rename_i c1 r1 p1 _ hk
      split at h
      · rename_i c2 r2 p2 hk2
        cases h
        have h1 := hs _ _ _ _ _ hk
        have h2 := repLoop_gain hs m _ _ _ _ _ hk2
        have h3 := gain_append w v c1 c2 p1 p2
        omega
      · cases h
      · cases h

theorem stripPrefixCI_length : ∀ (s i m r : Str), stripPrefixCI s i = some (m, r) → m.length = s.length
  | [], i, m, r, h => by cases h; rfl
  | _ :: _, [], m, r, h => by cases h
  | k :: ks, c :: cs, m, r, h => by
    unfold stripPrefixCI at h
    split at h
    · cases hk : stripPrefixCI ks cs with
      | none => rw [hk] at h; cases h
      | some x =>
        obtain ⟨m', r'⟩ := x
        rw [hk] at h
        cases h
        simp [stripPrefixCI_length ks cs m' r hk]
    · cases h

theorem run_gain {skip} {w v : Int} (hv : 0 ≤ v) : ∀ (e : PExpr) at' x pos inp c r ps, e.excess w v at' = some x →
    run skip e at' pos inp = .ok c r ps → gain w v c ps ≤ x
  | .str s, at', x, pos, inp, c, r, ps, hx, h => by
    cases hx
    unfold run at h; split at h <;> cases h
    simp [gain, Pair.counts]
  | .insens s, at', x, pos, inp, c, r, ps, hx, h => by
    cases hx
    unfold run at h; split at h <;> cases h
    rename_i hk
    simp [gain, Pair.counts, stripPrefixCI_length _ _ _ _ hk]
  | .cls p, at', x, pos, inp, c, r, ps, hx, h => by
    cases hx
    unfold run at h; split at h
    · split at h <;> cases h; simp [gain, Pair.counts]
    · cases h
  | .soi, at', x, pos, inp, c, r, ps, hx, h => by
    cases hx
    unfold run at h; split at h <;> cases h; simp [gain_nil]
  | .eoi, at', x, pos, inp, c, r, ps, hx, h => by
    cases hx
    unfold run at h; split at h <;> cases h
    split <;> simp [gain, Pair.counts, Pair.count]
  | .seq a b, at', x, pos, inp, c, r, ps, hx, h => by
    obtain ⟨m, n, ha, hb, rfl⟩ := optAdd_some hx
    unfold run at h
    exact seqRes_gain hv (fun c r ps h => run_gain hv a _ _ _ _ _ _ _ ha h) (fun p i c r ps h => run_gain hv b _ _ _ _ _ _ _ hb h) h
  | .alt a b, at', x, pos, inp, c, r, ps, hx, h => by
    obtain ⟨m, n, ha, hb, rfl⟩ := optMax_some hx
    unfold run at h
    split at h
    · have := run_gain hv b _ _ _ _ _ _ _ hb h; omega
    · have := run_gain hv a _ _ _ _ _ _ _ ha h; omega
  | .opt a, at', x, pos, inp, c, r, ps, hx, h => by
    obtain ⟨m, n, ha, hb, rfl⟩ := optMax_some hx
    cases hb
    unfold run at h
    split at h
    · cases h; simp [gain_nil]
    · have := run_gain hv a _ _ _ _ _ _ _ ha h; omega
  | .star a, at', x, pos, inp, c, r, ps, hx, h => by
    unfold PExpr.excess at hx
    split at hx
    · rename_i i ha
      split at hx
      · rename_i hi
        cases hx
        unfold run at h
        split at h
        · cases h; simp [gain_nil]
        · cases h
        · rename_i c1 r1 p1 hk
          split at h
          · rename_i c2 r2 p2 hk2
            cases h
            have h1 := run_gain hv a _ _ _ _ _ _ _ ha hk
            have h2 := repLoop_gain (w := w) (v := v) (fun p i c r ps h => by
              have := seqRes_gain (m := 0) hv (fun c r ps h => by cases h; simp [gain_nil])
                (fun p i c r ps h => run_gain hv a _ _ _ _ _ _ _ ha h) h
              omega) _ _ _ _ _ _ hk2
            have h3 := gain_append w v c1 c2 p1 p2
            omega
          · cases h
          · cases h
      · cases hx
    · cases hx
  | .neg a, at', x, pos, inp, c, r, ps, hx, h => by
    cases hx
    unfold run at h; split at h <;> cases h; simp [gain_nil]
  | .rule y m b, at', x, pos, inp, c, r, ps, hx, h => by
    obtain ⟨k, n, ha, hb, rfl⟩ := optAdd_some hx
    cases hb
    unfold run at h
    split at h
    · cases h
    · cases h
    · rename_i hk
      have := run_gain hv b _ _ _ _ _ _ _ ha hk
      cases h
      split
      · simp only [gain, Pair.counts, Pair.count] at *
        push_cast
        rw [Int.mul_add, Int.mul_add]
        omega
      · omega

end Dbml
