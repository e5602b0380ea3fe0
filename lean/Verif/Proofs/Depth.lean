import Verif.Model.Depth

/-!
# The nesting of calls and of pairs is bounded by the grammar
-/

namespace Dbml

/-- Height of an expression; a skip of height `k` may follow each part of a sequence and each round. -/
def PExpr.height (k : Nat) : PExpr → Nat
  | .str _ | .insens _ | .cls _ | .soi | .eoi => 1
  | .seq a b => 1 + max (a.height k) (max k (b.height k))
  | .alt a b => 1 + max (a.height k) (b.height k)
  | .opt a => 1 + a.height k
  | .star a => 2 + max (a.height k) k
  | .neg a => 1 + a.height k
  | .rule _ _ b => 1 + b.height k

theorem depthNext_le {skip skipD at' pos ra kb k h} (hs : ∀ i, skipD i ≤ k) (hb : ∀ p i, kb p i ≤ h) :
    depthNext skip skipD at' pos ra kb ≤ max k h := by
  unfold depthNext
  split
  · rename_i c1 r1 _
    refine Nat.max_le.2 ⟨?_, ?_⟩
    · split
      · exact Nat.le_trans (hs r1) (Nat.le_max_left _ _)
      · exact Nat.zero_le _
    · split
      · exact Nat.le_trans (hb _ _) (Nat.le_max_right _ _)
      · exact Nat.zero_le _
  · exact Nat.zero_le _

theorem depthLoop_le {step d h} (hd : ∀ p i, d p i ≤ h) : ∀ n p i, depthLoop step d n p i ≤ h
  | 0, _, _ => Nat.zero_le _
  | n + 1, p, i => by
    unfold depthLoop
    split
    · exact Nat.max_le.2 ⟨hd _ _, depthLoop_le hd n _ _⟩
    · exact hd _ _

theorem depth_le {skip skipD k} (hs : ∀ i, skipD i ≤ k) : ∀ (e : PExpr) at' pos inp,
    depth skip skipD e at' pos inp ≤ e.height k
  | .str _, _, _, _ => Nat.le_refl _
  | .insens _, _, _, _ => Nat.le_refl _
  | .cls _, _, _, _ => Nat.le_refl _
  | .soi, _, _, _ => Nat.le_refl _
  | .eoi, _, _, _ => Nat.le_refl _
  | .seq a b, at', pos, inp => by
    unfold depth PExpr.height
    have h1 := depth_le (skip := skip) hs a at' pos inp
    have h2 := depthNext_le (skip := skip) (at' := at') (pos := pos) (ra := run skip a at' pos inp) hs
      (fun p i => depth_le (skip := skip) hs b at' p i)
    exact Nat.add_le_add_left (Nat.max_le.2 ⟨Nat.le_trans h1 (Nat.le_max_left _ _), Nat.le_trans h2 (Nat.le_max_right _ _)⟩) 1
  | .alt a b, at', pos, inp => by
    unfold depth PExpr.height
    have h1 := depth_le (skip := skip) hs a at' pos inp
    have h2 := depth_le (skip := skip) hs b at' pos inp
    refine Nat.add_le_add_left ?_ 1
    split
    · exact Nat.max_le.2 ⟨Nat.le_trans h1 (Nat.le_max_left _ _), Nat.le_trans h2 (Nat.le_max_right _ _)⟩
    · exact Nat.le_trans h1 (Nat.le_max_left _ _)
  | .opt a, at', pos, inp => by
    unfold depth PExpr.height
    have h1 := depth_le (skip := skip) hs a at' pos inp
    omega
  | .star a, at', pos, inp => by
    unfold depth PExpr.height
    have h1 := depth_le (skip := skip) hs a at' pos inp
    split
    · rename_i c r _ _
      have h2 := depthLoop_le (step := fun p i => seqRes skip at' p (.ok [] i []) (fun p' i' => run skip a at' p' i'))
        (d := fun p i => 1 + depthNext skip skipD at' p (.ok [] i []) fun p' i' => depth skip skipD a at' p' i')
        (h := 1 + max k (a.height k))
        (fun p i => Nat.add_le_add_left (depthNext_le hs fun p i => depth_le hs a at' p i) 1)
        (r.length + 1) (pos + blen c) r
      rw [Nat.max_comm k] at h2
      have h3 : a.height k ≤ max (a.height k) k := Nat.le_max_left _ _
      have h4 := Nat.max_le.2 ⟨Nat.le_trans h1 (Nat.le_trans h3 (Nat.le_add_left _ 1)), h2⟩
      exact Nat.le_trans (Nat.add_le_add_left h4 1) (by omega)
    · have h3 : a.height k ≤ max (a.height k) k := Nat.le_max_left _ _
      exact Nat.le_trans (Nat.add_le_add_left (Nat.le_trans h1 h3) 1) (by omega)
  | .neg a, at', pos, inp => by
    unfold depth PExpr.height
    have h1 := depth_le (skip := skip) hs a at' pos inp
    omega
  | .rule _ m b, at', pos, inp => by
    unfold depth PExpr.height
    have h1 := depth_le (skip := skip) hs b (bodyAtomicity m at') pos inp
    omega

theorem skipDepth_le (i : Str) : skipDepth i ≤ G.skipExpr.height 0 := depth_le (fun _ => Nat.le_refl _) _ _ _ _

/-! ## Pairs -/

/-- Nesting of named rules in an expression. -/
def PExpr.rules : PExpr → Nat
  | .str _ | .insens _ | .cls _ | .soi => 0
  | .eoi => 1
  | .seq a b | .alt a b => max a.rules b.rules
  | .opt a | .star a => a.rules
  | .neg _ => 0
  | .rule _ _ b => 1 + b.rules

theorem depths_append (ps qs : List Pair) : Pair.depths (ps ++ qs) = max (Pair.depths ps) (Pair.depths qs) := by
  induction ps with
  | nil => simp [Pair.depths]
  | cons p ps ih => simp [Pair.depths, ih, Nat.max_assoc]

theorem mem_depths {p : Pair} {ps : List Pair} (h : p ∈ ps) : p.depth ≤ Pair.depths ps := by
  induction ps with
  | nil => simp at h
  | cons q ps ih =>
    simp [Pair.depths]
    rcases List.mem_cons.1 h with rfl | h
    · omega
    · have := ih h; omega

theorem seqRes_depths {skip at' pos ra kb n c r ps} (ha : ∀ c r ps, ra = .ok c r ps → Pair.depths ps ≤ n)
    (hb : ∀ p i c r ps, kb p i = .ok c r ps → Pair.depths ps ≤ n) (h : seqRes skip at' pos ra kb = .ok c r ps) :
    Pair.depths ps ≤ n := by
  unfold seqRes at h
  split at h
  · cases h
  · cases h
  · rename_i c1 r1 p1
    split at h
    · cases h
    · cases h
    · split at h
      · cases h
      · cases h
      · rename_i hk
        cases h
        rw [depths_append]
        exact Nat.max_le.2 ⟨ha _ _ _ rfl, hb _ _ _ _ _ hk⟩

theorem repLoop_depths {step n} (hs : ∀ p i c r ps, step p i = .ok c r ps → Pair.depths ps ≤ n) :
    ∀ m p i c r ps, repLoop step m p i = .ok c r ps → Pair.depths ps ≤ n
  | 0, _, _, _, _, _, h => by simp [repLoop] at h
  | m + 1, p, i, c, r, ps, h => by
    unfold repLoop at h
    split at h
    · cases h; simp [Pair.depths]
    · cases h
    · cases h
    · rename_i c1 r1 p1 _ hk
      split at h
      · rename_i hk2
        cases h
        rw [depths_append]
        exact Nat.max_le.2 ⟨hs _ _ _ _ _ hk, repLoop_depths hs m _ _ _ _ _ hk2⟩
      · cases h
      · cases h

theorem run_depths {skip} : ∀ (e : PExpr) at' pos inp c r ps, run skip e at' pos inp = .ok c r ps →
    Pair.depths ps ≤ e.rules
  | .str s, at', pos, inp, c, r, ps, h => by
    unfold run at h; split at h <;> cases h; simp [Pair.depths]
  | .insens s, at', pos, inp, c, r, ps, h => by
    unfold run at h; split at h <;> cases h; simp [Pair.depths]
  | .cls p, at', pos, inp, c, r, ps, h => by
    unfold run at h; split at h
    · split at h <;> cases h; simp [Pair.depths]
    · cases h
  | .soi, at', pos, inp, c, r, ps, h => by
    unfold run at h; split at h <;> cases h; simp [Pair.depths]
  | .eoi, at', pos, inp, c, r, ps, h => by
    unfold run at h; split at h <;> cases h
    split <;> simp [Pair.depths, Pair.depth, PExpr.rules]
  | .seq a b, at', pos, inp, c, r, ps, h => by
    unfold run at h
    refine seqRes_depths (fun c r ps h => ?_) (fun p i c r ps h => ?_) h
    · exact Nat.le_trans (run_depths a _ _ _ _ _ _ h) (Nat.le_max_left _ _)
    · exact Nat.le_trans (run_depths b _ _ _ _ _ _ h) (Nat.le_max_right _ _)
  | .alt a b, at', pos, inp, c, r, ps, h => by
    unfold run at h
    split at h
    · exact Nat.le_trans (run_depths b _ _ _ _ _ _ h) (Nat.le_max_right _ _)
    · exact Nat.le_trans (run_depths a _ _ _ _ _ _ h) (Nat.le_max_left _ _)
  | .opt a, at', pos, inp, c, r, ps, h => by
    unfold run at h
    split at h
    · cases h; simp [Pair.depths]
    · exact run_depths a _ _ _ _ _ _ h
  | .star a, at', pos, inp, c, r, ps, h => by
    unfold run at h
    split at h
    · cases h; simp [Pair.depths]
    · cases h
    · rename_i hk
      split at h
      · rename_i hk2
        cases h
        rw [depths_append]
        refine Nat.max_le.2 ⟨run_depths a _ _ _ _ _ _ hk, ?_⟩
        refine repLoop_depths (fun p i c r ps h => ?_) _ _ _ _ _ _ hk2
        refine seqRes_depths (fun c r ps h => ?_) (fun p i c r ps h => run_depths a _ _ _ _ _ _ h) h
        cases h; simp [Pair.depths]
      · cases h
      · cases h
  | .neg a, at', pos, inp, c, r, ps, h => by
    unfold run at h; split at h <;> cases h; simp [Pair.depths]
  | .rule x m b, at', pos, inp, c, r, ps, h => by
    unfold run at h
    split at h
    · cases h
    · cases h
    · rename_i hk
      have := run_depths b _ _ _ _ _ _ hk
      cases h
      simp only [PExpr.rules]
      split
      · simp [Pair.depths, Pair.depth]; omega
      · omega

end Dbml
