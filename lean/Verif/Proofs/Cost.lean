import Verif.Model.Cost
import Verif.Proofs.Loop
import Verif.Proofs.Term
import Mathlib.Tactic.Ring
import Mathlib.Tactic.Linarith
import Mathlib.Tactic.GCongr

/-!
# The number of steps of the recognizer
-/

namespace Dbml

theorem skipIfC_fst (skip : Str → Res × Nat) (a i) : (skipIfC skip a i).1 = skipIf (fun i => (skip i).1) a i := by
  cases a <;> rfl

theorem seqResC_fst (skip : Str → Res × Nat) (a pos ra kb) :
    (seqResC skip a pos ra kb).1 = seqRes (fun i => (skip i).1) a pos ra.1 (fun p i => (kb p i).1) := by
  unfold seqResC seqRes
  cases ra.1 with
  | fail => rfl
  | diverge => rfl
  | ok c r ps =>
    simp only [skipIfC_fst]
    cases skipIf (fun i => (skip i).1) a r with
    | fail => rfl
    | diverge => rfl
    | ok c2 r2 p2 =>
      simp only
      cases (kb (pos + blen c + blen c2) r2).1 <;> rfl

theorem repLoopC_fst {step : Nat → Str → Res × Nat} {step' : Nat → Str → Res} (h : ∀ p i, (step p i).1 = step' p i) :
    ∀ fuel pos inp, (repLoopC step fuel pos inp).1 = repLoop step' fuel pos inp := by
  intro fuel
  induction fuel with
  | zero => intro pos inp; rfl
  | succ n ih =>
    intro pos inp
    unfold repLoopC repLoop
    simp only [h]
    cases step' pos inp with
    | fail => rfl
    | diverge => rfl
    | ok c r ps =>
      cases c with
      | nil => rfl
      | cons x xs =>
        simp only [ih]
        cases repLoop step' n (pos + blen (x :: xs)) r <;> rfl

theorem runC_fst (skip : Str → Res × Nat) : ∀ (e : PExpr) a pos inp,
    (runC skip e a pos inp).1 = run (fun i => (skip i).1) e a pos inp
  | .str s, a, pos, inp => by simp only [runC, run]; cases stripPrefix s inp <;> rfl
  | .insens s, a, pos, inp => by simp only [runC, run]; cases stripPrefixCI s inp <;> rfl
  | .cls p, a, pos, inp => by
    simp only [runC, run]; cases inp with
    | nil => rfl
    | cons c cs => simp only; split <;> rfl
  | .soi, a, pos, inp => by simp only [runC, run]; split <;> rfl
  | .eoi, a, pos, inp => by simp only [runC, run]; cases inp <;> rfl
  | .seq x y, a, pos, inp => by
    simp only [runC, run, seqResC_fst, runC_fst skip x, runC_fst skip y]
  | .alt x y, a, pos, inp => by
    simp only [runC, run, runC_fst skip x, runC_fst skip y]
    cases run (fun i => (skip i).1) x a pos inp <;> rfl
  | .opt x, a, pos, inp => by
    simp only [runC, run, runC_fst skip x]
    cases run (fun i => (skip i).1) x a pos inp <;> rfl
  | .neg x, a, pos, inp => by
    simp only [runC, run, runC_fst skip x]
    cases run (fun i => (skip i).1) x a pos inp <;> rfl
  | .rule r m x, a, pos, inp => by
    simp only [runC, run, runC_fst skip x]
    cases run (fun i => (skip i).1) x (bodyAtomicity m a) pos inp <;> rfl
  | .star x, a, pos, inp => by
    simp only [runC, run, runC_fst skip x]
    cases run (fun i => (skip i).1) x a pos inp with
    | fail => rfl
    | diverge => rfl
    | ok c r ps =>
      have h := repLoopC_fst (step := fun p i => seqResC skip a p (.ok [] i [], 0) (fun p' i' => runC skip x a p' i'))
        (step' := fun p i => seqRes (fun i => (skip i).1) a p (.ok [] i []) (fun p' i' => run (fun i => (skip i).1) x a p' i'))
        (fun p i => by rw [seqResC_fst]; simp only [runC_fst skip x]) (r.length + 1) (pos + blen c) r
      simp only [h]
      cases repLoop _ (r.length + 1) (pos + blen c) r <;> rfl

theorem skipC_fst (i : Str) : (G.skipC i).1 = G.skip i := runC_fst _ _ _ _ _

theorem pestParseC_fst (i : Str) : (pestParseC i).1 = pestParse i := by
  unfold pestParseC pestParse
  rw [runC_fst]
  congr 1
  funext i
  exact skipC_fst i

/-! ## Bounds -/

/-- `k` where skipping takes place, else nothing. -/
def skipped (k : Nat) (a : Atomicity) : Nat := if a = .nonAtomic then k else 0

/-- A bound on the number of steps on a text of length `n`, when skipping takes at most `k` steps. -/
def PExpr.bound (k n : Nat) : PExpr → Atomicity → Nat
  | .str s, _ | .insens s, _ => s.length + 1
  | .cls _, _ | .soi, _ | .eoi, _ => 1
  | .seq x y, a => x.bound k n a + skipped k a + y.bound k n a + 1
  | .alt x y, a => x.bound k n a + y.bound k n a + 1
  | .opt x, a | .neg x, a => x.bound k n a + 1
  | .star x, a => x.bound k n a + (n + 1) * (skipped k a + x.bound k n a + 2) + 2
  | .rule _ m x, a => x.bound k n (bodyAtomicity m a) + 1

/-- A run that succeeds leaves a suffix. -/
theorem rest_le {skip : Str → Res} (hs : SkipSound skip fun _ _ => True) {e a pos inp c r ps}
    (h : run skip e a pos inp = .ok c r ps) : r.length ≤ inp.length := by
  obtain ⟨rfl, -⟩ := run_sound hs _ _ _ _ _ _ _ h
  simp

theorem skipIfC_le {skip : Str → Res × Nat} {k N : Nat} (hk : ∀ i : Str, i.length ≤ N → (skip i).2 ≤ k) (a) (i : Str)
    (hi : i.length ≤ N) : (skipIfC skip a i).2 ≤ skipped k a := by
  cases a
  · exact hk i hi
  · exact Nat.zero_le _
  · exact Nat.zero_le _

theorem seqResC_le {skip : Str → Res × Nat} {k N m1 m2 : Nat} (hk : ∀ i : Str, i.length ≤ N → (skip i).2 ≤ k)
    (hs : SkipSound (fun i => (skip i).1) fun _ _ => True) {a pos ra kb}
    (h1 : ra.2 ≤ m1) (hr : ∀ c r ps, ra.1 = .ok c r ps → r.length ≤ N)
    (h2 : ∀ p (i : Str), i.length ≤ N → (kb p i).2 ≤ m2) : (seqResC skip a pos ra kb).2 ≤ m1 + skipped k a + m2 + 1 := by
  unfold seqResC
  cases hra : ra.1 with
  | fail => simp only; omega
  | diverge => simp only; omega
  | ok c r ps =>
    have hl := hr c r ps hra
    have h3 := skipIfC_le hk a r hl
    simp only
    cases hsk : (skipIfC skip a r).1 with
    | fail => simp only; omega
    | diverge => simp only; omega
    | ok c2 r2 p2 =>
      rw [skipIfC_fst] at hsk
      have hl2 : r2.length ≤ N := by
        obtain ⟨rfl, -⟩ := skipIf_sound hs hsk
        simp only [List.length_append] at hl; omega
      have h4 := h2 (pos + blen c + blen c2) r2 hl2
      simp only
      cases (kb (pos + blen c + blen c2) r2).1 <;> simp only <;> omega

theorem repLoopC_le {step : Nat → Str → Res × Nat} {N m : Nat} (h1 : ∀ p (i : Str), i.length ≤ N → (step p i).2 ≤ m)
    (h2 : ∀ p (i : Str) c r ps, (step p i).1 = .ok c r ps → r.length ≤ i.length) :
    ∀ fuel pos (inp : Str), inp.length ≤ N → (repLoopC step fuel pos inp).2 ≤ fuel * (m + 1) + 1 := by
  intro fuel
  induction fuel with
  | zero => intro pos inp _; simp [repLoopC]
  | succ n ih =>
    intro pos inp hl
    have h3 := h1 pos inp hl
    have hmul : (n + 1) * (m + 1) = n * (m + 1) + (m + 1) := Nat.succ_mul _ _
    unfold repLoopC
    dsimp only
    cases hst : (step pos inp).1 with
    | fail => simp only; omega
    | diverge => simp only; omega
    | ok c r ps =>
      cases c with
      | nil => simp only; omega
      | cons x xs =>
        have h4 := ih (pos + blen (x :: xs)) r ((h2 _ _ _ _ _ hst).trans hl)
        simp only
        cases (repLoopC step n (pos + blen (x :: xs)) r).1 <;> simp only <;> omega

theorem runC_le {skip : Str → Res × Nat} {k N : Nat} (hk : ∀ i : Str, i.length ≤ N → (skip i).2 ≤ k)
    (hs : SkipSound (fun i => (skip i).1) fun _ _ => True) :
    ∀ (e : PExpr) a pos (inp : Str), inp.length ≤ N → (runC skip e a pos inp).2 ≤ e.bound k N a
  | .str s, a, pos, inp, _ => by simp only [runC, PExpr.bound]; cases stripPrefix s inp <;> simp
  | .insens s, a, pos, inp, _ => by simp only [runC, PExpr.bound]; cases stripPrefixCI s inp <;> simp
  | .cls p, a, pos, inp, _ => by
    simp only [runC, PExpr.bound]; cases inp with
    | nil => simp
    | cons c cs => simp only; split <;> simp
  | .soi, a, pos, inp, _ => by simp only [runC, PExpr.bound]; split <;> simp
  | .eoi, a, pos, inp, _ => by simp only [runC, PExpr.bound]; cases inp <;> simp
  | .seq x y, a, pos, inp, hl => by
    simp only [runC, PExpr.bound]
    refine seqResC_le hk hs (runC_le hk hs x a pos inp hl) ?_ fun p i hi => runC_le hk hs y a p i hi
    intro c r ps h
    rw [runC_fst] at h
    exact (rest_le hs h).trans hl
  | .alt x y, a, pos, inp, hl => by
    have h1 := runC_le hk hs x a pos inp hl
    have h2 := runC_le hk hs y a pos inp hl
    simp only [runC, PExpr.bound]
    cases (runC skip x a pos inp).1 <;> simp only <;> omega
  | .opt x, a, pos, inp, hl => by
    have h1 := runC_le hk hs x a pos inp hl
    simp only [runC, PExpr.bound]
    cases (runC skip x a pos inp).1 <;> simp only <;> omega
  | .neg x, a, pos, inp, hl => by
    have h1 := runC_le hk hs x a pos inp hl
    simp only [runC, PExpr.bound]
    cases (runC skip x a pos inp).1 <;> simp only <;> omega
  | .rule r m x, a, pos, inp, hl => by
    have h1 := runC_le hk hs x (bodyAtomicity m a) pos inp hl
    simp only [runC, PExpr.bound]
    cases (runC skip x (bodyAtomicity m a) pos inp).1 <;> simp only <;> omega
  | .star x, a, pos, inp, hl => by
    have h1 := runC_le hk hs x a pos inp hl
    simp only [runC, PExpr.bound]
    cases hx : (runC skip x a pos inp).1 with
    | fail => simp only; omega
    | diverge => simp only; omega
    | ok c r ps =>
      rw [runC_fst] at hx
      have hr := (rest_le hs hx).trans hl
      have h2 := repLoopC_le
        (step := fun p i => seqResC skip a p (.ok [] i [], 0) (fun p' i' => runC skip x a p' i')) (N := N) (m := skipped k a + x.bound k N a + 1)
        (fun p i hi => by
          have := seqResC_le (m1 := 0) hk hs (a := a) (pos := p) (ra := (.ok [] i [], 0))
            (kb := fun p' i' => runC skip x a p' i') le_rfl (by rintro c r ps ⟨⟩; exact hi) fun p i hi => runC_le hk hs x a p i hi
          omega)
        (fun p i c r ps h => by
          rw [seqResC_fst] at h
          obtain ⟨c1, r1, p1, t, r2, q, c2, p2, e1, e2, e3, e4, -⟩ := seqRes_ok h
          injection e1 with e1 e5
          subst e1 e5
          obtain ⟨e6, -⟩ := skipIf_sound hs e2
          simp only [runC_fst] at e3
          have := rest_le hs e3
          rw [e6]; simp; omega)
        (r.length + 1) (pos + blen c) r hr
      have h3 : (r.length + 1) * (skipped k a + x.bound k N a + 1 + 1) ≤ (N + 1) * (skipped k a + x.bound k N a + 2) := by gcongr
      simp only
      generalize (repLoopC _ (r.length + 1) (pos + blen c) r) = t at h2
      cases t.1 <;> simp only <;> omega

/-- The degree of the bound. -/
def PExpr.deg (d : Nat) : PExpr → Atomicity → Nat
  | .str _, _ | .insens _, _ | .cls _, _ | .soi, _ | .eoi, _ => 0
  | .seq x y, a => max (max (x.deg d a) (skipped d a)) (y.deg d a)
  | .alt x y, a => max (x.deg d a) (y.deg d a)
  | .opt x, a | .neg x, a => x.deg d a
  | .star x, a => max (x.deg d a) (skipped d a) + 1
  | .rule _ m x, a => x.deg d (bodyAtomicity m a)

/-- The coefficient of the bound. -/
def PExpr.coef (c : Nat) : PExpr → Atomicity → Nat
  | .str s, _ | .insens s, _ => s.length + 1
  | .cls _, _ | .soi, _ | .eoi, _ => 1
  | .seq x y, a => x.coef c a + skipped c a + y.coef c a + 1
  | .alt x y, a => x.coef c a + y.coef c a + 1
  | .opt x, a | .neg x, a => x.coef c a + 1
  | .star x, a => x.coef c a + (skipped c a + x.coef c a + 2) + 2
  | .rule _ m x, a => x.coef c (bodyAtomicity m a) + 1

theorem lift {b c d d' M : Nat} (hM : 0 < M) (h : b ≤ c * M ^ d) (hd : d ≤ d') : b ≤ c * M ^ d' :=
  h.trans (Nat.mul_le_mul_left _ (Nat.pow_le_pow_right hM hd))

theorem PExpr.bound_le {k n c d : Nat} (h : k ≤ c * (n + 1) ^ d) : ∀ (e : PExpr) (a : Atomicity),
    e.bound k n a ≤ e.coef c a * (n + 1) ^ e.deg d a := by
  have hM : 0 < n + 1 := by omega
  have hp : ∀ j, 1 ≤ (n + 1) ^ j := fun j => Nat.pow_pos hM
  have hsk : ∀ a, skipped k a ≤ skipped c a * (n + 1) ^ skipped d a := by
    intro a; cases a
    · exact h
    · simp [skipped]
    · simp [skipped]
  intro e
  induction e with
  | str s => intro a; simp [PExpr.bound, PExpr.coef, PExpr.deg]
  | insens s => intro a; simp [PExpr.bound, PExpr.coef, PExpr.deg]
  | cls p => intro a; simp [PExpr.bound, PExpr.coef, PExpr.deg]
  | soi => intro a; simp [PExpr.bound, PExpr.coef, PExpr.deg]
  | eoi => intro a; simp [PExpr.bound, PExpr.coef, PExpr.deg]
  | seq x y ihx ihy =>
    intro a
    simp only [PExpr.bound, PExpr.coef, PExpr.deg]
    generalize hD : max (max (x.deg d a) (skipped d a)) (y.deg d a) = D
    have h1 := lift hM (ihx a) (show _ ≤ D by omega)
    have h2 := lift hM (hsk a) (show _ ≤ D by omega)
    have h3 := lift hM (ihy a) (show _ ≤ D by omega)
    have := hp D
    simp only [Nat.add_mul]; omega
  | alt x y ihx ihy =>
    intro a
    simp only [PExpr.bound, PExpr.coef, PExpr.deg]
    generalize hD : max (x.deg d a) (y.deg d a) = D
    have h1 := lift hM (ihx a) (show _ ≤ D by omega)
    have h3 := lift hM (ihy a) (show _ ≤ D by omega)
    have := hp D
    simp only [Nat.add_mul]; omega
  | opt x ihx =>
    intro a
    simp only [PExpr.bound, PExpr.coef, PExpr.deg]
    have h1 := ihx a
    have := hp (x.deg d a)
    simp only [Nat.add_mul]; omega
  | neg x ihx =>
    intro a
    simp only [PExpr.bound, PExpr.coef, PExpr.deg]
    have h1 := ihx a
    have := hp (x.deg d a)
    simp only [Nat.add_mul]; omega
  | rule r m x ihx =>
    intro a
    simp only [PExpr.bound, PExpr.coef, PExpr.deg]
    have h1 := ihx (bodyAtomicity m a)
    have := hp (x.deg d (bodyAtomicity m a))
    simp only [Nat.add_mul]; omega
  | star x ihx =>
    intro a
    simp only [PExpr.bound, PExpr.coef, PExpr.deg]
    generalize hD : max (x.deg d a) (skipped d a) = D
    have h1 := lift hM (ihx a) (show _ ≤ D by omega)
    have h2 := lift hM (hsk a) (show _ ≤ D by omega)
    have h0 := hp D
    have h3 : (n + 1) * (skipped k a + x.bound k n a + 2) ≤ (skipped c a + x.coef c a + 2) * (n + 1) ^ (D + 1) := by
      have : skipped k a + x.bound k n a + 2 ≤ (skipped c a + x.coef c a + 2) * (n + 1) ^ D := by
        simp only [Nat.add_mul]; omega
      calc _ ≤ (n + 1) * ((skipped c a + x.coef c a + 2) * (n + 1) ^ D) := Nat.mul_le_mul_left _ this
        _ = _ := by ring
    have h4 := lift hM h1 (show D ≤ D + 1 by omega)
    have h5 := hp (D + 1)
    simp only [Nat.add_mul] at h3 ⊢
    omega

/-- Skipping white space and comments. -/
theorem skipC_le (i : Str) : (G.skipC i).2 ≤ G.skipExpr.coef 0 .atomic * (i.length + 1) ^ G.skipExpr.deg 0 .atomic :=
  (runC_le (k := 0) (N := i.length) (fun _ _ => le_rfl) (by rintro inp c r ps ⟨⟩; exact ⟨rfl, trivial⟩) _ _ _ _ le_rfl).trans
    (PExpr.bound_le (by simp) _ _)

theorem pestParseC_le (i : Str) : (pestParseC i).2 ≤
    G.schema.coef (G.skipExpr.coef 0 .atomic) .nonAtomic * (i.length + 1) ^ G.schema.deg (G.skipExpr.deg 0 .atomic) .nonAtomic := by
  refine (runC_le (k := G.skipExpr.coef 0 .atomic * (i.length + 1) ^ G.skipExpr.deg 0 .atomic) (N := i.length) ?_ ?_ _ _ _ _ le_rfl).trans
    (PExpr.bound_le le_rfl _ _)
  · intro j hj
    refine (skipC_le j).trans ?_
    gcongr
  · intro inp c r ps h
    exact gskip_sound inp c r ps (by rw [← skipC_fst]; exact h)

end Dbml
