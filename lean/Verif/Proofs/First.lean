import Verif.Proofs.Loop

/-!
# First characters: when an expression must fail
-/

namespace Dbml
open Syntax Source

/-- Can `e` succeed and consume something on a text whose first character is `o`? (An over-approximation.) -/
def PExpr.starts : PExpr → Option Char → Bool
  | .str [], _ => false
  | .str (k :: _), o => o == some k
  | .insens [], _ => false
  | .insens (k :: _), o => o.any fun c => asciiLower k == asciiLower c
  | .cls p, o => o.any p
  | .soi, _ => false
  | .eoi, _ => false
  | .seq a b, o => a.starts o || (!a.nonNull && b.starts o)
  | .alt a b, o => a.starts o || b.starts o
  | .opt a, o => a.starts o
  | .star a, o => a.starts o
  | .neg _, _ => false
  | .rule _ _ b, o => b.starts o

theorem stripPrefixCI_head {k : Char} {ks inp : Str} {m r} (h : stripPrefixCI (k :: ks) inp = some (m, r)) :
    (inp.head?.any fun c => asciiLower k == asciiLower c) = true := by
  cases inp with
  | nil => simp [stripPrefixCI] at h
  | cons c cs =>
    simp only [stripPrefixCI] at h
    split at h
    · rename_i he; simp [he]
    · simp at h

theorem starts_sound : ∀ (e : PExpr), e.wf = true → ∀ {a pos inp c r ps},
    e.starts inp.head? = false → (a = .nonAtomic → Solid inp) →
    run G.skip e a pos inp = .ok c r ps → c = [] ∧ r = inp
  | .str [], _, a, pos, inp, c, r, ps, _, _, h => by
    simp [run, stripPrefix] at h; obtain ⟨rfl, rfl, -⟩ := h; simp
  | .str (k :: ks), _, a, pos, inp, c, r, ps, hs, _, h => by
    simp only [run] at h
    split at h <;> try contradiction
    rename_i h1
    have := stripPrefix_some h1
    simp [PExpr.starts, this] at hs
  | .insens [], _, a, pos, inp, c, r, ps, _, _, h => by
    simp [run, stripPrefixCI] at h; obtain ⟨rfl, rfl, -⟩ := h; simp
  | .insens (k :: ks), _, a, pos, inp, c, r, ps, hs, _, h => by
    simp only [run] at h
    split at h <;> try contradiction
    rename_i h1
    have := stripPrefixCI_head h1
    simp only [PExpr.starts] at hs
    rw [hs] at this; contradiction
  | .cls p, _, a, pos, inp, c, r, ps, hs, _, h => by
    cases inp with
    | nil => simp [run] at h
    | cons x xs => simp [PExpr.starts] at hs; simp [run, hs] at h
  | .soi, _, a, pos, inp, c, r, ps, _, _, h => by
    simp only [run] at h
    split at h <;> try contradiction
    injection h with h1 h2; exact ⟨h1.symm, h2.symm⟩
  | .eoi, _, a, pos, inp, c, r, ps, _, _, h => by
    simp only [run] at h
    split at h <;> try contradiction
    injection h with h1 h2; exact ⟨h1.symm, h2.symm⟩
  | .seq x y, hw, a, pos, inp, c, r, ps, hs, hsol, h => by
    simp only [PExpr.wf, Bool.and_eq_true] at hw
    simp only [PExpr.starts, Bool.or_eq_false_iff, Bool.and_eq_false_iff, Bool.not_eq_false'] at hs
    simp only [run] at h
    obtain ⟨c1, r1, p1, t, r2, q, c2, p2, hx, hsk, hy, rfl, rfl⟩ := seqRes_ok h
    obtain ⟨rfl, rfl⟩ := starts_sound x hw.1 hs.1 hsol hx
    have hnull : x.nonNull = false := by
      cases hn : x.nonNull with
      | false => rfl
      | true => exact absurd rfl (nonNull_consumes x hn (run_sound gskip_sound _ _ _ _ _ _ _ hx).2)
    have hb : y.starts r1.head? = false := by
      rcases hs.2 with h | h
      · rw [hnull] at h; contradiction
      · exact h
    have ht : t = [] ∧ r2 = r1 := by
      cases a with
      | nonAtomic =>
        simp only [skipIf, skip_solid (hsol rfl)] at hsk
        injection hsk with h1 h2; exact ⟨h1.symm, h2.symm⟩
      | _ => simp [skipIf] at hsk; obtain ⟨rfl, rfl, -⟩ := hsk; simp
    obtain ⟨rfl, rfl⟩ := ht
    obtain ⟨rfl, rfl⟩ := starts_sound y hw.2 hb hsol hy
    exact ⟨rfl, rfl⟩
  | .alt x y, hw, a, pos, inp, c, r, ps, hs, hsol, h => by
    simp only [PExpr.wf, Bool.and_eq_true] at hw
    simp only [PExpr.starts, Bool.or_eq_false_iff] at hs
    simp only [run] at h
    split at h
    · exact starts_sound y hw.2 hs.2 hsol h
    · exact starts_sound x hw.1 hs.1 hsol h
  | .opt x, hw, a, pos, inp, c, r, ps, hs, hsol, h => by
    simp only [run] at h
    split at h
    · injection h with h1 h2; exact ⟨h1.symm, h2.symm⟩
    · exact starts_sound x hw hs hsol h
  | .star x, hw, a, pos, inp, c, r, ps, hs, hsol, h => by
    simp only [PExpr.wf, Bool.and_eq_true] at hw
    simp only [run] at h
    split at h
    · injection h with h1 h2; exact ⟨h1.symm, h2.symm⟩
    · contradiction
    · rename_i hx
      obtain ⟨rfl, rfl⟩ := starts_sound x hw.2 hs hsol hx
      exact absurd rfl (nonNull_consumes x hw.1 (run_sound gskip_sound _ _ _ _ _ _ _ hx).2)
  | .neg x, hw, a, pos, inp, c, r, ps, hs, hsol, h => by
    simp only [run] at h
    split at h <;> try contradiction
    injection h with h1 h2; exact ⟨h1.symm, h2.symm⟩
  | .rule rl m b, hw, a, pos, inp, c, r, ps, hs, hsol, h => by
    simp only [run] at h
    split at h <;> try contradiction
    rename_i hb
    injection h with h1 h2 h3
    subst h1 h2
    refine starts_sound b hw hs ?_ hb
    intro h
    cases m <;> simp [bodyAtomicity] at h
    exact hsol h

theorem run_no_diverge {e : PExpr} (hw : e.wf = true) (a pos inp) : run G.skip e a pos inp ≠ .diverge :=
  run_total skip_sound skip_total e hw a pos inp

/-- An expression that must consume fails on a text that cannot start it. -/
theorem fail_of_starts {e : PExpr} (hw : e.wf = true) (hn : e.nonNull = true) {a pos inp}
    (hs : e.starts inp.head? = false) (hsol : a = .nonAtomic → Solid inp) :
    run G.skip e a pos inp = .fail := by
  cases h : run G.skip e a pos inp with
  | fail => rfl
  | diverge => exact absurd h (run_no_diverge hw _ _ _)
  | ok c r ps =>
    obtain ⟨rfl, -⟩ := starts_sound e hw hs hsol h
    exact absurd rfl (nonNull_consumes e hn (run_sound gskip_sound _ _ _ _ _ _ _ h).2)

end Dbml
