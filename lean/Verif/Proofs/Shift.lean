import Verif.Proofs.Loop
import Verif.Proofs.Term

/-!
# Recognition at another offset

Running a grammar expression `δ` bytes further to the right gives the same pairs, shifted by `δ`.
-/

namespace Dbml
open Syntax Source

mutual
/-- `q` is `p` shifted by `δ`; no pair in it ends at offset 0. -/
inductive Sh (δ : Nat) : Pair → Pair → Prop
  | mk {r sp t cs ds} : 0 < sp.stop → ShL δ cs ds →
      Sh δ (.mk r sp t cs) (.mk r ⟨sp.start + δ, sp.stop + δ⟩ t ds)
/-- Lists of pairs, shifted. -/
inductive ShL (δ : Nat) : List Pair → List Pair → Prop
  | nil : ShL δ [] []
  | cons {p q ps qs} : Sh δ p q → ShL δ ps qs → ShL δ (p :: ps) (q :: qs)
end

theorem ShL.append {δ ps qs ps' qs'} (h : ShL δ ps qs) (h' : ShL δ ps' qs') : ShL δ (ps ++ ps') (qs ++ qs') := by
  induction ps generalizing qs with
  | nil => cases h; exact h'
  | cons p ps ih => cases h with | cons h1 h2 => exact .cons h1 (ih h2)

/-- Outcomes that differ by a shift only. -/
inductive ResSh (δ : Nat) : Res → Res → Prop
  | ok {c r ps qs} : ShL δ ps qs → ResSh δ (.ok c r ps) (.ok c r qs)
  | fail : ResSh δ .fail .fail
  | diverge : ResSh δ .diverge .diverge

/-- No `SOI` in the expression. -/
def PExpr.noSoi : PExpr → Bool
  | .str _ | .insens _ | .cls _ | .eoi => true
  | .soi => false
  | .seq a b | .alt a b => a.noSoi && b.noSoi
  | .opt a | .star a | .neg a => a.noSoi
  | .rule _ _ b => b.noSoi

/-- The expression emits no empty pair at its very beginning. -/
def PExpr.solid : PExpr → Bool
  | .str _ | .insens _ | .cls _ | .soi => true
  | .eoi => false
  | .seq a b => a.solid && (a.nonNull || b.solid)
  | .alt a b => a.solid && b.solid
  | .opt a | .star a | .neg a => a.solid
  | .rule _ _ b => b.solid && b.nonNull

theorem blen_pos {c : Str} (h : c ≠ []) : 0 < blen c := by
  cases c with
  | nil => exact absurd rfl h
  | cons x xs => have := Char.utf8Size_pos x; simp only [blen]; omega

theorem seqRes_sh {δ skip a pos ra ra' kb kb'} (h1 : ResSh δ ra ra')
    (h2 : ∀ c1 r1 p1 c2, ra = .ok c1 r1 p1 → ∀ i, ResSh δ (kb (pos + blen c1 + blen c2) i) (kb' (pos + δ + blen c1 + blen c2) i)) :
    ResSh δ (seqRes skip a pos ra kb) (seqRes skip a (pos + δ) ra' kb') := by
  cases h1 with
  | fail => exact .fail
  | diverge => exact .diverge
  | @ok c r ps qs hs =>
    simp only [seqRes]
    cases skipIf skip a r with
    | fail => exact .fail
    | diverge => exact .diverge
    | ok c2 r2 p2 =>
      have := h2 c r ps c2 rfl r2
      revert this
      simp only
      generalize kb (pos + blen c + blen c2) r2 = x
      generalize kb' (pos + δ + blen c + blen c2) r2 = y
      rintro (_ | _ | _)
      · exact .ok (hs.append ‹_›)
      · exact .fail
      · exact .diverge

theorem repLoop_sh {δ} {P : Nat → Prop} (hP : ∀ p k, P p → P (p + k)) {s s' : Nat → Str → Res}
    (h : ∀ p i, P p → ResSh δ (s p i) (s' (p + δ) i)) : ∀ fuel p i, P p →
    ResSh δ (repLoop s fuel p i) (repLoop s' fuel (p + δ) i)
  | 0, p, i, _ => .diverge
  | fuel + 1, p, i, hp => by
    have h1 := h p i hp
    simp only [repLoop]
    revert h1
    generalize s p i = x
    generalize s' (p + δ) i = y
    rintro (⟨hl⟩ | _ | _)
    · rename_i c r ps qs
      cases c with
      | nil => exact .diverge
      | cons c cs =>
        have h2 := repLoop_sh hP h fuel (p + blen (c :: cs)) r (hP _ _ hp)
        rw [show p + blen (c :: cs) + δ = p + δ + blen (c :: cs) by omega] at h2
        simp only
        revert h2
        generalize repLoop s fuel (p + blen (c :: cs)) r = x
        generalize repLoop s' fuel (p + δ + blen (c :: cs)) r = y
        rintro (_ | _ | _)
        · exact .ok (hl.append ‹_›)
        · exact .fail
        · exact .diverge
    · exact .ok .nil
    · exact .diverge

/-- Running further to the right shifts the pairs. -/
theorem run_sh {skip T} (hsnd : SkipSound skip T) (δ : Nat) : ∀ (e : PExpr), e.noSoi = true → ∀ a pos inp,
    (0 < pos ∨ e.solid = true) → ResSh δ (run skip e a pos inp) (run skip e a (pos + δ) inp)
  | .str s, _, a, pos, inp, _ => by
    simp only [run]; split
    · exact .ok .nil
    · exact .fail
  | .insens s, _, a, pos, inp, _ => by
    simp only [run]; split
    · exact .ok .nil
    · exact .fail
  | .cls p, _, a, pos, inp, _ => by
    simp only [run]; split
    · split
      · exact .ok .nil
      · exact .fail
    · exact .fail
  | .soi, hn, _, _, _, _ => by simp [PExpr.noSoi] at hn
  | .eoi, _, a, pos, inp, hp => by
    have hp : 0 < pos := by simpa [PExpr.solid] using hp
    simp only [run]; split
    · split
      · exact .ok .nil
      · exact .ok (.cons (.mk hp .nil) .nil)
    · exact .fail
  | .seq x y, hn, a, pos, inp, hp => by
    simp only [PExpr.noSoi, Bool.and_eq_true] at hn
    simp only [PExpr.solid, Bool.and_eq_true, Bool.or_eq_true] at hp
    simp only [run]
    refine seqRes_sh (run_sh hsnd δ x hn.1 a pos inp (hp.imp id (·.1))) ?_
    intro c1 r1 p1 c2 h1 i
    rw [show pos + δ + blen c1 + blen c2 = pos + blen c1 + blen c2 + δ by omega]
    refine run_sh hsnd δ y hn.2 a _ i ?_
    rcases hp with hp | ⟨-, hp | hp⟩
    · left; omega
    · left
      have := blen_pos (nonNull_consumes x hp (run_sound hsnd _ _ _ _ _ _ _ h1).2)
      omega
    · exact .inr hp
  | .alt x y, hn, a, pos, inp, hp => by
    simp only [PExpr.noSoi, Bool.and_eq_true] at hn
    simp only [PExpr.solid, Bool.and_eq_true] at hp
    have h1 := run_sh hsnd δ x hn.1 a pos inp (hp.imp id (·.1))
    have h2 := run_sh hsnd δ y hn.2 a pos inp (hp.imp id (·.2))
    simp only [run]
    revert h1
    generalize run skip x a pos inp = u
    generalize run skip x a (pos + δ) inp = v
    rintro (_ | _ | _)
    · exact .ok ‹_›
    · exact h2
    · exact .diverge
  | .opt x, hn, a, pos, inp, hp => by
    have h1 := run_sh hsnd δ x hn a pos inp hp
    simp only [run]
    revert h1
    generalize run skip x a pos inp = u
    generalize run skip x a (pos + δ) inp = v
    rintro (_ | _ | _)
    · exact .ok ‹_›
    · exact .ok .nil
    · exact .diverge
  | .neg x, hn, a, pos, inp, hp => by
    have h1 := run_sh hsnd δ x hn a pos inp hp
    simp only [run]
    revert h1
    generalize run skip x a pos inp = u
    generalize run skip x a (pos + δ) inp = v
    rintro (_ | _ | _)
    · exact .fail
    · exact .ok .nil
    · exact .diverge
  | .rule r m b, hn, a, pos, inp, hp => by
    simp only [PExpr.solid, Bool.and_eq_true] at hp
    have h1 := run_sh hsnd δ b hn (bodyAtomicity m a) pos inp (hp.imp id (·.1))
    simp only [run]
    have hc : ∀ c rest ps, run skip b (bodyAtomicity m a) pos inp = .ok c rest ps → 0 < pos + blen c := by
      intro c rest ps h
      rcases hp with hp | ⟨-, hp⟩
      · omega
      · have := blen_pos (nonNull_consumes b hp (run_sound hsnd _ _ _ _ _ _ _ h).2); omega
    revert h1 hc
    generalize run skip b (bodyAtomicity m a) pos inp = u
    generalize run skip b (bodyAtomicity m a) (pos + δ) inp = v
    rintro (hl | _ | _) hc
    · rename_i c rest ps qs
      have h0 := hc c rest ps rfl
      refine .ok ?_
      split
      · rw [show pos + δ + blen c = pos + blen c + δ by omega]
        exact .cons (.mk (sp := ⟨pos, pos + blen c⟩) h0 hl) .nil
      · exact hl
    · exact .fail
    · exact .diverge
  | .star x, hn, a, pos, inp, hp => by
    simp only [PExpr.noSoi, PExpr.solid] at hn hp
    have h1 := run_sh hsnd δ x hn a pos inp hp
    have hstep : ∀ p i, (0 < p ∨ x.solid = true) →
        ResSh δ (seqRes skip a p (.ok [] i []) (fun p' i' => run skip x a p' i'))
          (seqRes skip a (p + δ) (.ok [] i []) (fun p' i' => run skip x a p' i')) := by
      intro p i hp
      refine seqRes_sh (.ok .nil) ?_
      intro c1 r1 p1 c2 _ j
      rw [show p + δ + blen c1 + blen c2 = p + blen c1 + blen c2 + δ by omega]
      exact run_sh hsnd δ x hn a _ j (hp.imp (by omega) id)
    have h2 : ∀ c r, ResSh δ
        (repLoop (fun p i => seqRes skip a p (.ok [] i []) (fun p' i' => run skip x a p' i')) (r.length + 1) (pos + blen c) r)
        (repLoop (fun p i => seqRes skip a p (.ok [] i []) (fun p' i' => run skip x a p' i')) (r.length + 1) (pos + δ + blen c) r) := by
      intro c r
      rw [show pos + δ + blen c = pos + blen c + δ by omega]
      exact repLoop_sh (P := fun p => 0 < p ∨ x.solid = true) (fun p k h => h.imp (by omega) id) hstep _ _ _
        (hp.imp (by omega) id)
    simp only [run]
    revert h1
    generalize run skip x a pos inp = u
    generalize run skip x a (pos + δ) inp = v
    rintro (hl | _ | _)
    · rename_i c r ps qs
      have h3 := h2 c r
      simp only
      revert h3
      generalize repLoop _ (r.length + 1) (pos + blen c) r = u
      generalize repLoop _ (r.length + 1) (pos + δ + blen c) r = v
      rintro (_ | _ | _)
      · exact .ok (hl.append ‹_›)
      · exact .fail
      · exact .diverge
    · exact .ok .nil
    · exact .diverge

theorem top_noSoi : G.top_decl.noSoi = true := by decide
theorem top_solid : (PExpr.star G.top_decl).solid = true := by decide

/-! ## Skipping trivia in front of any text -/

theorem comments_nopairs {pos c r ps} (h : run NoSkip commentsExpr .atomic pos s = .ok c r ps) : ps = [] := by
  obtain ⟨-, hm⟩ := run_sound noSkip_sound _ _ _ _ _ _ _ h
  refine star_atomic atomic_ne (fun _ _ _ ps => ps = []) (fun _ _ _ => rfl) ?_ hm
  intro pos c c' rest p p' hm hp
  rw [seq_atomic atomic_ne] at hm
  obtain ⟨c1, c2, p1, p2, rfl, rfl, h1, h2⟩ := hm
  obtain ⟨-, h3, -⟩ := comment_matches atomic_ne h1
  obtain ⟨h4, -, -⟩ := wsStar_matches atomic_ne h2
  simp [h3, h4, hp]

theorem skips_total (s : Str) : ∃ w r, Skips s w r := by
  obtain ⟨w1, s1, rfl, hw, hs⟩ := split_blanks s
  have h1 := run_total noSkip_sound (fun i => by simp) commentsExpr (by decide) .atomic 0 s1
  cases h : run NoSkip commentsExpr .atomic 0 s1 with
  | diverge => exact absurd h h1
  | fail =>
    simp only [commentsExpr, run] at h
    split at h <;> try contradiction
    split at h <;> try contradiction
    rename_i h2
    exact absurd h2 (repLoop_ne_fail _ _ _)
  | ok w2 r ps =>
    have := comments_nopairs h
    subst this
    refine ⟨w1 ++ w2, r, w1, s1, w2, rfl, rfl, hw, hs, fun pos => ?_⟩
    have h2 := run_sh noSkip_sound pos commentsExpr (by decide) .atomic 0 s1 (.inr (by decide))
    rw [h, Nat.zero_add] at h2
    revert h2
    generalize run NoSkip commentsExpr .atomic pos s1 = x
    rintro ⟨⟨⟩⟩
    rfl

theorem skips_prepend {w s c r : Str} (hw : Blank w) (hs : Skips s c r) : Skips (w ++ s) (w ++ c) r := by
  induction hw with
  | nil => exact hs
  | space hc _ ih => exact .space hc ih
  | @line body nl t hb hnl _ ih =>
    have := Skips.comment (k := k!"//" ++ body) (s := nl :: (t ++ s)) (by simp) slash_noWs
      (fun pos => by
        have := line_run (r := nl :: (t ++ s)) hb (.inr ⟨_, _, rfl, hnl⟩) pos
        simpa using this)
      (.space (by rcases hnl with rfl | rfl <;> simp [IsSpace]) ih)
    simpa using this
  | @block body t hb _ ih =>
    have := Skips.comment (k := k!"/*" ++ (body ++ k!"*/")) (s := t ++ s) (by simp) slash_noWs
      (fun pos => by
        have := block_run (r := t ++ s) hb pos
        simpa using this) ih
    simpa using this

/-- The skipper treats trivia in front of any text as part of what it skips. -/
theorem skip_prepend {w : Str} (hw : Blank w) (s : Str) :
    ∃ c r, G.skip s = .ok c r [] ∧ G.skip (w ++ s) = .ok (w ++ c) r [] := by
  obtain ⟨c, r, h⟩ := skips_total s
  exact ⟨c, r, h.skip, (skips_prepend hw h).skip⟩

end Dbml
