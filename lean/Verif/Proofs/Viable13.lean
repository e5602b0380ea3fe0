import Verif.Proofs.Viable12
import Verif.Proofs.Slices

/-!
# Completing a rejected text
-/

namespace Dbml.Vp
open Syntax Source

variable {R : Rule}

theorem viab_tops : Viab (.star G.top_decl) (inL (letters ++ ['.', '[', '\''])) [] := .starC _ viab_top_decl (by decide +kernel)

theorem pest_of {s m c r : Str} (hl : Leads s m) (hm : Sol m) (h : Rn (.star G.top_decl) .nonAtomic m c r) (hr : Leads r []) :
    pestParse s ≠ .fail := by
  intro hf
  obtain ⟨w, r', c', r1, ps, w1, x, xs, h1, h2, h3⟩ := pest_fail_shape hf
  obtain ⟨g, hg, -⟩ := hl.skip hm
  rw [hg] at h1
  injection h1 with e1 e2
  subst e1 e2
  obtain ⟨ps', h⟩ := h (blen g)
  rw [h] at h2
  injection h2 with e1 e2
  subst e1 e2
  obtain ⟨g', hg', -⟩ := hr.skip sol_nil
  rw [hg'] at h3
  injection h3 with _ e2
  cases e2

theorem off_none {A : Char → Bool} : Off A [] := by intro c t e; simp at e

/-- Why a rule is among those that are named. -/
theorem tried_final {s w r c r1 ps w1 x xs} (h1 : G.skip s = .ok w r [])
    (h2 : run G.skip (.star G.top_decl) .nonAtomic (blen w) r = .ok c r1 ps) (h3 : G.skip r1 = .ok w1 (x :: xs) [])
    (hR : R ∈ (finalAttempts s).rules) :
    (R = .schema ∧ syntaxErrorPos s = 0) ∨
    (∃ u v, r = u ++ v ∧ syntaxErrorPos s = blen w + blen u ∧ Tried R (.star G.top_decl) .nonAtomic r v) ∨
    (R = .EOI ∧ syntaxErrorPos s = blen w + blen c + blen w1) := by
  have e0 : run G.skip .soi .nonAtomic 0 s = .ok [] s [] := by simp [run]
  have hfail : run G.skip (.soi ~~ .star G.top_decl ~~ .eoi) .nonAtomic 0 s = .fail := by
    rw [run, e0]
    simp only [seqRes, skipIf, h1]
    rw [run, show 0 + blen [] + blen w = blen w by simp, h2]
    simp [seqRes, skipIf, h3, run]
  have hb : expect G.skip (.soi ~~ .star G.top_decl ~~ .eoi) .nonAtomic 0 s {} =
      (expect G.skip (.star G.top_decl) .nonAtomic (blen w) r {}).failed
        (expect G.skip (.star G.top_decl) .nonAtomic (blen w) r {}) .EOI (blen w + blen c + blen w1) := by
    rw [expect, e0]
    simp only [expectNext, skipIf, h1]
    rw [expect, show 0 + blen [] + blen w = blen w by simp, expect.eq_7, h2]
    simp only [expectNext, skipIf, h3]
    generalize expect G.skip (.star G.top_decl) .nonAtomic (blen w) r {} = B
    simp [expect]
  have hfin : finalAttempts s = (({} : Attempts).failed
      (expect G.skip (.soi ~~ .star G.top_decl ~~ .eoi) .nonAtomic 0 s {}) .schema 0) :=
    expect_rule_fail hfail
  rw [hb] at hfin
  have hpos := finalAttempts_pos s
  rw [hfin] at hpos hR
  rcases Attempts.failed_mem hR with ⟨h, e⟩ | ⟨h, e⟩
  · rw [e] at hpos
    rcases Attempts.failed_mem h with ⟨h, e⟩ | ⟨h, e⟩
    · rw [e] at hpos
      rcases expect_tried _ rfl _ _ _ _ R h with ⟨h, -⟩ | ⟨u, v, e1, e2, ht⟩
      · cases h
      · exact .inr (.inl ⟨u, v, e1, by rw [← hpos, e2], ht⟩)
    · exact .inr (.inr ⟨h, by rw [← hpos, e]⟩)
  · exact .inl ⟨h, by rw [← hpos, e]⟩

theorem fit_tops : Fit (.star G.top_decl) (inL (letters ++ ['.', '[', '\''])) := fit_of viab_tops (by decide +kernel)

/-- The rule `R` is not mentioned. -/
def lacks (R : Rule) : PExpr → Bool
  | .str _ | .insens _ | .cls _ | .soi | .neg _ => true
  | .eoi => R != .EOI
  | .seq a b | .alt a b => lacks R a && lacks R b
  | .opt a | .star a => lacks R a
  | .rule r _ b => r != R && lacks R b

theorem tried_not {e a s v} (h : lacks R e = true) : ¬ Tried R e a s v := by
  intro ht
  induction ht with
  | eoi h' => simp [lacks, h'] at h
  | seqL _ ih | altL _ ih => simp only [lacks, Bool.and_eq_true] at h; exact ih h.1
  | seqR _ _ _ ih | altR _ _ ih => simp only [lacks, Bool.and_eq_true] at h; exact ih h.2
  | opt _ ih | star1 _ ih => exact ih h
  | star2 _ _ _ ih => exact ih h
  | ruleIn _ ih => simp only [lacks, Bool.and_eq_true] at h; exact ih h.2
  | ruleAt => simp [lacks] at h

/-- Where the end is expected, the text may end. -/
theorem fits_end {before after : Str} (h : pestParse (before ++ after) = .fail) (hp : syntaxErrorPos (before ++ after) = blen before)
    (hR : .EOI ∈ expectedRules (before ++ after)) : pestParse (before ++ k!"\n") ≠ .fail := by
  obtain ⟨w, r, c, r1, ps, w1, x, xs, h1, h2, h3⟩ := pest_fail_shape h
  obtain ⟨hs, hg⟩ := gap_of_skip (show skipIf G.skip .nonAtomic (before ++ after) = _ from h1)
  have hsp := run_split h2
  obtain ⟨hs1, hg1⟩ := gap_of_skip (show skipIf G.skip .nonAtomic r1 = _ from h3)
  have same : ∀ {u v : Str}, before ++ after = u ++ v → blen before = blen u → before = u := by
    intro u v e1 e2
    rw [← takeBytes_append before after, e1, e2, takeBytes_append]
  have hr : r ≠ [] := by
    rw [hsp, hs1]; simp
  have hb := hg.blank hr
  have e2 : syntaxErrorPos (before ++ after) = blen w + blen c + blen w1 := by
    rcases tried_final h1 h2 h3 (mem_expectedRules.1 hR) with ⟨h, -⟩ | ⟨u, v, e1, e2, ht⟩ | ⟨-, e2⟩
    · cases h
    · exact absurd ht (tried_not (by decide))
    · exact e2
  have hbef : before = w ++ (c ++ w1) := same (v := x :: xs) (by rw [hs, hsp, hs1]; simp) (by rw [blen_append, blen_append]; omega)
  subst hbef
  have hcut : Cut (x :: xs) k!"\n" := ⟨[], x :: xs, k!"\n", rfl, rfl, by decide, wd_nl⟩
  have hl : Leads (w1 ++ k!"\n") [] := gap_leads hg1 hcut leads_nl sol_nil
  by_cases hc : c = []
  · subst hc
    have hl' : Leads (w ++ ([] ++ w1) ++ k!"\n") [] := by
      simp only [List.nil_append, List.append_assoc]
      exact Leads.app hb hl
    have : Fl G.top_decl .nonAtomic [] := fl_off (by decide) rfl (fun _ => solid_nil) (by simp)
    obtain ⟨c, r, h, hl''⟩ := (It.stop this).star sol_nil sol_nil
    exact pest_of hl' sol_nil h hl''
  · have hR : Rn (.star G.top_decl) .nonAtomic r c r1 := .of rfl h2
    obtain ⟨y, ys, rfl, hy⟩ := rn_head (by decide) (fun _ => hg.solid) hR hc
    obtain ⟨c', r', h5, h6⟩ := viab_tops.keep _ _ _ hg.solid hR hc (w1 ++ k!"\n") [] (by rw [hs1]; exact hcut.app w1) hl sol_nil off_none
    have : w ++ (y :: ys ++ w1) ++ k!"\n" = w ++ (y :: ys ++ (w1 ++ k!"\n")) := by simp
    rw [this]
    exact pest_of (Leads.app hb .refl) (sol_cons (viab_tops.sp y hy)) h5 h6

/-- Everything that is named as expected fits there. -/
theorem fits {before after : Str} (h : pestParse (before ++ after) = .fail) (hp : syntaxErrorPos (before ++ after) = blen before)
    (hR : R ∈ expectedRules (before ++ after)) :
    ∃ t, Sm R t ∧ pestParse (before ++ t) ≠ .fail := by
  obtain ⟨w, r, c, r1, ps, w1, x, xs, h1, h2, h3⟩ := pest_fail_shape h
  obtain ⟨hs, hg⟩ := gap_of_skip (show skipIf G.skip .nonAtomic (before ++ after) = _ from h1)
  have hsp := run_split h2
  obtain ⟨hs1, hg1⟩ := gap_of_skip (show skipIf G.skip .nonAtomic r1 = _ from h3)
  have same : ∀ {u v : Str}, before ++ after = u ++ v → blen before = blen u → before = u := by
    intro u v e1 e2
    rw [← takeBytes_append before after, e1, e2, takeBytes_append]
  have hr : r ≠ [] := by
    rw [hsp, hs1]; simp
  have hb := hg.blank hr
  rcases tried_final h1 h2 h3 (mem_expectedRules.1 hR) with ⟨rfl, h0⟩ | ⟨u, v, e1, e2, ht⟩ | ⟨rfl, e2⟩
  · have hbef : before = [] := same (v := before ++ after) rfl (by rw [← hp, h0]; rfl)
    subst hbef
    refine ⟨Spec.sample .schema, ⟨[], .inl (by simp)⟩, ?_⟩
    intro hf
    have := congrArg (fun x => match x with | Res.fail => true | _ => false) hf
    revert this
    decide +kernel
  · have hbef : before = w ++ u := same (v := v) (by rw [hs, e1]; simp) (by rw [blen_append]; omega)
    by_cases hu : u = []
    · subst hu
      rw [List.append_nil] at hbef
      subst hbef
      obtain ⟨t, ⟨y, ys, ey, hy⟩, hn, hk⟩ := fit_tops R (ht.first viab_tops.wf (by rw [e1]; simp))
      obtain ⟨c', r', h5, h6⟩ := hk [] ⟨by simp, sol_nil⟩ off_none
      have hm : Sol (Spec.sample R ++ t ++ k!"\n") := by rw [ey]; exact sol_cons (viab_tops.sp y hy)
      refine ⟨'\n' :: (Spec.sample R ++ (t ++ k!"\n")), ⟨t ++ k!"\n", .inr rfl⟩, ?_⟩
      have hl : Leads (before ++ '\n' :: (Spec.sample R ++ t ++ k!"\n")) (Spec.sample R ++ t ++ k!"\n") :=
        gap_leads hg ⟨[], r, '\n' :: (Spec.sample R ++ t ++ k!"\n"), rfl, rfl, by simpa using hn, wd_nl⟩ leads_nl hm
      have := pest_of hl hm h5 h6
      simpa using this
    · obtain ⟨y, ys, rfl, hy⟩ := tried_head (by decide) hg.solid ht e1 hu
      obtain ⟨t, hsm, -, h4⟩ := viab_tops.via _ _ _ hg.solid ht e1 hu
      obtain ⟨-, c', r', h5, h6⟩ := h4 [] ⟨by simp, sol_nil⟩ off_none
      refine ⟨t ++ k!"\n", hsm.app _, ?_⟩
      subst hbef
      rw [List.append_assoc]
      exact pest_of (Leads.app hb .refl) (sol_cons (viab_tops.sp y hy)) h5 h6
  · exact ⟨k!"\n", ⟨[], .inr rfl⟩, fits_end h hp hR⟩

/-- The text before the place where a syntax error is reported can be completed. -/
theorem viable {before after : Str} (h : pestParse (before ++ after) = .fail) (hp : syntaxErrorPos (before ++ after) = blen before) :
    ∃ z, pestParse (before ++ z) ≠ .fail := by
  obtain ⟨R, hR⟩ := List.exists_mem_of_ne_nil _ (expectedRules_some h)
  obtain ⟨t, -, ht⟩ := fits h hp hR
  exact ⟨t, ht⟩

end Dbml.Vp
