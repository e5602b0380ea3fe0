import Verif.Proofs.Viable2

/-!
# Completing a text: choices, options, repetitions, rules
-/

namespace Dbml.Vp
open Syntax Source

variable {R : Rule}

theorem Off.sub {A C : Char → Bool} {m} (h : Off C m) (hs : ∀ c, A c = true → C c = true) : Off A m := by
  intro c t e
  cases h' : A c with
  | false => rfl
  | true => have := h c t e; rw [hs c h'] at this; contradiction

theorem Keep.sub {e A C} (h : Keep e A) (hs : ∀ c, A c = true → C c = true) : Keep e C :=
  fun s c r h1 h2 h3 w m h4 h5 h6 h7 => h s c r h1 h2 h3 w m h4 h5 h6 (h7.sub hs)

/-! ## Rules -/

theorem Viab.rule {b A t} (rl : Rule) (g : Viab b A t) : Viab (.rule rl .normal b) A t := by
  refine ⟨g.wf, g.ns, g.asc, g.sp, ?_, ?_, g.fin.1, ?_⟩
  · intro s c r h1 h2 h3 w m h4 h5 h6 h7
    obtain ⟨c', r', h, hl⟩ := g.keep s c r h1 (rule_rn g.ns h2) h3 w m h4 h5 h6 h7
    exact ⟨c', r', rn_rule (m := .normal) h, hl⟩
  · intro R s u v hs ht e hu
    cases ht with
    | ruleIn ht =>
      obtain ⟨t, h0, h1, h2⟩ := g.via s u v hs ht e hu
      refine ⟨t, h0, h1, fun m hm ho => ?_⟩
      obtain ⟨hW, c, r, h, hl⟩ := h2 m hm ho
      exact ⟨hW, c, r, rn_rule (m := .normal) h, hl⟩
    | ruleAt =>
      have := congrArg List.length e
      simp at this
      exact absurd this hu
  · rcases g.fin.2 with ⟨h1, h2, h3, h4⟩ | ⟨h1, h2, h3⟩
    · refine .inl ⟨h1, h2, h3, fun m hm ho => ?_⟩
      obtain ⟨c, r, h, hl⟩ := h4 m hm ho
      exact ⟨c, r, rn_rule (m := .normal) h, hl⟩
    · refine .inr ⟨h1, fun a s h => ?_, h3⟩
      rcases rn_or_fl g.ns g.wf a s with ⟨c, r, h'⟩ | h'
      · exact (rn_rule (m := .normal) (a := a) h').not_fl h
      · exact h2 a s h'

/-! ## Options -/

theorem Viab.opt {a A t} (g : Viab a A t) : Viab (.opt a) (fun c => a.starts (some c) || A c) [] := by
  refine ⟨g.wf, g.ns, g.asc, g.sp, ?_, ?_, by simp, .inr ⟨rfl, ?_, ?_⟩⟩
  · intro s c r h1 h2 h3 w m h4 h5 h6 h7
    rcases opt_rn g.ns h2 with ⟨-, h, -⟩ | h2
    · exact absurd h h3
    · obtain ⟨c', r', h, hl⟩ := g.keep s c r h1 h2 h3 w m h4 h5 h6 (h7.sub (by intro c h; simp [h]))
      exact ⟨c', r', rn_optS h, hl⟩
  · intro R s u v hs ht e hu
    cases ht with
    | opt ht =>
      obtain ⟨t, h0, h1, h2⟩ := g.via s u v hs ht e hu
      refine ⟨t, h0, h1, fun m hm ho => ?_⟩
      obtain ⟨hW, c, r, h, hl⟩ := h2 m hm (ho.sub (by intro c h; simp [h]))
      exact ⟨hW, c, r, rn_optS h, hl⟩
  · intro x s h
    have := h 0
    simp only [run] at this
    split at this
    · cases this
    · contradiction
  · intro c h
    simp [show a.starts (some c) = true from h]

/-! ## Choices -/

theorem Viab.altG {a b : PExpr} {A B C : Char → Bool} {ta tb t : Str} (ga : Viab a A ta) (gb : Viab b B tb)
    (hA : ∀ c, A c = true → C c = true) (hB : ∀ c, B c = true → C c = true)
    (hk : ∀ s c r, Solid s → Fl a .nonAtomic s → Rn b .nonAtomic s c r → c ≠ [] → ∀ w m, Cut r w → Leads w m → Sol m →
      Off C m → Fl a .nonAtomic (c ++ w))
    (hv : ∀ ⦃R⦄ s u v, Solid s → Fl a .nonAtomic s → Tried R b .nonAtomic s v → s = u ++ v → u ≠ [] →
      Tried R a .nonAtomic s v ∨ ∃ t, Sm R t ∧ '/' ∉ t ∧ ∀ m, Tl m → Off C m →
        Wd u (t ++ '\n' :: m) ∧ Fl a .nonAtomic (u ++ (t ++ '\n' :: m)) ∧
        ∃ c r, Rn b .nonAtomic (u ++ (t ++ '\n' :: m)) c r ∧ Leads r m)
    (hf : Fin' (.alt a b) C t) : Viab (.alt a b) C t := by
  have hst : ∀ c, (PExpr.alt a b).starts (some c) = true → a.starts (some c) = true ∨ b.starts (some c) = true := by
    intro c h
    simpa only [PExpr.starts, Bool.or_eq_true] using h
  have hva : ∀ ⦃R⦄ s u v, Solid s → Tried R a .nonAtomic s v → s = u ++ v → u ≠ [] → ∃ t, Sm R t ∧ '/' ∉ t ∧ ∀ m, Tl m → Off C m →
    Wd u (t ++ '\n' :: m) ∧ ∃ c r, Rn (.alt a b) .nonAtomic (u ++ (t ++ '\n' :: m)) c r ∧ Leads r m := by
    intro R s u v hs ht e hu
    obtain ⟨t, h0, h1, h2⟩ := ga.via s u v hs ht e hu
    refine ⟨t, h0, h1, fun m hm ho => ?_⟩
    obtain ⟨hW, c, r, h, hl⟩ := h2 m hm (ho.sub hA)
    exact ⟨hW, c, r, rn_altL h, hl⟩
  refine ⟨by simp [PExpr.wf, ga.wf, gb.wf], by simp [PExpr.noSoi, ga.ns, gb.ns], ?_, ?_, ?_, ?_, hf⟩
  · intro c h
    rcases hst c h with h | h
    · exact ga.asc c h
    · exact gb.asc c h
  · intro c h
    rcases hst c h with h | h
    · exact ga.sp c h
    · exact gb.sp c h
  · intro s c r hs hr hc w m hcut hl hm ho
    rcases alt_rn ga.ns gb.ns hr with h | ⟨hf, h⟩
    · obtain ⟨c', r', h, hl⟩ := ga.keep s c r hs h hc w m hcut hl hm (ho.sub hA)
      exact ⟨c', r', rn_altL h, hl⟩
    · have hfl := hk s c r hs hf h hc w m hcut hl hm ho
      obtain ⟨c', r', h, hl⟩ := gb.keep s c r hs h hc w m hcut hl hm (ho.sub hB)
      exact ⟨c', r', rn_altR hfl h, hl⟩
  · intro R s u v hs ht e hu
    cases ht with
    | altL ht => exact hva s u v hs ht e hu
    | altR hf ht =>
      rcases hv s u v hs hf ht e hu with ht | ⟨t, h0, h1, h2⟩
      · exact hva s u v hs ht e hu
      · refine ⟨t, h0, h1, fun m hm ho => ?_⟩
        obtain ⟨hW, hfl, c, r, h, hl⟩ := h2 m hm ho
        exact ⟨hW, c, r, rn_altR hfl h, hl⟩

theorem fin_altL {a b A t} (h : Fin' a A t) (ht : t ≠ []) (hb : b.nonNull = true) : Fin' (.alt a b) A t := by
  obtain ⟨h1, ⟨h2, h3, h4, h5⟩ | ⟨h, -⟩⟩ := h
  · refine ⟨h1, .inl ⟨h2, h3, by simp [PExpr.nonNull, h4, hb], fun m hm ho => ?_⟩⟩
    obtain ⟨c, r, h, hl⟩ := h5 m hm ho
    exact ⟨c, r, rn_altL h, hl⟩
  · exact absurd h ht

theorem Fin'.sub {a A C t} (h : Fin' a A t) (hs : ∀ c, A c = true → C c = true) : Fin' a C t := by
  obtain ⟨h1, ⟨h2, h3, h4, h5⟩ | ⟨h2, h3, h4⟩⟩ := h
  · exact ⟨h1, .inl ⟨h2, h3, h4, fun m hm ho => h5 m hm (ho.sub hs)⟩⟩
  · exact ⟨h1, .inr ⟨h2, h3, fun c h => hs c (h4 c h)⟩⟩

theorem fin_altR {a b B t} (h : Fin' b B t) (ht : t ≠ []) (ha : a.nonNull = true)
    (hf : ∀ m, Tl m → Off B m → Fl a .nonAtomic (t ++ '\n' :: m)) : Fin' (.alt a b) B t := by
  obtain ⟨h1, ⟨h2, h3, h4, h5⟩ | ⟨h, -⟩⟩ := h
  · refine ⟨h1, .inl ⟨h2, h3, by simp [PExpr.nonNull, h4, ha], fun m hm ho => ?_⟩⟩
    obtain ⟨c, r, h, hl⟩ := h5 m hm ho
    exact ⟨c, r, rn_altR (hf m hm ho) h, hl⟩
  · exact absurd h ht

/-- Alternatives with different first characters. -/
theorem Viab.alt {a b : PExpr} {A B C : Char → Bool} {ta tb t : Str} (ga : Viab a A ta) (gb : Viab b B tb)
    (hA : ∀ c, A c = true → C c = true) (hB : ∀ c, B c = true → C c = true) (hna : a.nonNull = true)
    (hd : ∀ c, b.starts (some c) = true → a.starts (some c) = false)
    (hf : Fin' (.alt a b) C t) : Viab (.alt a b) C t := by
  have key : ∀ x xs, b.starts (some x) = true → Fl a .nonAtomic (x :: xs) := by
    intro x xs hx
    exact fl_off ga.wf hna (fun _ => (sol_cons (gb.sp x hx)).solid) (by
      intro c t e; injection e with e _; subst e; exact hd _ hx)
  refine ga.altG gb hA hB ?_ ?_ hf
  · intro s c r hs hf hr hc w m hcut hl hm ho
    obtain ⟨x, t, rfl, hx⟩ := rn_head gb.wf (fun _ => hs) hr hc
    exact key _ _ hx
  · intro R s u v hs hf ht e hu
    obtain ⟨x, xs, rfl, hx⟩ := tried_head gb.wf hs ht e hu
    obtain ⟨t, h0, h1, h2⟩ := gb.via _ _ _ hs ht e hu
    refine .inr ⟨t, h0, h1, fun m hm ho => ?_⟩
    obtain ⟨hW, h⟩ := h2 m hm (ho.sub hB)
    exact ⟨hW, key _ _ hx, h⟩

/-! ## Repetitions -/

/-- Successive runs of `x`, each after white space and comments. -/
inductive It (x : PExpr) : Str → Str → Prop
  | stop {m} : Fl x .nonAtomic m → It x m m
  | more {m c r m1 M} : Rn x .nonAtomic m c r → c ≠ [] → Leads r m1 → Sol m1 → It x m1 M → It x m M

theorem It.loop {x : PExpr} {m M : Str} (h : It x m M) : Sol m → Sol M → ∀ s, Leads s m → ∀ fuel, s.length < fuel →
    ∃ c r, Leads r M ∧ ∀ pos, ∃ ps, repLoop (stepOf G.skip x .nonAtomic) fuel pos s = .ok c r ps := by
  induction h with
  | stop hf =>
    intro hm hM s hs fuel hfu
    obtain ⟨fuel, rfl⟩ : ∃ k, fuel = k + 1 := ⟨fuel - 1, by omega⟩
    obtain ⟨g, hg, -⟩ := hs.skip hm
    refine ⟨[], s, hs, fun pos => ⟨[], ?_⟩⟩
    simp only [repLoop, stepOf, seqRes, skipIf, hg, hf _]
  | @more m c r m1 M h1 hc hl hm1 _ ih =>
    intro hm hM s hs fuel hfu
    obtain ⟨fuel, rfl⟩ : ∃ k, fuel = k + 1 := ⟨fuel - 1, by omega⟩
    obtain ⟨g, hg, hg'⟩ := hs.skip hm
    have hsp := h1.split
    obtain ⟨a, t, rfl⟩ := List.exists_cons_of_ne_nil hc
    obtain ⟨c2, r2, hl2, h2⟩ := ih hm1 hM r hl fuel (by subst hsp hg'; simp at hfu ⊢; omega)
    refine ⟨g ++ (a :: t) ++ c2, r2, hl2, fun pos => ?_⟩
    obtain ⟨p1, e1⟩ := h1 (pos + blen [] + blen g)
    obtain ⟨p2, e2⟩ := h2 (pos + blen (g ++ a :: t))
    obtain ⟨d, ds, hd⟩ := List.exists_cons_of_ne_nil (show g ++ a :: t ≠ [] by simp)
    refine ⟨p1 ++ p2, ?_⟩
    have hstep : stepOf G.skip x .nonAtomic pos s = .ok (d :: ds) r p1 := by
      simp only [stepOf, seqRes, skipIf, hg, e1, List.nil_append, hd]
    rw [hd] at e2 ⊢
    simp only [repLoop, hstep, e2]

theorem It.star {x : PExpr} {m M : Str} (h : It x m M) (hm : Sol m) (hM : Sol M) :
    ∃ c r, Rn (.star x) .nonAtomic m c r ∧ Leads r M := by
  cases h with
  | stop hf =>
    refine ⟨[], m, fun pos => ⟨[], ?_⟩, .refl⟩
    simp only [run, hf pos]
  | @more _ c r m1 _ h1 hc hl hm1 h2 =>
    obtain ⟨c2, r2, hl2, h3⟩ := h2.loop hm1 hM r hl (r.length + 1) (by omega)
    refine ⟨c ++ c2, r2, fun pos => ?_, hl2⟩
    obtain ⟨p1, e1⟩ := h1 pos
    obtain ⟨p2, e2⟩ := h3 (pos + blen c)
    refine ⟨p1 ++ p2, ?_⟩
    have e2' : repLoop (fun p i => seqRes G.skip .nonAtomic p (.ok [] i []) fun p' i' => run G.skip x .nonAtomic p' i')
      (r.length + 1) (pos + blen c) r = .ok c2 r2 p2 := e2
    simp only [run, e1, e2']

theorem loop_split {x : PExpr} {a} : ∀ fuel pos s c r ps, repLoop (stepOf G.skip x a) fuel pos s = .ok c r ps → s = c ++ r := by
  intro fuel
  induction fuel with
  | zero => intro pos s c r ps h; simp [repLoop] at h
  | succ fuel ih =>
    intro pos s c r ps h
    simp only [repLoop] at h
    cases hst : stepOf G.skip x a pos s with
    | fail => rw [hst] at h; injection h with h1 h2 h3; subst h1 h2; rfl
    | diverge => rw [hst] at h; simp at h
    | ok c1 r1 p1 =>
      rw [hst] at h
      cases c1 with
      | nil => simp at h
      | cons d ds =>
        simp only at h
        cases hrep : repLoop (stepOf G.skip x a) fuel (pos + blen (d :: ds)) r1 with
        | fail => rw [hrep] at h; simp at h
        | diverge => rw [hrep] at h; simp at h
        | ok c2 r2 p2 =>
          rw [hrep] at h
          injection h with h1 h2 h3
          subst h1 h2
          rw [stepOf_split hst, ih _ _ _ _ _ hrep]
          simp

/-- What follows a run of a repetition, if something else follows. -/
theorem loop_keep {x : PExpr} {A : Char → Bool} (hw : x.wf = true) (hns : x.noSoi = true) (hn : x.nonNull = true)
    (hk : Keep x A) (hd : ∀ c, x.starts (some c) = true → A c = false)
    (hsp : ∀ c, x.starts (some c) = true → ¬ IsSpace c ∧ c ≠ '/') :
    ∀ fuel pos s c r ps, repLoop (stepOf G.skip x .nonAtomic) fuel pos s = .ok c r ps → ∀ w m, Cut r w → Leads w m → Sol m →
      Off (fun c => x.starts (some c) || A c) m → ∃ m', Leads (c ++ w) m' ∧ Sol m' ∧ Off A m' ∧ It x m' m := by
  intro fuel
  induction fuel with
  | zero => intro pos s c r ps h; simp [repLoop] at h
  | succ fuel ih =>
    intro pos s c r ps h w m hcut hl hm ho
    have hfin : Fl x .nonAtomic m := fl_off hw hn (fun _ => hm.solid) (by
      intro c t e
      have := ho c t e
      simp only [Bool.or_eq_false_iff] at this
      exact this.1)
    simp only [repLoop] at h
    cases hst : stepOf G.skip x .nonAtomic pos s with
    | fail =>
      rw [hst] at h
      injection h with h1 h2 h3
      subst h1 h2
      exact ⟨m, hl, hm, ho.sub (by intro c h; simp [h]), .stop hfin⟩
    | diverge => rw [hst] at h; simp at h
    | ok c1 r1 p1 =>
      rw [hst] at h
      cases c1 with
      | nil => simp at h
      | cons d ds =>
        simp only at h
        cases hrep : repLoop (stepOf G.skip x .nonAtomic) fuel (pos + blen (d :: ds)) r1 with
        | fail => rw [hrep] at h; simp at h
        | diverge => rw [hrep] at h; simp at h
        | ok c2 r2 p2 =>
          rw [hrep] at h
          injection h with h1 h2 h3
          subst h1 h2
          obtain ⟨m1, hl1, hm1, ho1, hit⟩ := ih _ _ _ _ _ hrep w m hcut hl hm ho
          simp only [stepOf] at hst
          obtain ⟨k1, s1, q1, g, s2, q2, c3, q3, f1, f2, f3, f4, -⟩ := seqRes_ok hst
          cases f1
          obtain ⟨rfl, hg⟩ := gap_of_skip f2
          have hr3 : Rn x .nonAtomic s2 c3 r1 := .of hns f3
          have hc3 := hr3.ne hn
          obtain ⟨y, t, rfl, hy⟩ := rn_head hw (fun _ => hg.solid) hr3 hc3
          have hsplit : r1 = c2 ++ r2 := by
            exact loop_split _ _ _ _ _ _ hrep
          obtain ⟨c', r', hk', hl'⟩ := hk _ _ _ hg.solid hr3 hc3 (c2 ++ w) m1 (by rw [hsplit]; exact hcut.app c2) hl1 hm1 ho1
          have hgb : Blank g := hg.blank (by rw [hr3.split]; simp)
          refine ⟨y :: t ++ (c2 ++ w), ?_, sol_cons (hsp y hy), ?_, .more hk' (hk'.ne hn) hl' hm1 hit⟩
          · have e : d :: ds = g ++ y :: t := by simpa using f4
            rw [e]
            have := Leads.app (m := y :: t ++ (c2 ++ w)) hgb .refl
            simpa using this
          · intro c u e; injection e with e _; subst e; exact hd _ hy

theorem star_via {x : PExpr} {A : Char → Bool} (hw : x.wf = true) (hn : x.nonNull = true)
    (hk : Keep x A) (hvx : Via x A) (hfit : Fit x A) (hd : ∀ c, x.starts (some c) = true → A c = false)
    (hsp : ∀ c, x.starts (some c) = true → ¬ IsSpace c ∧ c ≠ '/') {e a s v} (ht : Tried R e a s v) :
    e = .star x → a = .nonAtomic → Solid s → ∀ u, s = u ++ v → u ≠ [] → ∃ t, Sm R t ∧ '/' ∉ t ∧ ∀ m, Tl m →
      Off (fun c => x.starts (some c) || A c) m → Wd u (t ++ '\n' :: m) ∧ It x (u ++ (t ++ '\n' :: m)) m := by
  have hfin : ∀ m, Tl m → Off (fun c => x.starts (some c) || A c) m → Fl x .nonAtomic m := by
    intro m hm ho
    exact fl_off hw hn (fun _ => hm.2.solid) (by
      intro c t e
      have := ho c t e
      simp only [Bool.or_eq_false_iff] at this
      exact this.1)
  induction ht with
  | star1 ht =>
    rintro ⟨⟩ rfl hs u e hu
    obtain ⟨t, h0, h1, h2⟩ := hvx _ u _ hs ht e hu
    refine ⟨t, h0, h1, fun m hm ho => ?_⟩
    obtain ⟨hW, c, r, h, hl⟩ := h2 m hm (ho.sub (by intro c h; simp [h]))
    exact ⟨hW, .more h (h.ne hn) hl hm.2 (.stop (hfin m hm ho))⟩
  | @star2 x' a' s c r g r2 q v ra hsk ht ih =>
    rintro ⟨⟩ rfl hs u e hu
    obtain ⟨rfl, hg⟩ := gap_of_skip hsk
    have e1 := ra.split
    have hc := ra.ne hn
    obtain ⟨u2, e2⟩ := ht.suffix
    have eu : u = c ++ (g ++ u2) := by
      apply List.append_cancel_right (bs := v)
      rw [← e, e1, e2]; simp
    by_cases hu2 : u2 = []
    · subst hu2
      simp only [List.append_nil] at eu
      subst eu
      simp only [List.nil_append] at e2
      have hwf : (PExpr.star x).wf = true := by simp [PExpr.wf, hw, hn]
      obtain ⟨t, ⟨y, ys, hxs, hy⟩, hts, hv⟩ := hfit R (ht.first hwf (by rw [e2]))
      refine ⟨'\n' :: (Spec.sample R ++ t), ⟨t, .inr rfl⟩, by simp only [List.mem_cons, not_or]; exact ⟨by decide, hts⟩, fun m hm ho => ?_⟩
      refine ⟨wd_nl, ?_⟩
      obtain ⟨c2, r2', hb, hbl⟩ := hv m hm (ho.sub (by intro c h; simp [h]))
      have hs1 : '/' ∉ Spec.sample R ++ t ++ '\n' :: m := by
        rw [List.mem_append]; rintro (h | h)
        · exact hts h
        · simp only [List.mem_cons] at h
          rcases h with h | h
          · exact absurd h (by decide)
          · exact hm.1 h
      have hsol : Sol (Spec.sample R ++ t ++ '\n' :: m) := by rw [hxs]; exact sol_cons (hsp y hy)
      have ho1 : Off A (Spec.sample R ++ t ++ '\n' :: m) := by
        rw [hxs]; intro c u e; injection e with e _; subst e; exact hd _ hy
      have hcut : Cut r2 ('\n' :: (Spec.sample R ++ t ++ '\n' :: m)) :=
        ⟨[], r2, _, rfl, rfl, by simp only [List.mem_cons, not_or]; exact ⟨by decide, hs1⟩, wd_nl⟩
      obtain ⟨c', r', hk, hkl⟩ := hk _ _ _ hs ra hc (g ++ '\n' :: (Spec.sample R ++ t ++ '\n' :: m)) _ (hcut.app g)
        (gap_leads hg hcut leads_nl hsol) hsol ho1
      exact .more (by simpa using hk) (hk.ne hn) hkl hsol (.more hb (hb.ne hn) hbl hm.2 (.stop (hfin m hm ho)))
    · have hw' : (PExpr.star x).wf = true := by simp [PExpr.wf, hw, hn]
      obtain ⟨y, ys, rfl, hy⟩ := tried_head hw' hg.solid ht e2 hu2
      obtain ⟨t, hsm, hts, hv⟩ := ih rfl rfl hg.solid _ e2 hu2
      refine ⟨t, hsm, hts, fun m hm ho => ?_⟩
      obtain ⟨hW, hit⟩ := hv m hm ho
      have hsol : Sol (y :: ys ++ (t ++ '\n' :: m)) := sol_cons (hsp y hy)
      have hgb : Blank g := hg.blank (by rw [e2]; simp)
      have hcut : Cut r2 (y :: ys ++ (t ++ '\n' :: m)) := ⟨y :: ys, v, t ++ '\n' :: m, e2, rfl, by simp [hts, hm.1], hW⟩
      obtain ⟨c'', r'', hka, hkal⟩ := hk _ _ _ hs ra hc (g ++ (y :: ys ++ (t ++ '\n' :: m))) _
        (hcut.app g) (Leads.app hgb .refl) hsol
        (by intro c u e; injection e with e _; subst e; exact hd _ hy)
      subst eu
      refine ⟨?_, ?_⟩
      · have := (hW.mono g).mono c
        simpa using this
      · exact .more (by simpa using hka) (hka.ne hn) hkal hsol hit
  | _ => intro h; cases h

theorem star_keep {x : PExpr} {A : Char → Bool} (hw : x.wf = true) (hns : x.noSoi = true) (hn : x.nonNull = true)
    (hk : Keep x A) (hd : ∀ c, x.starts (some c) = true → A c = false)
    (hsp : ∀ c, x.starts (some c) = true → ¬ IsSpace c ∧ c ≠ '/') {s c r} (hs : Solid s)
    (hr : Rn (.star x) .nonAtomic s c r) (hc : c ≠ []) {w m} (hcut : Cut r w) (hl : Leads w m) (hm : Sol m)
    (ho : Off (fun c => x.starts (some c) || A c) m) : It x (c ++ w) m ∧ Sol (c ++ w) := by
  obtain ⟨ps, hr⟩ := hr 0
  simp only [run] at hr
  cases hx : run G.skip x .nonAtomic 0 s with
  | fail => rw [hx] at hr; injection hr with h1; exact absurd h1.symm hc
  | diverge => rw [hx] at hr; simp at hr
  | ok c1 r1 p1 =>
    rw [hx] at hr
    simp only at hr
    have hr1 : Rn x .nonAtomic s c1 r1 := .of hns hx
    obtain ⟨y, t, rfl, hy⟩ := rn_head hw (fun _ => hs) hr1 (hr1.ne hn)
    split at hr <;> try contradiction
    rename_i c2 r2 p2 hrep
    injection hr with h1 h2 h3
    subst h1 h2
    obtain ⟨m1, hl1, hm1, ho1, hit⟩ := loop_keep hw hns hn hk hd hsp _ _ _ _ _ _ hrep w m hcut hl hm ho
    have hsplit := loop_split _ _ _ _ _ _ hrep
    obtain ⟨c', r', hk', hl'⟩ := hk _ _ _ hs hr1 (hr1.ne hn) (c2 ++ w) m1 (by rw [hsplit]; exact hcut.app c2) hl1 hm1 ho1
    refine ⟨?_, sol_cons (hsp y hy)⟩
    exact .more (by simpa using hk') (hk'.ne hn) hl' hm1 hit

theorem Viab.star {x : PExpr} {A : Char → Bool} {t : Str} (g : Viab x A t) (hn : x.nonNull = true)
    (hd : ∀ c, x.starts (some c) = true → A c = false) (hfit : Fit x A) :
    Viab (.star x) (fun c => x.starts (some c) || A c) [] := by
  refine ⟨by simp [PExpr.wf, g.wf, hn], g.ns, g.asc, g.sp, ?_, ?_, by simp, .inr ⟨rfl, ?_, ?_⟩⟩
  · intro s c r hs hr hc w m hcut hl hm ho
    obtain ⟨h1, h2⟩ := star_keep g.wf g.ns hn g.keep hd g.sp hs hr hc hcut hl hm ho
    obtain ⟨c', r', h, hl'⟩ := h1.star h2 hm
    exact ⟨c', r', h, hl'⟩
  · intro R s u v hs ht e hu
    obtain ⟨y, ys, rfl, hy⟩ := tried_head (e := .star x) (by simp [PExpr.wf, g.wf, hn]) hs ht e hu
    obtain ⟨t, h0, h1, h2⟩ := star_via g.wf hn g.keep g.via hfit hd g.sp ht rfl rfl hs _ e hu
    refine ⟨t, h0, h1, fun m hm ho => ?_⟩
    obtain ⟨hW, hit⟩ := h2 m hm ho
    obtain ⟨c', r', h, hl'⟩ := hit.star (sol_cons (g.sp y hy)) hm.2
    exact ⟨hW, c', r', h, hl'⟩
  · intro a s h
    have := h 0
    simp only [run] at this
    split at this <;> try contradiction
    split at this <;> try contradiction
    rename_i h'
    exact absurd h' (repLoop_ne_fail _ _ _)
  · intro c h
    simp [show x.starts (some c) = true from h]

/-! ## Constants -/

theorem rn_str {k : Str} {a r} : Rn (.str k) a (k ++ r) k r := fun pos => ⟨[], str_run⟩

theorem Viab.str {k : Str} {t : List Char} {c : Char} (hk : k = c :: t) (h1 : c.toNat < 128 ∧ ¬ IsSpace c ∧ c ≠ '/') (h2 : '/' ∉ k) :
    Viab (.str k) (fun _ => false) k := by
  subst hk
  have hst : ∀ d, (PExpr.str (c :: t)).starts (some d) = true → d = c := by
    intro d h; simpa [PExpr.starts] using h
  refine ⟨rfl, rfl, ?_, ?_, ?_, ?_, h2, .inl ⟨by simp, sol_cons h1.2, rfl, ?_⟩⟩
  · intro d h; rw [hst d h]; exact h1.1
  · intro d h; rw [hst d h]; exact h1.2
  · intro s c' r hs hr hc w m hcut hl hm ho
    obtain ⟨ps, hr⟩ := hr 0
    obtain ⟨rfl, -, -⟩ := str_ok hr
    exact ⟨_, w, rn_str, hl⟩
  · intro R s u v hs ht; cases ht
  · intro m hm ho
    exact ⟨_, _, rn_str, leads_nl⟩

theorem lower_head {k d : Char} (h : asciiLower k = asciiLower d)
    (hk : (asciiLower k).toNat < 128 ∧ ¬ IsSpace (asciiLower k) ∧ asciiLower k ≠ '/') :
    d.toNat < 128 ∧ ¬ IsSpace d ∧ d ≠ '/' := by
  rw [h] at hk
  unfold asciiLower at hk
  split at hk
  · rename_i hd
    have h1 : 65 ≤ d.toNat := hd.1
    have h2 : d.toNat ≤ 90 := hd.2
    refine ⟨by omega, ?_, ?_⟩
    · intro h
      unfold IsSpace at h
      rcases h with h | h | h | h <;> (subst h; simp at h1)
    · rintro rfl; simp at h1
  · exact hk

theorem rn_insens {k m : Str} {a r} (h : Keyword k m) : Rn (.insens k) a (m ++ r) m r := fun pos => ⟨[], insens_run h⟩

theorem Viab.insens {k : Str} {t : List Char} {c : Char} (hk : k = c :: t)
    (h1 : (asciiLower c).toNat < 128 ∧ ¬ IsSpace (asciiLower c) ∧ asciiLower c ≠ '/') (h2 : '/' ∉ k) :
    Viab (.insens k) (fun _ => false) k := by
  subst hk
  have hst : ∀ d, (PExpr.insens (c :: t)).starts (some d) = true → asciiLower c = asciiLower d := by
    intro d h; simpa [PExpr.starts] using h
  have hc : ¬ IsSpace c ∧ c ≠ '/' := (lower_head (k := c) (d := c) rfl h1).2
  refine ⟨rfl, rfl, ?_, ?_, ?_, ?_, h2, .inl ⟨by simp, sol_cons hc, rfl, ?_⟩⟩
  · intro d h; exact (lower_head (hst d h) h1).1
  · intro d h; exact (lower_head (hst d h) h1).2
  · intro s c' r hs hr hc w m hcut hl hm ho
    obtain ⟨ps, hr⟩ := hr 0
    obtain ⟨h, -, -⟩ := insens_ok hr
    exact ⟨_, w, rn_insens h, hl⟩
  · intro R s u v hs ht; cases ht
  · intro m hm ho
    exact ⟨_, _, rn_insens rfl, leads_nl⟩

/-! ## Tokens -/

/-- Nothing is tried inside, in atomic mode. -/
def quietA : PExpr → Bool
  | .str _ | .insens _ | .cls _ | .soi | .neg _ | .eoi => true
  | .seq a b | .alt a b => quietA a && quietA b
  | .opt a | .star a => quietA a
  | .rule _ m b => m ≠ .compound && quietA b

theorem quietA_tried {e a s v} (h : Tried R e a s v) : a = .atomic → quietA e = true → False := by
  induction h with
  | eoi _ h => intro h'; exact absurd h' h
  | seqL _ ih => intro h1 h2; simp only [quietA, Bool.and_eq_true] at h2; exact ih h1 h2.1
  | seqR _ _ _ ih => intro h1 h2; simp only [quietA, Bool.and_eq_true] at h2; exact ih h1 h2.2
  | altL _ ih => intro h1 h2; simp only [quietA, Bool.and_eq_true] at h2; exact ih h1 h2.1
  | altR _ _ ih => intro h1 h2; simp only [quietA, Bool.and_eq_true] at h2; exact ih h1 h2.2
  | opt _ ih => intro h1 h2; exact ih h1 h2
  | star1 _ ih => intro h1 h2; exact ih h1 h2
  | star2 _ _ _ ih => intro h1 h2; exact ih h1 h2
  | @ruleIn rl m b a s v _ ih =>
    rintro rfl h2
    simp only [quietA, Bool.and_eq_true, decide_eq_true_eq] at h2
    cases m with
    | compound => exact absurd rfl h2.1
    | _ => exact ih rfl h2.2
  | @ruleAt m b a s _ he =>
    rintro rfl h2
    simp only [quietA, Bool.and_eq_true, decide_eq_true_eq] at h2
    cases m with
    | compound => exact absurd rfl h2.1
    | _ => simp [emits] at he

/-- Nothing is tried inside. -/
def quietN : PExpr → Bool
  | .str _ | .insens _ | .cls _ | .soi | .neg _ => true
  | .seq a b => quietN a && quietN b
  | .rule _ .atomic (.star b) => quietA b
  | _ => false

theorem quietN_tried {e a s v} (h : Tried R e a s v) : quietN e = true → False := by
  induction h with
  | seqL _ ih => intro h2; simp only [quietN, Bool.and_eq_true] at h2; exact ih h2.1
  | seqR _ _ _ ih => intro h2; simp only [quietN, Bool.and_eq_true] at h2; exact ih h2.2
  | @ruleIn rl m b a s v h ih =>
    intro h2
    cases m <;> cases b <;> simp [quietN] at h2
    exact quietA_tried h rfl (by simpa [quietA] using h2)
  | @ruleAt m b a s h he =>
    intro h2
    cases m <;> cases b <;> simp [quietN] at h2
    have := h 0
    simp only [run] at this
    split at this <;> try contradiction
    split at this <;> try contradiction
    rename_i h'
    exact absurd h' (repLoop_ne_fail _ _ _)
  | _ => intro h; simp [quietN] at h

/-- Something can only be tried at the start. -/
def atS : PExpr → Bool
  | .str _ | .insens _ | .cls _ | .soi | .neg _ => true
  | .seq a b => atS a && quietN b
  | .alt a b => atS a && atS b
  | .rule _ .atomic b => quietA b
  | .rule _ .normal b => atS b
  | _ => false

theorem atS_tried {e a s v} (h : Tried R e a s v) : atS e = true → v = s := by
  induction h with
  | seqL _ ih => intro h2; simp only [atS, Bool.and_eq_true] at h2; exact ih h2.1
  | seqR _ _ h _ => intro h2; simp only [atS, Bool.and_eq_true] at h2; exact (quietN_tried h h2.2).elim
  | altL _ ih => intro h2; simp only [atS, Bool.and_eq_true] at h2; exact ih h2.1
  | altR _ _ ih => intro h2; simp only [atS, Bool.and_eq_true] at h2; exact ih h2.2
  | @ruleIn rl m b a s v h ih =>
    intro h2
    cases m with
    | compound => simp [atS] at h2
    | atomic => exact (quietA_tried h rfl (by simpa [atS] using h2)).elim
    | normal => exact ih (by simpa [atS] using h2)
  | ruleAt => intro _; rfl
  | _ => intro h; simp [atS] at h

/-- As `Wd`, with more ends. -/
def Wd' (y z : Str) : Prop := (∃ d m, z = d :: m ∧ isEnd2 d = true) ∨ ∃ x ∈ y, isSpec x = true
/-- As `Cut`, with more ends. -/
def Cut' (r w : Str) : Prop := ∃ y v z, r = y ++ v ∧ w = y ++ z ∧ '/' ∉ z ∧ Wd' y z

theorem Wd.weak {y z} (h : Wd y z) : Wd' y z := by
  rcases h with ⟨d, m, h, h2, -⟩ | h
  · exact .inl ⟨_, m, h, h2⟩
  · exact .inr h

theorem Cut.weak {r w} (h : Cut r w) : Cut' r w := by
  obtain ⟨y, v, z, h1, h2, h3, h4⟩ := h
  exact ⟨y, v, z, h1, h2, h3, h4.weak⟩

/-- What a token consumed, it consumes whatever follows, unless that begins with a character in `A`. -/
def KeepT (A : Char → Bool) (e : PExpr) : Prop :=
  ∀ a s c r, a ≠ .atomic → (a = .nonAtomic → Solid s) → Rn e a s c r → ∀ w, Cut' r w → Off A w → Rn e a (c ++ w) c w

theorem off_leads {A : Char → Bool} (hA : ∀ c, A c = true → ¬ IsSpace c ∧ c ≠ '/') {w m} (hl : Leads w m) (ho : Off A m) :
    Off A w := by
  obtain ⟨g, rfl, hg⟩ := hl
  cases g with
  | nil => exact ho
  | cons d g =>
    intro c t e
    injection e with e _
    subst e
    cases h : A d with
    | false => rfl
    | true =>
      rcases blank_head hg d g rfl with h' | h'
      · exact absurd h' (hA d h).1
      · exact absurd h' (hA d h).2

theorem Viab.tok {e : PExpr} {A : Char → Bool} {t : Str} (h1 : e.wf = true) (h2 : e.noSoi = true) (h3 : e.nonNull = true)
    (h4 : ∀ c, e.starts (some c) = true → c.toNat < 128 ∧ ¬ IsSpace c ∧ c ≠ '/') (h5 : atS e = true) (h6 : KeepT A e)
    (hA : ∀ c, A c = true → ¬ IsSpace c ∧ c ≠ '/')
    (h7 : '/' ∉ t) (h8 : t ≠ []) (h9 : Sol t) (h10 : ∀ m, Rn e .nonAtomic (t ++ '\n' :: m) t ('\n' :: m)) :
    Viab e A t := by
  refine ⟨h1, h2, fun c h => (h4 c h).1, fun c h => (h4 c h).2, ?_, ?_, h7, .inl ⟨h8, h9, h3, ?_⟩⟩
  · intro s c r hs hr hc w m hcut hl hm ho
    exact ⟨c, w, h6 _ s c r (by simp) (fun _ => hs) hr w hcut.weak (off_leads hA hl ho), hl⟩
  · intro R s u v hs ht e hu
    have := atS_tried ht h5
    subst this
    have := congrArg List.length e
    simp at this
    exact absurd this hu
  · intro m hm ho
    exact ⟨_, _, h10 m, leads_nl⟩

end Dbml.Vp
