import Verif.Proofs.Viable1

/-!
# Completing a text at a place where a rule was tried: combinators
-/

namespace Dbml.Vp
open Syntax Source

variable {R : Rule}

/-- The text does not begin with a blank or a comment. -/
def Sol (m : Str) : Prop := ∀ c t, m = c :: t → ¬ IsSpace c ∧ c ≠ '/'
/-- White space and comments, then `m`. -/
def Leads (w m : Str) : Prop := ∃ g, w = g ++ m ∧ Blank g
/-- Neither a word character nor a blank. -/
def isSpec (c : Char) : Bool := !G.isWordChar c && c != ' '
/-- Characters that end every token. -/
def isEnd (c : Char) : Bool := c == '\n' || c == '"' || c == ')' || c == ']'
/-- Characters that end every token outside quotes. -/
def isEnd2 (c : Char) : Bool := isEnd c || c == '(' || c == '['
/-- A token that ends in `y` also ends there if `z` follows. -/
def Wd (y z : Str) : Prop := (∃ d m, z = d :: m ∧ isEnd2 d = true ∧ (y = [] → d = '\n')) ∨ ∃ x ∈ y, isSpec x = true
/-- `w` is `r`, changed from some place on. -/
def Cut (r w : Str) : Prop := ∃ y v z, r = y ++ v ∧ w = y ++ z ∧ '/' ∉ z ∧ Wd y z
/-- The first character is not in `A`. -/
def Off (A : Char → Bool) (m : Str) : Prop := ∀ c t, m = c :: t → A c = false
/-- What may follow a completion. -/
def Tl (m : Str) : Prop := '/' ∉ m ∧ Sol m

/-- What `e` consumed, it also consumes if something else follows that does not begin with a character in `A`. -/
def Keep (e : PExpr) (A : Char → Bool) : Prop :=
  ∀ s c r, Solid s → Rn e .nonAtomic s c r → c ≠ [] → ∀ w m, Cut r w → Leads w m → Sol m → Off A m →
    ∃ c' r', Rn e .nonAtomic (c ++ w) c' r' ∧ Leads r' m

/-- The text begins with a sample of `R`, possibly on a new line. -/
def Sm (R : Rule) (z : Str) : Prop := ∃ t, z = Spec.sample R ++ t ∨ z = '\n' :: (Spec.sample R ++ t)

theorem Sm.app {z : Str} (h : Sm R z) (y : Str) : Sm R (z ++ y) := by
  obtain ⟨t, rfl | rfl⟩ := h
  · exact ⟨t ++ y, .inl (by simp)⟩
  · exact ⟨t ++ y, .inr (by simp)⟩

/-- The text before a place where a rule was tried can be completed, beginning with a sample of that rule. -/
def Via (e : PExpr) (A : Char → Bool) : Prop :=
  ∀ ⦃R⦄ s u v, Solid s → Tried R e .nonAtomic s v → s = u ++ v → u ≠ [] → ∃ t, Sm R t ∧ '/' ∉ t ∧ ∀ m, Tl m → Off A m →
    Wd u (t ++ '\n' :: m) ∧ ∃ c r, Rn e .nonAtomic (u ++ (t ++ '\n' :: m)) c r ∧ Leads r m

/-- `t` is a text for `e`, or `t` is empty and `e` is optional. -/
def Fin' (e : PExpr) (A : Char → Bool) (t : Str) : Prop :=
  '/' ∉ t ∧ ((t ≠ [] ∧ Sol t ∧ e.nonNull = true ∧
      ∀ m, Tl m → Off A m → ∃ c r, Rn e .nonAtomic (t ++ '\n' :: m) c r ∧ Leads r m) ∨
    (t = [] ∧ (∀ a s, ¬ Fl e a s) ∧ ∀ c, e.starts (some c) = true → A c = true))

structure Viab (e : PExpr) (A : Char → Bool) (t : Str) : Prop where
  wf : e.wf = true
  ns : e.noSoi = true
  asc : ∀ c, e.starts (some c) = true → c.toNat < 128
  sp : ∀ c, e.starts (some c) = true → ¬ IsSpace c ∧ c ≠ '/'
  keep : Keep e A
  via : Via e A
  fin : Fin' e A t

/-! ## Blanks -/

theorem sol_nil : Sol [] := by intro c t h; simp at h
theorem sol_cons {c : Char} {t : Str} (h : ¬ IsSpace c ∧ c ≠ '/') : Sol (c :: t) := by
  intro d u e; injection e with e _; exact e ▸ h
theorem Sol.solid {m : Str} (h : Sol m) : Solid m := by
  cases m with
  | nil => exact solid_nil
  | cons c t => exact solid_cons (h c t rfl).1 (h c t rfl).2
theorem Sol.app {m n : Str} (h : Sol m) (hm : m ≠ []) : Sol (m ++ n) := by
  cases m with
  | nil => exact absurd rfl hm
  | cons c t => exact sol_cons (h c t rfl)
theorem off_app {A m n} (h : Off A m) (hm : m ≠ []) : Off A (m ++ n) := by
  cases m with
  | nil => exact absurd rfl hm
  | cons c t => intro d u e; injection e with e _; exact e ▸ h c t rfl

theorem Leads.refl {m : Str} : Leads m m := ⟨[], rfl, .nil⟩
theorem Leads.cons {w m : Str} {c : Char} (hc : IsSpace c) (h : Leads w m) : Leads (c :: w) m := by
  obtain ⟨g, rfl, hg⟩ := h
  exact ⟨c :: g, rfl, .space hc hg⟩
theorem leads_nl {m : Str} : Leads ('\n' :: m) m := Leads.refl.cons (by decide)
theorem Leads.app {g w m : Str} (hg : Blank g) (h : Leads w m) : Leads (g ++ w) m := by
  obtain ⟨g', rfl, hg'⟩ := h
  exact ⟨g ++ g', by simp, blank_append hg hg'⟩
theorem Leads.skip {w m : Str} (h : Leads w m) (hm : Sol m) : ∃ g, G.skip w = .ok g m [] ∧ w = g ++ m := by
  obtain ⟨g, rfl, hg⟩ := h
  exact ⟨g, skip_blank hg hm.solid, rfl⟩
theorem Leads.det {w m m' : Str} (h : Leads w m) (hm : Sol m) (h' : Leads w m') (hm' : Sol m') : m = m' := by
  obtain ⟨g, h1, -⟩ := h.skip hm
  obtain ⟨g', h2, -⟩ := h'.skip hm'
  rw [h1] at h2
  injection h2

theorem nl_leads {m0 m : Str} (h : Leads ('\n' :: m0) m) (hm : Sol m) : Leads m0 m := by
  obtain ⟨g, e, hg⟩ := h
  cases g with
  | nil => exact absurd (show IsSpace '\n' by decide) (hm _ _ e.symm).1
  | cons c g =>
    injection e with e1 e2
    subst e1
    refine ⟨g, e2, ?_⟩
    generalize hx : ('\n' :: g) = x at hg
    cases hg with
    | nil => simp at hx
    | space _ h => injection hx with _ hx; exact hx ▸ h
    | line _ _ _ => simp at hx
    | block _ _ => simp at hx

theorem gap_leads {g r2 w m : Str} (hg : Gap1 g r2) (hc : Cut r2 w) (hl : Leads w m) (hm : Sol m) :
    Leads (g ++ w) m := by
  obtain ⟨y, v, z, rfl, rfl, hz, hw⟩ := hc
  rcases hg with ⟨hb, -⟩ | ⟨e, hb⟩
  · exact hl.app hb
  · have hy : y = [] := (List.append_eq_nil_iff.1 e).1
    subst hy
    rcases hw with ⟨d, m0, rfl, -, hd⟩ | ⟨x, hx, -⟩
    obtain rfl := hd rfl
    · rcases hb with hb | ⟨w0, body, rfl, h1, h2⟩
      · exact hl.app hb
      · obtain ⟨g', e', hg'⟩ := nl_leads hl hm
        refine ⟨w0 ++ (k!"//" ++ (body ++ ('\n' :: g'))), by simp [e'], blank_append h1 (.line h2 (.inl rfl) hg')⟩
    · simp at hx

theorem wd_nl {y m : Str} : Wd y ('\n' :: m) := .inl ⟨_, _, rfl, by decide, fun _ => rfl⟩
theorem Wd.mono {y z : Str} (x : Str) (h : Wd y z) : Wd (x ++ y) z := by
  rcases h with ⟨d, m, h1, h2, h3⟩ | ⟨c, hc, h⟩
  · exact .inl ⟨d, m, h1, h2, fun h => h3 (List.append_eq_nil_iff.1 h).2⟩
  · exact .inr ⟨c, by simp [hc], h⟩
theorem Cut.app {r w : Str} (x : Str) (h : Cut r w) : Cut (x ++ r) (x ++ w) := by
  obtain ⟨y, v, z, rfl, rfl, h1, h2⟩ := h
  exact ⟨x ++ y, v, z, by simp, by simp, h1, h2.mono x⟩

/-! ## Runs -/

theorem rn_seq {x y s c1 r1 m c2 r} (h1 : Rn x .nonAtomic s c1 r1) (hl : Leads r1 m) (hm : Sol m)
    (h2 : Rn y .nonAtomic m c2 r) : ∃ c, Rn (.seq x y) .nonAtomic s c r := by
  obtain ⟨g, hg, -⟩ := hl.skip hm
  refine ⟨c1 ++ g ++ c2, fun pos => ?_⟩
  obtain ⟨p1, e1⟩ := h1 pos
  obtain ⟨p2, e2⟩ := h2 (pos + blen c1 + blen g)
  exact ⟨p1 ++ p2, by simp only [run, e1, seqRes, skipIf, hg, e2]⟩

theorem seq_rn {x y : PExpr} (hx : x.noSoi = true) (hy : y.noSoi = true) {s c r}
    (h : Rn (.seq x y) .nonAtomic s c r) : ∃ c1 g r2 c2, Rn x .nonAtomic s c1 (g ++ r2) ∧ Gap1 g r2 ∧
      Rn y .nonAtomic r2 c2 r ∧ c = c1 ++ (g ++ c2) := by
  obtain ⟨ps, h⟩ := h 0
  obtain ⟨c1, r1, p1, t, r2, c2, p2, h1, rfl, hg, h2, rfl, -⟩ := seq_ok h
  exact ⟨c1, t, r2, c2, .of hx h1, hg, .of hy h2, rfl⟩

theorem rn_altL {x y a s c r} (h : Rn x a s c r) : Rn (.alt x y) a s c r := by
  intro pos
  obtain ⟨ps, h⟩ := h pos
  exact ⟨ps, alt_left h⟩
theorem rn_altR {x y a s c r} (hf : Fl x a s) (h : Rn y a s c r) : Rn (.alt x y) a s c r := by
  intro pos
  obtain ⟨ps, h⟩ := h pos
  exact ⟨ps, by simp only [run, hf pos]; exact h⟩
theorem alt_rn {x y : PExpr} (hx : x.noSoi = true) (hy : y.noSoi = true) {a s c r} (h : Rn (.alt x y) a s c r) :
    Rn x a s c r ∨ (Fl x a s ∧ Rn y a s c r) := by
  obtain ⟨ps, h⟩ := h 0
  rcases alt_ok h with h | ⟨h1, h2⟩
  · exact .inl (.of hx h)
  · exact .inr ⟨.of hx h1, .of hy h2⟩
theorem fl_alt {x y a s} (h1 : Fl x a s) (h2 : Fl y a s) : Fl (.alt x y) a s := by
  intro pos
  simp only [run, h1 pos, h2 pos]
theorem rn_optS {x a s c r} (h : Rn x a s c r) : Rn (.opt x) a s c r := by
  intro pos
  obtain ⟨ps, h⟩ := h pos
  exact ⟨ps, opt_some h⟩
theorem rn_optN {x a s} (h : Fl x a s) : Rn (.opt x) a s [] s := by
  intro pos
  exact ⟨[], by simp only [run, h pos]⟩
theorem opt_rn {x : PExpr} (hx : x.noSoi = true) {a s c r} (h : Rn (.opt x) a s c r) :
    (Fl x a s ∧ c = [] ∧ r = s) ∨ Rn x a s c r := by
  obtain ⟨ps, h⟩ := h 0
  rcases opt_ok h with ⟨h1, h2, h3, -⟩ | h
  · exact .inl ⟨.of hx h1, h2, h3⟩
  · exact .inr (.of hx h)
theorem rn_rule {rl m b a s c r} (h : Rn b (bodyAtomicity m a) s c r) : Rn (.rule rl m b) a s c r := by
  intro pos
  obtain ⟨ps, h⟩ := h pos
  simp only [run, h]
  exact ⟨_, rfl⟩
theorem rule_rn {rl m a s c r} {b : PExpr} (hb : b.noSoi = true) (h : Rn (.rule rl m b) a s c r) :
    Rn b (bodyAtomicity m a) s c r := by
  obtain ⟨ps, h⟩ := h 0
  simp only [run] at h
  split at h <;> try contradiction
  rename_i h1
  injection h with e1 e2 e3; subst e1 e2
  exact .of hb h1
theorem fl_rule {rl m b a s} (h : Fl b (bodyAtomicity m a) s) : Fl (.rule rl m b) a s := by
  intro pos
  simp only [run, h pos]
theorem fl_seqL {x y a s} (h : Fl x a s) : Fl (.seq x y) a s := by
  intro pos
  simp only [run, h pos, seqRes]
theorem fl_seqR {x y s c r m} (h : Rn x .nonAtomic s c r) (hl : Leads r m) (hm : Sol m) (hf : Fl y .nonAtomic m) :
    Fl (.seq x y) .nonAtomic s := by
  intro pos
  obtain ⟨g, hg, -⟩ := hl.skip hm
  obtain ⟨p1, e1⟩ := h pos
  simp only [run, e1, seqRes, skipIf, hg, hf _]

theorem rn_head {e : PExpr} (hw : e.wf = true) {a s c r} (hs : a = .nonAtomic → Solid s) (h : Rn e a s c r)
    (hc : c ≠ []) : ∃ x t, c = x :: t ∧ e.starts (some x) = true := by
  have hsp := h.split
  obtain ⟨x, t, rfl⟩ := List.exists_cons_of_ne_nil hc
  refine ⟨x, t, rfl, ?_⟩
  obtain ⟨ps, h⟩ := h 0
  cases hst : e.starts (some x) with
  | true => rfl
  | false =>
    have := (starts_sound e hw (by rw [hsp]; exact hst) hs h).1
    simp at this

theorem fl_off {e : PExpr} (hw : e.wf = true) (hn : e.nonNull = true) {a s} (hs : a = .nonAtomic → Solid s)
    (h : ∀ c t, s = c :: t → e.starts (some c) = false) : Fl e a s := by
  intro pos
  refine fail_of_starts hw hn ?_ hs
  cases s with
  | nil =>
    show e.starts none = false
    have : ∀ e : PExpr, e.starts none = false := by
      intro e
      induction e with
      | str k => cases k <;> rfl
      | insens k => cases k <;> rfl
      | seq a b iha ihb => simp [PExpr.starts, iha, ihb]
      | alt a b iha ihb => simp [PExpr.starts, iha, ihb]
      | opt a ih => exact ih
      | star a ih => exact ih
      | rule _ _ _ ih => exact ih
      | _ => rfl
    exact this e
  | cons c t => exact h c t rfl

/-- An expression that cannot fail leaves a text that it cannot start. -/
theorem rn_empty {e : PExpr} (hw : e.wf = true) (hn : e.noSoi = true) (hf : ∀ a s, ¬ Fl e a s) {a s}
    (hs : a = .nonAtomic → Solid s) (h : ∀ c t, s = c :: t → e.starts (some c) = false) : Rn e a s [] s := by
  rcases rn_or_fl hn hw a s with ⟨c, r, h1⟩ | h1
  · have h2 := h1
    have hc : c = [] := by
      by_cases hc : c = []
      · exact hc
      · obtain ⟨x, t, rfl, hx⟩ := rn_head hw hs h1 hc
        have := h1.split
        rw [h x (t ++ r) (by simpa using this)] at hx
        contradiction
    subst hc
    have := h1.split
    simp at this
    subst this
    exact h2
  · exact absurd h1 (hf _ _)

theorem tried_head {e : PExpr} (hw : e.wf = true) {s u v} (hs : Solid s) (h : Tried R e .nonAtomic s v) (e1 : s = u ++ v)
    (hu : u ≠ []) : ∃ x t, u = x :: t ∧ e.starts (some x) = true := by
  obtain ⟨x, t, rfl⟩ := List.exists_cons_of_ne_nil hu
  refine ⟨x, t, rfl, ?_⟩
  rcases h.head hw (fun _ => hs) with h | h
  · subst h
    have := congrArg List.length e1
    simp at this
    omega
  · rw [e1] at h
    exact h

theorem gap_of_skip {r g r2 q} (h : skipIf G.skip .nonAtomic r = .ok g r2 q) : r = g ++ r2 ∧ Gap1 g r2 :=
  skip_exact _ _ _ _ h

theorem not_mem_append {c : Char} {a b : Str} (h1 : c ∉ a) (h2 : c ∉ b) : c ∉ a ++ b := by simp [h1, h2]

/-! ## Sequences -/

/-- The text of a sequence. -/
def joinT (ta tb : Str) : Str := if ta = [] then tb else if tb = [] then ta else ta ++ '\n' :: tb

theorem slash_join {ta tb : Str} (h1 : '/' ∉ ta) (h2 : '/' ∉ tb) : '/' ∉ joinT ta tb := by
  unfold joinT
  split
  · exact h2
  · split
    · exact h1
    · simp [h1, h2]

theorem fin_step {b : PExpr} {B C A : Char → Bool} {tb : Str} (hw : b.wf = true) (hns : b.noSoi = true) (hb : Fin' b B tb)
    (hBC : ∀ c, B c = true → C c = true) (hAC : b.nonNull = true ∨ ∀ c, A c = true → C c = true)
    (hoff : Off A tb) {m : Str} (hm : Tl m) (ho : Off C m) :
    ∃ m1, (if tb = [] then '\n' :: m else '\n' :: (tb ++ '\n' :: m)) = '\n' :: m1 ∧ Tl m1 ∧ Off A m1 ∧
      ∃ c r, Rn b .nonAtomic m1 c r ∧ Leads r m := by
  have hoB : Off B m := by
    intro c t e
    cases h : B c with
    | false => rfl
    | true => have := ho c t e; rw [hBC c h] at this; contradiction
  obtain ⟨h1, ⟨h2, h3, h4, h5⟩ | ⟨rfl, h3, h4⟩⟩ := hb
  · refine ⟨tb ++ '\n' :: m, by simp [h2], ⟨?_, h3.app h2⟩, off_app hoff h2, h5 m hm hoB⟩
    simp [h1, hm.1]
  · refine ⟨m, by simp, hm, ?_, [], m, ?_, .refl⟩
    · rcases hAC with hn | hAC
      · exact absurd (fl_off hw hn (a := .compound) (s := []) (by simp) (by simp)) (h3 _ _)
      · intro c t e
        cases h : A c with
        | false => rfl
        | true => have := ho c t e; rw [hAC c h] at this; contradiction
    · refine rn_empty hw hns h3 (fun _ => hm.2.solid) ?_
      intro c t e
      cases h : b.starts (some c) with
      | false => rfl
      | true => have := hoB c t e; rw [h4 c h] at this; contradiction

/-- What can be tried first in `e` begins a text for `e`. -/
def Fit (e : PExpr) (A : Char → Bool) : Prop :=
  ∀ R ∈ firsts e, ∃ t, (∃ x xs, Spec.sample R ++ t = x :: xs ∧ e.starts (some x) = true) ∧
    '/' ∉ Spec.sample R ++ t ∧ ∀ m, Tl m → Off A m → ∃ c r, Rn e .nonAtomic (Spec.sample R ++ t ++ '\n' :: m) c r ∧ Leads r m

theorem Viab.seq {a b : PExpr} {A B C : Char → Bool} {ta tb : Str} (ga : Viab a A ta) (gb : Viab b B tb)
    (h1 : ∀ c, b.starts (some c) = true → A c = false)
    (h2 : a.nonNull = true ∨ ∀ c, b.starts (some c) = true → a.starts (some c) = false)
    (h3 : a.nonNull = true ∨ ta = [])
    (h4 : Off A tb) (hBC : ∀ c, B c = true → C c = true)
    (hAC : b.nonNull = true ∨ ∀ c, A c = true → C c = true) (hne : ta ≠ [] ∨ tb ≠ [])
    (hfit : Fit b B) : Viab (.seq a b) C (joinT ta tb) := by
  have hopt : a.nonNull = false → ∀ x s, ¬ Fl a x s := by
    intro hn
    obtain ⟨-, ⟨-, -, h, -⟩ | ⟨-, h, -⟩⟩ := ga.fin
    · rw [hn] at h; contradiction
    · exact h
  have hwf : (PExpr.seq a b).wf = true := by simp [PExpr.wf, ga.wf, gb.wf]
  have hst : ∀ c, (PExpr.seq a b).starts (some c) = true → a.starts (some c) = true ∨ b.starts (some c) = true := by
    intro c h
    simp only [PExpr.starts, Bool.or_eq_true, Bool.and_eq_true] at h
    rcases h with h | h
    · exact .inl h
    · exact .inr h.2
  refine ⟨hwf, by simp [PExpr.noSoi, ga.ns, gb.ns], ?_, ?_, ?_, ?_, ?_⟩
  · intro c h
    rcases hst c h with h | h
    · exact ga.asc c h
    · exact gb.asc c h
  · intro c h
    rcases hst c h with h | h
    · exact ga.sp c h
    · exact gb.sp c h
  · -- keep
    intro s c r hs hr hc w m hcut hl hm ho
    obtain ⟨c1, g, r2, c2, ra, hg, rb, rfl⟩ := seq_rn ga.ns gb.ns hr
    have hoB : Off B m := by
      intro c t e
      cases h : B c with
      | false => rfl
      | true => have := ho c t e; rw [hBC c h] at this; contradiction
    have e2 := rb.split
    by_cases hc1 : c1 = []
    · subst hc1
      have e1 := ra.split
      simp only [List.nil_append] at e1
      have hg0 : g = [] ∧ r2 = s := by
        have := (skip_of_solid hg.solid).2 hg
        rw [← e1, skip_solid hs] at this
        injection this with h1 h2
        exact ⟨h1.symm, h2.symm⟩
      obtain ⟨rfl, rfl⟩ := hg0
      simp only [List.nil_append] at hc ⊢
      obtain ⟨x, t, rfl, hx⟩ := rn_head gb.wf (fun _ => hs) rb hc
      obtain ⟨c', r', hk, hkl⟩ := gb.keep _ _ _ hs rb hc w m hcut hl hm hoB
      have hn : a.nonNull = false := by
        cases h : a.nonNull with
        | false => rfl
        | true => exact absurd rfl (ra.ne h)
      have hsol : Sol (x :: t ++ w) := sol_cons (gb.sp x hx)
      have := rn_empty ga.wf ga.ns (hopt hn) (a := .nonAtomic) (s := x :: t ++ w) (fun _ => hsol.solid) (by
        intro c u e
        injection e with e _
        subst e
        rcases h2 with h | h
        · rw [hn] at h; contradiction
        · exact h x hx)
      obtain ⟨c'', h⟩ := rn_seq this .refl hsol hk
      exact ⟨c'', r', h, hkl⟩
    · by_cases hc2 : c2 = []
      · subst hc2
        simp only [List.nil_append] at e2
        subst e2
        have hnn : b.nonNull = false := by
          cases h : b.nonNull with
          | false => rfl
          | true => exact absurd rfl (rb.ne h)
        have hoA : Off A m := by
          rcases hAC with h | hAC
          · rw [hnn] at h; contradiction
          · intro c t e
            cases h : A c with
            | false => rfl
            | true => have := ho c t e; rw [hAC c h] at this; contradiction
        obtain ⟨c', r', hk, hkl⟩ := ga.keep _ _ _ hs ra hc1 (g ++ w) m (hcut.app g) (gap_leads hg hcut hl hm) hm hoA
        obtain ⟨-, ⟨-, -, h, -⟩ | ⟨-, hf, hst⟩⟩ := gb.fin
        · rw [hnn] at h; contradiction
        have := rn_empty gb.wf gb.ns hf (a := .nonAtomic) (s := m) (fun _ => hm.solid) (by
          intro c t e
          cases h : b.starts (some c) with
          | false => rfl
          | true => have := hoB c t e; rw [hst c h] at this; contradiction)
        obtain ⟨c'', h⟩ := rn_seq hk hkl hm this
        exact ⟨c'', m, by simpa using h, .refl⟩
      · obtain ⟨x, t, rfl, hx⟩ := rn_head gb.wf (fun _ => hg.solid) rb hc2
        obtain ⟨c', r', hk, hkl⟩ := gb.keep _ _ _ hg.solid rb hc2 w m hcut hl hm hoB
        have hsol : Sol (x :: t ++ w) := sol_cons (gb.sp x hx)
        have hgb : Blank g := hg.blank (by rw [e2]; simp)
        obtain ⟨c'', r'', hka, hkal⟩ := ga.keep _ _ _ hs ra hc1 (g ++ (x :: t ++ w)) (x :: t ++ w)
          (by rw [e2]; exact (hcut.app _).app _) (Leads.app hgb .refl) hsol
          (by intro c u e; injection e with e _; subst e; exact h1 _ hx)
        obtain ⟨c3, h⟩ := rn_seq hka hkal hsol hk
        exact ⟨c3, r', by simpa using h, hkl⟩
  · -- via
    intro R s u v hs ht e hu
    cases ht with
    | seqL ht =>
      obtain ⟨t, hsm, hts, hv⟩ := ga.via s u v hs ht e hu
      refine ⟨t ++ (if tb = [] then [] else '\n' :: tb), hsm.app _, ?_, ?_⟩
      · have := gb.fin.1
        split <;> simp [hts, this]
      · intro m hm ho
        obtain ⟨m1, em, hm1, ho1, c2, r2, hb, hbl⟩ := fin_step gb.wf gb.ns gb.fin hBC hAC h4 hm ho
        obtain ⟨hW, c1, r1, ha, hal⟩ := hv m1 hm1 ho1
        have em' : t ++ (if tb = [] then [] else '\n' :: tb) ++ '\n' :: m = t ++ '\n' :: m1 := by
          rw [← em]; split <;> simp
        rw [em']
        obtain ⟨c3, h⟩ := rn_seq ha hal hm1.2 hb
        exact ⟨hW, c3, r2, h, hbl⟩
    | @seqR _ _ _ _ c r g r2 q _ ra hsk ht =>
      obtain ⟨rfl, hg⟩ := gap_of_skip hsk
      have e1 := ra.split
      obtain ⟨u2, e2⟩ := ht.suffix
      have eu : u = c ++ (g ++ u2) := by
        apply List.append_cancel_right (bs := v)
        rw [← e, e1, e2]; simp
      by_cases hc : c = []
      · subst hc
        have hg0 : g = [] ∧ r2 = s := by
          have := (skip_of_solid hg.solid).2 hg
          rw [← List.nil_append (g ++ r2), ← e1, skip_solid hs] at this
          injection this with h1 h2
          exact ⟨h1.symm, h2.symm⟩
        obtain ⟨rfl, rfl⟩ := hg0
        simp only [List.nil_append] at eu
        subst eu
        obtain ⟨x, xs, rfl, hx⟩ := tried_head gb.wf hs ht e2 hu
        obtain ⟨t, hsm, hts, hv⟩ := gb.via _ _ _ hs ht e2 hu
        refine ⟨t, hsm, hts, fun m hm ho => ?_⟩
        have hoB : Off B m := by
          intro c t e
          cases h : B c with
          | false => rfl
          | true => have := ho c t e; rw [hBC c h] at this; contradiction
        obtain ⟨hW, c', r', h, hl⟩ := hv m hm hoB
        have hn : a.nonNull = false := by
          cases h : a.nonNull with
          | false => rfl
          | true => exact absurd rfl (ra.ne h)
        have hsol : Sol (x :: xs ++ (t ++ '\n' :: m)) := sol_cons (gb.sp x hx)
        have := rn_empty ga.wf ga.ns (hopt hn) (a := .nonAtomic) (fun _ => hsol.solid) (by
          intro c u e
          injection e with e _
          subst e
          rcases h2 with h | h
          · rw [hn] at h; contradiction
          · exact h x hx)
        obtain ⟨c'', h⟩ := rn_seq this .refl hsol h
        exact ⟨hW, c'', r', h, hl⟩
      · by_cases hu2 : u2 = []
        · subst hu2
          simp only [List.append_nil] at eu
          subst eu
          simp only [List.nil_append] at e2
          obtain ⟨t, ⟨x, xs, hxs, hx⟩, hts, hv⟩ := hfit R (ht.first gb.wf (by rw [e2]))
          refine ⟨'\n' :: (Spec.sample R ++ t), ⟨t, .inr rfl⟩, by simp only [List.mem_cons, not_or]; exact ⟨by decide, hts⟩, fun m hm ho => ?_⟩
          have hoB : Off B m := by
            intro c t e
            cases h : B c with
            | false => rfl
            | true => have := ho c t e; rw [hBC c h] at this; contradiction
          refine ⟨wd_nl, ?_⟩
          obtain ⟨c2, r2', hb, hbl⟩ := hv m hm hoB
          have hs1 : '/' ∉ Spec.sample R ++ t ++ '\n' :: m := by
            rw [List.mem_append]; rintro (h | h)
            · exact hts h
            · simp only [List.mem_cons] at h
              rcases h with h | h
              · exact absurd h (by decide)
              · exact hm.1 h
          have hsol : Sol (Spec.sample R ++ t ++ '\n' :: m) := by rw [hxs]; exact sol_cons (gb.sp x hx)
          have ho1 : Off A (Spec.sample R ++ t ++ '\n' :: m) := by
            rw [hxs]; intro c u e; injection e with e _; subst e; exact h1 _ hx
          have hcut : Cut r2 ('\n' :: (Spec.sample R ++ t ++ '\n' :: m)) :=
            ⟨[], r2, _, rfl, rfl, by simp only [List.mem_cons, not_or]; exact ⟨by decide, hs1⟩, wd_nl⟩
          obtain ⟨c', r', hk, hkl⟩ := ga.keep _ _ _ hs ra hc (g ++ '\n' :: (Spec.sample R ++ t ++ '\n' :: m)) _ (hcut.app g)
            (gap_leads hg hcut leads_nl hsol) hsol ho1
          obtain ⟨c3, h⟩ := rn_seq hk hkl hsol hb
          exact ⟨c3, r2', by simpa using h, hbl⟩
        · obtain ⟨x, xs, rfl, hx⟩ := tried_head gb.wf hg.solid ht e2 hu2
          obtain ⟨t, hsm, hts, hv⟩ := gb.via _ _ _ hg.solid ht e2 hu2
          refine ⟨t, hsm, hts, fun m hm ho => ?_⟩
          have hoB : Off B m := by
            intro c t e
            cases h : B c with
            | false => rfl
            | true => have := ho c t e; rw [hBC c h] at this; contradiction
          obtain ⟨hW, c', r', h, hl⟩ := hv m hm hoB
          have hsol : Sol (x :: xs ++ (t ++ '\n' :: m)) := sol_cons (gb.sp x hx)
          have hgb : Blank g := hg.blank (by rw [e2]; simp)
          have hcut : Cut r2 (x :: xs ++ (t ++ '\n' :: m)) := ⟨x :: xs, v, t ++ '\n' :: m, e2, rfl, by simp [hts, hm.1], hW⟩
          obtain ⟨c'', r'', hka, hkal⟩ := ga.keep _ _ _ hs ra hc (g ++ (x :: xs ++ (t ++ '\n' :: m))) _
            (hcut.app g) (Leads.app hgb .refl) hsol
            (by intro c u e; injection e with e _; subst e; exact h1 _ hx)
          obtain ⟨c3, h⟩ := rn_seq hka hkal hsol h
          subst eu
          refine ⟨?_, c3, r', by simpa using h, hl⟩
          have := (hW.mono g).mono c
          simpa using this
  · -- fin
    refine ⟨slash_join ga.fin.1 gb.fin.1, .inl ?_⟩
    obtain ⟨-, hfa⟩ := ga.fin
    have hfb := gb.fin
    by_cases hta : ta = []
    · subst hta
      have htb : tb ≠ [] := by rcases hne with h | h; · exact absurd rfl h
                               · exact h
      obtain ⟨hb1, ⟨-, hb3, hb4, hb5⟩ | ⟨h, -⟩⟩ := hfb
      · obtain ⟨h, -⟩ | ⟨-, hf, hst'⟩ := hfa
        · exact absurd rfl h
        · simp only [joinT, if_true]
          refine ⟨htb, hb3, by simp [PExpr.nonNull, hb4], fun m hm ho => ?_⟩
          have hoB : Off B m := by
            intro c t e
            cases h : B c with
            | false => rfl
            | true => have := ho c t e; rw [hBC c h] at this; contradiction
          obtain ⟨c, r, h, hl⟩ := hb5 m hm hoB
          have hsol : Sol (tb ++ '\n' :: m) := hb3.app htb
          have := rn_empty ga.wf ga.ns hf (a := .nonAtomic) (fun _ => hsol.solid) (by
            intro c t e
            cases h : a.starts (some c) with
            | false => rfl
            | true => have := off_app (n := '\n' :: m) h4 htb c t e; rw [hst' c h] at this; contradiction)
          obtain ⟨c3, h⟩ := rn_seq this .refl hsol h
          exact ⟨c3, r, h, hl⟩
      · exact absurd h htb
    · obtain ⟨-, ha3, ha4, ha5⟩ | ⟨h, -⟩ := hfa
      · refine ⟨?_, ?_, by simp [PExpr.nonNull, ha4], fun m hm ho => ?_⟩
        · unfold joinT; simp only [hta, if_false]; split
          · exact hta
          · simp
        · unfold joinT; simp only [hta, if_false]; split
          · exact ha3
          · exact ha3.app hta
        · obtain ⟨m1, em, hm1, ho1, c2, r2', hb, hbl⟩ := fin_step gb.wf gb.ns gb.fin hBC hAC h4 hm ho
          have em' : joinT ta tb ++ '\n' :: m = ta ++ '\n' :: m1 := by
            rw [← em]; unfold joinT; simp only [hta, if_false]; split <;> simp
          rw [em']
          obtain ⟨c, r, h, hl⟩ := ha5 m1 hm1 ho1
          obtain ⟨c3, h⟩ := rn_seq h hl hm1.2 hb
          exact ⟨c3, r2', h, hbl⟩
      · exact absurd h hta

end Dbml.Vp
