import Verif.Proofs.Viable7

/-!
# Completing a text inside a column type, where nothing is skipped
-/

namespace Dbml.Vp
open Syntax Source

variable {R : Rule}

/-- What `e` consumed, it also consumes if `w` follows and `P w`. -/
def KeepC (P : Str → Prop) (e : PExpr) : Prop :=
  ∀ s c r, Rn e .compound s c r → ∀ w, Cut' r w → P w → Rn e .compound (c ++ w) c w
/-- No quotation mark is followed by a dot, even if a quotation mark comes first. -/
def NoQD (z : Str) : Prop := ¬ k!"\"." <:+: '"' :: z
/-- The text before a place where a rule was tried can be completed, beginning with a sample of that rule. -/
def ViaC (e : PExpr) : Prop :=
  ∀ ⦃R⦄ s u v, Tried R e .compound s v → s = u ++ v → u ≠ [] → ∃ t, (∃ t', t = Spec.sample R ++ t') ∧ ('/' ∉ t ∧ NoQD t) ∧
    ∀ d m, isEnd d = true → '/' ∉ m → Wd' u (t ++ d :: m) ∧ Rn e .compound (u ++ (t ++ d :: m)) (u ++ t) (d :: m)
/-- What can be tried first in `e` begins a text for `e`. -/
def FitC (k : Bool) (e : PExpr) : Prop :=
  ∀ R ∈ firsts e, ∃ t, (∃ x xs, Spec.sample R ++ t = x :: xs ∧ e.starts (some x) = true ∧ (k = true → isEnd2 x = true)) ∧
    ('/' ∉ Spec.sample R ++ t ∧ NoQD (Spec.sample R ++ t)) ∧
    ∀ d m, isEnd d = true → '/' ∉ m → Rn e .compound (Spec.sample R ++ t ++ d :: m) (Spec.sample R ++ t) (d :: m)
/-- `t` is a text for `e`. -/
def FinC (e : PExpr) (t : Str) : Prop :=
  ('/' ∉ t ∧ '.' ∉ t) ∧ ∀ d m, isEnd d = true → '/' ∉ m → Rn e .compound (t ++ d :: m) t (d :: m)
/-- Nothing is tried inside `e`, and `e` ends with a fixed character. -/
def Stop (e : PExpr) : Prop :=
  (∀ ⦃R⦄ s v, Tried R e .compound s v → v = s) ∧
  ∀ s c r, Rn e .compound s c r → (∃ x ∈ c, isSpec x = true) ∧ ∀ w, '/' ∉ w → Rn e .compound (c ++ w) c w

/-! ## Runs -/

theorem rn_seqC {x y s c1 r1 c2 r} (h1 : Rn x .compound s c1 r1) (h2 : Rn y .compound r1 c2 r) :
    Rn (.seq x y) .compound s (c1 ++ c2) r := by
  intro pos
  obtain ⟨p1, e1⟩ := h1 pos
  obtain ⟨p2, e2⟩ := h2 (pos + blen c1)
  exact ⟨p1 ++ p2, seq_run (by simp) e1 e2⟩

theorem seqC_rn {x y : PExpr} (hx : x.noSoi = true) (hy : y.noSoi = true) {s c r} (h : Rn (.seq x y) .compound s c r) :
    ∃ c1 r1 c2, Rn x .compound s c1 r1 ∧ Rn y .compound r1 c2 r ∧ c = c1 ++ c2 := by
  obtain ⟨ps, h⟩ := h 0
  simp only [run] at h
  obtain ⟨c1, r1, p1, g, r2, q, c2, p2, h1, h2, h3, h4, h5⟩ := seqRes_ok h
  simp [skipIf] at h2
  obtain ⟨rfl, rfl, -⟩ := h2
  exact ⟨c1, r1, c2, .of hx h1, .of hy h3, by simpa using h4⟩

theorem fl_seqRC {x y : PExpr} {s c r} (h : Rn x .compound s c r) (hf : Fl y .compound r) : Fl (.seq x y) .compound s := by
  intro pos
  obtain ⟨p1, e1⟩ := h pos
  simp only [run, e1, seqRes, skipIf, hf _]

theorem Wd'.mono {y z : Str} (x : Str) (h : Wd' y z) : Wd' (x ++ y) z := by
  rcases h with h | ⟨c, hc, h⟩
  · exact .inl h
  · exact .inr ⟨c, by simp [hc], h⟩
theorem Cut'.app {r w : Str} (x : Str) (h : Cut' r w) : Cut' (x ++ r) (x ++ w) := by
  obtain ⟨y, v, z, rfl, rfl, h1, h2⟩ := h
  exact ⟨x ++ y, v, z, by simp, by simp, h1, h2.mono x⟩

theorem headC {e : PExpr} (hw : e.wf = true) {s c r} (h : Rn e .compound s c r) (hc : c ≠ []) :
    ∃ x t, c = x :: t ∧ e.starts (some x) = true := rn_head hw (by simp) h hc

theorem triedC_head {e : PExpr} (hw : e.wf = true) {s u v} (h : Tried R e .compound s v) (e1 : s = u ++ v)
    (hu : u ≠ []) : ∃ x t, u = x :: t ∧ e.starts (some x) = true := by
  obtain ⟨x, t, rfl⟩ := List.exists_cons_of_ne_nil hu
  refine ⟨x, t, rfl, ?_⟩
  rcases h.head hw (by simp) with h | h
  · subst h
    have := congrArg List.length e1
    simp at this
    omega
  · rw [e1] at h
    exact h

/-! ## Sequences -/

theorem KeepC.seq {a b : PExpr} {PA PB PC : Str → Prop} (ka : KeepC PA a) (kb : KeepC PB b) (na : a.noSoi = true)
    (nb : b.noSoi = true) (wb : b.wf = true) (hb : ∀ c t, b.starts (some c) = true → PA (c :: t))
    (hAC : b.nonNull = true ∨ ∀ w, PC w → PA w) (hBC : ∀ w, PC w → PB w) : KeepC PC (.seq a b) := by
  intro s c r h w hcut hw
  obtain ⟨c1, r1, c2, h1, h2, rfl⟩ := seqC_rn na nb h
  have e2 := h2.split
  subst e2
  have k2 := kb _ _ _ h2 w hcut (hBC w hw)
  have k1 := ka _ _ _ h1 (c2 ++ w) (hcut.app c2) (by
    by_cases hc : c2 = []
    · subst hc
      rcases hAC with h | h
      · exact absurd rfl (h2.ne h)
      · exact h w hw
    · obtain ⟨x, t, rfl, hx⟩ := headC wb h2 hc
      exact hb x _ hx)
  have := rn_seqC k1 k2
  rwa [← List.append_assoc] at this

theorem infix_cut2 {x y : Char} {p z : Str} (hz : y ∉ z) (h : [x, y] <:+: p ++ z) : [x, y] <:+: p := by
  obtain ⟨l, r, e⟩ := h
  rw [List.append_eq_append_iff] at e
  rcases e with ⟨a, e1, e2⟩ | ⟨b, e1, e2⟩
  · exact ⟨l, a, e1.symm⟩
  · rcases List.eq_nil_or_concat b with rfl | ⟨b', w, rfl⟩
    · exact ⟨l, [], by simpa using e1⟩
    · exfalso
      have : w = y := by
        have := congrArg List.getLast? e1
        simp at this
        exact this.symm
      subst this
      exact hz (by rw [e2]; simp)

theorem NoQD.app {z t : Str} (h : NoQD z) (ht : '.' ∉ t) : NoQD (z ++ t) := fun h' => h (infix_cut2 ht h')

/-- `x` is followed by `y` somewhere. -/
def has2 (x y : Char) : Str → Bool
  | [] => false
  | c :: t => (c == x && t.head? == some y) || has2 x y t

theorem has2_of {x y : Char} {s : Str} (h : [x, y] <:+: s) : has2 x y s = true := by
  obtain ⟨l, r, rfl⟩ := h
  induction l with
  | nil => simp [has2]
  | cons c l ih => simp only [List.append_assoc, List.cons_append, has2, Bool.or_eq_true] at ih ⊢; exact .inr ih

def tailsC : List Str := [[], k!")", k!"]", k!"\""]

/-- What can be tried first in `e` begins a text that `e` consumes. -/
def chkC (k : Bool) (e : PExpr) : Bool :=
  (firsts e).all fun R => tailsC.any fun t =>
    !(Spec.sample R ++ t).contains '/' && !(has2 '"' '.' ('"' :: (Spec.sample R ++ t))) &&
    (match Spec.sample R ++ t with | [] => false | x :: _ => e.starts (some x) && (!k || isEnd2 x)) &&
    (match run G.skip e .compound 0 (Spec.sample R ++ t) with | .ok _ [] _ => true | _ => false)

theorem fitC_of {k : Bool} {e : PExpr} {P : Str → Prop} (ke : KeepC P e) (hn : e.noSoi = true)
    (hP : ∀ c t, isEnd c = true → P (c :: t)) (h : chkC k e = true) : FitC k e := by
  intro R hR
  have h := List.all_eq_true.1 h R hR
  rw [List.any_eq_true] at h
  obtain ⟨t, -, h⟩ := h
  simp only [Bool.and_eq_true] at h
  obtain ⟨⟨⟨h1, h1'⟩, h2⟩, h3⟩ := h
  have h1 : '/' ∉ Spec.sample R ++ t := by
    intro hm
    rw [List.contains_iff_mem.2 hm] at h1
    contradiction
  have h1' : NoQD (Spec.sample R ++ t) := by
    intro hm
    rw [has2_of hm] at h1'
    contradiction
  refine ⟨t, ?_, ⟨h1, h1'⟩, ?_⟩
  · split at h2
    · contradiction
    · rename_i x xs e
      simp only [Bool.and_eq_true, Bool.or_eq_true, Bool.not_eq_true'] at h2
      refine ⟨x, xs, e, h2.1, fun hk => ?_⟩
      rcases h2.2 with h | h
      · rw [hk] at h; contradiction
      · exact h
  · intro d m hd hm
    split at h3 <;> try contradiction
    rename_i c ps hr
    have hc : c = Spec.sample R ++ t := by have := run_split hr; simpa using this.symm
    subst hc
    have hz : '/' ∉ d :: m := by
      simp only [List.mem_cons, not_or]
      exact ⟨by rintro rfl; revert hd; decide, hm⟩
    exact ke _ _ [] (.of hn hr) (d :: m) ⟨[], [], d :: m, rfl, rfl, hz, .inl ⟨d, m, rfl, end_end2 hd⟩⟩ (hP d m hd)

theorem ViaC.seq {a b : PExpr} {PA : Str → Prop} {k : Bool} {tb : Str} (ka : KeepC PA a) (va : ViaC a) (vb : ViaC b)
    (fb : FinC b tb) (wb : b.wf = true)
    (hb : ∀ c t, b.starts (some c) = true → PA (c :: t))
    (hend : Stop a ∨ (k = true ∧ (tb = [] ∨ ∃ c t, tb = c :: t ∧ isEnd c = true))) (hfit : FitC k b) : ViaC (.seq a b) := by
  have head : ∀ {d m}, isEnd d = true → (tb = [] ∨ ∃ c t, tb = c :: t ∧ isEnd c = true) →
      '/' ∉ m → ∃ d' m', tb ++ d :: m = d' :: m' ∧ isEnd d' = true ∧ '/' ∉ m' := by
    intro d m hd h hm
    rcases h with rfl | ⟨c, t, rfl, hc⟩
    · exact ⟨d, m, rfl, hd, hm⟩
    · refine ⟨c, t ++ d :: m, rfl, hc, ?_⟩
      have := fb.1.1
      simp at this ⊢
      exact ⟨this.2, by rintro rfl; revert hd; decide, hm⟩
  have dne : ∀ {d m}, isEnd d = true → '/' ∉ m → '/' ∉ d :: m := by
    intro d m hd hm
    simp
    exact ⟨by rintro rfl; revert hd; decide, hm⟩
  intro R s u v ht e hu
  cases ht with
  | seqL ht =>
    rcases hend with hs | ⟨-, hend⟩
    · have := hs.1 _ _ ht
      subst this
      exact absurd (by have := congrArg List.length e; simp at this; exact this) hu
    · obtain ⟨t, ⟨t', h0⟩, h1, h3⟩ := va s u v ht e hu
      refine ⟨t ++ tb, ⟨t' ++ tb, by rw [h0, List.append_assoc]⟩, ⟨not_mem_append h1.1 fb.1.1, h1.2.app fb.1.2⟩, fun d m hd hm => ?_⟩
      obtain ⟨d', m', e', hd', hm'⟩ := head hd hend hm
      obtain ⟨hW, hr⟩ := h3 d' m' hd' hm'
      have hb' := fb.2 d m hd hm
      rw [← e'] at hW hr
      have := rn_seqC hr hb'
      simp only [List.append_assoc] at hW this ⊢
      exact ⟨hW, this⟩
  | @seqR _ _ _ _ c r g r2 q _ ra hsk ht =>
    simp [skipIf] at hsk
    obtain ⟨rfl, rfl, -⟩ := hsk
    obtain ⟨u2, rfl⟩ := ht.suffix
    have eu : u = c ++ u2 := by
      apply List.append_cancel_right (bs := v)
      rw [← e, ra.split]; simp
    subst eu
    by_cases hu2 : u2 = []
    · subst hu2
      simp only [List.append_nil, List.nil_append] at hu ra ht ⊢
      obtain ⟨t, ⟨x, xs, exs, hx, hx2⟩, h1, h3⟩ := hfit R (ht.first wb rfl)
      refine ⟨Spec.sample R ++ t, ⟨t, rfl⟩, h1, fun d m hd hm => ?_⟩
      have hr := h3 d m hd hm
      have hz : '/' ∉ Spec.sample R ++ t ++ d :: m := not_mem_append h1.1 (dne hd hm)
      rcases hend with hs | ⟨hk, -⟩
      · obtain ⟨h1, h2⟩ := hs.2 _ _ _ ra
        exact ⟨.inr h1, rn_seqC (h2 _ hz) hr⟩
      · have hW : Wd' [] (Spec.sample R ++ t ++ d :: m) := .inl ⟨x, xs ++ d :: m, by rw [exs]; rfl, hx2 hk⟩
        refine ⟨by have := hW.mono c; rwa [List.append_nil] at this, rn_seqC (ka _ _ _ ra _ ⟨[], v, _, rfl, rfl, hz, hW⟩ ?_) hr⟩
        rw [exs]
        exact hb x _ hx
    · obtain ⟨t, h0, h1, h3⟩ := vb _ u2 v ht rfl hu2
      refine ⟨t, h0, h1, fun d m hd hm => ?_⟩
      obtain ⟨hW, hr⟩ := h3 d m hd hm
      obtain ⟨x, xs, rfl, hx⟩ := triedC_head wb ht rfl hu2
      have hz : '/' ∉ t ++ d :: m := not_mem_append h1.1 (dne hd hm)
      have k := ka _ _ _ ra (x :: xs ++ (t ++ d :: m)) ⟨x :: xs, v, t ++ d :: m, rfl, rfl, hz, hW⟩ (hb x _ hx)
      have := rn_seqC k hr
      rw [← List.append_assoc, ← List.append_assoc c] at this
      exact ⟨hW.mono c, this⟩

theorem FinC.seq {a b : PExpr} {ta tb : Str} (fa : FinC a ta) (fb : FinC b tb)
    (hend : Stop a ∨ tb = [] ∨ ∃ c t, tb = c :: t ∧ isEnd c = true) : FinC (.seq a b) (ta ++ tb) := by
  refine ⟨by simp [fa.1, fb.1], fun d m hd hm => ?_⟩
  have hb := fb.2 d m hd hm
  have dz : '/' ∉ d :: m := by
    simp
    exact ⟨by rintro rfl; revert hd; decide, hm⟩
  rw [List.append_assoc]
  refine rn_seqC ?_ hb
  rcases hend with hs | rfl | ⟨c, t, rfl, hc⟩
  · exact (hs.2 _ _ _ (fa.2 '\n' [] (by decide) (by simp))).2 _ (not_mem_append fb.1.1 dz)
  · exact fa.2 d m hd hm
  · refine fa.2 c (t ++ d :: m) hc ?_
    have := fb.1.1
    simp at this dz ⊢
    exact ⟨this.2, dz⟩

/-! ## Options, repetitions, alternatives, rules -/

theorem KeepC.opt {a PA PC} (ka : KeepC PA a) (na : a.noSoi = true) (h : ∀ w, PC w → PA w ∧ Fl a .compound w) :
    KeepC PC (.opt a) := by
  intro s c r hr w hcut hw
  rcases opt_rn na hr with ⟨-, rfl, rfl⟩ | hr
  · exact rn_optN (h w hw).2
  · exact rn_optS (ka _ _ _ hr w hcut (h w hw).1)

theorem ViaC.opt {a} (va : ViaC a) : ViaC (.opt a) := by
  intro R s u v ht e hu
  cases ht with
  | opt ht =>
    obtain ⟨t, h1, h2, h3⟩ := va s u v ht e hu
    exact ⟨t, h1, h2, fun d m hd hm => ⟨(h3 d m hd hm).1, rn_optS (h3 d m hd hm).2⟩⟩

theorem fl_end {a : PExpr} (w : a.wf = true) (n : a.nonNull = true) (h : noS a ['\n', '"', ')', ']'] = true) {d m} (hd : isEnd d = true) :
    Fl a .compound (d :: m) := by
  refine fl_off w n (by simp) ?_
  intro c t e
  injection e with e _
  subst e
  have := noS_sound h
  cases hs : a.starts (some d) with
  | false => rfl
  | true =>
    have := this d hs
    rcases isEnd_iff.1 hd with rfl | rfl | rfl | rfl <;> simp [inL] at this

theorem FinC.opt {a : PExpr} (w : a.wf = true) (n : a.nonNull = true) (h : noS a ['\n', '"', ')', ']'] = true) : FinC (.opt a) [] :=
  ⟨by simp, fun _ _ hd _ => rn_optN (fl_end w n h hd)⟩

/-- Successive runs of `x`. -/
inductive ItC (x : PExpr) : Str → Str → Str → Prop
  | stop {s} : Fl x .compound s → ItC x s [] s
  | more {s c r c2 r2} : Rn x .compound s c r → c ≠ [] → ItC x r c2 r2 → ItC x s (c ++ c2) r2

theorem ItC.split {x s c r} (h : ItC x s c r) : s = c ++ r := by
  induction h with
  | stop => rfl
  | more h1 _ _ ih => rw [h1.split, ih]; simp

theorem ItC.loop {x s c r} (h : ItC x s c r) : ∀ fuel, s.length < fuel → ∀ pos, ∃ ps,
    repLoop (stepOf G.skip x .compound) fuel pos s = .ok c r ps := by
  induction h with
  | stop hf =>
    intro fuel hfu pos
    obtain ⟨fuel, rfl⟩ : ∃ k, fuel = k + 1 := ⟨fuel - 1, by omega⟩
    exact ⟨[], by simp only [repLoop, stepOf, seqRes, skipIf, hf _]⟩
  | @more s c r c2 r2 h1 hc _ ih =>
    intro fuel hfu pos
    obtain ⟨fuel, rfl⟩ : ∃ k, fuel = k + 1 := ⟨fuel - 1, by omega⟩
    have hsp := h1.split
    obtain ⟨a, t, rfl⟩ := List.exists_cons_of_ne_nil hc
    obtain ⟨p1, e1⟩ := h1 (pos + blen [] + blen [])
    obtain ⟨p2, e2⟩ := ih fuel (by subst hsp; simp at hfu ⊢; omega) (pos + blen (a :: t))
    refine ⟨p1 ++ p2, ?_⟩
    have hstep : stepOf G.skip x .compound pos s = .ok (a :: t) r p1 := by
      simp only [stepOf, seqRes, skipIf, e1, List.nil_append]
    simp only [repLoop, hstep, e2]

theorem ItC.star {x s c r} (h : ItC x s c r) : Rn (.star x) .compound s c r := by
  cases h with
  | stop hf => exact fun pos => ⟨[], by simp only [run, hf pos]⟩
  | @more _ c r1 c2 _ h1 hc h2 =>
    intro pos
    obtain ⟨p1, e1⟩ := h1 pos
    obtain ⟨p2, e2⟩ := h2.loop (r1.length + 1) (by omega) (pos + blen c)
    refine ⟨p1 ++ p2, ?_⟩
    have e2' : repLoop (fun p i => seqRes G.skip .compound p (.ok [] i []) fun p' i' => run G.skip x .compound p' i')
      (r1.length + 1) (pos + blen c) r1 = .ok c2 r p2 := e2
    simp only [run, e1, e2']

theorem loop_itC {x : PExpr} (hn : x.noSoi = true) : ∀ fuel pos s c r ps,
    repLoop (stepOf G.skip x .compound) fuel pos s = .ok c r ps → ItC x s c r := by
  intro fuel
  induction fuel with
  | zero => intro pos s c r ps h; simp [repLoop] at h
  | succ fuel ih =>
    intro pos s c r ps h
    simp only [repLoop] at h
    cases hst : stepOf G.skip x .compound pos s with
    | fail =>
      rw [hst] at h
      injection h with h1 h2 h3
      subst h1 h2
      refine .stop (.of hn (pos := pos + blen [] + blen []) ?_)
      simp only [stepOf, seqRes, skipIf] at hst
      split at hst <;> simp_all
    | diverge => rw [hst] at h; simp at h
    | ok c1 r1 p1 =>
      rw [hst] at h
      cases c1 with
      | nil => simp at h
      | cons d ds =>
        simp only at h
        cases hrep : repLoop (stepOf G.skip x .compound) fuel (pos + blen (d :: ds)) r1 with
        | fail => rw [hrep] at h; simp at h
        | diverge => rw [hrep] at h; simp at h
        | ok c2 r2 p2 =>
          rw [hrep] at h
          injection h with h1 h2 h3
          subst h1 h2
          simp only [stepOf] at hst
          obtain ⟨k1, s1, q1, g, s2, q2, c3, q3, f1, f2, f3, f4, -⟩ := seqRes_ok hst
          cases f1
          simp [skipIf] at f2
          obtain ⟨rfl, rfl, -⟩ := f2
          simp at f4
          rw [f4]
          refine .more (.of hn f3) (by rw [← f4]; simp) (ih _ _ _ _ _ hrep)

theorem star_itC {x : PExpr} (hn : x.noSoi = true) (nn : x.nonNull = true) {s c r} (h : Rn (.star x) .compound s c r) : ItC x s c r := by
  obtain ⟨ps, h⟩ := h 0
  simp only [run] at h
  cases hx : run G.skip x .compound 0 s with
  | fail => rw [hx] at h; injection h with h1 h2; subst h1 h2; exact .stop (.of hn hx)
  | diverge => rw [hx] at h; simp at h
  | ok c1 r1 p1 =>
    rw [hx] at h
    simp only at h
    split at h <;> try contradiction
    rename_i c2 r2 p2 hrep
    injection h with h1 h2 h3
    subst h1 h2
    have h1 : Rn x .compound s c1 r1 := .of hn hx
    exact .more h1 (h1.ne nn) (loop_itC hn _ _ _ _ _ _ hrep)

theorem ItC.end {x s c r} (h : ItC x s c r) : Fl x .compound r := by
  induction h with
  | stop h => exact h
  | more _ _ _ ih => exact ih

theorem itC_keep {x : PExpr} {P : Str → Prop} (hw : x.wf = true) (kx : KeepC P x)
    (hx : ∀ c t, x.starts (some c) = true → P (c :: t)) {s c r} (h : ItC x s c r) {w} (hcut : Cut' r w) (hP : P w) (hf : Fl x .compound w) :
    ItC x (c ++ w) c w := by
  induction h with
  | stop _ => exact .stop hf
  | @more s c1 r1 c2 r2 h1 hc h2 ih =>
    have := h2.split
    subst this
    have ih := ih hcut
    rw [List.append_assoc]
    refine .more (kx _ _ _ h1 (c2 ++ w) (hcut.app c2) ?_) hc ih
    cases h2 with
    | stop _ => exact hP
    | more h3 hc3 _ =>
      obtain ⟨y, t, rfl, hy⟩ := headC hw h3 hc3
      simp only [List.cons_append]
      exact hx y _ hy

theorem KeepC.star {x P PC} (kx : KeepC P x) (hw : x.wf = true) (hn : x.noSoi = true) (nn : x.nonNull = true)
    (hx : ∀ c t, x.starts (some c) = true → P (c :: t)) (h : ∀ w, PC w → P w ∧ Fl x .compound w) : KeepC PC (.star x) := by
  intro s c r hr w hcut hw'
  exact (itC_keep hw kx hx (star_itC hn nn hr) hcut (h w hw').1 (h w hw').2).star

theorem star_viaC {x : PExpr} {P : Str → Prop} (hw : x.wf = true) (nn : x.nonNull = true) (kx : KeepC P x) (vx : ViaC x)
    (hx : ∀ c t, x.starts (some c) = true → P (c :: t)) (hE : ∀ c t, isEnd c = true → P (c :: t) ∧ Fl x .compound (c :: t))
    (hfit : FitC true x)
    {e a s v} (ht : Tried R e a s v) : e = .star x → a = .compound → ∀ u, s = u ++ v → u ≠ [] →
    ∃ t, (∃ t', t = Spec.sample R ++ t') ∧ ('/' ∉ t ∧ NoQD t) ∧
    ∀ d m, isEnd d = true → '/' ∉ m → Wd' u (t ++ d :: m) ∧ ItC x (u ++ (t ++ d :: m)) (u ++ t) (d :: m) := by
  have dne : ∀ {d m}, isEnd d = true → '/' ∉ m → '/' ∉ d :: m := by
    intro d m hd hm
    simp
    exact ⟨by rintro rfl; revert hd; decide, hm⟩
  induction ht with
  | star1 ht =>
    rintro ⟨⟩ rfl u e hu
    obtain ⟨t, h1, h2, h3⟩ := vx _ u _ ht e hu
    refine ⟨t, h1, h2, fun d m hd hm => ?_⟩
    obtain ⟨hW, hr⟩ := h3 d m hd hm
    have := ItC.more hr (by simp [hu]) (.stop (hE d m hd).2)
    simp only [List.append_nil] at this
    exact ⟨hW, this⟩
  | @star2 x' a' s c r g r2 q v ra hsk ht ih =>
    rintro ⟨⟩ rfl u e hu
    simp [skipIf] at hsk
    obtain ⟨rfl, rfl, -⟩ := hsk
    have hc := ra.ne nn
    obtain ⟨u2, rfl⟩ := ht.suffix
    have eu : u = c ++ u2 := by
      apply List.append_cancel_right (bs := v)
      rw [← e, ra.split]; simp
    subst eu
    by_cases hu2 : u2 = []
    · subst hu2
      simp only [List.append_nil, List.nil_append] at hu ra ⊢
      have hu' := ht
      simp only [List.nil_append] at hu'
      obtain ⟨t, ⟨y, ys, exs, hy, hy2⟩, h1, h3⟩ := hfit R (hu'.first (e := .star x) (by simp [PExpr.wf, hw, nn]) rfl)
      refine ⟨Spec.sample R ++ t, ⟨t, rfl⟩, h1, fun d m hd hm => ?_⟩
      have hr := h3 d m hd hm
      have hz : '/' ∉ Spec.sample R ++ t ++ d :: m := not_mem_append h1.1 (dne hd hm)
      have hW : Wd' [] (Spec.sample R ++ t ++ d :: m) := .inl ⟨y, ys ++ d :: m, by rw [exs]; rfl, hy2 rfl⟩
      refine ⟨by have := hW.mono c; rwa [List.append_nil] at this, ?_⟩
      have := kx _ _ _ ra (Spec.sample R ++ t ++ d :: m) ⟨[], v, _, rfl, rfl, hz, hW⟩ (by rw [exs]; exact hx y _ hy)
      have := ItC.more this hc (.more hr (hr.ne nn) (.stop (hE d m hd).2))
      rwa [List.append_nil] at this
    · obtain ⟨y, ys, rfl, hy⟩ := triedC_head (e := .star x) (by simp [PExpr.wf, hw, nn]) ht rfl hu2
      obtain ⟨t, h0, h1, h3⟩ := ih rfl rfl _ rfl hu2
      refine ⟨t, h0, h1, fun d m hd hm => ?_⟩
      obtain ⟨hW, hit⟩ := h3 d m hd hm
      have k := kx _ _ _ ra (y :: ys ++ (t ++ d :: m)) ⟨y :: ys, v, t ++ d :: m, rfl, rfl, not_mem_append h1.1 (dne hd hm), hW⟩ (hx y _ hy)
      have := ItC.more k hc hit
      rw [← List.append_assoc, ← List.append_assoc c] at this
      exact ⟨hW.mono c, this⟩
  | _ => intro h; cases h

theorem ViaC.star {x : PExpr} {P : Str → Prop} (hw : x.wf = true) (nn : x.nonNull = true) (kx : KeepC P x) (vx : ViaC x)
    (hx : ∀ c t, x.starts (some c) = true → P (c :: t)) (hE : ∀ c t, isEnd c = true → P (c :: t) ∧ Fl x .compound (c :: t))
    (hfit : FitC true x) : ViaC (.star x) := by
  intro R s u v ht e hu
  obtain ⟨t, h1, h2, h3⟩ := star_viaC hw nn kx vx hx hE hfit ht rfl rfl u e hu
  exact ⟨t, h1, h2, fun d m hd hm => ⟨(h3 d m hd hm).1, (h3 d m hd hm).2.star⟩⟩

theorem FinC.star {a : PExpr} (w : a.wf = true) (n : a.nonNull = true) (h : noS a ['\n', '"', ')', ']'] = true) : FinC (.star a) [] :=
  ⟨by simp, fun _ _ hd _ => (ItC.stop (fl_end w n h hd)).star⟩

theorem KeepC.rule {b P} {rl : Rule} {m : Modifier} (hm : m ≠ .atomic) (nb : b.noSoi = true) (k : KeepC P b) : KeepC P (.rule rl m b) := by
  have hb : bodyAtomicity m .compound = .compound := by cases m <;> simp_all [bodyAtomicity]
  intro s c r h w hcut hw
  have h := rule_rn nb h
  rw [hb] at h
  exact rn_rule (by rw [hb]; exact k _ _ _ h w hcut hw)

theorem ViaC.rule {b} {rl : Rule} {m : Modifier} (hm : m ≠ .atomic) (k : ViaC b) : ViaC (.rule rl m b) := by
  have hb : bodyAtomicity m .compound = .compound := by cases m <;> simp_all [bodyAtomicity]
  intro R s u v ht e hu
  cases ht with
  | ruleIn ht =>
    rw [hb] at ht
    obtain ⟨t, h1, h2, h3⟩ := k s u v ht e hu
    exact ⟨t, h1, h2, fun d m hd hm => ⟨(h3 d m hd hm).1, rn_rule (by rw [hb]; exact (h3 d m hd hm).2)⟩⟩
  | ruleAt => exact absurd (by have := congrArg List.length e; simp at this; exact this) hu

theorem FinC.rule {b t} {rl : Rule} {m : Modifier} (hm : m ≠ .atomic) (f : FinC b t) : FinC (.rule rl m b) t := by
  have hb : bodyAtomicity m .compound = .compound := by cases m <;> simp_all [bodyAtomicity]
  exact ⟨f.1, fun d m hd hm => rn_rule (by rw [hb]; exact f.2 d m hd hm)⟩

theorem keepC_tok {e : PExpr} {A : Char → Bool} (h : KeepT A e) : KeepC (Off A) e :=
  fun s c r hr w hc ho => h .compound s c r (by simp) (by simp) hr w hc ho
theorem viaC_tok {e : PExpr} (h : atS e = true) : ViaC e := by
  intro R s u v ht e hu
  have := atS_tried ht h
  subst this
  exact absurd (by have := congrArg List.length e; simp at this; exact this) hu

theorem stop_str {k : Str} (h : ∃ x ∈ k, isSpec x = true) : Stop (.str k) := by
  refine ⟨fun R s v ht => (atS_tried ht rfl), fun s c r hr => ?_⟩
  obtain ⟨ps, hr⟩ := hr 0
  obtain ⟨rfl, -, -⟩ := str_ok hr
  exact ⟨h, fun w _ => rn_str⟩
theorem keepC_str {k : Str} {P} : KeepC P (.str k) := by
  intro s c r hr w _ _
  obtain ⟨ps, hr⟩ := hr 0
  obtain ⟨rfl, -, -⟩ := str_ok hr
  exact rn_str
theorem finC_str {k : Str} (h : '/' ∉ k ∧ '.' ∉ k) : FinC (.str k) k := ⟨h, fun _ _ _ _ => rn_str⟩

end Dbml.Vp
