import Verif.Proofs.Viable9

/-!
# Completing a text: columns and tables
-/

namespace Dbml.Vp
open Syntax Source

variable {R : Rule}

/-! ## The schema of a type -/

def idot : PExpr := .seq G.ident (.str k!".")

theorem stop_idot : Stop idot := by
  refine ⟨fun R s v ht => atS_tried ht rfl, fun s c r hr => ?_⟩
  obtain ⟨c1, r1, c2, h1, h2, rfl⟩ := seqC_rn rfl rfl hr
  have e := h2.split
  obtain ⟨ps, h2⟩ := h2 0
  obtain ⟨rfl, -, -⟩ := str_ok h2
  subst e
  refine ⟨⟨'.', by simp, by decide⟩, fun w hw => ?_⟩
  have := keepT_ident .compound _ _ _ (by simp) (by simp) h1 (k!"." ++ w) ⟨k!".", r, w, rfl, rfl, hw, .inr ⟨'.', by simp, by decide⟩⟩ (fun _ _ _ => rfl)
  rw [List.append_assoc]
  exact rn_seqC this rn_str

theorem keepC_idot {P} : KeepC P idot :=
  KeepC.seq (PA := Off (inL [])) (keepC_tok keepT_ident.inL) (keepC_str (P := P)) rfl rfl rfl (fun _ _ _ => off_nil) (.inl rfl) (fun _ h => h)

/-- A quoted name and a dot. -/
def HasDot (s : Str) : Prop := ∃ val rest, s = '"' :: (val ++ '"' :: '.' :: rest) ∧ '"' ∉ val

theorem closed_iff {v : Str} : Closed k!"\"" v ↔ '"' ∉ v := by
  constructor
  · intro h hv
    obtain ⟨a, b, rfl⟩ := List.append_of_mem hv
    exact h a.length (by simp) ⟨b ++ k!"\"", by simp⟩
  · intro h i hi ⟨t, ht⟩
    apply h
    have : (v ++ k!"\"").drop i = v.drop i ++ k!"\"" := List.drop_append_of_le_length (by omega)
    rw [this, List.drop_eq_getElem_cons hi] at ht
    injection ht with h1 _
    rw [h1]
    exact List.getElem_mem hi

theorem rn_hasDot {s : Str} (h : HasDot s) : ¬ Fl idot .compound s := by
  obtain ⟨val, rest, rfl, h⟩ := h
  have : Rn G.ident .compound ('"' :: (val ++ '"' :: '.' :: rest)) ((Name.quoted ⟨[], val⟩).text) ('.' :: rest) := by
    intro pos
    obtain ⟨p, hp, -⟩ := ident_run (a := .compound) (by simp) (n := .quoted ⟨[], val⟩) (r := '.' :: rest) (show Quote.Tight _ _ from ⟨rfl, closed_iff.2 h⟩) pos
    have e : (Name.quoted ⟨[], val⟩).text ++ '.' :: rest = '"' :: (val ++ '"' :: '.' :: rest) := by simp [Name.text, Quote.text]
    rw [e] at hp
    exact ⟨_, hp⟩
  exact (rn_seqC this (rn_str (k := k!".") (r := rest))).not_fl

theorem fl_hasDot {s : Str} (h : ¬ HasDot s) (hs : ∃ t, s = '"' :: t) : Fl idot .compound s := by
  rcases rn_or_fl (e := idot) rfl (by decide) .compound s with ⟨c, r, hr⟩ | hr
  · exfalso
    obtain ⟨c1, r1, c2, h1, h2, rfl⟩ := seqC_rn rfl rfl hr
    have e := h2.split
    obtain ⟨ps, h2⟩ := h2 0
    obtain ⟨rfl, -, -⟩ := str_ok h2
    subst e
    have e1 := h1.split
    obtain ⟨ps, h1⟩ := h1 0
    obtain ⟨n, hn, rfl, -⟩ := ident_ok (by simp) h1
    obtain ⟨t, rfl⟩ := hs
    cases n with
    | word w =>
      obtain ⟨⟨c, cs, rfl, hc, -⟩, -⟩ : IsVar w ∧ _ := hn
      injection e1 with e1 _
      subst e1
      revert hc; decide
    | quoted x =>
      obtain ⟨h3, h4⟩ : Quote.Tight k!"\"" x := hn
      apply h
      refine ⟨x.val, r, ?_, closed_iff.1 h4⟩
      rw [e1]
      simp [Name.text, Quote.text, h3]
  · exact hr

theorem quoted_shape {s c r} (h : Rn G.col_type_quoted .compound s c r) : (∃ a b, c = '"' :: (a ++ '"' :: b)) ∧ NoArr r := by
  have h : Rn (.seq (.str k!"\"") q4) .compound s c r := rule_rn (m := .compound) (a := .compound) rfl h
  obtain ⟨c1, r1, c2, h1, h2, rfl⟩ := seqC_rn rfl rfl h
  obtain ⟨ps, h1⟩ := h1 0
  obtain ⟨rfl, -, -⟩ := str_ok h1
  obtain ⟨c3, r3, c4, h3, h4, rfl⟩ := seqC_rn (y := q3) rfl rfl h2
  obtain ⟨c5, r5, c6, h5, h6, rfl⟩ := seqC_rn (y := q2) rfl rfl h4
  obtain ⟨c7, r7, c8, h7, h8, rfl⟩ := seqC_rn (y := q1) rfl rfl h6
  obtain ⟨c9, r9, c10, h9, h10, rfl⟩ := seqC_rn rfl rfl h8
  obtain ⟨ps, h9⟩ := h9 0
  obtain ⟨rfl, -, -⟩ := str_ok h9
  exact ⟨⟨c3 ++ (c5 ++ c7), c10, by simp⟩, (star_itC rfl rfl h10).end⟩

theorem unquoted_shape {s c r} (h : Rn G.col_type_unquoted .compound s c r) :
    (∃ c1 r1 c2, Rn G.var .compound s c1 r1 ∧ Rn untail .compound r1 c2 r) ∧ NoArr r := by
  have h : Rn (.seq G.var untail) .compound s c r := rule_rn (m := .compound) (a := .compound) rfl h
  obtain ⟨c1, r1, c2, h1, h2, rfl⟩ := seqC_rn rfl rfl h
  refine ⟨⟨c1, r1, c2, h1, h2⟩, ?_⟩
  obtain ⟨c3, r3, c4, h3, h4, rfl⟩ := seqC_rn rfl rfl h2
  exact (star_itC rfl rfl h4).end

/-- If a name and a dot were not read before, they are not read afterwards. -/
theorem fl_idot {s0 u v s' t z : Str} (h0 : Fl idot .compound s0) (e0 : s0 = u ++ v) (h : Rn ty .compound s' (u ++ t) z) (ht : NoQD t)
    (hz : Off (inL ['.']) z) : Fl idot .compound s' := by
  rcases alt_rn rfl rfl h with h | ⟨-, h⟩
  · have hsp := h.split
    obtain ⟨⟨a, b, e⟩, -⟩ := quoted_shape h
    refine fl_hasDot ?_ ⟨a ++ '"' :: b ++ z, by rw [hsp, e]; simp⟩
    rintro ⟨val, rest, e1, hv⟩
    rw [hsp, e] at e1
    have e2 : a ++ '"' :: (b ++ z) = val ++ '"' :: '.' :: rest := by simpa using e1
    have key : ∃ k, u ++ t = '"' :: (val ++ k!"\".") ++ k := by
      have kb : a = val → b ++ z = '.' :: rest → ∃ k, u ++ t = '"' :: (val ++ k!"\".") ++ k := by
        rintro rfl eb
        cases b with
        | nil =>
          have := hz '.' rest eb
          simp [inL] at this
        | cons d b =>
          injection eb with eb _
          subst eb
          exact ⟨b, by rw [e]; simp⟩
      rcases List.append_eq_append_iff.1 e2 with ⟨k, h1, h2⟩ | ⟨k, h1, h2⟩
      · cases k with
        | nil => exact kb (by simpa using h1.symm) (by simpa using h2)
        | cons d k =>
          injection h2 with h2 _
          subst h2
          exact absurd (by rw [h1]; simp) hv
      · match k, h1, h2 with
        | [], h1, h2 => exact kb (by simpa using h1) (by simpa using h2.symm)
        | [d], h1, h2 =>
          injection h2 with _ h2
          injection h2 with h2 _
          exact absurd h2 (by decide)
        | d :: d' :: k, h1, h2 =>
          injection h2 with h2 h3
          injection h3 with h3 _
          subst h2 h3
          exact ⟨k ++ '"' :: b, by rw [e, h1]; simp⟩
    obtain ⟨k, hk⟩ := key
    have : ∃ k', u = '"' :: (val ++ k!"\".") ++ k' := by
      rcases List.append_eq_append_iff.1 hk with ⟨a', h1, h2⟩ | ⟨a', h1, h2⟩
      · rcases List.eq_nil_or_concat a' with rfl | ⟨a2, x, rfl⟩
        · exact ⟨[], by simpa using h1.symm⟩
        · exfalso
          have h1' : '"' :: val ++ ['"'] ++ ['.'] = u ++ a2 ++ [x] := by simpa using h1
          obtain ⟨h3, h4⟩ := List.append_inj' h1' rfl
          injection h4 with h4 _
          subst h4
          apply ht
          rcases List.eq_nil_or_concat a2 with rfl | ⟨a3, y, rfl⟩
          · exact ⟨[], k, by rw [h2]; rfl⟩
          · have h3' : '"' :: val ++ ['"'] = u ++ a3 ++ [y] := by simpa using h3
            obtain ⟨-, h6⟩ := List.append_inj' h3' rfl
            injection h6 with h6 _
            subst h6
            exact ⟨'"' :: a3, k, by rw [h2]; simp⟩
      · exact ⟨a', h1⟩
    obtain ⟨k', rfl⟩ := this
    exact rn_hasDot ⟨val, k' ++ v, by rw [e0]; simp, hv⟩ h0
  · obtain ⟨⟨c1, r1, c2, h1, h2⟩, -⟩ := unquoted_shape h
    refine fl_seqRC (rn_rule (m := .normal) (rn_altL h1)) ?_
    refine fl_off rfl rfl (by simp) ?_
    intro d w ed
    have : d ≠ '.' := by
      rintro rfl
      by_cases hc : c2 = []
      · subst hc
        have := h2.split
        rw [ed] at this
        have := hz '.' w this.symm
        simp [inL] at this
      · obtain ⟨y, ys, rfl, hy⟩ := headC (by decide) h2 hc
        have := h2.split
        rw [ed] at this
        injection this with this _
        subst this
        revert hy; decide
    simpa [PExpr.starts] using this

theorem keepC_dty : KeepC (fun w => Off (inL ['(']) w ∧ NoArr w) (.seq idot ty) :=
  KeepC.seq (PA := fun _ => True) keepC_idot keepC_ty rfl rfl (by decide) (fun _ _ _ => trivial) (.inl rfl) (fun _ h => h)
theorem viaC_dty : ViaC (.seq idot ty) :=
  .seq (PA := fun _ => True) keepC_idot (viaC_tok rfl) viaC_ty finC_ty (by decide) (fun _ _ _ => trivial) (.inl stop_idot)
    (fitC_of (k := false) keepC_ty rfl (fun _ _ h => ⟨end_off (by decide) h, noArr_end h⟩) (by decide +kernel))

theorem noQD_nil : NoQD [] := by
  intro h
  have := has2_of h
  revert this
  decide

def colBody : PExpr := .seq (.opt idot) ty

theorem keepC_colBody : KeepC (fun w => Off (inL ['.', '(']) w ∧ NoArr w) colBody := by
  intro s c r h w hcut hw
  have hp : Off (inL ['(']) w ∧ NoArr w := ⟨hw.1.sub (subL_sound (by decide)), hw.2⟩
  obtain ⟨c1, r1, c2, h1, h2, rfl⟩ := seqC_rn rfl rfl h
  rcases opt_rn rfl h1 with ⟨hf, rfl, rfl⟩ | h1
  · have k := keepC_ty _ _ _ h2 w hcut hp
    refine rn_seqC (rn_optN (fl_idot (t := []) hf h2.split (by simpa using k) noQD_nil (hw.1.sub (subL_sound (by decide))))) k
  · exact rn_seqOpt (keepC_dty _ _ _ (seqOpt_rn h h1) w hcut hp)

theorem viaC_colBody : ViaC colBody := by
  intro R s u v ht e hu
  have left : Tried R (.seq idot ty) .compound s v → _ := fun ht => viaC_dty s u v ht e hu
  cases ht with
  | seqL ht => cases ht with | opt ht =>
    obtain ⟨t, h1, h2, h3⟩ := left (.seqL ht)
    exact ⟨t, h1, h2, fun d m hd hm => ⟨(h3 d m hd hm).1, rn_seqOpt (h3 d m hd hm).2⟩⟩
  | @seqR _ _ _ _ c r g r2 q _ ra hsk ht =>
    rcases opt_rn rfl ra with ⟨hf, hc, hr⟩ | ra'
    · subst hc hr
      simp [skipIf] at hsk
      obtain ⟨rfl, rfl, -⟩ := hsk
      obtain ⟨t, h1, h2, h3⟩ := viaC_ty _ u v ht e hu
      refine ⟨t, h1, h2, fun d m hd hm => ⟨(h3 d m hd hm).1, ?_⟩⟩
      have k := (h3 d m hd hm).2
      have := rn_seqC (rn_optN (fl_idot hf e k h2.2 (end_off (by decide) hd))) k
      rwa [List.nil_append] at this
    · obtain ⟨t, h1, h2, h3⟩ := left (.seqR ra' hsk ht)
      exact ⟨t, h1, h2, fun d m hd hm => ⟨(h3 d m hd hm).1, rn_seqOpt (h3 d m hd hm).2⟩⟩

theorem col_rn {a s c r} (h : Rn G.col_type a s c r) : Rn colBody .compound s c r := rule_rn (m := .compound) rfl h
theorem rn_col {a s c r} (h : Rn colBody .compound s c r) : Rn G.col_type a s c r := rn_rule (m := .compound) h

theorem col_noArr {s c r} (h : Rn colBody .compound s c r) : NoArr r := by
  obtain ⟨c1, r1, c2, h1, h2, rfl⟩ := seqC_rn rfl rfl h
  rcases alt_rn rfl rfl h2 with h | ⟨-, h⟩
  · exact (quoted_shape h).2
  · exact (unquoted_shape h).2

theorem rn_x_col {d m} (hd : isEnd d = true) (hm : '/' ∉ m) : Rn colBody .compound (k!"x" ++ d :: m) k!"x" (d :: m) := by
  have k := finC_ty.2 d m hd hm
  have hf : Fl idot .compound (k!"x" ++ d :: m) := by
    refine fl_idot (s0 := k!"x") (u := k!"x") (v := []) (t := []) ?_ rfl k noQD_nil (end_off (by decide) hd)
    refine fl_seqRC (c := k!"x") (r := []) ?_ (fl_off rfl rfl (by simp) (by simp))
    intro pos
    obtain ⟨p, h, -⟩ := ident_run (a := .compound) (by simp) (n := .word k!"x") (r := []) ⟨⟨_, [], rfl, rfl, by simp⟩, by intro c t e; simp at e⟩ pos
    exact ⟨_, h⟩
  exact rn_seqC (rn_optN hf) k

end Dbml.Vp
