import Verif.Proofs.Viable10

/-!
# Completing a text: columns
-/

namespace Dbml.Vp
open Syntax Source

variable {R : Rule}

/-- An array suffix does not begin with `[` and something else than a digit or `]`. -/
theorem noArr_br {d : Char} {z : Str} (h1 : G.isDigit d = false) (h2 : d ≠ ']') : NoArr ('[' :: d :: z) := by
  refine fl_rule (fl_seqRC (rn_str (k := k!"[") (r := d :: z)) (fl_off (by decide) rfl (by simp [bodyAtomicity]) ?_))
  intro c t e
  injection e with e _
  subst e
  simp [PExpr.starts, G.integer, G.ASCII_DIGIT, PExpr.nonNull, h1, h2]

theorem arr_br {z : Str} : ¬ NoArr ('[' :: ']' :: z) := by
  have h : Rn (.opt G.integer) .compound (']' :: z) [] (']' :: z) := rn_optN (fl_off (by decide) rfl (by simp) (by
    intro c t e; injection e with e _; subst e; decide))
  exact (rn_rule (rl := .col_type_array) (m := .normal) (a := .compound)
    (rn_seqC (rn_str (k := k!"[") (r := ']' :: z)) (rn_seqC h (rn_str (k := k!"]") (r := z))))).not_fl

theorem L3 : ∀ c, inL ['[', '(', '.'] c = true → ¬ IsSpace c ∧ c ≠ '/' := by
  intro c h
  simp [inL] at h
  rcases h with rfl | rfl | rfl <;> decide

/-- What follows a type, if settings follow. -/
theorem off_set {g x : Str} (hg : Blank g) : Off (inL ['.', '(']) (g ++ '[' :: x) :=
  off_leads (A := inL ['.', '(']) (m := '[' :: x) (fun c h => L3 c (subL_sound (by decide) c h)) ⟨g, rfl, hg⟩ (by
    intro c t e; injection e with e _; subst e; decide)

theorem noArr_gap {d : Char} {g x : Str} (hg : Blank (d :: g)) : NoArr (d :: g ++ x) := by
  apply noArr_of
  intro c t e
  injection e with e _
  subst e
  rcases blank_head hg _ _ rfl with h | h
  · rcases h with rfl | rfl | rfl | rfl <;> decide
  · subst h; decide

def setBody : PExpr := .seq (.opt (.seq G.col_attribute (.star (.seq (.str k!",") G.col_attribute)))) (.str k!"]")

theorem fst_col_attribute : ∀ c, G.col_attribute.starts (some c) = true → Fst c := fun c h =>
  ⟨viab_col_attribute.asc c h, (viab_col_attribute.sp c h).1, (viab_col_attribute.sp c h).2⟩

theorem asc_setBody : ∀ c, setBody.starts (some c) = true → c.toNat < 128 := by
  intro c h
  have h : G.col_attribute.starts (some c) = true ∨ (PExpr.str k!"]").starts (some c) = true := by
    simpa [setBody, PExpr.starts, show G.col_attribute.nonNull = true from rfl, show (PExpr.str k!"]").starts = (PExpr.str k!"]").starts from rfl,
      PExpr.nonNull] using h
  rcases h with h | h
  · exact viab_col_attribute.asc c h
  · exact (fst_lit rfl (by decide) c h).1

theorem set_second {d : Char} (h : setBody.starts (some d) = true) : G.isDigit d = false :=
  dis_sound (e := G.ASCII_DIGIT) asc_setBody (by decide +kernel) d h

theorem digit_not_blank {d : Char} (h : G.isDigit d = true) : ¬ IsSpace d ∧ d ≠ '/' := (fst_digit h).2

theorem gap_head {d : Char} {g r : Str} (h : Gap1 (d :: g) r) : IsSpace d ∨ d = '/' := by
  rcases h.blankEnd with h | ⟨w, body, e, hw, -⟩
  · exact blank_head h _ _ rfl
  · cases w with
    | nil => injection e with e _; exact .inr e
    | cons x w =>
      injection e with e _
      subst e
      exact blank_head hw _ _ rfl

/-- Settings after a type do not look like an array. -/
theorem noArr_set {s c r w : Str} (h : Rn G.col_settings .nonAtomic s c r) (hn : NoArr s) : NoArr (c ++ w) := by
  obtain ⟨c1, g, r2, c2, h1, hg, h2, rfl⟩ := seq_rn (x := .str k!"[") (y := setBody) rfl rfl (rule_rn rfl h)
  have hsp := h1.split
  obtain ⟨ps, h1⟩ := h1 0
  obtain ⟨rfl, -, -⟩ := str_ok h1
  subst hsp
  obtain ⟨x, t, rfl, hx⟩ := rn_head (by decide) (fun _ => hg.solid) h2 (h2.ne rfl)
  have e2 := h2.split
  subst e2
  cases g with
  | nil =>
    have : x ≠ ']' := by
      rintro rfl
      exact arr_br hn
    exact noArr_br (set_second hx) this
  | cons d g =>
    have hb := blank_head (hg.blank (by simp)) _ _ rfl
    have hd : G.isDigit d = false := by
      cases h : G.isDigit d with
      | false => rfl
      | true => exact absurd hb (by have := digit_not_blank h; simp [this])
    refine noArr_br hd ?_
    rintro rfl
    revert hb; decide

theorem noArr_tried {v u3 w : Str} {d : Char} (ht : Tried R G.col_settings .nonAtomic ('[' :: d :: u3 ++ v) v)
    (hn : NoArr ('[' :: d :: u3 ++ v)) : NoArr ('[' :: d :: w) := by
  have hd2 : d ≠ ']' := by
    rintro rfl
    exact arr_br hn
  refine noArr_br ?_ hd2
  generalize e : '[' :: d :: u3 ++ v = s at ht hn
  cases ht with
  | ruleAt => exact absurd (congrArg List.length e) (by simp; omega)
  | ruleIn ht =>
    cases ht with
    | seqL ht => cases ht
    | @seqR _ _ _ _ c1 r1 g r2 q _ h1 hsk ht =>
      obtain ⟨rfl, hg⟩ := gap_of_skip hsk
      have hsp := h1.split
      obtain ⟨ps, h1⟩ := h1 0
      obtain ⟨rfl, -, -⟩ := str_ok h1
      subst hsp
      injection e with _ e
      cases g with
      | nil =>
        obtain ⟨x, t, ex, hx⟩ := tried_head (e := setBody) (u := d :: u3) (by decide) hg.solid ht e.symm (by simp)
        injection ex with ex _
        exact set_second (ex ▸ hx)
      | cons d' g =>
        injection e with e1 e2
        subst e1
        have hb := gap_head hg
        cases h : G.isDigit d with
        | false => rfl
        | true => exact absurd hb (by have := digit_not_blank h; simp [this])

theorem noArr_first {v w z : Str} (ht : Tried R G.col_settings .nonAtomic ('[' :: v) v) (hz : Sm R z) : NoArr ('[' :: (z ++ w)) := by
  have hR : R ∈ firsts setBody := by
    generalize e : '[' :: v = s at ht
    cases ht with
    | ruleAt => exact absurd (congrArg List.length e) (by simp)
    | ruleIn ht =>
      cases ht with
      | seqL ht => cases ht
      | @seqR _ _ _ _ c1 r1 g r2 q _ h1 hsk ht =>
        obtain ⟨rfl, hg⟩ := gap_of_skip hsk
        have hsp := h1.split
        obtain ⟨ps, h1⟩ := h1 0
        obtain ⟨rfl, -, -⟩ := str_ok h1
        subst hsp
        injection e with _ e
        obtain ⟨u', rfl⟩ := ht.suffix
        refine ht.first (by decide) ?_
        have e' : v.length = (g ++ (u' ++ v)).length := congrArg List.length e
        simp only [List.length_append] at e' ⊢
        omega
  have key : ((firsts setBody).all fun R => match Spec.sample R with | [] => false | c :: _ => !G.isDigit c && c != ']') = true := by decide
  have := List.all_eq_true.1 key R hR
  obtain ⟨t, rfl | rfl⟩ := hz
  · split at this
    · contradiction
    · rename_i c cs e
      simp only [Bool.and_eq_true, Bool.not_eq_true', bne_iff_ne] at this
      rw [e]
      exact noArr_br this.1 this.2
  · exact noArr_br (by decide) (by decide)

theorem wd_of {y z : Str} (hy : y ≠ []) (h : Wd' y z) : Wd y z := by
  rcases h with ⟨d, m, h1, h2⟩ | h
  · exact .inl ⟨d, m, h1, h2, fun h => absurd h hy⟩
  · exact .inr h

/-! ## A type and settings -/

def colTail : PExpr := .seq G.col_type (.opt G.col_settings)

theorem set_off {m : Str} (hm : Sol m) (ho : Off (inL ['[', '(', '.']) m) : Rn (.opt G.col_settings) .nonAtomic m [] m := by
  refine rn_optN (fl_off (by decide) rfl (fun _ => hm.solid) ?_)
  intro c t e
  have := ho c t e
  have : c ≠ '[' := by rintro rfl; revert this; decide
  simpa [G.col_settings, G.bracketed, PExpr.starts, PExpr.nonNull] using this

theorem set_head {s c r : Str} (hs : Solid s) (h : Rn G.col_settings .nonAtomic s c r) : ∃ t, c = '[' :: t := by
  obtain ⟨x, t, rfl, hx⟩ := rn_head (by decide) (fun _ => hs) h (h.ne rfl)
  have : x = '[' := by simpa [G.col_settings, G.bracketed, PExpr.starts, PExpr.nonNull] using hx
  exact ⟨t, by rw [this]⟩

theorem fst_colTail : ∀ c, colTail.starts (some c) = true → Fst c := by
  intro c h
  have h : G.ident.starts (some c) = true ∨ ty.starts (some c) = true := by
    have : (colBody.starts (some c)) = true := by
      simpa [colTail, PExpr.starts, show G.col_type.nonNull = true from rfl, show G.col_type.starts = colBody.starts from rfl] using h
    simpa [colBody, idot, PExpr.starts, PExpr.nonNull, show G.ident.nonNull = true from rfl] using this
  rcases h with h | h
  · exact fst_ident c h
  · refine fst_alt (a := G.col_type_quoted) ?_ ?_ c h
    · exact fst_seq (a := .str k!"\"") rfl (fst_lit rfl (by decide))
    · exact fst_seq (a := G.var) rfl fst_var

theorem viab_colTail : Viab colTail (inL ['[', '(', '.']) k!"x" := by
  have D : ∀ {g r2 w m : Str}, Gap1 g r2 → Cut r2 w → Leads w m → Sol m → Off (inL ['[', '(', '.']) m →
      Leads (g ++ w) m ∧ Off (inL ['.', '(']) (g ++ w) ∧ NoArr (g ++ w) := by
    intro g r2 w m hg hcut hl hm ho
    have hl' := gap_leads hg hcut hl hm
    have := off_leads L3 hl' ho
    exact ⟨hl', this.sub (subL_sound (by decide)), noArr_of (this.sub (subL_sound (by decide)))⟩
  refine ⟨by decide, rfl, fun c h => (fst_colTail c h).1, fun c h => (fst_colTail c h).2, ?_, ?_, by decide, .inl ⟨by decide, ?_, rfl, ?_⟩⟩
  · intro s c r hs hr hc w m hcut hl hm ho
    obtain ⟨c1, g, r2, c2, ra, hg, rb, rfl⟩ := seq_rn rfl rfl hr
    rcases opt_rn rfl rb with ⟨-, rfl, rfl⟩ | rb
    · obtain ⟨hl', h1, h2⟩ := D hg hcut hl hm ho
      have k := rn_col (a := .nonAtomic) (keepC_colBody _ _ _ (col_rn ra) (g ++ w) (hcut.app g).weak ⟨h1, h2⟩)
      obtain ⟨c', h⟩ := rn_seq k hl' hm (set_off hm ho)
      exact ⟨c', m, by simpa [colTail] using h, .refl⟩
    · have hn := col_noArr (col_rn ra)
      obtain ⟨t, rfl⟩ := set_head hg.solid rb
      have e2 := rb.split
      have hb : Blank g := hg.blank (by rw [e2]; simp)
      have hn' : NoArr (g ++ ('[' :: t ++ w)) := by
        cases g with
        | nil => simp only [List.nil_append] at hn ⊢; exact noArr_set rb hn
        | cons d g => exact noArr_gap hb
      have k := rn_col (a := .nonAtomic) (keepC_colBody _ _ _ (col_rn ra) (g ++ ('[' :: t ++ w)) (by
        rw [e2]; exact ((hcut.app _).app _).weak) ⟨off_set hb, hn'⟩)
      obtain ⟨c', r', h, hl'⟩ := viab_col_settings.keep _ _ _ hg.solid rb (by simp) w m hcut hl hm off_nil
      obtain ⟨c'', h⟩ := rn_seq k (Leads.app hb .refl) (sol_cons (by decide)) (rn_optS h)
      exact ⟨c'', r', by simpa [colTail] using h, hl'⟩
  · intro R s u v hs ht e hu
    cases ht with
    | seqL ht =>
      cases ht with
      | ruleAt => exact absurd (by have := congrArg List.length e; simp at this; exact this) hu
      | ruleIn ht =>
        obtain ⟨t, ⟨t', h0⟩, h1, h3⟩ := viaC_colBody s u v ht e hu
        refine ⟨t, ⟨t', .inl h0⟩, h1.1, fun m hm ho => ?_⟩
        obtain ⟨hW, k⟩ := h3 '\n' m (by decide) hm.1
        refine ⟨wd_of hu hW, ?_⟩
        · obtain ⟨c', h⟩ := rn_seq (rn_col (a := .nonAtomic) k) leads_nl hm.2 (set_off hm.2 ho)
          exact ⟨c', m, h, .refl⟩
    | @seqR _ _ _ _ c r g r2 q _ ra hsk ht =>
      cases ht with | opt ht =>
      obtain ⟨rfl, hg⟩ := gap_of_skip hsk
      have e1 := ra.split
      obtain ⟨u2, e2⟩ := ht.suffix
      have eu : u = c ++ (g ++ u2) := by
        apply List.append_cancel_right (bs := v)
        rw [← e, e1, e2]; simp
      have hn := col_noArr (col_rn ra)
      by_cases hu2 : u2 = []
      · subst hu2
        simp only [List.append_nil] at eu
        subst eu
        simp only [List.nil_append] at e2
        obtain ⟨t, ⟨x, xs, exs, hx⟩, hts, hv⟩ := fit_of viab_col_settings (by decide +kernel) R (ht.first (by decide) (by rw [e2]))
        have : x = '[' := by simpa [G.col_settings, G.bracketed, PExpr.starts, PExpr.nonNull] using hx
        subst this
        refine ⟨'\n' :: (Spec.sample R ++ t), ⟨t, .inr rfl⟩, by simp only [List.mem_cons, not_or]; exact ⟨by decide, hts⟩, fun m hm ho => ⟨wd_nl, ?_⟩⟩
        obtain ⟨c', r', h3, h4⟩ := hv m hm off_nil
        have hs1 : '/' ∉ Spec.sample R ++ t ++ '\n' :: m := by
          rw [List.mem_append]; rintro (h | h)
          · exact hts h
          · simp only [List.mem_cons] at h
            rcases h with h | h
            · exact absurd h (by decide)
            · exact hm.1 h
        have hcut : Cut r2 ('\n' :: (Spec.sample R ++ t ++ '\n' :: m)) :=
          ⟨[], r2, _, rfl, rfl, by simp only [List.mem_cons, not_or]; exact ⟨by decide, hs1⟩, wd_nl⟩
        have hsol : Sol (Spec.sample R ++ t ++ '\n' :: m) := by rw [exs]; exact sol_cons (by decide)
        have hl := gap_leads hg hcut leads_nl hsol
        obtain ⟨g2, eg2, hg2⟩ := hl
        have h2 : NoArr (g ++ '\n' :: (Spec.sample R ++ t ++ '\n' :: m)) := by
          rw [eg2]
          cases g2 with
          | nil =>
            have := congrArg List.length eg2
            simp at this
            omega
          | cons d g2 => exact noArr_gap hg2
        have h1 : Off (inL ['.', '(']) (g ++ '\n' :: (Spec.sample R ++ t ++ '\n' :: m)) := by
          rw [eg2, exs]; exact off_set hg2
        have k := rn_col (a := .nonAtomic) (keepC_colBody _ _ _ (col_rn ra) _ (hcut.app g).weak ⟨h1, h2⟩)
        obtain ⟨c'', h⟩ := rn_seq k ⟨g2, eg2, hg2⟩ hsol (rn_optS h3)
        exact ⟨c'', r', by simpa [colTail] using h, h4⟩
      · obtain ⟨x, u3, rfl, hx⟩ := tried_head (by decide) hg.solid ht e2 hu2
        have : x = '[' := by simpa [G.col_settings, G.bracketed, PExpr.starts, PExpr.nonNull] using hx
        subst this
        have hb : Blank g := hg.blank (by rw [e2]; simp)
        have fin : ∀ t, Sm R t → '/' ∉ t → (∀ m, Tl m → Off (inL []) m → Wd ('[' :: u3) (t ++ '\n' :: m) ∧ NoArr (g ++ ('[' :: u3 ++ (t ++ '\n' :: m))) ∧
            ∃ c r, Rn G.col_settings .nonAtomic ('[' :: u3 ++ (t ++ '\n' :: m)) c r ∧ Leads r m) →
            ∃ t, Sm R t ∧ '/' ∉ t ∧ ∀ m, Tl m → Off (inL ['[', '(', '.']) m → Wd u (t ++ '\n' :: m) ∧
              ∃ c r, Rn colTail .nonAtomic (u ++ (t ++ '\n' :: m)) c r ∧ Leads r m := by
          intro t hsm ht' hk
          refine ⟨t, hsm, ht', fun m hm ho => ?_⟩
          obtain ⟨h1, h2, c', r', h3, h4⟩ := hk m hm off_nil
          have hw := (h1.mono g).mono c
          subst eu
          refine ⟨hw, ?_⟩
          have hcut : Cut (g ++ r2) (g ++ ('[' :: u3 ++ (t ++ '\n' :: m))) := by
            rw [e2]
            refine Cut.app g ⟨'[' :: u3, v, t ++ '\n' :: m, rfl, rfl, ?_, h1⟩
            simp [ht', hm.1]
          have k := rn_col (a := .nonAtomic) (keepC_colBody _ _ _ (col_rn ra) _ hcut.weak ⟨off_set hb, h2⟩)
          obtain ⟨c'', h⟩ := rn_seq k (Leads.app hb .refl) (sol_cons (by decide)) (rn_optS h3)
          exact ⟨c'', r', by simpa [colTail] using h, h4⟩
        cases u3 with
        | nil =>
          obtain ⟨t, h0, h1, h2⟩ := viab_col_settings.via _ _ _ hg.solid ht e2 (by simp)
          refine fin t h0 h1 fun m hm ho => ?_
          obtain ⟨hW, h⟩ := h2 m hm ho
          refine ⟨hW, ?_, h⟩
          cases g with
          | nil =>
            rw [e2] at ht
            simpa using noArr_first (w := '\n' :: m) ht h0
          | cons d g => exact noArr_gap hb
        | cons d u3 =>
          obtain ⟨t, h0, h1, h2⟩ := viab_col_settings.via _ _ _ hg.solid ht e2 (by simp)
          refine fin t h0 h1 fun m hm ho => ?_
          obtain ⟨hW, h⟩ := h2 m hm ho
          refine ⟨hW, ?_, h⟩
          cases g with
          | nil =>
            simp only [List.nil_append] at hn
            rw [e2] at hn ht
            exact noArr_tried ht hn
          | cons d' g => exact noArr_gap hb
  · exact sol_cons (by decide)
  · intro m hm ho
    obtain ⟨c', h⟩ := rn_seq (rn_col (a := .nonAtomic) (rn_x_col (d := '\n') (by decide) hm.1)) leads_nl hm.2 (set_off hm.2 ho)
    exact ⟨c', m, h, .refl⟩

end Dbml.Vp
