import Verif.Proofs.Viable6

/-!
# Completing a text: attributes of columns, groups, projects
-/

namespace Dbml.Vp
open Syntax Source

variable {R : Rule}

theorem spacedTail_words {s : Str} (h : ∀ x ∈ s, IsWord x) : SpacedTail s := by
  induction s with
  | nil => exact .nil
  | cons c t ih => exact .word (h c (by simp)) (ih fun x hx => h x (by simp [hx]))

theorem isVar_spaced {s : Str} (h : IsVar s) : IsSpacedVar s := by
  obtain ⟨c, cs, rfl, h1, h2⟩ := h
  exact ⟨c, cs, rfl, h1, spacedTail_words h2⟩

theorem space_not_word : ¬ IsWord ' ' := by rw [← isWordChar_iff]; decide

theorem spacedTail_drop {k rest : Str} (hk : ∀ x ∈ k, IsWord x) (h : SpacedTail (k ++ rest)) : SpacedTail rest := by
  induction k with
  | nil => exact h
  | cons c k ih =>
    generalize e : c :: k ++ rest = s at h
    cases h with
    | nil => simp at e
    | word h1 h2 =>
      injection e with e1 e2
      subst e2
      exact ih (fun x hx => hk x (by simp [hx])) h2
    | blank h1 h2 =>
      injection e with e1 e2
      subst e1
      exact absurd (hk ' ' (by simp)) space_not_word

theorem word_sol {c : Char} (h : IsWord c) : ¬ IsSpace c ∧ c ≠ '/' := by
  rw [← isWordChar_iff] at h
  constructor
  · rintro (rfl | rfl | rfl | rfl) <;> revert h <;> decide
  · rintro rfl; revert h; decide

/-- A key word at the start of a name, followed by something that does not begin with a word character. -/
theorem fl_kw {K x : PExpr} (nK : K.noSoi = true) (wK : K.wf = true) (wx : x.wf = true) (nx : x.nonNull = true)
    (hx : ∀ c, IsWord c → x.starts (some c) = false)
    (hK : ∀ s c r, Rn K .nonAtomic s c r → c ≠ [] ∧ ∀ y ∈ c, IsWord y)
    {c1 g r2 : Str} (h1 : IsSpacedVar c1) (h2 : NotW (g ++ r2)) (hg : Gap1 g r2)
    (h3 : Rn K .nonAtomic (c1 ++ (g ++ r2)) c1 (g ++ r2) → Fl x .nonAtomic r2) :
    Fl (.seq K x) .nonAtomic (c1 ++ (g ++ r2)) := by
  rcases rn_or_fl nK wK .nonAtomic (c1 ++ (g ++ r2)) with ⟨k, r, h⟩ | h
  · obtain ⟨k1, k2⟩ := hK _ _ _ h
    obtain ⟨rest, rfl⟩ := word_prefix k2 h2 ⟨r, h.split.symm⟩
    have hr : r = rest ++ (g ++ r2) := by
      have := h.split
      rw [List.append_assoc] at this
      exact (List.append_cancel_left this).symm
    subst hr
    have ht : SpacedTail rest := by
      obtain ⟨c, cs, e, h3, h4⟩ := h1
      obtain ⟨y, ys, rfl⟩ := List.exists_cons_of_ne_nil k1
      injection e with e1 e2
      subst e2
      exact spacedTail_drop (fun x hx => k2 x (by simp [hx])) h4
    have go : ∀ c t, IsWord c → Leads (rest ++ (g ++ r2)) (c :: t) → Fl (.seq K x) .nonAtomic (k ++ rest ++ (g ++ r2)) := by
      intro c t hc hl
      have hs : Sol (c :: t) := sol_cons (word_sol hc)
      refine fl_seqR h hl hs (fl_off wx nx (fun _ => hs.solid) ?_)
      intro d u e
      injection e with e _
      exact e ▸ hx c hc
    cases ht with
    | nil =>
      simp only [List.append_nil, List.nil_append] at h h3 ⊢
      exact fl_seqG h hg (h3 h)
    | @word c t hc _ => exact go c _ hc .refl
    | @blank c t hc _ => exact go c _ hc (Leads.refl.cons (by decide))
  · exact fl_seqL h

theorem not_word_str {d c : Char} {t : Str} {X : PExpr} (hd : G.isWordChar d = false) (h : IsWord c) :
    (PExpr.seq (.str (d :: t)) X).starts (some c) = false := by
  rw [← isWordChar_iff] at h
  simp [PExpr.starts, PExpr.nonNull]
  rintro rfl
  rw [hd] at h
  contradiction

theorem kw_note : ∀ s c r, Rn (.insens k!"Note") .nonAtomic s c r → c ≠ [] ∧ ∀ y ∈ c, IsWord y := by
  intro s c r h
  obtain ⟨ps, h⟩ := h 0
  obtain ⟨h, -, -⟩ := insens_ok h
  have hl : c.map asciiLower = k!"note" := by
    rw [show asciiLower = lowerC from funext asciiLower_eq]; exact h
  constructor
  · rintro rfl; simp at hl
  · intro y hy
    have : asciiLower y ∈ k!"note" := by rw [← hl]; exact List.mem_map_of_mem hy
    rw [← isWordChar_iff]
    have hw : G.isWordChar (asciiLower y) = true := by
      revert this; generalize asciiLower y = z; revert z; decide
    unfold asciiLower at hw
    split at hw
    · rename_i h
      simp [G.isWordChar, G.isAlnum, G.isAlpha, h]
    · exact hw

theorem kw_ref : ∀ s c r, Rn (.str k!"ref") .nonAtomic s c r → c ≠ [] ∧ ∀ y ∈ c, IsWord y := by
  intro s c r h
  obtain ⟨ps, h⟩ := h 0
  obtain ⟨rfl, -, -⟩ := str_ok h
  simp only [← isWordChar_iff]
  decide

/-! ## Attributes of columns -/

theorem viab_col_attribute : Viab G.col_attribute (inL [':', '\'', '.'])
    (joinT k!"ref" (joinT k!":" (joinT k!">" (joinT k!"x" (joinT k!"." k!"x"))))) := by
  refine .rule _ (.altX viab_ref_inline viab_attr (subL_sound (by decide)) (subL_sound (by decide)) rfl (by decide) ?_)
  intro s c r m hs h hl hm ho
  obtain ⟨c1, g, r2, c2, h1, hg, h2, -⟩ := seq_rn rfl rfl (rule_rn rfl h)
  have hsp := h1.split
  subst hsp
  obtain ⟨ps, h1'⟩ := h1 0
  obtain ⟨n1, n2, -⟩ := spaced_ok (by simp [bodyAtomicity]) h1'
  refine fl_rule (fl_kw rfl rfl (by decide) rfl (fun _ => not_word_str rfl) kw_ref n1 n2.1 hg fun _ => ?_)
  rcases opt_rn rfl h2 with ⟨-, rfl, rfl⟩ | h2
  · have := leads_solid hl hg.solid hm
    subst this
    refine fl_off (by decide) rfl (fun _ => hm.solid) ?_
    intro c t e
    have := ho c t e
    simp [inL] at this
    simp [PExpr.starts, PExpr.nonNull, this]
  · refine fl_follow rfl rfl h2 fun r3 c3 h3 h => ?_
    exact fl_dis viab_vsd (by decide) rfl rfl (by decide +kernel) h3 h

theorem viab_col_settings : Viab G.col_settings (inL []) (joinT k!"[" k!"]") :=
  .rule _ (viab_bracketed [':', '\'', '.'] viab_col_attribute (by decide +kernel) (by decide +kernel) (by decide +kernel) (by decide +kernel)
    (by decide +kernel) (by decide +kernel))

/-! ## Groups -/

theorem viab_group_item : Viab (.alt G.note_decl G.decl_ident) (inL ['\'', '.', ':', '{']) (joinT k!"Note" (joinT k!":" k!"''")) := by
  refine .altX viab_note_decl viab_decl_ident (subL_sound (by decide)) (subL_sound (by decide)) rfl (by decide) ?_
  intro s c r m hs h hl hm ho
  obtain ⟨c1, g, r2, c2, h1, hg, h2, -⟩ := seq_rn rfl rfl (rule_rn rfl h)
  have hh : ∀ {X : PExpr} {d : Char}, d = ':' ∨ d = '{' → X.wf = true → Fl (.seq (.str [d]) X) .nonAtomic r2 := by
    intro X d hd hX
    refine fl_off (by simp [PExpr.wf, hX]) (by simp [PExpr.nonNull]) (fun _ => hg.solid) ?_
    intro x t e
    have hx : x ≠ d := by
      rcases opt_rn rfl h2 with ⟨-, rfl, rfl⟩ | h2
      · have := leads_solid hl hg.solid hm
        subst this
        have := ho x t e
        simp [inL] at this
        rcases hd with rfl | rfl <;> simp [this]
      · obtain ⟨y, ys, rfl, hy⟩ := rn_head (by decide) (fun _ => hg.solid) h2 (h2.ne rfl)
        have := h2.split
        rw [e] at this
        injection this with e1 _
        subst e1
        have : x = '.' := by simpa [PExpr.starts, PExpr.nonNull] using hy
        subst this
        rcases hd with rfl | rfl <;> decide
    simpa [PExpr.starts, PExpr.nonNull] using hx
  have hsp := h1.split
  subst hsp
  obtain ⟨ps, h1'⟩ := h1 0
  obtain ⟨n, n1, rfl, -⟩ := ident_ok (by simp [bodyAtomicity]) h1'
  cases n with
  | word s =>
    have n2 : IsVar s ∧ Next.word (g ++ r2) := n1
    refine fl_rule (fl_alt (fl_rule ?_) (fl_rule ?_))
    · exact fl_kw rfl rfl (by decide) rfl (fun _ => not_word_str rfl) kw_note (isVar_spaced n2.1) n2.2 hg fun _ => hh (.inl rfl) (by decide)
    · exact fl_kw rfl rfl (by decide) rfl (fun _ => not_word_str rfl) kw_note (isVar_spaced n2.1) n2.2 hg fun _ => hh (.inr rfl) (by decide)
  | quoted x =>
    refine fl_off (by decide) rfl (fun _ => hs.solid) ?_
    intro c t e
    injection e with e _
    subst e
    decide

theorem viab_group_block : Viab G.table_group_block (inL []) (joinT k!"{" (joinT [] k!"}")) :=
  .rule _ (.seqC [] v_lc (.seqC [] (.starC (letters ++ ['"', '\'', '.', ':', '{']) viab_group_item (by decide +kernel)) v_rc (by decide +kernel))
    (by decide +kernel))

theorem viab_group_decl : Viab G.table_group_decl (inL []) (joinT k!"TableGroup " (joinT k!"x" (joinT [] (joinT k!"{" (joinT [] k!"}"))))) :=
  .rule _ (.seqC [] (v_insens rfl (by decide) (by decide)) (.seqC [] viab_ident (.seqC [] (.optC ['['] viab_block_settings (by decide +kernel))
    viab_group_block (by decide +kernel)) (by decide +kernel)) (by decide +kernel))

theorem viab_alias : Viab G.table_alias (inL []) (joinT k!"as " k!"x") :=
  .rule _ (.seqC [] (v_insens rfl (by decide) (by decide)) viab_ident (by decide +kernel))

/-! ## Projects -/

theorem fl_note_prop {c1 g g' x : Str} (h1 : IsSpacedVar c1) (hg : Gap1 g (':' :: (g' ++ x))) (h2 : NotW (g ++ ':' :: (g' ++ x)))
    (hg' : Gap1 g' x)
    (hx : Rn (.insens k!"Note") .nonAtomic (c1 ++ (g ++ ':' :: (g' ++ x))) c1 (g ++ ':' :: (g' ++ x)) → Fl G.string_value .nonAtomic x) :
    Fl G.note_decl .nonAtomic (c1 ++ (g ++ ':' :: (g' ++ x))) := by
  refine fl_rule (fl_alt (fl_rule ?_) (fl_rule ?_))
  · refine fl_kw rfl rfl (by decide) rfl (fun _ => not_word_str rfl) kw_note h1 h2 hg fun h => ?_
    exact fl_seqG (rn_str (k := k!":")) hg' (hx h)
  · refine fl_kw rfl rfl (by decide) rfl (fun _ => not_word_str rfl) kw_note h1 h2 hg fun h => ?_
    refine fl_off (by decide) rfl (fun _ => hg.solid) ?_
    intro c t e
    injection e with e _
    subst e
    decide

theorem fl_string {s : Str} (hs : Solid s) (h : ∀ t, s ≠ '\'' :: t) : Fl G.string_value .nonAtomic s := by
  refine fl_off (by decide) rfl (fun _ => hs) ?_
  intro c t e
  have : c ≠ '\'' := by rintro rfl; exact h t e
  simpa [G.string_value, G.triple_quoted_string, G.single_quoted_string, PExpr.starts, PExpr.nonNull] using this

theorem prop_inv {s c r} (h : Rn G.property .nonAtomic s c r) : ∃ c1 g g' r4 c4, Rn G.spaced_var .nonAtomic s c1 (g ++ ':' :: (g' ++ r4)) ∧
    Gap1 g (':' :: (g' ++ r4)) ∧ Gap1 g' r4 ∧ Rn (.alt G.value G.spaced_var) .nonAtomic r4 c4 r ∧ c = c1 ++ (g ++ ':' :: (g' ++ c4)) := by
  obtain ⟨c1, g, r2, c2, h1, hg, h2, rfl⟩ := seq_rn rfl rfl (rule_rn rfl h)
  obtain ⟨c3, g', r4, c4, h3, hg', h4, rfl⟩ := seq_rn rfl rfl h2
  have e := h3.split
  obtain ⟨ps, h3⟩ := h3 0
  obtain ⟨rfl, -, -⟩ := str_ok h3
  subst e
  exact ⟨c1, g, g', r4, c4, h1, hg, hg', h4, rfl⟩

theorem notW_head {g x x' : Str} {d : Char} (h : NotW (g ++ d :: x)) : NotW (g ++ d :: x') := by
  intro c t e
  cases g with
  | nil => injection e with e _; exact h c x (by rw [e]; rfl)
  | cons y g => injection e with e _; exact h c (g ++ d :: x) (by rw [e]; rfl)

theorem gap_sol {g x : Str} (hg : Blank g) (hx : Sol x) : Gap1 g x := (skip_of_solid hx.solid).1 (skip_blank hg hx.solid)

def subL' (L M : List Rule) : Bool := L.all M.contains

theorem viab_project_item : Viab (.alt G.note_decl G.property) (inL ['\'']) (joinT k!"Note" (joinT k!":" k!"''")) := by
  refine .altG viab_note_decl viab_property (fun _ h => h) (fun _ h => h) ?_ ?_ (fin_altL viab_note_decl.fin (by decide) rfl)
  · intro s c r hs hf hr hc w m hcut hl hm ho
    obtain ⟨c1, g, g', r4, c4, h1, hg, hg', h4, rfl⟩ := prop_inv hr
    have hsp := h1.split
    subst hsp
    obtain ⟨ps, h1'⟩ := h1 0
    obtain ⟨n1, n2, -⟩ := spaced_ok (by simp) h1'
    obtain ⟨x, t, rfl, hx⟩ := rn_head (by decide) (fun _ => hg'.solid) h4 (h4.ne rfl)
    have e4 := h4.split
    have hb : Blank g := hg.blank (by simp)
    have hb' : Blank g' := hg'.blank (by rw [e4]; simp)
    have e : c1 ++ (g ++ ':' :: (g' ++ x :: t)) ++ w = c1 ++ (g ++ ':' :: (g' ++ (x :: t ++ w))) := by simp
    rw [e]
    refine fl_note_prop n1 (gap_sol hb (sol_cons (by decide))) (notW_head n2.1) (gap_sol hb' (sol_cons (fst_vs x hx).2)) ?_
    intro hk
    refine fl_string (sol_cons (fst_vs x hx).2).solid ?_
    intro t' e'
    injection e' with e' _
    subst e'
    have hv : Rn G.string_value .nonAtomic r4 ('\'' :: t) r := by
      have off : ∀ {e : PExpr}, e.wf = true → e.nonNull = true → e.starts (some '\'') = false → Fl e .nonAtomic r4 := by
        intro e h1 h2 h3
        refine fl_off h1 h2 (fun _ => hg'.solid) ?_
        intro c u e
        rw [e4] at e
        injection e with e _
        exact e ▸ h3
      rcases alt_rn rfl rfl h4 with h | ⟨-, h⟩
      · rcases alt_rn rfl rfl (rule_rn rfl h) with h | ⟨-, h⟩
        · exact h
        · exact absurd (off (by decide) rfl (by decide)) h.not_fl
      · exact absurd (off (by decide) rfl (by decide)) h.not_fl
    have hk' : Rn (.insens k!"Note") .nonAtomic (c1 ++ (g ++ ':' :: (g' ++ r4))) c1 (g ++ ':' :: (g' ++ r4)) := by
      obtain ⟨ps, hk⟩ := hk 0
      exact rn_insens (insens_ok hk).1
    have hsol : Sol r4 := by rw [e4]; exact sol_cons (fst_vs _ hx).2
    obtain ⟨c5, h5⟩ := rn_seq (rn_str (k := k!":") (r := g' ++ r4)) (Leads.app hb' .refl) hsol hv
    obtain ⟨c6, h6⟩ := rn_seq hk' (Leads.app hb .refl) (sol_cons (by decide)) h5
    exact (rn_rule (rl := .note_decl) (m := .normal) (a := .nonAtomic) (rn_altL (y := G.note_block)
      (rn_rule (rl := .note_short) (m := .normal) h6))).not_fl hf
  · intro R s u v hs hf ht e hu
    cases ht with
    | ruleAt => exact absurd (by have := congrArg List.length e; simp at this; exact this) hu
    | ruleIn ht =>
      cases ht with
      | seqL ht =>
        have := atS_tried ht rfl
        subst this
        exact absurd (by have := congrArg List.length e; simp at this; exact this) hu
      | @seqR _ _ _ _ c1 r1 g r2 q _ h1 hsk ht =>
        cases ht with
        | seqL ht => cases ht
        | @seqR _ _ _ _ c3 r3 g' r4 q' _ h3 hsk' ht =>
          have := atS_tried ht rfl
          subst this
          obtain ⟨rfl, hg'⟩ := gap_of_skip hsk'
          have e3 := h3.split
          have h3' := h3
          obtain ⟨p3, h3⟩ := h3 0
          obtain ⟨rfl, -, -⟩ := str_ok h3
          subst e3
          obtain ⟨rfl, hg⟩ := gap_of_skip hsk
          have e1 := h1.split
          subst e1
          have eu : u = c1 ++ (g ++ ':' :: g') := by
            apply List.append_cancel_right (bs := v)
            rw [← e]; simp
          subst eu
          obtain ⟨ps, h1'⟩ := h1 0
          obtain ⟨n1, n2, -⟩ := spaced_ok (by simp [bodyAtomicity]) h1'
          have hb : Blank g := hg.blank (by simp)
          by_cases hkq : Keyword k!"Note" c1 ∧ Tried R G.string_value .nonAtomic v v
          · exact .inl (.ruleIn (.altL (.ruleIn (.seqR (rn_insens hkq.1) hsk (.seqR h3' hsk' hkq.2)))))
          refine .inr ?_
          have hR : R ∈ firsts (.alt G.value G.spaced_var) := ht.first (by decide) rfl
          obtain ⟨t, ⟨x, xs, exs, hx⟩, hts, hv⟩ := fit_of viab_vs (by decide +kernel) R hR
          refine ⟨'\n' :: (Spec.sample R ++ t), ⟨t, .inr rfl⟩, by simp only [List.mem_cons, not_or]; exact ⟨by decide, hts⟩, fun m hm ho => ⟨wd_nl, ?_⟩⟩
          obtain ⟨c7, r7, hval, hvl⟩ := hv m hm ho
          have hsx : Sol (Spec.sample R ++ t ++ '\n' :: m) := by rw [exs]; exact sol_cons (fst_vs _ hx).2
          have hs1 : '/' ∉ Spec.sample R ++ t ++ '\n' :: m := by
            rw [List.mem_append]; rintro (h | h)
            · exact hts h
            · simp only [List.mem_cons] at h
              rcases h with h | h
              · exact absurd h (by decide)
              · exact hm.1 h
          have hq : Keyword k!"Note" c1 → ∀ t', Spec.sample R ++ t ++ '\n' :: m ≠ '\'' :: t' := by
            intro hk t' eq
            have key : ∀ R' : Rule, Spec.sample R' ++ t ++ '\n' :: m = '\'' :: t' →
                R' ∉ [Rule.value, .backquoted_quoted_string, .boolean_value, .number_value, .decimal, .integer, .hex_value, .spaced_var] := by
              intro R' h hmem
              simp only [List.mem_cons, List.not_mem_nil, or_false] at hmem
              rcases hmem with rfl | rfl | rfl | rfl | rfl | rfl | rfl | rfl <;> simp [Spec.sample] at h
            refine key R eq ?_
            have fin : ∀ {f : PExpr}, Tried R f .nonAtomic v v → f.wf = true → subL' (firsts f)
                [Rule.value, .backquoted_quoted_string, .boolean_value, .number_value, .decimal, .integer, .hex_value, .spaced_var] = true →
                R ∈ [Rule.value, .backquoted_quoted_string, .boolean_value, .number_value, .decimal, .integer, .hex_value, .spaced_var] := by
              intro f hf hw hsub
              exact List.contains_iff_mem.1 (List.all_eq_true.1 hsub R (hf.first hw rfl))
            cases ht with
            | altL ht =>
              cases ht with
              | ruleAt => simp
              | ruleIn ht =>
                cases ht with
                | altL ht => exact absurd ⟨hk, ht⟩ hkq
                | altR _ ht => exact fin ht (by decide) (by decide)
            | altR _ ht => exact fin ht (by decide) (by decide)
          have hcut : Cut v ('\n' :: (Spec.sample R ++ t ++ '\n' :: m)) :=
            ⟨[], v, _, rfl, rfl, by simp only [List.mem_cons, not_or]; exact ⟨by decide, hs1⟩, wd_nl⟩
          have hgl : Leads (g' ++ '\n' :: (Spec.sample R ++ t ++ '\n' :: m)) (Spec.sample R ++ t ++ '\n' :: m) := gap_leads hg' hcut leads_nl hsx
          obtain ⟨g2, eg2, hg2⟩ := hgl
          have et : c1 ++ (g ++ ':' :: g') ++ ('\n' :: (Spec.sample R ++ t) ++ '\n' :: m) = c1 ++ (g ++ ':' :: (g2 ++ (Spec.sample R ++ t ++ '\n' :: m))) := by
            rw [← eg2]; simp only [List.append_assoc, List.cons_append]
          have hcut2 := (hcut.app g').app k!":" |>.app g
          rw [et]
          constructor
          · refine fl_note_prop n1 (gap_sol hb (sol_cons (by decide))) (notW_head n2.1) (gap_sol hg2 hsx) (fun h => fl_string hsx.solid (hq ?_))
            obtain ⟨ps, h⟩ := h 0
            exact (insens_ok h).1
          · have k1 := keepT_spaced .nonAtomic _ _ _ (by simp) (fun _ => hs) h1 _ hcut2.weak (fun _ _ _ => rfl)
            rw [eg2] at k1
            obtain ⟨c5, h5⟩ := rn_seq (rn_str (k := k!":") (r := g2 ++ (Spec.sample R ++ t ++ '\n' :: m))) (Leads.app hg2 .refl) hsx hval
            obtain ⟨c6, h6⟩ := rn_seq k1 (Leads.app hb .refl) (sol_cons (by decide)) h5
            exact ⟨_, _, rn_rule (m := .normal) h6, hvl⟩

theorem viab_project_block : Viab G.project_block (inL []) (joinT k!"{" (joinT [] k!"}")) :=
  .rule _ (.seqC [] v_lc (.seqC [] (.starC (letters ++ ['\'']) viab_project_item (by decide +kernel)) v_rc (by decide +kernel))
    (by decide +kernel))

theorem viab_project_decl : Viab G.project_decl (inL []) (joinT k!"Project " (joinT k!"x" (joinT k!"{" (joinT [] k!"}")))) :=
  .rule _ (.seqC [] (v_insens rfl (by decide) (by decide)) (.seqC [] viab_ident viab_project_block (by decide +kernel)) (by decide +kernel))

end Dbml.Vp
