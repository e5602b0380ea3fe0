import Verif.Proofs.Viable5

/-!
# Completing a text: the rules up to attributes, references, indexes and enums
-/

namespace Dbml.Vp
open Syntax Source

variable {R : Rule}

def letters : List Char := k!"abcdefghijklmnopqrstuvwxyzABCDEFGHIJKLMNOPQRSTUVWXYZ"

theorem v_str {k : Str} {t : List Char} {c : Char} (hk : k = c :: t) (h1 : c.toNat < 128 ∧ ¬ IsSpace c ∧ c ≠ '/') (h2 : '/' ∉ k) :
    Viab (.str k) (inL []) k := (Viab.str hk h1 h2).sub (by simp)
theorem v_insens {k : Str} {t : List Char} {c : Char} (hk : k = c :: t)
    (h1 : (asciiLower c).toNat < 128 ∧ ¬ IsSpace (asciiLower c) ∧ asciiLower c ≠ '/') (h2 : '/' ∉ k) :
    Viab (.insens k) (inL []) k := (Viab.insens hk h1 h2).sub (by simp)

theorem v_colon : Viab (.str k!":") (inL []) k!":" := v_str rfl (by decide) (by decide)
theorem v_dot : Viab (.str k!".") (inL []) k!"." := v_str rfl (by decide) (by decide)
theorem v_comma : Viab (.str k!",") (inL []) k!"," := v_str rfl (by decide) (by decide)
theorem v_lb : Viab (.str k!"[") (inL []) k!"[" := v_str rfl (by decide) (by decide)
theorem v_rb : Viab (.str k!"]") (inL []) k!"]" := v_str rfl (by decide) (by decide)
theorem v_lp : Viab (.str k!"(") (inL []) k!"(" := v_str rfl (by decide) (by decide)
theorem v_rp : Viab (.str k!")") (inL []) k!")" := v_str rfl (by decide) (by decide)
theorem v_lc : Viab (.str k!"{") (inL []) k!"{" := v_str rfl (by decide) (by decide)
theorem v_rc : Viab (.str k!"}") (inL []) k!"}" := v_str rfl (by decide) (by decide)

/-! ## Values of attributes and properties -/

theorem fl_value_x {a : Atomicity} {m : Str} : Fl G.value a ('x' :: m) :=
  fl_off (by decide) rfl (fun _ => solid_cons (by decide) (by decide)) (by
    intro c t e; injection e with e _; subst e; decide)

theorem rn_x {m : Str} : Rn G.spaced_var .nonAtomic (k!"x" ++ '\n' :: m) k!"x" ('\n' :: m) :=
  fun pos => ⟨_, spaced_var_run (a := .nonAtomic) (by simp) (s := k!"x") (r := '\n' :: m) ⟨_, [], rfl, rfl, .nil⟩
    ⟨next_nl m, by intro c t e; simp at e⟩ pos⟩

theorem fst_vs : ∀ c, (PExpr.alt G.value G.spaced_var).starts (some c) = true → Fst c := fst_alt fst_value fst_spaced

theorem viab_vs : Viab (.alt G.value G.spaced_var) (inL ['\'']) k!"x" := by
  refine .tok (by decide) rfl rfl fst_vs rfl keepT_vs not_space_q (by decide) (by decide) (by intro c t e; cases e; decide) ?_
  intro m
  exact rn_altR fl_value_x rn_x

theorem run_alt_assoc (x y z : PExpr) (a pos s) :
    run G.skip (.alt x (.alt y z)) a pos s = run G.skip (.alt (.alt x y) z) a pos s := by
  simp only [run]
  cases run G.skip x a pos s <;> rfl

theorem rn_alt_assoc {x y z a s c r} : Rn (.alt x (.alt y z)) a s c r ↔ Rn (.alt (.alt x y) z) a s c r := by
  unfold Rn
  simp only [run_alt_assoc]

def vsd : PExpr := .alt G.value (.alt G.spaced_var G.double_quoted_string)

theorem fst_vsd : ∀ c, vsd.starts (some c) = true → Fst c := fst_alt fst_value (fst_alt fst_spaced fst_dq)

theorem keepT_vsd : KeepT (inL ['\'']) vsd := by
  intro a s c r h1 h2 h3 w h4 h5
  unfold vsd at h3 ⊢
  rw [rn_alt_assoc] at h3 ⊢
  refine KeepT.alt keepT_vs (keepT_dq.sub (by simp)) rfl rfl (by decide) (by decide) rfl rfl (fun c h => (fst_dq c h).2) ?_ a s c r h1 h2 h3 w h4 h5
  exact dis_sound (fun c h => (fst_dq c h).1) (by decide +kernel)

theorem viab_vsd : Viab vsd (inL ['\'']) k!"x" := by
  refine .tok (by decide) rfl rfl fst_vsd rfl keepT_vsd not_space_q (by decide) (by decide) (by intro c t e; cases e; decide) ?_
  intro m
  exact rn_altR fl_value_x (rn_altL rn_x)

theorem viab_property : Viab G.property (inL ['\'']) (joinT k!"x" (joinT k!":" k!"x")) :=
  .rule _ (.seqC ['\''] viab_spaced (.seqC ['\''] v_colon viab_vs (by decide +kernel)) (by decide +kernel))

theorem viab_attr : Viab G.attr (inL [':', '\'']) (joinT k!"x" []) :=
  .rule _ (.seqC [':', '\''] viab_spaced (.optC [':', '\''] (.seqC ['\''] v_colon viab_vsd (by decide +kernel)) (by decide +kernel)) (by decide +kernel))

theorem viab_bracketed {item : PExpr} (L : List Char) {t : Str} (g : Viab item (inL L) t)
    (h : okSeq (.str k!",") item [] L L k!"," t = true)
    (h2 : (noS (.seq (.str k!",") item) L && onlyS (.seq (.str k!",") item) (',' :: L) && subL L (',' :: L)) = true)
    (h3 : okSeq item (.star (.seq (.str k!",") item)) L (',' :: L) (',' :: L) t [] = true)
    (h4 : (onlyS (.seq item (.star (.seq (.str k!",") item))) (letters ++ ',' :: L) && subL (',' :: L) (letters ++ ',' :: L)) = true)
    (h5 : okSeq (.opt (.seq item (.star (.seq (.str k!",") item)))) (.str k!"]") (letters ++ ',' :: L) [] [] [] k!"]" = true)
    (h6 : okSeq (.str k!"[") (.seq (.opt (.seq item (.star (.seq (.str k!",") item)))) (.str k!"]")) [] [] [] k!"[" k!"]" = true) :
    Viab (G.bracketed item) (inL []) (joinT k!"[" k!"]") := by
  have g1 := Viab.seqC L v_comma g h
  have g2 := Viab.starC (',' :: L) g1 (by
    simp only [Bool.and_eq_true] at h2 ⊢
    exact ⟨⟨⟨⟨by simp [PExpr.nonNull], h2.1.1⟩, h2.1.2⟩, h2.2⟩, rfl⟩)
  exact .seqC [] v_lb (.seqC [] (.optC _ (.seqC _ g g2 h3) h4) v_rb h5) h6

theorem viab_settings : Viab (G.bracketed G.attr) (inL []) (joinT k!"[" k!"]") :=
  viab_bracketed [':', '\''] viab_attr (by decide +kernel) (by decide +kernel) (by decide +kernel) (by decide +kernel)
    (by decide +kernel) (by decide +kernel)

theorem viab_block_settings : Viab G.block_settings (inL []) (joinT k!"[" k!"]") := .rule _ viab_settings
theorem viab_rel_settings : Viab G.rel_settings (inL []) (joinT k!"[" k!"]") := .rule _ viab_settings
theorem viab_indexes_settings : Viab G.indexes_settings (inL []) (joinT k!"[" k!"]") := .rule _ viab_settings
theorem viab_enum_settings : Viab G.enum_settings (inL []) (joinT k!"[" k!"]") := .rule _ viab_settings

theorem viab_decl_ident : Viab G.decl_ident (inL ['.']) (joinT k!"x" []) :=
  .rule _ (.seqC ['.'] viab_ident (.optC ['.'] (.seqC [] v_dot viab_ident (by decide +kernel)) (by decide +kernel)) (by decide +kernel))

/-! ## References -/

theorem viab_composition : Viab G.ref_composition (inL []) k!"x" :=
  .rule _ (.altC [] viab_ident (.seqC [] v_lp (.seqC [] viab_ident (.seqC []
    (.starC [','] (.seqC [] v_comma viab_ident (by decide +kernel)) (by decide +kernel)) v_rp (by decide +kernel))
    (by decide +kernel)) (by decide +kernel)) (by decide +kernel))

/-- If `y` follows `p`, then `x`, which excludes `y`, does not. -/
theorem fl_seqG {x y s c g r2} (h : Rn x .nonAtomic s c (g ++ r2)) (hg : Gap1 g r2) (hf : Fl y .nonAtomic r2) :
    Fl (.seq x y) .nonAtomic s := by
  intro pos
  obtain ⟨p1, e1⟩ := h pos
  simp only [run, e1, seqRes, skipIf, (skip_of_solid hg.solid).2 hg, hf _]

theorem fl_follow {p x y : PExpr} (hp : p.noSoi = true) (hy : y.noSoi = true) {s c r}
    (h : Rn (.seq p y) .nonAtomic s c r) (hx : ∀ r2 c2, Solid r2 → Rn y .nonAtomic r2 c2 r → Fl x .nonAtomic r2) :
    Fl (.seq p x) .nonAtomic s := by
  obtain ⟨c1, g, r2, c2, ra, hg, rb, -⟩ := seq_rn hp hy h
  exact fl_seqG ra hg (hx r2 c2 hg.solid rb)

theorem leads_solid {r m : Str} (h : Leads r m) (hr : Solid r) (hm : Sol m) : r = m := by
  obtain ⟨g, h1, h2⟩ := h.skip hm
  rw [skip_solid hr] at h1
  injection h1

theorem viab_ref_ident : Viab G.ref_ident (inL ['.']) (joinT k!"x" (joinT k!"." k!"x")) := by
  refine .rule _ (.seqC ['.'] viab_ident (.seqC ['.'] v_dot (.optSeq (A := inL []) (B := inL []) (C := inL ['.'])
    (.seqC [] (.seqC [] viab_ident v_dot (by decide +kernel)) viab_composition (by decide +kernel)) viab_composition (by simp [inL]) (by simp [inL]) rfl (by decide) ?_)
    (by decide +kernel)) (by decide +kernel))
  intro s c r m hs h hl hm ho
  rcases alt_rn rfl rfl (rule_rn rfl h) with h | ⟨-, h⟩
  · refine fl_seqR h hl hm (fl_off (by decide) rfl (fun _ => hm.solid) ?_)
    intro c t e
    have := ho c t e
    simp only [inL, List.contains_cons, List.contains_nil, Bool.or_false] at this
    rw [beq_eq_false_iff_ne] at this
    simpa [PExpr.starts] using this
  · obtain ⟨x, t, rfl, hx⟩ := rn_head (by decide) (fun _ => hs.solid) h (h.ne rfl)
    refine fl_seqL (fl_off (by decide) rfl (fun _ => hs.solid) ?_)
    intro d u e
    have := h.split
    rw [e] at this
    injection this with h1 _
    subst h1
    have : d = '(' := by simpa [PExpr.starts, PExpr.nonNull] using hx
    subst this
    decide

theorem viab_ref_inline : Viab G.ref_inline (inL ['.']) (joinT k!"ref" (joinT k!":" (joinT k!">" (joinT k!"x" (joinT k!"." k!"x"))))) :=
  .rule _ (.seqC ['.'] (v_str rfl (by decide) (by decide)) (.seqC ['.'] v_colon (.seqC ['.'] viab_relation viab_ref_ident (by decide +kernel))
    (by decide +kernel)) (by decide +kernel))

theorem viab_ref_stmt : Viab G.ref_stmt (inL ['.', '['])
    (joinT (joinT k!"x" (joinT k!"." k!"x")) (joinT k!">" (joinT (joinT k!"x" (joinT k!"." k!"x")) []))) :=
  .rule _ (.seqC ['.', '['] viab_ref_ident (.seqC ['.', '['] viab_relation (.seqC ['.', '['] viab_ref_ident
    (.optC ['['] viab_rel_settings (by decide +kernel)) (by decide +kernel)) (by decide +kernel)) (by decide +kernel))

def stmtT : Str := joinT (joinT k!"x" (joinT k!"." k!"x")) (joinT k!">" (joinT (joinT k!"x" (joinT k!"." k!"x")) []))

theorem v_ref : Viab (.insens k!"Ref") (inL []) k!"Ref" := v_insens rfl (by decide) (by decide)
theorem v_optIdent : Viab (.opt G.ident) (inL ('"' :: letters)) [] := .optC _ viab_ident (by decide +kernel)

theorem viab_ref_short : Viab G.ref_short (inL ['.', '[']) (joinT k!"Ref" (joinT [] (joinT k!":" stmtT))) :=
  .rule _ (.seqC ['.', '['] v_ref (.seqC ['.', '['] v_optIdent (.seqC ['.', '['] v_colon viab_ref_stmt (by decide +kernel))
    (by decide +kernel)) (by decide +kernel))

theorem viab_ref_block : Viab G.ref_block (inL []) (joinT k!"Ref" (joinT [] (joinT k!"{" (joinT stmtT k!"}")))) :=
  .rule _ (.seqC [] v_ref (.seqC [] v_optIdent (.seqC [] v_lc (.seqC [] viab_ref_stmt v_rc (by decide +kernel)) (by decide +kernel))
    (by decide +kernel)) (by decide +kernel))

/-- What one expression accepts, another with different first characters does not. -/
theorem fl_dis {e f : PExpr} {B t} (gf : Viab f B t) (we : e.wf = true) (ne : e.nonNull = true) (nf : f.nonNull = true)
    (hd : dis e f = true) {s c r} (hs : Solid s) (h : Rn f .nonAtomic s c r) : Fl e .nonAtomic s := by
  obtain ⟨x, t, rfl, hx⟩ := rn_head gf.wf (fun _ => hs) h (h.ne nf)
  refine fl_off we ne (fun _ => hs) ?_
  intro d u e
  rw [h.split] at e
  injection e with e _
  subst e
  exact dis_sound gf.asc hd x hx

theorem viab_ref_decl : Viab G.ref_decl (inL ['.', '[']) (joinT k!"Ref" (joinT [] (joinT k!"{" (joinT stmtT k!"}")))) := by
  refine .rule _ (.altX viab_ref_block viab_ref_short (by simp [inL]) (fun _ h => h) rfl (by decide) ?_)
  intro s c r m hs h hl hm ho
  refine fl_rule (fl_follow rfl rfl (rule_rn rfl h) fun r2 c2 h2 h => fl_follow rfl rfl h fun r3 c3 h3 h => ?_)
  exact fl_dis (.seqC ['.', '['] v_colon viab_ref_stmt (by decide +kernel)) (by decide) rfl rfl (by decide +kernel) h3 h

/-! ## Notes -/

theorem v_note : Viab (.insens k!"Note") (inL []) k!"Note" := v_insens rfl (by decide) (by decide)

theorem viab_note_short : Viab G.note_short (inL ['\'']) (joinT k!"Note" (joinT k!":" k!"''")) :=
  .rule _ (.seqC ['\''] v_note (.seqC ['\''] v_colon viab_string (by decide +kernel)) (by decide +kernel))
theorem viab_note_block : Viab G.note_block (inL []) (joinT k!"Note" (joinT k!"{" (joinT k!"''" k!"}"))) :=
  .rule _ (.seqC [] v_note (.seqC [] v_lc (.seqC [] viab_string v_rc (by decide +kernel)) (by decide +kernel)) (by decide +kernel))

theorem viab_note_decl : Viab G.note_decl (inL ['\'']) (joinT k!"Note" (joinT k!":" k!"''")) := by
  refine .rule _ (.altX viab_note_short viab_note_block (fun _ h => h) (by simp [inL]) rfl (by decide) ?_)
  intro s c r m hs h hl hm ho
  refine fl_rule (fl_follow rfl rfl (rule_rn rfl h) fun r2 c2 h2 h => ?_)
  exact fl_dis (.seqC [] v_lc (.seqC [] viab_string v_rc (by decide +kernel)) (by decide +kernel)) (by decide) rfl rfl (by decide +kernel) h2 h

/-! ## Indexes -/

theorem viab_indexes_ident : Viab G.indexes_ident (inL []) k!"x" := .rule _ (.altC [] viab_ident viab_bq (by decide +kernel))

theorem viab_indexes_multi : Viab G.indexes_multi (inL ['[']) (joinT k!"(" (joinT [] (joinT k!")" []))) :=
  .rule _ (.seqC ['['] v_lp (.seqC ['['] (.optC (letters ++ ['"', '`', ',']) (.seqC [','] viab_indexes_ident
    (.starC [','] (.seqC [] v_comma viab_indexes_ident (by decide +kernel)) (by decide +kernel)) (by decide +kernel)) (by decide +kernel))
    (.seqC ['['] v_rp (.optC ['['] viab_indexes_settings (by decide +kernel)) (by decide +kernel)) (by decide +kernel)) (by decide +kernel))

theorem viab_indexes_single : Viab G.indexes_single (inL ['[']) (joinT k!"x" []) :=
  .rule _ (.seqC ['['] viab_indexes_ident (.optC ['['] viab_indexes_settings (by decide +kernel)) (by decide +kernel))

theorem viab_indexes_block : Viab G.indexes_block (inL []) (joinT k!"{" (joinT [] k!"}")) :=
  .rule _ (.seqC [] v_lc (.seqC [] (.starC (letters ++ ['"', '`', '(', '[']) (.altC ['['] viab_indexes_single viab_indexes_multi
    (by decide +kernel)) (by decide +kernel)) v_rc (by decide +kernel)) (by decide +kernel))

theorem viab_indexes_decl : Viab G.indexes_decl (inL []) (joinT k!"Indexes" (joinT k!"{" (joinT [] k!"}"))) :=
  .rule _ (.seqC [] (v_insens rfl (by decide) (by decide)) viab_indexes_block (by decide +kernel))

/-! ## Enums -/

theorem viab_enum_value : Viab G.enum_value (inL ['[']) (joinT k!"x" []) :=
  .rule _ (.seqC ['['] viab_ident (.optC ['['] viab_enum_settings (by decide +kernel)) (by decide +kernel))
theorem viab_enum_block : Viab G.enum_block (inL []) (joinT k!"{" (joinT [] k!"}")) :=
  .rule _ (.seqC [] v_lc (.seqC [] (.starC (letters ++ ['"', '[']) viab_enum_value (by decide +kernel)) v_rc (by decide +kernel)) (by decide +kernel))
theorem viab_enum_decl : Viab G.enum_decl (inL []) (joinT k!"Enum " (joinT (joinT k!"x" []) (joinT k!"{" (joinT [] k!"}")))) :=
  .rule _ (.seqC [] (v_insens rfl (by decide) (by decide)) (.seqC [] viab_decl_ident viab_enum_block (by decide +kernel)) (by decide +kernel))

end Dbml.Vp
