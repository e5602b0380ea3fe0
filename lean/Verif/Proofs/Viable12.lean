import Verif.Proofs.Viable11

/-!
# Completing a text: tables and top-level declarations
-/

namespace Dbml.Vp
open Syntax Source

variable {R : Rule}

/-! ## Columns -/

theorem viab_table_col : Viab G.table_col (inL ['[', '(', '.']) (joinT k!"x" k!"x") :=
  .rule _ (.seqC ['[', '(', '.'] viab_ident viab_colTail (by decide +kernel))

theorem kw_var {k : Str} {s c r : Str} (hk : ∀ z ∈ k.map asciiLower, G.isAlpha z = true) (hne : k ≠ [])
    (h : Rn (.insens k) .nonAtomic s c r) : IsVar c := by
  obtain ⟨ps, h⟩ := h 0
  obtain ⟨h, -, -⟩ := insens_ok h
  have hl : c.map asciiLower = k.map asciiLower := by
    rw [show asciiLower = lowerC from funext asciiLower_eq]; exact h
  have ha : ∀ y ∈ c, G.isAlpha y = true := by
    intro y hy
    have hw : G.isAlpha (asciiLower y) = true := hk _ (by rw [← hl]; exact List.mem_map_of_mem hy)
    unfold asciiLower at hw
    split at hw
    · rename_i h
      simp [G.isAlpha, h]
    · exact hw
  cases c with
  | nil => simp at hl; exact absurd hl.symm (by simpa using hne)
  | cons x t =>
    refine ⟨x, t, rfl, (isAlpha_iff x).1 (ha x (by simp)), fun y hy => ?_⟩
    rw [← isWordChar_iff]
    simp [G.isWordChar, G.isAlnum, ha y (by simp [hy])]

/-- A key word and a mark that starts no type is no column. -/
theorem fl_col {c g r2 : Str} {d : Char} (hc : IsVar c) (hg : Gap1 g (d :: r2)) (hd : d = ':' ∨ d = '{') :
    Fl G.table_col .nonAtomic (c ++ (g ++ d :: r2)) := by
  have hb : Blank g := hg.blank (by simp)
  have hn : NotW (g ++ d :: r2) := by
    intro x t e
    cases g with
    | nil =>
      injection e with e _
      subst e
      rw [← isWordChar_iff]
      rcases hd with rfl | rfl <;> decide
    | cons y g =>
      injection e with e _
      subst e
      have := blank_head hb _ _ rfl
      intro hw
      have hw := word_sol hw
      rcases this with h | h
      · exact hw.1 h
      · exact hw.2 h
  have h : Rn G.ident .nonAtomic (c ++ (g ++ d :: r2)) c (g ++ d :: r2) := by
    intro pos
    obtain ⟨p, h, -⟩ := ident_run (a := .nonAtomic) (by simp) (n := .word c) (r := g ++ d :: r2) ⟨hc, hn⟩ pos
    exact ⟨_, h⟩
  refine fl_rule (fl_seqG (y := colTail) h hg (fl_off (by decide) rfl (fun _ => hg.solid) ?_))
  intro x t e
  injection e with e _
  subst e
  rcases hd with rfl | rfl <;> decide

theorem head_str {k : Char} {X : PExpr} (nX : X.noSoi = true) {s c r : Str} (h : Rn (.seq (.str [k]) X) .nonAtomic s c r) : ∃ t, s = k :: t := by
  obtain ⟨c1, g, r2, c2, h1, -⟩ := seq_rn rfl nX h
  have := h1.split
  obtain ⟨ps, h1⟩ := h1 0
  obtain ⟨rfl, -, -⟩ := str_ok h1
  exact ⟨_, this⟩

theorem viab_table_item : Viab (.alt G.table_col (.alt G.note_decl G.indexes_decl)) (inL ['[', '(', '.', '\'']) (joinT k!"x" k!"x") := by
  refine .altX viab_table_col (.altC ['\''] viab_note_decl viab_indexes_decl (by decide +kernel)) (subL_sound (by decide)) (subL_sound (by decide)) rfl
    (by decide) ?_
  have kw : ∀ {k : Str} {X : PExpr} {s c r : Str}, X.noSoi = true → (∀ z ∈ k.map asciiLower, G.isAlpha z = true) → k ≠ [] →
      (∀ {s c r : Str}, Rn X .nonAtomic s c r → ∃ d t, s = d :: t ∧ (d = ':' ∨ d = '{')) →
      Rn (.seq (.insens k) X) .nonAtomic s c r → Fl G.table_col .nonAtomic s := by
    intro k X s c r nX hk hne hX h
    obtain ⟨c1, g, r2, c2, h1, hg, h2, -⟩ := seq_rn rfl nX h
    have e := h1.split
    subst e
    obtain ⟨d, t, rfl, hd⟩ := hX h2
    exact fl_col (kw_var hk hne h1) hg hd
  intro s c r m hs h hl hm ho
  rcases alt_rn rfl rfl h with h | ⟨-, h⟩
  · rcases alt_rn rfl rfl (rule_rn rfl h) with h | ⟨-, h⟩
    · refine kw rfl (by decide) (by decide) ?_ (rule_rn rfl h)
      intro s c r h
      obtain ⟨t, h⟩ := head_str rfl h
      exact ⟨_, t, h, .inl rfl⟩
    · refine kw rfl (by decide) (by decide) ?_ (rule_rn rfl h)
      intro s c r h
      obtain ⟨t, h⟩ := head_str rfl h
      exact ⟨_, t, h, .inr rfl⟩
  · refine kw rfl (by decide) (by decide) ?_ (rule_rn rfl h)
    intro s c r h
    obtain ⟨t, h⟩ := head_str rfl (rule_rn (rl := .indexes_block) (m := .normal) rfl h)
    exact ⟨_, t, h, .inr rfl⟩

/-! ## Tables -/

theorem viab_table_block : Viab G.table_block (inL []) (joinT k!"{" (joinT [] k!"}")) :=
  .rule _ (.seqC [] v_lc (.seqC [] (.starC (letters ++ ['"', '[', '(', '.', '\'']) viab_table_item (by decide +kernel)) v_rc (by decide +kernel))
    (by decide +kernel))

theorem viab_table_decl : Viab G.table_decl (inL [])
    (joinT k!"Table " (joinT (joinT k!"x" []) (joinT [] (joinT [] (joinT k!"{" (joinT [] k!"}")))))) :=
  .rule _ (.seqC [] (v_insens rfl (by decide) (by decide)) (.seqC [] viab_decl_ident (.seqC [] (.optC ['a', 'A'] viab_alias (by decide +kernel))
    (.seqC [] (.optC ['['] viab_block_settings (by decide +kernel)) viab_table_block (by decide +kernel)) (by decide +kernel)) (by decide +kernel))
    (by decide +kernel))

/-! ## Top-level declarations -/

theorem fl_table_group {s c r : Str} (h : Rn G.table_group_decl .nonAtomic s c r) : Fl G.table_decl .nonAtomic s := by
  obtain ⟨c1, g, r2, c2, h1, -⟩ := seq_rn rfl rfl (rule_rn rfl h)
  have e := h1.split
  obtain ⟨ps, h1⟩ := h1 0
  obtain ⟨h1, -, -⟩ := insens_ok h1
  refine fl_rule (fl_seqL ?_)
  rcases rn_or_fl (e := .insens k!"Table ") rfl (by decide) .nonAtomic s with ⟨c', r', h'⟩ | h'
  · exfalso
    have e' := h'.split
    obtain ⟨ps, h'⟩ := h' 0
    obtain ⟨h', -, -⟩ := insens_ok h'
    have h1 : c1.map lowerC = k!"tablegroup " := h1
    have h' : c'.map lowerC = k!"table " := h'
    have t1 : (s.map lowerC).take 6 = k!"tableg" := by rw [e, List.map_append, h1]; rfl
    have t2 : (s.map lowerC).take 6 = k!"table " := by rw [e', List.map_append, h']; rfl
    rw [t1] at t2
    revert t2; decide
  · exact h'

theorem viab_rest : Viab (.alt G.enum_decl (.alt G.ref_decl (.alt G.table_group_decl G.note_decl))) (inL ['.', '[', '\''])
    (joinT k!"Enum " (joinT (joinT k!"x" []) (joinT k!"{" (joinT [] k!"}")))) :=
  .altC _ viab_enum_decl (.altC ['.', '[', '\''] viab_ref_decl (.altC ['\''] viab_group_decl viab_note_decl (by decide +kernel)) (by decide +kernel))
    (by decide +kernel)

theorem viab_top_decl : Viab G.top_decl (inL ['.', '[', '\'']) (joinT k!"Project " (joinT k!"x" (joinT k!"{" (joinT [] k!"}")))) := by
  refine .altC _ viab_project_decl (.altX (C := inL ['.', '[', '\'']) viab_table_decl viab_rest (by simp [inL]) (fun _ h => h) rfl (by decide) ?_) (by decide +kernel)
  intro s c r m hs h hl hm ho
  rcases alt_rn rfl rfl h with h | ⟨-, h⟩
  · exact fl_dis viab_enum_decl (by decide) rfl rfl (by decide +kernel) hs.solid h
  · rcases alt_rn rfl rfl h with h | ⟨-, h⟩
    · exact fl_dis viab_ref_decl (by decide) rfl rfl (by decide +kernel) hs.solid h
    · rcases alt_rn rfl rfl h with h | ⟨-, h⟩
      · exact fl_table_group h
      · exact fl_dis viab_note_decl (by decide) rfl rfl (by decide +kernel) hs.solid h

end Dbml.Vp
