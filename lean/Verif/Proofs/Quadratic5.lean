import Verif.Proofs.Quadratic4

/-!
# Amortised bounds on the number of steps: the declarations of the grammar
-/

namespace Dbml
namespace Gn
open Syntax Source

/-! ## Inline refs -/

/-- `ref : <relation` -/
def RefColon (i : Str) : Prop := ∃ r1 c2 r2, i = ':' :: r1 ∧ skG.Then .nonAtomic r1 c2 r2 ∧ Starts ['<', '>', '-'] r2
def RefInl (i : Str) : Prop := ∃ r1 c2 r2, i = k!"ref" ++ r1 ∧ skG.Then .nonAtomic r1 c2 r2 ∧ RefColon r2

theorem relation_starts {pos i k r ps} (h : skG.run G.relation .nonAtomic pos i = .ok k r ps) : Starts ['<', '>', '-'] i := by
  rw [skG_run] at h
  simp only [G.relation, run, bodyAtomicity] at h
  split at h <;> try contradiction
  rename_i h1
  cases i with
  | nil => simp [stripPrefix] at h1
  | cons x xs =>
    refine ⟨x, ?_, rfl⟩
    by_contra hx
    simp only [List.mem_cons, List.not_mem_nil, or_false, not_or] at hx
    simp [stripPrefix, Ne.symm hx.1, Ne.symm hx.2.1, Ne.symm hx.2.2] at h1

theorem str_eq {t : Str} {pos i k r ps} (h : skG.run (.str t) .nonAtomic pos i = .ok k r ps) : i = t ++ r := by
  rw [skG_run] at h
  simp only [run] at h
  split at h <;> try contradiction
  rename_i h1
  injection h with e1 e2 e3
  rw [stripPrefix_some h1, e2]

def refInlineB : Blk none' RefInl G.ref_inline :=
  Gn.rule (m := .normal) (seqCh (T := RefColon) .str (seqCh (T := Starts ['<', '>', '-']) .str (seqCh (T := all') relationCh refIdentB okk
    (fun _ _ _ _ _ _ _ h _ _ => relation_starts h)) okk
    (fun _ _ _ _ _ _ _ h h2 h3 => ⟨_, _, _, str_eq h, h2, h3⟩)) okk
    (fun _ _ _ _ _ _ _ h h2 h3 => ⟨_, _, _, str_eq h, h2, h3⟩))

instance {c : Char} : Decidable (IsWord c) := by unfold IsWord; infer_instance

/-- An attribute `ref` before `: <relation`: what follows begins with the colon. -/
theorem attr_after_ref {i} (h : RefInl i) (pos) : ∃ k r ps, skG.run G.attr .nonAtomic pos i = .ok k r ps ∧ After [':'] r := by
  obtain ⟨r1, c2, r2, rfl, h3, r3, c4, r4, rfl, h4, h5⟩ := h
  simp only [skG_run]
  have hsk : G.skip r1 = .ok c2 (':' :: r3) [] := by rw [← skG_skip]; exact h3.2.1 rfl
  have hcont : NoCont r1 := by
    obtain ⟨e, hg⟩ := skip_exact _ _ _ _ hsk
    have hb := hg.blank (by simp)
    rw [e]
    constructor
    · intro c t e'
      cases hb with
      | nil => simp at e'; rw [← e'.1]; decide
      | space hc _ => simp at e'; rw [← e'.1]; rcases hc with rfl | rfl | rfl | rfl <;> decide
      | line _ _ _ => simp at e'; rw [← e'.1]; decide
      | block _ _ => simp at e'; rw [← e'.1]; decide
    · intro c t e'
      have key : ∀ w, Blank w → ∀ c t, w ++ (':' :: r3) = c :: t → ¬ IsWord c := by
        intro w hw c t e'
        cases hw with
        | nil => simp at e'; rw [← e'.1]; decide
        | space hc _ => simp at e'; rw [← e'.1]; rcases hc with rfl | rfl | rfl | rfl <;> decide
        | line _ _ _ => simp at e'; rw [← e'.1]; decide
        | block _ _ => simp at e'; rw [← e'.1]; decide
      cases hb with
      | nil => simp at e'
      | space hc hw => simp at e'; exact key _ hw _ _ e'.2
      | line _ _ _ => simp at e'
      | block _ _ => simp at e'
  have hsv := spaced_var_run (a := .nonAtomic) (s := k!"ref") (by decide) ⟨'r', k!"ef", rfl, by decide, .word (by decide) (.word (by decide) .nil)⟩ hcont pos
  have hval : ∀ p, run G.skip (.alt G.value (.alt G.spaced_var G.double_quoted_string)) .nonAtomic p r4 = .fail := by
    intro p
    rw [← skG_run]
    exact fail_at (C := ['<', '>', '-']) (by decide) (by decide) (by decide) h5 (fun _ => then_solid h4)
  have hopt : ∀ p, run G.skip (.opt (.seq (.str k!":") (.alt G.value (.alt G.spaced_var G.double_quoted_string)))) .nonAtomic p (':' :: r3) =
      .ok [] (':' :: r3) [] := by
    intro p
    refine opt_none ?_
    have hs : G.skip r3 = .ok c4 r4 [] := by rw [← skG_skip]; exact h4.2.1 rfl
    have : run G.skip (.str k!":") .nonAtomic p (':' :: r3) = .ok k!":" r3 [] := str_run (s := k!":")
    simp only [run, seqRes, skipIf] at this hval ⊢
    rw [this]
    simp only [hs]
    rw [hval]
  have hrun : ∃ ps', run G.skip G.attr .nonAtomic pos (k!"ref" ++ r1) = .ok (k!"ref" ++ c2 ++ []) (':' :: r3) ps' := by
    refine ⟨_, rule_run (m := .normal) (ps := [.mk .spaced_var ⟨pos, pos + blen k!"ref"⟩ k!"ref" []] ++ []) ?_⟩
    have := hopt (pos + blen k!"ref" + blen c2)
    simp only [bodyAtomicity]
    rw [run, hsv]
    simp only [seqRes, skipIf, hsk, this]
  obtain ⟨ps', hrun⟩ := hrun
  exact ⟨_, _, _, hrun, Starts.after (by decide) ⟨':', by simp, rfl⟩⟩

/-- A predicate that excludes failure need not be charged to. -/
def dropT {s α β φ ε S T e a} (h : Gn s α β φ ε S T e a) (hT : ∀ pos i, T i → s.run e a pos i ≠ .fail) {T'} : Gn s α β φ ε S T' e a :=
  ⟨h.1, fun N pos inp hN => ⟨(h.2 N pos inp hN).1, fun hr => by
    rcases (h.2 N pos inp hN).2 hr with h3 | ⟨h3, -⟩
    · exact .inl h3
    · exact absurd hr (hT _ _ h3)⟩⟩

def colAttributeB : Blk (After [':']) none' G.col_attribute :=
  Gn.rule (m := .normal) (dropT (T := RefInl) (Gn.alt (S1 := none') (T1 := RefInl) (S2 := none') (T2 := none') refInlineB attrT.blk
    (fun _ h => h.elim) (fun _ h => h.elim) (fun _ h => h) (fun _ h => h.elim)
    (fun pos i k r ps h _ h2 => by
      obtain ⟨k', r', ps', h3, h4⟩ := attr_after_ref h pos
      have := h3.symm.trans h2
      injection this with _ e _
      exact e ▸ h4))
    (fun pos i h hf => by
      obtain ⟨k', r', ps', h3, -⟩ := attr_after_ref h pos
      obtain ⟨-, hf, -⟩ := alt_fail skG hf
      exact absurd (h3.symm.trans hf) (by simp)))
def colSettingsB : Blk none' (Starts ['[']) G.col_settings :=
  Gn.rule (m := .normal) (bracketedB (C := [':']) colAttributeB (by decide) (by decide) (by decide) (by decide) (by decide))
def tableColB {T'} : Blk (After ['[']) T' G.table_col :=
  Gn.rule (m := .normal) (tokThen' identT (tokThen' colTypeT (Gn.opt colSettingsB (fun _ h => h.elim) (fun _ h => h.after (by decide)))))
def indexesDeclB : Blk none' (Starts ['i', 'I']) G.indexes_decl :=
  Gn.rule (m := .normal) (seqCh (T := Starts ['{']) .insens indexesBlockB okk (fun _ _ _ _ _ _ _ h _ _ => insens_starts h))
def tableBlockB : Blk none' (Starts ['{']) G.table_block :=
  Gn.rule (m := .normal) (bracedB (C := ['[']) (D := ['i', 'I'])
    (Gn.alt (S1 := After ['[']) (T1 := none') (S2 := none') (T2 := Starts ['i', 'I']) tableColB
      (Gn.alt (S1 := none') (T1 := none') (S2 := none') (T2 := Starts ['i', 'I']) noteDeclT.blk indexesDeclB (fun _ h => h) (fun _ h => h) (fun _ h => h.elim))
      (fun _ h => h) (fun _ h => h.elim) (fun _ h => h.elim))
    (by decide) (by decide) (by decide) (by decide) (by decide))

/-! ## Declarations -/

/-- The text begins with the keyword. -/
def Key (k : Str) (i : Str) : Prop := (stripPrefixCI k i).isSome = true

theorem insens_key {k : Str} {pos i c r ps} (h : skG.run (.insens k) .nonAtomic pos i = .ok c r ps) : Key k i := by
  rw [skG_run] at h
  simp only [run] at h
  split at h <;> try contradiction
  rename_i h1
  simp [Key, h1]

/-- Optional settings before a block. -/
def settingsThen {r y} (hy : Blk none' (Starts ['{']) y) (hw : y.wf = true) (hn : y.nonNull = true) (hs : y.starts (some '[') = false) :
    Blk none' all' (.seq (.opt (.rule r .normal (G.bracketed G.attr))) y) :=
  seqCommit (S1 := After ['[']) (T1 := none') (S2 := none') (T2 := Starts ['{']) optSettingsB hy okk
    (fun r1 c2 r2 pos c3 r p3 h h2 h3 => by
      rw [h.fail h2 hw hn (by simp [hs])] at h3; simp at h3)
    (fun _ h => h) (fun _ h => h.elim) (fun _ _ _ _ _ _ => trivial)

def projectB : Blk none' (Starts ['p', 'P']) G.project_decl :=
  Gn.rule (m := .normal) (seqCh (T := all') .insens (tokThen identT projectBlockB) okk (fun _ _ _ _ _ _ _ h _ _ => insens_starts h))
def tableB : Blk none' (Key k!"Table ") G.table_decl :=
  Gn.rule (m := .normal) (seqCh (T := all') .insens (tokThen declIdentT (tokThen (.opt tableAliasT)
    (settingsThen tableBlockB (by decide) (by decide) (by decide)))) okk (fun _ _ _ _ _ _ _ h _ _ => insens_key h))
def enumB : Blk none' (Starts ['e', 'E']) G.enum_decl :=
  Gn.rule (m := .normal) (seqCh (T := all') .insens (tokThen declIdentT enumBlockB) okk (fun _ _ _ _ _ _ _ h _ _ => insens_starts h))
def groupB : Blk none' (Starts ['t', 'T']) G.table_group_decl :=
  Gn.rule (m := .normal) (seqCh (T := all') .insens (tokThen identT (settingsThen groupBlockB (by decide) (by decide) (by decide))) okk
    (fun _ _ _ _ _ _ _ h _ _ => insens_starts h))

/-- An optional name and `{`. -/
def NameBrace (i : Str) : Prop := ∃ pos c1 r1 p1 c2 r2, skG.run (.opt G.ident) .nonAtomic pos i = .ok c1 r1 p1 ∧
  skG.Then .nonAtomic r1 c2 r2 ∧ Starts ['{'] r2
/-- `Ref`, an optional name and `{`. -/
def RefBrace (i : Str) : Prop := ∃ pos c1 r1 p1 c2 r2, skG.run (.insens k!"Ref") .nonAtomic pos i = .ok c1 r1 p1 ∧
  skG.Then .nonAtomic r1 c2 r2 ∧ NameBrace r2

def refBlockB : Blk none' RefBrace G.ref_block :=
  Gn.rule (m := .normal) (seqCh (T := NameBrace) .insens (seqTok (αx := one) (T := Starts ['{']) (TokB.opt identT)
    (seqCh (T := all') .str (seqCommit (S1 := After ['[']) (T1 := all') (S2 := none') (T2 := none') (T := all') refStmtB (Ch.gn .str) okk
      (fun r1 c2 r2 pos c3 r p3 h h2 h3 => absurd ((str_fail (c := '}') (t := []) (by decide) h h2).symm.trans h3) (by simp))
      (fun _ h => h) (fun _ h => h) (fun _ _ _ _ _ _ => trivial)) okk
      (fun _ _ _ _ _ _ _ h _ _ => str_starts h)) okk
    (fun _ _ _ _ _ _ _ h h2 h3 => ⟨_, _, _, _, _, _, h, h2, h3⟩)) okk
    (fun _ _ _ _ _ _ _ h h2 h3 => ⟨_, _, _, _, _, _, h, h2, h3⟩))
def refShortB : Blk (After ['[']) (Starts ['r', 'R']) G.ref_short :=
  Gn.rule (m := .normal) (seqCh (T := all') .insens (tokThen (.opt identT) (tokThen (.ch .str) refStmtB)) okk
    (fun _ _ _ _ _ _ _ h _ _ => insens_starts h))

/-- The result of an optional name does not depend on where it is. -/
theorem name_pos {pos pos' i c r ps} (h : skG.run (.opt G.ident) .nonAtomic pos i = .ok c r ps) :
    ∃ ps', skG.run (.opt G.ident) .nonAtomic pos' i = .ok c r ps' := by
  simp only [skG_run] at h ⊢
  have h0 := fun p => run_sh gskip_sound p (.opt G.ident) (by decide) .nonAtomic 0 i (.inr (by decide))
  have e1 := h0 pos
  have e2 := h0 pos'
  simp only [Nat.zero_add] at e1 e2
  rw [h] at e1
  cases e1' : run G.skip (.opt G.ident) .nonAtomic 0 i with
  | ok c0 r0 p0 =>
    rw [e1'] at e1 e2
    cases e1 with
    | ok _ =>
      generalize run G.skip (.opt G.ident) .nonAtomic pos' i = res at e2
      cases e2 with
      | ok _ => exact ⟨_, rfl⟩
  | fail => rw [e1'] at e1; cases e1
  | diverge => rw [e1'] at e1; cases e1

theorem refShort_fail {pos i k r ps} (h : RefBrace i) (h2 : skG.run G.ref_short .nonAtomic pos i = .ok k r ps) : False := by
  obtain ⟨pos1, c1, r1, p1, c2, r2, h3, h4, pos2, c3, r3, p3, c4, r4, h5, h6, h7⟩ := h
  have hb : ∃ ps', skG.run (.insens k!"Ref" ~~ .opt G.ident ~~ .str k!":" ~~ G.ref_stmt) .nonAtomic pos i = .ok k r ps' := by
    simp only [G.ref_short, Sk.run, run, bodyAtomicity] at h2 ⊢
    split at h2 <;> try contradiction
    rename_i hh
    injection h2 with e1 e2 e3
    subst e1 e2
    exact ⟨_, hh⟩
  obtain ⟨ps', hb⟩ := hb
  obtain ⟨d1, s1, q1, d2, s2, d3, q3, g1, g2, g3, -⟩ := seq_cost_ok skG (Nat.le_refl _) hb
  have e1 : s1 = r1 := by
    have : skG.run (.insens k!"Ref") .nonAtomic pos1 i = skG.run (.insens k!"Ref") .nonAtomic pos i := rfl
    rw [this, g1] at h3
    injection h3
  subst e1
  have e2 := then_unique g2 h4
  subst e2
  obtain ⟨t1, u1, v1, t2, u2, t3, v3, f1, f2, f3, -⟩ := seq_cost_ok skG (Nat.le_refl _) g3
  obtain ⟨ps2, f1'⟩ := name_pos (pos' := pos2) f1
  rw [h5] at f1'
  injection f1' with _ e3 _
  subst e3
  have e4 := then_unique f2 h6
  subst e4
  obtain ⟨w1, x1, y1, w2, x2, w3, y3, k1, -⟩ := seq_cost_ok skG (Nat.le_refl _) f3
  obtain ⟨c, hc, e⟩ := str_starts k1
  obtain ⟨c', hc', e'⟩ := h7
  simp at hc hc'
  rw [e, hc, hc'] at e'
  simp at e'

def refB : Blk (After ['[']) (Starts ['r', 'R']) G.ref_decl :=
  Gn.rule (m := .normal) (Gn.alt (S1 := none') (T1 := RefBrace) (S2 := After ['[']) (T2 := Starts ['r', 'R']) refBlockB refShortB
    (fun _ h => h.elim) (fun _ h => h)
    (by rintro i ⟨pos, c1, r1, p1, c2, r2, h, -⟩; exact insens_starts h) (fun _ h => h)
    (fun _ _ _ _ _ h _ h2 => (refShort_fail h h2).elim))

theorem stripCI_head {k : Char} {ks i : Str} (h : Key (k :: ks) i) : Starts [asciiLower k, Char.ofNat ((asciiLower k).toNat - 32)] i := by
  have : ∃ m r, stripPrefixCI (k :: ks) i = some (m, r) := by
    unfold Key at h
    cases h' : stripPrefixCI (k :: ks) i with
    | none => rw [h'] at h; simp at h
    | some x => exact ⟨x.1, x.2, rfl⟩
  obtain ⟨m, r, h⟩ := this
  exact insens_starts (pos := 0) (t := ks) (k := m) (r := r) (ps := []) (by rw [skG_run]; simp only [run, h])

/-- `Table ` is not the beginning of `TableGroup `. -/
theorem table_not_group {i} (h : Key k!"Table " i) (h2 : Key k!"TableGroup " i) : False := by
  have hx : ∀ (k k' : Str) (a b : Char) (i : Str), asciiLower a ≠ asciiLower b → ∀ (ks : Str),
      (stripPrefixCI (ks ++ a :: k) i).isSome = true → (stripPrefixCI (ks ++ b :: k') i).isSome = true → False := by
    intro k k' a b i hab ks
    induction ks generalizing i with
    | nil =>
      intro h1 h2
      cases i with
      | nil => simp [stripPrefixCI] at h1
      | cons x t =>
        simp only [List.nil_append, stripPrefixCI] at h1 h2
        by_cases e1 : asciiLower a = asciiLower x
        · by_cases e2 : asciiLower b = asciiLower x
          · exact hab (e1.trans e2.symm)
          · simp [e2] at h2
        · simp [e1] at h1
    | cons y ks ih =>
      intro h1 h2
      cases i with
      | nil => simp [stripPrefixCI] at h1
      | cons x t =>
        simp only [List.cons_append, stripPrefixCI] at h1 h2
        by_cases e1 : asciiLower y = asciiLower x
        · simp only [e1, if_true] at h1 h2
          exact ih t (by simpa using h1) (by simpa using h2)
        · simp [e1] at h1
  unfold Key at h h2
  exact hx [] k!"roup " ' ' 'G' i (by decide) k!"Table" h h2

theorem seq_key {k : Str} {x pos i c r ps} (h : skG.run (.insens k ~~ x) .nonAtomic pos i = .ok c r ps) : Key k i := by
  obtain ⟨d1, s1, q1, d2, s2, d3, q3, g1, -⟩ := seq_cost_ok skG (Nat.le_refl _) h
  exact insens_key g1

theorem top_cond {C : List Char} {e : PExpr} (hw : e.wf = true) (hn : e.nonNull = true) (hC : C.all (fun c => !e.starts (some c)) = true)
    (hs : SolidSet C) {pos i k r ps} (h : Starts C i) (h2 : skG.run e .nonAtomic pos i = .ok k r ps) : False := by
  rw [fail_at hw hn hC h (fun _ => h.solid hs)] at h2; simp at h2

def topB : Blk (After ['[']) all' G.top_decl :=
  Gn.alt (S1 := none') (T1 := Starts ['p', 'P']) (S2 := After ['[']) (T2 := all') projectB
    (Gn.alt (S1 := none') (T1 := Key k!"Table ") (S2 := After ['[']) (T2 := all') tableB
      (Gn.alt (S1 := none') (T1 := Starts ['e', 'E']) (S2 := After ['[']) (T2 := all') enumB
        (Gn.alt (S1 := After ['[']) (T1 := Starts ['r', 'R']) (S2 := none') (T2 := all') refB
          (Gn.alt (S1 := none') (T1 := Starts ['t', 'T']) (S2 := none') (T2 := none') groupB noteDeclT.blk
            (fun _ h => h) (fun _ h => h) (fun _ _ => trivial) (fun _ h => h.elim)
            (fun _ _ _ _ _ h _ h2 => (top_cond (by decide) (by decide) (by decide) (by decide) h h2).elim))
          (fun _ h => h) (fun _ h => h.elim) (fun _ _ => trivial) (fun _ _ => trivial)
          (fun _ _ _ _ _ h _ h2 => (top_cond (by decide) (by decide) (by decide) (by decide) h h2).elim))
        (fun _ h => h.elim) (fun _ h => h) (fun _ _ => trivial) (fun _ _ => trivial)
        (fun _ _ _ _ _ h _ h2 => (top_cond (by decide) (by decide) (by decide) (by decide) h h2).elim))
      (fun _ h => h.elim) (fun _ h => h) (fun _ _ => trivial) (fun _ _ => trivial)
      (fun pos i k r ps h _ h2 => by
        exfalso
        have hst : Starts ['t', 'T'] i := stripCI_head h
        rcases alt_ok skG h2 with ⟨h3, -⟩ | ⟨-, h2, -⟩
        · exact top_cond (C := ['t', 'T']) (by decide) (by decide) (by decide) (by decide) hst h3
        rcases alt_ok skG h2 with ⟨h3, -⟩ | ⟨-, h2, -⟩
        · exact top_cond (C := ['t', 'T']) (by decide) (by decide) (by decide) (by decide) hst h3
        rcases alt_ok skG h2 with ⟨h3, -⟩ | ⟨-, h2, -⟩
        · have hb : ∃ ps', skG.run (.insens k!"TableGroup " ~~ G.ident ~~ .opt G.block_settings ~~ G.table_group_block) .nonAtomic pos i = .ok k r ps' := by
            simp only [G.table_group_decl, Sk.run, run, bodyAtomicity] at h3 ⊢
            split at h3 <;> try contradiction
            rename_i hh
            injection h3 with e1 e2 e3
            subst e1 e2
            exact ⟨_, hh⟩
          obtain ⟨ps', hb⟩ := hb
          exact table_not_group h (seq_key hb)
        · exact top_cond (C := ['t', 'T']) (by decide) (by decide) (by decide) (by decide) hst h2))
    (fun _ h => h.elim) (fun _ h => h) (fun _ _ => trivial) (fun _ _ => trivial)
    (fun _ _ _ _ _ h _ h2 => (top_cond (by decide) (by decide) (by decide) (by decide) h h2).elim)

def schemaB : Blk all' all' G.schema :=
  Gn.rule (m := .normal) (seqCh (T := all') .soi
    (seqCommit (S := all') (T := all') (S1 := all') (T1 := none') (S2 := none') (T2 := none')
      (Gn.star (S := After ['[']) (T := all') topB okk (fun r1 c2 r2 pos h h2 => h.fail h2 (by decide) (by decide) (by decide))
        (fun _ _ => trivial) (fun _ _ => trivial) (fun _ _ _ _ _ => trivial))
      (Ch.gn .eoi) okk (fun _ _ _ _ _ _ _ _ _ _ => trivial) (fun _ _ => trivial) (fun _ _ => trivial) (fun _ _ _ _ _ _ => trivial))
    okk (fun _ _ _ _ _ _ _ _ _ _ => trivial))

theorem pestParseC_quad (t : Str) : (pestParseC t).2 ≤ 2 * schemaB.1 * (t.length + 1) ^ 2 := by
  obtain ⟨h1, h2⟩ := schemaB.2 t.length 0 t (Nat.le_refl _)
  have hc : skG.cost G.schema .nonAtomic 0 t = (pestParseC t).2 := rfl
  have e : (t.length + 1) ^ 2 = quad t.length := by simp only [quad]; ring
  rw [← hc, e, Nat.mul_assoc]
  cases h : skG.run G.schema .nonAtomic 0 t with
  | diverge => rw [skG_run] at h; exact absurd h (run_no_diverge (by decide) _ _ _)
  | fail =>
    have hl : schemaB.1 * lin t.length ≤ schemaB.1 * quad t.length := Nat.mul_le_mul_left _ (by simp only [lin, quad]; exact Nat.le_mul_of_pos_left _ (Nat.succ_pos _))
    rcases h2 h with h3 | ⟨-, h3⟩ <;> omega
  | ok k r ps =>
    have hs := skG.split h
    have hl : schemaB.1 * (lin t.length * k.length + lin t.length) ≤ schemaB.1 * quad t.length := by
      refine Nat.mul_le_mul_left _ ?_
      have : k.length ≤ t.length := by rw [hs]; simp
      simp only [lin, quad]
      calc (t.length + 1) * k.length + (t.length + 1) = (t.length + 1) * (k.length + 1) := by ring
        _ ≤ _ := Nat.mul_le_mul_left _ (by omega)
    rcases h1 _ _ _ h with h3 | ⟨-, h3⟩ <;> omega

end Gn
end Dbml
