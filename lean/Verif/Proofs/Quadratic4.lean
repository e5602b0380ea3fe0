import Verif.Proofs.Quadratic3

/-!
# Amortised bounds on the number of steps: the blocks of the grammar
-/

namespace Dbml
namespace Gn
open Syntax Source

/-- After white space and comments the text begins with one of the characters. -/
def After (C : List Char) (r : Str) : Prop := ∃ c2 r2, skG.Then .nonAtomic r c2 r2 ∧ Starts C r2

/-- None of the characters begins white space or a comment. -/
def SolidSet (C : List Char) : Prop := ∀ c ∈ C, ¬ IsSpace c ∧ c ≠ '/'

instance {c : Char} : Decidable (IsSpace c) := by unfold IsSpace; infer_instance
instance {C : List Char} : Decidable (SolidSet C) := by unfold SolidSet; infer_instance

theorem Starts.solid {C i} (hC : SolidSet C) (h : Starts C i) : Solid i := by
  obtain ⟨c, hc, e⟩ := h
  exact solid_head e (hC c hc).1 (hC c hc).2

theorem then_self {i} (h : Solid i) : skG.Then .nonAtomic i [] i :=
  ⟨rfl, fun _ => by rw [skG_skip]; exact (Skips.nil h).skip, fun h => absurd rfl h⟩

theorem then_unique {i c2 r2 c2' r2'} (h : skG.Then .nonAtomic i c2 r2) (h' : skG.Then .nonAtomic i c2' r2') : r2 = r2' := by
  have := (h.2.1 rfl).symm.trans (h'.2.1 rfl)
  injection this

theorem Starts.after {C i} (hC : SolidSet C) (h : Starts C i) : After C i := ⟨[], i, then_self (h.solid hC), h⟩

theorem After.starts {C r1 c2 r2} (h : After C r1) (h2 : skG.Then .nonAtomic r1 c2 r2) : Starts C r2 := by
  obtain ⟨c2', r2', h3, h4⟩ := h
  rwa [then_unique h2 h3]

/-- An expression that cannot begin with the characters fails after them. -/
theorem After.fail {C r1 c2 r2 pos} {e : PExpr} (h : After C r1) (h2 : skG.Then .nonAtomic r1 c2 r2) (hw : e.wf = true) (hn : e.nonNull = true)
    (hC : C.all (fun c => !e.starts (some c)) = true) : skG.run e .nonAtomic pos r2 = .fail :=
  fail_at hw hn hC (h.starts h2) (fun _ => then_solid h2)

/-- A part of a block. -/
abbrev Blk (S T : Str → Prop) (e : PExpr) : Type := Gn skG lin lin lin quad S T e .nonAtomic

/-- Any text. -/
def all' (_ : Str) : Prop := True

def TokB.blk {S T e} (h : TokB .nonAtomic e) : Blk S T e :=
  h.weaken (by units) (by units) (by units) (by units) (fun _ h => h.elim) (fun _ h => h.elim)

theorem star_nil_of_fail {x pos i k r ps} (h : skG.run x .nonAtomic pos i = .fail)
    (h2 : skG.run (.star x) .nonAtomic pos i = .ok k r ps) : r = i := by
  rcases star_cost_ok skG h2 with ⟨-, -, e, -⟩ | ⟨c1, r1, p1, c2, p2, h3, -⟩
  · exact e
  · rw [h] at h3; simp at h3

/-- `x ~ y` where `y` never fails. -/
def seqTotal {S S1 S2 T T1 T2 : Str → Prop} {x y} (hx : Blk S1 T1 x) (hy : Blk S2 T2 y)
    (hS1 : ∀ r1 c2 r2 pos c3 r p3, S1 r1 → skG.Then .nonAtomic r1 c2 r2 → skG.run y .nonAtomic pos r2 = .ok c3 r p3 → S r)
    (hS2 : ∀ r, S2 r → S r := by exact fun _ h => h)
    (hT1 : ∀ r, T1 r → T r := by exact fun _ h => h)
    (hy' : ∀ pos i, skG.run y .nonAtomic pos i ≠ .fail) : Blk S T (.seq x y) :=
  let h := seqCommit (S := S) (T := fun i => T i ∨ ∃ pos c r ps, skG.run x .nonAtomic pos i = .ok c r ps) hx hy okk hS1 hS2
    (fun r h => .inl (hT1 r h)) (fun pos inp c1 r1 p1 h => .inr ⟨pos, c1, r1, p1, h⟩)
  ⟨h.1 + 1, fun N pos inp hN => by
    obtain ⟨h1, h2⟩ := h.2 N pos inp hN
    have hm : ∀ n : Nat, h.1 * n ≤ (h.1 + 1) * n := fun n => Nat.mul_le_mul_right _ (by omega)
    constructor
    · intro k r ps hr
      have hk := hm (lin N * k.length + lin N)
      have hk' := hm (quad N)
      rcases h1 k r ps hr with h3 | ⟨h3, h4⟩
      · left; omega
      · right; exact ⟨h3, by omega⟩
    · intro hr
      have hx0 := hx.2 N pos inp hN
      rcases seq_cost_fail skG hN hr with ⟨g1, g2⟩ | ⟨c1, r1, p1, c2, r2, g1, g2, g3, -⟩
      · rw [g2]
        have e1 : hx.1 * lin N ≤ h.1 * lin N := Nat.mul_le_mul_right _ (by simp only [h, seqCommit]; omega)
        have e2 : hx.1 * quad N ≤ h.1 * quad N := Nat.mul_le_mul_right _ (by simp only [h, seqCommit]; omega)
        have e3 : 1 ≤ lin N := by simp [lin]
        simp only [Nat.add_mul]
        rcases hx0.2 g1 with h3 | ⟨h3, h4⟩
        · left; omega
        · right; exact ⟨hT1 _ h3, by omega⟩
      · exact absurd g3 (hy' _ _)⟩

/-- `"," ~ item ~ ...`. -/
def commas {C : List Char} {item} (hi : Blk (After C) none' item) (hw : item.wf = true) (hn : item.nonNull = true) (hC : ',' ∉ C)
    (hs : SolidSet C) {T'} : Blk (After C) T' (.star (.seq (.str k!",") item)) :=
  Gn.star (S := After C) (T := none') (seqCh (T := none') .str hi okk) okk
    (fun r1 c2 r2 pos h h2 => h.fail h2 (by simp [PExpr.wf, hw]) (by simp [PExpr.nonNull])
      (List.all_eq_true.2 fun c hc => by
        have : c ≠ ',' := fun e => hC (e ▸ hc)
        simp [PExpr.starts, PExpr.nonNull, this]))
    (fun _ h => h) (fun _ h => h.elim) (fun _ _ _ _ h => h.elim)

theorem commas_fail {item C} {pos r2} (hC : ',' ∉ C) (h : Starts C r2) :
    skG.run (.seq (.str k!",") item) .nonAtomic pos r2 = .fail := by
  rw [skG_run]
  obtain ⟨c, hc, e⟩ := h
  refine seq_fail_left ?_
  simp only [run]
  cases r2 with
  | nil => simp at e
  | cons x xs =>
    simp only [List.head?_cons, Option.some.injEq] at e
    subst e
    have : ',' ≠ x := fun e => hC (e ▸ hc)
    simp [stripPrefix, this]

/-- `item ~ ("," ~ item)*`. -/
def listed {C : List Char} {item} (hi : Blk (After C) none' item) (hw : item.wf = true) (hn : item.nonNull = true) (hC : ',' ∉ C)
    (hs : SolidSet C) : Blk (After C) none' (.seq item (.star (.seq (.str k!",") item))) :=
  seqTotal (S1 := After C) (T1 := none') (S2 := After C) (T2 := none') hi (commas hi hw hn hC hs)
    (fun r1 c2 r2 pos c3 r p3 h h2 h3 => by
      have := star_nil_of_fail (commas_fail hC (h.starts h2)) h3
      subst this
      exact (h.starts h2).after hs)
    (fun _ h => h) (fun _ h => h) (fun _ _ h => star_no_fail skG h)

theorem str_fail {C : List Char} {c : Char} {t : Str} (hC : c ∉ C) {r1 c2 r2 pos} (h : After C r1) (h2 : skG.Then .nonAtomic r1 c2 r2) :
    skG.run (.str (c :: t)) .nonAtomic pos r2 = .fail :=
  h.fail h2 rfl (by simp [PExpr.nonNull]) (List.all_eq_true.2 fun x hx => by
    have : x ≠ c := fun e => hC (e ▸ hx)
    simp [PExpr.starts, this])

/-- `"[" ~ (item ~ ("," ~ item)*)? ~ "]"`. -/
def bracketedB {C : List Char} {item} (hi : Blk (After C) none' item) (hw : item.wf = true) (hn : item.nonNull = true) (hC : ',' ∉ C)
    (hC' : ']' ∉ C) (hs : SolidSet C) : Blk none' (Starts ['[']) (G.bracketed item) :=
  seqCh (T := all') .str
    (seqCommit (S1 := After C) (T1 := none') (S2 := none') (T2 := none')
      (Gn.opt (T := none') (listed hi hw hn hC hs) (fun _ h => h) (fun _ h => h.elim)) (Ch.gn .str) okk
      (fun r1 c2 r2 pos c3 r p3 h h2 h3 => by rw [str_fail hC' h h2] at h3; simp at h3)
      (fun _ h => h) (fun _ h => h.elim) (fun _ _ _ _ _ _ => trivial))
    okk (fun _ _ _ _ _ _ _ h _ _ => str_starts h)

def settingsB {r} : Blk none' (Starts ['[']) (.rule r .normal (G.bracketed G.attr)) :=
  Gn.rule (m := .normal) (bracketedB (C := []) attrT.blk (by decide) (by decide) (by decide) (by decide) (by decide))



def optSettingsB {r T'} : Blk (After ['[']) T' (.opt (.rule r .normal (G.bracketed G.attr))) :=
  Gn.opt settingsB (fun _ h => h.elim) (fun _ h => h.after (by decide))

/-- `"{" ~ item* ~ "}"`. -/
def bracedB {C D : List Char} {item} (hi : Blk (After C) (Starts D) item) (hw : item.wf = true) (hn : item.nonNull = true)
    (hC : C.all (fun c => !item.starts (some c)) = true) (hb : '}' ∉ C ++ D) (hs : SolidSet (C ++ D)) :
    Blk none' (Starts ['{']) (.seq (.str k!"{") (.seq (.star item) (.str k!"}"))) :=
  seqCh (T := all') .str
    (seqCommit (S1 := After (C ++ D)) (T1 := none') (S2 := none') (T2 := none')
      (Gn.star (S := After C) (T := Starts D) hi okk (fun r1 c2 r2 pos h h2 => h.fail h2 hw hn hC)
        (fun r ⟨c2, r2, h, h'⟩ => ⟨c2, r2, h, starts_mono (by simp) h'⟩)
        (fun r h => (starts_mono (by simp) h).after hs)
        (fun r1 c2 r2 h h' => ⟨c2, r2, h, starts_mono (by simp) h'⟩))
      (Ch.gn .str) okk
      (fun r1 c2 r2 pos c3 r p3 h h2 h3 => by rw [str_fail hb h h2] at h3; simp at h3)
      (fun _ h => h) (fun _ h => h.elim) (fun _ _ _ _ _ _ => trivial))
    okk (fun _ _ _ _ _ _ _ h _ _ => str_starts h)

/-- A token before a part. -/
def tokThen {S T x y} (hx : TokB .nonAtomic x) (hy : Blk S T y) : Blk S all' (.seq x y) :=
  seqTok (αx := one) hx hy okk (fun _ _ _ _ _ _ _ _ _ _ => trivial)

/-- A token before something that does not fail expensively. -/
def tokThen' {S T' x y} (hx : TokB .nonAtomic x) (hy : Blk S none' y) : Blk S T' (.seq x y) :=
  seqTok (αx := one) hx hy okk (fun _ _ _ _ _ _ _ _ _ h => h.elim)

def toAll {S T e} (h : Blk S T e) : Blk S all' e := h.weaken (by units) (by units) (by units) (by units) (fun _ h => h) (fun _ _ => trivial)

theorem lower_cases (x : Char) : asciiLower x = x ∨ Char.ofNat ((asciiLower x).toNat - 32) = x := by
  unfold asciiLower
  split
  · rename_i h
    right
    have h1 : x.toNat ≤ 90 := h.2
    have h2 : (Char.ofNat (x.toNat + 32)).toNat = x.toNat + 32 := by
      have hv : (x.toNat + 32).isValidChar := by left; omega
      unfold Char.ofNat
      rw [dif_pos hv]
      rfl
    rw [h2]
    simp
  · left; rfl

theorem insens_starts {c : Char} {t : Str} {pos i k r ps} (h : skG.run (.insens (c :: t)) .nonAtomic pos i = .ok k r ps) :
    Starts [asciiLower c, Char.ofNat ((asciiLower c).toNat - 32)] i := by
  rw [skG_run] at h
  simp only [run] at h
  split at h <;> try contradiction
  rename_i h1
  cases i with
  | nil => simp [stripPrefixCI] at h1
  | cons x xs =>
    simp only [stripPrefixCI] at h1
    split at h1 <;> try contradiction
    rename_i e
    rw [e]
    refine ⟨x, ?_, rfl⟩
    rcases lower_cases x with e | e
    · rw [e]; simp
    · exact List.mem_cons_of_mem _ (List.mem_singleton.2 e.symm)

/-! ## The blocks -/

def enumValueB {T'} : Blk (After ['[']) T' G.enum_value :=
  Gn.rule (m := .normal) (tokThen' identT optSettingsB)
def enumBlockB : Blk none' (Starts ['{']) G.enum_block :=
  Gn.rule (m := .normal) (bracedB (C := ['[']) (D := []) enumValueB (by decide) (by decide) (by decide) (by decide) (by decide))

def projectBlockB : Blk none' (Starts ['{']) G.project_block :=
  Gn.rule (m := .normal) (bracedB (C := []) (D := []) (TokB.blk (.alt noteDeclT propertyT)) (by decide) (by decide) (by decide) (by decide) (by decide))
def groupBlockB : Blk none' (Starts ['{']) G.table_group_block :=
  Gn.rule (m := .normal) (bracedB (C := []) (D := []) (TokB.blk (.alt noteDeclT declIdentT)) (by decide) (by decide) (by decide) (by decide) (by decide))

def indexesSingleB {T'} : Blk (After ['[']) T' G.indexes_single :=
  Gn.rule (m := .normal) (tokThen' indexesIdentT optSettingsB)
def indexesMultiB : Blk (After ['[']) (Starts ['(']) G.indexes_multi :=
  Gn.rule (m := .normal) (seqCh (T := all') .str
    (seqCommit (S1 := After []) (T1 := none') (S2 := After ['[']) (T2 := none')
      (Gn.opt (T := none') (listed (C := []) indexesIdentT.blk (by decide) (by decide) (by decide) (by decide)) (fun _ h => h) (fun _ h => h.elim))
      (seqCh (T := none') .str optSettingsB okk) okk
      (fun r1 c2 r2 pos c3 r p3 h _ _ => by obtain ⟨_, _, _, c, hc, _⟩ := h; simp at hc)
      (fun _ h => h) (fun _ h => h.elim) (fun _ _ _ _ _ _ => trivial))
    okk (fun _ _ _ _ _ _ _ h _ _ => str_starts h))
def indexesBlockB : Blk none' (Starts ['{']) G.indexes_block :=
  Gn.rule (m := .normal) (bracedB (C := ['[']) (D := ['('])
    (Gn.alt (S1 := After ['[']) (T1 := none') (S2 := After ['[']) (T2 := Starts ['(']) indexesSingleB indexesMultiB (fun _ h => h) (fun _ h => h) (fun _ h => h.elim))
    (by decide) (by decide) (by decide) (by decide) (by decide))

def refCompositionB : Blk none' all' G.ref_composition :=
  Gn.rule (m := .normal) (Gn.alt (S1 := none') (T1 := none') (S2 := none') (T2 := all') (hT1 := fun _ h => h.elim) identT.blk
    (seqCh (T := all') .str (tokThen identT (toAll (seqCommit (T := all') (S1 := After []) (T1 := none') (S2 := none') (T2 := none')
      (commas (C := []) identT.blk (by decide) (by decide) (by decide) (by decide)) (Ch.gn .str) okk
      (fun r1 c2 r2 pos c3 r p3 h _ _ => by obtain ⟨_, _, _, c, hc, _⟩ := h; simp at hc)
      (fun _ h => h) (fun _ h => h.elim) (fun _ _ _ _ _ _ => trivial)))) okk (fun _ _ _ _ _ _ _ _ _ _ => trivial)))
def refIdentB : Blk none' all' G.ref_ident :=
  Gn.rule (m := .normal) (tokThen identT (tokThen (.ch .str) (tokThen (.opt (.seq identT (.ch .str))) refCompositionB)))
def refStmtB : Blk (After ['[']) all' G.ref_stmt :=
  Gn.rule (m := .normal) (seqCommit (S1 := none') (T1 := all') (S2 := After ['[']) (T2 := all') refIdentB
    (tokThen (.ch relationCh) (seqCommit (S1 := none') (T1 := all') (S2 := After ['[']) (T2 := none') (T := all') refIdentB optSettingsB okk
      (fun _ _ _ _ _ _ _ h => h.elim) (fun _ h => h) (fun _ h => h) (fun _ _ _ _ _ _ => trivial))) okk
      (fun _ _ _ _ _ _ _ h => h.elim) (fun _ h => h) (fun _ h => h) (fun _ _ _ _ _ _ => trivial))

end Gn
end Dbml
