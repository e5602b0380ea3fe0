import Verif.Proofs.Quadratic2
import Verif.Proofs.LexRun
import Verif.Proofs.Shift

/-!
# Amortised bounds on the number of steps: the tokens of the grammar
-/

namespace Dbml
namespace Gn
open Syntax Source

/-- Nothing is skipped. -/
def sk0 : Sk where
  fn := fun i => (.ok [] i [], 0)
  κ := 0
  ok := fun i => ⟨[], i, rfl, rfl⟩
  le := fun _ _ _ => by simp

theorem atom {a : Atomicity} {β φ : Nat → Nat} (h : a ≠ .nonAtomic) : a = .nonAtomic → ∀ N, lin N ≤ β N ∧ lin N ≤ φ N :=
  fun e => absurd e h

/-- A repetition of something with constant cost, without skipping. -/
def starCh {s x a φ'} (ha : a ≠ .nonAtomic) (hx : Ch s x a) : Gn s one one φ' zero none' none' (.star x) a :=
  star (α := one) (β := one) (S := none') (T := none') hx.gn (atom ha) (fun _ _ _ _ h => h.elim) (fun _ h => h) (fun _ h => h.elim)
    (fun _ _ _ _ h => h.elim)

def wsCh : Ch sk0 G.WHITESPACE .atomic := .alt .str (.alt .str (.alt .str (.alt .str .str)))
def commentG : Gn sk0 one one lin zero none' none' G.COMMENT .atomic :=
  alt (φx := one)
    (seqCh (T := none') .str (starCh (by decide) (.seq (by decide) (.neg (.alt .str (.alt .str .str))) .cls)) (atom (by decide)))
    (seqCh (T := none') .str (seqTok (αx := one) (starCh (by decide) (.seq (by decide) (.neg .str) .cls)) (Ch.gn (T := none') .str) (atom (by decide)))
      (atom (by decide)))
def skipG : Gn sk0 one lin lin zero none' none' G.skipExpr .atomic :=
  seqTok (αx := one) (T := none') ((starCh (φ' := lin) (by decide) wsCh).weaken)
    (star (α := one) (β := one) (φ := lin) (S := none') (T := none')
      (seqTok (αx := one) (T := none') commentG (starCh (by decide) wsCh) (atom (by decide))) (atom (by decide)) (fun _ _ _ _ h => h.elim) (fun _ h => h) (fun _ h => h.elim)
      (fun _ _ _ _ h => h.elim))
    (atom (by decide))

theorem skipC_lin (N : Nat) (i : Str) (h : i.length ≤ N) : (G.skipC i).2 ≤ 2 * skipG.1 * (N + 1) := by
  obtain ⟨w, r, h1, h2, -⟩ := skip_split i
  rcases (skipG.2 N 0 i h).1 w r [] h1 with h3 | ⟨h3, -⟩
  · refine Nat.le_trans h3 ?_
    rw [Nat.mul_comm 2, Nat.mul_assoc]
    refine Nat.mul_le_mul_left _ ?_
    have : w.length ≤ N := by rw [h2] at h; simp at h; omega
    simp only [one, lin]; omega
  · exact h3.elim

/-- The skipper of the grammar. -/
def skG : Sk where
  fn := G.skipC
  κ := 2 * skipG.1
  ok := fun i => by
    obtain ⟨w, r, h1, h2, -⟩ := skip_split i
    exact ⟨w, r, by rw [skipC_fst]; exact h1, h2⟩
  le := skipC_lin

theorem skG_skip (i) : skG.skip i = G.skip i := skipC_fst i
theorem skG_run (e a pos inp) : skG.run e a pos inp = run G.skip e a pos inp := by
  have : (fun i => (skG.fn i).1) = G.skip := funext skipC_fst
  unfold Sk.run; rw [this]

theorem then_solid {r1 c2 r2} (h : skG.Then .nonAtomic r1 c2 r2) : Solid r2 := by
  have := h.2.1 rfl
  rw [skG_skip] at this
  exact (skip_exact _ _ _ _ this).2.solid

/-- A token: the cost is linear in what is consumed, plus one scan of the text. -/
abbrev TokB (a : Atomicity) (e : PExpr) : Type := Gn skG one lin lin zero none' none' e a

def okk {a : Atomicity} : a = .nonAtomic → ∀ N, lin N ≤ lin N ∧ lin N ≤ lin N := fun _ _ => ⟨le_rfl, le_rfl⟩

namespace TokB
variable {a : Atomicity} {x y : PExpr}
def ch (h : Ch skG x a) : TokB a x := h.gn
def seq (hx : TokB a x) (hy : TokB a y) : TokB a (.seq x y) := seqTok (αx := one) (T := none') hx hy okk
def alt (hx : TokB a x) (hy : TokB a y) : TokB a (.alt x y) := Gn.alt hx hy
def opt (hx : TokB a x) : TokB a (.opt x) := Gn.opt hx (fun _ h => h) (fun _ h => h.elim)
def rule {r m} (hx : TokB (bodyAtomicity m a) x) : TokB a (.rule r m x) := Gn.rule hx
/-- A repetition in atomic mode. -/
def star (ha : a ≠ .nonAtomic) {φ} (hx : Gn skG one one φ zero none' none' x a) (hφ : ∀ N, φ N ≤ lin N := by units)
    (h1 : ∀ N, 1 ≤ φ N := by units) : TokB a (.star x) :=
  (Gn.star (α' := one) (φ' := lin) (S' := none') (T' := none') hx (atom ha) (fun _ _ _ _ h => h.elim) (fun _ h => h) (fun _ h => h.elim)
    (fun _ _ _ _ h => h.elim) (by units) (by units) (by units) h1 (fun N => h1 N)).weaken (by units) hφ
def starCh (ha : a ≠ .nonAtomic) (hx : Ch skG x a) : TokB a (.star x) := star ha (φ := one) hx.gn
end TokB

variable {a : Atomicity}

def quotedT {q : Str} {r1 r2} : TokB a (.rule r1 .normal (.seq (.str q) (.seq (.rule r2 .atomic (.star (.seq (.neg (.str q)) G.ANY))) (.str q)))) :=
  TokB.rule (m := .normal) (.seq (.ch .str) (.seq (TokB.rule (m := .atomic) (.starCh atomic_ne (.seq atomic_ne (.neg .str) .cls))) (.ch .str)))
def varT : TokB a G.var := TokB.rule (m := .atomic) (.seq (.ch .cls) (.starCh atomic_ne .cls))
def spacedVarT : TokB a G.spaced_var :=
  TokB.rule (m := .atomic) (.seq (.ch .cls) (.starCh atomic_ne (.seq atomic_ne (.opt .str) .cls)))
def dqT : TokB a G.double_quoted_string := quotedT
def identT : TokB a G.ident := TokB.rule (m := .normal) (.alt varT dqT)
def stringT : TokB a G.string_value := TokB.rule (m := .normal) (.alt quotedT quotedT)
def digitsG {φ'} : Gn skG one one φ' zero none' none' (.star G.ASCII_DIGIT) .atomic := Gn.starCh atomic_ne .cls
def integerG {φ} (h : ∀ N, 1 ≤ φ N := by units) : Gn skG one one φ zero none' none' G.integer a :=
  Gn.rule (m := .atomic) (seqCh .cls digitsG (atom atomic_ne) (fun _ _ _ _ _ _ _ _ _ (h : none' _) => h.elim) (by units) h) (by units) h
def integerT : TokB a G.integer := (integerG (φ := lin)).weaken
def decimalT : TokB a G.decimal := TokB.rule (m := .atomic)
  (.seq (.seq (.ch .cls) (.starCh atomic_ne .cls)) (.seq (.ch .str) (.starCh atomic_ne .cls)))
def boolCh : Ch skG G.boolean_value a := Ch.rule (m := .atomic) (.alt .str (.alt .str .str))
def hexCh : Ch skG G.hex_value a := Ch.rule (m := .atomic)
  (.seq atomic_ne .str (.seq atomic_ne (.seq atomic_ne .cls (.seq atomic_ne .cls .cls)) (.opt (.seq atomic_ne .cls (.seq atomic_ne .cls .cls)))))
def numberT : TokB a G.number_value := TokB.rule (m := .normal) (.alt decimalT integerT)
def valueT : TokB a G.value := TokB.rule (m := .normal)
  (.alt stringT (.alt quotedT (.alt (.ch boolCh) (.alt numberT (.ch hexCh)))))
def propertyT : TokB a G.property := TokB.rule (m := .normal) (.seq spacedVarT (.seq (.ch .str) (.alt valueT spacedVarT)))
def attrT : TokB a G.attr := TokB.rule (m := .normal)
  (.seq spacedVarT (.opt (.seq (.ch .str) (.alt valueT (.alt spacedVarT dqT)))))
def declIdentT : TokB a G.decl_ident := TokB.rule (m := .normal) (.seq identT (.opt (.seq (.ch .str) identT)))
def relationCh : Ch skG G.relation a := Ch.rule (m := .atomic) (.alt .str (.alt .str (.alt .str .str)))
def noteDeclT : TokB a G.note_decl := TokB.rule (m := .normal)
  (.alt (TokB.rule (m := .normal) (.seq (.ch .insens) (.seq (.ch .str) stringT)))
    (TokB.rule (m := .normal) (.seq (.ch .insens) (.seq (.ch .str) (.seq stringT (.ch .str))))))
def indexesIdentT : TokB a G.indexes_ident := TokB.rule (m := .normal) (.alt identT quotedT)
def tableAliasT : TokB a G.table_alias := TokB.rule (m := .normal) (.seq (.ch .insens) identT)

/-! ## Values in type arguments -/

/-- The text begins with the character. -/
def Starts (C : List Char) (i : Str) : Prop := ∃ c ∈ C, i.head? = some c

theorem starts_mono {C D : List Char} {i} (h : C ⊆ D) : Starts C i → Starts D i := fun ⟨c, hc, e⟩ => ⟨c, h hc, e⟩

/-- An expression that cannot begin with any of the characters fails. -/
theorem fail_at {e : PExpr} {C : List Char} (hw : e.wf = true) (hn : e.nonNull = true) (hC : C.all (fun c => !e.starts (some c)) = true)
    {pos i} (hi : Starts C i) (hs : a = .nonAtomic → Solid i) : skG.run e a pos i = .fail := by
  rw [skG_run]
  obtain ⟨c, hc, h⟩ := hi
  refine fail_of_starts hw hn ?_ hs
  rw [h]
  have := List.all_eq_true.1 hC c hc
  simpa using this

theorem str_starts {c : Char} {t : Str} {pos i k r ps} (h : skG.run (.str (c :: t)) a pos i = .ok k r ps) : Starts [c] i := by
  rw [skG_run] at h
  simp only [run] at h
  split at h <;> try contradiction
  rename_i h1
  rw [stripPrefix_some h1]
  exact ⟨c, by simp, rfl⟩

/-- A failure that costs a scan of the text, charged to the text. -/
def spend {s α β S T e} (h : Gn s α β lin zero S T e a) : Gn s α β one lin S (fun _ => True) e a := ⟨h.1, fun N pos inp hN => by
  obtain ⟨h1, h2⟩ := h.2 N pos inp hN
  constructor
  · intro k r ps hr
    rcases h1 k r ps hr with h3 | ⟨h3, h4⟩
    · exact .inl h3
    · exact .inr ⟨h3, by simp only [zero] at h4; omega⟩
  · intro hr
    refine .inr ⟨trivial, ?_⟩
    rcases h2 hr with h3 | ⟨h3, h4⟩
    · omega
    · simp only [zero] at h4; omega⟩

/-- Everything charged to the success. -/
def absorb {s φ S T e} (h : Gn s one one φ lin S T e a) (hφ : ∀ N, φ N ≤ lin N := by units) :
    Gn s one lin lin zero none' none' e a := ⟨2 * h.1, fun N pos inp hN => by
  obtain ⟨h1, h2⟩ := h.2 N pos inp hN
  have hφ' : h.1 * φ N ≤ h.1 * lin N := Nat.mul_le_mul_left _ (hφ N)
  constructor
  · intro k r ps hr
    have e : 2 * h.1 * (one N * k.length + lin N) = 2 * (h.1 * k.length) + 2 * (h.1 * lin N) := by simp only [one]; ring
    have e2 : h.1 * (one N * k.length + one N) = h.1 * k.length + h.1 := by simp only [one]; ring
    have e3 : h.1 ≤ h.1 * lin N := Nat.le_mul_of_pos_right _ (by simp [lin])
    left
    rw [e]
    rcases h1 k r ps hr with h3 | ⟨h3, h4⟩ <;> omega
  · intro hr
    left
    rw [Nat.mul_assoc]
    rcases h2 hr with h3 | ⟨h3, h4⟩ <;> omega⟩

/-- A quoted text in atomic mode: a failure is expensive only if the text begins with the quotes. -/
def quotedG {c : Char} {t : Str} {r1 r2} (ha : a ≠ .nonAtomic) : Gn skG one one one lin none' (fun i => (c :: t) <+: i)
    (.rule r1 .normal (.seq (.str (c :: t)) (.seq (.rule r2 .atomic (.star (.seq (.neg (.str (c :: t))) G.ANY))) (.str (c :: t))))) a :=
  Gn.rule (m := .normal) (seqCommit (S1 := none') (T1 := none') (S2 := none') (T2 := fun _ => True) (Ch.gn .str)
    (spend (S := none') (T := none') (seqTok (αx := one) (T := none')
      (Gn.rule (m := .atomic) (Gn.starCh atomic_ne (.seq atomic_ne (.neg .str) .cls))) (Ch.gn .str) (atom ha)))
    (atom ha) (fun _ _ _ _ _ _ _ h => h.elim) (fun _ h => h) (fun _ h => h.elim)
    (fun pos inp c1 r1 p1 h => by
      rw [skG_run] at h
      simp only [run] at h
      split at h <;> try contradiction
      rename_i h1
      exact ⟨_, (stripPrefix_some h1).symm⟩))

/-- The rest of `''` in `'''...`. -/
theorem sq_of_tq {pos inp k r ps} (ht : k!"'''" <+: inp) (h : skG.run G.single_quoted_string .compound pos inp = .ok k r ps) :
    Starts ['\''] r := by
  obtain ⟨t, rfl⟩ := ht
  rw [skG_run] at h
  have : run G.skip G.single_quoted_string .compound pos (k!"'''" ++ t) =
      .ok k!"''" ('\'' :: t) [.mk .single_quoted_string ⟨pos, pos + blen k!"''"⟩ k!"''"
        [.mk .single_quoted_value ⟨pos + 1, pos + 1⟩ [] []]] := by
    rfl
  rw [this] at h
  injection h with _ e _
  exact ⟨'\'', by simp, by rw [← e]; rfl⟩

def stringG : Gn skG one one one lin (Starts ['\'']) (Starts ['\'']) G.string_value .compound :=
  Gn.rule (m := .normal) (Gn.alt (φx := one) (S1 := none') (S2 := none') (quotedG (by decide)) (quotedG (by decide)) (fun _ h => h.elim) (fun _ h => h.elim)
    (by rintro _ ⟨t, rfl⟩; exact ⟨'\'', by simp, rfl⟩)
    (by rintro _ ⟨t, rfl⟩; exact ⟨'\'', by simp, rfl⟩)
    (fun pos inp k r ps h _ h2 => sq_of_tq h h2))

/-- `p ~ q | p`: the failure of the first costs what the second consumes. -/
def altPrefix {p q : PExpr} {r1 r2 a'} (ha : a ≠ .nonAtomic) (ha' : bodyAtomicity .atomic a = a')
    (hp : Gn skG one one one zero none' none' p a') (hq : Gn skG one one one zero none' none' q a') :
    Gn skG one one one zero none' none' (.alt (.rule r1 .atomic (.seq p q)) (.rule r2 .atomic p)) a :=
  ⟨2 * hp.1 + hq.1 + 5, fun N pos inp hN => by
  subst ha'
  have hκ : skG.κa .atomic N = 0 := by simp [Sk.κa]
  have hc : ∀ x r, skG.cost (.rule r .atomic x) a pos inp = skG.cost x .atomic pos inp + 1 := by
    intro x r
    simp only [Sk.cost, runC, bodyAtomicity]
    cases (runC skG.fn x .atomic pos inp).1 <;> rfl
  have hr : ∀ x r k rest ps, skG.run (.rule r .atomic x) a pos inp = .ok k rest ps → ∃ ps', skG.run x .atomic pos inp = .ok k rest ps' := by
    intro x r k rest ps h
    simp only [Sk.run, run, bodyAtomicity] at h ⊢
    split at h <;> try contradiction
    rename_i h1
    injection h with e1 e2 e3
    subst e1 e2
    exact ⟨_, h1⟩
  have hf : ∀ x r, skG.run (.rule r .atomic x) a pos inp = .fail → skG.run x .atomic pos inp = .fail := by
    intro x r h
    simp only [Sk.run, run, bodyAtomicity] at h ⊢
    split at h <;> try contradiction
    assumption
  have hp0 := hp.2 N pos inp hN
  simp only [bodyAtomicity] at hp0 hκ
  have hq0 : ∀ p' (i : Str), i.length ≤ N → _ := fun p' i hi => hq.2 N p' i hi
  simp only [bodyAtomicity] at hq0
  have hseq : skG.run (.seq p q) .atomic pos inp = .fail → (skG.run p .atomic pos inp = .fail ∧ skG.cost (.seq p q) .atomic pos inp ≤ hp.1 + 1) ∨
      ∃ c1 r1 p1, skG.run p .atomic pos inp = .ok c1 r1 p1 ∧ skG.cost (.seq p q) .atomic pos inp ≤ hp.1 * (c1.length + 1) + hq.1 + 1 := by
    intro h
    rcases seq_cost_fail skG hN h with ⟨h1, h2⟩ | ⟨c1, r1, p1, c2, r2, h1, h2, h3, e, h4⟩
    · left
      refine ⟨h1, ?_⟩
      rcases hp0.2 h1 with h5 | ⟨h5, -⟩
      · simp only [one] at h5; omega
      · exact h5.elim
    · right
      refine ⟨c1, r1, p1, h1, ?_⟩
      have hN2 : r2.length ≤ N := by rw [e, h2.1] at hN; simp at hN; omega
      rcases hp0.1 _ _ _ h1 with h5 | ⟨h5, -⟩
      · rcases (hq0 _ r2 hN2).2 h3 with h6 | ⟨h6, -⟩
        · simp only [one, Nat.one_mul] at h5 h6; omega
        · exact h6.elim
      · exact h5.elim
  constructor
  · intro k r ps h
    left
    have e : (2 * hp.1 + hq.1 + 5) * (one N * k.length + one N) = 2 * (hp.1 * (k.length + 1)) + hq.1 * (k.length + 1) + 5 * (k.length + 1) := by
      simp only [one]; ring
    have e1 : hq.1 ≤ hq.1 * (k.length + 1) := Nat.le_mul_of_pos_right _ (by omega)
    rw [e]
    rcases alt_ok skG h with ⟨h1, h2⟩ | ⟨h1, h2, h3⟩
    · rw [h2, hc]
      obtain ⟨ps', h4⟩ := hr _ _ _ _ _ h1
      obtain ⟨c1, r1, p1, c2, r2, c3, p3, g1, g2, g3, g4, g5, g6⟩ := seq_cost_ok skG hN h4
      have hN2 : r2.length ≤ N := by rw [g5, g2.1] at hN; simp at hN; omega
      have l1 : hp.1 * (c1.length + 1) ≤ hp.1 * (k.length + 1) := Nat.mul_le_mul_left _ (by rw [g4]; simp only [List.length_append]; omega)
      have l2 : hq.1 * (c3.length + 1) ≤ hq.1 * (k.length + 1) := Nat.mul_le_mul_left _ (by rw [g4]; simp only [List.length_append]; omega)
      rcases hp0.1 _ _ _ g1 with h5 | ⟨h5, -⟩
      · rcases (hq0 _ r2 hN2).1 _ _ _ g3 with h6 | ⟨h6, -⟩
        · simp only [one, Nat.one_mul] at h5 h6; omega
        · exact h6.elim
      · exact h5.elim
    · rw [h3, hc, hc]
      obtain ⟨ps', h4⟩ := hr _ _ _ _ _ h2
      rcases hseq (hf _ _ h1) with ⟨h5, -⟩ | ⟨c1, r1, p1, h5, h6⟩
      · rw [h5] at h4; simp at h4
      · rw [h5] at h4
        injection h4 with e2 e3 e4
        subst e2 e3
        rcases hp0.1 _ _ _ h5 with h7 | ⟨h7, -⟩
        · simp only [one, Nat.one_mul] at h7; omega
        · exact h7.elim
  · intro h
    left
    obtain ⟨h1, h2, h3⟩ := alt_fail skG h
    rw [h3, hc, hc]
    simp only [one, Nat.mul_one]
    rcases hseq (hf _ _ h1) with ⟨h5, h6⟩ | ⟨c1, r1, p1, h5, h6⟩
    · rcases hp0.2 h5 with h7 | ⟨h7, -⟩
      · simp only [one, Nat.mul_one] at h7; omega
      · exact h7.elim
    · rw [hf _ _ h2] at h5; simp at h5⟩

def numberG : Gn skG one one one zero none' none' G.number_value .compound :=
  Gn.rule (m := .normal) (altPrefix (a' := .atomic) (by decide) rfl
    (seqCh .cls digitsG (atom (by decide)) (fun _ _ _ _ _ _ _ _ _ (h : none' _) => h.elim))
    (seqCh .str digitsG (atom (by decide)) (fun _ _ _ _ _ _ _ _ _ (h : none' _) => h.elim)))

/-- A value in atomic mode. -/
def valueG : Gn skG one one one lin (Starts ['\'']) (fun _ => True) G.value .compound :=
  Gn.rule (m := .normal) (Gn.alt (φx := one) (S1 := Starts ['\'']) (T1 := Starts ['\'']) (S2 := none') (T2 := fun _ => True) stringG
    (Gn.alt (φx := one) (S1 := none') (S2 := none') (T2 := none') (quotedG (by decide))
      (Gn.alt (φ := one) (φx := one) (S1 := none') (T1 := none') (S2 := none') (T2 := none') (Ch.gn boolCh)
        (Gn.alt (φ := one) (φx := one) (S1 := none') (T1 := none') (S2 := none') (T2 := none') (numberG.weaken) (Ch.gn hexCh)))
      (fun _ h => h) (fun _ h => h) (fun _ _ => trivial) (fun _ _ => trivial)
      (by
        intro pos inp k r ps h _ h2
        have : skG.run (.alt G.boolean_value (.alt G.number_value G.hex_value)) .compound pos inp = .fail :=
          fail_at (C := ['`']) (by decide) (by decide) (by decide) (by obtain ⟨t, rfl⟩ := h; exact ⟨'`', by simp, rfl⟩) (by simp)
        exact absurd (this.symm.trans h2) (by simp)))
    (fun _ h => h) (fun _ h => h.elim) (fun _ _ => trivial) (fun _ _ => trivial)
    (by
      intro pos inp k r ps h _ h2
      have : skG.run (.alt G.backquoted_quoted_string (.alt G.boolean_value (.alt G.number_value G.hex_value))) .compound pos inp = .fail :=
        fail_at (C := ['\'']) (by decide) (by decide) (by decide) h (by simp)
      exact absurd (this.symm.trans h2) (by simp)))

def valuesT : TokB .compound (.star (.seq (.str k!",") G.value)) :=
  absorb (T := none') (Gn.star (α := one) (β := one) (φ := one) (ε := lin) (S := Starts ['\'']) (T := fun _ => True) (S' := fun _ => True) (α' := one) (φ' := one)
    (seqCh .str valueG (atom (by decide)) (fun _ _ _ _ _ _ _ _ _ _ => trivial)) (atom (by decide))
    (by
      intro r1 c2 r2 pos h1 h2
      have e : r2 = r1 := by rw [h2.1, h2.2.2 (by decide)]; rfl
      subst e
      exact fail_at (C := ['\'']) (by decide) (by decide) (by decide) h1 (by simp))
    (fun _ _ => trivial) (fun _ _ => trivial) (fun _ _ _ _ _ => trivial))

def colTypeArgT : TokB .compound G.col_type_arg :=
  TokB.rule (m := .normal) (.seq (.ch .str) (.seq (.opt (.seq valueT valuesT)) (.ch .str)))
def colTypeArraysT : TokB .compound (.star G.col_type_array) :=
  TokB.star (φ := lin) (by decide) (Gn.rule (m := .normal) (seqCh (T := none') .str (seqTok (αx := one) (T := none')
    ((Gn.opt (T := none') (integerG (φ := one)) (fun _ h => h) (fun _ h => h.elim))) (Ch.gn .str) (atom (by decide)))
      (atom (by decide))))
def colTypeT : TokB a G.col_type := TokB.rule (m := .compound)
  (.seq (.opt (.seq identT (.ch .str)))
    (.alt (TokB.rule (m := .compound) (.seq (.ch .str) (.seq spacedVarT (.seq (.opt colTypeArgT) (.seq colTypeArraysT (.seq (.ch .str) colTypeArraysT))))))
      (TokB.rule (m := .compound) (.seq varT (.seq (.opt colTypeArgT) colTypeArraysT)))))

end Gn
end Dbml
