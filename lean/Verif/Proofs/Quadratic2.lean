import Verif.Proofs.Quadratic1

/-!
# Amortised bounds on the number of steps: the combinators
-/

namespace Dbml

/-- Constant. -/
def one (_ : Nat) : Nat := 1
/-- Linear in the length of the text. -/
def lin (N : Nat) : Nat := N + 1
/-- Quadratic in the length of the text. -/
def quad (N : Nat) : Nat := (N + 1) * (N + 1)
/-- Nothing. -/
def zero (_ : Nat) : Nat := 0

/-- Comparisons of the above. -/
macro "units" : tactic => `(tactic| (intro N; simp only [one, lin, quad, zero]; first | omega | nlinarith))

/-- No text. -/
def none' (_ : Str) : Prop := False

/-- The bound: on texts of at most `N` characters a success that consumes `k` takes `c * (α N * |k| + β N)` steps, a failure
`c * φ N` steps; `c * ε N` more if the rest satisfies `S`, or the text satisfies `T`. -/
def Gn (s : Sk) (α β φ ε : Nat → Nat) (S T : Str → Prop) (e : PExpr) (a : Atomicity) : Type :=
  {c : Nat // ∀ (N pos : Nat) (inp : Str), inp.length ≤ N →
    (∀ k r ps, s.run e a pos inp = .ok k r ps →
      s.cost e a pos inp ≤ c * (α N * k.length + β N) ∨
      (S r ∧ s.cost e a pos inp ≤ c * (α N * k.length + β N) + c * ε N)) ∧
    (s.run e a pos inp = .fail → s.cost e a pos inp ≤ c * φ N ∨ (T inp ∧ s.cost e a pos inp ≤ c * φ N + c * ε N))}

/-- Always at most `c` steps. -/
def Ch (s : Sk) (e : PExpr) (a : Atomicity) : Type := {c : Nat // ∀ pos inp, s.cost e a pos inp ≤ c}

namespace Ch
variable {s : Sk} {a : Atomicity}

def cls {p} : Ch s (.cls p) a := ⟨1, fun pos inp => by
  simp only [Sk.cost, runC]; cases inp with
  | nil => simp
  | cons c cs => simp only; split <;> simp⟩
def str {t} : Ch s (.str t) a := ⟨t.length + 1, fun pos inp => by
  simp only [Sk.cost, runC]; cases stripPrefix t inp <;> simp⟩
def insens {t} : Ch s (.insens t) a := ⟨t.length + 1, fun pos inp => by
  simp only [Sk.cost, runC]; cases stripPrefixCI t inp <;> simp⟩
def soi : Ch s .soi a := ⟨1, fun pos inp => by simp only [Sk.cost, runC]; split <;> simp⟩
def eoi : Ch s .eoi a := ⟨1, fun pos inp => by simp only [Sk.cost, runC]; cases inp <;> simp⟩
def alt {x y} (hx : Ch s x a) (hy : Ch s y a) : Ch s (.alt x y) a := ⟨hx.1 + hy.1 + 1, fun pos inp => by
  have h1 := hx.2 pos inp
  have h2 := hy.2 pos inp
  simp only [Sk.cost, runC] at *
  cases (runC s.fn x a pos inp).1 <;> simp only <;> omega⟩
def opt {x} (hx : Ch s x a) : Ch s (.opt x) a := ⟨hx.1 + 1, fun pos inp => by
  have h1 := hx.2 pos inp
  simp only [Sk.cost, runC] at *
  cases (runC s.fn x a pos inp).1 <;> simp only <;> omega⟩
def neg {x} (hx : Ch s x a) : Ch s (.neg x) a := ⟨hx.1 + 1, fun pos inp => by
  have h1 := hx.2 pos inp
  simp only [Sk.cost, runC] at *
  cases (runC s.fn x a pos inp).1 <;> simp only <;> omega⟩
def rule {x r m} (hx : Ch s x (bodyAtomicity m a)) : Ch s (.rule r m x) a := ⟨hx.1 + 1, fun pos inp => by
  have h1 := hx.2 pos inp
  simp only [Sk.cost, runC] at *
  cases (runC s.fn x (bodyAtomicity m a) pos inp).1 <;> simp only <;> omega⟩
def seq {x y} (ha : a ≠ .nonAtomic) (hx : Ch s x a) (hy : Ch s y a) : Ch s (.seq x y) a := ⟨hx.1 + hy.1 + 1, fun pos inp => by
  have h1 := hx.2 pos inp
  have h2 := hy.2
  simp only [Sk.cost, runC] at *
  rcases seqResC_cases s (a := a) (pos := pos) (ra := runC s.fn x a pos inp) (kb := fun p i => runC s.fn y a p i) (N := inp.length)
    with ⟨h3, h4⟩ | ⟨h3, h4⟩ | ⟨c1, r1, p1, c2, r2, h3, h4, h5, -⟩
  · rw [h4]; simp only; omega
  · unfold seqResC; rw [h3]; simp only; omega
  · rw [runC_fst] at h3
    have e := s.split h3
    have := h5 (by rw [e]; simp)
    have := h2 (pos + blen c1 + blen c2) r2
    simp only [Sk.κa, ha, if_false] at *
    omega⟩

/-- A bounded expression in any of the units. -/
def gn {α β φ ε S T e} (h : Ch s e a) (hβ : ∀ N, 1 ≤ β N := by units) (hφ : ∀ N, 1 ≤ φ N := by units) :
    Gn s α β φ ε S T e a := ⟨h.1, fun N pos inp _ => by
  have h1 := h.2 pos inp
  constructor
  · intro k r ps _
    left
    calc _ ≤ h.1 := h1
      _ = h.1 * 1 := by simp
      _ ≤ _ := Nat.mul_le_mul_left _ (by have := hβ N; omega)
  · intro _
    left
    calc _ ≤ h.1 := h1
      _ = h.1 * 1 := by simp
      _ ≤ _ := Nat.mul_le_mul_left _ (hφ N)⟩
end Ch

namespace Gn
variable {s : Sk} {a : Atomicity} {α β φ ε : Nat → Nat} {S T : Str → Prop}

/-- Coarser units. -/
def weaken {α' β' φ' ε' S' T' e} (h : Gn s α β φ ε S T e a) (hα : ∀ N, α N ≤ α' N := by units) (hβ : ∀ N, β N ≤ β' N := by units)
    (hφ : ∀ N, φ N ≤ φ' N := by units) (hε : ∀ N, ε N ≤ ε' N := by units) (hS : ∀ r, S r → S' r := by exact fun _ h => h)
    (hT : ∀ r, T r → T' r := by exact fun _ h => h) : Gn s α' β' φ' ε' S' T' e a := ⟨h.1, fun N pos inp hN => by
  obtain ⟨h1, h2⟩ := h.2 N pos inp hN
  have hk : ∀ k : Nat, h.1 * (α N * k + β N) ≤ h.1 * (α' N * k + β' N) := fun k =>
    Nat.mul_le_mul_left _ (Nat.add_le_add (Nat.mul_le_mul_right _ (hα N)) (hβ N))
  have hf : h.1 * φ N ≤ h.1 * φ' N := Nat.mul_le_mul_left _ (hφ N)
  have he : h.1 * ε N ≤ h.1 * ε' N := Nat.mul_le_mul_left _ (hε N)
  constructor
  · intro k r ps hr
    have := hk k.length
    rcases h1 k r ps hr with h3 | ⟨h3, h4⟩
    · left; omega
    · right; exact ⟨hS _ h3, by omega⟩
  · intro hr
    rcases h2 hr with h3 | ⟨h3, h4⟩
    · left; omega
    · right; exact ⟨hT _ h3, by omega⟩⟩

def rule {x r m} (hx : Gn s α β φ ε S T x (bodyAtomicity m a)) (hβ : ∀ N, 1 ≤ β N := by units) (hφ : ∀ N, 1 ≤ φ N := by units) :
    Gn s α β φ ε S T (.rule r m x) a := ⟨hx.1 + 1, fun N pos inp hN => by
  obtain ⟨h1, h2⟩ := hx.2 N pos inp hN
  have hc : s.cost (.rule r m x) a pos inp = s.cost x (bodyAtomicity m a) pos inp + 1 := by
    simp only [Sk.cost, runC]
    cases (runC s.fn x (bodyAtomicity m a) pos inp).1 <;> rfl
  have hβ := hβ N
  have hφ := hφ N
  rw [hc]
  constructor
  · intro k r' ps hr
    simp only [Sk.run, run] at hr
    split at hr <;> try contradiction
    rename_i heq
    injection hr with e1 e2 e3
    subst e1 e2
    rcases h1 _ _ _ heq with h3 | ⟨h3, h4⟩
    · left; rw [Nat.add_mul]; omega
    · right; refine ⟨h3, ?_⟩; rw [Nat.add_mul, Nat.add_mul]; omega
  · intro hr
    simp only [Sk.run, run] at hr
    split at hr <;> try contradiction
    rename_i heq
    rcases h2 heq with h3 | ⟨h3, h4⟩
    · left; rw [Nat.add_mul]; omega
    · right; refine ⟨h3, ?_⟩; rw [Nat.add_mul, Nat.add_mul]; omega⟩

theorem opt_cases (s : Sk) {x a pos inp k r ps} (h : s.run (.opt x) a pos inp = .ok k r ps) :
    s.run x a pos inp = .ok k r ps ∨ (s.run x a pos inp = .fail ∧ k = [] ∧ r = inp) := by
  simp only [Sk.run, run] at h ⊢
  cases hx : Dbml.run (fun i => (s.fn i).1) x a pos inp with
  | fail => simp only [hx] at h; injection h with e1 e2 e3; exact .inr ⟨rfl, e1.symm, e2.symm⟩
  | diverge => simp [hx] at h
  | ok c r' ps' => simp only [hx] at h; exact .inl h

theorem opt_no_fail (s : Sk) {x a pos inp} (h : s.run (.opt x) a pos inp = .fail) : False := by
  simp only [Sk.run, run] at h
  cases hx : Dbml.run (fun i => (s.fn i).1) x a pos inp <;> simp [hx] at h

theorem cost_opt (s : Sk) {x a pos inp} : s.cost (.opt x) a pos inp = s.cost x a pos inp + 1 := by
  simp only [Sk.cost, runC]
  cases (runC s.fn x a pos inp).1 <;> rfl

/-- `x?`: what failing cost is charged to the success. -/
def opt {x S' T' φ'} (hx : Gn s α β φ ε S T x a) (hS : ∀ r, S r → S' r := by exact fun _ h => h) (hT : ∀ r, T r → S' r)
    (hφβ : ∀ N, φ N ≤ β N := by units) (hβ : ∀ N, 1 ≤ β N := by units) :
    Gn s α β φ' ε S' T' (.opt x) a := ⟨hx.1 + 1, fun N pos inp hN => by
  obtain ⟨h1, h2⟩ := hx.2 N pos inp hN
  have hf : hx.1 * φ N ≤ hx.1 * β N := Nat.mul_le_mul_left _ (hφβ N)
  have hβ := hβ N
  constructor
  · intro k r ps hr
    rw [cost_opt]
    rcases opt_cases s hr with h | ⟨h, rfl, rfl⟩
    · rcases h1 _ _ _ h with h3 | ⟨h3, h4⟩
      · left; rw [Nat.add_mul]; omega
      · right; refine ⟨hS _ h3, ?_⟩; rw [Nat.add_mul, Nat.add_mul]; omega
    · simp only [List.length_nil, Nat.mul_zero, Nat.zero_add]
      rcases h2 h with h3 | ⟨h3, h4⟩
      · left; rw [Nat.add_mul]; omega
      · right; refine ⟨hT _ h3, ?_⟩; rw [Nat.add_mul, Nat.add_mul]; omega
  · intro hr
    exact (opt_no_fail s hr).elim⟩

theorem alt_ok (s : Sk) {x y a pos inp k r ps} (h : s.run (.alt x y) a pos inp = .ok k r ps) :
    (s.run x a pos inp = .ok k r ps ∧ s.cost (.alt x y) a pos inp = s.cost x a pos inp + 1) ∨
    (s.run x a pos inp = .fail ∧ s.run y a pos inp = .ok k r ps ∧
      s.cost (.alt x y) a pos inp = s.cost x a pos inp + s.cost y a pos inp + 1) := by
  simp only [Sk.run, run] at h ⊢
  simp only [Sk.cost, runC, runC_fst]
  cases hx : Dbml.run (fun i => (s.fn i).1) x a pos inp with
  | fail => simp only [hx] at h; exact .inr ⟨rfl, h, rfl⟩
  | diverge => simp [hx] at h
  | ok c r' ps' => simp only [hx] at h; exact .inl ⟨h, rfl⟩

theorem alt_fail (s : Sk) {x y a pos inp} (h : s.run (.alt x y) a pos inp = .fail) :
    s.run x a pos inp = .fail ∧ s.run y a pos inp = .fail ∧
      s.cost (.alt x y) a pos inp = s.cost x a pos inp + s.cost y a pos inp + 1 := by
  simp only [Sk.run, run] at h ⊢
  simp only [Sk.cost, runC, runC_fst]
  cases hx : Dbml.run (fun i => (s.fn i).1) x a pos inp with
  | fail => simp only [hx] at h; exact ⟨rfl, h, rfl⟩
  | diverge => simp [hx] at h
  | ok c r' ps' => simp [hx] at h

/-- `x | y`: if failing of `x` is expensive, then `y` fails, or the extra can be charged to its rest. -/
def alt {x y φx S1 T1 S2 T2} (hx : Gn s α β φx ε S1 T1 x a) (hy : Gn s α β φ ε S2 T2 y a)
    (hS1 : ∀ r, S1 r → S r := by exact fun _ h => h) (hS2 : ∀ r, S2 r → S r := by exact fun _ h => h)
    (hT1 : ∀ r, T1 r → T r := by exact fun _ h => h) (hT2 : ∀ r, T2 r → T r := by exact fun _ h => h)
    (hxy : ∀ pos inp k r ps, T1 inp → s.run x a pos inp = .fail → s.run y a pos inp = .ok k r ps → S r := by exact fun _ _ _ _ _ h => h.elim)
    (h1 : ∀ N, φx N ≤ β N := by units) (h2 : ∀ N, φx N ≤ φ N := by units) (hβ : ∀ N, 1 ≤ β N := by units)
    (hφ : ∀ N, 1 ≤ φ N := by units) :
    Gn s α β φ ε S T (.alt x y) a := ⟨hx.1 + hy.1 + 1, fun N pos inp hN => by
  obtain ⟨hx1, hx2⟩ := hx.2 N pos inp hN
  obtain ⟨hy1, hy2⟩ := hy.2 N pos inp hN
  have hfb : hx.1 * φx N ≤ hx.1 * β N := Nat.mul_le_mul_left _ (h1 N)
  have hff : hx.1 * φx N ≤ hx.1 * φ N := Nat.mul_le_mul_left _ (h2 N)
  have hβ := hβ N
  have hφ := hφ N
  constructor
  · intro k r ps hr
    have hb : hx.1 * β N ≤ hx.1 * (α N * k.length + β N) := Nat.mul_le_mul_left _ (by omega)
    simp only [Nat.add_mul]
    rcases alt_ok s hr with ⟨h, hc⟩ | ⟨h, h', hc⟩
    · rw [hc]
      rcases hx1 _ _ _ h with h3 | ⟨h3, h4⟩
      · left; omega
      · right; exact ⟨hS1 _ h3, by omega⟩
    · rw [hc]
      rcases hx2 h with h3 | ⟨h3, h4⟩ <;> rcases hy1 _ _ _ h' with h5 | ⟨h5, h6⟩
      · left; omega
      · right; exact ⟨hS2 _ h5, by omega⟩
      · right; exact ⟨hxy _ _ _ _ _ h3 h h', by omega⟩
      · right; exact ⟨hS2 _ h5, by omega⟩
  · intro hr
    simp only [Nat.add_mul]
    obtain ⟨h, h', hc⟩ := alt_fail s hr
    rw [hc]
    rcases hx2 h with h3 | ⟨h3, h4⟩ <;> rcases hy2 h' with h5 | ⟨h5, h6⟩
    · left; omega
    · right; exact ⟨hT2 _ h5, by omega⟩
    · right; exact ⟨hT1 _ h3, by omega⟩
    · right; exact ⟨hT1 _ h3, by omega⟩⟩

/-- `x ~ y` where `x` takes constantly many steps. -/
def seqCh {x y T'} (hx : Ch s x a) (hy : Gn s α β φ ε S T y a)
    (ha : a = .nonAtomic → ∀ N, lin N ≤ β N ∧ lin N ≤ φ N)
    (hT : ∀ pos inp c1 r1 p1 c2 r2, s.run x a pos inp = .ok c1 r1 p1 → s.Then a r1 c2 r2 → T r2 → T' inp := by
      exact fun _ _ _ _ _ _ _ _ _ h => h.elim)
    (hβ : ∀ N, 1 ≤ β N := by units) (hφ : ∀ N, 1 ≤ φ N := by units) :
    Gn s α β φ ε S T' (.seq x y) a := ⟨hx.1 + hy.1 + s.κ + 1, fun N pos inp hN => by
  have hβ := hβ N
  have hφ := hφ N
  have hκ : s.κa a N ≤ s.κ * β N ∧ s.κa a N ≤ s.κ * φ N := by
    unfold Sk.κa
    split
    · rename_i h
      obtain ⟨h1, h2⟩ := ha h N
      exact ⟨Nat.mul_le_mul_left _ h1, Nat.mul_le_mul_left _ h2⟩
    · simp
  have hxc := hx.2 pos inp
  have hm : ∀ n, 1 ≤ n → hx.1 ≤ hx.1 * n := fun n hn => by
    calc hx.1 = hx.1 * 1 := by simp
      _ ≤ _ := Nat.mul_le_mul_left _ hn
  have hm1 := hm _ hβ
  have hm2 := hm _ hφ
  simp only [Nat.add_mul, Nat.one_mul]
  constructor
  · intro k r ps hr
    obtain ⟨c1, r1, p1, c2, r2, c3, p3, h1, h2, h3, rfl, e, hc⟩ := seq_cost_ok s hN hr
    have hN2 : r2.length ≤ N := by rw [e, h2.1] at hN; simp at hN; omega
    have hk : ∀ c : Nat, c * (α N * c3.length + β N) ≤ c * (α N * (c1 ++ c2 ++ c3).length + β N) := fun c =>
      Nat.mul_le_mul_left _ (Nat.add_le_add_right (Nat.mul_le_mul_left _ (by simp only [List.length_append]; omega)) _)
    have hk' : ∀ c : Nat, c * β N ≤ c * (α N * (c1 ++ c2 ++ c3).length + β N) := fun c => Nat.mul_le_mul_left _ (by omega)
    have hk1 := hk hy.1
    have hk2 := hk' hx.1
    have hk3 := hk' s.κ
    rcases (hy.2 N _ r2 hN2).1 _ _ _ h3 with h4 | ⟨h4, h5⟩
    · left; omega
    · right; exact ⟨h4, by omega⟩
  · intro hr
    rcases seq_cost_fail s hN hr with ⟨h1, hc⟩ | ⟨c1, r1, p1, c2, r2, h1, h2, h3, e, hc⟩
    · left; omega
    · have hN2 : r2.length ≤ N := by rw [e, h2.1] at hN; simp at hN; omega
      rcases (hy.2 N _ r2 hN2).2 h3 with h4 | ⟨h4, h5⟩
      · left; omega
      · right; exact ⟨hT _ _ _ _ _ _ _ h1 h2 h4, by omega⟩⟩

/-- `x ~ y` where `x` is cheap: its cost is at most a failure's. -/
def seqTok {x y αx S' T'} (hx : Gn s αx β φ zero none' none' x a) (hy : Gn s α β φ ε S T y a)
    (ha : a = .nonAtomic → ∀ N, lin N ≤ β N ∧ lin N ≤ φ N)
    (hT : ∀ pos inp c1 r1 p1 c2 r2, s.run x a pos inp = .ok c1 r1 p1 → s.Then a r1 c2 r2 → T r2 → T' inp := by
      exact fun _ _ _ _ _ _ _ _ _ h => h.elim)
    (hS : ∀ r, S r → S' r := by exact fun _ h => h)
    (hα : ∀ N, αx N ≤ α N := by units)
    (hx' : ∀ N, αx N * N ≤ φ N := by units) (hβφ : ∀ N, β N ≤ φ N := by units)
    (hβ : ∀ N, 1 ≤ β N := by units) :
    Gn s α β φ ε S' T' (.seq x y) a := ⟨2 * hx.1 + hy.1 + s.κ + 1, fun N pos inp hN => by
  have hβ := hβ N
  have hκ : s.κa a N ≤ s.κ * β N ∧ s.κa a N ≤ s.κ * φ N := by
    unfold Sk.κa
    split
    · rename_i h
      obtain ⟨h1, h2⟩ := ha h N
      exact ⟨Nat.mul_le_mul_left _ h1, Nat.mul_le_mul_left _ h2⟩
    · simp
  have hφ1 := hβφ N
  obtain ⟨hx1, hx2⟩ := hx.2 N pos inp hN
  simp only [Nat.add_mul, Nat.one_mul]
  constructor
  · intro k r ps hr
    obtain ⟨c1, r1, p1, c2, r2, c3, p3, h1, h2, h3, rfl, e, hc⟩ := seq_cost_ok s hN hr
    have hN2 : r2.length ≤ N := by rw [e, h2.1] at hN; simp at hN; omega
    have hxk : s.cost x a pos inp ≤ hx.1 * (αx N * c1.length + β N) := by
      rcases hx1 _ _ _ h1 with h | ⟨h, -⟩
      · exact h
      · exact h.elim
    have hk : ∀ (c : Nat), c * (αx N * c1.length + β N) ≤ c * (α N * (c1 ++ c2 ++ c3).length + β N) := fun c =>
      Nat.mul_le_mul_left _ (Nat.add_le_add_right (Nat.mul_le_mul (hα N) (by simp only [List.length_append]; omega)) _)
    have hk1 : ∀ c : Nat, c * (α N * c3.length + β N) ≤ c * (α N * (c1 ++ c2 ++ c3).length + β N) := fun c =>
      Nat.mul_le_mul_left _ (Nat.add_le_add_right (Nat.mul_le_mul_left _ (by simp only [List.length_append]; omega)) _)
    have hk' : ∀ c : Nat, c * β N ≤ c * (α N * (c1 ++ c2 ++ c3).length + β N) := fun c => Nat.mul_le_mul_left _ (by omega)
    have hk2 := hk hx.1
    have hk3 := hk1 hy.1
    have hk4 := hk' s.κ
    generalize hM : α N * (c1 ++ c2 ++ c3).length + β N = M at *
    have hM1 : 1 ≤ M := by omega
    rw [Nat.mul_assoc]
    rcases (hy.2 N _ r2 hN2).1 _ _ _ h3 with h4 | ⟨h4, h5⟩
    · left; omega
    · right; exact ⟨hS _ h4, by omega⟩
  · intro hr
    rw [Nat.mul_assoc]
    rcases seq_cost_fail s hN hr with ⟨h1, hc⟩ | ⟨c1, r1, p1, c2, r2, h1, h2, h3, e, hc⟩
    · left
      rcases hx2 h1 with h | ⟨h, -⟩
      · omega
      · exact h.elim
    · have hN2 : r2.length ≤ N := by rw [e, h2.1] at hN; simp at hN; omega
      have hxk : s.cost x a pos inp ≤ hx.1 * (2 * φ N) := by
        rcases hx1 _ _ _ h1 with h | ⟨h, -⟩
        · refine h.trans (Nat.mul_le_mul_left _ ?_)
          have h5 : αx N * c1.length ≤ αx N * N := Nat.mul_le_mul_left _ (by rw [e] at hN; simp at hN; omega)
          have := hx' N
          omega
        · exact h.elim
      have e2 : hx.1 * (2 * φ N) = 2 * (hx.1 * φ N) := by ring
      rcases (hy.2 N _ r2 hN2).2 h3 with h4 | ⟨h4, h5⟩
      · left; omega
      · right; exact ⟨hT _ _ _ _ _ _ _ h1 h2 h4, by omega⟩⟩

/-- `x ~ y` in general: a failure after a success of `x` is expensive. -/
def seqCommit {x y S1 T1 S2 T2} (hx : Gn s α β φ ε S1 T1 x a) (hy : Gn s α β φ ε S2 T2 y a)
    (ha : a = .nonAtomic → ∀ N, lin N ≤ β N ∧ lin N ≤ φ N)
    (hS1 : ∀ r1 c2 r2 pos c3 r p3, S1 r1 → s.Then a r1 c2 r2 → s.run y a pos r2 = .ok c3 r p3 → S r)
    (hS2 : ∀ r, S2 r → S r := by exact fun _ h => h)
    (hT1 : ∀ r, T1 r → T r := by exact fun _ h => h)
    (hT : ∀ pos inp c1 r1 p1, s.run x a pos inp = .ok c1 r1 p1 → T inp)
    (hα : ∀ N, α N * N ≤ ε N := by units) (hβφ : ∀ N, β N ≤ φ N := by units)
    (hβ : ∀ N, 1 ≤ β N := by units) :
    Gn s α β φ ε S T (.seq x y) a := ⟨2 * hx.1 + hy.1 + s.κ + 1, fun N pos inp hN => by
  have hβ := hβ N
  have hκ : s.κa a N ≤ s.κ * β N ∧ s.κa a N ≤ s.κ * φ N := by
    unfold Sk.κa
    split
    · rename_i h
      obtain ⟨h1, h2⟩ := ha h N
      exact ⟨Nat.mul_le_mul_left _ h1, Nat.mul_le_mul_left _ h2⟩
    · simp
  have hφ1 := hβφ N
  obtain ⟨hx1, hx2⟩ := hx.2 N pos inp hN
  simp only [Nat.add_mul, Nat.one_mul, Nat.mul_assoc]
  constructor
  · intro k r ps hr
    obtain ⟨c1, r1, p1, c2, r2, c3, p3, h1, h2, h3, rfl, e, hc⟩ := seq_cost_ok s hN hr
    have hN2 : r2.length ≤ N := by rw [e, h2.1] at hN; simp at hN; omega
    have hk : ∀ (c : Nat), c * (α N * c1.length + β N) ≤ c * (α N * (c1 ++ c2 ++ c3).length + β N) := fun c =>
      Nat.mul_le_mul_left _ (Nat.add_le_add_right (Nat.mul_le_mul_left _ (by simp only [List.length_append]; omega)) _)
    have hk1 : ∀ c : Nat, c * (α N * c3.length + β N) ≤ c * (α N * (c1 ++ c2 ++ c3).length + β N) := fun c =>
      Nat.mul_le_mul_left _ (Nat.add_le_add_right (Nat.mul_le_mul_left _ (by simp only [List.length_append]; omega)) _)
    have hk' : ∀ c : Nat, c * β N ≤ c * (α N * (c1 ++ c2 ++ c3).length + β N) := fun c => Nat.mul_le_mul_left _ (by omega)
    have hk2 := hk hx.1
    have hk3 := hk1 hy.1
    have hk4 := hk' s.κ
    have hx3 := hx1 _ _ _ h1
    have hy3 := (hy.2 N _ r2 hN2).1 _ _ _ h3
    generalize hM : α N * (c1 ++ c2 ++ c3).length + β N = M at *
    have hM1 : 1 ≤ M := by omega
    rcases hx3 with h6 | ⟨h6, h7⟩ <;> rcases hy3 with h4 | ⟨h4, h5⟩
    · left; omega
    · right; exact ⟨hS2 _ h4, by omega⟩
    · right; exact ⟨hS1 _ _ _ _ _ _ _ h6 h2 h3, by omega⟩
    · right; exact ⟨hS2 _ h4, by omega⟩
  · intro hr
    rcases seq_cost_fail s hN hr with ⟨h1, hc⟩ | ⟨c1, r1, p1, c2, r2, h1, h2, h3, e, hc⟩
    · rcases hx2 h1 with h | ⟨h, h'⟩
      · left; omega
      · right; exact ⟨hT1 _ h, by omega⟩
    · right
      refine ⟨hT _ _ _ _ _ h1, ?_⟩
      have hN2 : r2.length ≤ N := by rw [e, h2.1] at hN; simp at hN; omega
      have hxk : s.cost x a pos inp ≤ hx.1 * φ N + 2 * (hx.1 * ε N) := by
        have h8 : hx.1 * (α N * c1.length + β N) ≤ hx.1 * φ N + hx.1 * ε N := by
          rw [← Nat.mul_add]
          refine Nat.mul_le_mul_left _ ?_
          have h5 : α N * c1.length ≤ α N * N := Nat.mul_le_mul_left _ (by rw [e] at hN; simp at hN; omega)
          have := hα N
          omega
        rcases hx1 _ _ _ h1 with h | ⟨-, h⟩ <;> omega
      rcases (hy.2 N _ r2 hN2).2 h3 with h4 | ⟨h4, h5⟩ <;> omega⟩

/-- One round of a repetition after the first. -/
def round (s : Sk) (x : PExpr) (a : Atomicity) (p : Nat) (i : Str) : Res × Nat :=
  seqResC s.fn a p (.ok [] i [], 0) (fun p' i' => runC s.fn x a p' i')

theorem star_cost_ok (s : Sk) {x a pos inp k r ps} (h : s.run (.star x) a pos inp = .ok k r ps) :
    (s.run x a pos inp = .fail ∧ k = [] ∧ r = inp ∧ s.cost (.star x) a pos inp = s.cost x a pos inp + 1) ∨
    ∃ c1 r1 p1 c2 p2, s.run x a pos inp = .ok c1 r1 p1 ∧
      (repLoopC (round s x a) (r1.length + 1) (pos + blen c1) r1).1 = .ok c2 r p2 ∧ k = c1 ++ c2 ∧
      s.cost (.star x) a pos inp = s.cost x a pos inp + (repLoopC (round s x a) (r1.length + 1) (pos + blen c1) r1).2 + 1 := by
  rw [Sk.run, ← runC_fst] at h
  have hx := runC_fst s.fn x a pos inp
  simp only [Sk.cost, Sk.run, ← hx]
  simp only [runC] at h ⊢
  cases hxr : (runC s.fn x a pos inp).1 with
  | fail =>
    simp only [hxr] at h ⊢
    injection h with e1 e2 e3
    exact .inl ⟨trivial, e1.symm, e2.symm, trivial⟩
  | diverge => simp [hxr] at h
  | ok c1 r1 p1 =>
    simp only [hxr] at h ⊢
    right
    cases ht : (repLoopC (round s x a) (r1.length + 1) (pos + blen c1) r1) with
    | mk t kt =>
      have ht' : (repLoopC (fun p i => seqResC s.fn a p (.ok [] i [], 0) (fun p' i' => runC s.fn x a p' i')) (r1.length + 1)
        (pos + blen c1) r1) = (t, kt) := ht
      rw [ht'] at h ⊢
      cases t with
      | fail => simp at h
      | diverge => simp at h
      | ok c2 r2 p2 =>
        simp only at h
        injection h with e1 e2 e3
        subst e1 e2
        exact ⟨c1, r1, p1, c2, p2, rfl, by rw [ht], rfl, by rw [ht]⟩

theorem repLoop_no_fail {step : Nat → Str → Res} : ∀ fuel pos inp, repLoop step fuel pos inp ≠ .fail := by
  intro fuel
  induction fuel with
  | zero => intro pos inp; simp [repLoop]
  | succ n ih =>
    intro pos inp
    unfold repLoop
    cases step pos inp with
    | fail => simp
    | diverge => simp
    | ok c r ps =>
      cases c with
      | nil => simp
      | cons x xs =>
        simp only
        have := ih (pos + blen (x :: xs)) r
        cases h : repLoop step n (pos + blen (x :: xs)) r <;> simp_all

theorem star_no_fail (s : Sk) {x a pos inp} (h : s.run (.star x) a pos inp = .fail) : False := by
  simp only [Sk.run, run] at h
  cases hx : Dbml.run (fun i => (s.fn i).1) x a pos inp with
  | fail => simp [hx] at h
  | diverge => simp [hx] at h
  | ok c r ps =>
    simp only [hx] at h
    split at h <;> try contradiction
    rename_i h1
    exact repLoop_no_fail _ _ _ h1

/-- `x*`. The extra of a round is only charged if the next round fails. -/
def star {x α' φ' S' T'} (hx : Gn s α β φ ε S T x a)
    (ha : a = .nonAtomic → ∀ N, lin N ≤ α' N ∧ lin N ≤ φ N)
    (hS : ∀ r1 c2 r2 pos, S r1 → s.Then a r1 c2 r2 → s.run x a pos r2 = .fail)
    (hS' : ∀ r, S r → S' r := by exact fun _ h => h)
    (hT : ∀ r, T r → S' r)
    (hT' : ∀ r1 c2 r2, s.Then a r1 c2 r2 → T r2 → S' r1)
    (hα : ∀ N, α N ≤ α' N := by units) (hβ : ∀ N, β N ≤ α' N := by units) (h1 : ∀ N, 1 ≤ α' N := by units)
    (hφ : ∀ N, 1 ≤ φ N := by units) (hβφ : ∀ N, β N ≤ φ N := by units) :
    Gn s α' φ φ' ε S' T' (.star x) a := ⟨2 * hx.1 + s.κ + 3 + 2 * (hx.1 + hx.1 + s.κ + 4), fun N pos inp hN => by
  have hα := hα N
  have hβ := hβ N
  have h1' := h1 N
  have hφ := hφ N
  have hκ : s.κa a N ≤ s.κ * α' N ∧ s.κa a N ≤ s.κ * φ N := by
    unfold Sk.κa
    split
    · rename_i h
      obtain ⟨h1, h2⟩ := ha h N
      exact ⟨Nat.mul_le_mul_left _ h1, Nat.mul_le_mul_left _ h2⟩
    · simp
  have hab : ∀ n : Nat, 1 ≤ n → hx.1 * (α N * n + β N) ≤ (2 * hx.1 * α' N) * n := by
    intro n hn
    calc hx.1 * (α N * n + β N) ≤ hx.1 * (α' N * n + α' N * n) := by
          refine Nat.mul_le_mul_left _ (Nat.add_le_add (Nat.mul_le_mul_right _ hα) (hβ.trans ?_))
          exact Nat.le_mul_of_pos_right _ hn
      _ = _ := by ring
  let A := 2 * hx.1 * α' N + s.κ * α' N + α' N
  let b := hx.1 * φ N + s.κ * φ N + φ N
  have hstep : ∀ p (i : Str), i.length ≤ N → ∃ c2 r2, s.Then a i c2 r2 ∧
      (round s x a p i).2 ≤ s.κa a N + s.cost x a (p + blen c2) r2 + 1 ∧
      ((s.run x a (p + blen c2) r2 = .fail ∧ (round s x a p i).1 = .fail) ∨ (round s x a p i).1 = .diverge ∨
        ∃ c3 r3 p3, s.run x a (p + blen c2) r2 = .ok c3 r3 p3 ∧ (round s x a p i).1 = .ok (c2 ++ c3) r3 p3) := by
    intro p i hi
    rcases seqResC_cases s (a := a) (pos := p) (ra := (.ok [] i [], 0)) (kb := fun p i => runC s.fn x a p i) (N := N)
      with ⟨h3, h4⟩ | ⟨h3, h4⟩ | ⟨c1, r1, p1, c2, r2, h3, h4, h5, h6⟩
    · simp at h3
    · simp at h3
    · injection h3 with e1 e2 e3
      subst e1 e2 e3
      refine ⟨c2, r2, h4, ?_, ?_⟩
      · have := h5 hi
        simpa [blen, round] using this
      · simp only [runC_fst] at h6
        rcases h6 with ⟨h7, h8⟩ | ⟨h7, h8⟩ | ⟨c3, r3, p3, h7, h8⟩
        · left; exact ⟨by simpa [blen] using h7, h8⟩
        · right; left; exact h8
        · right; right; exact ⟨c3, r3, p3, by simpa [blen] using h7, by simpa [round] using h8⟩
  have hfail : ∀ p i, S i → (round s x a p i).1 = .fail := by
    intro p i h
    rcases seqResC_cases s (a := a) (pos := p) (ra := (.ok [] i [], 0)) (kb := fun p i => runC s.fn x a p i) (N := N)
      with ⟨h3, h4⟩ | ⟨h3, h4⟩ | ⟨c1, r1, p1, c2, r2, h3, h4, h5, h6⟩
    · simp at h3
    · simp at h3
    · injection h3 with e1 e2 e3
      subst e1 e2 e3
      have hf := hS _ _ _ (p + blen [] + blen c2) h h4
      simp only [runC_fst] at h6
      rcases h6 with ⟨h7, h8⟩ | ⟨h7, h8⟩ | ⟨c3, r3, p3, h7, h8⟩
      · exact h8
      · exact absurd (h7.symm.trans hf) (by simp)
      · exact absurd (h7.symm.trans hf) (by simp)
  have hloop := loop_sum (step := round s x a) (N := N) (A := A) (b := b) (E := hx.1 * ε N) (S := S)
    (T := fun i => ∃ c2 r2, s.Then a i c2 r2 ∧ T r2)
    (by
      intro p i c r ps h
      simp only [round, seqResC_fst] at h
      obtain ⟨c1, r1, p1, t, r2, q, c2, p2, e1, e2, e3, e4, -⟩ := seqRes_ok h
      injection e1 with e1 e5
      subst e1 e5
      obtain ⟨e6, -⟩ := skipIf_sound s.sound e2
      simp only [runC_fst] at e3
      have := s.split e3
      rw [e6, e4, this]; simp)
    (by
      intro p i c r ps hi hc h
      obtain ⟨c2, r2, h2, h3, h4 | h4 | ⟨c3, r3, p3, h4, h5⟩⟩ := hstep p i hi
      · rw [h4.2] at h; simp at h
      · rw [h4] at h; simp at h
      · rw [h5] at h
        injection h with e1 e2 e3
        subst e1 e2 e3
        have hlen : 1 ≤ (c2 ++ c3).length := List.length_pos_iff.2 hc
        have hle : hx.1 * (α N * c3.length + β N) ≤ (2 * hx.1 * α' N) * (c2 ++ c3).length := by
          refine Nat.le_trans (Nat.mul_le_mul_left _ (Nat.add_le_add_right (Nat.mul_le_mul_left _ ?_) _)) (hab _ hlen)
          simp
        have hA : A * (c2 ++ c3).length = (2 * hx.1 * α' N) * (c2 ++ c3).length + (s.κ * α' N) * (c2 ++ c3).length + α' N * (c2 ++ c3).length := by
          simp only [A, Nat.add_mul]
        have h6 : s.κ * α' N ≤ (s.κ * α' N) * (c2 ++ c3).length := Nat.le_mul_of_pos_right _ hlen
        have h7 : α' N ≤ α' N * (c2 ++ c3).length := Nat.le_mul_of_pos_right _ hlen
        have hN2 : r2.length ≤ N := by rw [h2.1] at hi; simp at hi; omega
        rcases (hx.2 N _ r2 hN2).1 _ _ _ h4 with h8 | ⟨h8, h9⟩
        · left; omega
        · right; exact ⟨h8, by omega⟩)
    (by
      intro p i hi h
      obtain ⟨c2, r2, h2, h3, h4 | h4 | ⟨c3, r3, p3, h4, h5⟩⟩ := hstep p i hi
      · have hN2 : r2.length ≤ N := by rw [h2.1] at hi; simp at hi; omega
        rcases (hx.2 N _ r2 hN2).2 h4.1 with h8 | ⟨h8, h9⟩
        · left; simp only [b]; omega
        · right; exact ⟨⟨c2, r2, h2, h8⟩, by simp only [b]; omega⟩
      · rw [h4] at h; simp at h
      · rw [h5] at h; simp at h)
    hfail
  have hd : ∀ n, (2 * hx.1 + s.κ + 3 + 2 * (hx.1 + hx.1 + s.κ + 4)) * n = 6 * (hx.1 * n) + 3 * (s.κ * n) + 11 * n := by
    intro n; ring
  simp only [hd]
  constructor
  · intro k r ps hr
    have hx0 := hx.2 N pos inp hN
    rcases star_cost_ok s hr with ⟨h2, rfl, rfl, hc⟩ | ⟨c1, r1, p1, c2, p2, h2, h3, rfl, hc⟩
    · rw [hc]
      simp only [List.length_nil, Nat.mul_zero, Nat.zero_add]
      rcases hx0.2 h2 with h3 | ⟨h3, h4⟩
      · left; omega
      · right; refine ⟨hT _ h3, ?_⟩; omega
    · rw [hc]
      have es := s.split h2
      have hN1 : r1.length ≤ N := by rw [es] at hN; simp at hN; omega
      have hl := hloop _ _ _ _ _ _ hN1 h3
      have hS'' : (S r ∨ ∃ c2 r2, s.Then a r c2 r2 ∧ T r2) → S' r := by
        rintro (h | ⟨c2, r2, h, h'⟩)
        · exact hS' _ h
        · exact hT' _ _ _ h h'
      have hAc : (A + 1) * c2.length ≤ (2 * (hx.1 * α' N) + s.κ * α' N + 2 * α' N) * c2.length :=
        Nat.mul_le_mul_right _ (by simp only [A, Nat.mul_assoc]; omega)
      have e1 : (2 * (hx.1 * α' N) + s.κ * α' N + 2 * α' N) * c2.length =
        2 * (hx.1 * (α' N * c2.length)) + s.κ * (α' N * c2.length) + 2 * (α' N * c2.length) := by ring
      have e2 : ∀ c : Nat, c * (α' N * (c1 ++ c2).length + φ N) =
          c * (α' N * c1.length) + c * (α' N * c2.length) + c * φ N := by
        intro c; rw [List.length_append]; ring
      have e4 : α' N * (c1 ++ c2).length + φ N = α' N * c1.length + α' N * c2.length + φ N := by rw [List.length_append]; ring
      have hx1 : hx.1 * (α N * c1.length + β N) ≤ hx.1 * (α' N * c1.length) + hx.1 * β N := by
        rw [← Nat.mul_add]
        exact Nat.mul_le_mul_left _ (Nat.add_le_add_right (Nat.mul_le_mul_right _ hα) _)
      have hx2 : hx.1 * β N ≤ hx.1 * φ N := Nat.mul_le_mul_left _ (hβφ N)
      rw [e2, e2, e4]
      have hbd : b = hx.1 * φ N + s.κ * φ N + φ N := rfl
      rcases hx0.1 _ _ _ h2 with h5 | ⟨h5, h6⟩
      · rcases hl with h7 | ⟨h7, h8⟩
        · left; omega
        · right; exact ⟨hS'' h7, by omega⟩
      · right
        have hf : (round s x a (pos + blen c1) r1).1 = .fail := hfail _ _ h5
        have hr1 : r = r1 := by
          have h3' := h3
          unfold repLoopC at h3'
          simp only [show (round s x a (pos + blen c1) r1).1 = .fail from hf] at h3'
          injection h3' with _ e _
          exact e.symm
        refine ⟨hS' _ (hr1 ▸ h5), ?_⟩
        rcases hl with h7 | ⟨h7, h8⟩ <;> omega
  · intro hr
    exact (star_no_fail s hr).elim⟩

end Gn
end Dbml
