import Verif.Proofs.Quadratic5

/-!
# A family of texts on which the recognizer takes quadratically many steps
-/

namespace Dbml
namespace Gn
open Syntax Source

/-! ## Lower bounds -/

section
variable {s : Sk} {a : Atomicity} {x y : PExpr} {pos : Nat} {inp : Str}

theorem rule_ge {r m} : s.cost x (bodyAtomicity m a) pos inp ≤ s.cost (.rule r m x) a pos inp := by
  simp only [Sk.cost, runC]
  cases (runC s.fn x (bodyAtomicity m a) pos inp).1 <;> simp only <;> omega
theorem alt_ge_left : s.cost x a pos inp ≤ s.cost (.alt x y) a pos inp := by
  simp only [Sk.cost, runC]
  cases (runC s.fn x a pos inp).1 <;> simp only <;> omega
theorem alt_ge_right (h : s.run x a pos inp = .fail) : s.cost y a pos inp ≤ s.cost (.alt x y) a pos inp := by
  have h' : (runC s.fn x a pos inp).1 = .fail := (runC_fst _ _ _ _ _).trans h
  simp only [Sk.cost, runC, h']
  omega
theorem star_ge : s.cost x a pos inp ≤ s.cost (.star x) a pos inp := by
  simp only [Sk.cost, runC]
  cases (runC s.fn x a pos inp).1 with
  | ok c r ps => simp only; split <;> simp only <;> omega
  | fail => simp
  | diverge => simp
theorem seqC_ge_left {ra kb} : ra.2 ≤ (seqResC s.fn a pos ra kb).2 := by
  unfold seqResC
  cases ra.1 with
  | ok c r ps => simp only; cases (skipIfC s.fn a r).1 with
    | ok c2 r2 p2 => simp only; cases (kb (pos + blen c + blen c2) r2).1 <;> simp only <;> omega
    | fail => simp only; omega
    | diverge => simp only; omega
  | fail => simp
  | diverge => simp
theorem seqC_ge_skip {ra kb c r ps} (h : ra.1 = .ok c r ps) : (skipIfC s.fn a r).2 ≤ (seqResC s.fn a pos ra kb).2 := by
  unfold seqResC
  simp only [h]
  cases (skipIfC s.fn a r).1 with
  | ok c2 r2 p2 => simp only; cases (kb (pos + blen c + blen c2) r2).1 <;> simp only <;> omega
  | fail => simp only; omega
  | diverge => simp only; omega
theorem seqC_ge_right {ra kb c r ps c2 r2 p2} (h : ra.1 = .ok c r ps) (h2 : (skipIfC s.fn a r).1 = .ok c2 r2 p2) :
    (kb (pos + blen c + blen c2) r2).2 ≤ (seqResC s.fn a pos ra kb).2 := by
  unfold seqResC
  simp only [h, h2]
  cases (kb (pos + blen c + blen c2) r2).1 <;> simp only <;> omega
theorem seq_ge_left : s.cost x a pos inp ≤ s.cost (.seq x y) a pos inp := by
  simp only [Sk.cost, runC]
  exact seqC_ge_left
theorem seq_ge_skip {c r ps} (h : s.run x .nonAtomic pos inp = .ok c r ps) : (s.fn r).2 ≤ s.cost (.seq x y) .nonAtomic pos inp := by
  simp only [Sk.cost, runC]
  exact seqC_ge_skip (s := s) (a := .nonAtomic) ((runC_fst _ _ _ _ _).trans h)
theorem seq_ge_right {c r ps c2 r2 p2} (h : s.run x a pos inp = .ok c r ps) (h2 : (skipIfC s.fn a r).1 = .ok c2 r2 p2) :
    s.cost y a (pos + blen c + blen c2) r2 ≤ s.cost (.seq x y) a pos inp := by
  simp only [Sk.cost, runC]
  exact seqC_ge_right (kb := fun p i => runC s.fn y a p i) ((runC_fst _ _ _ _ _).trans h) h2

theorem loop_ge {step : Nat → Str → Res × Nat} {fuel p : Nat} {i c r : Str} {ps} (hc : c ≠ []) (h : (step p i).1 = .ok c r ps) :
    (step p i).2 + (repLoopC step fuel (p + blen c) r).2 ≤ (repLoopC step (fuel + 1) p i).2 := by
  unfold repLoopC
  cases c with
  | nil => exact absurd rfl hc
  | cons c0 c =>
    simp only [h]
    conv => lhs; rw [← repLoopC.eq_def]
    cases (repLoopC step fuel (p + blen (c0 :: c)) r).1 <;> simp only <;> omega
end

/-! ## An open comment is scanned to the end -/

theorem notend_fail {w : Str} (h : ¬ k!"*/" <:+: w) (p : Nat) : sk0.run (.str k!"*/") .atomic p w = .fail := by
  have : stripPrefix k!"*/" w = none := by
    cases hh : stripPrefix k!"*/" w with
    | none => rfl
    | some r => exact absurd ⟨[], r, by simpa using (stripPrefix_some hh).symm⟩ h
  simp only [Sk.run, run, this]

theorem char_run {c : Char} {w : Str} (h : ¬ k!"*/" <:+: c :: w) (p : Nat) :
    sk0.run (.neg (.str k!"*/") ~~ G.ANY) .atomic p (c :: w) = .ok [c] w [] := by
  have h1 := notend_fail h p
  simp only [Sk.run, run] at h1 ⊢
  rw [h1]
  simp [seqRes, skipIf, G.ANY, run]

theorem infix_tail {c : Char} {w : Str} (h : ¬ k!"*/" <:+: c :: w) : ¬ k!"*/" <:+: w :=
  fun h' => h (h'.trans (List.suffix_cons c w).isInfix)

theorem body_loop {w : Str} (h : ¬ k!"*/" <:+: w) : ∀ p fuel, w.length < fuel →
    w.length ≤ (repLoopC (round sk0 (.neg (.str k!"*/") ~~ G.ANY) .atomic) fuel p w).2 := by
  induction w with
  | nil => simp
  | cons c w ih =>
    intro p fuel hf
    obtain ⟨fuel, rfl⟩ : ∃ n, fuel = n + 1 := ⟨fuel - 1, by simp at hf; omega⟩
    have hr := char_run h p
    have h0 : (round sk0 (.neg (.str k!"*/") ~~ G.ANY) .atomic p (c :: w)).1 = .ok [c] w [] := by
      have h1 : (runC sk0.fn (.neg (.str k!"*/") ~~ G.ANY) .atomic p (c :: w)).1 = .ok [c] w [] := (runC_fst _ _ _ _ _).trans hr
      simp only [round, seqResC, skipIfC]
      simp [blen, h1]
    have h1 : 1 ≤ (round sk0 (.neg (.str k!"*/") ~~ G.ANY) .atomic p (c :: w)).2 := by
      unfold round seqResC
      simp only [skipIfC]
      cases (runC sk0.fn (.neg (.str k!"*/") ~~ G.ANY) .atomic (p + blen [] + blen []) (c :: w)).1 <;> simp only <;> omega
    have := loop_ge (fuel := fuel) (by simp) h0
    have := ih (infix_tail h) (p + blen [c]) fuel (by simp at hf; omega)
    simp only [List.length_cons]
    omega

theorem body_cost {w : Str} (h : ¬ k!"*/" <:+: w) (p : Nat) : w.length ≤ sk0.cost (.star (.neg (.str k!"*/") ~~ G.ANY)) .atomic p w := by
  cases w with
  | nil => simp
  | cons c w =>
    have h1 : (runC sk0.fn (.neg (.str k!"*/") ~~ G.ANY) .atomic p (c :: w)).1 = .ok [c] w [] :=
      (runC_fst _ _ _ _ _).trans (char_run h p)
    have h2 := body_loop (infix_tail h) (p + blen [c]) (w.length + 1) (by omega)
    have h3 : 1 ≤ (runC sk0.fn (.neg (.str k!"*/") ~~ G.ANY) .atomic p (c :: w)).2 := by
      simp only [runC, seqResC]
      split <;> (try simp only) <;> (try omega)
      split <;> (try simp only) <;> (try omega)
      split <;> simp only <;> omega
    unfold Sk.cost
    rw [runC]
    simp only [h1, List.length_cons]
    unfold round at h2
    split <;> simp only <;> omega

theorem skip_open {w : Str} (h : ¬ k!"*/" <:+: w) : w.length ≤ (G.skipC (k!"/*" ++ w)).2 := by
  have hws : sk0.run (.star G.WHITESPACE) .atomic 0 (k!"/*" ++ w) = .ok [] (k!"/*" ++ w) [] := by
    simp [Sk.run, run, G.WHITESPACE, G.NEWLINE, stripPrefix]
  have h1 : w.length ≤ sk0.cost G.COMMENT .atomic 0 (k!"/*" ++ w) := by
    refine Nat.le_trans ?_ (alt_ge_right (x := G.single_line_comment) (by simp [Sk.run, run, G.single_line_comment, stripPrefix, seqRes]))
    refine Nat.le_trans ?_ (seq_ge_right (c := k!"/*") (r := w) (ps := []) (c2 := []) (r2 := w) (p2 := [])
      (by simp [Sk.run, run, stripPrefix]) (by simp [skipIfC]))
    exact Nat.le_trans (body_cost h _) seq_ge_left
  have h2 : w.length ≤ sk0.cost (.star (G.COMMENT ~~ .star G.WHITESPACE)) .atomic 0 (k!"/*" ++ w) :=
    Nat.le_trans h1 (Nat.le_trans seq_ge_left star_ge)
  exact Nat.le_trans h2 (seq_ge_right (s := sk0) (c := []) (r := k!"/*" ++ w) (ps := []) (c2 := []) (p2 := []) hws (by simp [skipIfC]))

/-! ## The family -/

/-- `n` quoted names that look like the beginning of a comment, and `}`. -/
def opens : Nat → Str
  | 0 => k!"}"
  | n + 1 => k!"\"/*\"" ++ opens n
/-- An enum of `n` values called `/*`. -/
def slow (n : Nat) : Str := k!"Enum e{" ++ opens n

theorem opens_length (n : Nat) : (opens n).length = 4 * n + 1 := by
  induction n with
  | zero => rfl
  | succ n ih => simp [opens, ih]; omega
theorem slow_length (n : Nat) : (slow n).length = 4 * n + 8 := by simp [slow, opens_length]

theorem opens_closed (n : Nat) : ¬ k!"*/" <:+: opens n := by
  induction n with
  | zero => decide
  | succ n ih =>
    intro h
    simp only [opens, List.cons_append, List.nil_append, List.infix_cons_iff] at h
    rcases h with h | h | h | h | h
    · simp at h
    · simp at h
    · simp at h
    · simp at h
    · exact ih h

theorem opens_head (n : Nat) : Starts ['"', '}'] (opens n) := by
  cases n <;> simp [opens, Starts]

theorem open_run (n pos : Nat) : ∃ ps, skG.run G.ident .nonAtomic pos (opens (n + 1)) = .ok k!"\"/*\"" (opens n) ps := by
  obtain ⟨p, h, -⟩ := ident_run (n := .quoted (.of k!"/*")) (r := opens n) (a := .nonAtomic) (by decide) ⟨⟨.nil, by
    intro i hi
    have hi : i < 2 := hi
    match i, hi with
    | 0, _ => decide
    | 1, _ => decide, by
    rintro c cs h
    simp [Quote.of] at h
    rw [← h.1]; decide, by decide⟩, by
      intro _ h
      simp only [Quote.of, List.drop, List.nil_append, List.cons_append, List.infix_cons_iff] at h
      rcases h with h | h
      · simp at h
      · exact opens_closed n h⟩ pos
  exact ⟨[p], by rw [skG_run]; exact h⟩

theorem value_opens (n pos : Nat) : ∃ ps, skG.run G.enum_value .nonAtomic pos (opens (n + 1)) = .ok k!"\"/*\"" (opens n) ps := by
  obtain ⟨p1, h1⟩ := open_run n pos
  have hsol : Solid (opens n) := (opens_head n).solid (by decide)
  have h2 : skG.run G.enum_settings .nonAtomic (pos + blen k!"\"/*\"") (opens n) = .fail :=
    fail_at (by decide) (by decide) (by decide) (opens_head n) fun _ => hsol
  rw [skG_run] at h1 h2
  have h3 := rule_normal (r := .enum_value) (by decide) (c := k!"\"/*\"") (seq_tight (c2 := []) (p2 := []) (fun _ => hsol) h1 (opt_none h2))
  exact ⟨_, by rw [skG_run]; exact h3⟩

theorem value_cost (n pos : Nat) : 2 * n + 1 ≤ skG.cost G.enum_value .nonAtomic pos (opens (n + 1)) := by
  have hd : 2 * n + 1 ≤ skG.cost G.double_quoted_string .nonAtomic pos (opens (n + 1)) := by
    have h1 : ¬ k!"*/" <:+: '"' :: opens n := by
      intro h
      rw [List.infix_cons_iff] at h
      rcases h with h | h
      · simp at h
      · exact opens_closed n h
    have h2 : skG.run (.str k!"\"") .nonAtomic pos (opens (n + 1)) = .ok k!"\"" (k!"/*" ++ ('"' :: opens n)) [] := by
      rw [skG_run]; simp [run, opens, stripPrefix]
    refine Nat.le_trans ?_ (rule_ge (m := .normal))
    refine Nat.le_trans ?_ (seq_ge_skip h2)
    refine Nat.le_trans ?_ (skip_open h1)
    simp [opens_length]; omega
  have hv : skG.run G.var .nonAtomic pos (opens (n + 1)) = .fail := by
    rw [skG_run]; exact var_fail (headP_cons (by decide))
  refine Nat.le_trans ?_ (rule_ge (m := .normal))
  refine Nat.le_trans ?_ seq_ge_left
  refine Nat.le_trans ?_ (rule_ge (m := .normal))
  exact Nat.le_trans hd (alt_ge_right hv)

theorem opens_loop (n : Nat) : ∀ pos fuel, (opens n).length < fuel →
    n * n ≤ (repLoopC (round skG G.enum_value .nonAtomic) fuel pos (opens n)).2 := by
  induction n with
  | zero => simp
  | succ n ih =>
    intro pos fuel hf
    obtain ⟨fuel, rfl⟩ : ∃ n, fuel = n + 1 := ⟨fuel - 1, by omega⟩
    have hsol : Solid (opens (n + 1)) := (opens_head (n + 1)).solid (by decide)
    have hsk : (skipIfC skG.fn .nonAtomic (opens (n + 1))).1 = .ok [] (opens (n + 1)) [] :=
      (skG_skip _).trans (skip_solid hsol)
    obtain ⟨ps, hv⟩ := value_opens n (pos + blen [] + blen [])
    have hv' : (runC skG.fn G.enum_value .nonAtomic (pos + blen [] + blen []) (opens (n + 1))).1 = .ok k!"\"/*\"" (opens n) ps :=
      (runC_fst _ _ _ _ _).trans hv
    have h0 : (round skG G.enum_value .nonAtomic pos (opens (n + 1))).1 = .ok k!"\"/*\"" (opens n) ps := by
      simp only [round, seqResC, hsk, hv']
      rfl
    have h1 : 2 * n + 1 ≤ (round skG G.enum_value .nonAtomic pos (opens (n + 1))).2 :=
      Nat.le_trans (value_cost n _) (seqC_ge_right (kb := fun p i => runC skG.fn G.enum_value .nonAtomic p i) rfl hsk)
    have h2 := loop_ge (fuel := fuel) (by simp) h0
    have h3 := ih (pos + blen k!"\"/*\"") fuel (by rw [opens_length] at hf ⊢; omega)
    have e : (n + 1) * (n + 1) = n * n + (2 * n + 1) := by ring
    omega

theorem opens_star (n pos : Nat) : n * n ≤ skG.cost (.star G.enum_value) .nonAtomic pos (opens n) := by
  cases n with
  | zero => simp
  | succ n =>
    obtain ⟨ps, hv⟩ := value_opens n pos
    have hv' : (runC skG.fn G.enum_value .nonAtomic pos (opens (n + 1))).1 = .ok k!"\"/*\"" (opens n) ps :=
      (runC_fst _ _ _ _ _).trans hv
    have h1 := value_cost n pos
    have h2 := opens_loop n (pos + blen k!"\"/*\"") ((opens n).length + 1) (by omega)
    have e : (n + 1) * (n + 1) = n * n + (2 * n + 1) := by ring
    unfold Sk.cost at h1 ⊢
    rw [runC]
    simp only [hv']
    unfold round at h2
    split <;> simp only <;> omega

theorem slow_cost (n : Nat) : n * n ≤ (pestParseC (slow n)).2 := by
  have hsk : ∀ {i : Str}, Solid i → (skipIfC skG.fn .nonAtomic i).1 = .ok [] i [] := fun h => (skG_skip _).trans (skip_solid h)
  have hb : ∀ p, n * n ≤ skG.cost G.enum_block .nonAtomic p (k!"{" ++ opens n) := by
    intro p
    refine Nat.le_trans ?_ (rule_ge (m := .normal))
    refine Nat.le_trans ?_ (seq_ge_right (c := k!"{") (r := opens n) (ps := []) (by rw [skG_run]; exact str_run)
      (hsk ((opens_head n).solid (by decide))))
    exact Nat.le_trans (opens_star n _) seq_ge_left
  have hid : ∀ p, ∃ ps, skG.run G.decl_ident .nonAtomic p (k!"e{" ++ opens n) = .ok k!"e" (k!"{" ++ opens n) ps := by
    intro p
    obtain ⟨q, h1, -⟩ := ident_run (n := .word k!"e") (r := k!"{" ++ opens n) (a := .nonAtomic) (by decide)
      ⟨⟨'e', [], rfl, by decide, by simp⟩, headP_cons (by decide)⟩ p
    have hsol : Solid (k!"{" ++ opens n) := solid_cons (by decide) (by decide)
    have h3 := rule_normal (r := .decl_ident) (by decide) (c := k!"e") (seq_tight (y := .opt (.str k!"." ~~ G.ident)) (c2 := [])
      (p2 := []) (fun _ => hsol) h1 (opt_none (by simp [run, stripPrefix, seqRes])))
    exact ⟨_, by rw [skG_run]; exact h3⟩
  have he : n * n ≤ skG.cost G.enum_decl .nonAtomic 0 (slow n) := by
    refine Nat.le_trans ?_ (rule_ge (m := .normal))
    refine Nat.le_trans ?_ (seq_ge_right (c := k!"Enum ") (r := k!"e{" ++ opens n) (ps := []) (by rw [skG_run]; rfl)
      (hsk (solid_cons (by decide) (by decide))))
    obtain ⟨ps, h⟩ := hid (0 + blen k!"Enum " + blen [])
    exact Nat.le_trans (hb _) (seq_ge_right h (hsk (solid_cons (by decide) (by decide))))
  have hst : Starts ['E'] (slow n) := ⟨'E', by simp, rfl⟩
  have hsol : Solid (slow n) := hst.solid (by decide)
  have ht : n * n ≤ skG.cost G.top_decl .nonAtomic 0 (slow n) := by
    refine Nat.le_trans ?_ (alt_ge_right (fail_at (by decide) (by decide) (by decide) hst fun _ => hsol))
    refine Nat.le_trans ?_ (alt_ge_right (fail_at (by decide) (by decide) (by decide) hst fun _ => hsol))
    exact Nat.le_trans he alt_ge_left
  change n * n ≤ skG.cost G.schema .nonAtomic 0 (slow n)
  refine Nat.le_trans ?_ (rule_ge (m := .normal))
  refine Nat.le_trans ?_ (seq_ge_right (c := []) (r := slow n) (ps := []) (by rw [skG_run]; rfl) (hsk hsol))
  exact Nat.le_trans (Nat.le_trans ht star_ge) seq_ge_left

end Gn
end Dbml
