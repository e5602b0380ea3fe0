import Verif.Model.Grammar

/-!
# Soundness of the PEG interpreter

`Matches` is the declarative reading of a parsing expression: which text it consumes, before which
remaining text, with which pairs. Every successful `run` is a match.
-/

namespace Dbml

theorem blen_append (a b : Str) : blen (a ++ b) = blen a + blen b := by
  induction a with
  | nil => simp [blen]
  | cons c cs ih => simp [blen, ih]; omega

@[simp] theorem blen_nil : blen [] = 0 := rfl

theorem stripPrefix_some {s inp r : Str} (h : stripPrefix s inp = some r) : inp = s ++ r := by
  induction s generalizing inp with
  | nil => simpa [stripPrefix] using h
  | cons k ks ih =>
    cases inp with
    | nil => simp [stripPrefix] at h
    | cons c cs =>
      simp only [stripPrefix] at h
      split at h
      · subst_vars; simp [ih h]
      · simp at h

theorem stripPrefixCI_some {s inp m r : Str} (h : stripPrefixCI s inp = some (m, r)) :
    inp = m ++ r ∧ m.map asciiLower = s.map asciiLower := by
  induction s generalizing inp m r with
  | nil => simp [stripPrefixCI] at h; simp [h.1.symm, h.2]
  | cons k ks ih =>
    cases inp with
    | nil => simp [stripPrefixCI] at h
    | cons c cs =>
      simp only [stripPrefixCI] at h
      split at h
      · rename_i hk
        simp only [Option.map_eq_some_iff] at h
        obtain ⟨⟨m', r'⟩, h1, h2⟩ := h
        have := ih h1
        simp at h2
        obtain ⟨rfl, rfl⟩ := h2
        simp [this.1, this.2, hk]
      · simp at h

/-- Trivia between parts of a sequence: only in `NonAtomic` mode. -/
def TrivIf (T : Str → Str → Prop) (a : Atomicity) (t rest : Str) : Prop :=
  match a with
  | .nonAtomic => T t rest
  | _ => t = []

/-- The tail of a repetition: items each preceded by trivia, ending where `E` holds (the next item
fails). Arguments: offset, consumed text, remaining text, pairs. -/
inductive Chain (T : Str → Str → Prop) (P : Nat → Str → Str → List Pair → Prop)
    (E : Nat → Str → Prop) : Nat → Str → Str → List Pair → Prop
  | nil {pos rest} : E pos rest → Chain T P E pos [] rest []
  | cons {pos t c c' rest ps ps'} : T t (c ++ (c' ++ rest)) → P (pos + blen t) c (c' ++ rest) ps →
      Chain T P E (pos + blen t + blen c) c' rest ps' →
      Chain T P E pos (t ++ (c ++ c')) rest (ps ++ ps')

/-- PEG matching: `Matches skip T e a pos c rest ps`: at offset `pos`, `e` consumes `c`, leaving `rest`, and emits
`ps`. -/
def Matches (skip : Str → Res) (T : Str → Str → Prop) :
    PExpr → Atomicity → Nat → Str → Str → List Pair → Prop
  | .str s, _, _, c, _, ps => c = s ∧ ps = []
  | .insens s, _, _, c, _, ps => c.map asciiLower = s.map asciiLower ∧ ps = []
  | .cls p, _, _, c, _, ps => ∃ x, c = [x] ∧ p x = true ∧ ps = []
  | .soi, _, pos, c, _, ps => c = [] ∧ pos = 0 ∧ ps = []
  | .eoi, a, pos, c, rest, ps =>
    c = [] ∧ rest = [] ∧ ps = (if a = .atomic then [] else [.mk .EOI ⟨pos, pos⟩ [] []])
  | .seq x y, a, pos, c, rest, ps =>
    ∃ c1 t c2 p1 p2, c = c1 ++ (t ++ c2) ∧ ps = p1 ++ p2 ∧
      Matches skip T x a pos c1 (t ++ (c2 ++ rest)) p1 ∧ TrivIf T a t (c2 ++ rest) ∧
      Matches skip T y a (pos + blen c1 + blen t) c2 rest p2
  | .alt x y, a, pos, c, rest, ps =>
    Matches skip T x a pos c rest ps ∨
      (run skip x a pos (c ++ rest) = .fail ∧ Matches skip T y a pos c rest ps)
  | .opt x, a, pos, c, rest, ps =>
    (c = [] ∧ ps = [] ∧ run skip x a pos rest = .fail) ∨ Matches skip T x a pos c rest ps
  | .star x, a, pos, c, rest, ps =>
    (c = [] ∧ ps = [] ∧ run skip x a pos rest = .fail) ∨
    ∃ c1 c2 p1 p2, c = c1 ++ c2 ∧ ps = p1 ++ p2 ∧ Matches skip T x a pos c1 (c2 ++ rest) p1 ∧
      Chain (TrivIf T a) (fun pos c rest ps => Matches skip T x a pos c rest ps)
        (fun p i => seqRes skip a p (.ok [] i []) (fun p' i' => run skip x a p' i') = .fail)
        (pos + blen c1) c2 rest p2
  | .neg x, a, pos, c, rest, ps => c = [] ∧ ps = [] ∧ run skip x a pos rest = .fail
  | .rule r m body, a, pos, c, rest, ps =>
    ∃ ps', Matches skip T body (bodyAtomicity m a) pos c rest ps' ∧
      ps = (if emits m a then [.mk r ⟨pos, pos + blen c⟩ c ps'] else ps')

/-- A skipper that consumes a prefix satisfying `T` (which may also look at the remaining text). -/
def SkipSound (skip : Str → Res) (T : Str → Str → Prop) : Prop :=
  ∀ inp c r ps, skip inp = .ok c r ps → inp = c ++ r ∧ T c r

theorem skipIf_sound {skip T} (hs : SkipSound skip T) {a inp c r ps}
    (h : skipIf skip a inp = .ok c r ps) : inp = c ++ r ∧ TrivIf T a c r := by
  cases a
  · exact hs _ _ _ _ (by simpa [skipIf] using h)
  all_goals
    simp [skipIf] at h
    obtain ⟨rfl, rfl, rfl⟩ := h
    simp [TrivIf]

theorem seqRes_ok {skip a pos ra kb c r ps} (h : seqRes skip a pos ra kb = .ok c r ps) :
    ∃ c1 r1 p1 t r2 q c2 p2, ra = .ok c1 r1 p1 ∧ skipIf skip a r1 = .ok t r2 q ∧
      kb (pos + blen c1 + blen t) r2 = .ok c2 r p2 ∧ c = c1 ++ (t ++ c2) ∧ ps = p1 ++ p2 := by
  unfold seqRes at h
  split at h <;> try contradiction
  split at h <;> try contradiction
  split at h <;> try contradiction
  rename_i c1 r1 p1 _ c2 r2 q hs _ c3 r3 p3 hk
  injection h with h1 h2 h3
  subst h1 h2 h3
  exact ⟨_, _, _, _, _, _, _, _, rfl, hs, hk, by simp, rfl⟩

theorem repLoop_sound {T : Str → Str → Prop} {P : Nat → Str → Str → List Pair → Prop}
    {step : Nat → Str → Res}
    (hstep : ∀ pos inp c r ps, step pos inp = .ok c r ps →
      inp = c ++ r ∧ ∃ t c', c = t ++ c' ∧ T t (c' ++ r) ∧ P (pos + blen t) c' r ps) :
    ∀ fuel pos inp c r ps, repLoop step fuel pos inp = .ok c r ps →
      inp = c ++ r ∧ Chain T P (fun p i => step p i = .fail) pos c r ps := by
  intro fuel
  induction fuel with
  | zero => intro pos inp c r ps h; simp [repLoop] at h
  | succ n ih =>
    intro pos inp c r ps h
    simp only [repLoop] at h
    split at h
    · rename_i hf; injection h with h1 h2 h3; subst h1 h2 h3; exact ⟨rfl, .nil hf⟩
    · contradiction
    · contradiction
    · rename_i c1 r1 p1 _ hs
      split at h <;> try contradiction
      rename_i c2 r2 p2 hr
      injection h with h1 h2 h3; subst h1 h2 h3
      obtain ⟨e1, t, c', rfl, ht, hp⟩ := hstep _ _ _ _ _ hs
      obtain ⟨e2, hc⟩ := ih _ _ _ _ _ hr
      refine ⟨by rw [e1, e2]; simp, ?_⟩
      rw [List.append_assoc]
      subst e2
      refine .cons ht hp ?_
      rw [blen_append] at hc
      rwa [Nat.add_assoc]

/-- **Soundness**: a successful run splits the input and is a match. -/
theorem run_sound {skip T} (hs : SkipSound skip T) (e : PExpr) :
    ∀ a pos inp c r ps, run skip e a pos inp = .ok c r ps →
      inp = c ++ r ∧ Matches skip T e a pos c r ps := by
  induction e with
  | str s =>
    intro a pos inp c r ps h
    simp only [run] at h
    split at h <;> try contradiction
    rename_i h1
    injection h with e1 e2 e3; subst e1 e2 e3
    exact ⟨stripPrefix_some h1, rfl, rfl⟩
  | insens s =>
    intro a pos inp c r ps h
    simp only [run] at h
    split at h <;> try contradiction
    rename_i h1
    injection h with e1 e2 e3; subst e1 e2 e3
    have := stripPrefixCI_some h1
    exact ⟨this.1, this.2, rfl⟩
  | cls p =>
    intro a pos inp c r ps h
    simp only [run] at h
    split at h <;> try contradiction
    split at h <;> try contradiction
    rename_i h1
    injection h with e1 e2 e3; subst e1 e2 e3
    exact ⟨rfl, _, rfl, h1, rfl⟩
  | soi =>
    intro a pos inp c r ps h
    simp only [run] at h
    split at h <;> try contradiction
    rename_i h1
    injection h with e1 e2 e3; subst e1 e2 e3
    exact ⟨rfl, rfl, h1, rfl⟩
  | eoi =>
    intro a pos inp c r ps h
    simp only [run] at h
    split at h <;> try contradiction
    injection h with e1 e2 e3; subst e1 e2 e3
    exact ⟨rfl, rfl, rfl, rfl⟩
  | seq x y ihx ihy =>
    intro a pos inp c r ps h
    simp only [run] at h
    obtain ⟨c1, r1, p1, t, r2, q, c2, p2, hx, hsk, hy, rfl, rfl⟩ := seqRes_ok h
    obtain ⟨e1, m1⟩ := ihx _ _ _ _ _ _ hx
    obtain ⟨e2, m2⟩ := skipIf_sound hs hsk
    obtain ⟨e3, m3⟩ := ihy _ _ _ _ _ _ hy
    subst e3 e2 e1
    exact ⟨by simp, c1, t, c2, p1, p2, rfl, rfl, m1, m2, m3⟩
  | alt x y ihx ihy =>
    intro a pos inp c r ps h
    simp only [run] at h
    split at h
    · rename_i hf
      obtain ⟨e1, m1⟩ := ihy _ _ _ _ _ _ h
      exact ⟨e1, .inr ⟨e1 ▸ hf, m1⟩⟩
    · obtain ⟨e1, m1⟩ := ihx _ _ _ _ _ _ h
      exact ⟨e1, .inl m1⟩
  | opt x ihx =>
    intro a pos inp c r ps h
    simp only [run] at h
    split at h
    · rename_i hf
      injection h with e1 e2 e3; subst e1 e2 e3
      exact ⟨rfl, .inl ⟨rfl, rfl, hf⟩⟩
    · obtain ⟨e1, m1⟩ := ihx _ _ _ _ _ _ h
      exact ⟨e1, .inr m1⟩
  | star x ihx =>
    intro a pos inp c r ps h
    simp only [run] at h
    split at h
    · rename_i hf
      injection h with e1 e2 e3; subst e1 e2 e3
      exact ⟨rfl, .inl ⟨rfl, rfl, hf⟩⟩
    · contradiction
    · rename_i c1 r1 p1 hx
      split at h <;> try contradiction
      rename_i c2 r2 p2 hr
      injection h with e1 e2 e3; subst e1 e2 e3
      obtain ⟨e1, m1⟩ := ihx _ _ _ _ _ _ hx
      have := repLoop_sound (T := TrivIf T a)
        (P := fun pos c rest ps => Matches skip T x a pos c rest ps) (by
          intro pos inp c r ps h
          obtain ⟨c1, r1, p1, t, r2, q, c2, p2, hx, hsk, hy, rfl, rfl⟩ := seqRes_ok h
          injection hx with e1 e2 e3; subst e1 e2 e3
          obtain ⟨e2, m2⟩ := skipIf_sound hs hsk
          obtain ⟨e3, m3⟩ := ihx _ _ _ _ _ _ hy
          subst e3 e2
          exact ⟨by simp, t, c2, by simp, m2, by simpa using m3⟩) _ _ _ _ _ _ hr
      obtain ⟨e2, m2⟩ := this
      subst e2 e1
      exact ⟨by simp, .inr ⟨_, _, _, _, rfl, rfl, m1, m2⟩⟩
  | neg x ihx =>
    intro a pos inp c r ps h
    simp only [run] at h
    split at h <;> try contradiction
    rename_i h1
    injection h with e1 e2 e3; subst e1 e2 e3
    exact ⟨rfl, rfl, rfl, h1⟩
  | rule rl m body ih =>
    intro a pos inp c r ps h
    simp only [run] at h
    split at h <;> try contradiction
    rename_i h1
    injection h with e1 e2 e3; subst e1 e2 e3
    obtain ⟨e1, m1⟩ := ih _ _ _ _ _ _ h1
    exact ⟨e1, _, m1, rfl⟩

end Dbml
