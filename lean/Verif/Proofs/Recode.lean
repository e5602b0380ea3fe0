import Verif.Spec.Recode
import Verif.Spec.Source
import Verif.Proofs.Printable
import Mathlib.Data.List.Forall2

/-!
# Recoding a text
-/

namespace Dbml
open Syntax Source

/-- ASCII characters other than line feed and carriage return. -/
def PlainC (c : Char) : Prop := c.toNat < 128 ∧ c ≠ '\n' ∧ c ≠ '\r'
def PlainS (s : Str) : Prop := ∀ c ∈ s, PlainC c

instance (c : Char) : Decidable (PlainC c) := by unfold PlainC; infer_instance
instance (s : Str) : Decidable (PlainS s) := by unfold PlainS; infer_instance

variable {e : Str} {σ : Char → Char}

section
variable (he : IsEol e) (hσ : KeepsAscii σ)

local notation "f" => recode e σ

theorem recode_nil : f [] = [] := rfl

theorem eol_cons (he : IsEol e) : ∃ c t, e = c :: t ∧ (c = '\n' ∨ c = '\r') ∧ ∀ x ∈ t, x = '\n' ∨ x = '\r' := by
  rcases he with rfl | rfl | rfl
  · exact ⟨'\n', [], rfl, by simp, by simp⟩
  · exact ⟨'\r', ['\n'], rfl, by simp, by simp⟩
  · exact ⟨'\r', [], rfl, by simp, by simp⟩

theorem sigma_plain {c : Char} (hσ : KeepsAscii σ) (h : PlainC c) : σ c = c := by
  have := hσ c; rw [if_pos h.1] at this; exact this

theorem sigma_other {c : Char} (hσ : KeepsAscii σ) (h : ¬ PlainC c) (h1 : c ≠ '\n') (h2 : c ≠ '\r') :
    ¬ PlainC (σ c) ∧ σ c ≠ '\n' ∧ σ c ≠ '\r' ∧ 128 ≤ (σ c).toNat := by
  have := hσ c
  rw [if_neg fun h' => h ⟨h', h1, h2⟩] at this
  refine ⟨fun h => by have := h.1; omega, ?_, ?_, this⟩ <;> intro h <;> rw [h] at this <;> revert this <;> decide

theorem recode_plain {c : Char} (hσ : KeepsAscii σ) (h : PlainC c) (s : Str) : f (c :: s) = c :: f s := by
  rw [recode, if_neg h.2.2, if_neg h.2.1, sigma_plain hσ h]; rfl

theorem recode_lf (s : Str) : f ('\n' :: s) = e ++ f s := by
  rw [recode, if_neg (by decide), if_pos rfl]

theorem recode_cr (s : Str) (h : s.head? ≠ some '\n') : f ('\r' :: s) = e ++ f s := by
  rw [recode, if_pos rfl, if_neg h]

theorem recode_crlf (s : Str) : f ('\r' :: '\n' :: s) = f ('\n' :: s) := by
  rw [recode, if_pos rfl, if_pos (by simp)]; rfl

theorem recode_wide {c : Char} (h1 : c ≠ '\n') (h2 : c ≠ '\r') (s : Str) : f (c :: s) = σ c :: f s := by
  rw [recode, if_neg h2, if_neg h1]; rfl

/-- What a character contributes. -/
theorem recode_cons (he : IsEol e) (hσ : KeepsAscii σ) (c : Char) (s : Str) :
    (PlainC c ∧ f (c :: s) = c :: f s) ∨
    (¬ PlainC c ∧ ∃ g, f (c :: s) = g ++ f s ∧ (∀ x ∈ g, ¬ PlainC x) ∧ (g = [] → s.head? = some '\n' ∧ c = '\r')) := by
  by_cases h : PlainC c
  · exact .inl ⟨h, recode_plain hσ h s⟩
  · refine .inr ⟨h, ?_⟩
    have hE : ∀ x ∈ e, ¬ PlainC x := by
      obtain ⟨c, t, rfl, h1, h2⟩ := eol_cons he
      intro x hx hp
      rcases List.mem_cons.1 hx with rfl | hx
      · exact h1.elim hp.2.1 hp.2.2
      · exact (h2 x hx).elim hp.2.1 hp.2.2
    have hne : e ≠ [] := by obtain ⟨c, t, rfl, -⟩ := eol_cons he; simp
    by_cases h1 : c = '\n'
    · subst h1; exact ⟨e, recode_lf s, hE, fun h => absurd h hne⟩
    by_cases h2 : c = '\r'
    · subst h2
      by_cases hs : s.head? = some '\n'
      · refine ⟨[], ?_, by simp, fun _ => ⟨hs, rfl⟩⟩
        cases s with
        | nil => simp at hs
        | cons x s => simp at hs; subst hs; exact recode_crlf s
      · exact ⟨e, recode_cr s hs, hE, fun h => absurd h hne⟩
    · refine ⟨[σ c], recode_wide h1 h2 s, ?_, by simp⟩
      intro x hx
      rw [List.mem_singleton.1 hx]
      exact (sigma_other hσ h h1 h2).1

theorem recode_eq_nil (he : IsEol e) (hσ : KeepsAscii σ) : ∀ {s : Str}, f s = [] → s = []
  | [], _ => rfl
  | c :: s, h => by
    rcases recode_cons he hσ c s with ⟨-, h'⟩ | ⟨-, g, h', -, hg⟩
    · rw [h'] at h; simp at h
    · rw [h'] at h
      obtain ⟨h1, h2⟩ := List.append_eq_nil_iff.1 h
      have := recode_eq_nil he hσ h2
      subst this
      have := (hg h1).1
      simp at this

/-- If the recoded text begins with a plain character, then so does the text. -/
theorem recode_head (he : IsEol e) (hσ : KeepsAscii σ) : ∀ {s : Str} {c : Char} {t : Str}, f s = c :: t → PlainC c → ∃ s', s = c :: s' ∧ f s' = t
  | [], c, t, h, _ => by simp [recode] at h
  | x :: s, c, t, h, hc => by
    rcases recode_cons he hσ x s with ⟨-, h'⟩ | ⟨hx, g, h', hg, hn⟩
    · rw [h'] at h
      simp at h
      obtain ⟨rfl, rfl⟩ := h
      exact ⟨s, rfl, rfl⟩
    · rw [h'] at h
      cases g with
      | cons y g =>
        simp at h
        exact absurd (h.1 ▸ hc) (hg y (by simp))
      | nil =>
        obtain ⟨s', rfl, -⟩ := recode_head he hσ (s := s) (by simpa using h) hc
        have := (hn rfl).1
        simp at this
        exact absurd this hc.2.1

theorem recode_plain_append (hσ : KeepsAscii σ) : ∀ {a : Str} (b : Str), PlainS a → f (a ++ b) = a ++ f b
  | [], _, _ => rfl
  | c :: a, b, h => by
    rw [List.cons_append, recode_plain hσ (h c (by simp)), recode_plain_append hσ b fun x hx => h x (by simp [hx])]
    rfl

theorem recode_id (hσ : KeepsAscii σ) {s : Str} (h : PlainS s) : f s = s := by
  have := recode_plain_append (e := e) hσ [] h
  simpa [recode] using this

/-- The texts can be recoded one after the other. -/
def Cut (a b : Str) : Prop := a.getLast? = some '\r' → b.head? ≠ some '\n'

theorem recode_append : ∀ {a b : Str}, Cut a b → f (a ++ b) = f a ++ f b
  | [], _, _ => rfl
  | [c], b, h => by
    by_cases hc : c = '\r'
    · subst hc
      rw [List.singleton_append, recode_cr b (h rfl), recode_cr [] (by simp)]
      simp [recode]
    · rw [List.singleton_append, recode, recode, if_neg hc, if_neg hc]; simp [recode]
  | c :: d :: a, b, h => by
    have := recode_append (a := d :: a) (b := b) (by simpa [Cut] using h)
    rw [List.cons_append, recode, this, ← List.append_assoc]
    rfl

theorem cut_of_head {a b : Str} (h : b.head? ≠ some '\n') : Cut a b := fun _ => h

theorem recode_append_plain {a : Str} {c : Char} {b : Str} (h : c ≠ '\n') : f (a ++ c :: b) = f a ++ f (c :: b) :=
  recode_append (cut_of_head (by simpa using h))

/-! ## Prefixes and occurrences of plain texts -/

theorem recode_prefix (he : IsEol e) (hσ : KeepsAscii σ) : ∀ {q s : Str}, PlainS q → (q <+: f s ↔ q <+: s)
  | [], s, _ => by simp
  | c :: q, s, hq => by
    have hc := hq c (by simp)
    constructor
    · rintro ⟨t, ht⟩
      obtain ⟨s', rfl, h'⟩ := recode_head he hσ (s := s) (c := c) (t := q ++ t) ht.symm hc
      have := (recode_prefix he hσ (q := q) (s := s') fun x hx => hq x (by simp [hx])).1 ⟨t, h'.symm⟩
      exact List.cons_prefix_cons.2 ⟨rfl, this⟩
    · intro h
      cases s with
      | nil => simp at h
      | cons x s =>
        obtain ⟨rfl, h'⟩ := List.cons_prefix_cons.1 h
        rw [recode_plain hσ hc]
        exact List.cons_prefix_cons.2 ⟨rfl, (recode_prefix he hσ fun x hx => hq x (by simp [hx])).2 h'⟩

theorem infix_skip {q g l : Str} (hq : PlainS q) (hne : q ≠ []) (hg : ∀ x ∈ g, ¬ PlainC x) (h : q <:+: g ++ l) : q <:+: l := by
  induction g with
  | nil => exact h
  | cons y g ih =>
    rw [List.cons_append, List.infix_cons_iff] at h
    rcases h with h | h
    · cases q with
      | nil => exact absurd rfl hne
      | cons c q =>
        obtain ⟨rfl, -⟩ := List.cons_prefix_cons.1 h
        exact absurd (hq c (by simp)) (hg c (by simp))
    · exact ih (fun x hx => hg x (by simp [hx])) h

theorem recode_infix (he : IsEol e) (hσ : KeepsAscii σ) {q : Str} (hq : PlainS q) (hne : q ≠ []) : ∀ {s : Str}, q <:+: f s → q <:+: s
  | [], h => by simpa [recode] using h
  | c :: s, h => by
    rcases recode_cons he hσ c s with ⟨hc, h'⟩ | ⟨-, g, h', hg, -⟩
    · rw [List.infix_cons_iff]
      rw [h', List.infix_cons_iff, ← h'] at h
      exact h.imp (recode_prefix he hσ hq).1 (recode_infix he hσ hq hne)
    · rw [h'] at h
      exact (recode_infix he hσ hq hne (infix_skip hq hne hg h)).trans (List.suffix_cons c s).isInfix

theorem closed_cons {q : Str} {c : Char} {v : Str} : Closed q (c :: v) ↔ ¬ q <+: c :: (v ++ q) ∧ Closed q v := by
  constructor
  · intro h
    refine ⟨by simpa using h 0 (by simp), fun i hi => ?_⟩
    have := h (i + 1) (by simpa using hi)
    simpa using this
  · rintro ⟨h1, h2⟩ i hi
    cases i with
    | zero => simpa using h1
    | succ i => simpa using h2 i (by simpa using hi)

theorem closed_skip {q g v : Str} (hq : PlainS q) (hne : q ≠ []) (hg : ∀ x ∈ g, ¬ PlainC x) (h : Closed q v) : Closed q (g ++ v) := by
  induction g with
  | nil => exact h
  | cons y g ih =>
    rw [List.cons_append, closed_cons]
    refine ⟨fun h' => ?_, ih fun x hx => hg x (by simp [hx])⟩
    cases q with
    | nil => exact hne rfl
    | cons c q =>
      obtain ⟨rfl, -⟩ := List.cons_prefix_cons.1 h'
      exact hg c (by simp) (hq c (by simp))

theorem recode_closed (he : IsEol e) (hσ : KeepsAscii σ) {q : Str} (hq : PlainS q) (hne : q ≠ []) : ∀ {v : Str}, Closed q v → Closed q (f v)
  | [], h => by simpa [recode] using h
  | c :: v, h => by
    obtain ⟨h1, h2⟩ := closed_cons.1 h
    have ih := recode_closed he hσ hq hne h2
    rcases recode_cons he hσ c v with ⟨hc, h'⟩ | ⟨-, g, h', hg, -⟩
    · rw [h', closed_cons]
      refine ⟨fun hp => h1 ?_, ih⟩
      have e1 : c :: (f v ++ q) = f (c :: (v ++ q)) := by
        cases q with
        | nil => exact absurd rfl hne
        | cons x q =>
          rw [recode_plain hσ hc, recode_append_plain (hq x (by simp)).2.1, recode_id hσ hq]
      rw [e1] at hp
      exact (recode_prefix he hσ hq).1 hp
    · rw [h']
      exact closed_skip hq hne hg ih

/-! ## White space and comments -/

theorem plain_slashes : PlainS k!"//" := by decide
theorem plain_open : PlainS k!"/*" := by decide
theorem plain_close : PlainS k!"*/" := by decide

theorem blank_tail {c : Char} {t : Str} (hc : IsSpace c) (h : Blank (c :: t)) : Blank t := by
  generalize hs : c :: t = s at h
  cases h with
  | nil => simp at hs
  | space _ h => simp at hs; obtain ⟨rfl, rfl⟩ := hs; exact h
  | line _ _ _ => simp at hs; rw [hs.1] at hc; exact absurd hc (by simp [IsSpace])
  | block _ _ => simp at hs; rw [hs.1] at hc; exact absurd hc (by simp [IsSpace])

theorem blank_gap {g t : Str} (hg : ∀ x ∈ g, IsSpace x) (h : Blank t) : Blank (g ++ t) := by
  induction g with
  | nil => exact h
  | cons c g ih => exact .space (hg c (by simp)) (ih fun x hx => hg x (by simp [hx]))

theorem eol_spaces (he : IsEol e) : ∀ x ∈ e, IsSpace x := by
  rcases he with rfl | rfl | rfl <;> simp [IsSpace]

theorem space_plain {c : Char} (h : IsSpace c) (h1 : c ≠ '\n') (h2 : c ≠ '\r') : PlainC c := by
  rcases h with rfl | rfl | rfl | rfl
  · decide
  · decide
  · exact absurd rfl h1
  · exact absurd rfl h2

theorem recode_space (he : IsEol e) (hσ : KeepsAscii σ) {c : Char} {t : Str} (hc : IsSpace c) (h : Blank (f t)) : Blank (f (c :: t)) := by
  by_cases h1 : c = '\n'
  · subst h1; rw [recode_lf]; exact blank_gap (eol_spaces he) h
  by_cases h2 : c = '\r'
  · subst h2
    by_cases ht : t.head? = some '\n'
    · cases t with
      | nil => simp at ht
      | cons x t => simp at ht; subst ht; rw [recode_crlf]; exact h
    · rw [recode_cr t ht]; exact blank_gap (eol_spaces he) h
  · rw [recode_plain hσ (space_plain hc h1 h2)]
    exact .space hc h

/-- A line end. -/
theorem recode_newline (he : IsEol e) (hσ : KeepsAscii σ) {nl : Char} {t : Str} (hn : nl = '\n' ∨ nl = '\r') (h : Blank (f t)) :
    ∃ x r, f (nl :: t) = x :: r ∧ (x = '\n' ∨ x = '\r') ∧ Blank r := by
  obtain ⟨x, r, rfl, hx, hr⟩ := eol_cons he
  have hr' : ∀ y ∈ r, IsSpace y := fun y hy => .inr (.inr (hr y hy))
  have hsp : IsSpace x := .inr (.inr hx)
  rcases hn with rfl | rfl
  · exact ⟨x, r ++ recode (x :: r) σ t, by rw [recode_lf]; rfl, hx, blank_gap hr' h⟩
  · by_cases ht : t.head? = some '\n'
    · cases t with
      | nil => simp at ht
      | cons y t =>
        simp at ht; subst ht
        rw [recode_crlf]
        rw [recode_lf] at h ⊢
        exact ⟨x, _, rfl, hx, blank_tail hsp h⟩
    · exact ⟨x, r ++ recode (x :: r) σ t, by rw [recode_cr t ht]; rfl, hx, blank_gap hr' h⟩

theorem recode_inline (he : IsEol e) (hσ : KeepsAscii σ) {body : Str} (h : ∀ x ∈ body, x ≠ '\n' ∧ x ≠ '\r') : ∀ x ∈ f body, x ≠ '\n' ∧ x ≠ '\r' := by
  induction body with
  | nil => simp [recode]
  | cons c b ih =>
    have hc := h c (by simp)
    rw [recode_wide hc.1 hc.2]
    intro x hx
    rcases List.mem_cons.1 hx with rfl | hx
    · by_cases hp : PlainC c
      · rw [sigma_plain hσ hp]; exact hc
      · exact ⟨(sigma_other hσ hp hc.1 hc.2).2.1, (sigma_other hσ hp hc.1 hc.2).2.2.1⟩
    · exact ih (fun y hy => h y (by simp [hy])) x hx

theorem cut_inline {body t : Str} (h : ∀ x ∈ body, x ≠ '\n' ∧ x ≠ '\r') : Cut body t := fun hl =>
  absurd rfl (h '\r' (List.mem_of_getLast? hl)).2

theorem recode_blank (he : IsEol e) (hσ : KeepsAscii σ) {s : Str} (h : Blank s) : Blank (f s) := by
  induction h with
  | nil => exact .nil
  | space hc _ ih => exact recode_space he hσ hc ih
  | @line body nl t hb hn _ ih =>
    rw [recode_plain_append hσ _ plain_slashes, recode_append (cut_inline hb)]
    obtain ⟨x, r, h1, h2, h3⟩ := recode_newline he hσ hn ih
    rw [h1]
    exact .line (recode_inline he hσ hb) h2 h3
  | @block body t hb _ ih =>
    rw [recode_plain_append hσ _ plain_open]
    have : f (body ++ (k!"*/" ++ t)) = f body ++ (k!"*/" ++ f t) := by
      rw [← recode_plain_append hσ t plain_close]
      exact recode_append_plain (by decide)
    rw [this]
    exact .block (fun h => hb (recode_infix he hσ plain_close (by simp) h)) ih

theorem recode_blankEnd (he : IsEol e) (hσ : KeepsAscii σ) {s : Str} (h : BlankEnd s) : BlankEnd (f s) := by
  rcases h with h | ⟨w, body, rfl, hw, hb⟩
  · exact .inl (recode_blank he hσ h)
  · refine .inr ⟨f w, f body, ?_, recode_blank he hσ hw, recode_inline he hσ hb⟩
    rw [← recode_plain_append hσ _ plain_slashes]
    exact recode_append_plain (by decide)

/-! ## Tokens -/

theorem word_plain {c : Char} (h : IsWord c) : PlainC c := by
  rcases h with h | rfl
  · simp only [Char.isAlphanum, Char.isAlpha, Char.isUpper, Char.isLower, Char.isDigit, Bool.or_eq_true, Bool.and_eq_true,
      decide_eq_true_eq] at h
    refine ⟨?_, ?_, ?_⟩
    · simp only [UInt32.le_iff_toNat_le, ge_iff_le] at h
      rcases h with (⟨h, h'⟩ | ⟨h, h'⟩) | ⟨h, h'⟩ <;> simp at h h' <;> omega
    · rintro rfl; simp at h
    · rintro rfl; simp at h
  · decide

theorem recode_next_word (he : IsEol e) (hσ : KeepsAscii σ) {r : Str} (h : Next.word r) : Next.word (f r) := by
  intro c t hr hw
  obtain ⟨s', rfl, -⟩ := recode_head he hσ hr (word_plain hw)
  exact h c s' rfl hw

theorem recode_next_spaced (he : IsEol e) (hσ : KeepsAscii σ) {r : Str} (h : Next.spaced r) : Next.spaced (f r) := by
  refine ⟨recode_next_word he hσ h.1, fun c t hr hw => ?_⟩
  obtain ⟨s', rfl, h'⟩ := recode_head he hσ hr (by decide)
  obtain ⟨s'', rfl, -⟩ := recode_head he hσ h' (word_plain hw)
  exact h.2 c s'' rfl hw

theorem hex_plain {c : Char} (h : IsHexDigit c) : PlainC c := by
  rcases h with h | h | h
  · exact word_plain (.inl (by simp [Char.isAlphanum, h]))
  all_goals
    refine ⟨by omega, ?_, ?_⟩ <;> rintro rfl <;> revert h <;> decide

/-- `t'` is the token `t`, recoded. -/
structure TokMap (e : Str) (σ : Char → Char) (t t' : Tok) : Prop where
  txt : t'.txt = recode e σ t.txt
  next : ∀ r, t.next r → t'.next (recode e σ r)
  head : ∀ b, (t.txt ++ b).head? ≠ some '\n'
  last : t.txt.getLast? ≠ some '\r'

theorem written_map (he : IsEol e) (hσ : KeepsAscii σ) : ∀ {ts ts' : List Tok} {s : Str}, List.Forall₂ (TokMap e σ) ts ts' →
    Written ts s → Written ts' (f s)
  | _, _, s, .nil, h => recode_blankEnd he hσ h
  | _, _, _, .cons (l₁ := ts) (l₂ := ts') (a := t) (b := t') h1 h2, ⟨w, r, hs, hw, hn, h⟩ => by
    subst hs
    refine ⟨f w, f r, ?_, recode_blank he hσ hw, h1.next r hn, written_map he hσ h2 h⟩
    rw [recode_append (cut_of_head (h1.head r)), recode_append (fun hl => absurd hl h1.last), h1.txt]

theorem tokMap_plain (hσ : KeepsAscii σ) {t : Tok} (h : PlainS t.txt) (hne : t.txt ≠ [])
    (hn : ∀ r, t.next r → t.next (recode e σ r)) : TokMap e σ t t where
  txt := (recode_id hσ h).symm
  next := hn
  head := by
    intro b
    cases ht : t.txt with
    | nil => exact absurd ht hne
    | cons c cs => simpa using (h c (by simp [ht])).2.1
  last := fun hl => (h _ (List.mem_of_getLast? hl)).2.2 rfl

theorem isVar_plain {s : Str} (h : IsVar s) : PlainS s := by
  obtain ⟨c, cs, rfl, hc, hcs⟩ := h
  intro x hx
  rcases List.mem_cons.1 hx with rfl | hx
  · exact word_plain (.inl (by simp [Char.isAlphanum, hc]))
  · exact word_plain (hcs x hx)

theorem spacedTail_plain {s : Str} (h : SpacedTail s) : PlainS s := by
  induction h with
  | nil => intro x hx; simp at hx
  | word hc _ ih =>
    intro x hx
    rcases List.mem_cons.1 hx with rfl | hx
    · exact word_plain hc
    · exact ih x hx
  | blank hc _ ih =>
    intro x hx
    rcases List.mem_cons.1 hx with rfl | hx
    · decide
    rcases List.mem_cons.1 hx with rfl | hx
    · exact word_plain hc
    · exact ih x hx

theorem isSpacedVar_plain {s : Str} (h : IsSpacedVar s) : PlainS s := by
  obtain ⟨c, cs, rfl, hc, hcs⟩ := h
  intro x hx
  rcases List.mem_cons.1 hx with rfl | hx
  · exact word_plain (.inl (by simp [Char.isAlphanum, hc]))
  · exact spacedTail_plain hcs x hx

theorem isVar_ne {s : Str} (h : IsVar s) : s ≠ [] := by obtain ⟨c, cs, rfl, -⟩ := h; simp
theorem isSpacedVar_ne {s : Str} (h : IsSpacedVar s) : s ≠ [] := by obtain ⟨c, cs, rfl, -⟩ := h; simp

theorem lowerC_plain {c : Char} (h : PlainC (lowerC c)) : PlainC c := by
  unfold lowerC at h
  split at h
  · rename_i hc
    refine ⟨by omega, ?_, ?_⟩ <;> rintro rfl <;> revert hc <;> decide
  · exact h

theorem keyword_plain {k s : Str} (h : Keyword k s) (hk : PlainS (k.map lowerC)) : PlainS s := by
  intro x hx
  refine lowerC_plain (hk _ ?_)
  have : lowerC x ∈ s.map lowerC := List.mem_map.2 ⟨x, hx, rfl⟩
  rwa [show s.map lowerC = k.map lowerC from h] at this

theorem keyword_nonempty {k s : Str} (h : Keyword k s) (hk : k ≠ []) : s ≠ [] := by
  rintro rfl
  have : ([] : Str) = k.map lowerC := h
  exact hk (List.map_eq_nil_iff.1 this.symm)

/-! ## Quoted texts -/

def Source.Quote.recode (e : Str) (σ : Char → Char) (x : Quote) : Quote := ⟨Dbml.recode e σ x.pad, Dbml.recode e σ x.val⟩

/-- The delimiters. -/
def IsQ (q : Str) : Prop := q = k!"\"" ∨ q = k!"'" ∨ q = k!"'''" ∨ q = k!"`"

theorem IsQ.plain {q : Str} (h : IsQ q) : PlainS q := by rcases h with rfl | rfl | rfl | rfl <;> decide
theorem IsQ.ne {q : Str} (h : IsQ q) : q ≠ [] := by rcases h with rfl | rfl | rfl | rfl <;> decide

theorem recode_val_q {q : Str} (hq : IsQ q) (hσ : KeepsAscii σ) (v : Str) : f (v ++ q) = f v ++ q := by
  have hne := hq.ne
  have hp := hq.plain
  cases q with
  | nil => exact absurd rfl hne
  | cons c q =>
    rw [recode_append_plain (hp c (by simp)).2.1, recode_id hσ hp]

theorem recode_text (hσ : KeepsAscii σ) {q : Str} (hq : IsQ q) {x : Quote}
    (h : x.pad = [] ∨ ∀ c cs, x.val = c :: cs → ¬ IsSpace c) : (x.recode e σ).text q = f (x.text q) := by
  unfold Quote.text Quote.recode
  rw [recode_plain_append hσ _ hq.plain]
  congr 1
  rcases h with h | h
  · rw [h]
    simp only [recode, List.nil_append]
    exact (recode_val_q hq hσ _).symm
  · rw [recode_append, recode_val_q hq hσ]
    refine cut_of_head ?_
    cases hv : x.val with
    | nil =>
      have hp := hq.plain
      have hne := hq.ne
      cases q with
      | nil => exact absurd rfl hne
      | cons c q => simpa using (hp c (by simp)).2.1
    | cons c cs =>
      have := h c cs hv
      simp only [List.cons_append, List.head?_cons, ne_eq, Option.some.injEq]
      rintro rfl
      exact this (by simp [IsSpace])

theorem recode_first (he : IsEol e) (hσ : KeepsAscii σ) {v : Str} (h : ∀ c cs, v = c :: cs → ¬ IsSpace c) : ∀ c cs, f v = c :: cs → ¬ IsSpace c := by
  intro c cs hv hc
  cases v with
  | nil => simp [recode] at hv
  | cons x v =>
    have hx := h x v rfl
    have h1 : x ≠ '\n' := by rintro rfl; exact hx (by simp [IsSpace])
    have h2 : x ≠ '\r' := by rintro rfl; exact hx (by simp [IsSpace])
    rw [recode_wide h1 h2] at hv
    obtain ⟨rfl, -⟩ := List.cons.inj hv
    by_cases hp : PlainC x
    · rw [sigma_plain hσ hp] at hc; exact hx hc
    · have := sigma_other hσ hp h1 h2
      exact this.1 (space_plain hc this.2.1 this.2.2.1)

theorem quote_recode_ok (he : IsEol e) (hσ : KeepsAscii σ) {q : Str} (hq : IsQ q) {x : Quote} (h : x.Ok q) : (x.recode e σ).Ok q :=
  ⟨recode_blank he hσ h.1, recode_closed he hσ hq.plain hq.ne h.2.1, recode_first he hσ h.2.2.1,
    fun hp => h.2.2.2 ((recode_prefix he hσ plain_slashes).1 hp)⟩

theorem quote_recode_tight (he : IsEol e) (hσ : KeepsAscii σ) {q : Str} (hq : IsQ q) {x : Quote} (h : x.Tight q) : (x.recode e σ).Tight q :=
  ⟨by simp [Quote.recode, h.1, recode], recode_closed he hσ hq.plain hq.ne h.2⟩

theorem quote_recode_next (he : IsEol e) (hσ : KeepsAscii σ) {q : Str} (hq : IsQ q) {x : Quote} {r : Str} (h : x.next q r) :
    (x.recode e σ).next q (f r) := by
  intro hp hi
  have hp' := (recode_prefix he hσ plain_open).1 hp
  refine h hp' (recode_infix he hσ plain_close (by simp) (s := x.val.drop 2 ++ (q ++ r)) ?_)
  obtain ⟨v, hv⟩ := hp'
  have e1 : f x.val = k!"/*" ++ f v := by rw [← hv, recode_plain_append hσ _ plain_open]
  simp only [Quote.recode, e1] at hi
  rw [← hv]
  simp only [List.cons_append, List.nil_append, List.drop_succ_cons, List.drop_zero] at hi ⊢
  have hne := hq.ne
  have hpq := hq.plain
  have : f (v ++ (q ++ r)) = f v ++ (q ++ f r) := by
    rw [← recode_plain_append hσ r hpq]
    cases q with
    | nil => exact absurd rfl hne
    | cons c q => exact recode_append_plain (hpq c (by simp)).2.1
  rw [this]
  exact hi

theorem quote_last {q : Str} (hq : IsQ q) (x : Quote) : (x.text q).getLast? ≠ some '\r' := by
  unfold Quote.text
  rw [← List.append_assoc, ← List.append_assoc]
  intro h
  rw [List.getLast?_append, List.getLast?_eq_some_getLast hq.ne, Option.some_or, ← List.getLast?_eq_some_getLast hq.ne] at h
  exact (hq.plain _ (List.mem_of_getLast? h)).2.2 rfl

theorem quote_head {q : Str} (hq : IsQ q) (x : Quote) (b : Str) : (x.text q ++ b).head? ≠ some '\n' := by
  unfold Quote.text
  have hp := hq.plain
  have hne := hq.ne
  cases q with
  | nil => exact absurd rfl hne
  | cons c q => simpa using (hp c (by simp)).2.1

theorem tokMap_quote (he : IsEol e) (hσ : KeepsAscii σ) {q : Str} (hq : IsQ q) {x : Quote} {t t' : Tok} (h : x.Ok q) (h1 : t.txt = x.text q)
    (h2 : t.next = x.next q) (h1' : t'.txt = (x.recode e σ).text q) (h2' : t'.next = (x.recode e σ).next q) : TokMap e σ t t' where
  txt := by rw [h1', h1, recode_text hσ hq (.inr h.2.2.1)]
  next := by rw [h2, h2']; exact fun r => quote_recode_next he hσ hq
  head := by rw [h1]; exact quote_head hq x
  last := by rw [h1]; exact quote_last hq x

end

end Dbml
