import Verif.Proofs.Skip
import Verif.Model.Parser

/-!
# Lexical rules: what the token-level grammar rules match
-/

namespace Dbml
open Syntax

/-- Matching with DBML's skipper. -/
abbrev M := Matches G.skip (fun t rest => Trivia t ∧ NoWs rest)

/-- The gap allowed between parts in a given mode. -/
def gapOf : Atomicity → Gap
  | .nonAtomic => .loose
  | _ => .tight

theorem gap_ok {a t rest} (h : TrivIf (fun t rest => Trivia t ∧ NoWs rest) a t rest) :
    (gapOf a).Ok t := by
  cases a <;> simp_all [TrivIf, gapOf, Gap.Ok]

theorem gap_noWs {a t rest} (h : TrivIf (fun t rest => Trivia t ∧ NoWs rest) a t rest) :
    gapOf a = .loose → NoWs rest := by
  cases a <;> simp_all [TrivIf, gapOf]

theorem isAlpha_iff (c : Char) : G.isAlpha c = true ↔ c.isAlpha = true := by
  simp [G.isAlpha, Char.isAlpha, Char.isUpper, Char.isLower, Char.le_def]
  exact or_comm

theorem isDigit_iff (c : Char) : G.isDigit c = true ↔ c.isDigit = true := by
  simp [G.isDigit, Char.isDigit, Char.le_def]

theorem isWordChar_iff (c : Char) : G.isWordChar c = true ↔ IsWord c := by
  simp only [G.isWordChar, G.isAlnum, IsWord, Char.isAlphanum, Bool.or_eq_true, isAlpha_iff,
    isDigit_iff, beq_iff_eq]

theorem isHex_iff (c : Char) : G.isHex c = true ↔ IsHexDigit c := by
  simp only [G.isHex, IsHexDigit, Bool.or_eq_true, isDigit_iff, Bool.and_eq_true, decide_eq_true_eq,
    Char.le_def, UInt32.le_iff_toNat_le, or_assoc]
  rfl

theorem asciiLower_eq (c : Char) : asciiLower c = lowerC c := by
  simp only [asciiLower, lowerC, Char.le_def, UInt32.le_iff_toNat_le]
  rfl

theorem keyword_of {k s : Str} (h : s.map asciiLower = k.map asciiLower) : Keyword k s := by
  have : asciiLower = lowerC := funext asciiLower_eq
  rwa [this] at h

theorem rule_inv {r m body a pos c rest ps} (h : M (.rule r m body) a pos c rest ps)
    (he : emits m a = true) :
    ∃ kids, ps = [.mk r ⟨pos, pos + blen c⟩ c kids] ∧ M body (bodyAtomicity m a) pos c rest kids := by
  obtain ⟨kids, h1, h2⟩ := h
  exact ⟨kids, by simpa [he] using h2, h1⟩

theorem atomic_ne : Atomicity.atomic ≠ .nonAtomic := by decide
theorem compound_ne : Atomicity.compound ≠ .nonAtomic := by decide

theorem clsStar_matches {p a pos c rest ps} (ha : a ≠ .nonAtomic)
    (h : M (.star (.cls p)) a pos c rest ps) : ps = [] ∧ ∀ x ∈ c, p x = true := by
  refine star_atomic ha (fun _ c _ ps => ps = [] ∧ ∀ x ∈ c, p x = true) ?_ ?_ h
  · intro _ _ _; simp
  · rintro pos c c' rest p p' ⟨x, rfl, hx, rfl⟩ ⟨rfl, h2⟩
    simp [hx]; exact h2

theorem var_body {pos c rest ps} (h : M (.seq G.ASCII_ALPHA (.star G.WORD)) .atomic pos c rest ps) :
    ps = [] ∧ IsVar c := by
  rw [M, seq_atomic atomic_ne] at h
  obtain ⟨c1, c2, p1, p2, rfl, rfl, ⟨x, rfl, hx, rfl⟩, h2⟩ := h
  obtain ⟨rfl, h3⟩ := clsStar_matches atomic_ne h2
  exact ⟨rfl, x, c2, by simp, (isAlpha_iff _).1 hx, fun y hy => (isWordChar_iff _).1 (h3 y hy)⟩

theorem var_inv {a pos c rest ps} (h : M G.var a pos c rest ps) (ha : a ≠ .atomic) :
    ps = [.mk .var ⟨pos, pos + blen c⟩ c []] ∧ IsVar c := by
  obtain ⟨kids, rfl, hb⟩ := rule_inv h (by simpa [emits] using ha)
  obtain ⟨rfl, hv⟩ := var_body hb
  exact ⟨rfl, hv⟩

theorem spaced_var_inv {a pos c rest ps} (h : M G.spaced_var a pos c rest ps) (ha : a ≠ .atomic) :
    ps = [.mk .spaced_var ⟨pos, pos + blen c⟩ c []] ∧ IsSpacedVar c := by
  obtain ⟨kids, rfl, hb⟩ := rule_inv h (by simpa [emits] using ha)
  rw [M, seq_atomic (by simp [bodyAtomicity])] at hb
  obtain ⟨c1, c2, p1, p2, rfl, rfl, ⟨x, rfl, hx, rfl⟩, h2⟩ := hb
  have := star_atomic (by simp [bodyAtomicity]) (fun _ c _ ps => ps = [] ∧ SpacedTail c) (by
    intro _ _ _; exact ⟨rfl, .nil⟩) (by
    intro pos c c' rest p p' hm ⟨hp, ht⟩
    rw [seq_atomic (by simp [bodyAtomicity])] at hm
    obtain ⟨c1, c2, p1, p2, rfl, rfl, h1, ⟨y, rfl, hy, rfl⟩⟩ := hm
    have hw := (isWordChar_iff _).1 hy
    rcases h1 with ⟨rfl, rfl, -⟩ | ⟨rfl, rfl⟩
    · exact ⟨by simpa using hp, .word hw ht⟩
    · exact ⟨by simpa using hp, .blank hw ht⟩) h2
  obtain ⟨rfl, ht⟩ := this
  exact ⟨rfl, x, c2, by simp, (isAlpha_iff _).1 hx, ht⟩

theorem digits_body {a pos c rest ps} (ha : a ≠ .nonAtomic)
    (h : M (.seq G.ASCII_DIGIT (.star G.ASCII_DIGIT)) a pos c rest ps) : ps = [] ∧ IsDigits c := by
  rw [M, seq_atomic ha] at h
  obtain ⟨c1, c2, p1, p2, rfl, rfl, ⟨x, rfl, hx, rfl⟩, h2⟩ := h
  obtain ⟨rfl, h3⟩ := clsStar_matches ha h2
  refine ⟨rfl, by simp, ?_⟩
  intro c hc
  simp at hc
  rcases hc with rfl | hc
  · exact (isDigit_iff _).1 hx
  · exact (isDigit_iff _).1 (h3 _ hc)

theorem integer_inv {a pos c rest ps} (h : M G.integer a pos c rest ps) (ha : a ≠ .atomic) :
    ps = [.mk .integer ⟨pos, pos + blen c⟩ c []] ∧ IsDigits c := by
  obtain ⟨kids, rfl, hb⟩ := rule_inv h (by simpa [emits] using ha)
  obtain ⟨rfl, hv⟩ := digits_body (by simp [bodyAtomicity]) hb
  exact ⟨rfl, hv⟩

theorem decimal_inv {a pos c rest ps} (h : M G.decimal a pos c rest ps) (ha : a ≠ .atomic) :
    ps = [.mk .decimal ⟨pos, pos + blen c⟩ c []] ∧
      ∃ x y, c = x ++ ('.' :: y) ∧ IsDigits x ∧ ∀ d ∈ y, d.isDigit = true := by
  obtain ⟨kids, rfl, hb⟩ := rule_inv h (by simpa [emits] using ha)
  have hne : bodyAtomicity .atomic a ≠ .nonAtomic := by simp [bodyAtomicity]
  rw [M, seq_atomic hne] at hb
  obtain ⟨c1, c2, p1, p2, rfl, rfl, h1, h2⟩ := hb
  obtain ⟨rfl, hd⟩ := digits_body hne h1
  rw [seq_atomic hne] at h2
  obtain ⟨c3, c4, p3, p4, rfl, rfl, ⟨rfl, rfl⟩, h4⟩ := h2
  obtain ⟨rfl, h5⟩ := clsStar_matches hne h4
  exact ⟨rfl, c1, c4, by simp, hd, fun d hd => (isDigit_iff _).1 (h5 _ hd)⟩

theorem hex3_inv {a pos c rest ps} (ha : a ≠ .nonAtomic) (h : M G.hex3 a pos c rest ps) :
    ps = [] ∧ c.length = 3 ∧ ∀ x ∈ c, IsHexDigit x := by
  rw [M, G.hex3, seq_atomic ha] at h
  obtain ⟨c1, c2, p1, p2, rfl, rfl, ⟨x, rfl, hx, rfl⟩, h2⟩ := h
  rw [seq_atomic ha] at h2
  obtain ⟨c1, c2, p1, p2, rfl, rfl, ⟨y, rfl, hy, rfl⟩, ⟨z, rfl, hz, rfl⟩⟩ := h2
  refine ⟨rfl, rfl, ?_⟩
  simp [← isHex_iff, hx, hy, hz]

theorem hex_inv {a pos c rest ps} (h : M G.hex_value a pos c rest ps) (ha : a ≠ .atomic) :
    ps = [.mk .hex_value ⟨pos, pos + blen c⟩ c []] ∧
      ∃ x, c = '#' :: x ∧ (∀ d ∈ x, IsHexDigit d) ∧ (x.length = 3 ∨ x.length = 6) := by
  obtain ⟨kids, rfl, hb⟩ := rule_inv h (by simpa [emits] using ha)
  have hne : bodyAtomicity .atomic a ≠ .nonAtomic := by simp [bodyAtomicity]
  rw [M, seq_atomic hne] at hb
  obtain ⟨c1, c2, p1, p2, rfl, rfl, ⟨rfl, rfl⟩, h2⟩ := hb
  rw [seq_atomic hne] at h2
  obtain ⟨c3, c4, p3, p4, rfl, rfl, h3, h4⟩ := h2
  obtain ⟨rfl, l3, x3⟩ := hex3_inv hne h3
  rcases h4 with ⟨rfl, rfl, -⟩ | h4
  · exact ⟨rfl, c3, by simp, x3, .inl l3⟩
  · obtain ⟨rfl, l4, x4⟩ := hex3_inv hne h4
    refine ⟨rfl, c3 ++ c4, by simp, ?_, .inr (by simp [l3, l4])⟩
    simp only [List.mem_append]
    rintro d (h | h)
    · exact x3 d h
    · exact x4 d h

theorem trivia_head {t : Str} (h : Trivia t) : t = [] ∨ ∃ c cs, t = c :: cs ∧ (IsSpace c ∨ c = '/') := by
  cases h with
  | nil => exact .inl rfl
  | space hc _ => exact .inr ⟨_, _, rfl, .inl hc⟩
  | line _ _ => exact .inr ⟨_, _, rfl, .inr rfl⟩
  | block _ _ => exact .inr ⟨_, _, rfl, .inr rfl⟩

theorem gap_head {g : Gap} {t : Str} (h : g.Ok t) :
    t = [] ∨ ∃ c cs, t = c :: cs ∧ (IsSpace c ∨ c = '/') := by
  cases g
  · exact trivia_head h
  · exact .inl h

/-- All four quoted forms. `q` is the delimiter. -/
theorem quoted_inv {q : Str} {r rv : Rule} {a pos c rest ps}
    (hq : ∃ x xs, q = x :: xs ∧ ¬ IsSpace x ∧ x ≠ '/')
    (h : M (.rule r .normal (.seq (.str q)
      (.seq (.rule rv .atomic (.star (.seq (.neg (.str q)) G.ANY))) (.str q)))) a pos c rest ps)
    (ha : a ≠ .atomic) :
    ∃ v sp, ps = [.mk r ⟨pos, pos + blen c⟩ c [.mk rv sp v []]] ∧ QuotedD (gapOf a) q ⟨pos, c⟩ v := by
  obtain ⟨kids, rfl, hb⟩ := rule_inv h (by simpa [emits] using ha)
  simp only [bodyAtomicity] at hb
  obtain ⟨c1, t, c2, p1, p2, rfl, rfl, ⟨rfl, rfl⟩, ht, h2⟩ := hb
  obtain ⟨c3, t2, c4, p3, p4, rfl, rfl, h3, ht2, ⟨rfl, rfl⟩⟩ := h2
  obtain ⟨kids, rfl, hb⟩ := rule_inv h3 (by simpa [emits] using ha)
  obtain ⟨rfl, hi, he⟩ := until_matches (by simp [bodyAtomicity]) str_pos hb
  simp only [str_fail_iff] at hi
  obtain ⟨x, xs, rfl, hx1, hx2⟩ := hq
  have ht2' : t2 = [] := by
    rcases gap_head (gap_ok ht2) with h | ⟨d, ds, rfl, hd⟩
    · exact h
    · rcases he with he | he
      · rw [ne_eq, str_fail_iff, Classical.not_not] at he
        simp at he
        rcases hd with hd | hd
        · exact absurd (he.1 ▸ hd) hx1
        · exact absurd (he.1.trans hd) hx2
      · simp at he
  subst ht2'
  refine ⟨c3, _, rfl, t, by simp, gap_ok ht, ?_, ?_⟩
  · intro i hlt hp
    refine hi i hlt (hp.trans ?_)
    rw [List.drop_append_of_le_length (by omega), List.drop_append_of_le_length (by omega)]
    simp
  · intro hg d ds hd
    subst hd
    exact gap_noWs ht hg d _ (List.cons_append ..)

end Dbml
