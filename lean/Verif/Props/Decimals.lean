import Verif.Proofs.FloatShow2
import Verif.Props.Parsing

/-!
# C54: decimal literals denote the nearest double
-/

namespace Dbml.Props

open Dbml Spec Syntax

variable {input : Str} {s : SchemaBlock}

theorem takeWhile_point {a b : Str} (ha : ∀ c ∈ a, c.isDigit = true) :
    (a ++ ('.' :: b)).takeWhile (· ≠ '.') = a ∧ (a ++ ('.' :: b)).dropWhile (· ≠ '.') = '.' :: b := by
  induction a with
  | nil => simp
  | cons c cs ih =>
    have hc : c ≠ '.' := by rintro rfl; exact absurd (ha '.' (by simp)) (by decide)
    obtain ⟨h1, h2⟩ := ih fun x hx => ha x (by simp [hx])
    simp only [List.cons_append, List.takeWhile_cons, List.dropWhile_cons, hc, ne_eq,
      not_false_eq_true, decide_true, if_true]
    exact ⟨congrArg (c :: ·) h1, h2⟩

theorem parse_nearest {t : Str} {x : Rat} (h : IsDecimal t x) : Nearest x (F64.parse t) := by
  obtain ⟨a, b, rfl, ha, hb, rfl⟩ := h
  obtain ⟨h1, h2⟩ := takeWhile_point (b := b) ha.2
  have : F64.parse (a ++ ('.' :: b)) = F64.ofRat (digitsNat (a ++ b)) (10 ^ b.length) := by
    unfold F64.parse
    rw [h1, h2, ← digitsVal_eq]; rfl
  rw [this]
  have hn := ofRat_nearest (digitsNat (a ++ b)) (10 ^ b.length) (by positivity)
  rw [digitsNat_append] at hn ⊢
  have e : ((digitsNat a * 10 ^ b.length + digitsNat b : Nat) : Rat) / ((10 ^ b.length : Nat) : Rat) =
      digitsNat a + (digitsNat b : Rat) / 10 ^ b.length := by
    push_cast
    field_simp
  rw [e] at hn
  exact hn

/-- **C54.** In every accepted text, a literal written as a decimal number has as its value the double nearest to the
number written (ties to even, infinity beyond the range), and only literals written so have a double as value. -/
theorem C54_decimal_literals (h : parseDbmlUnchecked input = .ok s) (l : Literal) (hl : l ∈ literals s) :
    (∀ x, IsDecimal l.raw x → ∃ f, l.value = .decimal f ∧ Nearest x f) ∧
    (∀ f, l.value = .decimal f → ∃ x, IsDecimal l.raw x ∧ Nearest x f) := by
  obtain ⟨q, hq, h1, h2, h3⟩ := has_literal (denotes h) l hl
  rw [h2]
  have digit : ∀ x, IsDecimal q.txt x → ∃ c cs, q.txt = c :: cs ∧ c.isDigit = true := by
    rintro x ⟨a, b, e, ha, -⟩
    obtain ⟨hne, hall⟩ := ha
    cases a with
    | nil => exact absurd rfl hne
    | cons c cs => exact ⟨c, _, e, hall c (by simp)⟩
  have other : ∀ {c cs}, q.txt = c :: cs → c.isDigit = false → ∀ x, ¬ IsDecimal q.txt x := by
    intro c cs e hc x hx
    obtain ⟨c', cs', e', hc'⟩ := digit x hx
    rw [e] at e'; cases e'; rw [hc] at hc'; cases hc'
  have fin : (∀ x, ¬ IsDecimal q.txt x) → (∀ f, l.value ≠ .decimal f) →
      (∀ x, IsDecimal q.txt x → ∃ f, l.value = .decimal f ∧ Nearest x f) ∧
      (∀ f, l.value = .decimal f → ∃ x, IsDecimal q.txt x ∧ Nearest x f) :=
    fun h1 h2 => ⟨fun x hx => absurd hx (h1 x), fun f hf => absurd hf (h2 f)⟩
  have quoted : ∀ {g c qq v}, QuotedD g (c :: qq) q v → c.isDigit = false → ∀ x, ¬ IsDecimal q.txt x := by
    rintro g c qq v ⟨t, e, -⟩ hc
    exact other e hc
  rcases h3 with (hv | ⟨hsp, -, hv⟩ | ⟨v, hqd, hv⟩) | ⟨v, hqd, hv⟩
  · generalize l.value = w at hv fin
    cases hv with
    | string hs => rcases hs with hs | hs <;> exact fin (quoted hs (by decide)) (by simp)
    | expr hs => exact fin (quoted hs (by decide)) (by simp)
    | true hs => exact fin (other hs (by decide)) (by simp)
    | false hs => exact fin (other hs (by decide)) (by simp)
    | null hs => exact fin (other hs (by decide)) (by simp)
    | integer hd hlt =>
      refine fin ?_ (by simp)
      rintro x ⟨a, b, e, -⟩
      have := hd.2 '.' (by rw [e]; simp)
      exact absurd this (by decide)
    | decimal e ha hb =>
      have hx : ∀ x, IsDecimal q.txt x → Nearest x (F64.parse q.txt) := fun x hx => parse_nearest hx
      refine ⟨fun x h => ⟨_, rfl, hx x h⟩, ?_⟩
      rintro f ⟨⟩
      have : IsDecimal q.txt _ := ⟨_, _, e, ha, hb, rfl⟩
      exact ⟨_, this, hx _ this⟩
    | hex e _ _ => exact fin (other e (by decide)) (by simp)
  · obtain ⟨c, cs, e, hc, -⟩ := hsp
    refine fin (other e ?_) (by rw [hv]; simp)
    revert hc
    rcases c with ⟨v, hv⟩
    simp only [Char.isAlpha, Char.isUpper, Char.isLower, Char.isDigit, Bool.or_eq_true, Bool.and_eq_true, decide_eq_true_eq, Bool.and_eq_false_iff, decide_eq_false_iff_not, ge_iff_le, UInt32.le_iff_toNat_le]
    simp
    omega
  · exact fin (quoted hqd (by decide)) (by rw [hv]; simp)
  · exact fin (quoted hqd (by decide)) (by rw [hv]; simp)

/-- **C54.** "The nearest double" is unambiguous. -/
theorem C54_nearest_unique {x : Rat} {f f' : F64} (h : Nearest x f) (h' : Nearest x f') : f = f' := nearest_unique h h'

/-- **C54.** There is a nearest double to every number a decimal literal can denote. -/
theorem C54_nearest_exists {t : Str} {x : Rat} (h : IsDecimal t x) : ∃ f, Nearest x f := ⟨_, parse_nearest h⟩

/-- **C54.** Literals that denote the same number have the same value, however they are spelled. -/
theorem C54_same_number {input' : Str} {s' : SchemaBlock} (h : parseDbmlUnchecked input = .ok s) (h' : parseDbmlUnchecked input' = .ok s')
    (l l' : Literal) (hl : l ∈ literals s) (hl' : l' ∈ literals s') (x : Rat) (hx : IsDecimal l.raw x)
    (hx' : IsDecimal l'.raw x) : l.value = l'.value := by
  obtain ⟨f, e, hf⟩ := (C54_decimal_literals h l hl).1 x hx
  obtain ⟨f', e', hf'⟩ := (C54_decimal_literals h' l' hl').1 x hx'
  rw [e, e', nearest_unique hf hf']

/-- Witnesses: `0.1`, a tie, the greatest double and infinity. -/
example : F64.parse k!"0.1" = .fin 0x1999999999999a (-56) := by decide +kernel
example : F64.parse k!"9007199254740993.0" = .fin 4503599627370496 1 := by decide +kernel
example : F64.parse k!"9007199254740995." = .fin 4503599627370498 1 := by decide +kernel

/-- A witness: an accepted text with a decimal literal. -/
example : ∃ s l, parseDbmlUnchecked k!"Project p {} Table t { a float [default: 0.50] }" = .ok s ∧ l ∈ literals s ∧
    IsDecimal l.raw (1 / 2) ∧ l.value = .decimal (.fin 4503599627370496 (-53)) := by
  have h : ∃ s, parseDbmlUnchecked k!"Project p {} Table t { a float [default: 0.50] }" = .ok s ∧
      ∃ l ∈ literals s, l.raw = k!"0" ++ ('.' :: k!"50") ∧ l.value = .decimal (.fin 4503599627370496 (-53)) := by
    cases e : parseDbmlUnchecked k!"Project p {} Table t { a float [default: 0.50] }" with
    | ok s => 
      refine ⟨s, rfl, ?_⟩
      have : (match parseDbmlUnchecked k!"Project p {} Table t { a float [default: 0.50] }" with
        | .ok s => decide (∃ l ∈ literals s, l.raw = k!"0" ++ ('.' :: k!"50") ∧ l.value = .decimal (.fin 4503599627370496 (-53)))
        | _ => false) = true := by decide +kernel
      rw [e] at this
      exact of_decide_eq_true this
    | _ => 
      have : (match parseDbmlUnchecked k!"Project p {} Table t { a float [default: 0.50] }" with
        | .ok _ => true
        | _ => false) = true := by decide +kernel
      rw [e] at this
      cases this
  obtain ⟨s, h1, l, h2, h3, h4⟩ := h
  exact ⟨s, l, h1, h2, ⟨_, _, h3, ⟨by simp, by decide⟩, by decide, by
    rw [show digitsNat k!"0" = 0 by decide, show digitsNat k!"50" = 50 by decide]; norm_num⟩, h4⟩

end Dbml.Props
