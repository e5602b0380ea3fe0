import Verif.Proofs.Size2
import Verif.Props.Values
import Verif.Props.Members

/-!
# C80: the AST is not much larger than the text
-/

namespace Dbml.Props

open Dbml Spec Syntax Source

variable {input : Str} {s : SchemaBlock}

/-- **C80.** The text that stands for a literal (in a note, a name, a default, a message) is at most two characters longer
than the literal as it is written. -/
theorem C80_shown_length (h : parseDbmlUnchecked input = .ok s) (l : Literal) (hl : l ∈ literals s) :
    l.value.toStr.length ≤ l.raw.length + 2 := by
  cases hv : l.value with
  | decimal f =>
    obtain ⟨x, hx, hn⟩ := (C54_decimal_literals h l hl).2 f hv
    exact display_length hx hn
  | integer n =>
    have hd := (C55_literals h l hl).2.1 n hv
    have hnum := hd.2
    rw [hv] at hnum
    by_cases h2 : 2 ≤ (Value.integer n).toStr.length
    · have h1 := numeral_lo hnum h2
      have h3 := digitsNat_lt hd.1.2
      have : 10 ^ ((Value.integer n).toStr.length - 1) < 10 ^ l.raw.length := Nat.lt_of_le_of_lt h1 h3
      have := (Nat.pow_lt_pow_iff_right (by decide)).1 this
      omega
    · omega
  | enum w => have := (C55_literals h l hl).1 (.inl ⟨w, hv⟩); rw [hv] at this; rw [this]; omega
  | hexColor w => have := (C55_literals h l hl).1 (.inr (.inl ⟨w, hv⟩)); rw [hv] at this; rw [this]; omega
  | bool b => have := (C55_literals h l hl).1 (.inr (.inr (.inl ⟨b, hv⟩))); rw [hv] at this; rw [this]; omega
  | null => have := (C55_literals h l hl).1 (.inr (.inr (.inr hv))); rw [hv] at this; rw [this]; omega
  | string w =>
    obtain ⟨q, hq, h1, h2, h3⟩ := has_literal (denotes h) l hl
    rw [h2]
    rcases h3 with (hv' | ⟨-, -, hv'⟩ | ⟨v, ⟨t, ht, -⟩, hv'⟩) | ⟨v, ⟨t, ht, -⟩, hv'⟩
    · rw [hv] at hv'
      cases hv' with
      | string hs =>
        rcases hs with ⟨t, ht, -⟩ | ⟨t, ht, -⟩ <;>
        · rw [ht]; simp only [Value.toStr, List.length_append]; omega
    · rw [hv] at hv'; cases hv'
    · rw [hv] at hv'; cases hv'
      rw [ht]; simp only [Value.toStr, List.length_append]; omega
    · rw [hv] at hv'; cases hv'
      rw [ht]; simp only [Value.toStr, List.length_append]; omega
  | expr w =>
    obtain ⟨q, hq, h1, h2, h3⟩ := has_literal (denotes h) l hl
    rw [h2]
    rcases h3 with (hv' | ⟨-, -, hv'⟩ | ⟨v, -, hv'⟩) | ⟨v, -, hv'⟩
    · rw [hv] at hv'
      cases hv' with
      | expr hs =>
        obtain ⟨t, ht, -⟩ := hs
        rw [ht]; simp only [Value.toStr, List.length_append]; omega
    · rw [hv] at hv'; cases hv'
    · rw [hv] at hv'; cases hv'
    · rw [hv] at hv'; cases hv'

/-- **C80.** The AST that `parse_dbml_unchecked` returns, with all its copies of parts of the text and the copy of the whole
text, is at most nine times as large as the text. -/
theorem C80_ast_size (h : parseDbmlUnchecked input = .ok s) : Size.schema s ≤ 9 * input.length + 2 := by
  obtain ⟨d, hd, hw⟩ := read_is_written h
  obtain ⟨s', h', e, hi, -⟩ := C44_written_is_read d hd input hw
  rw [h] at h'
  cases h'
  have h1 := Size.doc_size hd
  have h2 := Size.written_len hw
  rw [← e, Size.blocks_span] at h1
  simp only [Size.schema, Size.str, hi]
  omega

/-- **C80.** The same for `parse_dbml`. -/
theorem C80_checked (h : parseDbml input = .ok s) : Size.schema s ≤ 9 * input.length + 2 := C80_ast_size (checked_parts h).1

/-- The bound is met up to the constant: the AST holds the text. -/
theorem C80_at_least (h : parseDbmlUnchecked input = .ok s) : input.length + 2 ≤ Size.schema s := by
  obtain ⟨d, hd, hw⟩ := read_is_written h
  obtain ⟨s', h', e, hi, -⟩ := C44_written_is_read d hd input hw
  rw [h] at h'
  cases h'
  simp only [Size.schema, Size.str, hi]
  omega

/-- A witness: a text of 615 characters, and the size of its AST. -/
example : parseDbmlUnchecked exText = .ok exAst ∧ exText.length = 615 ∧ Size.schema exAst = 1656 :=
  ⟨ex_reads, by decide +kernel, by decide +kernel⟩

/-- A witness: a literal that is shown shorter than it is written. -/
example : (match parseDbmlUnchecked k!"Project p {} Table t { a int [note: 007.50] }" with
    | .ok s => (literals s).map fun l => (l.raw.length, l.value.toStr.length)
    | _ => []) = [(6, 3)] := by decide +kernel

end Dbml.Props
