import Verif.Proofs.Debug1
import Verif.Proofs.FloatShow2

/-!
# Numbers, spans and strings
-/

namespace Dbml.Debug

open Dbml Spec

theorem digits10_inj {m n : Nat} (h : Nat.toDigits 10 m = Nat.toDigits 10 n) : m = n := by
  have h1 := natDigits_val m
  have h2 := natDigits_val n
  unfold F64.natDigits at h1 h2
  rw [← h1, ← h2, h]

theorem digits10_digit {n : Nat} : ∀ c ∈ Nat.toDigits 10 n, c.isDigit = true := (natDigits_isDigits n).2

theorem digits10_ne {n : Nat} : Nat.toDigits 10 n ≠ [] := (natDigits_isDigits n).1

theorem not_mem_digits {n : Nat} {c : Char} (h : c.isDigit = false) : c ∉ Nat.toDigits 10 n := fun hc => by
  rw [digits10_digit c hc] at h; cases h

/-- Texts up to a character that is in neither. -/
theorem upto_inj (z : Char) : ∀ {a b x y : Str}, z ∉ a → z ∉ b → a ++ z :: x = b ++ z :: y → a = b ∧ x = y
  | [], [], x, y, _, _, h => by simpa using h
  | [], c :: b, x, y, _, hb, h => by
    simp only [List.nil_append, List.cons_append, List.cons.injEq] at h
    exact absurd (by simp [← h.1]) hb
  | c :: a, [], x, y, ha, _, h => by
    simp only [List.nil_append, List.cons_append, List.cons.injEq] at h
    exact absurd (by simp [h.1]) ha
  | c :: a, c' :: b, x, y, ha, hb, h => by
    simp only [List.cons_append, List.cons.injEq] at h
    simp only [List.mem_cons, not_or] at ha hb
    obtain ⟨h1, h2⟩ := upto_inj z ha.2 hb.2 h.2
    exact ⟨by rw [h.1, h1], h2⟩

theorem inj_span : Inj span := by
  rintro ⟨a, b⟩ ⟨a', b'⟩ h
  simp only [span, D.leaf.injEq, List.append_assoc, List.cons_append, List.nil_append] at h
  obtain ⟨h1, h2⟩ := upto_inj '.' (not_mem_digits (by decide)) (not_mem_digits (by decide)) h
  simp only [List.cons.injEq, true_and] at h2
  rw [digits10_inj h1, digits10_inj h2]

theorem fine_span : Fine span := by
  rintro ⟨a, b⟩
  have := @not_mem_digits a '\n' (by decide)
  have := @not_mem_digits b '\n' (by decide)
  simp_all [span, D.Ok]

theorem inj_bool : Inj bool := by
  intro a b h
  cases a <;> cases b <;> simp_all [bool]

theorem fine_bool : Fine bool := by
  intro a
  cases a <;> (show '\n' ∉ _; decide)

theorem displayInt_inj {a b : Int} (h : displayInt a = displayInt b) : a = b := by
  cases a <;> cases b <;> simp only [displayInt, List.cons.injEq, true_and] at h
  · rw [digits10_inj h]
  · exact absurd (h ▸ List.mem_cons_self) (not_mem_digits (by decide))
  · exact absurd (h.symm ▸ List.mem_cons_self) (not_mem_digits (by decide))
  · have := digits10_inj h; omega

theorem displayInt_chars {a : Int} : ∀ c ∈ displayInt a, c.isDigit = true ∨ c = '-' := by
  intro c hc
  cases a <;> simp only [displayInt, List.mem_cons] at hc
  · exact .inl (digits10_digit c hc)
  · rcases hc with rfl | hc
    · exact .inr rfl
    · exact .inl (digits10_digit c hc)

/-! ## Strings -/

theorem digitChar_hex {d : Nat} (h : d < 16) : d.digitChar ≠ '}' ∧ d.digitChar ≠ '\n' := by
  revert d; decide

theorem mem_digits16 {n : Nat} : '}' ∉ Nat.toDigits 16 n ∧ '\n' ∉ Nat.toDigits 16 n := by
  induction n using Nat.strongRecOn with
  | ind n ih =>
    by_cases h : n < 16
    · rw [Nat.toDigits_of_lt_base h]
      have := digitChar_hex h
      simp [this.1.symm, this.2.symm]
    · rw [Nat.toDigits_of_base_le (by decide) (by omega)]
      have h1 := ih (n / 16) (by omega)
      have h2 := digitChar_hex (d := n % 16) (by omega)
      simp [h1, h2.1.symm, h2.2.symm]

/-- The value of a hexadecimal digit. -/
def hexVal (c : Char) : Nat := ((List.range 16).find? fun d => d.digitChar = c).getD 0

theorem hexVal_digitChar {d : Nat} (h : d < 16) : hexVal d.digitChar = d := by
  revert d; decide

/-- The value of hexadecimal digits. -/
def hexNum (s : Str) : Nat := s.foldl (fun n c => n * 16 + hexVal c) 0

theorem hexNum_digits (n : Nat) : hexNum (Nat.toDigits 16 n) = n := by
  induction n using Nat.strongRecOn with
  | ind n ih =>
    by_cases h : n < 16
    · rw [Nat.toDigits_of_lt_base h]
      simp [hexNum, hexVal_digitChar h]
    · rw [Nat.toDigits_of_base_le (by decide) (by omega)]
      have h1 := ih (n / 16) (by omega)
      have h2 := hexVal_digitChar (d := n % 16) (by omega)
      unfold hexNum at h1 ⊢
      rw [List.foldl_append, h1]
      simp only [List.foldl_cons, List.foldl_nil, h2]
      omega

theorem digits16_inj {m n : Nat} (h : Nat.toDigits 16 m = Nat.toDigits 16 n) : m = n := by
  rw [← hexNum_digits m, ← hexNum_digits n, h]

variable [Charset]

/-- The code of a character is not the beginning of the code of another one. -/
theorem escape_inj {c c' : Char} {x y : Str} (h : escape c ++ x = escape c' ++ y) : c = c' ∧ x = y := by
  unfold escape at h
  repeat' (split at h)
  all_goals try (simp_all; done)
  all_goals try (
    rename_i hc _ _
    simp only [List.cons_append, List.nil_append, List.cons.injEq] at h
    exact absurd h.1.symm hc)
  all_goals try (
    simp only [List.append_assoc, List.cons_append, List.nil_append, List.cons.injEq] at h
    exact absurd h.1.symm (by assumption))
  · simp only [List.append_assoc, List.cons_append, List.nil_append, List.cons.injEq, true_and] at h
    obtain ⟨h1, h2⟩ := upto_inj '}' mem_digits16.1 mem_digits16.1 h
    exact ⟨Char.toNat_inj.1 (digits16_inj h1), h2⟩

theorem escape_ne (c : Char) : escape c ≠ [] := by
  unfold escape
  repeat' split
  all_goals simp

theorem escape_lines (c : Char) : '\n' ∉ escape c := by
  unfold escape
  repeat' split
  · decide
  · decide
  · decide
  · decide
  · decide
  · decide
  · rename_i h _ _ _
    intro hm
    exact h (List.mem_singleton.1 hm).symm
  · simp [mem_digits16.2]

theorem escape_all : ∀ {s t : Str}, s.flatMap escape = t.flatMap escape → s = t
  | [], [], _ => rfl
  | [], c :: t, h => by simp [escape_ne] at h
  | c :: s, [], h => by simp [escape_ne] at h
  | c :: s, c' :: t, h => by
    simp only [List.flatMap_cons] at h
    obtain ⟨rfl, h2⟩ := escape_inj h
    rw [escape_all h2]

theorem inj_str : Inj str := by
  intro a b h
  simp only [str, D.leaf.injEq, List.cons.injEq, true_and] at h
  exact escape_all (List.append_cancel_right h)

theorem fine_str : Fine str := by
  intro a
  have h : '\n' ∉ a.flatMap escape := by simp [List.mem_flatMap, escape_lines]
  show '\n' ∉ _
  simp [h]

end Dbml.Debug
