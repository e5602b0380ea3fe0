import Verif.Props.Decimals

/-!
# C55: the text of a value

`Value::to_string` is what the library uses when a setting is taken as text (`note`, `name`, `type` of an index, the default
of an enum column) and in messages.
-/

namespace Dbml.Props

open Dbml Spec Syntax

variable {input : Str} {s : SchemaBlock}

/-- `t` is how the value is shown: texts and words as they are; integers as numerals, with a sign if negative; doubles as a
decimal number that rounds to the double, has as few significant digits as possible, and of the numbers with that many digits
is one nearest to the double. -/
def ShownAs : Value → Str → Prop
  | .enum w, t | .string w, t | .expr w, t | .hexColor w, t => t = w
  | .bool true, t => t = k!"true"
  | .bool false, t => t = k!"false"
  | .null, t => t = k!"null"
  | .integer n, t => ∃ d, IsNumeral d n.natAbs ∧ t = if n < 0 then '-' :: d else d
  | .decimal .inf, t => t = k!"inf"
  | .decimal (.fin m e), t => ∃ x n, Plain t x ∧ Nearest x (.fin m e) ∧ HasDigits n x ∧
      (∀ n' < n, ∀ r, HasDigits n' r → ¬ Nearest r (.fin m e)) ∧
      ∀ r, HasDigits n r → Nearest r (.fin m e) → |x - floatVal m e| ≤ |r - floatVal m e|

/-- The value can occur: a double is in canonical form. -/
def Canonical : Value → Prop
  | .decimal (.fin m e) => IsFloat m e
  | _ => True

theorem int_shown (n : Int) : ∃ d, IsNumeral d n.natAbs ∧ displayInt n = if n < 0 then '-' :: d else d := by
  cases n with
  | ofNat k => exact ⟨_, natDigits_numeral k, rfl⟩
  | negSucc k => exact ⟨_, natDigits_numeral (k + 1), by rw [if_pos (Int.negSucc_lt_zero k)]; rfl⟩

theorem zero_shown {e : Int} (h : IsFloat 0 e) : ∃ x n, Plain (F64.fin 0 e).display x ∧ Nearest x (.fin 0 e) ∧ HasDigits n x ∧
    (∀ n' < n, ∀ r, HasDigits n' r → ¬ Nearest r (.fin 0 e)) ∧
    ∀ r, HasDigits n r → Nearest r (.fin 0 e) → |x - floatVal 0 e| ≤ |r - floatVal 0 e| := by
  obtain rfl : e = -1074 := by
    rcases h.2.2.2 with h | h
    · simp at h
    · exact h
  refine ⟨0, 0, ⟨k!"0", 0, ⟨⟨by simp, by decide⟩, by decide, fun _ => rfl⟩, .inl ⟨rfl, by norm_num⟩⟩, ?_,
    ⟨0, 0, by norm_num, by norm_num⟩, fun _ h => absurd h (Nat.not_lt_zero _), fun r _ _ => by simp [floatVal]⟩
  have := ofScaled_nearest 0 0
  simpa [F64.ofScaled, F64.ofRat] using this

/-- **C55.** How `Value::to_string` shows a value. -/
theorem C55_to_string (v : Value) (hv : Canonical v) : ShownAs v v.toStr := by
  cases v with
  | enum w => rfl
  | string w => rfl
  | expr w => rfl
  | hexColor w => rfl
  | null => rfl
  | bool b => cases b <;> rfl
  | integer n => exact int_shown n
  | decimal f =>
    cases f with
    | inf => rfl
    | fin m e =>
      by_cases hm : m = 0
      · subst hm; exact zero_shown hv
      · exact display_spec hv (by omega)

/-- **C55.** The values in an accepted text can occur. -/
theorem C55_canonical (h : parseDbmlUnchecked input = .ok s) (l : Literal) (hl : l ∈ literals s) : Canonical l.value := by
  cases hv : l.value with
  | decimal f =>
    cases f with
    | inf => trivial
    | fin m e =>
      obtain ⟨x, -, hx⟩ := (C54_decimal_literals h l hl).2 _ hv
      exact hx.2.1
  | _ => trivial

/-- **C55.** In an accepted text, what is not quoted and not a number is shown as it is written; an integer is shown as the
numeral of the number written; a decimal as a number that rounds to the same double as the number written. -/
theorem C55_literals (h : parseDbmlUnchecked input = .ok s) (l : Literal) (hl : l ∈ literals s) :
    ((∃ w, l.value = .enum w) ∨ (∃ w, l.value = .hexColor w) ∨ (∃ b, l.value = .bool b) ∨ l.value = .null →
      l.value.toStr = l.raw) ∧
    (∀ n, l.value = .integer n → IsDigits l.raw ∧ IsNumeral l.value.toStr (digitsNat l.raw)) ∧
    (∀ f, l.value = .decimal f → f ≠ .inf → ∃ x x', IsDecimal l.raw x ∧ Plain l.value.toStr x' ∧ Nearest x f ∧ Nearest x' f) := by
  refine ⟨?_, ?_, ?_⟩
  · obtain ⟨q, hq, h1, h2, h3⟩ := has_literal (denotes h) l hl
    rw [h2]
    rcases h3 with (hv | ⟨-, -, hv⟩ | ⟨v, -, hv⟩) | ⟨v, -, hv⟩
    · generalize l.value = w at hv
      cases hv with
      | true hs => rw [hs]; exact fun _ => rfl
      | false hs => rw [hs]; exact fun _ => rfl
      | null hs => rw [hs]; exact fun _ => rfl
      | hex e _ _ => exact fun _ => rfl
      | _ => simp
    · rw [hv]; exact fun _ => rfl
    · rw [hv]; simp
    · rw [hv]; simp
  · intro n hn
    obtain ⟨q, hq, h1, h2, h3⟩ := has_literal (denotes h) l hl
    rw [h2]
    rcases h3 with (hv | ⟨-, -, hv⟩ | ⟨v, -, hv⟩) | ⟨v, -, hv⟩
    · generalize l.value = w at hv hn
      cases hv with
      | integer hd hlt => exact ⟨hd, natDigits_numeral _⟩
      | _ => cases hn
    · rw [hv] at hn; cases hn
    · rw [hv] at hn; cases hn
    · rw [hv] at hn; cases hn
  · intro f hf hne
    obtain ⟨x, hx, hxf⟩ := (C54_decimal_literals h l hl).2 f hf
    cases f with
    | inf => exact absurd rfl hne
    | fin m e =>
      have hs := C55_to_string l.value (C55_canonical h l hl)
      rw [hf] at hs
      obtain ⟨x', n, hp, hn, -⟩ := hs
      exact ⟨x, x', hx, by rw [hf]; exact hp, hxf, hn⟩

/-- Witnesses: numbers as they are shown. -/
example : (F64.parse k!"0.1").display = k!"0.1" := by decide +kernel
example : (F64.parse k!"0123.4500").display = k!"123.45" := by decide +kernel
example : (F64.parse k!"9007199254740993.0").display = k!"9007199254740992" := by decide +kernel
example : (Value.integer (-12)).toStr = k!"-12" := by decide +kernel

/-- A witness: a note that is a number. -/
example : (match parseDbmlUnchecked k!"Project p {} Table t { a int [note: 007.50] }" with
    | .ok s => (literals s).map fun l => l.value.toStr
    | _ => []) = [k!"7.5"] := by decide +kernel

end Dbml.Props
