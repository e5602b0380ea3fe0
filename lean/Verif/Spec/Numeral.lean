import Verif.Spec.Float
import Verif.Spec.Syntax

/-!
# Decimal notation
-/

namespace Dbml.Spec

open Syntax

/-- The text is a decimal literal: digits, a point, digits (possibly none), and it denotes `x`. -/
def IsDecimal (t : Str) (x : Rat) : Prop :=
  ∃ a b, t = a ++ ('.' :: b) ∧ IsDigits a ∧ (∀ c ∈ b, c.isDigit = true) ∧ x = digitsNat a + (digitsNat b : Rat) / 10 ^ b.length

/-- The text is the numeral of a natural number: digits without a superfluous zero in front. -/
def IsNumeral (t : Str) (n : Nat) : Prop := IsDigits t ∧ digitsNat t = n ∧ (t.head? = some '0' → t = k!"0")

/-- The text is a number in decimal notation, without a superfluous zero: a numeral, possibly followed by a point and
digits that do not end with a zero. It denotes `x`. -/
def Plain (t : Str) (x : Rat) : Prop :=
  ∃ a n, IsNumeral a n ∧ ((t = a ∧ x = n) ∨
    ∃ b, t = a ++ ('.' :: b) ∧ IsDigits b ∧ b.getLast? ≠ some '0' ∧ x = n + (digitsNat b : Rat) / 10 ^ b.length)

/-- `x` can be written with `n` significant decimal digits. -/
def HasDigits (n : Nat) (x : Rat) : Prop := ∃ (d : Nat) (k : Int), d < 10 ^ n ∧ x = (d : Rat) * 10 ^ k

end Dbml.Spec
