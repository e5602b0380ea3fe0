import Mathlib.Data.Rat.Defs
import Mathlib.Algebra.Order.Field.Rat
import Mathlib.Algebra.Order.Ring.Abs
import Verif.Model.F64

/-!
# IEEE-754 binary64: what it means to be the number nearest to a rational

Non-negative numbers only: `dbml-rs` has no others.
-/

namespace Dbml.Spec

/-- `m * 2 ^ e` is a finite binary64 number, written in the one canonical way: 53 bits of significand, exponents from
`-1074` to `971`, and a leading bit unless the exponent is the least one. -/
def IsFloat (m : Nat) (e : Int) : Prop := m < 2 ^ 53 ∧ -1074 ≤ e ∧ e ≤ 971 ∧ (2 ^ 52 ≤ m ∨ e = -1074)

/-- The number `m * 2 ^ e`. -/
def floatVal (m : Nat) (e : Int) : Rat := (m : Rat) * (2 : Rat) ^ e

/-- `f` is the binary64 number that the rational `x ≥ 0` is rounded to: the finite number nearest to `x`, of two equally
near ones the one with even significand; infinity from the middle between the greatest finite number and `2 ^ 1024` on. -/
def Nearest (x : Rat) : F64 → Prop
  | .inf => (2 : Rat) ^ 1024 - 2 ^ 970 ≤ x
  | .fin m e => x < (2 : Rat) ^ 1024 - 2 ^ 970 ∧ IsFloat m e ∧ ∀ m' e', IsFloat m' e' →
      |x - floatVal m e| ≤ |x - floatVal m' e'| ∧
      (|x - floatVal m e| = |x - floatVal m' e'| → (m' = m ∧ e' = e) ∨ m % 2 = 0)

end Dbml.Spec
