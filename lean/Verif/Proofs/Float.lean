import Mathlib.Tactic.Linarith
import Mathlib.Tactic.Positivity
import Mathlib.Tactic.FieldSimp
import Mathlib.Tactic.Ring
import Mathlib.Tactic.NormNum
import Mathlib.Tactic.GCongr
import Mathlib.Algebra.Order.Field.Power
import Verif.Spec.Float

/-!
# Rounding to binary64 is correct
-/

namespace Dbml
open Spec

theorem two_pos (e : Int) : (0 : Rat) < 2 ^ e := by positivity

theorem roundDiv_spec (n d : Nat) (hd : 0 < d) :
    |(n : Rat) / d - F64.roundDiv n d| ≤ 1 / 2 ∧
    (|(n : Rat) / d - F64.roundDiv n d| = 1 / 2 → F64.roundDiv n d % 2 = 0) := by
  have hdq : (0 : Rat) < d := by exact_mod_cast hd
  have e : (n : Rat) = d * (n / d : Nat) + (n % d : Nat) := by exact_mod_cast (Nat.div_add_mod n d).symm
  have hr : n % d < d := Nat.mod_lt _ hd
  have key : (n : Rat) / d = (n / d : Nat) + ((n % d : Nat) : Rat) / d := by
    rw [eq_comm]; field_simp; linarith
  have h0 : (0 : Rat) ≤ ((n % d : Nat) : Rat) / d := by positivity
  unfold F64.roundDiv
  simp only
  split
  · rename_i h
    have h' : ((n % d : Nat) : Rat) / d < 1 / 2 := by
      rw [div_lt_iff₀ hdq]
      have : (2 : Rat) * (n % d : Nat) < d := by exact_mod_cast h
      linarith
    rw [key, add_sub_cancel_left, abs_of_nonneg h0]
    exact ⟨h'.le, fun he => absurd he h'.ne⟩
  · split
    · rename_i h1 h
      have h' : 1 / 2 < ((n % d : Nat) : Rat) / d := by
        rw [lt_div_iff₀ hdq]
        have : (d : Rat) < 2 * (n % d : Nat) := by exact_mod_cast h
        linarith
      have h'' : ((n % d : Nat) : Rat) / d < 1 := by
        rw [div_lt_one hdq]; exact_mod_cast hr
      rw [key]
      push_cast
      have : ((n / d : Nat) : Rat) + ((n % d : Nat) : Rat) / d - ((n / d : Nat) + 1) = ((n % d : Nat) : Rat) / d - 1 := by ring
      rw [this, abs_of_nonpos (by linarith)]
      exact ⟨by linarith, fun he => absurd he (by linarith)⟩
    · rename_i h1 h
      have h2 : 2 * (n % d) = d := by omega
      have h' : ((n % d : Nat) : Rat) / d = 1 / 2 := by
        rw [div_eq_iff hdq.ne']
        have : (2 : Rat) * (n % d : Nat) = d := by exact_mod_cast h2
        linarith
      split
      · rename_i h3
        rw [key, add_sub_cancel_left, h', abs_of_nonneg (by norm_num)]
        exact ⟨le_refl _, fun _ => h3⟩
      · rename_i h3
        rw [key, h']
        push_cast
        have : ((n / d : Nat) : Rat) + 1 / 2 - ((n / d : Nat) + 1) = -(1 / 2) := by ring
        rw [this, abs_neg, abs_of_nonneg (by norm_num)]
        exact ⟨le_refl _, fun _ => by omega⟩

/-- `mantAt` rounds the scaled quotient. -/
theorem mantAt_spec (num den : Nat) (e : Int) (hd : 0 < den) :
    |(num : Rat) / den / 2 ^ e - F64.mantAt num den e| ≤ 1 / 2 ∧
    (|(num : Rat) / den / 2 ^ e - F64.mantAt num den e| = 1 / 2 → F64.mantAt num den e % 2 = 0) := by
  unfold F64.mantAt
  split
  · rename_i h
    have := roundDiv_spec num (den * 2 ^ e.toNat) (by positivity)
    have e1 : ((num : Rat) / den / 2 ^ e) = (num : Rat) / ((den * 2 ^ e.toNat : Nat) : Rat) := by
      rw [div_div]
      congr 1
      push_cast
      congr 1
      rw [← zpow_natCast, Int.toNat_of_nonneg h]
    rw [e1]
    exact this
  · rename_i h
    have := roundDiv_spec (num * 2 ^ (-e).toNat) den hd
    have e1 : ((num : Rat) / den / 2 ^ e) = ((num * 2 ^ (-e).toNat : Nat) : Rat) / den := by
      push_cast
      have : (2 : Rat) ^ (-e).toNat = (2 ^ e)⁻¹ := by
        rw [← zpow_natCast, Int.toNat_of_nonneg (by omega), zpow_neg]
      rw [this]
      field_simp
    rw [e1]
    exact this

theorem floatVal_eq (m : Nat) (e e' : Int) (h : e ≤ e') :
    floatVal m e' = ((m * 2 ^ (e' - e).toNat : Nat) : Rat) * 2 ^ e := by
  unfold floatVal
  push_cast
  rw [mul_assoc]
  congr 1
  rw [← zpow_natCast, Int.toNat_of_nonneg (by omega), ← zpow_add₀ (by norm_num)]
  congr 1
  omega

/-- An integer other than the nearest one is farther away, or as far in a tie. -/
theorem int_far {y : Rat} {m k : Nat} (h : |y - m| ≤ 1 / 2) : |y - m| ≤ |y - k| ∧ (|y - m| = |y - k| → k = m ∨ |y - m| = 1 / 2) := by
  by_cases hk : k = m
  · subst hk; exact ⟨le_refl _, fun _ => .inl rfl⟩
  · have : (1 : Rat) ≤ |(m : Rat) - k| := by
      have h1 : (1 : Int) ≤ |(m : Int) - k| := by
        apply Int.one_le_abs; omega
      exact_mod_cast h1
    have h2 : |(m : Rat) - k| ≤ |y - m| + |y - k| := by
      have := abs_sub_le (m : Rat) y k
      rwa [abs_sub_comm (m : Rat) y] at this
    refine ⟨by linarith, fun he => .inr ?_⟩
    rw [← he] at h2
    linarith

/-- The core: the rounded significand gives the nearest number, provided the exponent is the right one. -/
theorem nearest_core {x : Rat} {m : Nat} {e : Int} (hm : |x / 2 ^ e - m| ≤ 1 / 2)
    (ht : |x / 2 ^ e - m| = 1 / 2 → m % 2 = 0) (hlo : e = -1074 ∨ (2 : Rat) ^ 52 ≤ x / 2 ^ e) (m' : Nat) (e' : Int)
    (hf : IsFloat m' e') :
    |x - floatVal m e| ≤ |x - floatVal m' e'| ∧
      (|x - floatVal m e| = |x - floatVal m' e'| → floatVal m' e' = floatVal m e ∨ m % 2 = 0) := by
  have hp := two_pos e
  have hx : x = x / 2 ^ e * 2 ^ e := by field_simp
  have scale : ∀ k : Rat, |x - k * 2 ^ e| = |x / 2 ^ e - k| * 2 ^ e := by
    intro k
    rw [show x - k * 2 ^ e = (x / 2 ^ e - k) * 2 ^ e by rw [sub_mul, ← hx], abs_mul, abs_of_pos hp]
  have h1 : |x - floatVal m e| = |x / 2 ^ e - m| * 2 ^ e := scale m
  by_cases hee : e ≤ e'
  · rw [floatVal_eq m' e e' hee, h1, scale]
    generalize m' * 2 ^ (e' - e).toNat = k
    have := int_far (k := k) hm
    refine ⟨by have := this.1; gcongr, fun he => ?_⟩
    rcases this.2 (mul_right_cancel₀ hp.ne' he) with rfl | h
    · exact .inl rfl
    · exact .inr (ht h)
  · have hge : (2 : Rat) ^ 52 ≤ x / 2 ^ e := by
      rcases hlo with rfl | h
      · have := hf.2.1; omega
      · exact h
    have hv : floatVal m' e' < 2 ^ 52 * 2 ^ e := by
      unfold floatVal
      have a1 : (m' : Rat) < 2 ^ 53 := by exact_mod_cast hf.1
      have a2 : (2 : Rat) ^ e' ≤ 2 ^ (e - 1) := zpow_le_zpow_right₀ (by norm_num) (by omega)
      have a3 : (2 : Rat) ^ (e - 1) = 2 ^ e / 2 := by rw [zpow_sub_one₀ (by norm_num)]; rfl
      have := two_pos e'
      calc (m' : Rat) * 2 ^ e' < 2 ^ 53 * 2 ^ e' := by gcongr
        _ ≤ 2 ^ 53 * (2 ^ e / 2) := by rw [← a3]; gcongr
        _ = 2 ^ 52 * 2 ^ e := by ring
    have hm52 : |x / 2 ^ e - m| ≤ |x / 2 ^ e - ((2 ^ 52 : Nat) : Rat)| := (int_far hm).1
    have hlt : |x / 2 ^ e - ((2 ^ 52 : Nat) : Rat)| * 2 ^ e < |x - floatVal m' e'| := by
      rw [← scale]
      push_cast
      have : (2 : Rat) ^ 52 * 2 ^ e ≤ x := by rw [hx]; gcongr
      rw [abs_of_nonneg (by linarith), abs_of_nonneg (by linarith)]
      linarith
    have : |x - floatVal m e| < |x - floatVal m' e'| := by
      rw [h1]
      exact lt_of_le_of_lt (by gcongr) hlt
    exact ⟨this.le, fun he => absurd he this.ne⟩

/-- The canonical form is unique. -/
theorem float_unique {m m' : Nat} {e e' : Int} (h : IsFloat m e) (h' : IsFloat m' e') (hv : floatVal m e = floatVal m' e') :
    m = m' ∧ e = e' := by
  have key : ∀ {m m' : Nat} {e e' : Int}, IsFloat m e → IsFloat m' e' → floatVal m e = floatVal m' e' → e ≤ e' →
      m = m' ∧ e = e' := by
    intro m m' e e' h h' hv hle
    rw [floatVal_eq m' e e' hle] at hv
    have hm : (m : Rat) = ((m' * 2 ^ (e' - e).toNat : Nat) : Rat) := mul_right_cancel₀ (two_pos e).ne' hv
    have hm : m = m' * 2 ^ (e' - e).toNat := by exact_mod_cast hm
    by_cases hc : e = e'
    · subst hc; simpa using hm
    · obtain ⟨k, hk⟩ : ∃ k, (e' - e).toNat = k + 1 := ⟨(e' - e).toNat - 1, by omega⟩
      rcases h'.2.2.2 with h2 | h2
      · rw [hk, pow_succ] at hm
        have : 1 ≤ 2 ^ k := Nat.one_le_two_pow
        have := h.1
        have : 2 ^ 52 * (1 * 2) ≤ m' * (2 ^ k * 2) := Nat.mul_le_mul h2 (Nat.mul_le_mul_right 2 ‹1 ≤ 2 ^ k›)
        omega
      · have := h.2.1; omega
  rcases le_total e e' with hle | hle
  · exact key h h' hv hle
  · obtain ⟨h1, h2⟩ := key h' h hv.symm hle
    exact ⟨h1.symm, h2.symm⟩

end Dbml
