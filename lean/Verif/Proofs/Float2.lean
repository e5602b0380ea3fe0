import Verif.Proofs.Float

/-!
# `F64.ofRat` rounds to nearest, ties to even
-/

namespace Dbml

open Spec

theorem log2_lo (n : Nat) (h : n ≠ 0) : (2 : Rat) ^ ((Nat.log2 n : Nat) : Int) ≤ n := by
  rw [zpow_natCast]; exact_mod_cast Nat.log2_self_le h

theorem log2_hi (n : Nat) : (n : Rat) < (2 : Rat) ^ ((Nat.log2 n : Nat) + 1 : Int) := by
  have h : n < 2 ^ (Nat.log2 n + 1) := Nat.lt_log2_self
  have : ((Nat.log2 n : Nat) + 1 : Int) = ((Nat.log2 n + 1 : Nat) : Int) := by push_cast; rfl
  rw [this, zpow_natCast]; exact_mod_cast h

/-- The `small` test of `ofRat`. -/
theorem small_iff (num den : Nat) (e : Int) (hd : 0 < den) :
    (if 0 ≤ e then decide (num < 2 ^ 52 * (den * 2 ^ e.toNat)) else decide (num * 2 ^ (-e).toNat < 2 ^ 52 * den)) = true ↔
      (num : Rat) / den < 2 ^ (52 + e) := by
  have hdq : (0 : Rat) < den := by exact_mod_cast hd
  rw [div_lt_iff₀ hdq, zpow_add₀ (by norm_num)]
  split
  · rename_i h
    have e1 : (2 : Rat) ^ e = ((2 ^ e.toNat : Nat) : Rat) := by
      push_cast; rw [← zpow_natCast, Int.toNat_of_nonneg h]
    rw [decide_eq_true_iff, e1]
    have : ((2 : Rat) ^ (52 : Int)) = ((2 ^ 52 : Nat) : Rat) := by norm_num
    rw [this]
    constructor
    · intro hh
      have : (num : Rat) < ((2 ^ 52 * (den * 2 ^ e.toNat) : Nat) : Rat) := by exact_mod_cast hh
      push_cast at this ⊢
      linarith
    · intro hh
      have : (num : Rat) < ((2 ^ 52 * (den * 2 ^ e.toNat) : Nat) : Rat) := by push_cast at hh ⊢; linarith
      exact_mod_cast this
  · rename_i h
    have e1 : (2 : Rat) ^ e = 1 / ((2 ^ (-e).toNat : Nat) : Rat) := by
      push_cast; rw [← zpow_natCast, Int.toNat_of_nonneg (by omega), zpow_neg]; simp
    have hp : (0 : Rat) < ((2 ^ (-e).toNat : Nat) : Rat) := by positivity
    rw [decide_eq_true_iff, e1]
    have : ((2 : Rat) ^ (52 : Int)) = ((2 ^ 52 : Nat) : Rat) := by norm_num
    rw [this, mul_one_div, div_mul_eq_mul_div, lt_div_iff₀ hp]
    constructor
    · intro hh
      exact_mod_cast hh
    · intro hh
      exact_mod_cast hh

theorem p1024 : (2 : Rat) ^ 1024 = 2 ^ 54 * 2 ^ 970 := by rw [← pow_add]
theorem p970 : (2 : Rat) ^ (970 : Int) = 2 ^ 970 := rfl
theorem p971 : (2 : Rat) ^ (971 : Int) = 2 * 2 ^ 970 := by rw [← pow_succ']; rfl
theorem p972 : (2 : Rat) ^ (972 : Int) = 4 * 2 ^ 970 := by
  rw [show (4 : Rat) = 2 ^ 2 by norm_num, ← pow_add]; rfl
theorem pp : (0 : Rat) < 2 ^ 970 := by positivity

/-- Rounding at a given exponent, renormalising, overflowing. -/
theorem round_core {x : Rat} {m : Nat} {e : Int} (he : -1074 ≤ e) (hm : |x / 2 ^ e - m| ≤ 1 / 2)
    (ht : |x / 2 ^ e - m| = 1 / 2 → m % 2 = 0) (hlo : e = -1074 ∨ (2 : Rat) ^ 52 ≤ x / 2 ^ e)
    (hhi : x / 2 ^ e < (2 : Rat) ^ 53) :
    Nearest x (if 971 < (if m = 2 ^ 53 then (2 ^ 52, e + 1) else (m, e)).2 then .inf
      else .fin (if m = 2 ^ 53 then (2 ^ 52, e + 1) else (m, e)).1 (if m = 2 ^ 53 then (2 ^ 52, e + 1) else (m, e)).2) := by
  have hp := two_pos e
  have hx : x = x / 2 ^ e * 2 ^ e := by field_simp
  have hm' := abs_le.1 hm
  have hm53 : m ≤ 2 ^ 53 := by
    by_contra hc
    have : (2 : Rat) ^ 53 + 1 ≤ m := by
      have : 2 ^ 53 + 1 ≤ m := by omega
      exact_mod_cast this
    linarith [hm'.1]
  have hm52 : e = -1074 ∨ 2 ^ 52 ≤ m := by
    refine hlo.imp_right fun hlo => ?_
    by_contra hc
    have : (m : Rat) ≤ 2 ^ 52 - 1 := by
      have : m + 1 ≤ 2 ^ 52 := by omega
      have : (m : Rat) + 1 ≤ 2 ^ 52 := by exact_mod_cast this
      linarith
    linarith [hm'.2]
  have b971 : (2 : Rat) ^ 1024 - 2 ^ 970 = (2 ^ 53 - 1 / 2) * 2 ^ (971 : Int) := by
    rw [p1024, p971]; ring
  by_cases h53 : m = 2 ^ 53
  · simp only [h53, if_true]
    split
    · rename_i hov
      show _ ≤ _
      rw [b971, hx]
      have h1 : (2 : Rat) ^ (971 : Int) ≤ 2 ^ e := zpow_le_zpow_right₀ (by norm_num) (by omega)
      have h2 : (2 : Rat) ^ 53 - 1 / 2 ≤ x / 2 ^ e := by
        have := hm'.1; rw [h53] at this; push_cast at this; linarith
      exact mul_le_mul h2 h1 (two_pos _).le (le_trans (by norm_num) h2)
    · rename_i hov
      have hf : IsFloat (2 ^ 52) (e + 1) := ⟨by norm_num, by omega, by omega, .inl le_rfl⟩
      have hv : floatVal (2 ^ 52) (e + 1) = floatVal m e := by
        rw [floatVal_eq _ e (e + 1) (by omega), h53]
        have : (e + 1 - e).toNat = 1 := by omega
        rw [this]; rfl
      refine ⟨?_, hf, fun m' e' hf' => ?_⟩
      · have h1 : (2 : Rat) ^ e ≤ 2 ^ (970 : Int) := zpow_le_zpow_right₀ (by norm_num) (by omega)
        rw [hx]
        calc x / 2 ^ e * 2 ^ e < 2 ^ 53 * 2 ^ e := by gcongr
          _ ≤ 2 ^ 53 * 2 ^ (970 : Int) := by gcongr
          _ < _ := by rw [p1024, p970]; have := pp; generalize (2 : Rat) ^ 970 = P at this ⊢; norm_num; linarith
      · obtain ⟨h1, h2⟩ := nearest_core hm ht hlo m' e' hf'
        rw [hv]
        exact ⟨h1, fun _ => .inr (by norm_num)⟩
  · simp only [h53, if_false]
    split
    · rename_i hov
      show _ ≤ _
      have h1 : (2 : Rat) ^ (972 : Int) ≤ 2 ^ e := zpow_le_zpow_right₀ (by norm_num) (by omega)
      have h2 : (2 : Rat) ^ 52 ≤ x / 2 ^ e := by
        rcases hlo with h | h
        · omega
        · exact h
      rw [hx]
      calc (2 : Rat) ^ 1024 - 2 ^ 970 ≤ 2 ^ 52 * 2 ^ (972 : Int) := by
            rw [p1024, p972]; have := pp; generalize (2 : Rat) ^ 970 = P at this ⊢; norm_num; linarith
        _ ≤ x / 2 ^ e * 2 ^ e := mul_le_mul h2 h1 (two_pos _).le (le_trans (by norm_num) h2)
    · rename_i hov
      have hf : IsFloat m e := ⟨by omega, he, by omega, hm52.symm⟩
      refine ⟨?_, hf, fun m' e' hf' => ?_⟩
      · have h1 : (2 : Rat) ^ e ≤ 2 ^ (971 : Int) := zpow_le_zpow_right₀ (by norm_num) (by omega)
        have h2 : x / 2 ^ e < 2 ^ 53 - 1 / 2 := by
          have hle : (m : Rat) ≤ 2 ^ 53 - 1 := by
            have : m + 1 ≤ 2 ^ 53 := by omega
            have : (m : Rat) + 1 ≤ 2 ^ 53 := by exact_mod_cast this
            linarith
          rcases lt_or_eq_of_le (show x / 2 ^ e ≤ 2 ^ 53 - 1 / 2 by linarith [hm'.2]) with h | h
          · exact h
          · have hmq : (m : Rat) = 2 ^ 53 - 1 := by linarith [hm'.2]
            have : |x / 2 ^ e - m| = 1 / 2 := by rw [h, hmq]; norm_num
            have := ht this
            have hmn : m + 1 = 2 ^ 53 := by
              have : (m : Rat) + 1 = 2 ^ 53 := by linarith
              exact_mod_cast this
            omega
        rw [b971, hx]
        calc x / 2 ^ e * 2 ^ e < (2 ^ 53 - 1 / 2) * 2 ^ e := by gcongr
          _ ≤ _ := by
            apply mul_le_mul_of_nonneg_left h1; norm_num
      · obtain ⟨h1, h2⟩ := nearest_core hm ht hlo m' e' hf'
        refine ⟨h1, fun h => (h2 h).imp_left fun hv => ?_⟩
        exact float_unique hf' hf hv

theorem ofRat_nearest (num den : Nat) (hd : 0 < den) : Nearest ((num : Rat) / den) (F64.ofRat num den) := by
  have hdq : (0 : Rat) < den := by exact_mod_cast hd
  unfold F64.ofRat
  split
  · rename_i h
    subst h
    refine ⟨by rw [p1024]; norm_num, ⟨by norm_num, by norm_num, by norm_num, .inr rfl⟩, fun m' e' _ => ⟨?_, fun _ => .inr rfl⟩⟩
    simp only [Nat.cast_zero, zero_div, floatVal, zero_mul, sub_zero, abs_zero]
    exact abs_nonneg _
  · rename_i hn
    have hnq : (0 : Rat) < num := by exact_mod_cast Nat.pos_of_ne_zero hn
    generalize he0 : (Nat.log2 num : Int) - (Nat.log2 den : Int) - 52 = e0
    have l0 : (2 : Rat) ^ (51 + e0) < (num : Rat) / den := by
      rw [lt_div_iff₀ hdq]
      calc (2 : Rat) ^ (51 + e0) * den < 2 ^ (51 + e0) * 2 ^ ((Nat.log2 den : Nat) + 1 : Int) := by
            gcongr; exact log2_hi den
        _ = 2 ^ ((Nat.log2 num : Nat) : Int) := by rw [← zpow_add₀ (by norm_num)]; congr 1; omega
        _ ≤ num := log2_lo num hn
    have u0 : (num : Rat) / den < 2 ^ (53 + e0) := by
      rw [div_lt_iff₀ hdq]
      calc (num : Rat) < 2 ^ ((Nat.log2 num : Nat) + 1 : Int) := log2_hi num
        _ = 2 ^ (53 + e0) * 2 ^ ((Nat.log2 den : Nat) : Int) := by rw [← zpow_add₀ (by norm_num)]; congr 1; omega
        _ ≤ 2 ^ (53 + e0) * den := by gcongr; exact log2_lo den (by omega)
    have hs := small_iff num den e0 hd
    generalize hsm : (if 0 ≤ e0 then decide (num < 2 ^ 52 * (den * 2 ^ e0.toNat)) else decide (num * 2 ^ (-e0).toNat < 2 ^ 52 * den)) = sm at hs
    simp only [hsm]
    generalize he1 : (if sm = true then e0 - 1 else e0) = e1
    have b1 : (2 : Rat) ^ (52 + e1) ≤ (num : Rat) / den ∧ (num : Rat) / den < 2 ^ (53 + e1) := by
      cases sm
      · simp only [Bool.false_eq_true, if_false] at he1; subst he1
        exact ⟨not_lt.1 fun h => by simpa using hs.2 h, u0⟩
      · simp only [if_true] at he1; subst he1
        have h := hs.1 rfl
        refine ⟨?_, ?_⟩
        · rw [show 52 + (e0 - 1) = 51 + e0 by omega]; exact l0.le
        · rw [show 53 + (e0 - 1) = 52 + e0 by omega]; exact h
    have hle : e1 ≤ (if e1 < -1074 then -1074 else e1) := by split <;> omega
    have hge : -1074 ≤ (if e1 < -1074 then -1074 else e1) := by split <;> omega
    have hcase : (if e1 < -1074 then -1074 else e1) = -1074 ∨ (if e1 < -1074 then -1074 else e1) = e1 := by
      split <;> simp
    generalize (if e1 < -1074 then -1074 else e1) = e at hle hge hcase
    obtain ⟨hm, ht⟩ := mantAt_spec num den e hd
    refine round_core hge hm ht ?_ ?_
    · refine hcase.imp_right ?_
      rintro rfl
      rw [le_div_iff₀ (two_pos _)]
      have := b1.1
      rw [zpow_add₀ (by norm_num)] at this
      exact_mod_cast this
    · rw [div_lt_iff₀ (two_pos _)]
      calc (num : Rat) / den < 2 ^ (53 + e1) := b1.2
        _ ≤ 2 ^ (53 + e) := zpow_le_zpow_right₀ (by norm_num) (by omega)
        _ = 2 ^ 53 * 2 ^ e := by rw [zpow_add₀ (by norm_num)]; norm_num

/-- Of two floats `a < b` with `a` of even significand, either `a` plus a unit of its last place is below `b`, or it is
`b`, which then has an odd significand. -/
theorem even_gap {m m' : Nat} {e e' : Int} (h : IsFloat m e) (h' : IsFloat m' e') (hm : m % 2 = 0)
    (hlt : floatVal m e < floatVal m' e') :
    IsFloat (m + 1) e ∧ (floatVal (m + 1) e < floatVal m' e' ∨ m' % 2 = 1) := by
  have hf : IsFloat (m + 1) e := ⟨by have := h.1; omega, h.2.1, h.2.2.1, h.2.2.2.imp_left (by omega)⟩
  refine ⟨hf, ?_⟩
  rcases lt_trichotomy (floatVal (m + 1) e) (floatVal m' e') with hc | hc | hc
  · exact .inl hc
  · have := (float_unique hf h' hc).1
    exact .inr (by omega)
  · exfalso
    have hp := two_pos e
    by_cases hle : e ≤ e'
    · rw [floatVal_eq m' e e' hle] at hlt hc
      unfold floatVal at hlt hc
      have h1 := lt_of_mul_lt_mul_right hlt hp.le
      have h2 := lt_of_mul_lt_mul_right hc hp.le
      have h1 : m < m' * 2 ^ (e' - e).toNat := by exact_mod_cast h1
      have h2 : m' * 2 ^ (e' - e).toNat < m + 1 := by exact_mod_cast h2
      omega
    · have hm52 : 2 ^ 52 ≤ m := by
        rcases h.2.2.2 with h1 | h1
        · exact h1
        · have := h'.2.1; omega
      have : floatVal m' e' ≤ floatVal m e := by
        unfold floatVal
        calc (m' : Rat) * 2 ^ e' ≤ 2 ^ 53 * 2 ^ e' := by
              have : (m' : Rat) ≤ 2 ^ 53 := by exact_mod_cast h'.1.le
              gcongr
          _ ≤ 2 ^ 53 * 2 ^ (e - 1) := by
              have : (2 : Rat) ^ e' ≤ 2 ^ (e - 1) := zpow_le_zpow_right₀ (by norm_num) (by omega)
              gcongr
          _ = 2 ^ 52 * 2 ^ e := by rw [zpow_sub₀ (by norm_num)]; ring
          _ ≤ (m : Rat) * 2 ^ e := by
              have : (2 : Rat) ^ 52 ≤ m := by exact_mod_cast hm52
              gcongr
      linarith

/-- Rounding is unambiguous. -/
theorem nearest_unique {x : Rat} {f f' : F64} (h : Nearest x f) (h' : Nearest x f') : f = f' := by
  have key : ∀ {m m' : Nat} {e e' : Int}, Nearest x (.fin m e) → Nearest x (.fin m' e') →
      floatVal m e < floatVal m' e' → False := by
    intro m m' e e' h h' hlt
    obtain ⟨-, hf, hn⟩ := h
    obtain ⟨-, hf', hn'⟩ := h'
    have heq : |x - floatVal m e| = |x - floatVal m' e'| := le_antisymm (hn m' e' hf').1 (hn' m e hf).1
    have ev : m % 2 = 0 := by
      rcases (hn m' e' hf').2 heq with ⟨rfl, rfl⟩ | h
      · exact absurd hlt (lt_irrefl _)
      · exact h
    have ev' : m' % 2 = 0 := by
      rcases (hn' m e hf).2 heq.symm with ⟨rfl, rfl⟩ | h
      · exact absurd hlt (lt_irrefl _)
      · exact h
    obtain ⟨hg, hc | hc⟩ := even_gap hf hf' ev hlt
    · have h1 := (hn (m + 1) e hg).1
      have hlt' : floatVal m e < floatVal (m + 1) e := by
        unfold floatVal; push_cast; have := two_pos e; nlinarith
      -- `x` is the midpoint, so the number between is nearer
      have hx : x - floatVal m e = floatVal m' e' - x := by
        rcases abs_eq_abs.1 heq with h | h
        · linarith
        · linarith
      have hpos : 0 < x - floatVal m e := by linarith
      rw [abs_of_pos hpos] at h1
      rcases abs_cases (x - floatVal (m + 1) e) with ⟨h2, -⟩ | ⟨h2, -⟩ <;> rw [h2] at h1 <;> linarith
    · omega
  cases f with
  | inf =>
    cases f' with
    | inf => rfl
    | fin m e => exact absurd h'.1 (not_lt.2 h)
  | fin m e =>
    cases f' with
    | inf => exact absurd h.1 (not_lt.2 h')
    | fin m' e' =>
      rcases lt_trichotomy (floatVal m e) (floatVal m' e') with hc | hc | hc
      · exact (key h h' hc).elim
      · obtain ⟨rfl, rfl⟩ := float_unique h.2.1 h'.2.1 hc; rfl
      · exact (key h' h hc).elim

end Dbml
