import Verif.Proofs.FloatShow2

/-!
# The shown decimal is at most two characters longer than any literal that reads back as the same double
-/

namespace Dbml

open Spec Syntax

theorem floatVal_pos {m : Nat} (hm : 0 < m) (e : Int) : 0 < floatVal m e := by
  unfold floatVal
  have : (0 : Rat) < m := by exact_mod_cast hm
  have := two_pos e
  positivity

/-- What rounds to a positive double is at least half of it. -/
theorem nearest_half {r : Rat} {m : Nat} {e : Int} (h : Nearest r (.fin m e)) (hm : 0 < m) : floatVal m e / 2 ≤ r := by
  obtain ⟨-, hf, hn⟩ := h
  have hv := floatVal_pos hm e
  have hp := two_pos e
  by_contra hlt
  push Not at hlt
  -- a smaller double that is at least half
  obtain ⟨m', e', hf', h1, h2⟩ : ∃ m' e', IsFloat m' e' ∧ floatVal m' e' < floatVal m e ∧ r - floatVal m' e' < floatVal m e - r := by
    by_cases he : e = -1074
    · refine ⟨m - 1, e, ⟨by have := hf.1; omega, hf.2.1, hf.2.2.1, .inr he⟩, ?_, ?_⟩
      · unfold floatVal
        refine mul_lt_mul_of_pos_right ?_ hp
        exact_mod_cast (by omega : m - 1 < m)
      · have h0 : 0 ≤ floatVal (m - 1) e := by unfold floatVal; positivity
        linarith
    · refine ⟨0, -1074, ⟨by norm_num, by norm_num, by norm_num, .inr rfl⟩, by simpa [floatVal] using hv, ?_⟩
      simp only [floatVal, Nat.cast_zero, zero_mul] at hlt ⊢
      linarith
  have := (hn m' e' hf').1
  rw [abs_of_nonpos (by linarith)] at this
  rcases le_total (floatVal m' e') r with hc | hc
  · rw [abs_of_nonneg (by linarith)] at this; linarith
  · rw [abs_of_nonpos (by linarith)] at this; linarith

/-- What rounds to a positive double is at most twice as great. -/
theorem nearest_double {r : Rat} {m : Nat} {e : Int} (h : Nearest r (.fin m e)) (hm : 0 < m) : r ≤ 2 * floatVal m e := by
  obtain ⟨hb, hf, hn⟩ := h
  have hv := floatVal_pos hm e
  have hp := two_pos e
  have hle : (2 : Rat) ^ e ≤ floatVal m e := by
    unfold floatVal
    have : (1 : Rat) ≤ m := by exact_mod_cast hm
    nlinarith
  by_cases hmax : m + 1 = 2 ^ 53 ∧ e = 971
  · obtain ⟨h1, rfl⟩ := hmax
    obtain rfl : m = 2 ^ 53 - 1 := by omega
    have : floatVal (2 ^ 53 - 1) 971 = (2 ^ 54 - 2) * 2 ^ 970 := by
      unfold floatVal; rw [p971]; push_cast; ring
    rw [this]
    rw [p1024] at hb
    have := pp
    clear hv hp hle hn hf
    generalize (2 : Rat) ^ 970 = P at *
    norm_num at hb ⊢
    nlinarith
  · obtain ⟨m', e', hf', h1⟩ : ∃ m' e', IsFloat m' e' ∧ floatVal m' e' = floatVal m e + 2 ^ e := by
      by_cases h53 : m + 1 = 2 ^ 53
      · refine ⟨2 ^ 52, e + 1, ⟨by norm_num, by have := hf.2.1; omega, by have := hf.2.2.1; omega, .inl le_rfl⟩, ?_⟩
        obtain rfl : m = 2 ^ 53 - 1 := by omega
        unfold floatVal
        rw [zpow_add₀ (by norm_num)]; push_cast; ring
      · refine ⟨m + 1, e, ⟨by have := hf.1; omega, hf.2.1, hf.2.2.1, ?_⟩, ?_⟩
        · rcases hf.2.2.2 with h | h
          · exact .inl (by omega)
          · exact .inr h
        · unfold floatVal; push_cast; ring
    by_contra hlt
    push Not at hlt
    have := (hn m' e' hf').1
    rw [abs_of_nonneg (by linarith)] at this
    rcases le_total (floatVal m' e') r with hc | hc
    · rw [abs_of_nonneg (by linarith)] at this; linarith
    · rw [abs_of_nonpos (by linarith)] at this; linarith

/-- Two numbers that round to the same positive double differ by less than a factor of ten. -/
theorem nearest_factor {r s : Rat} {m : Nat} {e : Int} (hr : Nearest r (.fin m e)) (hs : Nearest s (.fin m e)) (hm : 0 < m) :
    s < 10 * r := by
  have h1 := nearest_half hr hm
  have h2 := nearest_double hs hm
  have := floatVal_pos hm e
  linarith

theorem digitsNat_lt {a : Str} (h : ∀ c ∈ a, c.isDigit = true) : digitsNat a < 10 ^ a.length := by
  induction a using List.reverseRecOn with
  | nil => simp [digitsNat]
  | append_singleton a c ih =>
    rw [digitsNat_append]
    have h1 := ih fun c hc => h c (by simp [hc])
    have h2 : digitsNat [c] < 10 := by
      have := h c (by simp)
      have : c.toNat - '0'.toNat < 10 := by
        simp only [Char.isDigit, Bool.and_eq_true, decide_eq_true_eq] at this
        have h3 : c.val.toNat ≤ 57 := by simpa using UInt32.le_iff_toNat_le.1 this.2
        have h4 : '0'.toNat = 48 := rfl
        have h5 : c.toNat = c.val.toNat := rfl
        omega
      simpa [digitsNat] using this
    simp only [List.length_append, List.length_cons, List.length_nil]
    rw [pow_succ]
    simp only [Nat.zero_add, pow_one]
    have := Nat.mul_le_mul_right 10 h1
    rw [Nat.succ_mul] at this
    omega

/-- A numeral is not longer than needed. -/
theorem numeral_lo {a : Str} {n : Nat} (h : IsNumeral a n) (hl : 2 ≤ a.length) : 10 ^ (a.length - 1) ≤ n := by
  obtain ⟨hd, rfl, h0⟩ := h
  cases a with
  | nil => simp at hl
  | cons c cs =>
    have hc : c ≠ '0' := by
      rintro rfl
      have := h0 rfl
      rw [this] at hl; simp at hl
    have h1 : 1 ≤ digitsNat [c] := by
      have := hd.2 c (by simp)
      simp only [Char.isDigit, Bool.and_eq_true, decide_eq_true_eq] at this
      have h3 : 48 ≤ c.val.toNat := by simpa using UInt32.le_iff_toNat_le.1 this.1
      have h4 : '0'.toNat = 48 := rfl
      have h5 : c.toNat = c.val.toNat := rfl
      have h6 : c.toNat ≠ 48 := fun he => hc (Char.ext (UInt32.toNat_inj.1 he))
      have : 1 ≤ c.toNat - '0'.toNat := by omega
      simpa [digitsNat] using this
    have : digitsNat (c :: cs) = digitsNat [c] * 10 ^ cs.length + digitsNat cs := digitsNat_append [c] cs
    rw [this]
    simp only [List.length_cons, Nat.add_sub_cancel]
    have := Nat.mul_le_mul_right (10 ^ cs.length) h1
    omega

/-- A digit string whose last digit is not zero denotes no multiple of ten. -/
theorem digitsNat_last {b : Str} (hd : IsDigits b) (h : b.getLast? ≠ some '0') (a : Str) : ¬ 10 ∣ digitsNat (a ++ b) := by
  obtain ⟨hne, hall⟩ := hd
  obtain ⟨bs, c, rfl⟩ : ∃ bs c, b = bs ++ [c] := ⟨b.dropLast, b.getLast hne, (List.dropLast_append_getLast hne).symm⟩
  have hc : c ≠ '0' := by rintro rfl; simp at h
  rw [← List.append_assoc, digitsNat_append]
  have h2 : 1 ≤ digitsNat [c] ∧ digitsNat [c] < 10 := by
    have := hall c (by simp)
    simp only [Char.isDigit, Bool.and_eq_true, decide_eq_true_eq] at this
    have h3 : 48 ≤ c.val.toNat := by simpa using UInt32.le_iff_toNat_le.1 this.1
    have h3' : c.val.toNat ≤ 57 := by simpa using UInt32.le_iff_toNat_le.1 this.2
    have h4 : '0'.toNat = 48 := rfl
    have h5 : c.toNat = c.val.toNat := rfl
    have h6 : c.toNat ≠ 48 := fun he => hc (Char.ext (UInt32.toNat_inj.1 he))
    have : 1 ≤ c.toNat - '0'.toNat ∧ c.toNat - '0'.toNat < 10 := by omega
    simpa [digitsNat] using this
  simp only [List.length_cons, List.length_nil, Nat.zero_add, pow_one]
  omega

theorem digits_value (a b : Str) :
    (digitsNat a : Rat) + (digitsNat b : Rat) / 10 ^ b.length = (digitsNat (a ++ b) : Rat) / 10 ^ b.length := by
  rw [digitsNat_append]; push_cast; field_simp

/-- **The text of a double** is at most two characters longer than any decimal literal that is read as this double. -/
theorem display_length {raw : Str} {x0 : Rat} {f : F64} (hx0 : IsDecimal raw x0) (hn : Nearest x0 f) :
    f.display.length ≤ raw.length + 2 := by
  obtain ⟨a, b, rfl, ha, hb, rfl⟩ := hx0
  have ha1 : 0 < a.length := List.length_pos_of_ne_nil ha.1
  cases f with
  | inf => simp [F64.display]; omega
  | fin m e =>
    by_cases hm : m = 0
    · subst hm; simp [F64.display]
    have hm : 0 < m := by omega
    obtain ⟨x, n, ⟨a', n', hnum, hcase⟩, hxN, hdig, hmin, -⟩ := display_spec hn.2.1 hm
    rw [digits_value] at hn
    have hD0 : digitsNat (a ++ b) < 10 ^ (a ++ b).length := digitsNat_lt fun c hc => by
      rcases List.mem_append.1 hc with hc | hc
      · exact ha.2 c hc
      · exact hb c hc
    have hpos : (0 : Rat) < (digitsNat (a ++ b) : Rat) / 10 ^ b.length := by
      have h1 := nearest_half hn hm
      have h2 := floatVal_pos hm e
      linarith
    have hD0pos : 0 < digitsNat (a ++ b) := by
      rcases Nat.eq_zero_or_pos (digitsNat (a ++ b)) with h | h
      · rw [h] at hpos; simp at hpos
      · exact h
    -- before the point
    have hA : a'.length ≤ a.length + 1 := by
      by_contra hc
      push Not at hc
      have h1 := numeral_lo hnum (by omega)
      have h2 : 10 ^ (a.length + 1) ≤ n' := le_trans (Nat.pow_le_pow_right (by norm_num) (by omega)) h1
      have h3 : (n' : Rat) ≤ x := by
        rcases hcase with ⟨-, rfl⟩ | ⟨b', -, -, -, rfl⟩
        · exact le_rfl
        · have : (0 : Rat) ≤ (digitsNat b' : Rat) / 10 ^ b'.length := by positivity
          linarith
      have h4 : (10 : Rat) ^ (a.length + 1) ≤ n' := by exact_mod_cast h2
      have h5 : (digitsNat (a ++ b) : Rat) / 10 ^ b.length < 10 ^ a.length := by
        rw [div_lt_iff₀ (by positivity), ← pow_add, ← List.length_append]
        exact_mod_cast hD0
      have h6 := nearest_factor hn hxN hm
      rw [pow_succ] at h4
      linarith
    rcases hcase with ⟨e1, -⟩ | ⟨b', e1, hb', hlast, rfl⟩
    · rw [e1]; simp only [List.length_append, List.length_cons]; omega
    · -- after the point
      have hB : b'.length ≤ b.length + 1 := by
        by_contra hc
        push Not at hc
        rw [← hnum.2.1, digits_value] at hxN hdig
        have hten := digitsNat_last hb' hlast a'
        generalize digitsNat (a' ++ b') = D at *
        generalize digitsNat (a ++ b) = E at *
        obtain ⟨hE1, hE2⟩ := natDigits_bounds E hD0pos
        have hL : 0 < (F64.natDigits E).length := List.length_pos_of_ne_nil Nat.toDigits_ne_nil
        generalize (F64.natDigits E).length = L at *
        have hnL : n ≤ L := by
          by_contra hlt
          exact hmin L (by omega) _ ⟨E, -(b.length : Int), hE2, by rw [zpow_neg, zpow_natCast]; rfl⟩ hn
        have hDn : D < 10 ^ n := by
          obtain ⟨d, k, hd, hk⟩ := hdig
          have hD : (D : Rat) = d * 10 ^ (k + b'.length) := by
            rw [zpow_add₀ (by norm_num), zpow_natCast, ← mul_assoc, ← hk]
            field_simp
          by_cases hkj : 0 < k + b'.length
          · exfalso
            obtain ⟨i, hi⟩ := Int.eq_ofNat_of_zero_le hkj.le
            rw [hi] at hD hkj
            rw [zpow_natCast] at hD
            have : D = d * 10 ^ i := by exact_mod_cast hD
            refine hten ⟨d * 10 ^ (i - 1), ?_⟩
            have hi0 : 0 < i := by simpa using hkj
            rw [this]
            conv_lhs => rw [show i = i - 1 + 1 by omega, pow_succ]
            ring
          · have h1 : (10 : Rat) ^ (k + b'.length) ≤ 1 := zpow_le_one_of_nonpos₀ (by norm_num) (by omega)
            have : (D : Rat) ≤ d := by
              rw [hD]; exact mul_le_of_le_one_right (by positivity) h1
            have : D ≤ d := by exact_mod_cast this
            omega
        have h7 := nearest_factor hxN hn hm
        have h8 : (E : Rat) * 10 ^ b'.length < 10 * D * 10 ^ b.length := by
          rw [div_lt_iff₀ (by positivity)] at h7
          have h9 := mul_lt_mul_of_pos_right h7 (by positivity : (0 : Rat) < 10 ^ b'.length)
          refine lt_of_lt_of_eq h9 ?_
          field_simp
        have h8 : E * 10 ^ b'.length < 10 * D * 10 ^ b.length := by exact_mod_cast h8
        have h10 : 10 ^ (L - 1) * 10 ^ (b.length + 2) ≤ E * 10 ^ b'.length :=
          Nat.mul_le_mul hE1 (Nat.pow_le_pow_right (by norm_num) (by omega))
        have h11 : 10 * D * 10 ^ b.length ≤ 10 * 10 ^ L * 10 ^ b.length :=
          Nat.mul_le_mul_right _ (Nat.mul_le_mul_left _ (le_trans hDn.le (Nat.pow_le_pow_right (by norm_num) hnL)))
        have h12 : 10 ^ (L - 1) * 10 ^ (b.length + 2) = 10 * 10 ^ L * 10 ^ b.length := by
          conv_rhs => rw [show L = L - 1 + 1 by omega]
          simp only [pow_succ]; ring
        omega
      rw [e1]
      simp only [List.length_append, List.length_cons]
      omega

end Dbml
