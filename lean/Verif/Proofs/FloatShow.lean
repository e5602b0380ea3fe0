import Verif.Proofs.Float2
import Verif.Proofs.Walkers1
import Verif.Spec.Numeral

/-!
# `F64.display` prints the shortest decimal that reads back
-/

namespace Dbml

open Spec Syntax

/-! ## Digits -/

theorem digitsNat_eq_ofDigitChars (s : Str) : digitsNat s = Nat.ofDigitChars 10 s 0 := rfl

theorem digitsNat_append (a b : Str) : digitsNat (a ++ b) = digitsNat a * 10 ^ b.length + digitsNat b := by
  simp only [digitsNat_eq_ofDigitChars]
  rw [Nat.ofDigitChars_append, Nat.ofDigitChars_eq_ofDigitChars_zero]
  ring

theorem natDigits_isDigits (n : Nat) : IsDigits (F64.natDigits n) :=
  ⟨Nat.toDigits_ne_nil, fun _ hc => Nat.isDigit_of_mem_toDigits (by decide) (by decide) hc⟩

theorem natDigits_val (n : Nat) : digitsNat (F64.natDigits n) = n := Nat.ofDigitChars_ten_toDigits

theorem digitChar_ne_zero {d : Nat} (h : 0 < d) (h10 : d < 10) : d.digitChar ≠ '0' := by
  have : ∀ d : Fin 10, 0 < d.val → d.val.digitChar ≠ '0' := by decide
  exact this ⟨d, h10⟩ h

theorem natDigits_head (n : Nat) (h : 0 < n) : (F64.natDigits n).head? ≠ some '0' := by
  unfold F64.natDigits
  induction n using Nat.strongRecOn with
  | ind n ih =>
    rw [Nat.toDigits_eq_if (by decide)]
    split
    · rename_i hlt
      simp only [List.head?_cons, ne_eq, Option.some.injEq]
      exact digitChar_ne_zero h hlt
    · rename_i hge
      have h2 := ih (n / 10) (by omega) (by omega)
      rw [List.head?_append]
      cases hh : (Nat.toDigits 10 (n / 10)).head? with
      | none => exact absurd (List.head?_eq_none_iff.1 hh) Nat.toDigits_ne_nil
      | some c => rw [hh] at h2; simpa using h2

theorem natDigits_numeral (n : Nat) : IsNumeral (F64.natDigits n) n := by
  refine ⟨natDigits_isDigits n, natDigits_val n, fun h => ?_⟩
  by_cases h0 : n = 0
  · subst h0; decide
  · exact absurd h (natDigits_head n (by omega))

theorem natDigits_bounds (n : Nat) (h : 0 < n) :
    10 ^ ((F64.natDigits n).length - 1) ≤ n ∧ n < 10 ^ (F64.natDigits n).length := by
  have hl : 0 < (F64.natDigits n).length := List.length_pos_of_ne_nil Nat.toDigits_ne_nil
  refine ⟨?_, (Nat.length_toDigits_le_iff (by decide) hl).1 le_rfl⟩
  by_cases h1 : (F64.natDigits n).length = 1
  · simp [h1]; omega
  · by_contra hc
    have := (Nat.length_toDigits_le_iff (b := 10) (n := n) (k := (F64.natDigits n).length - 1) (by decide) (by omega)).2 (by omega)
    unfold F64.natDigits at this hl h1
    omega

theorem drop_zeros (l : Str) : ∃ k, l = List.replicate k '0' ++ l.dropWhile (· = '0') ∧ (l.dropWhile (· = '0')).head? ≠ some '0' := by
  induction l with
  | nil => exact ⟨0, by simp⟩
  | cons c cs ih =>
    by_cases hc : c = '0'
    · subst hc
      obtain ⟨k, h1, h2⟩ := ih
      refine ⟨k + 1, ?_, ?_⟩
      · rw [List.dropWhile_cons_of_pos (by simp)]
        conv_lhs => rw [h1]
        rfl
      · rw [List.dropWhile_cons_of_pos (by simp)]; exact h2
    · refine ⟨0, ?_, ?_⟩ <;> rw [List.dropWhile_cons_of_neg (by simpa using hc)]
      · rfl
      · simpa using hc

/-- Trailing zeros contribute nothing. -/
theorem strip_zeros (b : Str) :
    ∃ k, b = (b.reverse.dropWhile (· = '0')).reverse ++ List.replicate k '0' ∧
      ((b.reverse.dropWhile (· = '0')).reverse).getLast? ≠ some '0' := by
  obtain ⟨k, h1, h2⟩ := drop_zeros b.reverse
  refine ⟨k, ?_, by rwa [List.getLast?_reverse]⟩
  have := congrArg List.reverse h1
  rwa [List.reverse_append, List.reverse_reverse, List.reverse_replicate] at this

theorem digitsNat_zeros (k : Nat) : digitsNat (List.replicate k '0') = 0 := by
  rw [digitsNat_eq_ofDigitChars, Nat.ofDigitChars_replicate_zero]; simp

theorem zeros_digits (k : Nat) : ∀ c ∈ List.replicate k '0', c.isDigit = true := by
  intro c hc; rw [List.eq_of_mem_replicate hc]; decide

/-- `plain` writes `d * 10 ^ x`. -/
theorem plain_spec (d : Nat) (x : Int) (hd : 0 < d) : Plain (F64.plain d x) ((d : Rat) * 10 ^ x) := by
  unfold F64.plain
  split
  · rename_i h
    refine ⟨_, _, natDigits_numeral _, .inl ⟨rfl, ?_⟩⟩
    push_cast
    rw [← zpow_natCast, Int.toNat_of_nonneg h]
  · rename_i h
    have hk : ((-x).toNat : Int) = -x := Int.toNat_of_nonneg (by omega)
    generalize (-x).toNat = k at hk
    obtain rfl : x = -(k : Int) := by omega
    have hk0 : 0 < k := by omega
    dsimp only
    generalize hds : List.replicate (k + 1 - (F64.natDigits d).length) '0' ++ F64.natDigits d = ds
    have hlen : k + 1 ≤ ds.length := by
      rw [← hds]; simp only [List.length_append, List.length_replicate]; omega
    have hall : ∀ c ∈ ds, c.isDigit = true := by
      rw [← hds]; intro c hc
      rcases List.mem_append.1 hc with hc | hc
      · exact zeros_digits _ c hc
      · exact (natDigits_isDigits d).2 c hc
    have hval : digitsNat ds = d := by
      rw [← hds, digitsNat_append, digitsNat_zeros, natDigits_val]; simp
    generalize hip : ds.take (ds.length - k) = ip
    generalize hfb : ds.drop (ds.length - k) = fb
    have hsplit : ds = ip ++ fb := by rw [← hip, ← hfb, List.take_append_drop]
    have hfl : fb.length = k := by rw [← hfb, List.length_drop]; omega
    have hil : ip.length = ds.length - k := by rw [← hip, List.length_take]; omega
    obtain ⟨j, hj, hlast⟩ := strip_zeros fb
    generalize (fb.reverse.dropWhile (· = '0')).reverse = fp at hj hlast
    have hfd : ∀ c ∈ fp, c.isDigit = true := fun c hc => hall c (by rw [hsplit, hj]; simp [hc])
    have hid : IsDigits ip := ⟨fun h => by rw [h] at hil; simp at hil; omega, fun c hc => hall c (by rw [hsplit]; simp [hc])⟩
    have hnum : IsNumeral ip (digitsNat ip) := by
      refine ⟨hid, rfl, fun h0 => ?_⟩
      -- a leading zero was put there to have one digit in front of the point
      by_cases hp : k + 1 ≤ (F64.natDigits d).length
      · rw [show k + 1 - (F64.natDigits d).length = 0 by omega] at hds
        have : ds.head? ≠ some '0' := by rw [← hds]; simpa using natDigits_head d hd
        refine absurd ?_ this
        rw [hsplit, List.head?_append, h0]; rfl
      · have : ds.length = k + 1 := by
          rw [← hds]; simp only [List.length_append, List.length_replicate]; omega
        rw [this, show k + 1 - k = 1 by omega] at hil
        obtain ⟨c, rfl⟩ := List.length_eq_one_iff.1 hil
        simp only [List.head?_cons, Option.some.injEq] at h0
        rw [h0]
    have hx : (d : Rat) * 10 ^ (-(k : Int)) = digitsNat ip + (digitsNat fp : Rat) / 10 ^ fp.length := by
      have h1 : d = digitsNat ip * 10 ^ k + digitsNat fb := by rw [← hval, hsplit, digitsNat_append, hfl]
      have h2 : digitsNat fb = digitsNat fp * 10 ^ j := by
        conv_lhs => rw [hj]
        rw [digitsNat_append, digitsNat_zeros, List.length_replicate]; rfl
      have h3 : k = fp.length + j := by
        rw [← hfl]; conv_lhs => rw [hj]
        simp
      rw [zpow_neg, zpow_natCast, h1, h2, h3]
      push_cast
      rw [pow_add]
      field_simp
    refine ⟨ip, _, hnum, ?_⟩
    split
    · rename_i he
      obtain rfl : fp = [] := by simpa using he
      refine .inl ⟨rfl, ?_⟩
      rw [hx]; simp [digitsNat]
    · rename_i he
      exact .inr ⟨fp, by simp, ⟨by simpa using he, hfd⟩, hlast, hx⟩

end Dbml
