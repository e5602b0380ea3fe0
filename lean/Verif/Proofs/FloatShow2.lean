import Verif.Proofs.FloatShow

/-!
# The shortest decimal that reads back
-/

namespace Dbml

open Spec Syntax

/-- `ofScaled` rounds `d * 10 ^ x`. -/
theorem ofScaled_nearest (d : Nat) (x : Int) : Nearest ((d : Rat) * 10 ^ x) (F64.ofScaled d x) := by
  unfold F64.ofScaled
  split
  · rename_i h
    have := ofRat_nearest (d * 10 ^ x.toNat) 1 (by decide)
    have e : ((d * 10 ^ x.toNat : Nat) : Rat) / ((1 : Nat) : Rat) = (d : Rat) * 10 ^ x := by
      push_cast; rw [← zpow_natCast, Int.toNat_of_nonneg h, div_one]
    rwa [e] at this
  · rename_i h
    have := ofRat_nearest d (10 ^ (-x).toNat) (by positivity)
    have e : (d : Rat) / ((10 ^ (-x).toNat : Nat) : Rat) = (d : Rat) * 10 ^ x := by
      push_cast; rw [← zpow_natCast, Int.toNat_of_nonneg (by omega), zpow_neg]; simp
    rwa [e] at this

theorem ofScaled_iff (d : Nat) (x : Int) (v : F64) : F64.ofScaled d x = v ↔ Nearest ((d : Rat) * 10 ^ x) v :=
  ⟨fun h => h ▸ ofScaled_nearest d x, fun h => nearest_unique (ofScaled_nearest d x) h⟩

/-- A finite double is below the point where infinity begins. -/
theorem float_lt {m : Nat} {e : Int} (h : IsFloat m e) : floatVal m e < (2 : Rat) ^ 1024 - 2 ^ 970 := by
  have h1 : (m : Rat) ≤ 2 ^ 53 - 1 := by
    have := h.1
    have : m + 1 ≤ 2 ^ 53 := by omega
    have : (m : Rat) + 1 ≤ 2 ^ 53 := by exact_mod_cast this
    linarith
  have h2 : (2 : Rat) ^ e ≤ 2 ^ (971 : Int) := zpow_le_zpow_right₀ (by norm_num) h.2.2.1
  have : floatVal m e ≤ (2 ^ 53 - 1) * 2 ^ (971 : Int) :=
    mul_le_mul h1 h2 (two_pos _).le (by norm_num)
  refine lt_of_le_of_lt this ?_
  rw [p1024, p971]
  have := pp
  generalize (2 : Rat) ^ 970 = P at this ⊢
  norm_num
  linarith

/-- The numbers that round to `v` form an interval around `v`. -/
theorem nearest_between {r s : Rat} {m : Nat} {e : Int} (h : Nearest r (.fin m e))
    (hs : (r ≤ s ∧ s ≤ floatVal m e) ∨ (floatVal m e ≤ s ∧ s ≤ r)) : Nearest s (.fin m e) := by
  obtain ⟨hb, hf, hn⟩ := h
  refine ⟨?_, hf, fun m' e' hf' => ?_⟩
  · rcases hs with ⟨-, h⟩ | ⟨-, h⟩
    · exact lt_of_le_of_lt h (float_lt hf)
    · exact lt_of_le_of_lt h hb
  · obtain ⟨h1, h2⟩ := hn m' e' hf'
    have hsplit : |r - floatVal m e| = |r - s| + |s - floatVal m e| := by
      rcases hs with ⟨a, b⟩ | ⟨a, b⟩
      · rw [abs_of_nonpos (by linarith), abs_of_nonpos (by linarith), abs_of_nonpos (by linarith)]; ring
      · rw [abs_of_nonneg (by linarith), abs_of_nonneg (by linarith), abs_of_nonneg (by linarith)]; ring
    have htri := abs_sub_le r s (floatVal m' e')
    exact ⟨by linarith, fun heq => h2 (by linarith)⟩

/-- How far apart doubles are. -/
theorem float_gap {m m' : Nat} {e e' : Int} (h : IsFloat m e) (h' : IsFloat m' e') (hne : floatVal m e ≠ floatVal m' e') :
    (2 : Rat) ^ e ≤ |floatVal m e - floatVal m' e'| ∨ (m = 2 ^ 52 ∧ (2 : Rat) ^ e / 2 ≤ |floatVal m e - floatVal m' e'|) := by
  have hp := two_pos e
  by_cases hle : e ≤ e'
  · left
    rw [floatVal_eq m' e e' hle] at hne ⊢
    unfold floatVal at hne ⊢
    rw [← sub_mul, abs_mul, abs_of_pos hp]
    have : (1 : Rat) ≤ |(m : Rat) - ((m' * 2 ^ (e' - e).toNat : Nat) : Rat)| := by
      have h1 : m ≠ m' * 2 ^ (e' - e).toNat := fun hc => hne (by rw [← hc])
      have h1 : (1 : Int) ≤ |(m : Int) - (m' * 2 ^ (e' - e).toNat : Nat)| := by
        apply Int.one_le_abs; omega
      exact_mod_cast h1
    nlinarith
  · have hm52 : 2 ^ 52 ≤ m := by
      rcases h.2.2.2 with h1 | h1
      · exact h1
      · have := h'.2.1; omega
    have hu : floatVal m' e' ≤ (2 ^ 53 - 1) * (2 ^ e / 2) := by
      have h1 : (m' : Rat) ≤ 2 ^ 53 - 1 := by
        have := h'.1
        have : m' + 1 ≤ 2 ^ 53 := by omega
        have : (m' : Rat) + 1 ≤ 2 ^ 53 := by exact_mod_cast this
        linarith
      have h2 : (2 : Rat) ^ e' ≤ 2 ^ e / 2 := by
        have : (2 : Rat) ^ e' ≤ 2 ^ (e - 1) := zpow_le_zpow_right₀ (by norm_num) (by omega)
        rwa [zpow_sub₀ (by norm_num), zpow_one] at this
      exact mul_le_mul h1 h2 (two_pos _).le (by norm_num)
    by_cases h52 : m = 2 ^ 52
    · refine .inr ⟨h52, ?_⟩
      refine le_trans ?_ (le_abs_self _)
      have : floatVal m e = 2 ^ 52 * 2 ^ e := by rw [h52]; unfold floatVal; norm_num
      rw [this]
      norm_num at hu ⊢
      linarith
    · left
      refine le_trans ?_ (le_abs_self _)
      have : (2 ^ 52 + 1) * (2 : Rat) ^ e ≤ floatVal m e := by
        have : (2 : Rat) ^ 52 + 1 ≤ m := by
          have : 2 ^ 52 + 1 ≤ m := by omega
          exact_mod_cast this
        unfold floatVal
        exact mul_le_mul_of_nonneg_right this hp.le
      norm_num at hu this ⊢
      linarith

/-- A number near enough to a double rounds to it: seventeen digits are enough. -/
theorem near_rounds {m : Nat} {e : Int} {r u : Rat} (h : IsFloat m e) (hm : 0 < m) (hu : 0 < u)
    (hur : u * 10 ^ 16 ≤ floatVal m e) (hr : |r - floatVal m e| ≤ u / 2) : Nearest r (.fin m e) := by
  have hp := two_pos e
  have hu1 : u < 2 ^ e := by
    have h1 : (m : Rat) < 2 ^ 53 := by exact_mod_cast h.1
    have : u * 10 ^ 16 < 2 ^ 53 * 2 ^ e := lt_of_le_of_lt hur (mul_lt_mul_of_pos_right h1 hp)
    norm_num at this
    linarith
  have hu2 : m = 2 ^ 52 → u < 2 ^ e / 2 := by
    rintro rfl
    have : floatVal (2 ^ 52) e = 2 ^ 52 * 2 ^ e := by unfold floatVal; norm_num
    rw [this] at hur
    norm_num at hur
    linarith
  have habs := abs_le.1 hr
  refine ⟨?_, h, fun m' e' h' => ?_⟩
  · -- below the overflow threshold
    have h1 : (m : Rat) ≤ 2 ^ 53 - 1 := by
      have := h.1
      have : m + 1 ≤ 2 ^ 53 := by omega
      have : (m : Rat) + 1 ≤ 2 ^ 53 := by exact_mod_cast this
      linarith
    have h2 : (2 : Rat) ^ e ≤ 2 ^ (971 : Int) := zpow_le_zpow_right₀ (by norm_num) h.2.2.1
    have h3 : floatVal m e ≤ (2 ^ 53 - 1) * 2 ^ e := mul_le_mul_of_nonneg_right h1 hp.le
    have h4 : r < (2 ^ 53 - 1 / 2) * 2 ^ e := by linarith [habs.2]
    have h5 : (2 ^ 53 - 1 / 2 : Rat) * 2 ^ e ≤ (2 ^ 53 - 1 / 2) * 2 ^ (971 : Int) :=
      mul_le_mul_of_nonneg_left h2 (by norm_num)
    have h6 : (2 : Rat) ^ 1024 - 2 ^ 970 = (2 ^ 53 - 1 / 2) * 2 ^ (971 : Int) := by rw [p1024, p971]; ring
    rw [h6]; exact lt_of_lt_of_le h4 h5
  · by_cases heq : floatVal m e = floatVal m' e'
    · obtain ⟨rfl, rfl⟩ := float_unique h h' heq
      exact ⟨le_rfl, fun _ => .inl ⟨rfl, rfl⟩⟩
    · have htri := abs_sub_le (floatVal m e) r (floatVal m' e')
      rw [abs_sub_comm (floatVal m e) r] at htri
      have : |r - floatVal m e| < |r - floatVal m' e'| := by
        rcases float_gap h h' heq with hg | ⟨h52, hg⟩
        · linarith
        · linarith [hu2 h52]
      exact ⟨this.le, fun he => absurd he this.ne⟩

/-- `scaled` rounds down. -/
theorem scaled_spec (num den : Nat) (x : Int) (hd : 0 < den) :
    (F64.scaled num den x : Rat) * 10 ^ x ≤ (num : Rat) / den ∧ (num : Rat) / den < ((F64.scaled num den x : Rat) + 1) * 10 ^ x := by
  have hdq : (0 : Rat) < den := by exact_mod_cast hd
  have key : ∀ n d : Nat, 0 < d → ((n / d : Nat) : Rat) ≤ (n : Rat) / d ∧ (n : Rat) / d < ((n / d : Nat) : Rat) + 1 := by
    intro n d hd
    have hdq : (0 : Rat) < d := by exact_mod_cast hd
    rw [le_div_iff₀ hdq, div_lt_iff₀ hdq]
    constructor
    · exact_mod_cast Nat.div_mul_le_self n d
    · have := Nat.lt_mul_div_succ n hd
      have : n < (n / d + 1) * d := by linarith [Nat.mul_comm d (n / d + 1)]
      exact_mod_cast this
  unfold F64.scaled
  have hp : (0 : Rat) < 10 ^ x := by positivity
  split
  · rename_i h
    obtain ⟨h1, h2⟩ := key num (den * 10 ^ x.toNat) (by positivity)
    have e1 : (10 : Rat) ^ x = ((10 ^ x.toNat : Nat) : Rat) := by
      push_cast; rw [← zpow_natCast, Int.toNat_of_nonneg h]
    have e : (num : Rat) / ((den * 10 ^ x.toNat : Nat) : Rat) = (num : Rat) / den / 10 ^ x := by
      rw [e1, div_div]; push_cast; rfl
    rw [e] at h1 h2
    exact ⟨(le_div_iff₀ hp).1 h1, (div_lt_iff₀ hp).1 h2⟩
  · rename_i h
    obtain ⟨h1, h2⟩ := key (num * 10 ^ (-x).toNat) den hd
    have e1 : (10 : Rat) ^ x = 1 / ((10 ^ (-x).toNat : Nat) : Rat) := by
      push_cast; rw [← zpow_natCast, Int.toNat_of_nonneg (by omega), zpow_neg]; simp
    have e : ((num * 10 ^ (-x).toNat : Nat) : Rat) / (den : Rat) = (num : Rat) / den / 10 ^ x := by
      rw [e1]; push_cast; field_simp
    rw [e] at h1 h2
    exact ⟨(le_div_iff₀ hp).1 h1, (div_lt_iff₀ hp).1 h2⟩

/-- What the search for the shortest decimal finds. -/
theorem shortest_spec {m : Nat} {e : Int} {num den : Nat} {k : Int} (hf : IsFloat m e) (hm : 0 < m) (hd : 0 < den)
    (hv : (num : Rat) / den = floatVal m e) (hk : (10 : Rat) ^ (k - 1) ≤ floatVal m e ∧ floatVal m e < 10 ^ k) :
    ∀ fuel n, 1 ≤ n → fuel + n = 18 → n ≤ 17 → (∀ n' < n, ∀ r, HasDigits n' r → ¬ Nearest r (.fin m e)) →
      ∃ n' d x, F64.shortest (.fin m e) num den k fuel n = (d, x) ∧ 0 < d ∧ Nearest ((d : Rat) * 10 ^ x) (.fin m e) ∧
        HasDigits n' ((d : Rat) * 10 ^ x) ∧ (∀ n'' < n', ∀ r, HasDigits n'' r → ¬ Nearest r (.fin m e)) ∧
        ∀ r, HasDigits n' r → Nearest r (.fin m e) → |(d : Rat) * 10 ^ x - floatVal m e| ≤ |r - floatVal m e| := by
  intro fuel
  induction fuel with
  | zero => intro n _ h1 h2 _; omega
  | succ fuel ih =>
    intro n hn hfn hn17 hshort
    obtain ⟨hlo, hhi⟩ := scaled_spec num den (k - n) hd
    rw [hv] at hlo hhi
    have hpx : (0 : Rat) < 10 ^ (k - n) := by positivity
    unfold F64.shortest
    dsimp only
    have htw : (if 0 ≤ k - (n : Int) then 2 * num / (den * 10 ^ (k - (n : Int)).toNat)
      else 2 * num * 10 ^ (-(k - (n : Int))).toNat / den) = F64.scaled (2 * num) den (k - n) := rfl
    rw [htw]
    have htws := scaled_spec (2 * num) den (k - n) hd
    rw [show ((2 * num : Nat) : Rat) / den = 2 * floatVal m e by rw [← hv]; push_cast; ring] at htws
    clear htw
    generalize F64.scaled (2 * num) den (k - n) = tw at htws
    generalize F64.scaled num den (k - n) = lo at hlo hhi
    have hval : (0 : Rat) < floatVal m e := by
      unfold floatVal
      have : (0 : Rat) < m := by exact_mod_cast hm
      have := two_pos e
      positivity
    have hpk : (10 : Rat) ^ k = 10 ^ n * 10 ^ (k - n) := by
      rw [← zpow_natCast, ← zpow_add₀ (by norm_num)]; congr 1; omega
    have hpk1 : (10 : Rat) ^ (k - 1) = 10 ^ (n - 1) * 10 ^ (k - n) := by
      rw [← zpow_natCast, ← zpow_add₀ (by norm_num)]; congr 1; omega
    have hloN : lo < 10 ^ n := by
      have : (lo : Rat) * 10 ^ (k - n) < 10 ^ n * 10 ^ (k - n) := by rw [← hpk]; linarith [hk.2]
      have := lt_of_mul_lt_mul_right this hpx.le
      exact_mod_cast this
    have hlo1 : 10 ^ (n - 1) ≤ lo := by
      have : (10 : Rat) ^ (n - 1) * 10 ^ (k - n) < ((lo : Rat) + 1) * 10 ^ (k - n) := by rw [← hpk1]; linarith [hk.1]
      have := lt_of_mul_lt_mul_right this hpx.le
      have : 10 ^ (n - 1) < lo + 1 := by exact_mod_cast this
      omega
    have hlo0 : 0 < lo := lt_of_lt_of_le (by positivity) hlo1
    have dlo : HasDigits n ((lo : Rat) * 10 ^ (k - n)) := ⟨lo, _, hloN, rfl⟩
    have dhi : HasDigits n (((lo + 1 : Nat) : Rat) * 10 ^ (k - n)) := by
      by_cases hc : lo + 1 < 10 ^ n
      · exact ⟨lo + 1, _, hc, rfl⟩
      · refine ⟨1, k, Nat.one_lt_pow (by omega) (by norm_num), ?_⟩
        have : lo + 1 = 10 ^ n := by omega
        rw [this, hpk]; push_cast; ring
    have dich : ∀ r, HasDigits n r → r ≤ (lo : Rat) * 10 ^ (k - n) ∨ ((lo + 1 : Nat) : Rat) * 10 ^ (k - n) ≤ r := by
      rintro r ⟨d, k', hd', rfl⟩
      -- `r` is a multiple of the unit, or below the leading digit
      rcases le_or_gt ((d : Rat) * 10 ^ k') ((lo : Rat) * 10 ^ (k - n)) with hle | hgt
      · exact .inl hle
      · right
        have hge : k - n ≤ k' := by
          by_contra hcon
          have h3 : (10 : Rat) ^ (k - 1) < d * 10 ^ k' := by
            refine lt_of_le_of_lt ?_ hgt
            rw [hpk1]
            have : ((10 ^ (n - 1) : Nat) : Rat) ≤ lo := by exact_mod_cast hlo1
            push_cast at this
            exact mul_le_mul_of_nonneg_right this hpx.le
          have h4 : (d : Rat) * 10 ^ k' ≤ 10 ^ n * 10 ^ (k - 1 - n) := by
            have h5 : (d : Rat) ≤ 10 ^ n := by exact_mod_cast hd'.le
            have h6 : (10 : Rat) ^ k' ≤ 10 ^ (k - 1 - n) := zpow_le_zpow_right₀ (by norm_num) (by omega)
            exact mul_le_mul h5 h6 (by positivity) (by positivity)
          have h7 : (10 : Rat) ^ n * 10 ^ (k - 1 - n) = 10 ^ (k - 1) := by
            rw [← zpow_natCast, ← zpow_add₀ (by norm_num)]; congr 1; omega
          linarith
        have hmul : (d : Rat) * 10 ^ k' = ((d * 10 ^ (k' - (k - n)).toNat : Nat) : Rat) * 10 ^ (k - n) := by
          push_cast
          rw [mul_assoc, ← zpow_natCast, Int.toNat_of_nonneg (by omega), ← zpow_add₀ (by norm_num)]
          congr 2; omega
        rw [hmul] at hgt ⊢
        have := lt_of_mul_lt_mul_right hgt hpx.le
        have : lo < d * 10 ^ (k' - (k - n)).toNat := by exact_mod_cast this
        refine mul_le_mul_of_nonneg_right ?_ hpx.le
        exact_mod_cast this
    have hlo' : ∀ r, r ≤ (lo : Rat) * 10 ^ (k - n) → |(lo : Rat) * 10 ^ (k - n) - floatVal m e| ≤ |r - floatVal m e| := by
      intro r hr
      rw [abs_of_nonpos (by linarith), abs_of_nonpos (by linarith)]; linarith
    have hhi' : ∀ r, ((lo + 1 : Nat) : Rat) * 10 ^ (k - n) ≤ r → |((lo + 1 : Nat) : Rat) * 10 ^ (k - n) - floatVal m e| ≤ |r - floatVal m e| := by
      intro r hr
      push_cast at hr ⊢
      rw [abs_of_nonneg (by linarith), abs_of_nonneg (by linarith)]; linarith
    have hprefer : tw < 2 * lo + 1 → |(lo : Rat) * 10 ^ (k - n) - floatVal m e| ≤ |((lo + 1 : Nat) : Rat) * 10 ^ (k - n) - floatVal m e| := by
      intro h
      push_cast
      rw [abs_of_nonpos (by linarith), abs_of_nonneg (by linarith)]
      have : ((tw + 1 : Nat) : Rat) ≤ ((2 * lo + 1 : Nat) : Rat) := by exact_mod_cast h
      push_cast at this
      have := mul_le_mul_of_nonneg_right this hpx.le
      linarith [htws.2]
    have hprefer' : ¬ tw < 2 * lo + 1 → |((lo + 1 : Nat) : Rat) * 10 ^ (k - n) - floatVal m e| ≤ |(lo : Rat) * 10 ^ (k - n) - floatVal m e| := by
      intro h
      push_cast
      rw [abs_of_nonneg (by linarith), abs_of_nonpos (by linarith)]
      have : ((2 * lo + 1 : Nat) : Rat) ≤ (tw : Rat) := by exact_mod_cast (not_lt.1 h)
      push_cast at this
      have := mul_le_mul_of_nonneg_right this hpx.le
      linarith [htws.1]
    split
    · rename_i h
      refine ⟨n, lo, _, rfl, hlo0, (ofScaled_iff ..).1 h.1, dlo, hshort, fun r hr hc => ?_⟩
      rcases dich r hr with hle | hge
      · exact hlo' r hle
      · rcases h.2 with hp | hn
        · exact le_trans (hprefer hp) (hhi' r hge)
        · exact absurd ((ofScaled_iff ..).2 (nearest_between hc (.inr ⟨by push_cast; linarith, hge⟩))) hn
    · rename_i h1
      split
      · rename_i h2
        refine ⟨n, lo + 1, _, rfl, by omega, (ofScaled_iff ..).1 h2, dhi, hshort, fun r hr hc => ?_⟩
        rcases dich r hr with hle | hge
        · have hl := (ofScaled_iff ..).2 (nearest_between hc (.inl ⟨hle, hlo⟩))
          exact le_trans (hprefer' fun hp => h1 ⟨hl, .inl hp⟩) (hlo' r hle)
        · exact hhi' r hge
      · rename_i h2'
        have h2 : ¬ Nearest (((lo + 1 : Nat) : Rat) * 10 ^ (k - n)) (.fin m e) := fun h => h2' ((ofScaled_iff ..).2 h)
        have hnlo : ¬ Nearest ((lo : Rat) * 10 ^ (k - n)) (.fin m e) := fun hc => h1 ⟨(ofScaled_iff ..).2 hc, .inr h2'⟩
        by_cases h17 : n = 17
        · exfalso
          subst h17
          have hu : (10 : Rat) ^ (k - (17 : Nat)) * 10 ^ 16 ≤ floatVal m e := by
            refine le_trans (le_of_eq ?_) hk.1
            rw [hpk1]; ring
          clear hpk hpk1 dlo dhi
          generalize (10 : Rat) ^ (k - ((17 : Nat) : Int)) = P at *
          push_cast at h2
          generalize hV : floatVal m e = V at *
          rcases le_total (V - (lo : Rat) * P) (P / 2) with hc | hc
          · refine hnlo (near_rounds hf hm hpx (by rw [hV]; exact hu) ?_)
            rw [hV, abs_le]; constructor <;> linarith
          · refine h2 (near_rounds hf hm hpx (by rw [hV]; exact hu) ?_)
            rw [hV, abs_le]; constructor <;> linarith
        · refine ih (n + 1) (by omega) (by omega) (by omega) ?_
          intro n' hn' r hr hc
          by_cases hlt : n' < n
          · exact hshort n' hlt r hr hc
          · obtain rfl : n' = n := by omega
            obtain ⟨d, k', hd', rfl⟩ := hr
            rcases dich _ ⟨d, k', hd', rfl⟩ with hle | hge
            · exact hnlo (nearest_between hc (.inl ⟨hle, hlo⟩))
            · exact h2 (nearest_between hc (.inr ⟨by push_cast; linarith, hge⟩))

/-- The position of the leading digit. -/
theorem lead_spec (num den : Nat) (hn : 0 < num) (hd : 0 < den) (k : Int)
    (hk : k = if den ≤ num then ((F64.natDigits (num / den)).length : Int) else 1 - ((F64.natDigits ((den - 1) / num)).length : Int)) :
    (10 : Rat) ^ (k - 1) ≤ (num : Rat) / den ∧ (num : Rat) / den < 10 ^ k := by
  have hdq : (0 : Rat) < den := by exact_mod_cast hd
  have hnq : (0 : Rat) < num := by exact_mod_cast hn
  split at hk
  · rename_i h
    have hq : 0 < num / den := Nat.div_pos h hd
    obtain ⟨h1, h2⟩ := natDigits_bounds _ hq
    have hl : 0 < (F64.natDigits (num / den)).length := List.length_pos_of_ne_nil Nat.toDigits_ne_nil
    generalize (F64.natDigits (num / den)).length = L at *
    subst hk
    rw [le_div_iff₀ hdq, div_lt_iff₀ hdq]
    constructor
    · rw [show ((L : Int) - 1) = ((L - 1 : Nat) : Int) by omega, zpow_natCast]
      have : 10 ^ (L - 1) * den ≤ num := (Nat.le_div_iff_mul_le hd).1 h1
      exact_mod_cast this
    · rw [zpow_natCast]
      have : num < 10 ^ L * den := (Nat.div_lt_iff_lt_mul hd).1 h2
      exact_mod_cast this
  · rename_i h
    have hq : 0 < (den - 1) / num := Nat.div_pos (by omega) hn
    obtain ⟨h1, h2⟩ := natDigits_bounds _ hq
    have hl : 0 < (F64.natDigits ((den - 1) / num)).length := List.length_pos_of_ne_nil Nat.toDigits_ne_nil
    generalize (F64.natDigits ((den - 1) / num)).length = L at *
    subst hk
    constructor
    · rw [show (1 - (L : Int) - 1) = -(L : Int) by omega, zpow_neg, zpow_natCast, le_div_iff₀ hdq, inv_mul_le_iff₀ (by positivity)]
      have : den - 1 < 10 ^ L * num := (Nat.div_lt_iff_lt_mul hn).1 h2
      have : den ≤ 10 ^ L * num := by omega
      exact_mod_cast this
    · rw [show (1 - (L : Int)) = -((L - 1 : Nat) : Int) by omega, zpow_neg, zpow_natCast, div_lt_iff₀ hdq, lt_inv_mul_iff₀ (by positivity)]
      have : 10 ^ (L - 1) * num ≤ den - 1 := (Nat.le_div_iff_mul_le hn).1 h1
      have : 10 ^ (L - 1) * num < den := by omega
      exact_mod_cast this

/-- **Display of a double.** The text is a decimal numeral that rounds to the double, and none with fewer significant
digits does, nor is one with as many digits nearer to it. -/
theorem display_spec {m : Nat} {e : Int} (hf : IsFloat m e) (hm : 0 < m) :
    ∃ x n, Plain (F64.fin m e).display x ∧ Nearest x (.fin m e) ∧ HasDigits n x ∧
      (∀ n' < n, ∀ r, HasDigits n' r → ¬ Nearest r (.fin m e)) ∧
      ∀ r, HasDigits n r → Nearest r (.fin m e) → |x - floatVal m e| ≤ |r - floatVal m e| := by
  unfold F64.display
  dsimp only
  rw [if_neg (by omega)]
  generalize hnd : (if 0 ≤ e then (m * 2 ^ e.toNat, 1) else (m, 2 ^ (-e).toNat)) = nd
  obtain ⟨num, den⟩ := nd
  have hv : 0 < num ∧ 0 < den ∧ (num : Rat) / den = floatVal m e := by
    split at hnd
    · rename_i h
      obtain ⟨rfl, rfl⟩ := Prod.mk.inj hnd
      refine ⟨by positivity, by positivity, ?_⟩
      unfold floatVal
      push_cast; rw [← zpow_natCast, Int.toNat_of_nonneg h, div_one]
    · rename_i h
      obtain ⟨rfl, rfl⟩ := Prod.mk.inj hnd
      refine ⟨hm, by positivity, ?_⟩
      unfold floatVal
      push_cast; rw [← zpow_natCast, Int.toNat_of_nonneg (by omega), zpow_neg]; simp
  dsimp only
  generalize hk : (if den ≤ num then ((F64.natDigits (num / den)).length : Int) else 1 - ((F64.natDigits ((den - 1) / num)).length : Int)) = k
  have hlead := lead_spec num den hv.1 hv.2.1 k hk.symm
  rw [hv.2.2] at hlead
  obtain ⟨n, d, x, h1, h2, h3, h4, h5, h6⟩ := shortest_spec hf hm hv.2.1 hv.2.2 hlead 17 1 (by omega) (by omega) (by omega) (by
    intro n' hn' r hr hc
    obtain rfl : n' = 0 := by omega
    obtain ⟨d, k', hd', rfl⟩ := hr
    obtain rfl : d = 0 := by simpa using hd'
    have h0 : Nearest ((0 : Nat) * (10 : Rat) ^ k') (.fin 0 (-1074)) := by
      have := ofScaled_nearest 0 0
      simpa [F64.ofScaled, F64.ofRat] using this
    have := nearest_unique h0 hc
    simp only [F64.fin.injEq] at this
    omega)
  rw [h1]
  exact ⟨_, n, plain_spec d x h2, h3, h4, h5, h6⟩

end Dbml
