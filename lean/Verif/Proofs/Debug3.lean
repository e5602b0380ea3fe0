import Verif.Proofs.Debug2

/-!
# Doubles
-/

namespace Dbml.Debug

open Dbml Spec Syntax

theorem numeral_plain {a a' : Str} {n n' : Nat} (h : IsNumeral a n) (h' : IsNumeral a' n') (e : a = a') : n = n' := by
  rw [← h.2.1, ← h'.2.1, e]

theorem no_digit {a : Str} {z : Char} (h : IsDigits a) (hz : z.isDigit = false) : z ∉ a := fun hm => by
  rw [h.2 z hm] at hz; cases hz

/-- A number in decimal notation denotes one number. -/
theorem plain_unique {t : Str} {x x' : Rat} (h : Plain t x) (h' : Plain t x') : x = x' := by
  obtain ⟨a, n, ha, h⟩ := h
  obtain ⟨a', n', ha', h'⟩ := h'
  have hd := no_digit (z := '.') ha.1 (by decide)
  have hd' := no_digit (z := '.') ha'.1 (by decide)
  rcases h with ⟨rfl, rfl⟩ | ⟨b, rfl, hb, -, rfl⟩
  · rcases h' with ⟨rfl, rfl⟩ | ⟨b', rfl, -⟩
    · rw [numeral_plain ha ha' rfl]
    · exact absurd (by simp) hd
  · rcases h' with ⟨rfl, rfl⟩ | ⟨b', e, -, -, rfl⟩
    · exact absurd (by simp) hd'
    · obtain ⟨e1, rfl⟩ := upto_inj '.' hd hd' e
      rw [numeral_plain ha ha' e1]

/-- Nothing but digits and a point, and at least a digit. -/
theorem plain_chars {t : Str} {x : Rat} (h : Plain t x) : ∀ c ∈ t, c.isDigit = true ∨ c = '.' := by
  obtain ⟨a, n, ha, h⟩ := h
  intro c hc
  rcases h with ⟨rfl, rfl⟩ | ⟨b, rfl, hb, -, rfl⟩
  · exact .inl (ha.1.2 c hc)
  · simp only [List.mem_append, List.mem_cons] at hc
    rcases hc with hc | rfl | hc
    · exact .inl (ha.1.2 c hc)
    · exact .inr rfl
    · exact .inl (hb.2 c hc)

/-- With a point the last digit is not a zero. -/
theorem plain_last {t : Str} {x : Rat} (h : Plain t x) (hp : '.' ∈ t) : t.getLast? ≠ some '0' := by
  obtain ⟨a, n, ha, h⟩ := h
  rcases h with ⟨rfl, rfl⟩ | ⟨b, rfl, hb, h0, rfl⟩
  · exact absurd hp (no_digit ha.1 (by decide))
  · have : b ≠ [] := hb.1
    cases b with
    | nil => exact absurd rfl this
    | cons c b => simpa using h0

theorem digits_display {m : Nat} (hm : m ≠ 0) (e : Int) : (F64.fin m e).display = F64.plain (F64.digits m e).1 (F64.digits m e).2 := by
  unfold F64.display F64.digits
  dsimp only
  rw [if_neg hm]

/-- The digits denote a number that rounds to the double. -/
theorem digits_spec {m : Nat} {e : Int} (hf : IsFloat m e) (hm : 0 < m) : 0 < (F64.digits m e).1 ∧
    Nearest (((F64.digits m e).1 : Rat) * 10 ^ (F64.digits m e).2) (.fin m e) := by
  unfold F64.digits
  dsimp only
  generalize hnd : (if 0 ≤ e then (m * 2 ^ e.toNat, 1) else (m, 2 ^ (-e).toNat)) = nd
  obtain ⟨num, den⟩ := nd
  have hv : 0 < num ∧ 0 < den ∧ (num : Rat) / den = floatVal m e := by
    split at hnd
    · rename_i h
      obtain ⟨rfl, rfl⟩ := Prod.mk.inj hnd
      refine ⟨by positivity, by positivity, ?_⟩
      unfold floatVal
      push_cast; rw [← zpow_natCast, Int.toNat_of_nonneg h, div_one]
    · rename_i h
      obtain ⟨rfl, rfl⟩ := Prod.mk.inj hnd
      refine ⟨hm, by positivity, ?_⟩
      unfold floatVal
      push_cast; rw [← zpow_natCast, Int.toNat_of_nonneg (by omega), zpow_neg]; simp
  dsimp only
  generalize hk : (if den ≤ num then ((F64.natDigits (num / den)).length : Int) else 1 - ((F64.natDigits ((den - 1) / num)).length : Int)) = k
  have hlead := lead_spec num den hv.1 hv.2.1 k hk.symm
  rw [hv.2.2] at hlead
  obtain ⟨n, d, x, h1, h2, h3, -⟩ := shortest_spec hf hm hv.2.1 hv.2.2 hlead 17 1 (by omega) (by omega) (by omega) (by
    intro n' hn' r hr hc
    obtain rfl : n' = 0 := by omega
    obtain ⟨d, k', hd', rfl⟩ := hr
    obtain rfl : d = 0 := by simpa using hd'
    have h0 : Nearest ((0 : Nat) * (10 : Rat) ^ k') (.fin 0 (-1074)) := by
      have := ofScaled_nearest 0 0
      simpa [F64.ofScaled, F64.ofRat] using this
    have := nearest_unique h0 hc
    simp only [F64.fin.injEq] at this
    omega)
  rw [h1]
  exact ⟨h2, h3⟩

/-- `0` rounds to the double `0`. -/
theorem nearest_zero {e : Int} (h : IsFloat 0 e) : Nearest 0 (.fin 0 e) := by
  obtain rfl : e = -1074 := by
    rcases h.2.2.2 with h | h
    · simp at h
    · exact h
  have := ofScaled_nearest 0 0
  simpa [F64.ofScaled, F64.ofRat] using this

theorem display_plain {m : Nat} {e : Int} (hf : IsFloat m e) :
    ∃ x, Plain (F64.fin m e).display x ∧ Nearest x (.fin m e) := by
  by_cases hm : m = 0
  · subst hm
    exact ⟨0, ⟨k!"0", 0, ⟨⟨by simp, by decide⟩, by decide, fun _ => rfl⟩, .inl ⟨rfl, by norm_num⟩⟩, nearest_zero hf⟩
  · obtain ⟨x, n, h1, h2, -⟩ := display_spec hf (by omega)
    exact ⟨x, h1, h2⟩

/-! ## Scientific notation -/

/-- The digits without the point. -/
def mant (ds : Str) : Str :=
  match ds with
  | [] => []
  | [c] => [c]
  | c :: cs => c :: '.' :: cs

theorem mant_inj {a b : Str} (h : mant a = mant b) : a = b := by
  unfold mant at h
  repeat' split at h
  all_goals simp_all

theorem mant_chars {ds : Str} (h : ∀ c ∈ ds, c.isDigit = true) : ∀ c ∈ mant ds, c.isDigit = true ∨ c = '.' := by
  intro c hc
  unfold mant at hc
  split at hc
  · simp at hc
  · exact .inl (h c hc)
  · simp only [List.mem_cons] at hc
    rcases hc with rfl | rfl | hc
    · exact .inl (h _ (by simp))
    · exact .inr rfl
    · exact .inl (h _ (by simp [hc]))

/-- The number that digits `ds` with the exponent `E` of the first digit denote. -/
def sciVal (ds : Str) (E : Int) : Rat := (digitsNat ds : Rat) * 10 ^ (E - (ds.length - 1))

theorem sci_eq (d : Nat) (x : Int) : ∃ ds E, F64.sci d x = mant ds ++ 'e' :: displayInt E ∧ (∀ c ∈ ds, c.isDigit = true) ∧
    sciVal ds E = (d : Rat) * 10 ^ x := by
  obtain ⟨k, hk⟩ := drop_zeros (F64.natDigits d).reverse
  have hall := hk.1
  refine ⟨((F64.natDigits d).reverse.dropWhile (· = '0')).reverse, ((F64.natDigits d).length : Int) - 1 + x, rfl, ?_, ?_⟩
  · intro c hc
    refine (natDigits_isDigits d).2 c ?_
    have : c ∈ (F64.natDigits d).reverse := (List.dropWhile_suffix _).subset (List.mem_reverse.1 hc)
    exact List.mem_reverse.1 this
  · generalize hz : (F64.natDigits d).reverse.dropWhile (· = '0') = z at hall
    have h1 : F64.natDigits d = z.reverse ++ List.replicate k '0' := by
      have := congrArg List.reverse hall
      simpa using this
    have h2 : d = digitsNat z.reverse * 10 ^ k := by
      have h3 := natDigits_val d
      rw [h1, digitsNat_append, digitsNat_zeros, List.length_replicate] at h3
      omega
    unfold sciVal
    rw [h1]
    conv => rhs; rw [h2]
    push_cast
    rw [mul_assoc, ← zpow_natCast, ← zpow_add₀ (by norm_num)]
    congr 2
    simp only [List.length_append, List.length_replicate, List.length_reverse]
    push_cast
    ring

theorem sci_inj {d d' : Nat} {x x' : Int} (h : F64.sci d x = F64.sci d' x') : (d : Rat) * 10 ^ x = (d' : Rat) * 10 ^ x' := by
  obtain ⟨ds, E, h1, h2, h3⟩ := sci_eq d x
  obtain ⟨ds', E', h1', h2', h3'⟩ := sci_eq d' x'
  rw [h1, h1'] at h
  have no : ∀ {ds : Str}, (∀ c ∈ ds, c.isDigit = true) → 'e' ∉ mant ds := fun hd hm => by
    rcases mant_chars hd _ hm with h | h
    · exact absurd h (by decide)
    · exact absurd h (by decide)
  obtain ⟨h4, h5⟩ := upto_inj 'e' (no h2) (no h2') h
  rw [← h3, ← h3', mant_inj h4, displayInt_inj h5]

theorem sci_e (d : Nat) (x : Int) : 'e' ∈ F64.sci d x := by
  obtain ⟨ds, E, h1, -⟩ := sci_eq d x
  rw [h1]; simp

/-- A double in canonical form, as all that the parser creates. -/
def Std (f : F64) : Prop := ∀ m e, f = .fin m e → IsFloat m e

/-- The decimal notation with at least one digit after the point. -/
def pointed (t : Str) : Str := if '.' ∈ t then t else t ++ k!".0"

theorem debug_cases (m : Nat) (e : Int) : (m ≠ 0 ∧ (F64.fin m e).debug = F64.sci (F64.digits m e).1 (F64.digits m e).2) ∨
    (F64.fin m e).debug = pointed (F64.fin m e).display := by
  unfold F64.debug
  dsimp only
  by_cases h : F64.exponential m e = true
  · refine .inl ⟨?_, if_pos h⟩
    unfold F64.exponential at h
    exact (of_decide_eq_true h).1
  · exact .inr (if_neg h)

theorem pointed_chars {t : Str} {x : Rat} (h : Plain t x) : ∀ c ∈ pointed t, c.isDigit = true ∨ c = '.' := by
  intro c hc
  unfold pointed at hc
  split at hc
  · exact plain_chars h c hc
  · simp only [List.mem_append, List.mem_cons, List.not_mem_nil, or_false] at hc
    rcases hc with hc | rfl | rfl
    · exact plain_chars h c hc
    · exact .inr rfl
    · exact .inl (by decide)

theorem pointed_inj {t t' : Str} {x x' : Rat} (h : Plain t x) (h' : Plain t' x') (e : pointed t = pointed t') : t = t' := by
  unfold pointed at e
  split at e <;> split at e
  · exact e
  · exact absurd (by rw [e]; simp) (plain_last h ‹_›)
  · exact absurd (by rw [← e]; simp) (plain_last h' ‹_›)
  · exact List.append_cancel_right e

/-- Nothing but digits, points and letters, also if the double is not in canonical form. -/
theorem debug_chars (f : F64) : ∀ c ∈ f.debug, c.isDigit = true ∨ c ∈ k!".einf-" := by
  have hd : ∀ n, ∀ c ∈ F64.natDigits n, c.isDigit = true := fun n => (natDigits_isDigits n).2
  intro c hc
  cases f with
  | inf => revert c; decide
  | fin m e =>
    rcases debug_cases m e with ⟨-, h1⟩ | h1
    · rw [h1] at hc
      obtain ⟨ds, E, h2, h3, -⟩ := sci_eq (F64.digits m e).1 (F64.digits m e).2
      rw [h2] at hc
      simp only [List.mem_append, List.mem_cons] at hc
      rcases hc with hc | rfl | hc
      · rcases mant_chars h3 c hc with h | rfl
        · exact .inl h
        · exact .inr (by decide)
      · exact .inr (by decide)
      · rcases displayInt_chars c hc with h | rfl
        · exact .inl h
        · exact .inr (by decide)
    · rw [h1] at hc
      have hp : ∀ d x, ∀ c ∈ F64.plain d x, c.isDigit = true ∨ c ∈ k!".einf-" := by
        intro d x c hc
        unfold F64.plain at hc
        split at hc
        · exact .inl (hd _ c hc)
        · dsimp only at hc
          have hz : ∀ k, ∀ c ∈ List.replicate k '0' ++ F64.natDigits d, c.isDigit = true := by
            intro k c hc
            rcases List.mem_append.1 hc with h | h
            · rw [(List.mem_replicate.1 h).2]; decide
            · exact hd _ c h
          split at hc
          · exact .inl (hz _ c (List.mem_of_mem_take hc))
          · simp only [List.append_assoc, List.mem_append, List.mem_cons, List.not_mem_nil, or_false, List.mem_reverse] at hc
            rcases hc with hc | rfl | hc
            · exact .inl (hz _ c (List.mem_of_mem_take hc))
            · exact .inr (by decide)
            · have h2 := (List.dropWhile_suffix _).subset hc
              exact .inl (hz _ c (List.mem_of_mem_drop (List.mem_reverse.1 h2)))
      have hdisp : ∀ c ∈ (F64.fin m e).display, c.isDigit = true ∨ c ∈ k!".einf-" := by
        intro c hc
        by_cases hm : m = 0
        · subst hm
          have : (F64.fin 0 e).display = k!"0" := rfl
          rw [this] at hc
          revert c; decide
        · rw [digits_display hm] at hc
          exact hp _ _ c hc
      unfold pointed at hc
      split at hc
      · exact hdisp c hc
      · rcases List.mem_append.1 hc with h | h
        · exact hdisp c h
        · simp only [List.mem_cons, List.not_mem_nil, or_false] at h
          rcases h with rfl | rfl
          · exact .inr (by decide)
          · exact .inl (by decide)

/-- Different doubles are shown differently. -/
theorem debug_inj {f g : F64} (hf : Std f) (hg : Std g) (h : f.debug = g.debug) : f = g := by
  have inf : ∀ m e, IsFloat m e → (F64.fin m e).debug ≠ F64.inf.debug := by
    intro m e hm h
    have hi : F64.inf.debug = k!"inf" := rfl
    rw [hi] at h
    rcases debug_cases m e with ⟨-, h1⟩ | h1
    · rw [h1] at h
      exact absurd (h ▸ sci_e _ _) (by decide)
    · rw [h1] at h
      obtain ⟨x, hx, -⟩ := display_plain hm
      have := pointed_chars hx 'i' (by rw [h]; decide)
      exact absurd this (by decide)
  cases f with
  | inf => cases g with
    | inf => rfl
    | fin m e => exact absurd h.symm (inf m e (hg m e rfl))
  | fin m e => cases g with
    | inf => exact absurd h (inf m e (hf m e rfl))
    | fin m' e' =>
      have h1 := hf m e rfl
      have h2 := hg m' e' rfl
      obtain ⟨x, hx, hn⟩ := display_plain h1
      obtain ⟨x', hx', hn'⟩ := display_plain h2
      have no : ∀ {t : Str} {x : Rat}, Plain t x → 'e' ∉ pointed t := fun hp hm => by
        have := pointed_chars hp 'e' hm
        exact absurd this (by decide)
      rcases debug_cases m e with ⟨m0, d1⟩ | d1 <;> rcases debug_cases m' e' with ⟨m0', d2⟩ | d2 <;> rw [d1, d2] at h
      · have n1 := (digits_spec h1 (by omega)).2
        have n2 := (digits_spec h2 (by omega)).2
        rw [sci_inj h] at n1
        exact nearest_unique n1 n2
      · exact absurd (h ▸ sci_e _ _) (no hx')
      · exact absurd (h.symm ▸ sci_e _ _) (no hx)
      · have := pointed_inj hx hx' h
        rw [this] at hx
        rw [plain_unique hx hx'] at hn
        exact nearest_unique hn hn'

end Dbml.Debug
