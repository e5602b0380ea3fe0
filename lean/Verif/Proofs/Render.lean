import Verif.Model.Render
import Verif.Proofs.LineCol

/-!
# Lines of a text, as `Position::line_of` and `Span::lines` find them
-/

namespace Dbml

theorem charIndices_append : ∀ (n : Nat) (u v : Str), charIndices n (u ++ v) = charIndices n u ++ charIndices (n + blen u) v
  | n, [], v => by simp [charIndices, blen]
  | n, c :: u, v => by
    simp only [List.cons_append, charIndices, charIndices_append _ u v, blen]
    rw [Nat.add_assoc]

theorem charIndices_ge : ∀ (n : Nat) (u : Str), ∀ p ∈ charIndices n u, n ≤ p.1
  | n, [], p, h => by simp [charIndices] at h
  | n, c :: u, p, h => by
    simp only [charIndices, List.mem_cons] at h
    rcases h with rfl | h
    · exact Nat.le_refl _
    · have := charIndices_ge _ u p h
      omega

theorem charIndices_lt : ∀ (n : Nat) (u : Str), ∀ p ∈ charIndices n u, p.1 < n + blen u
  | n, [], p, h => by simp [charIndices] at h
  | n, c :: u, p, h => by
    simp only [charIndices, List.mem_cons] at h
    have hc := utf8Size_pos c
    rcases h with rfl | h
    · simp only [blen]; omega
    · have := charIndices_lt _ u p h
      simp only [blen]; omega

theorem charIndices_chars : ∀ (n : Nat) (u : Str), ∀ p ∈ charIndices n u, p.2 ∈ u
  | n, [], p, h => by simp [charIndices] at h
  | n, c :: u, p, h => by
    simp only [charIndices, List.mem_cons] at h
    rcases h with rfl | h
    · simp
    · exact List.mem_cons_of_mem _ (charIndices_chars _ u p h)

theorem dropWhile_append_all {α} (p : α → Bool) : ∀ (a b : List α), (∀ x ∈ a, p x = true) →
    (a ++ b).dropWhile p = b.dropWhile p
  | [], _, _ => rfl
  | x :: a, b, h => by
    rw [List.cons_append, List.dropWhile_cons_of_pos (h x (by simp))]
    exact dropWhile_append_all p a b fun y hy => h y (by simp [hy])

theorem dropWhile_none {α} (p : α → Bool) (a : List α) (h : ∀ x ∈ a, p x = false) : a.dropWhile p = a := by
  cases a with
  | nil => rfl
  | cons x a => rw [List.dropWhile_cons_of_neg]; simp [h x (by simp)]

/-- The text up to and including the first line break. -/
def firstLine : Str → Str
  | [] => []
  | c :: cs => if c = '\n' then [c] else c :: firstLine cs

/-- What comes after it. -/
def afterLine : Str → Str
  | [] => []
  | c :: cs => if c = '\n' then cs else afterLine cs

theorem firstLine_after : ∀ v : Str, firstLine v ++ afterLine v = v
  | [] => rfl
  | c :: cs => by
    unfold firstLine afterLine
    split
    · rfl
    · rw [List.cons_append, firstLine_after cs]

theorem firstLine_append_of_mem : ∀ {m : Str} (v : Str), '\n' ∈ m → firstLine (m ++ v) = firstLine m
  | [], _, h => by simp at h
  | c :: m, v, h => by
    unfold firstLine
    simp only [List.cons_append]
    split
    · rfl
    · rename_i hc
      rw [firstLine_append_of_mem v (by simpa [Ne.symm hc] using h)]

theorem firstLine_append_of_not_mem : ∀ {m : Str} (v : Str), '\n' ∉ m → firstLine (m ++ v) = m ++ firstLine v
  | [], _, _ => rfl
  | c :: m, v, h => by
    simp only [List.mem_cons, not_or] at h
    rw [List.cons_append, firstLine, if_neg (Ne.symm h.1), firstLine_append_of_not_mem v h.2, List.cons_append]

theorem firstLine_ne_nil {v : Str} (h : v ≠ []) : firstLine v ≠ [] := by
  cases v with
  | nil => exact absurd rfl h
  | cons c cs => unfold firstLine; split <;> simp

/-- The first line ends with the line break, or it is the whole text. -/
theorem firstLine_form : ∀ v : Str, (∃ b, '\n' ∉ b ∧ firstLine v = b ++ k!"\n") ∨ ('\n' ∉ v ∧ firstLine v = v)
  | [] => .inr ⟨by simp, rfl⟩
  | c :: cs => by
    unfold firstLine
    split
    · rename_i hc; subst hc; exact .inl ⟨[], by simp, rfl⟩
    · rename_i hc
      rcases firstLine_form cs with ⟨b, hb, e⟩ | ⟨hb, e⟩
      · exact .inl ⟨c :: b, by simp [hb, Ne.symm hc], by rw [e, List.cons_append]⟩
      · exact .inr ⟨by simp [hb, Ne.symm hc], by rw [e]⟩

theorem lastLine_parts (u : Str) : ∃ ls, u = ls ++ lastLine u ∧ (ls = [] ∨ ∃ x, ls = x ++ k!"\n") ∧ '\n' ∉ lastLine u := by
  induction u with
  | nil => exact ⟨[], rfl, .inl rfl, by simp [lastLine]⟩
  | cons a u ih =>
    rw [lastLine_cons]
    by_cases h : '\n' ∈ u
    · rw [if_pos h]
      obtain ⟨ls, e, h1, h2⟩ := ih
      refine ⟨a :: ls, by rw [List.cons_append, ← e], .inr ?_, h2⟩
      rcases h1 with rfl | ⟨x, rfl⟩
      · rw [List.nil_append] at e; rw [← e] at h2; exact absurd h h2
      · exact ⟨a :: x, rfl⟩
    · rw [if_neg h]
      by_cases ha : a = '\n'
      · subst ha; rw [if_pos rfl]; exact ⟨k!"\n", rfl, .inr ⟨[], rfl⟩, h⟩
      · rw [if_neg ha]; exact ⟨[], rfl, .inl rfl, by simp only [List.mem_cons, not_or]; exact ⟨Ne.symm ha, h⟩⟩

theorem find_none_chars {n : Nat} {u : Str} (h : '\n' ∉ u) : (charIndices n u).find? (fun p => p.2 = '\n') = none := by
  rw [List.find?_eq_none]
  intro p hp hc
  have := charIndices_chars n u p hp
  simp at hc
  rw [hc] at this
  exact h this

theorem find_none_rev {n : Nat} {u : Str} (h : '\n' ∉ u) :
    (charIndices n u).reverse.find? (fun p => p.2 = '\n') = none := by
  rw [List.find?_eq_none]
  intro p hp hc
  have := charIndices_chars n u p (List.mem_reverse.1 hp)
  simp at hc
  rw [hc] at this
  exact h this

theorem findLineStart_eq {ls a : Str} (v : Str) (h : ls = [] ∨ ∃ x, ls = x ++ k!"\n") (ha : '\n' ∉ a) :
    findLineStart (ls ++ a ++ v) (blen (ls ++ a)) = blen ls := by
  unfold findLineStart
  have h1 : ((charIndices 0 (ls ++ a ++ v)).reverse.dropWhile fun p => blen (ls ++ a) ≤ p.1) =
      (charIndices 0 (ls ++ a)).reverse := by
    rw [charIndices_append, List.reverse_append, dropWhile_append_all, dropWhile_none]
    · intro p hp
      have := charIndices_lt 0 _ p (List.mem_reverse.1 hp)
      simp; omega
    · intro p hp
      have := charIndices_ge _ _ p (List.mem_reverse.1 hp)
      simp; omega
  rw [h1, charIndices_append, List.reverse_append, List.find?_append, find_none_rev ha]
  rcases h with rfl | ⟨x, rfl⟩
  · simp [charIndices, blen]
  · rw [charIndices_append, List.reverse_append]
    simp [charIndices, blen_append, blen]
    decide

theorem findLineEnd_eq (u v : Str) : findLineEnd (u ++ v) (blen u) = blen (u ++ firstLine v) := by
  unfold findLineEnd
  split
  · rename_i h
    simp at h
    simp [h.1, h.2, firstLine, blen]
  · split
    · rename_i h0 h
      have hv : ∃ c, v = [c] := by
        rw [blen_append] at h
        cases v with
        | nil =>
          cases u with
          | nil => exact absurd rfl h0
          | cons c u => have := utf8Size_pos c; simp only [blen] at h; omega
        | cons c v =>
          cases v with
          | nil => exact ⟨c, rfl⟩
          | cons d v =>
            have := utf8Size_pos c
            have := utf8Size_pos d
            simp only [blen] at h
            omega
      obtain ⟨c, rfl⟩ := hv
      have : firstLine [c] = [c] := by unfold firstLine; split <;> rfl
      rw [this]
    · have h1 : ((charIndices 0 (u ++ v)).dropWhile fun p => p.1 < blen u) = charIndices (blen u) v := by
        rw [charIndices_append, dropWhile_append_all, dropWhile_none]
        · rw [Nat.zero_add]
        · intro p hp
          have := charIndices_ge _ _ p hp
          simp; omega
        · intro p hp
          have := charIndices_lt 0 _ p hp
          simp; omega
      rw [h1]
      rcases firstLine_form v with ⟨b, hb, e⟩ | ⟨hv, e⟩
      · have e2 := firstLine_after v
        rw [e] at e2 ⊢
        rw [← e2, List.append_assoc, charIndices_append, List.find?_append, find_none_chars hb]
        simp [charIndices, blen_append, blen]
        rw [show ('\n' : Char).utf8Size = 1 from by decide]
        omega
      · rw [find_none_chars hv, e]

theorem slice_mid (a b c : Str) : slice (a ++ b ++ c) ⟨blen a, blen (a ++ b)⟩ = b := by
  unfold slice
  rw [List.append_assoc, dropBytes_append, blen_append, Nat.add_sub_cancel_left, takeBytes_append]

theorem lineOf_eq (u v : Str) : lineOf (u ++ v) (blen u) = lastLine u ++ firstLine v := by
  unfold lineOf
  obtain ⟨ls, e, h1, h2⟩ := lastLine_parts u
  rw [findLineEnd_eq]
  generalize lastLine u = a at *
  subst e
  rw [findLineStart_eq v h1 h2]
  have := slice_mid ls (a ++ firstLine v) (afterLine v)
  simp only [List.append_assoc] at this ⊢
  rwa [firstLine_after] at this

/-- The lines of a text, each with its line break. -/
def textLines : Str → List Str
  | [] => []
  | c :: cs =>
    if c = '\n' then [c] :: textLines cs
    else match textLines cs with
      | [] => [[c]]
      | l :: ls => (c :: l) :: ls

theorem textLines_flatten : ∀ s : Str, (textLines s).flatten = s
  | [] => rfl
  | c :: cs => by
    have ih := textLines_flatten cs
    unfold textLines
    split
    · simp [ih]
    · cases h : textLines cs with
      | nil => rw [h] at ih; simp at ih; simp [← ih]
      | cons l ls => rw [h] at ih; simp at ih ⊢; exact ih

theorem textLines_first : ∀ {v : Str}, v ≠ [] → textLines v = firstLine v :: textLines (afterLine v)
  | [], h => absurd rfl h
  | c :: cs, _ => by
    rw [textLines, firstLine, afterLine]
    by_cases hc : c = '\n'
    · rw [if_pos hc, if_pos hc, if_pos hc]
    · rw [if_neg hc, if_neg hc, if_neg hc]
      cases cs with
      | nil => rfl
      | cons d cs => rw [textLines_first (v := d :: cs) (by simp)]

theorem afterLine_append_of_mem : ∀ {m : Str} (v : Str), '\n' ∈ m → afterLine (m ++ v) = afterLine m ++ v
  | [], _, h => by simp at h
  | c :: m, v, h => by
    unfold afterLine
    simp only [List.cons_append]
    split
    · rfl
    · rename_i hc
      rw [afterLine_append_of_mem v (by simpa [Ne.symm hc] using h)]

theorem afterLine_append_of_not_mem : ∀ {m : Str} (v : Str), '\n' ∉ m → afterLine (m ++ v) = afterLine v
  | [], _, _ => rfl
  | c :: m, v, h => by
    simp only [List.mem_cons, not_or] at h
    rw [List.cons_append, afterLine, if_neg (Ne.symm h.1), afterLine_append_of_not_mem v h.2]

theorem afterLine_firstLine (v : Str) : afterLine (firstLine v) = [] := by
  rcases firstLine_form v with ⟨b, hb, e⟩ | ⟨hb, e⟩
  · rw [e, afterLine_append_of_not_mem _ hb]; rfl
  · rw [e]
    have := afterLine_append_of_not_mem [] hb
    simpa [afterLine] using this

theorem firstLine_idem (v : Str) : firstLine (firstLine v) = firstLine v := by
  have := firstLine_after (firstLine v)
  rw [afterLine_firstLine, List.append_nil] at this
  exact this

/-- Every line ends with a line break, except that the last one need not; none has one elsewhere. -/
theorem textLines_form (s : Str) : ∀ l ∈ textLines s, ∃ b, '\n' ∉ b ∧ (l = b ++ k!"\n" ∨ l = b) := by
  induction hn : s.length using Nat.strongRecOn generalizing s with
  | _ n ih =>
    by_cases hs : s = []
    · subst hs; simp [textLines]
    · rw [textLines_first hs]
      intro l hl
      rcases List.mem_cons.1 hl with rfl | hl
      · rcases firstLine_form s with ⟨b, hb, e⟩ | ⟨hb, e⟩
        · exact ⟨b, hb, .inl e⟩
        · exact ⟨s, hb, .inr e⟩
      · have h1 := congrArg List.length (firstLine_after s)
        have h2 := List.length_pos_iff.2 (firstLine_ne_nil hs)
        rw [List.length_append] at h1
        exact ih (afterLine s).length (by omega) (afterLine s) rfl l hl

theorem lastLine_of_break (u b : Str) : lastLine (u ++ (b ++ k!"\n")) = [] := by
  rw [← List.append_assoc, lastLine_append_of_mem _ (by simp)]; rfl

theorem blen_pos_of_ne {s : Str} (h : s ≠ []) : 0 < blen s := by
  cases s with
  | nil => exact absurd rfl h
  | cons c cs => have := utf8Size_pos c; simp only [blen]; omega

/-- `Span::lines` gives the lines from that of the beginning of the range to that of its end. -/
theorem spanLines_eq : ∀ (fuel : Nat) (u m v : Str), (m ++ v).length < fuel → (m ++ v ≠ [] ∨ lastLine u = []) →
    spanLines (u ++ (m ++ v)) (blen (u ++ m)) fuel (blen u) = textLines (lastLine u ++ (m ++ firstLine v))
  | 0, _, _, _, h, _ => absurd h (Nat.not_lt_zero _)
  | fuel + 1, u, m, v, hf, hne => by
    unfold spanLines
    rw [if_neg (by rw [blen_append]; omega), if_pos (isBoundary_append _ _)]
    by_cases hz : m ++ v = []
    · simp only [List.append_eq_nil_iff] at hz
      obtain ⟨rfl, rfl⟩ := hz
      have : lastLine u = [] := by simpa using hne
      simp [this, firstLine, textLines]
    · have hb := blen_pos_of_ne hz
      rw [if_neg (by rw [blen_append]; omega), lineOf_eq, findLineEnd_eq]
      have hnl : '\n' ∉ lastLine u := by obtain ⟨_, _, _, h⟩ := lastLine_parts u; exact h
      by_cases hm : '\n' ∈ m
      · have hm0 : m ≠ [] := by rintro rfl; simp at hm
        rw [firstLine_append_of_mem v hm]
        have hlast : lastLine (u ++ firstLine m) = [] := by
          rcases firstLine_form m with ⟨b, hb, e⟩ | ⟨hb, e⟩
          · rw [e, lastLine_of_break]
          · exact absurd hm hb
        have hlen : (afterLine m ++ v).length < fuel := by
          have h1 := congrArg List.length (firstLine_after m)
          have h2 := List.length_pos_iff.2 (firstLine_ne_nil hm0)
          simp only [List.length_append] at h1 hf ⊢
          omega
        have ih := spanLines_eq fuel (u ++ firstLine m) (afterLine m) v hlen (.inr hlast)
        have e1 : u ++ firstLine m ++ (afterLine m ++ v) = u ++ (m ++ v) := by
          rw [← List.append_assoc, List.append_assoc u, firstLine_after, List.append_assoc]
        have e2 : u ++ firstLine m ++ afterLine m = u ++ m := by rw [List.append_assoc, firstLine_after]
        rw [e1, e2, hlast, List.nil_append] at ih
        rw [ih, textLines_first (v := lastLine u ++ (m ++ firstLine v)) (by simp [hm0]),
          firstLine_append_of_not_mem _ hnl, firstLine_append_of_mem _ hm, afterLine_append_of_not_mem _ hnl,
          afterLine_append_of_mem _ hm]
      · rw [firstLine_append_of_not_mem v hm]
        have hne2 : lastLine u ++ (m ++ firstLine v) ≠ [] := by
          intro h0
          simp only [List.append_eq_nil_iff] at h0
          have : v = [] := by
            by_cases hv : v = []
            · exact hv
            · exact absurd h0.2.2 (firstLine_ne_nil hv)
          exact hz (by simp [h0.2.1, this])
        rw [textLines_first hne2, firstLine_append_of_not_mem _ hnl, firstLine_append_of_not_mem _ hm,
          afterLine_append_of_not_mem _ hnl, afterLine_append_of_not_mem _ hm, afterLine_firstLine, firstLine_idem]
        congr 1
        by_cases hv : v = []
        · subst hv
          cases fuel with
          | zero => rfl
          | succ f =>
            unfold spanLines
            simp [firstLine, textLines]
        · have h2 := blen_pos_of_ne (firstLine_ne_nil hv)
          cases fuel with
          | zero => rfl
          | succ f =>
            unfold spanLines
            rw [if_pos (by simp only [blen_append]; omega)]
            rfl

end Dbml
