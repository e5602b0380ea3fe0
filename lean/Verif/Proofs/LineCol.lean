import Verif.Model.LineCol
import Verif.Proofs.Slices

/-!
# `lineColLoop` counts lines and characters
-/

namespace Dbml

/-- The characters after the last line break. -/
def lastLine : Str → Str
  | [] => []
  | c :: cs => if '\n' ∈ cs then lastLine cs else if c = '\n' then cs else c :: cs

theorem lastLine_cons (c : Char) (u : Str) :
    lastLine (c :: u) = if '\n' ∈ u then lastLine u else if c = '\n' then u else c :: u := rfl

theorem lastLine_of_not_mem : ∀ {u : Str}, '\n' ∉ u → lastLine u = u
  | [], _ => rfl
  | c :: u, h => by
    simp at h
    unfold lastLine
    rw [if_neg h.2, if_neg (fun e => h.1 e.symm)]

theorem utf8Size_pos (c : Char) : 0 < c.utf8Size := by
  unfold Char.utf8Size
  simp only
  split
  · decide
  · split
    · decide
    · split <;> decide

/-- One character that is not a carriage return in front of a line feed. -/
theorem lineColLoop_step {x : Char} {u : Str} {n : Nat} {lc : Nat × Nat} (h : ¬ (x = '\r' ∧ u.head? = some '\n')) :
    lineColLoop (x.utf8Size + n) (x :: u) lc =
      lineColLoop n u (if x = '\n' then (lc.1 + 1, 1) else (lc.1, lc.2 + 1)) := by
  obtain ⟨m, hm⟩ : ∃ m, x.utf8Size + n = m + 1 := ⟨x.utf8Size + n - 1, by have := utf8Size_pos x; omega⟩
  rw [hm]
  by_cases hx : x = '\n'
  · subst hx
    rw [if_pos rfl, lineColLoop]
    have : ('\n' : Char).utf8Size = 1 := by decide
    congr 1
    omega
  · rw [if_neg hx]
    unfold lineColLoop
    split
    · omega
    · rename_i h1; cases h1
    · rename_i h1 h2; cases h2; exact absurd ⟨rfl, rfl⟩ h
    · rename_i h1 h2; cases h2; exact absurd rfl hx
    · rename_i p c cs h1 h2 h3 h4
      cases h4
      cases h3
      rw [← hm, Nat.add_sub_cancel_left]
      conv => lhs; unfold lineColLoop

theorem lineColLoop_eq : ∀ (u : Str) (l c : Nat), lineColLoop (blen u) u (l, c) =
    some (l + u.count '\n', if '\n' ∈ u then 1 + (lastLine u).length else c + u.length)
  | [], l, c => by simp [lineColLoop, blen]
  | [x], l, c => by
    rw [blen, lineColLoop_step (by simp), lineColLoop_eq []]
    by_cases hx : x = '\n'
    · subst hx; simp [lastLine]
    · simp [hx, Ne.symm hx, List.count_cons]
  | x :: y :: u, l, c => by
    by_cases h : x = '\r' ∧ (y :: u).head? = some '\n'
    · obtain ⟨rfl, h2⟩ := h
      have h2 : y = '\n' := by simpa using h2
      subst h2
      have e : blen ('\r' :: '\n' :: u) = (1 + blen u) + 1 := by
        simp only [blen, show ('\r' : Char).utf8Size = 1 by decide, show ('\n' : Char).utf8Size = 1 by decide]
        omega
      rw [e, lineColLoop, if_neg (by omega), show 1 + blen u + 1 - 2 = blen u by omega, lineColLoop_eq u]
      by_cases hm : '\n' ∈ u
      · simp [hm, lastLine, List.count_cons]; omega
      · simp [hm, lastLine, List.count_cons]; omega
    · rw [blen, lineColLoop_step h]
      by_cases hx : x = '\n'
      · subst hx
        rw [if_pos rfl, lineColLoop_eq (y :: u)]
        by_cases hm : '\n' ∈ y :: u
        · rw [if_pos hm, if_pos (by simp), lastLine_cons '\n', if_pos hm, List.count_cons_self]
          congr 2; dsimp only; omega
        · rw [if_neg hm, if_pos (by simp), lastLine_cons '\n', if_neg hm, if_pos rfl, List.count_cons_self]
          congr 2; dsimp only; omega
      · rw [if_neg hx, lineColLoop_eq (y :: u)]
        by_cases hm : '\n' ∈ y :: u
        · rw [if_pos hm, if_pos (List.mem_cons_of_mem _ hm), lastLine_cons x, if_pos hm,
            List.count_cons_of_ne hx]
        · rw [if_neg hm, if_neg (by simp only [List.mem_cons, not_or]; exact ⟨Ne.symm hx, by simpa using hm⟩),
            List.count_cons_of_ne hx]
          congr 2; simp only [List.length_cons]; omega

theorem lineCol_append (u v : Str) : lineCol (u ++ v) (blen u) =
    some (1 + u.count '\n', 1 + (lastLine u).length) := by
  unfold lineCol
  rw [if_pos (isBoundary_append u v), takeBytes_append, lineColLoop_eq]
  by_cases h : '\n' ∈ u
  · rw [if_pos h]
  · rw [if_neg h, lastLine_of_not_mem h]

theorem boundary_split : ∀ {t : Str} {n : Nat}, isBoundary t n = true → ∃ u v, t = u ++ v ∧ n = blen u
  | t, 0, _ => ⟨[], t, rfl, rfl⟩
  | [], n + 1, h => by simp [isBoundary] at h
  | c :: t, n + 1, h => by
    unfold isBoundary at h
    split at h
    · obtain ⟨u, v, e, hn⟩ := boundary_split h
      exact ⟨c :: u, v, by simp [e], by simp only [blen]; omega⟩
    · cases h

theorem lastLine_append_of_not_mem : ∀ (u : Str) {w : Str}, '\n' ∉ w → lastLine (u ++ w) = lastLine u ++ w
  | [], w, h => by simp [lastLine, lastLine_of_not_mem h]
  | c :: u, w, h => by
    rw [List.cons_append]
    unfold lastLine
    by_cases hu : '\n' ∈ u
    · rw [if_pos hu, if_pos (by simp [hu]), lastLine_append_of_not_mem u h]
    · rw [if_neg hu, if_neg (by simp [hu, h])]
      split <;> rfl

theorem lastLine_append_of_mem : ∀ (u : Str) {w : Str}, '\n' ∈ w → lastLine (u ++ w) = lastLine w
  | [], w, h => rfl
  | c :: u, w, h => by
    rw [List.cons_append]
    unfold lastLine
    rw [if_pos (by simp [h]), lastLine_append_of_mem u h]
    cases w with
    | nil => simp at h
    | cons a w => rw [lastLine]

end Dbml
