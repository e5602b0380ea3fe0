import Verif.Proofs.Nodes

/-!
# Slices
-/

namespace Dbml
open Syntax Spec

theorem utf8Size_pos' (c : Char) : 0 < c.utf8Size := Char.utf8Size_pos c

theorem isBoundary_append (pre post : Str) : isBoundary (pre ++ post) (blen pre) = true := by
  induction pre with
  | nil => cases post <;> rfl
  | cons c cs ih =>
    have := utf8Size_pos' c
    obtain ⟨k, hk⟩ : ∃ k, blen (c :: cs) = k + 1 := ⟨blen (c :: cs) - 1, by simp only [blen]; omega⟩
    rw [hk, List.cons_append, isBoundary]
    have h1 : c.utf8Size ≤ k + 1 := by rw [← hk]; simp [blen]
    have h2 : k + 1 - c.utf8Size = blen cs := by rw [← hk]; simp [blen]
    rw [if_pos h1, h2, ih]

theorem dropBytes_append (pre post : Str) : dropBytes (pre ++ post) (blen pre) = post := by
  induction pre with
  | nil => cases post <;> rfl
  | cons c cs ih =>
    have := utf8Size_pos' c
    obtain ⟨k, hk⟩ : ∃ k, blen (c :: cs) = k + 1 := ⟨blen (c :: cs) - 1, by simp only [blen]; omega⟩
    rw [hk, List.cons_append, dropBytes]
    have h1 : c.utf8Size ≤ k + 1 := by rw [← hk]; simp [blen]
    have h2 : k + 1 - c.utf8Size = blen cs := by rw [← hk]; simp [blen]
    rw [if_pos h1, h2, ih]

theorem takeBytes_append (pre post : Str) : takeBytes (pre ++ post) (blen pre) = pre := by
  induction pre with
  | nil => cases post <;> rfl
  | cons c cs ih =>
    have := utf8Size_pos' c
    obtain ⟨k, hk⟩ : ∃ k, blen (c :: cs) = k + 1 := ⟨blen (c :: cs) - 1, by simp only [blen]; omega⟩
    rw [hk, List.cons_append, takeBytes]
    have h1 : c.utf8Size ≤ k + 1 := by rw [← hk]; simp [blen]
    have h2 : k + 1 - c.utf8Size = blen cs := by rw [← hk]; simp [blen]
    rw [if_pos h1, h2, ih]

theorem Spec.IsSlice.eq {input span txt} (h : IsSlice input span txt) : slice input span = txt := by
  obtain ⟨pre, post, rfl, h1, h2⟩ := h
  rw [slice, h1, h2, dropBytes_append, Nat.add_sub_cancel_left, takeBytes_append]

theorem Spec.IsSlice.valid {input span txt} (h : IsSlice input span txt) : span.valid input = true := by
  obtain ⟨pre, post, rfl, h1, h2⟩ := h
  have a := isBoundary_append pre (txt ++ post)
  have b := isBoundary_append (pre ++ txt) post
  rw [List.append_assoc, blen_append] at b
  simp [Span.valid, h1, h2, a, b]

theorem Spec.IsSlice.bounds {input span txt} (h : IsSlice input span txt) :
    span.start ≤ span.stop ∧ span.stop ≤ blen input := by
  obtain ⟨pre, post, rfl, h1, h2⟩ := h
  simp only [blen_append]; omega

theorem Sub.slice {input q} (h : Sub q ⟨0, input⟩) : IsSlice input q.span q.txt := by
  obtain ⟨pre, post, h1, h2⟩ := h
  simp only at h1
  refine ⟨pre, post, h1, ?_, ?_⟩ <;> simp_all [Piece.span]

theorem OkT.isSlice {input n} (h : OkT input n) : ∃ txt, IsSlice input n.span txt ∧ ∀ r, n.raw = some r → r = txt := by
  cases h with
  | mk h1 h2 => exact ⟨_, h1, h2⟩

theorem quoted_single {g c p v} (h : QuotedD g [c] p v) : c ∉ v := by
  obtain ⟨t, -, -, h, -⟩ := h
  intro hc
  obtain ⟨i, hi, rfl⟩ := List.getElem_of_mem hc
  refine h i hi ⟨v.drop (i + 1) ++ [v[i]], ?_⟩
  rw [List.drop_append_of_le_length (by omega), List.drop_eq_getElem_cons hi]
  rfl

end Dbml
