import Verif.Proofs.Walkers1

/-!
# What folding over attribute lists computes
-/

namespace Dbml
open Syntax

section
variable {σ α β : Type} {f : σ → α → σ}

theorem foldl_const {proj : σ → β} (h : ∀ s x, proj (f s x) = proj s) (xs : List α) (s : σ) :
    proj (xs.foldl f s) = proj s := by
  induction xs generalizing s with
  | nil => rfl
  | cons x xs ih => simp [ih, h]

theorem foldl_append' {proj : σ → List β} {sel : α → Option β}
    (h : ∀ s x, proj (f s x) = proj s ++ (sel x).toList) (xs : List α) (s : σ) :
    proj (xs.foldl f s) = proj s ++ xs.filterMap sel := by
  induction xs generalizing s with
  | nil => simp
  | cons x xs ih =>
    simp only [List.foldl_cons, ih, h, List.filterMap_cons]
    cases sel x <;> simp

theorem foldl_any {proj : σ → Bool} {test : α → Bool}
    (h : ∀ s x, proj (f s x) = (proj s || test x)) (xs : List α) (s : σ) :
    proj (xs.foldl f s) = (proj s || xs.any test) := by
  induction xs generalizing s with
  | nil => simp
  | cons x xs ih => simp [ih, h, Bool.or_assoc]

theorem foldl_last {proj : σ → β} {sel : α → Option β}
    (h : ∀ s x, proj (f s x) = (sel x).getD (proj s)) (xs : List α) (s : σ) :
    proj (xs.foldl f s) = (xs.filterMap sel).getLast?.getD (proj s) := by
  induction xs generalizing s with
  | nil => simp
  | cons x xs ih =>
    simp only [List.foldl_cons, ih, h, List.filterMap_cons]
    cases sel x <;> simp [List.getLast?_cons]

end

theorem layout_mono {C : ∀ {α : Type}, (Piece → α → Prop) → Piece → List α → Prop} (hC : Layout C)
    {α : Type} {D D' : Piece → α → Prop} (h : ∀ m x, D m x → D' m x) {p xs} (hx : C D p xs) :
    C D' p xs := by
  obtain ⟨ms, h1, h2, h3⟩ := hC hx
  exact h3 _ _ (h2.mono fun m x _ => h m x)

theorem layout_all {C : ∀ {α : Type}, (Piece → α → Prop) → Piece → List α → Prop} (hC : Layout C)
    {α : Type} {D : Piece → α → Prop} {P : α → Prop} (h : ∀ m x, D m x → P x) {p xs} (hx : C D p xs) :
    ∀ x ∈ xs, P x := by
  obtain ⟨ms, h1, h2, h3⟩ := hC hx
  clear h1 h3 hx
  induction h2 with
  | nil => simp
  | cons hd _ ih => simp only [List.mem_cons, forall_eq_or_imp]; exact ⟨h _ _ hd, ih⟩

theorem last_valuesOf {β : Type} {k : Str} {h : Option Literal → Option β} (h0 : h none = none)
    (xs : List Attribute) :
    (xs.filterMap fun a => if a.key.to_string = k then some (h a.value) else none).getLast?.getD none =
      h (lastValue k xs) := by
  have : (xs.filterMap fun a => if a.key.to_string = k then some (h a.value) else none) =
      (valuesOf k xs).map h := by
    unfold valuesOf
    induction xs with
    | nil => rfl
    | cons x xs ih =>
      by_cases hx : x.key.to_string = k
      · simp [hx, ih]
      · simp [hx, ih]
  rw [this, lastValue, List.getLast?_map]
  cases (valuesOf k xs).getLast? <;> simp [h0]

theorem lastValue_mem {k xs l} (h : lastValue k xs = some l) :
    ∃ a ∈ xs, a.key.to_string = k ∧ a.value = some l := by
  unfold lastValue at h
  cases hg : (valuesOf k xs).getLast? with
  | none => simp [hg] at h
  | some o =>
    simp [hg] at h
    subst h
    have := List.mem_of_getLast? hg
    simp [valuesOf] at this
    obtain ⟨a, h1, h2⟩ := this
    exact ⟨a, h1.1, h1.2, h2⟩

theorem any_key {k : Str} {xs : List Attribute} :
    (xs.any fun a => decide (a.key.to_string = k)) = true ↔ HasKey k xs := by
  simp [HasKey]

end Dbml
