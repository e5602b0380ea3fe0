import Verif.Proofs.Loop

/-!
# What implicit skipping consumes, exactly

Every text is trivia followed by something solid, in exactly one way; skipping consumes that trivia.
-/

namespace Dbml
open Syntax Source

theorem blank_append {a b : Str} (ha : Blank a) (hb : Blank b) : Blank (a ++ b) := by
  induction ha with
  | nil => exact hb
  | space h _ ih => exact .space h ih
  | line h h' _ ih => simpa using Blank.line h h' ih
  | block h _ ih => simpa using Blank.block h ih

theorem blank_end_append {a b : Str} (ha : Blank a) (hb : BlankEnd b) : BlankEnd (a ++ b) := by
  rcases hb with hb | ⟨w, body, rfl, hw, hb⟩
  · exact .inl (blank_append ha hb)
  · exact .inr ⟨a ++ w, body, by simp, blank_append ha hw, hb⟩

/-- The first `*/`. -/
theorem first_end : ∀ {s : Str}, k!"*/" <:+: s → ∃ body t, s = body ++ (k!"*/" ++ t) ∧ ¬ k!"*/" <:+: body
  | [], h => by simp at h
  | c :: s, h => by
    by_cases hp : k!"*/" <+: c :: s
    · obtain ⟨t, ht⟩ := hp
      exact ⟨[], t, ht.symm, by simp⟩
    · obtain ⟨body, t, rfl, hb⟩ := first_end ((List.infix_cons_iff.1 h).resolve_left hp)
      refine ⟨c :: body, t, rfl, ?_⟩
      intro hi
      rcases List.infix_cons_iff.1 hi with h1 | h1
      · exact hp (h1.trans ⟨k!"*/" ++ t, rfl⟩)
      · exact hb h1

/-- Every text is trivia followed by something solid. -/
theorem blank_split (s : Str) :
    (∃ w r, s = w ++ r ∧ Blank w ∧ Solid r) ∨ BlankEnd s := by
  generalize hn : s.length = n
  induction n using Nat.strongRecOn generalizing s with
  | _ n ih =>
    have step : ∀ a t, s = a ++ t → a ≠ [] → Blank a → (∃ w r, s = w ++ r ∧ Blank w ∧ Solid r) ∨ BlankEnd s := by
      rintro a t rfl ha hb
      rcases ih t.length (by
        have : 0 < a.length := List.length_pos_iff.2 ha
        simp at hn; omega) t rfl with ⟨w, r, rfl, hw, hr⟩ | h
      · exact .inl ⟨a ++ w, r, by simp, blank_append hb hw, hr⟩
      · exact .inr (blank_end_append hb h)
    by_cases hs : StartsBlank s
    · rcases hs with ⟨c, cs, rfl, hc⟩ | ⟨t, rfl⟩ | ⟨⟨t, rfl⟩, h2⟩
      · exact step [c] cs rfl (by simp) (.space hc .nil)
      · generalize hb : t.takeWhile (fun c => decide (c ≠ '\n' ∧ c ≠ '\r')) = body
        have hbody : ∀ x ∈ body, x ≠ '\n' ∧ x ≠ '\r' := by
          intro c hc
          have := List.all_takeWhile (p := fun c => decide (c ≠ '\n' ∧ c ≠ '\r')) (l := t)
          rw [List.all_eq_true, hb] at this
          simpa using this c hc
        have ht : t = body ++ t.dropWhile (fun c => decide (c ≠ '\n' ∧ c ≠ '\r')) := by rw [← hb]; simp
        cases hd : t.dropWhile (fun c => decide (c ≠ '\n' ∧ c ≠ '\r')) with
        | nil => exact .inr (.inr ⟨[], body, by rw [ht, hd]; simp, .nil, hbody⟩)
        | cons nl u =>
          have hnl : nl = '\n' ∨ nl = '\r' := by
            have := List.head?_dropWhile_not (fun c => decide (c ≠ '\n' ∧ c ≠ '\r')) t
            rw [hd] at this
            by_cases h : nl = '\n'
            · exact .inl h
            · exact .inr (by simpa [h] using this)
          refine step (k!"//" ++ (body ++ [nl])) u (by rw [ht, hd]; simp) (by simp) ?_
          exact .line hbody hnl .nil
      · obtain ⟨body, u, hu, hb⟩ := first_end h2
        have hu' : t = body ++ (k!"*/" ++ u) := hu
        refine step (k!"/*" ++ (body ++ k!"*/")) u (by rw [hu']; simp) (by simp) ?_
        have := Blank.block hb .nil
        simpa using this
    · exact .inl ⟨[], s, rfl, .nil, hs⟩

/-- Trivia before `rest`: complete, except that a last line comment may end with the text. -/
def Gap1 (w rest : Str) : Prop := (Blank w ∧ Solid rest) ∨ (rest = [] ∧ BlankEnd w)

theorem Gap1.solid {w r} (h : Gap1 w r) : Solid r := by
  rcases h with h | ⟨rfl, -⟩
  · exact h.2
  · exact solid_nil

/-- If something follows, then the trivia is complete. -/
theorem Gap1.blank {w r} (h : Gap1 w r) (hr : r ≠ []) : Blank w := by
  rcases h with h | ⟨rfl, -⟩
  · exact h.1
  · exact absurd rfl hr

theorem Gap1.blankEnd {w r} (h : Gap1 w r) : BlankEnd w := h.elim (fun h => .inl h.1) (·.2)

theorem skip_split (s : Str) : ∃ w r, G.skip s = .ok w r [] ∧ s = w ++ r ∧ Gap1 w r := by
  rcases blank_split s with ⟨w, r, rfl, hw, hr⟩ | h
  · exact ⟨w, r, skip_blank hw hr, rfl, .inl ⟨hw, hr⟩⟩
  · exact ⟨s, [], skip_end h, by simp, .inr ⟨rfl, h⟩⟩

theorem skip_exact : SkipSound G.skip Gap1 := by
  intro inp c r ps h
  obtain ⟨w, r', h1, h2, h3⟩ := skip_split inp
  rw [h1] at h
  obtain ⟨rfl, rfl, rfl⟩ := Res.ok.inj h
  exact ⟨h2, h3⟩

theorem skip_of_solid {w r : Str} (hs : Solid r) : G.skip (w ++ r) = .ok w r [] ↔ Gap1 w r := by
  constructor
  · intro h; exact (skip_exact _ _ _ _ h).2
  · rintro (h | ⟨rfl, h⟩)
    · exact skip_blank h.1 h.2
    · simpa using skip_end h

/-- Is the text skipped completely, before a letter? -/
def blankB (w : Str) : Bool :=
  match G.skip (w ++ ['x']) with
  | .ok c r _ => decide (c = w ∧ r = ['x'])
  | _ => false

theorem blankB_iff (w : Str) : blankB w = true ↔ Blank w := by
  unfold blankB
  constructor
  · intro h
    split at h
    · rename_i hs
      obtain ⟨rfl, rfl⟩ := of_decide_eq_true h
      exact (skip_exact _ _ _ _ hs).2.blank (by simp)
    · contradiction
  · intro h
    rw [skip_blank h (solid_cons (by decide) (by decide))]
    simp

instance (w : Str) : Decidable (Blank w) := decidable_of_iff _ (blankB_iff w)

end Dbml
