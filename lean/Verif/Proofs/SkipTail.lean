import Verif.Proofs.Shift

/-!
# Skipping, with white space appended to the text
-/

namespace Dbml
open Syntax Source

/-- White space only. -/
def White (w : Str) : Prop := ∀ c ∈ w, IsSpace c

theorem White.tail {a b : Str} (h : White (a ++ b)) : White b := fun c hc => h c (by simp [hc])
theorem White.head {a b : Str} (h : White (a ++ b)) : White a := fun c hc => h c (by simp [hc])
theorem white_nil : White [] := by simp [White]

theorem Skips.stuck {s} (h : NoWs s) (h' : ∀ pos, run NoSkip G.COMMENT .atomic pos s = .fail) : Skips s [] s :=
  ⟨[], s, [], rfl, rfl, by simp, h, fun pos => star_nil (seq_fail_left (h' pos))⟩

theorem skips_white {w : Str} (h : White w) : Skips w w [] := by
  induction w with
  | nil => exact .nil solid_nil
  | cons c w ih => exact .space (h c (by simp)) (ih fun x hx => h x (by simp [hx]))

/-- The first place where `*/` stands. -/
theorem first_close : ∀ (t : Str), k!"*/" <:+: t → ∃ body r, t = body ++ (k!"*/" ++ r) ∧ ¬ k!"*/" <:+: body
  | [], h => absurd h (by decide)
  | c :: t, h => by
    by_cases hp : k!"*/" <+: c :: t
    · obtain ⟨r, hr⟩ := hp
      exact ⟨[], r, by rw [← hr]; rfl, by decide⟩
    · have ht : k!"*/" <:+: t := by
        obtain ⟨a, b, hab⟩ := h
        cases a with
        | nil => exact absurd ⟨b, by simpa using hab⟩ hp
        | cons x a => simp at hab; exact ⟨a, b, by simpa using hab.2⟩
      obtain ⟨body, r, rfl, hb⟩ := first_close t ht
      refine ⟨c :: body, r, rfl, ?_⟩
      rintro ⟨a, b, hab⟩
      cases a with
      | nil =>
        exact hp ⟨b ++ (k!"*/" ++ r), by simpa using congrArg (· ++ (k!"*/" ++ r)) hab⟩
      | cons x a => simp at hab; exact hb ⟨a, b, by simpa using hab.2⟩

/-- An unclosed block comment is not a comment. -/
theorem comment_unclosed {t : Str} (h : ¬ k!"*/" <:+: t) (pos : Nat) :
    run NoSkip G.COMMENT .atomic pos (k!"/*" ++ t) = .fail := by
  cases hr : run NoSkip G.COMMENT .atomic pos (k!"/*" ++ t) with
  | fail => rfl
  | diverge => exact absurd hr (run_total noSkip_sound (fun i => by simp) G.COMMENT (by decide) _ _ _)
  | ok c r ps =>
    exfalso
    obtain ⟨e, hm⟩ := run_sound noSkip_sound _ _ _ _ _ _ _ hr
    rcases hm with h2 | ⟨-, h2⟩
    · simp only [G.single_line_comment] at h2
      rw [seq_atomic atomic_ne] at h2
      obtain ⟨c1, c2, p1, p2, rfl, rfl, ⟨rfl, rfl⟩, -⟩ := h2
      simp at e
    · simp only [G.multi_line_comment] at h2
      rw [seq_atomic atomic_ne] at h2
      obtain ⟨c1, c2, p1, p2, rfl, rfl, ⟨rfl, rfl⟩, h2⟩ := h2
      rw [seq_atomic atomic_ne] at h2
      obtain ⟨c3, c4, p3, p4, rfl, rfl, h3, ⟨rfl, rfl⟩⟩ := h2
      simp only [List.append_assoc, List.append_cancel_left_eq] at e
      exact h ⟨c3, r, by rw [e]; simp⟩

/-- How a text can begin. -/
inductive Begin : Str → Prop
  | nil : Begin []
  | space {c s} : IsSpace c → Begin (c :: s)
  | line {body r} : (∀ x ∈ body, x ≠ '\n' ∧ x ≠ '\r') → (r = [] ∨ ∃ c t, r = c :: t ∧ (c = '\n' ∨ c = '\r')) →
      Begin (k!"//" ++ (body ++ r))
  | block {body r} : ¬ k!"*/" <:+: body → Begin (k!"/*" ++ (body ++ (k!"*/" ++ r)))
  | unclosed {t} : ¬ k!"*/" <:+: t → Begin (k!"/*" ++ t)
  | solid {s} : Solid s → s ≠ [] → Begin s

theorem split_line : ∀ (s : Str), ∃ body r, s = body ++ r ∧ (∀ x ∈ body, x ≠ '\n' ∧ x ≠ '\r') ∧
    (r = [] ∨ ∃ c t, r = c :: t ∧ (c = '\n' ∨ c = '\r'))
  | [] => ⟨[], [], rfl, by simp, .inl rfl⟩
  | c :: s => by
    by_cases hc : c = '\n' ∨ c = '\r'
    · exact ⟨[], c :: s, rfl, by simp, .inr ⟨c, s, rfl, hc⟩⟩
    · obtain ⟨body, r, rfl, hb, hr⟩ := split_line s
      refine ⟨c :: body, r, rfl, ?_, hr⟩
      intro x hx
      rcases List.mem_cons.1 hx with rfl | hx
      · exact ⟨fun h => hc (.inl h), fun h => hc (.inr h)⟩
      · exact hb x hx

theorem begins (s : Str) : Begin s := by
  cases s with
  | nil => exact .nil
  | cons c s =>
    by_cases hc : IsSpace c
    · exact .space hc
    by_cases h1 : k!"//" <+: c :: s
    · obtain ⟨t, ht⟩ := h1
      rw [← ht]
      obtain ⟨body, r, rfl, hb, hr⟩ := split_line t
      exact .line hb hr
    by_cases h2 : k!"/*" <+: c :: s
    · obtain ⟨t, ht⟩ := h2
      rw [← ht]
      by_cases hi : k!"*/" <:+: t
      · obtain ⟨body, r, rfl, hb⟩ := first_close t hi
        exact .block hb
      · exact .unclosed hi
    refine .solid ?_ (by simp)
    rintro (⟨d, t, h, hd⟩ | h | h)
    · injection h with h _; exact hc (h ▸ hd)
    · exact h1 h
    · exact h2 h.1

/-- White space cannot complete a word that ends in something else. -/
theorem prefix_white {k s w : Str} (hk : ∀ c ∈ k.getLast?, ¬ IsSpace c) (hw : White w) (h : k <+: s ++ w) : k <+: s := by
  obtain ⟨t, ht⟩ := h
  rcases List.append_eq_append_iff.1 ht with ⟨a, h1, -⟩ | ⟨l, rfl, rfl⟩
  · exact ⟨a, h1.symm⟩
  · rcases List.eq_nil_or_concat l with rfl | ⟨l', x, rfl⟩
    · simp
    · exfalso
      exact hk x (by simp) (hw x (by simp))

theorem infix_white {s w : Str} (hw : White w) (h : k!"*/" <:+: s ++ w) : k!"*/" <:+: s := by
  obtain ⟨a, b, hab⟩ := h
  induction s generalizing a with
  | nil =>
    exfalso
    have : '*' ∈ w := by rw [List.nil_append] at hab; rw [← hab]; simp
    exact absurd (hw _ this) (by decide)
  | cons x s ih =>
    cases a with
    | nil =>
      have : k!"*/" <+: (x :: s) ++ w := ⟨b, by simpa using hab⟩
      exact (prefix_white (by decide) hw this).isInfix
    | cons y a =>
      simp at hab
      have := ih a (by simpa using hab.2)
      exact List.IsInfix.trans this (List.suffix_cons x s).isInfix

theorem solid_append_w {s w : Str} (hs : Solid s) (hne : s ≠ []) (hw : White w) : Solid (s ++ w) := by
  rintro (⟨c, cs, h, hc⟩ | h | h)
  · cases s with
    | nil => exact hne rfl
    | cons x s => injection h with h _; exact hs (.inl ⟨x, s, rfl, h ▸ hc⟩)
  · exact hs (.inr (.inl (prefix_white (by decide) hw h)))
  · obtain ⟨t, rfl⟩ := prefix_white (by decide) hw h.1
    refine hs (.inr (.inr ⟨⟨t, rfl⟩, ?_⟩))
    have h2 : k!"*/" <:+: t ++ w := h.2
    exact infix_white hw h2

/-- What the skipper does does not depend on white space further to the right, except that it goes on through it
when it reaches the end. -/
theorem skips_tail {w : Str} (hw : White w) : ∀ (s : Str), ∃ c r, Skips s c r ∧
    ((r ≠ [] ∧ Skips (s ++ w) c (r ++ w)) ∨ (r = [] ∧ Skips (s ++ w) (c ++ w) [])) := by
  intro s
  generalize hn : s.length = n
  induction n using Nat.strongRecOn generalizing s with
  | _ n ih =>
    cases begins s with
    | nil => exact ⟨[], [], .nil solid_nil, .inr ⟨rfl, skips_white hw⟩⟩
    | @space c s hc =>
      obtain ⟨c', r, h1, h2⟩ := ih s.length (by simp at hn; omega) s rfl
      refine ⟨c :: c', r, .space hc h1, ?_⟩
      rcases h2 with ⟨h2, h3⟩ | ⟨h2, h3⟩
      · exact .inl ⟨h2, .space hc h3⟩
      · exact .inr ⟨h2, .space hc h3⟩
    | @line body r hb hr =>
      rcases hr with rfl | hr
      · refine ⟨k!"//" ++ body, [], ?_, .inr ⟨rfl, ?_⟩⟩
        · have := Skips.comment (k := k!"//" ++ body) (s := []) (by simp) slash_noWs
            (fun pos => by simpa using line_run (r := []) hb (.inl rfl) pos) (.nil solid_nil)
          simpa using this
        · obtain ⟨b2, r2, rfl, hb2, hr2⟩ := split_line w
          have := Skips.comment (k := k!"//" ++ (body ++ b2)) (s := r2) (by simp) slash_noWs
            (fun pos => by
              have := line_run (body := body ++ b2) (r := r2) (by
                intro x hx
                rcases List.mem_append.1 hx with hx | hx
                · exact hb x hx
                · exact hb2 x hx) hr2 pos
              simpa using this) (skips_white hw.tail)
          simpa using this
      · have hr0 := hr
        obtain ⟨c, t, rfl, hc⟩ := hr
        obtain ⟨c', r', h1, h2⟩ := ih (c :: t).length (by simp at hn ⊢; omega) _ rfl
        refine ⟨k!"//" ++ body ++ c', r', ?_, ?_⟩
        · have := Skips.comment (k := k!"//" ++ body) (s := c :: t) (by simp) slash_noWs
            (fun pos => by simpa using line_run (r := c :: t) hb (.inr hr0) pos) h1
          simpa using this
        · have key : ∀ x y, Skips (c :: t ++ w) x y → Skips (k!"//" ++ (body ++ c :: t) ++ w) (k!"//" ++ body ++ x) y := by
            intro x y h
            have := Skips.comment (k := k!"//" ++ body) (s := c :: t ++ w) (by simp) slash_noWs
              (fun pos => by simpa using line_run (r := c :: (t ++ w)) hb (.inr ⟨c, _, rfl, hc⟩) pos) h
            simpa using this
          rcases h2 with ⟨h2, h3⟩ | ⟨h2, h3⟩
          · exact .inl ⟨h2, key _ _ h3⟩
          · exact .inr ⟨h2, by simpa using key _ _ h3⟩
    | @block body t hb =>
      obtain ⟨c', r', h1, h2⟩ := ih t.length (by simp at hn; omega) t rfl
      have key : ∀ t x y, Skips t x y → Skips (k!"/*" ++ (body ++ (k!"*/" ++ t))) (k!"/*" ++ (body ++ (k!"*/" ++ x))) y := by
        intro t x y h
        have := Skips.comment (k := k!"/*" ++ (body ++ k!"*/")) (s := t) (by simp) slash_noWs
          (fun pos => by simpa using block_run (r := t) hb pos) h
        simpa using this
      refine ⟨_, r', key _ _ _ h1, ?_⟩
      rcases h2 with ⟨h2, h3⟩ | ⟨h2, h3⟩
      · exact .inl ⟨h2, by simpa using key _ _ _ h3⟩
      · exact .inr ⟨h2, by simpa using key _ _ _ h3⟩
    | @unclosed t ht =>
      refine ⟨[], k!"/*" ++ t, .stuck slash_noWs (comment_unclosed ht), .inl ⟨by simp, ?_⟩⟩
      have : Skips (k!"/*" ++ (t ++ w)) [] (k!"/*" ++ (t ++ w)) :=
        .stuck slash_noWs (comment_unclosed fun h => ht (infix_white hw h))
      simpa using this
    | solid hs hne => exact ⟨[], s, .nil hs, .inl ⟨hne, .nil (solid_append_w hs hne hw)⟩⟩

/-- The same for the skipper itself. -/
theorem skip_tail {w : Str} (hw : White w) (s : Str) : ∃ c r, G.skip s = .ok c r [] ∧
    ((r ≠ [] ∧ G.skip (s ++ w) = .ok c (r ++ w) []) ∨ (r = [] ∧ G.skip (s ++ w) = .ok (c ++ w) [] [])) := by
  obtain ⟨c, r, h1, h2⟩ := skips_tail hw s
  exact ⟨c, r, h1.skip, h2.imp (fun h => ⟨h.1, h.2.skip⟩) fun h => ⟨h.1, h.2.skip⟩⟩

end Dbml
