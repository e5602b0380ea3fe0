import Verif.Proofs.Shift
import Verif.Proofs.RelabelWalk

/-!
# Shifted pairs are relabelled pairs
-/

namespace Dbml
open Syntax Source

variable {δ : Nat}

/-- Moving a span. -/
abbrev moved (δ : Nat) (s : Span) : Span := ⟨s.start + δ, s.stop + δ⟩

theorem F_moved (δ : Nat) : F (moved δ) = Span.shift δ := rfl

theorem Sh.text {p q} (h : Sh δ p q) : q.text = p.text := by cases h; rfl

theorem Sh.start {p q} (h : Sh δ p q) : q.span.start = p.span.start + δ := by cases h; rfl
theorem Sh.stop {p q} (h : Sh δ p q) : q.span.stop = p.span.stop + δ := by cases h; rfl

theorem ShL.last {ps qs} (h : ShL δ ps qs) (h1 : ps ≠ []) (h2 : qs ≠ []) : Sh δ (ps.getLast h1) (qs.getLast h2) := by
  induction ps generalizing qs with
  | nil => exact absurd rfl h1
  | cons p ps ih =>
    cases h with
    | cons ha hb =>
      cases hb with
      | nil => exact ha
      | cons hc hd => exact ih (.cons hc hd) (by simp) (by simp)

theorem Sh.innerStr {p q} (h : Sh δ p q) : innerStr q = innerStr p := by
  have h0 := h
  cases h with
  | @mk r sp t cs ds _ hl =>
    cases hl with
    | nil => rfl
    | cons h1 h2 =>
      cases h2 with
      | nil => exact h1.text
      | @cons p2 q2 ps2 qs2 h3 h4 =>
        have hl := (ShL.cons h1 (.cons h3 h4)).last (by simp) (by simp)
        simp only [Dbml.innerStr, Pair.children, Pair.text, hl.stop, h1.start]
        congr 2
        · exact Nat.add_sub_add_right _ _ _
        · exact Nat.add_sub_add_right _ _ _

mutual
theorem Sh.relabel : ∀ {p q}, Sh δ p q → E (moved δ) p q
  | _, _, .mk (r := r) (sp := sp) (t := t) (cs := cs) (ds := ds) h0 hl => by
    have e : (⟨sp.start + δ, sp.stop + δ⟩ : Span) = F (moved δ) sp := by
      have : sp ≠ .zero := by rintro rfl; exact absurd h0 (by decide)
      simp [F, moved, this]
    have hi := (Sh.mk (r := r) (t := t) h0 hl).innerStr
    rw [e] at hi ⊢
    exact .mk (fun _ => rfl) (fun _ => hi) (ShL.relabel hl)
theorem ShL.relabel : ∀ {ps qs}, ShL δ ps qs → EL (moved δ) ps qs
  | _, _, .nil => .nil
  | _, _, .cons h hl => .cons (Sh.relabel h) (ShL.relabel hl)
end

/-- Recognising a text with trivia in front of it. -/
theorem pest_prepend {w : Str} (hw : Blank w) (t : Str) :
    (pestParse t = .fail ∧ pestParse (w ++ t) = .fail) ∨
    ∃ ps qs e e' c c' r r', ShL (blen w) ps qs ∧
      pestParse t = .ok c r [.mk .schema ⟨0, blen t⟩ c (ps ++ [.mk .EOI e [] []])] ∧
      pestParse (w ++ t) = .ok c' r' [.mk .schema ⟨0, blen (w ++ t)⟩ c' (qs ++ [.mk .EOI e' [] []])] := by
  obtain ⟨c, r, h1, h2⟩ := skip_prepend hw t
  have key := run_sh skip_sound (blen w) (.star G.top_decl) (by decide) .nonAtomic (blen c) r (.inr top_solid)
  have hp : blen (w ++ c) = blen c + blen w := by rw [blen_append, Nat.add_comm]
  have hs := (skip_sound _ _ _ _ h1).1
  have hd := pest_total t
  have hsplit : ∀ c1 r1 ps, run G.skip (.star G.top_decl) .nonAtomic (blen c) r = .ok c1 r1 ps → r = c1 ++ r1 :=
    fun c1 r1 ps h => (run_sound skip_sound _ _ _ _ _ _ _ h).1
  simp only [pestParse, G.schema] at hd ⊢
  generalize PExpr.star G.top_decl = st at key hd hsplit ⊢
  simp only [run, bodyAtomicity, emits, seqRes, skipIf, h1, h2, if_true, blen, Nat.zero_add, hp,
    List.nil_append] at hd ⊢
  revert key hd hsplit
  generalize run G.skip st .nonAtomic (blen c) r = X
  generalize run G.skip st .nonAtomic (blen c + blen w) r = Y
  rintro (⟨hl⟩ | _ | _) hsplit hd
  · rename_i c1 r1 ps qs
    have hsk := (skips_total r1)
    obtain ⟨c2, r2, hk⟩ := hsk
    have hk1 := hk.skip
    have hk2 := (skip_sound _ _ _ _ hk1).1
    simp only [hk1]
    cases r2 with
    | cons x xs => left; simp
    | nil =>
      right
      have e1 := hsplit _ _ _ rfl
      have e2 : t = c ++ (c1 ++ c2) := by rw [hs, e1, hk2]; simp
      refine ⟨ps, qs, ⟨blen c + blen c1 + blen c2, blen c + blen c1 + blen c2⟩,
        ⟨blen c + blen w + blen c1 + blen c2, blen c + blen w + blen c1 + blen c2⟩, c ++ (c1 ++ c2),
        w ++ (c ++ (c1 ++ c2)), [], [], hl, ?_, ?_⟩
      · simp [e2]
      · simp [e2]
  · left; simp
  · exact absurd rfl hd

end Dbml
