import Verif.Proofs.Rename10
import Verif.Props.RoundTrip
import Mathlib.Data.List.Nodup

/-!
# Renaming: names stand apart
-/

namespace Dbml
open Syntax Source Spec

theorem long_word (ls : List LT) : ∃ w : Name, w.Ok ∧ ∀ l ∈ ls, l.txt ≠ w.text := by
  have : ∃ N, ∀ l ∈ ls, l.txt.length < N := by
    induction ls with
    | nil => exact ⟨0, by simp⟩
    | cons l ls ih =>
      obtain ⟨N, hN⟩ := ih
      refine ⟨max N (l.txt.length + 1), ?_⟩
      intro x hx
      rcases List.mem_cons.1 hx with rfl | hx
      · omega
      · have := hN x hx
        omega
  obtain ⟨N, hN⟩ := this
  refine ⟨.word ('a' :: List.replicate N 'a'), ⟨'a', List.replicate N 'a', rfl, by decide, ?_⟩, ?_⟩
  · intro c hc
    rw [List.eq_of_mem_replicate hc]
    decide
  · intro l hl e
    have := hN l hl
    rw [e] at this
    simp [Name.text] at this
    omega

/-- The spelling `w` at `p`, nothing elsewhere. -/
def spellOne (p : Nat) (w : Name) : Sp := fun q => if q = p then some w else none

theorem wrp_once {p : Nat} {w : Name} : ∀ {ls : List LT} {D : Prop} {pos s}, WrP D ls pos s → (∀ l ∈ ls, l.txt ≠ w.text) →
    ctk w.text (ls.map (LT.tok (spellOne p w))) ≤ if pos ≤ p then 1 else 0
  | [], _, _, _, _, _ => by simp
  | .keep t :: ls, D, pos, s, ⟨v, r, _, _, _, _, _, h⟩, hl => by
    have ih := wrp_once (p := p) h (fun l hx => hl l (by simp [hx]))
    have h1 : t.txt ≠ w.text := hl (.keep t) (by simp)
    rw [List.map_cons, ctk_cons]
    have : ctk w.text [LT.tok (spellOne p w) (.keep t)] = 0 := by simp [ctk, LT.tok, h1]
    rw [this]
    split at ih <;> split <;> omega
  | .name n q :: ls, D, pos, s, ⟨v, r, _, _, hk, _, _, hq, h⟩, hl => by
    have ih := wrp_once (p := p) h (fun l hx => hl l (by simp [hx]))
    have h1 : n.text ≠ w.text := hl (.name n q) (by simp)
    have hb := blen_name hk
    rw [List.map_cons, ctk_cons]
    by_cases hqp : q = p
    · have : ctk w.text [LT.tok (spellOne p w) (.name n q)] ≤ 1 := by
        unfold ctk
        exact Nat.le_trans List.countP_le_length (by simp)
      rw [if_neg (by omega)] at ih
      rw [if_pos (by omega)]
      omega
    · have : ctk w.text [LT.tok (spellOne p w) (.name n q)] = 0 := by
        simp [ctk, LT.tok, spellOne, hqp, Name.tok, h1]
      rw [this]
      split at ih <;> split <;> omega

theorem WrP.apart : ∀ {ls : List LT} {D : Prop} {pos s}, WrP D ls pos s → ∀ n p n' p', LT.name n p ∈ ls →
    LT.name n' p' ∈ ls → p < p' → p + blen n.text ≤ p'
  | [], _, _, _, _, _, _, _, _, hm, _, _ => by simp at hm
  | .keep t :: ls, D, pos, s, ⟨w, r, _, _, _, _, _, h⟩, n, p, n', p', hm, hm', hlt =>
    WrP.apart h n p n' p' (by simpa using hm) (by simpa using hm') hlt
  | .name m q :: ls, D, pos, s, ⟨w, r, _, _, hk, _, _, hp, h⟩, n, p, n', p', hm, hm', hlt => by
    have hge := WrP.ge h
    rcases List.mem_cons.1 hm with e | hm <;> rcases List.mem_cons.1 hm' with e' | hm'
    · injection e with e1 e2; injection e' with e3 e4; omega
    · have := hge _ _ hm'
      injection e with e1 e2
      subst e1 e2
      omega
    · injection e' with e1 e2
      have := hge _ _ hm
      omega
    · exact WrP.apart h n p n' p' hm hm' hlt

/-- No two names begin at the same place. -/
theorem starts_nodup {txt : Str} {s : SchemaBlock} (h : parseDbmlUnchecked txt = .ok s) :
    (s.names.map (·.2.span_range.start)).Nodup := by
  classical
  obtain ⟨ls, Xs, hw, h1, h2, h3, h4⟩ := doc_located h
  rw [List.nodup_iff_count_le_one]
  intro p
  obtain ⟨w, hwo, hw'⟩ := long_word ls
  have hok : ∀ g, SpOk g → Doc.Ok (Xs.map (· g)) := by
    intro g hg b hb
    obtain ⟨X, hX, rfl⟩ := List.mem_map.1 hb
    exact h1 g hg X hX
  obtain ⟨s0, b1, b2, -⟩ := Props.C44_written_is_read _ (hok noSp (by intro p w hp; cases hp)) txt (by
    have := hw.written
    rwa [h2 noSp] at this)
  rw [h] at b1
  cases b1
  have key := cn_doc w.text (Xs.map (· (spellOne p w)))
  have e1 : Doc.ast (Xs.map (· (spellOne p w))) = _ := ct_map h4 b2.symm (spellOne p w)
  rw [e1, ← h2] at key
  have h5 := wrp_once (p := p) hw hw'
  rw [if_pos (Nat.zero_le _)] at h5
  have e2 : ((s.blocks.map (TopLevelBlock.mapNames fun _ => ren (spellOne p w))).map (TopLevelBlock.mapSpan noPos)).flatMap
      (·.names) = s.names.map (chg (fun _ => ren (spellOne p w)) noPos) :=
    flat_chg _ _ (fun b => TopLevelBlock.names_chg _ _ b) _
  rw [e2] at key
  refine Nat.le_trans ?_ (Nat.le_trans key h5)
  unfold cn List.count
  rw [List.countP_map, List.countP_map]
  apply List.countP_mono_left
  intro x _ hx
  simp only [Function.comp, beq_iff_eq] at hx
  simp [chg, ren, spellOne, hx, Ident.mapSpan]

end Dbml
