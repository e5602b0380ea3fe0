import Verif.Proofs.Expected

/-!
# The text of a syntax error: proofs
-/

namespace Dbml

/-- The first word and the other words of a text, at non-word characters. -/
def wordsAux : Str → Str × List Str
  | [] => ([], [])
  | c :: cs => if G.isWordChar c then (c :: (wordsAux cs).1, (wordsAux cs).2)
    else ([], if (wordsAux cs).1 = [] then (wordsAux cs).2 else (wordsAux cs).1 :: (wordsAux cs).2)

/-- The words of a text. -/
def wordsOf (s : Str) : List Str := if (wordsAux s).1 = [] then (wordsAux s).2 else (wordsAux s).1 :: (wordsAux s).2

theorem wordsAux_word {n : Str} (h : n.all G.isWordChar) (s : Str) :
    wordsAux (n ++ s) = (n ++ (wordsAux s).1, (wordsAux s).2) := by
  induction n with
  | nil => rfl
  | cons c n ih =>
    simp only [List.all_cons, Bool.and_eq_true] at h
    simp [wordsAux, h.1, ih h.2]

theorem wordsOf_sep {c : Char} (h : G.isWordChar c = false) (s : Str) : wordsOf (c :: s) = wordsOf s := by
  simp [wordsOf, wordsAux, h]

theorem wordsOf_word {n : Str} (h : n.all G.isWordChar) (hn : n ≠ []) {c : Char} (hc : G.isWordChar c = false) (s : Str) :
    wordsOf (n ++ c :: s) = n :: wordsOf s := by
  simp [wordsOf, wordsAux_word h, wordsAux, hc, hn]

theorem wordsOf_last {n : Str} (h : n.all G.isWordChar) (hn : n ≠ []) : wordsOf n = [n] := by
  have := wordsAux_word h []
  rw [List.append_nil] at this
  simp [wordsOf, this, wordsAux, hn]

/-- Good for a list. -/
def Word (n : Str) : Prop := n.all G.isWordChar ∧ n ≠ []

theorem wordsOf_comma : ∀ {l : List Str}, (∀ n ∈ l, Word n) → l ≠ [] → ∀ s,
    wordsOf (commaList l ++ ',' :: s) = l ++ wordsOf s
  | [a], h, _, s => by
    have := h a (by simp)
    simp [commaList, wordsOf_word this.1 this.2 (show G.isWordChar ',' = false by decide)]
  | a :: b :: l, h, _, s => by
    have ha := h a (by simp)
    have := wordsOf_comma (l := b :: l) (fun n hn => h n (by simp [hn])) (by simp) s
    simp only [commaList, List.append_assoc, List.cons_append, List.nil_append]
    rw [wordsOf_word ha.1 ha.2 (by decide), wordsOf_sep (by decide), this]
    rfl

theorem wordsOf_enumerate : ∀ {l : List Str}, (∀ n ∈ l, Word n ∧ n ≠ k!"or") →
    (wordsOf (enumerateRules l)).filter (· ≠ k!"or") = l
  | [], _ => rfl
  | [a], h => by
    have := h a (by simp)
    simp [enumerateRules, wordsOf_last this.1.1 this.1.2, this.2]
  | [a, b], h => by
    have ha := h a (by simp)
    have hb := h b (by simp)
    simp only [enumerateRules, List.append_assoc, List.cons_append, List.nil_append]
    rw [wordsOf_word ha.1.1 ha.1.2 (by decide), show ('o' :: 'r' :: ' ' :: b) = k!"or" ++ ' ' :: b from rfl,
      wordsOf_word (by decide) (by decide) (by decide), wordsOf_last hb.1.1 hb.1.2]
    simp [ha.2, hb.2]
  | a :: b :: c :: l, h => by
    obtain ⟨i, x, hl⟩ : ∃ i x, a :: b :: c :: l = i ++ [x] :=
      ⟨_, _, (List.dropLast_concat_getLast (by simp : a :: b :: c :: l ≠ [])).symm⟩
    have he : enumerateRules (a :: b :: c :: l) = commaList i ++ k!", or " ++ x := by
      rw [enumerateRules, hl]; simp
    rw [he]
    rw [hl] at h ⊢
    have hi : i ≠ [] := by
      rintro rfl
      simpa using congrArg List.length hl
    have hx := h x (by simp)
    simp only [List.append_assoc, List.cons_append, List.nil_append]
    rw [wordsOf_comma (fun n hn => (h n (by simp [hn])).1) hi, wordsOf_sep (by decide),
      show ('o' :: 'r' :: ' ' :: x) = k!"or" ++ ' ' :: x from rfl,
      wordsOf_word (by decide) (by decide) (by decide), wordsOf_last hx.1.1 hx.1.2]
    have : i.filter (· ≠ k!"or") = i := List.filter_eq_self.2 fun n hn => by simp [(h n (by simp [hn])).2]
    rw [List.filter_append, this]
    simp [hx.2]

theorem rule_name_word (r : Rule) : Word r.name ∧ r.name ≠ k!"or" := by
  cases r <;> exact ⟨⟨by decide, by decide⟩, by decide⟩

theorem rule_name_inj {r r' : Rule} (h : r.name = r'.name) : r = r' := by
  have key : ∀ r : Rule, (Rule.inOrder.map Rule.name).idxOf r.name = Rule.inOrder.idxOf r := by
    intro r; cases r <;> decide
  have h2 : Rule.inOrder.idxOf r = Rule.inOrder.idxOf r' := by rw [← key, ← key, h]
  have e : ∀ r : Rule, Rule.inOrder[Rule.inOrder.idxOf r]? = some r := by intro r; cases r <;> decide
  have := (e r).symm.trans ((congrArg (fun i => Rule.inOrder[i]?) h2).trans (e r'))
  exact Option.some.inj this

theorem map_inj {α β : Type} {f : α → β} (hf : ∀ a b, f a = f b → a = b) : ∀ {l l' : List α}, l.map f = l'.map f → l = l'
  | [], [], _ => rfl
  | [], _ :: _, h => by simp at h
  | _ :: _, [], h => by simp at h
  | a :: l, b :: l', h => by
    simp only [List.map_cons, List.cons.injEq] at h
    rw [hf _ _ h.1, map_inj hf h.2]

theorem enumerate_inj {l l' : List Rule} (h : enumerateRules (l.map Rule.name) = enumerateRules (l'.map Rule.name)) :
    l = l' := by
  have w : ∀ l : List Rule, ∀ n ∈ l.map Rule.name, Word n ∧ n ≠ k!"or" := by
    intro l n hn
    obtain ⟨r, -, rfl⟩ := List.mem_map.1 hn
    exact rule_name_word r
  have := (wordsOf_enumerate (w l)).symm.trans ((congrArg (fun s => (wordsOf s).filter (· ≠ k!"or")) h).trans
    (wordsOf_enumerate (w l')))
  exact map_inj (fun _ _ => rule_name_inj) this

end Dbml
