import Verif.Props.Parsing

/-!
# C40: the content of quoted literals
-/

namespace Dbml.Props

open Dbml Spec Syntax

/-- The delimiter a quoted source text starts with: `'''` if it starts so, else its first character. -/
def delimOf (raw : Str) : Str := if k!"'''" <+: raw then k!"'''" else raw.take 1

/-- The text begins with white space or with a comment opener. -/
def StartsTrivia (t : Str) : Prop := (∃ c cs, t = c :: cs ∧ IsSpace c) ∨ k!"//" <+: t ∨ k!"/*" <+: t

/-- `raw` is a quoted text with the value `v`: between the delimiters there is trivia `t`, then `v`; `t` is
empty unless the text between the delimiters begins like trivia; `v` does not begin with white space and
does not contain the delimiter. -/
def Content (raw v : Str) : Prop :=
  ∃ content t, raw = delimOf raw ++ (content ++ delimOf raw) ∧ content = t ++ v ∧ Trivia t ∧
    (¬ StartsTrivia content → v = content) ∧ (∀ c cs, v = c :: cs → ¬ IsSpace c) ∧ ¬ delimOf raw <:+: v

theorem trivia_starts {t v : Str} (h : Trivia t) : t = [] ∨ StartsTrivia (t ++ v) := by
  cases h with
  | nil => exact .inl rfl
  | space hc _ => exact .inr (.inl ⟨_, _, rfl, hc⟩)
  | line _ _ => exact .inr (.inr (.inl ⟨_, by simp; rfl⟩))
  | block _ _ => exact .inr (.inr (.inr ⟨_, by simp; rfl⟩))

theorem content_of {q p v} (h : QuotedD .loose q p v) (hd : delimOf p.txt = q) (hq : q ≠ []) :
    Content p.txt v := by
  obtain ⟨t, e, ht, hi, hw⟩ := h
  refine ⟨t ++ v, t, ?_, rfl, ht, ?_, hw rfl, ?_⟩
  · rw [hd, e]; simp
  · intro hs
    rcases trivia_starts (v := v) ht with rfl | h
    · rfl
    · exact absurd h hs
  · rw [hd]; exact not_infix_of hq hi

theorem delim_triple {p v g} (h : QuotedD g k!"'''" p v) : delimOf p.txt = k!"'''" := by
  obtain ⟨t, e, -⟩ := h
  unfold delimOf
  rw [if_pos ⟨_, e.symm⟩]

theorem delim_single {p v g c} (h : QuotedD g [c] p v) : delimOf p.txt = [c] := by
  have hc := quoted_single h
  obtain ⟨t, e, ht, -⟩ := h
  unfold delimOf
  rw [if_neg]
  · rw [e]; rfl
  · rintro ⟨r, hr⟩
    rw [e] at hr
    simp only [List.cons_append, List.nil_append, List.cons.injEq] at hr
    obtain ⟨rfl, hr⟩ := hr
    rcases gap_head ht with rfl | ⟨d, ds, rfl, hd⟩
    · simp only [List.nil_append] at hr
      cases v with
      | nil => simp at hr
      | cons a v =>
        simp only [List.cons_append, List.cons.injEq] at hr
        exact hc (List.mem_cons.2 (.inl hr.1))
    · simp only [List.cons_append, List.cons.injEq] at hr
      obtain ⟨rfl, -⟩ := hr
      rcases hd with hd | hd
      · rcases hd with hd | hd | hd | hd <;> exact absurd hd (by decide)
      · exact absurd hd (by decide)

variable {input : Str} {s : SchemaBlock}

/-- **C40**: a string or expression literal is quoted, and its value is the text between the delimiters
without the trivia it begins with. -/
theorem C40_literals (h : parseDbmlUnchecked input = .ok s) (l : Literal) (hl : l ∈ literals s) (v : Str)
    (hv : l.value = .string v ∨ l.value = .expr v) : Content l.raw v := by
  obtain ⟨q, hq, h1, h2, h3⟩ := has_literal (denotes h) l hl
  rw [h2]
  rcases h3 with (h4 | ⟨-, -, h4⟩ | ⟨w, h4, h5⟩) | ⟨w, h4, h5⟩
  · generalize l.value = x at h4 hv
    rcases hv with rfl | rfl
    · cases h4 with
      | string hs =>
        rcases hs with hs | hs
        · exact content_of hs (delim_triple hs) (by simp)
        · exact content_of hs (delim_single hs) (by simp)
    · cases h4 with
      | expr hs => exact content_of hs (delim_single hs) (by simp)
  · rw [h4] at hv; rcases hv with hv | hv <;> cases hv
  · rw [h5] at hv
    rcases hv with hv | hv <;> cases hv
    exact content_of h4 (delim_single h4) (by simp)
  · rw [h5] at hv
    rcases hv with hv | hv <;> cases hv
    exact content_of h4 (delim_single h4) (by simp)

/-- **C40**: the same for an identifier that is written with quotes. -/
theorem C40_identifiers (h : parseDbmlUnchecked input = .ok s) (i : Ident) (hi : i ∈ idents s)
    (hq : k!"\"" <+: i.raw) : Content i.raw i.to_string := by
  obtain ⟨q, -, -, h2, ⟨h3, h4⟩ | h3⟩ := has_ident (denotes h) i hi
  · obtain ⟨c, cs, h5, h6, -⟩ := h3
    obtain ⟨r, hr⟩ := hq
    rw [h2, h5] at hr
    simp only [List.cons_append, List.nil_append, List.cons.injEq] at hr
    obtain ⟨rfl, -⟩ := hr
    exact absurd h6 (by decide)
  · rw [h2]; exact content_of h3 (delim_single h3) (by simp)

/-- **C40**: the stronger claim, that the value is always the text between the delimiters, is false: blanks
and comments at the start are dropped, and a line comment opener even swallows the closing quote. -/
theorem C40_leading_trivia_dropped :
    (parseDbmlUnchecked k!"Note: '  a'").get?.map (fun s => (notes s).map (·.value.value)) =
      some [.string k!"a"] ∧
    (parseDbmlUnchecked k!"Note: '/* b */a'").get?.map (fun s => (notes s).map (·.value.value)) =
      some [.string k!"a"] ∧
    (parseDbmlUnchecked k!"Note: '// hey'").get? = none := by decide +kernel

example : 3 ≤ (literals exAst).length ∧ (idents exAst).any (fun i => k!"\"".isPrefixOf i.raw) := by
  decide +kernel

end Dbml.Props
