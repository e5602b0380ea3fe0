import Verif.Props.Language
import Verif.Props.Editing
import Verif.Props.Core
import Verif.Proofs.RecodeToks

/-!
# C69: line endings and letters

A text stays accepted if its line ends are written differently (`\n`, `\r\n`, `\r`), and if characters outside ASCII are
replaced by others outside ASCII; the declarations are the same, with the same changes in the quoted texts.
-/

namespace Dbml

theorem recode_recode {e e' : Str} {σ τ : Char → Char} (he : IsEol e) (hσ : KeepsAscii σ) :
    ∀ t : Str, recode e' τ (recode e σ t) = recode e' (τ ∘ σ) t
  | [] => rfl
  | c :: t => by
    have ih := recode_recode (e' := e') (τ := τ) he hσ t
    have hE : ∀ x : Str, recode e' τ (e ++ recode e σ x) = e' ++ recode e' τ (recode e σ x) := by
      intro x
      rcases he with rfl | rfl | rfl
      · exact recode_lf _
      · exact (recode_crlf _).trans (recode_lf _)
      · refine recode_cr _ ?_
        cases x with
        | nil => simp [recode]
        | cons d x =>
          by_cases h1 : d = '\n'
          · subst h1; rw [recode_lf]; simp
          by_cases h2 : d = '\r'
          · subst h2
            by_cases h3 : x.head? = some '\n'
            · cases x with
              | nil => simp at h3
              | cons y x =>
                simp only [List.head?_cons, Option.some.injEq] at h3
                subst h3
                rw [recode_crlf, recode_lf]
                simp
            · rw [recode_cr _ h3]; simp
          · rw [recode_wide h1 h2]
            have : σ d ≠ '\n' := by
              by_cases hp : PlainC d
              · rw [sigma_plain hσ hp]; exact h1
              · exact (sigma_other hσ hp h1 h2).2.1
            simpa using this
    by_cases h1 : c = '\n'
    · subst h1
      rw [recode_lf, recode_lf, hE, ih]
    by_cases h2 : c = '\r'
    · subst h2
      by_cases h3 : t.head? = some '\n'
      · cases t with
        | nil => simp at h3
        | cons y t =>
          simp only [List.head?_cons, Option.some.injEq] at h3
          subst h3
          rw [recode_crlf, recode_crlf]
          exact ih
      · rw [recode_cr _ h3, recode_cr _ h3, hE, ih]
    · have hd : σ c ≠ '\n' ∧ σ c ≠ '\r' := by
        by_cases hp : PlainC c
        · rw [sigma_plain hσ hp]; exact ⟨h1, h2⟩
        · exact ⟨(sigma_other hσ hp h1 h2).2.1, (sigma_other hσ hp h1 h2).2.2.1⟩
      rw [recode_wide h1 h2, recode_wide h1 h2, recode_wide hd.1 hd.2, ih]
      rfl

end Dbml

namespace Dbml.Props

open Spec Source Syntax

/-- **C69.** If a text is read by `parse_dbml_unchecked`, then so is the text with other line ends and other letters
outside ASCII, and its declarations are the same up to positions, with the same changes in all texts. -/
theorem C69_recode (e : Str) (he : IsEol e) (σ : Char → Char) (hσ : KeepsAscii σ) (t : Str) (s : SchemaBlock)
    (h : parseDbmlUnchecked t = .ok s) :
    ∃ s', parseDbmlUnchecked (recode e σ t) = .ok s' ∧
      s'.blocks.map (·.mapSpan noPos) = (s.blocks.map (·.mapSpan noPos)).map (·.mapText (recode e σ)) := by
  obtain ⟨d, hd, hw, ha⟩ := (C57_ast t _).1 ⟨s, h, rfl⟩
  rw [← ha, ← rc_doc_ast he hσ hd]
  exact (C57_ast _ _).2 ⟨Doc.recode e σ d, rc_doc_ok he hσ hd, written_map he hσ (tm_doc he hσ hd) hw, rfl⟩

theorem keepsAscii_id : KeepsAscii id := fun c => by
  dsimp only [id]
  split
  · rfl
  · omega

/-- **C69.** A text whose line ends are all written `e` is accepted if and only if it is accepted with its line ends
written `e'`. -/
theorem C69_line_ends (e e' : Str) (he : IsEol e) (he' : IsEol e') (t : Str) (h : recode e id t = t) :
    (∃ s, parseDbmlUnchecked t = .ok s) ↔ ∃ s, parseDbmlUnchecked (recode e' id t) = .ok s := by
  constructor
  · rintro ⟨s, hs⟩
    obtain ⟨s', h1, -⟩ := C69_recode e' he' id keepsAscii_id t s hs
    exact ⟨s', h1⟩
  · rintro ⟨s, hs⟩
    obtain ⟨s', h1, -⟩ := C69_recode e he id keepsAscii_id _ s hs
    rw [recode_recode he' keepsAscii_id, Function.comp_id, h] at h1
    exact ⟨s', h1⟩

/-- **C69.** The same for a reversible substitution of letters. -/
theorem C69_letters (e e' : Str) (he : IsEol e) (he' : IsEol e') (σ τ : Char → Char) (hσ : KeepsAscii σ)
    (hτ : KeepsAscii τ) (hinv : ∀ c, τ (σ c) = c) (t : Str) (h : recode e id t = t) :
    (∃ s, parseDbmlUnchecked t = .ok s) ↔ ∃ s, parseDbmlUnchecked (recode e' σ t) = .ok s := by
  constructor
  · rintro ⟨s, hs⟩
    obtain ⟨s', h1, -⟩ := C69_recode e' he' σ hσ t s hs
    exact ⟨s', h1⟩
  · rintro ⟨s, hs⟩
    obtain ⟨s', h1, -⟩ := C69_recode e he τ hτ _ s hs
    rw [recode_recode he' hσ, show τ ∘ σ = id from funext hinv, h] at h1
    exact ⟨s', h1⟩

/-- **C69.** If no text in the declarations changes (no quoted text contains a line end or one of the replaced letters),
then `parse_dbml` has the same verdict: it accepts both texts, or it rejects both for the same reason. -/
theorem C69_checked (e : Str) (he : IsEol e) (σ : Char → Char) (hσ : KeepsAscii σ) (t : Str) (s : SchemaBlock)
    (h : parseDbmlUnchecked t = .ok s)
    (hs : (s.blocks.map (·.mapSpan noPos)).map (·.mapText (recode e σ)) = s.blocks.map (·.mapSpan noPos)) :
    (parseDbml (recode e σ t)).verdict = (parseDbml t).verdict := by
  obtain ⟨s', h1, h2⟩ := C69_recode e he σ hσ t s h
  exact C52_checks_ignore_positions _ _ _ _ h1 h (h2.trans hs)

/-! ## Examples -/

/-- Windows line ends, in a text with comments, a note of two lines, and letters outside ASCII. -/
def exLines : Str := k!"// Übersicht
Project p { database_type: 'PostgreSQL' }
Table \"größe\" { /* eins
zwei */
  id int [pk] // Schlüssel
  Note: '''Höhe
und Breite'''
}
"

/-- A substitution of letters: `ö` becomes `日`, and conversely. -/
def swapLetters (c : Char) : Char := if c = 'ö' then '日' else if c = '日' then 'ö' else c

theorem swapLetters_ascii : KeepsAscii swapLetters := by
  intro c
  unfold swapLetters
  by_cases h1 : c = 'ö'
  · subst h1; decide
  by_cases h2 : c = '日'
  · subst h2; decide
  · rw [if_neg h1, if_neg h2]
    split
    · rfl
    · omega

theorem exLines_read : (parseDbmlUnchecked exLines).get?.isSome = true := by decide +kernel

example : recode k!"\r\n" swapLetters exLines = k!"// Übersicht\r
Project p { database_type: 'PostgreSQL' }\r
Table \"gr日ße\" { /* eins\r
zwei */\r
  id int [pk] // Schlüssel\r
  Note: '''H日he\r
und Breite'''\r
}\r
" := by decide +kernel

example : ∃ s', parseDbmlUnchecked (recode k!"\r\n" swapLetters exLines) = .ok s' ∧
    s'.blocks.map (·.mapSpan noPos) =
      (((parseDbmlUnchecked exLines).get?.getD {}).blocks.map (·.mapSpan noPos)).map (·.mapText (recode k!"\r\n" swapLetters)) :=
  C69_recode _ (.inr (.inl rfl)) _ swapLetters_ascii _ _ (unchecked_of exLines_read)

/-- The name and the note have changed as the text has. -/
example : ((parseDbmlUnchecked (recode k!"\r\n" swapLetters exLines)).get?.getD {}).tables.map
      (fun t => (t.ident.name.to_string, t.note.map (·.value.value))) =
    [(k!"gr日ße", some (.string k!"H日he\r\nund Breite"))] := by decide +kernel

example : ∃ s, parseDbmlUnchecked (recode k!"\r" id exLines) = .ok s :=
  (C69_line_ends k!"\n" k!"\r" (.inl rfl) (.inr (.inr rfl)) exLines (by decide +kernel)).1 ⟨_, unchecked_of exLines_read⟩

example : ∃ s, parseDbmlUnchecked (recode k!"\r" swapLetters exLines) = .ok s :=
  (C69_letters k!"\n" k!"\r" (.inl rfl) (.inr (.inr rfl)) swapLetters swapLetters swapLetters_ascii swapLetters_ascii
    (fun c => by
      unfold swapLetters
      by_cases h1 : c = 'ö'
      · subst h1; decide
      by_cases h2 : c = '日'
      · subst h2; decide
      · simp [h1, h2])
    exLines (by decide +kernel)).1 ⟨_, unchecked_of exLines_read⟩

/-- A rejected text stays rejected. -/
example : ¬ ∃ s, parseDbmlUnchecked (recode k!"\r\n" id k!"Table a {\n id\n}") = .ok s := by
  rw [← C69_line_ends k!"\n" k!"\r\n" (.inl rfl) (.inr (.inl rfl)) _ (by decide)]
  rintro ⟨s, hs⟩
  have : (parseDbmlUnchecked k!"Table a {\n id\n}").get? = some s := by rw [hs]; rfl
  have h2 : (parseDbmlUnchecked k!"Table a {\n id\n}").get?.isSome = false := by decide +kernel
  rw [this] at h2
  simp at h2

/-- The verdict on a text without quoted line ends, checked at `\r\n`. -/
def exTwice : Str := k!"Project p { database_type: 'PostgreSQL' }
Table a {
  id int
  id int
}
"

theorem exTwice_read : (parseDbmlUnchecked exTwice).get?.isSome = true := by decide +kernel

theorem exTwice_same : (((parseDbmlUnchecked exTwice).get?.getD {}).blocks.map (·.mapSpan noPos)).map (·.mapText (recode k!"\r\n" id)) =
    ((parseDbmlUnchecked exTwice).get?.getD {}).blocks.map (·.mapSpan noPos) := by decide +kernel

example : (parseDbml (recode k!"\r\n" id exTwice)).verdict = (parseDbml exTwice).verdict :=
  C69_checked _ (.inr (.inl rfl)) _ keepsAscii_id _ _ (unchecked_of exTwice_read) exTwice_same

/-- The condition is needed: a default value of two lines can become too long. -/
def exDefault : Str := k!"Project p { database_type: 'PostgreSQL' }
Table a {
  id varchar(3) [default: 'a
b']
}
"

example : (parseDbml exDefault).get?.isSome = true ∧ (parseDbml (recode k!"\r\n" id exDefault)).get?.isSome = false ∧
    (parseDbmlUnchecked (recode k!"\r\n" id exDefault)).get?.isSome = true := by decide +kernel

end Dbml.Props
