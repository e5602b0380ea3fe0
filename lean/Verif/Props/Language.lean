import Verif.Proofs.Invert5
import Verif.Props.Positions

/-!
# C57: the language, exactly

The texts the parser accepts are exactly the layouts of well-formed documents (`Spec/Source.lean`), and the texts
`parse_dbml` accepts are exactly the layouts of well-formed documents that satisfy the rules (`Spec/Valid.lean`).
-/

namespace Dbml.Props

open Spec Source Syntax

/-- **C57.** A text is accepted by `parse_dbml_unchecked` exactly when it is a layout of the tokens of a well-formed
document. -/
theorem C57_language (txt : Str) :
    (∃ s, parseDbmlUnchecked txt = .ok s) ↔ ∃ d : Doc, d.Ok ∧ Written d.toks txt := by
  constructor
  · rintro ⟨s, h⟩
    exact read_is_written h
  · rintro ⟨d, hd, h⟩
    obtain ⟨s, hs, -⟩ := C44_written_is_read d hd txt h
    exact ⟨s, hs⟩

/-- **C57.** What is not a layout of a well-formed document is rejected, with an error; what is one is not. -/
theorem C57_rejected (txt : Str) :
    (∃ e, parseDbmlUnchecked txt = .err e) ↔ ¬ ∃ d : Doc, d.Ok ∧ Written d.toks txt := by
  rw [← C57_language]
  have h1 := C01_parse_never_panics txt
  have h2 := (C02_parse_terminates txt).2
  cases h : parseDbmlUnchecked txt with
  | ok s => simp
  | err e => simp
  | panic k => exact absurd h (h1 k)
  | diverge => exact absurd h h2

/-- **C57.** The AST, up to positions, is the one the document stands for, whichever document it is. -/
theorem C57_ast (txt : Str) (a : List TopLevelBlock) :
    (∃ s, parseDbmlUnchecked txt = .ok s ∧ s.blocks.map (·.mapSpan noPos) = a) ↔
      ∃ d : Doc, d.Ok ∧ Written d.toks txt ∧ d.ast = a := by
  constructor
  · rintro ⟨s, h, rfl⟩
    obtain ⟨d, hd, hw⟩ := read_is_written h
    obtain ⟨s', h', e, -⟩ := C44_written_is_read d hd txt hw
    rw [h] at h'
    cases h'
    exact ⟨d, hd, hw, e.symm⟩
  · rintro ⟨d, hd, hw, rfl⟩
    obtain ⟨s', h', e, -⟩ := C44_written_is_read d hd txt hw
    exact ⟨s', h', e⟩

theorem written_infix : ∀ {ts : List Tok} {s : Str}, Written ts s → ∀ t ∈ ts, t.txt <:+: s
  | [], _, _, t, ht => by simp at ht
  | x :: xs, s, ⟨w, r, e, _, _, h⟩, t, ht => by
    subst e
    rcases List.mem_cons.1 ht with rfl | ht
    · exact ⟨w, r, by simp⟩
    · exact (written_infix h t ht).trans ⟨w ++ x.txt, [], by simp⟩

theorem written_prepend {w s : Str} (hw : Blank w) : ∀ {ts : List Tok}, Written ts s → Written ts (w ++ s)
  | [], h => blank_end_append hw h
  | t :: ts, ⟨w', r, e, h1, h2, h3⟩ => ⟨w ++ w', r, by simp [e], blank_append hw h1, h2, h3⟩

theorem written_join : ∀ {ts1 ts2 : List Tok} {t1 t2 : Str}, (∀ t ∈ ts1, Breaks t) → Written ts1 t1 →
    Written ts2 t2 → (¬ k!"/*" <:+: t1 ∨ ¬ k!"*/" <:+: t2) → Written (ts1 ++ ts2) (t1 ++ '\n' :: t2)
  | [], ts2, t1, t2, _, h1, h2, _ => by
    have hn : IsSpace '\n' := .inr (.inr (.inl rfl))
    rcases h1 with h1 | ⟨w, body, rfl, hw, hb⟩
    · have := written_prepend (blank_append h1 (.space hn .nil)) h2
      simpa using this
    · have := written_prepend (blank_append hw (.line hb (.inl rfl) .nil)) h2
      simpa using this
  | t :: ts1, ts2, _, t2, hb, ⟨w, r, e, hw, hn, h1⟩, h2, hc => by
    subst e
    refine ⟨w, r ++ '\n' :: t2, by simp, hw, ?_, ?_⟩
    · refine (hb t (by simp)).2.1 r t2 (hc.imp (fun h hi => h (hi.trans ⟨w, r, by simp⟩)) fun h h' => absurd h' h) hn
    · exact written_join (fun x hx => hb x (by simp [hx])) h1 h2
        (hc.imp_left fun h hi => h (hi.trans ⟨w ++ t.txt, [], by simp⟩))

theorem written_cut : ∀ {ts1 ts2 : List Tok} {s : Str}, (∀ t ∈ ts1, Breaks t) → Written (ts1 ++ ts2) s →
    ∃ t1 t2, s = t1 ++ t2 ∧ Written ts1 t1 ∧ Written ts2 t2
  | [], ts2, s, _, h => ⟨[], s, rfl, .inl .nil, h⟩
  | t :: ts1, ts2, _, hb, ⟨w, r, e, hw, hn, h⟩ => by
    obtain ⟨t1, t2, rfl, h1, h2⟩ := written_cut (fun x hx => hb x (by simp [hx])) h
    exact ⟨w ++ (t.txt ++ t1), t2, by simp [e], ⟨w, t1, rfl, hw, (hb t (by simp)).2.2.1 _ _ hn, h1⟩, h2⟩

theorem checked_iff (d : Doc) (hd : d.Ok) (txt : Str) (hw : Written d.toks txt) :
    (∃ s, parseDbml txt = .ok s) ↔ Valid { blocks := d.ast } := by
  have hv := C52_verdict_of_document d hd txt hw
  have ho := analyze_out { blocks := d.ast }
  constructor
  · rintro ⟨s, h⟩
    rw [h] at hv
    cases ha : analyze { blocks := d.ast } with
    | ok a => rw [ha] at ho; exact ho.1
    | _ => rw [ha] at hv; simp [Rs.verdict] at hv
  · intro hval
    cases h : parseDbml txt with
    | ok s => exact ⟨s, rfl⟩
    | diverge => exact absurd h (C04_terminates txt)
    | err e =>
      rw [h] at hv
      cases ha : analyze { blocks := d.ast } with
      | err e' =>
        rw [ha] at ho
        cases e' with
        | semantic e sp => exact absurd hval (defect_not_valid (FirstDefect.defect ho))
        | _ => exact ho.elim
      | _ => rw [ha] at hv; simp [Rs.verdict] at hv
    | panic k =>
      have hk := C04_only_panic h
      subst hk
      rw [h] at hv
      cases ha : analyze { blocks := d.ast } with
      | panic k =>
        rw [ha] at ho hv
        simp [Rs.verdict] at hv
        subst hv
        rcases ho with ⟨-, pre, c, post, hs, -, hk⟩ | ⟨-, e, sp, hd, -⟩
        · rcases hk with ⟨-, hk⟩ | ⟨hk, -⟩ | ⟨hk, -⟩
          · exact absurd (hval.columns c (by simp [hs])) (columnPanics_not_ok hk)
          · contradiction
          · contradiction
        · exact absurd hval (defect_not_valid (FirstDefect.defect hd))
      | _ => rw [ha] at hv; simp [Rs.verdict] at hv

/-- **C57, C33.** A text is accepted by `parse_dbml` exactly when it is a layout of a well-formed document whose AST
satisfies the rules. -/
theorem C57_checked_language (txt : Str) :
    (∃ s, parseDbml txt = .ok s) ↔ ∃ d : Doc, d.Ok ∧ Written d.toks txt ∧ Valid { blocks := d.ast } := by
  constructor
  · rintro ⟨s, h⟩
    obtain ⟨d, hd, hw⟩ := read_is_written ((C33_accepts_iff_valid txt s).1 h).1
    exact ⟨d, hd, hw, (checked_iff d hd txt hw).1 ⟨s, h⟩⟩
  · rintro ⟨d, hd, hw, hv⟩
    exact (checked_iff d hd txt hw).2 hv

/-- Every accepted text that contains no `/*` can be rewritten to one token per line, with the same AST. -/
theorem C57_normal_form (txt : Str) (s : SchemaBlock) (h : parseDbmlUnchecked txt = .ok s) (hc : ¬ k!"/*" <:+: txt) :
    ∃ (d : Doc) (s' : SchemaBlock), d.Ok ∧ Written d.toks txt ∧ parseDbmlUnchecked (render d) = .ok s' ∧
      s'.blocks.map (·.mapSpan noPos) = s.blocks.map (·.mapSpan noPos) := by
  obtain ⟨d, hd, hw, ha⟩ := (C57_ast txt _).1 ⟨s, h, rfl⟩
  have hp : Printable d := fun t ht hi => hc (hi.trans (written_infix hw t ht))
  obtain ⟨s', h1, h2, -⟩ := C44_print_parse d hd hp
  exact ⟨d, s', hd, hw, h1, h2.trans ha⟩

/-! ## C58: files can be joined and cut -/

/-- **C58.** Joining two accepted texts with a line break gives an accepted text, whose AST is that of the first
followed by that of the second (up to positions) - provided the first does not contain `/*`, or the second does not
contain `*/`. -/
theorem C58_join (t1 t2 : Str) (s1 s2 : SchemaBlock) (h1 : parseDbmlUnchecked t1 = .ok s1)
    (h2 : parseDbmlUnchecked t2 = .ok s2) (hc : ¬ k!"/*" <:+: t1 ∨ ¬ k!"*/" <:+: t2) :
    ∃ s, parseDbmlUnchecked (t1 ++ '\n' :: t2) = .ok s ∧
      s.blocks.map (·.mapSpan noPos) = s1.blocks.map (·.mapSpan noPos) ++ s2.blocks.map (·.mapSpan noPos) := by
  obtain ⟨d1, hd1, hw1, ha1⟩ := (C57_ast t1 _).1 ⟨s1, h1, rfl⟩
  obtain ⟨d2, hd2, hw2, ha2⟩ := (C57_ast t2 _).1 ⟨s2, h2, rfl⟩
  have hw : Written (Doc.toks (d1 ++ d2)) (t1 ++ '\n' :: t2) := by
    have := written_join (breaks_doc d1) hw1 hw2 hc
    simpa [Doc.toks] using this
  obtain ⟨s, hs, ha, -⟩ := C44_written_is_read (d1 ++ d2) (by
    intro b hb
    rcases List.mem_append.1 hb with hb | hb
    · exact hd1 b hb
    · exact hd2 b hb) _ hw
  refine ⟨s, hs, ?_⟩
  rw [ha, ← ha1, ← ha2]
  simp [Doc.ast]

/-- **C58.** Without the condition this is false: a quoted text that begins with `/*` is a comment, if `*/` follows
later. -/
theorem C58_join_fails : ∃ t1 t2 s1 s2, parseDbmlUnchecked t1 = .ok s1 ∧ parseDbmlUnchecked t2 = .ok s2 ∧
    s1.blocks.length = 1 ∧ s2.blocks.length = 1 ∧
    ∃ s, parseDbmlUnchecked (t1 ++ '\n' :: t2) = .ok s ∧ s.blocks.length = 1 := by
  refine ⟨k!"Note: '/*'", k!"Note: '*/'", _, _, rfl, rfl, ?_, ?_, _, rfl, ?_⟩ <;> decide +kernel

/-- **C58.** Every accepted text can be cut between any two of its declarations: both parts are accepted, and the
AST of the text is that of the first part followed by that of the second. -/
theorem C58_cut (txt : Str) (s : SchemaBlock) (h : parseDbmlUnchecked txt = .ok s) (n : Nat) :
    ∃ t1 t2 s1 s2, txt = t1 ++ t2 ∧ parseDbmlUnchecked t1 = .ok s1 ∧ parseDbmlUnchecked t2 = .ok s2 ∧
      s1.blocks.map (·.mapSpan noPos) = (s.blocks.take n).map (·.mapSpan noPos) ∧
      s2.blocks.map (·.mapSpan noPos) = (s.blocks.drop n).map (·.mapSpan noPos) := by
  obtain ⟨d, hd, hw, ha⟩ := (C57_ast txt _).1 ⟨s, h, rfl⟩
  have e : Doc.toks d = Doc.toks (d.take n) ++ Doc.toks (d.drop n) := by
    unfold Doc.toks
    rw [← List.flatMap_append, List.take_append_drop]
  rw [e] at hw
  obtain ⟨t1, t2, rfl, hw1, hw2⟩ := written_cut (breaks_doc _) hw
  obtain ⟨s1, hs1, ha1, -⟩ := C44_written_is_read (d.take n) (fun b hb => hd b (List.mem_of_mem_take hb)) _ hw1
  obtain ⟨s2, hs2, ha2, -⟩ := C44_written_is_read (d.drop n) (fun b hb => hd b (List.mem_of_mem_drop hb)) _ hw2
  refine ⟨t1, t2, s1, s2, rfl, hs1, hs2, ?_, ?_⟩
  · rw [ha1, List.map_take, ← ha]; simp [Doc.ast]
  · rw [ha2, List.map_drop, ← ha]; simp [Doc.ast]

/-! ## Concrete cases -/

/-- The hypotheses are met by a document with every kind of declaration. -/
example : ∃ d : Doc, d.Ok ∧ Written d.toks (render exDoc) ∧ d.ast = exDoc.ast :=
  ⟨exDoc, exDoc_ok, render_written exDoc exDoc_printable, rfl⟩

/-- A text that is no layout of any well-formed document. -/
example : ¬ ∃ d : Doc, d.Ok ∧ Written d.toks k!"Table t { id }" :=
  (C57_rejected _).1 ⟨.syntax, by decide +kernel⟩

/-- An accepted text that satisfies the rules. -/
example : ∃ d : Doc, d.Ok ∧ Written d.toks exText ∧ Valid { blocks := d.ast } :=
  (C57_checked_language _).1 ⟨_, ex_accepted⟩

/-- Joining the example text with itself. -/
example : ∃ s, parseDbmlUnchecked (exText ++ '\n' :: exText) = .ok s ∧
    s.blocks.map (·.mapSpan noPos) = exAst.blocks.map (·.mapSpan noPos) ++ exAst.blocks.map (·.mapSpan noPos) :=
  C58_join exText exText exAst exAst ex_reads ex_reads (by decide +kernel)

/-! ## Oddities of the language -/

/-- The keywords need a blank, not a tab or a line break. -/
example : parseDbmlUnchecked k!"Table\tt { id int }" = .err .syntax := by decide +kernel
example : parseDbmlUnchecked k!"Enum\ne { a }" = .err .syntax := by decide +kernel
example : ∃ s, parseDbmlUnchecked k!"Table  \tt { id int }" = .ok s := ⟨_, rfl⟩

/-- A bare word as the value of a project property swallows the next key. -/
example : parseDbmlUnchecked k!"Project p { a: b c: d }" = .err .syntax := by decide +kernel
example : ∃ s, parseDbmlUnchecked k!"Project p { a: b  c: d }" = .ok s := ⟨_, rfl⟩

/-- `Refname:` is a ref named `name`. -/
example : (parseDbmlUnchecked k!"Refname: a.b > c.d").get?.map (fun s => s.refs.map fun r => r.name.map (·.to_string)) =
    some [some k!"name"] := by decide +kernel

/-- `[]` glued to a type is an array; with a blank it is an empty list of settings. -/
example : (parseDbmlUnchecked k!"Table t { a int[] }").get?.map
    (fun s => s.tables.map fun t => t.cols.map fun c => (c.type.arrays, c.settings.isSome)) =
    some [[([none], false)]] := by decide +kernel
example : (parseDbmlUnchecked k!"Table t { a int [] }").get?.map
    (fun s => s.tables.map fun t => t.cols.map fun c => (c.type.arrays, c.settings.isSome)) =
    some [[([], true)]] := by decide +kernel

/-- A project property `note: 'x'` is a note. -/
example : (parseDbmlUnchecked k!"Project p { note: 'x' }").get?.map
    (fun s => s.projects.map fun p => (p.properties.length, p.note.isSome)) = some [(0, true)] := by decide +kernel

end Dbml.Props
