import Verif.Proofs.OkDec
import Verif.Proofs.Printable
import Verif.Props.Example

/-!
# C42, C43, C44: every written document is read back

`Source.Doc` (`Verif/Spec/Source.lean`) describes documents construct by construct; `Written d.toks txt` says that
`txt` consists of the tokens of `d` with white space and comments before, between and after them.
-/

namespace Dbml.Props

open Dbml Syntax Source

/-! ## C44 -/

/-- **C44.** Every text of every well-formed document is read, without error, to the AST the document stands for;
positions aside, nothing else depends on the layout. -/
theorem C44_written_is_read (d : Doc) (hd : d.Ok) (txt : Str) (h : Written d.toks txt) :
    ∃ s, parseDbmlUnchecked txt = .ok s ∧ s.blocks.map (·.mapSpan noPos) = d.ast ∧ s.input = txt ∧
      s.span_range = ⟨0, blen txt⟩ :=
  reads_back hd h

/-- The canonical text of a document: one token per line. -/
def render (d : Doc) : Str := d.toks.flatMap fun t => t.txt ++ ['\n']

/-- No token contains `/*`. (Only a quoted text can; if its value begins with `/*`, then what comes later in the
text decides whether a comment begins there.) -/
def Printable (d : Doc) : Prop := ∀ t ∈ d.toks, ¬ k!"/*" <:+: t.txt

theorem lines_written : ∀ (ts : List Tok), (∀ t ∈ ts, ∀ r, t.next ('\n' :: r)) →
    Written ts (ts.flatMap fun t => t.txt ++ ['\n'])
  | [], _ => .inl .nil
  | t :: ts, h => by
    have ih := lines_written ts fun x hx => h x (by simp [hx])
    refine ⟨[], '\n' :: ts.flatMap (fun t => t.txt ++ ['\n']), by simp, .nil, h t (by simp) _, ?_⟩
    generalize ts.flatMap (fun t => t.txt ++ ['\n']) = r at ih
    have hn : IsSpace '\n' := .inr (.inr (.inl rfl))
    cases ts with
    | nil => exact blank_end_append (.space hn .nil) ih
    | cons b ts =>
      obtain ⟨w, r', rfl, hw, h1, h2⟩ := ih
      exact ⟨'\n' :: w, r', by simp, .space hn hw, h1, h2⟩

theorem render_written (d : Doc) (hp : Printable d) : Written d.toks (render d) :=
  lines_written d.toks fun t ht r => (breaks_doc d t ht).1 (hp t ht) r

/-- **C44.** Printing a document and parsing the text is the identity, up to positions. -/
theorem C44_print_parse (d : Doc) (hd : d.Ok) (hp : Printable d) :
    ∃ s, parseDbmlUnchecked (render d) = .ok s ∧ s.blocks.map (·.mapSpan noPos) = d.ast ∧ s.input = render d := by
  obtain ⟨s, h1, h2, h3, -⟩ := C44_written_is_read d hd _ (render_written d hp)
  exact ⟨s, h1, h2, h3⟩

/-- **C44, C42.** The layout does not matter: two texts of the same document - other white space, other comments,
other line breaks, before, between or after the tokens - give the same AST up to positions. -/
theorem C44_layout_irrelevant (d : Doc) (hd : d.Ok) (t t' : Str) (h : Written d.toks t) (h' : Written d.toks t') :
    ∃ s s', parseDbmlUnchecked t = .ok s ∧ parseDbmlUnchecked t' = .ok s' ∧
      s.blocks.map (·.mapSpan noPos) = s'.blocks.map (·.mapSpan noPos) := by
  obtain ⟨s, h1, h2, -⟩ := C44_written_is_read d hd t h
  obtain ⟨s', h1', h2', -⟩ := C44_written_is_read d hd t' h'
  exact ⟨s, s', h1, h1', h2.trans h2'.symm⟩

/-- **C44.** A text is a text of at most one document, as far as the AST can tell. -/
theorem C44_unambiguous (d d' : Doc) (hd : d.Ok) (hd' : d'.Ok) (t : Str) (h : Written d.toks t)
    (h' : Written d'.toks t) : d.ast = d'.ast := by
  obtain ⟨s, h1, h2, -⟩ := C44_written_is_read d hd t h
  obtain ⟨s', h1', h2', -⟩ := C44_written_is_read d' hd' t h'
  rw [h1] at h1'
  cases h1'
  rw [← h2, ← h2']

/-! ## C43 -/

/-- `s` and `s'` differ only in the case of ASCII letters. -/
def SameLetters (s s' : Str) : Prop := s.map lowerC = s'.map lowerC

/-- The documents are the same but for the letter case of the keywords. -/
inductive TItem.Recased : TItem → TItem → Prop
  | col (c) : Recased (.col c) (.col c)
  | note {kw kw' b t} : SameLetters kw kw' → Recased (.note ⟨kw, b, t⟩) (.note ⟨kw', b, t⟩)
  | indexes {kw kw' ds} : SameLetters kw kw' → Recased (.indexes ⟨kw, ds⟩) (.indexes ⟨kw', ds⟩)
inductive ProjItem.Recased : ProjItem → ProjItem → Prop
  | prop (k v) : Recased (.prop k v) (.prop k v)
  | note {kw kw' b t} : SameLetters kw kw' → Recased (.note ⟨kw, b, t⟩) (.note ⟨kw', b, t⟩)
inductive GItem.Recased : GItem → GItem → Prop
  | item (s n) : Recased (.item s n) (.item s n)
  | note {kw kw' b t} : SameLetters kw kw' → Recased (.note ⟨kw, b, t⟩) (.note ⟨kw', b, t⟩)

/-- Two lists are related element by element. -/
inductive Each {α : Type} (R : α → α → Prop) : List α → List α → Prop
  | nil : Each R [] []
  | cons {x y xs ys} : R x y → Each R xs ys → Each R (x :: xs) (y :: ys)

inductive AliasRecased : Option Alias → Option Alias → Prop
  | none : AliasRecased none none
  | some {kw kw' n} : SameLetters kw kw' → AliasRecased (some ⟨kw, n⟩) (some ⟨kw', n⟩)

/-- The declarations are the same but for the letter case of the keywords `Project`, `Table`, `as`, `Indexes`,
`Note`, `Enum`, `TableGroup` and `Ref`. -/
inductive Recased : Block → Block → Prop
  | project {kw kw' n is is'} : SameLetters kw kw' → Each ProjItem.Recased is is' →
      Recased (.project ⟨kw, n, is⟩) (.project ⟨kw', n, is'⟩)
  | table {kw kw' s n a a' st is is'} : SameLetters kw kw' → AliasRecased a a' → Each TItem.Recased is is' →
      Recased (.table ⟨kw, s, n, a, st, is⟩) (.table ⟨kw', s, n, a', st, is'⟩)
  | group {kw kw' n st is is'} : SameLetters kw kw' → Each GItem.Recased is is' →
      Recased (.group ⟨kw, n, st, is⟩) (.group ⟨kw', n, st, is'⟩)
  | note {kw kw' b t} : SameLetters kw kw' → Recased (.note ⟨kw, b, t⟩) (.note ⟨kw', b, t⟩)
  | ref {kw kw' n b l r l' st} : SameLetters kw kw' →
      Recased (.ref ⟨kw, n, b, l, r, l', st⟩) (.ref ⟨kw', n, b, l, r, l', st⟩)
  | enum {kw kw' s n vs} : SameLetters kw kw' → Recased (.enum ⟨kw, s, n, vs⟩) (.enum ⟨kw', s, n, vs⟩)

theorem Each.all {α : Type} {R : α → α → Prop} {P : α → Prop} (hR : ∀ x y, R x y → P x → P y) {xs ys : List α}
    (h : Each R xs ys) (hx : ∀ x ∈ xs, P x) : ∀ y ∈ ys, P y := by
  induction h with
  | nil => simp
  | cons hr _ ih =>
    intro y hy
    rcases List.mem_cons.1 hy with rfl | hy
    · exact hR _ _ hr (hx _ (by simp))
    · exact ih (fun x hx' => hx x (by simp [hx'])) y hy

theorem Each.filterMap {α β : Type} {R : α → α → Prop} {f : α → Option β} (hR : ∀ x y, R x y → f x = f y)
    {xs ys : List α} (h : Each R xs ys) : xs.filterMap f = ys.filterMap f := by
  induction h with
  | nil => rfl
  | cons hr _ ih => rw [List.filterMap_cons, List.filterMap_cons, hR _ _ hr, ih]

theorem keyword_recased {k s s' : Str} (h : SameLetters s s') (hk : Keyword k s) : Keyword k s' := by
  unfold Keyword at *
  rw [← h, hk]

theorem recased_ok {b b' : Block} (h : Recased b b') (hb : b.Ok) : b'.Ok := by
  cases h with
  | project h1 h2 =>
    refine ⟨keyword_recased h1 hb.1, hb.2.1, h2.all ?_ hb.2.2⟩
    intro x y hr hx
    cases hr with
    | prop => exact hx
    | note h => exact ⟨keyword_recased h hx.1, hx.2⟩
  | table h1 h2 h3 =>
    obtain ⟨g1, g2, g3, g4, g5, g6⟩ := hb
    refine ⟨keyword_recased h1 g1, g2, g3, ?_, g5, h3.all ?_ g6⟩
    · cases h2 with
      | none => exact g4
      | some h =>
        intro a ha
        obtain rfl := Option.some.inj ha
        exact ⟨keyword_recased h (g4 _ rfl).1, (g4 _ rfl).2⟩
    · intro x y hr hx
      cases hr with
      | col => exact hx
      | note h => exact ⟨keyword_recased h hx.1, hx.2⟩
      | indexes h => exact ⟨keyword_recased h hx.1, hx.2⟩
  | group h1 h2 =>
    refine ⟨keyword_recased h1 hb.1, hb.2.1, hb.2.2.1, h2.all ?_ hb.2.2.2⟩
    intro x y hr hx
    cases hr with
    | item => exact hx
    | note h => exact ⟨keyword_recased h hx.1, hx.2⟩
  | note h1 => exact ⟨keyword_recased h1 hb.1, hb.2⟩
  | ref h1 => exact ⟨keyword_recased h1 hb.1, hb.2⟩
  | enum h1 => exact ⟨keyword_recased h1 hb.1, hb.2⟩

theorem recased_ast {b b' : Block} (h : Recased b b') : b.ast = b'.ast := by
  cases h with
  | project h1 h2 =>
    have e1 := h2.filterMap (f := ProjItem.prop?) (by intro x y h; cases h <;> rfl)
    have e2 := h2.filterMap (f := ProjItem.note?) (by intro x y h; cases h <;> rfl)
    simp only [Block.ast, Source.Project.ast, e1, e2]
  | table h1 h2 h3 =>
    have e1 := h3.filterMap (f := TItem.col?) (by intro x y h; cases h <;> rfl)
    have e2 := h3.filterMap (f := TItem.note?) (by intro x y h; cases h <;> rfl)
    have e3 := h3.filterMap (f := TItem.indexes?) (by intro x y h; cases h <;> rfl)
    cases h2 <;> simp [Block.ast, Table.ast, e1, e2, e3]
  | group h1 h2 =>
    have e1 := h2.filterMap (f := GItem.item?) (by intro x y h; cases h <;> rfl)
    have e2 := h2.filterMap (f := GItem.note?) (by intro x y h; cases h <;> rfl)
    simp only [Block.ast, Group.ast, e1, e2]
  | note h1 => rfl
  | ref h1 => rfl
  | enum h1 => rfl

theorem each_recased_ast {d d' : Doc} (h : Each Recased d d') : d.ast = d'.ast := by
  induction h with
  | nil => rfl
  | cons hr _ ih =>
    simp only [Doc.ast, List.map_cons] at ih ⊢
    rw [recased_ast hr, ih]

/-- **C43.** Keywords may be written in any letter case: if a document can be read, then so can the document with
its keywords re-cased, and to the same AST up to positions. -/
theorem C43_keywords_any_case (d d' : Doc) (hd : d.Ok) (hr : Each Recased d d') (t t' : Str)
    (h : Written d.toks t) (h' : Written d'.toks t') :
    ∃ s s', parseDbmlUnchecked t = .ok s ∧ parseDbmlUnchecked t' = .ok s' ∧
      s.blocks.map (·.mapSpan noPos) = s'.blocks.map (·.mapSpan noPos) := by
  obtain ⟨s, h1, h2, -⟩ := C44_written_is_read d hd t h
  obtain ⟨s', h1', h2', -⟩ := C44_written_is_read d' (hr.all (fun _ _ h => recased_ok h) hd) t' h'
  exact ⟨s, s', h1, h1', by rw [h2, h2', each_recased_ast hr]⟩

/-! ## A concrete document -/

/-- `users`, with an alias, settings, a default, an inline ref, an index and a note. -/
def exTable : Table :=
  { kw := k!"TABLE ", schema := some (.word k!"core"), name := .quoted (.of k!"my users")
    alias := some ⟨k!"As ", .word k!"U"⟩
    settings := some [⟨k!"headercolor", some (.lit (.hex k!"fff"))⟩]
    items := [
      .col ⟨.word k!"id", ⟨none, .plain k!"int" none [some k!"2", none]⟩,
        some [.attr ⟨k!"primary key", none⟩, .attr ⟨k!"note", some (.lit (.str (.single (.of k!"é"))))⟩,
          .ref ⟨.many2one, ⟨none, .word k!"posts", .one (.word k!"uid")⟩⟩]⟩,
      .col ⟨.quoted (.of k!"full name"), ⟨some (.word k!"s"), .quoted k!"my type" (some [.int k!"20", .dec k!"1" k!"5"]) [] []⟩,
        some [.attr ⟨k!"not null", none⟩, .attr ⟨k!"default", some (.word k!"set null x")⟩]⟩,
      .indexes ⟨k!"indexes", [.single (.expr (.of k!"lower(x)")) none,
        .multi [.name (.word k!"id"), .name (.quoted (.of k!"full name"))] (some [⟨k!"type", some (.word k!"hash")⟩, ⟨k!"unique", none⟩])]⟩,
      .note ⟨k!"NOTE", true, .triple (.of k!"it's")⟩] }

/-- One declaration of each kind. -/
def exDoc : Doc := [
  .project ⟨k!"project ", .word k!"shop", [.note ⟨k!"note", false, .single (.of k!"n")⟩, .prop k!"database_type" (.lit (.str (.single (.of k!"PostgreSQL"))))]⟩,
  .table exTable,
  .group ⟨k!"TableGroup ", .word k!"g", none, [.item (some (.word k!"core")) (.quoted (.of k!"my users")), .item none (.word k!"posts")]⟩,
  .ref ⟨k!"reF", some (.word k!"r"), true, ⟨none, .word k!"a", .many (.word k!"x") [.word k!"y"]⟩, .one2one, ⟨some (.word k!"s"), .word k!"b", .many (.word k!"x") [.word k!"y"]⟩, some [⟨k!"delete", some (.word k!"set null")⟩]⟩,
  .enum ⟨k!"Enum ", none, .word k!"e", [⟨.word k!"on", none⟩, ⟨.quoted (.of k!"not on"), some [⟨k!"note", some (.dq (.of k!"off"))⟩]⟩]⟩,
  .note ⟨k!"Note", false, .single (.of k!"bye")⟩]

theorem exDoc_ok : exDoc.Ok := by decide +kernel
theorem exDoc_printable : Printable exDoc := by unfold Printable; decide +kernel

/-- The hypotheses of `C44_written_is_read`, `C44_print_parse` are met by a document with every kind of declaration. -/
example : ∃ s, parseDbmlUnchecked (render exDoc) = .ok s ∧ s.blocks.map (·.mapSpan noPos) = exDoc.ast ∧
    s.input = render exDoc := C44_print_parse exDoc exDoc_ok exDoc_printable

/-- The same document with other keywords. -/
def exDoc' : Doc := [
  .project ⟨k!"PROJECT ", .word k!"shop", [.note ⟨k!"Note", false, .single (.of k!"n")⟩, .prop k!"database_type" (.lit (.str (.single (.of k!"PostgreSQL"))))]⟩,
  .note ⟨k!"nOTE", false, .single (.of k!"bye")⟩]

/-- The hypotheses of `C43_keywords_any_case` are met. -/
example : ∃ s s', parseDbmlUnchecked (render exDoc') = .ok s ∧
    parseDbmlUnchecked k!"// c\nproject shop{note:'n'database_type :'PostgreSQL'}note:/**/'bye'//" = .ok s' ∧
    s.blocks.map (·.mapSpan noPos) = s'.blocks.map (·.mapSpan noPos) := by
  refine C43_keywords_any_case exDoc' [
    .project ⟨k!"project ", .word k!"shop", [.note ⟨k!"note", false, .single (.of k!"n")⟩, .prop k!"database_type" (.lit (.str (.single (.of k!"PostgreSQL"))))]⟩,
    .note ⟨k!"note", false, .single (.of k!"bye")⟩] (by decide +kernel)
    (.cons (.project rfl (.cons (.note rfl) (.cons (.prop _ _) .nil))) (.cons (.note rfl) .nil)) _ _
    (render_written _ (by unfold Printable; decide +kernel)) ?_
  have nw : ∀ {c : Char} {r : Str}, ¬ IsWord c → Next.word (c :: r) := by
    rintro c r h _ _ e
    injection e with e _
    exact e ▸ h
  refine ⟨k!"// c\n", _, rfl, .line (body := k!" c") (by decide) (.inl rfl) .nil, trivial, ?_⟩
  refine ⟨[], _, rfl, .nil, nw (by decide), ?_⟩
  refine ⟨[], _, rfl, .nil, trivial, ?_⟩
  refine ⟨[], _, rfl, .nil, trivial, ?_⟩
  refine ⟨[], _, rfl, .nil, trivial, ?_⟩
  refine ⟨[], _, rfl, .nil, fun h => absurd h (by decide), ?_⟩
  refine ⟨[], _, rfl, .nil, ⟨nw (by decide), by simp [IsWord]⟩, ?_⟩
  refine ⟨[' '], _, rfl, .space (by decide) .nil, trivial, ?_⟩
  refine ⟨[], _, rfl, .nil, fun h => absurd h (by decide), ?_⟩
  refine ⟨[], _, rfl, .nil, trivial, ?_⟩
  refine ⟨[], _, rfl, .nil, trivial, ?_⟩
  refine ⟨[], _, rfl, .nil, trivial, ?_⟩
  refine ⟨k!"/**/", _, rfl, .block (body := []) (by decide) .nil, fun h => absurd h (by decide), ?_⟩
  exact .inr ⟨[], [], rfl, .nil, by simp⟩

end Dbml.Props
