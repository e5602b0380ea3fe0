import Verif.Model.Str

/-!
# Edits of a text by spans

The text before a span, the text after it, and the text with the part at the span replaced or taken out.
-/

namespace Dbml.Props

/-- The text before a span, and the text after it. -/
def before (txt : Str) (sp : Span) : Str := takeBytes txt sp.start
def after (txt : Str) (sp : Span) : Str := dropBytes txt sp.stop

/-- The text with the part at the span replaced by `u` on lines of its own. -/
def splice (txt : Str) (sp : Span) (u : Str) : Str := before txt sp ++ '\n' :: (u ++ '\n' :: after txt sp)

/-- The text with the part at the span replaced by a line break. -/
def without (txt : Str) (sp : Span) : Str := before txt sp ++ '\n' :: after txt sp

/-- The position where a span begins, and the position where it ends, as empty spans. -/
def atStart (sp : Span) : Span := ⟨sp.start, sp.start⟩
def atStop (sp : Span) : Span := ⟨sp.stop, sp.stop⟩

/-- `/*` does not occur in `a`, or `*/` not in `b`: no comment can begin in `a` and end in `b`. -/
def Clear (a b : Str) : Prop := ¬ k!"/*" <:+: a ∨ ¬ k!"*/" <:+: b

instance (a b : Str) : Decidable (Clear a b) := inferInstanceAs (Decidable (_ ∨ _))

/-- The text `u` may stand at the span, on lines of its own. -/
def FitsAt (txt : Str) (sp : Span) (u : Str) : Prop := Clear (before txt sp) u ∧ Clear u (after txt sp)

instance (txt : Str) (sp : Span) (u : Str) : Decidable (FitsAt txt sp u) := inferInstanceAs (Decidable (_ ∧ _))

end Dbml.Props
