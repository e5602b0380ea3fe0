import Verif.Model.Str

/-!
# What the text of an error looks like

Independent of the model of pest: pictures as a user sees them.

```
 --> 3:9
  |
3 | Table t ( a int )
  |         ^---
  |
  = expected block_settings, table_block, or table_alias
```
-/

namespace Dbml.Spec

/-- A number in decimal. -/
def num (n : Nat) : Str := Nat.toDigits 10 n

/-- So many blanks. -/
def blanks (n : Nat) : Str := List.replicate n ' '

/-- A number in a column of the given width. -/
def numIn (w n : Nat) : Str := blanks (w - (num n).length) ++ num n

/-- A line of the text on display: line breaks are left out or, if they are to be seen, shown as symbols. -/
def shown (breaks : Bool) (line : Str) : Str :=
  if breaks then line.map fun c => if c = '\r' then '␍' else if c = '\n' then '␊' else c
  else line.filter fun c => c != '\r' && c != '\n'

/-- Blank space as wide as the text. -/
def under (s : Str) : Str := s.map fun c => if c = '\t' then '\t' else ' '

/-- A marker under `n` characters. -/
def hat (n : Nat) : Str := if n ≤ 1 then k!"^" else k!"^" ++ List.replicate (n - 2) '-' ++ k!"^"

/-- The picture: the place, the line (and possibly more lines), the marker, the message. -/
def picture (width l c : Nat) (line more marker message : Str) : Str :=
  blanks width ++ k!"--> " ++ num l ++ k!":" ++ num c ++ k!"\n" ++
  blanks width ++ k!" |\n" ++
  numIn width l ++ k!" | " ++ line ++ k!"\n" ++
  more ++
  blanks width ++ k!" | " ++ marker ++ k!"\n" ++
  blanks width ++ k!" |\n" ++
  blanks width ++ k!" = " ++ message

/-- A last line, with its number, after the first one; dots stand for the lines between them. -/
def lastShown (width l l' : Nat) (line : Str) : Str :=
  (if l + 1 < l' then blanks width ++ k!" | ...\n" else []) ++ numIn width l' ++ k!" | " ++ line ++ k!"\n"

/-- The text is the beginning of a file up to the start of a line. -/
def AtLineStart (a : Str) : Prop := a = [] ∨ ∃ x, a = x ++ k!"\n"

/-- `r` is the rest of a line, and `z` is what comes after it. -/
def RestOfLine (r z : Str) : Prop := (∃ b, '\n' ∉ b ∧ r = b ++ k!"\n") ∨ ('\n' ∉ r ∧ z = [])

/-- A line, with its line break if it has one. -/
def IsLine (l : Str) : Prop := ∃ b, '\n' ∉ b ∧ (l = b ++ k!"\n" ∨ l = b)

/-- The text begins or ends with a character of a line break. -/
def BreakAtEdge (m : Str) : Prop := m.head? = some '\n' ∨ m.head? = some '\r' ∨ m.getLast? = some '\n' ∨ m.getLast? = some '\r'

instance (m : Str) : Decidable (BreakAtEdge m) := by unfold BreakAtEdge; infer_instance

end Dbml.Spec
