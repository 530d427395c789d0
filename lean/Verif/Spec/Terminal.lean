/-!
# A terminal

Lines above the current one, the current one, and the column of the cursor.  Lines are taken to be shorter than the terminal is wide.
-/

namespace Verif.Terminal

structure Screen where
  above : List (List Char)
  line : List Char
  col : Nat

def blank : Screen := ⟨[], [], 0⟩

/-- A character arrives: carriage return and newline move the cursor, all others are shown at the cursor, over what was there. -/
def Screen.put (s : Screen) (c : Char) : Screen :=
  if c = '\r' then { s with col := 0 }
  else if c = '\n' then ⟨s.above ++ [s.line], [], 0⟩
  else ⟨s.above, s.line.take s.col ++ List.replicate (s.col - s.line.length) ' ' ++ c :: s.line.drop (s.col + 1), s.col + 1⟩

def Screen.puts (s : Screen) (text : List Char) : Screen := text.foldl Screen.put s

/-- A line that consists of a text and blanks after it. -/
def Shows (line text : List Char) : Prop := ∃ n, line = text ++ List.replicate n ' '

end Verif.Terminal
