/-!
# Model of the JSON output: `src/json_printer.rs`, `src/json_macros.rs`, `src/json_utils.rs` and `src/misc_utils.rs` 202-251

A Rust string is the list of its characters; positions in it are counted in bytes of UTF-8, as in the code.  `none` is a panic.
Modelled is the mode `json_enabled = true`; printing to a channel and writing to a formatter produce the same text, and both are
one function here.  `to_lowercase` and `to_uppercase` are those of ASCII (they are applied to the labels, which are literals).
-/

namespace Verif.Json

abbrev Str := List Char

/-! ### Slices of strings -/

/-- The rest of a string behind `n` bytes; `none` if that is not a character boundary (Rust panics). -/
def dropBytes : Str → (n : Nat) → Option Str
  | s, 0 => some s
  | [], _ + 1 => none
  | c :: s, n + 1 => if c.utf8Size ≤ n + 1 then dropBytes s (n + 1 - c.utf8Size) else none

/-- The first `n` bytes of a string; `none` if that is not a character boundary. -/
def takeBytes : Str → (n : Nat) → Option Str
  | _, 0 => some []
  | [], _ + 1 => none
  | c :: s, n + 1 => if c.utf8Size ≤ n + 1 then (takeBytes s (n + 1 - c.utf8Size)).map (c :: ·) else none

/-- Length in bytes (`str::len`). -/
def byteLen (s : Str) : Nat := (s.map Char.utf8Size).sum

/-- `&s[a..b]`. -/
def slice (s : Str) (a b : Nat) : Option Str :=
  if a ≤ b then (dropBytes s a).bind fun t => takeBytes t (b - a) else none

/-! ### Text utilities -/

/-- The loop of `strip_front_end_chars`, `src/misc_utils.rs` 224-233: `start` and `end_inc`, counted in characters. -/
def stripLoop (chars : Str) : (i : Nat) → Option Nat → Nat → Str → Option Nat × Nat
  | _, start, endInc, [] => (start, endInc)
  | i, start, endInc, c :: s =>
    if c ∈ chars then stripLoop chars (i + 1) start endInc s
    else stripLoop chars (i + 1) (start.orElse fun _ => some i) i s

/-- `strip_front_end_chars`, `src/misc_utils.rs` 224-240. -/
def strip (chars : Str) (s : Str) : Option Str :=
  let (start, endInc) := stripLoop chars 0 none 0 s
  if endInc < byteLen s then slice s (start.getD 0) (endInc + 1) else slice s (start.getD 0) (byteLen s)

/-- The loop of `split_key_val_pair`, `src/json_utils.rs` 4-10: the number of characters before the first colon, or 0. -/
def colon (s : Str) : Nat := (s.findIdx? (· = ':')).getD 0

/-- `split_key_val_pair`, `src/json_utils.rs` 3-16. -/
def splitKeyVal (s : Str) : Option (Str × Str) := do
  let l ← slice s 0 (colon s)
  let l ← strip [' '] l
  let r ← slice s (colon s + 1) (byteLen s)
  let r ← strip [' '] r
  return (l, r)

/-- `string.split(' ')`. -/
def splitSpace : Str → List Str
  | [] => [[]]
  | c :: s => if c = ' ' then [] :: splitSpace s else match splitSpace s with
    | [] => [[c]]
    | w :: ws => (c :: w) :: ws

/-- Body of the loop of `to_camelcase`, `src/misc_utils.rs` 208-218. -/
def camelWord (w : Str) : Option Str :=
  (strip [' ', '(', ')'] w).map fun
    | [] => []
    | c :: s => c.toUpper :: s

/-- `to_camelcase`, `src/misc_utils.rs` 202-222. -/
def toCamelcase (s : Str) : Option Str :=
  match splitSpace s with
  | [] => none
  | w :: ws => (ws.mapM camelWord).map fun l => w.map Char.toLower ++ l.flatten

/-- `escape_quotes`, `src/misc_utils.rs` 242-251. -/
def escapeQuotes (s : Str) : Str := s.flatMap fun c => if c = '"' then ['\\', c] else [c]

/-- The text behind an optional plus sign. -/
def dropPlus : Str → Str
  | '+' :: r => r
  | s => s

/-- `parse::<u64>()`: an optional plus sign and decimal digits, failing on overflow. -/
def parseU64 (s : Str) : Option Nat :=
  let ds := dropPlus s
  if ds ≠ [] ∧ ds.all Char.isDigit ∧ Nat.ofDigitChars 10 ds 0 < 2 ^ 64 then some (Nat.ofDigitChars 10 ds 0) else none

/-- `determine_if_skip_quotes!`, `src/json_macros.rs` 1-15. -/
def skipQuotes (force : Bool) (v : Str) : Bool :=
  !force && (v == "null".toList || v == "true".toList || v == "false".toList || (parseU64 v).isSome)

/-! ### The printer -/

/-- `enum BracketType`, `src/json_printer.rs` 8-12. -/
inductive Bracket
  | curly | square
  deriving DecidableEq, Repr

/-- `bracket_type_to_str_open`, lines 55-60. -/
def Bracket.openChar : Bracket → Char
  | curly => '{' | square => '['

/-- `bracket_type_to_str_close`, lines 62-67. -/
def Bracket.closeChar : Bracket → Char
  | curly => '}' | square => ']'

/-- `struct JSONContext`, lines 14-18. -/
structure Ctx where
  firstItem : Bool
  bracket : Bracket
  deriving DecidableEq, Repr

/-- `struct JSONPrinter`, lines 29-34, with the text printed so far.  The innermost context comes first. -/
structure Printer where
  contexts : List Ctx
  out : Str
  deriving DecidableEq, Repr

/-- `JSONPrinter::new`, lines 70-76. -/
def Printer.new : Printer := ⟨[], []⟩

/-- `print_json_field!`, `src/json_macros.rs` 40-57. -/
def fieldText (key val : Str) (force noComma : Bool) : Option Str :=
  (toCamelcase key).map fun k =>
    (if noComma then [] else [',']) ++ '"' :: k ++ ['"', ':', ' '] ++
      (if skipQuotes force val then escapeQuotes val else '"' :: escapeQuotes val ++ ['"']) ++ ['\n']

/-- `print_open_bracket`, lines 101-122, `write_open_bracket`, lines 124-152. -/
def Printer.openBracket (p : Printer) (name : Option Str) (b : Bracket) : Option Printer :=
  let comma := match p.contexts with
    | [] => []
    | x :: _ => if x.firstItem then [] else [',']
  let outer := match p.contexts with
    | [] => []
    | x :: xs => { x with firstItem := false } :: xs
  let label := match name with
    | none => some []
    | some n => (toCamelcase n).map fun k => '"' :: k ++ ['"', ':', ' ']
  label.map fun label => ⟨⟨true, b⟩ :: outer, p.out ++ comma ++ label ++ [b.openChar, '\n']⟩

/-- `print_close_bracket`, lines 154-162, `write_close_bracket`, lines 164-172. -/
def Printer.closeBracket (p : Printer) : Option Printer :=
  match p.contexts with
  | [] => none
  | x :: xs => some ⟨xs, p.out ++ [x.bracket.closeChar, '\n']⟩

/-- `print_maybe_json`, lines 174-188, `write_maybe_json`, lines 189-209. -/
def Printer.maybeJson (p : Printer) (force : Bool) (msg : Str) : Option Printer :=
  match p.contexts with
  | [] => none
  | x :: xs => do
    let (l, r) ← splitKeyVal msg
    let t ← fieldText l r force x.firstItem
    return ⟨{ x with firstItem := false } :: xs, p.out ++ t⟩

/-- A call of the printer. -/
inductive Call
  | openB (name : Option Str) (b : Bracket)
  | close
  | msg (force : Bool) (text : Str)

/-- The effect of a call. -/
def Printer.call (p : Printer) : Call → Option Printer
  | .openB name b => p.openBracket name b
  | .close => p.closeBracket
  | .msg force text => p.maybeJson force text

/-- A sequence of calls. -/
def Printer.run : Printer → List Call → Option Printer
  | p, [] => some p
  | p, c :: cs => (p.call c).bind fun p => p.run cs

/-- `exit_with_msg!(ok …)`, `src/cli_macros.rs` 2-9, the text of the statistics printed before. -/
def exitOk : List Call := [.msg false "error : null".toList, .close]

/-- `exit_with_msg!(usr …)` and `exit_with_msg!(op …)`, `src/cli_macros.rs` 11-32: an error message. -/
def Printer.exitErr (p : Printer) (text : Str) : Option Printer :=
  match p.contexts with
  | [] => none
  | x :: _ => do
    let t ← fieldText "error".toList text false x.firstItem
    Printer.closeBracket { p with out := p.out ++ t }

end Verif.Json
