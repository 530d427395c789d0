import Verif.Model.File
/-!
# What an operating system makes of a list of writes

Independent of the models of the writers; only `File.writeAt`, a completely carried out write, is used.
-/

namespace Verif.DeviceSpec

/-- Answers to write calls, by number of the call and bytes to be written: `none` is an error, `some k`: the first `k` bytes are taken. -/
abbrev Answers := Nat → List Byte → Option Nat

/-- Every call either takes all bytes or is an error. -/
def WholeOrError (A : Answers) : Prop := ∀ n bs k, A n bs = some k → bs.length ≤ k

/-- No call is an error. -/
def NeverError (A : Answers) : Prop := ∀ n bs, A n bs ≠ none

/-- The writes `ws` (position and bytes), issued with one call each, the first of them being call number `n`: the file afterwards; `none`
if a call is answered with an error. -/
def carriedOut (A : Answers) : Nat → File → List (Nat × List Byte) → Option File
  | _, f, [] => some f
  | n, f, (pos, bs) :: ws =>
    match A n bs with
    | none => none
    | some k => carriedOut A (n + 1) (f.writeAt pos (bs.take k)) ws

/-- What is in the file in the end if the first call answered with an error is the last one: the writes before it have been carried out. -/
def left (A : Answers) : Nat → File → List (Nat × List Byte) → File
  | _, f, [] => f
  | n, f, (pos, bs) :: ws =>
    match A n bs with
    | none => f
    | some k => left A (n + 1) (f.writeAt pos (bs.take k)) ws

/-- Pieces written to a stream with one call each. -/
def arrives (A : Answers) : Nat → List (List Byte) → Option (List Byte)
  | _, [] => some []
  | n, bs :: ws =>
    match A n bs, arrives A (n + 1) ws with
    | some k, some out => some (bs.take k ++ out)
    | _, _ => none

/-- The bytes after the last newline. -/
def afterLines (bs : List Byte) : List Byte := (bs.reverse.takeWhile (fun b => b ≠ 10)).reverse

/-- What a line buffered standard output takes of a piece: all of it if there is no newline in it; otherwise no more than 1024 of the
bytes after the last newline. -/
def lineTaken (bs : List Byte) : Nat := if 10 ∈ bs then bs.length - ((afterLines bs).length - 1024) else bs.length

/-- A line buffered standard output in front of a system that takes everything. -/
def lineBuffered : Answers := fun _ bs => some (lineTaken bs)

end Verif.DeviceSpec
