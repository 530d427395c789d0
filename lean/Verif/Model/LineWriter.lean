import Verif.Model.Device
/-!
# `std::io::Stdout`

`decode` to standard output writes with `Stdout::write` (`src/writer.rs` 24-32, `src/decode_core.rs` 770), which goes through the
`LineWriter` of the standard library (`library/std/src/io/buffered/linewritershim.rs` and `bufwriter.rs`, Rust 1.46 and later;
capacity 1024).  The operating system below it takes everything it is given.  The standard library is not part of `/repo`: this file
belongs to the trusted base.
-/

namespace Verif.Device

/-- What the operating system has got, and what the writer still holds. -/
structure LineWriter where
  raw : List Byte
  buf : List Byte
deriving DecidableEq

namespace LineWriter

/-- Capacity given by `LineWriter::new`. -/
def capacity : Nat := 1024

/-- Number of bytes up to and including the last newline (`memrchr(b'\n', buf)` and one more); `none`: there is no newline. -/
def lines : List Byte → Option Nat
  | [] => none
  | b :: bs =>
    match lines bs with
    | some n => some (n + 1)
    | none => if b = 10 then some 1 else none

/-- `BufWriter::flush_buf`. -/
def flush (w : LineWriter) : LineWriter := ⟨w.raw ++ w.buf, []⟩

/-- `BufWriter::write`: what fits is buffered; otherwise the buffer is flushed first, and pieces not smaller than the buffer are written
at once. -/
def bufWrite (w : LineWriter) (bs : List Byte) : LineWriter × Nat :=
  if bs.length < capacity - w.buf.length then (⟨w.raw, w.buf ++ bs⟩, bs.length)
  else
    let w := if capacity - w.buf.length < bs.length then w.flush else w
    if capacity ≤ bs.length then (⟨w.raw ++ bs, w.buf⟩, bs.length) else (⟨w.raw, w.buf ++ bs⟩, bs.length)

/-- `LineWriterShim::flush_if_completed_line`. -/
def flushIfCompleted (w : LineWriter) : LineWriter := if w.buf.getLast? = some 10 then w.flush else w

/-- `LineWriterShim::write`: without a newline as `BufWriter`; otherwise the lines are written at once, and of the rest is buffered what
fits into the empty buffer.  Second component: the number of bytes said to be taken. -/
def write (w : LineWriter) (bs : List Byte) : LineWriter × Nat :=
  match lines bs with
  | none => w.flushIfCompleted.bufWrite bs
  | some n => (⟨w.flush.raw ++ bs.take n, (bs.drop n).take capacity⟩, n + ((bs.drop n).take capacity).length)

/-- At the end of the program the buffer is flushed. -/
def exit (w : LineWriter) : List Byte := w.flush.raw

/-- Pieces written one after the other, the numbers returned not looked at (`src/data_block_buffer/mod.rs` 597). -/
def writes (w : LineWriter) (chunks : List (List Byte)) : LineWriter := chunks.foldl (fun w c => (w.write c).1) w

end LineWriter

end Verif.Device
