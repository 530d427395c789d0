import Verif.Model.DataBlockBuffer
import Verif.Model.Pipeline
/-!
# Threads that read blocks into data block buffers

`decode` (`src/decode_core.rs` 837-990 and 1039-1500) and the container hash (`src/sbx_container_content.rs` 55-192) have
reader threads of the same shape:

```text
while let Some(mut buffer) = from_last.recv().unwrap() {
    if !run { break; }
    while !buffer.is_full() {
        ...                                  // may set `run = false` and leave the loop
        let Slot { block, slot, .. } = buffer.get_slot().unwrap();
        ...                                  // changes the slot; may call `buffer.cancel_slot()`; may leave the loop
    }
    to_next.send(Some(buffer)).unwrap();
}
```

followed by threads that go through the buffer, the last of which resets it.  This file is that shape; what is done in one
iteration is a parameter.
-/

namespace Verif.BlockRing

/-- One iteration of `while !buffer.is_full()`: the loop is left before a slot is taken (`run = false`), or a slot is
handed out and changed.  In the second case: the new state of the reader, the changed slot, whether the slot is cancelled,
and whether the loop goes on (if not, `run` is set to `false`). -/
inductive Act (R : Type)
  | halt (r : R)
  | slot (f : Slot → R × Slot × Bool × Bool)

/-- The slot `get_slot().unwrap()` hands out; `none` is the panic. -/
def slotAt (b : Buffer) : Option Slot :=
  match b.getSlot with
  | (_, none) => none
  | (b, some place) => (b.lots[place.1]?).bind fun l => l.slots[place.2]?

/-- `while !buffer.is_full()`: reader state, `run` and buffer afterwards; `none` is a panic (or lack of fuel). -/
def fillLoop {R : Type} (act : R → Act R) : Nat → R → Buffer → Option (R × Bool × Buffer)
  | 0, _, _ => none
  | n + 1, r, b =>
    if b.isFull then some (r, true, b)
    else
      match act r with
      | .halt r => some (r, false, b)
      | .slot f =>
        match slotAt b with
        | none => none
        | some s =>
          match b.fill fun _ => (f s).2.1 with
          | none => none
          | some b =>
            match if (f s).2.2.1 then b.cancelSlot else some b with
            | none => none
            | some b => if (f s).2.2.2 then fillLoop act n (f s).1 b else some ((f s).1, false, b)

/-- State of a thread: the reader uses `rd` and `run`, the other threads `con`. -/
structure St (R C : Type) where
  rd : R
  run : Bool
  con : C
  panicked : Bool

variable {R C : Type}

/-- Loop body of the reader thread. -/
def readerStep (act : R → Act R) (fuel : Nat) (s : St R C) (b : Buffer) : St R C × Option (List Buffer) :=
  if !s.run then (s, none)
  else
    match fillLoop act fuel s.rd b with
    | none => ({ s with panicked := true }, none)
    | some (r, run, b) => ({ s with rd := r, run := run }, some [b])

/-- Loop body of another thread; `none` is a panic. -/
def consumerStep (f : C → Buffer → Option (C × Buffer)) (s : St R C) (b : Buffer) : St R C × Option (List Buffer) :=
  match f s.con b with
  | none => ({ s with panicked := true }, none)
  | some (c, b) => ({ s with con := c }, some [b])

/-- `PIPELINE_BUFFER_IN_ROTATION`, `src/decode_core.rs` 41: the capacity is one more than the number of
buffers. -/
def ring2 (cap : Nat) (act : R → Act R) (fuel : Nat) (last : C → Buffer → Option (C × Buffer)) : Pipeline.Ring 2 (St R C) Buffer where
  step i s b := if i = 0 then readerStep act fuel s b else consumerStep last s b
  cap _ := cap

def ring3 (cap : Nat) (act : R → Act R) (fuel : Nat) (mid last : C → Buffer → Option (C × Buffer)) :
    Pipeline.Ring 3 (St R C) Buffer where
  step i s b := if i = 0 then readerStep act fuel s b else if i = 1 then consumerStep mid s b else consumerStep last s b
  cap _ := cap

/-- `buffer.write(writer)` then `buffer.reset()`, e.g. `src/decode_core.rs` 969-978. -/
def fileWriter (d : Disk) (b : Buffer) : Option (Disk × Buffer) := some ((b.write d).2, (b.write d).1.reset)

/-- `buffer.write_no_seek(writer)` then `buffer.reset()`, e.g. `src/decode_core.rs` 1244-1253. -/
def stdoutWriter (out : List Byte) (b : Buffer) : Option (List Byte × Buffer) := some (out ++ b.emit.2, b.emit.1.reset)

/-- `buffer.hash(hash_ctx)`, e.g. `src/decode_core.rs` 1225-1231: the bytes fed to the hash so far. -/
def hasher (bytes : List Byte) (b : Buffer) : Option (List Byte × Buffer) := b.hashPart.map fun x => (bytes ++ x, b)

/-- `buffer.hash(hash_ctx)` then `buffer.reset()`, `src/sbx_container_content.rs` 175-181. -/
def hasherReset (bytes : List Byte) (b : Buffer) : Option (List Byte × Buffer) := b.hashPart.map fun x => (bytes ++ x, b.reset)

/-- What the reader and the last thread leave behind when the threads run one after the other on each buffer (by C20 every
schedule ends the same way); `none`: a thread panicked. -/
def run2 (cap : Nat) (act : R → Act R) (fuel : Nat) (last : C → Buffer → Option (C × Buffer)) (r : R) (x : C) (bufs : List Buffer) :
    Option (R × C) :=
  match (ring2 cap act fuel last).runSeq (fuel + 1) (fun _ => ⟨r, true, x, false⟩) bufs with
  | none => none
  | some st => if (st 0).panicked || (st 1).panicked then none else some ((st 0).rd, (st 1).con)

def run3 (cap : Nat) (act : R → Act R) (fuel : Nat) (mid last : C → Buffer → Option (C × Buffer)) (r : R) (x : C)
    (bufs : List Buffer) : Option (R × C × C) :=
  match (ring3 cap act fuel mid last).runSeq (fuel + 1) (fun _ => ⟨r, true, x, false⟩) bufs with
  | none => none
  | some st =>
    if (st 0).panicked || (st 1).panicked || (st 2).panicked then none else some ((st 0).rd, (st 1).con, (st 2).con)

end Verif.BlockRing
