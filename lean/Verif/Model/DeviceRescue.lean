import Verif.Model.Device
import Verif.Model.Rescue
/-!
# `rescue` on an operating system that may refuse, or take only a part

As `Verif/Model/Device.lean`: the threads are those of `Verif/Model/Rescue.lean`, but the blocks go through a `BufWriter`
(`src/rescue_buffer/mod.rs` 119-127: `append` and `buffered`) to an operating system that answers every write call.  Opening files does
not fail; the log thread is left out (what may be in the log is a matter of the counters, `Verif/Spec/Rescue.lean`).
-/

namespace Verif.Device

/-- `BufWriter::write` (`Buffered.put`), with the writer afterwards also if there is an error. -/
def Buffered.offer (A : Os) (d : Buffered) (bs : List Byte) : Buffered × Bool :=
  match if capacity < d.buf.length + bs.length then d.flush A else (d, true) with
  | (d, false) => (d, false)
  | (d, true) =>
    if bs.length < capacity then ({ d with buf := d.buf ++ bs }, true)
    else
      match A d.calls bs with
      | none => ({ d with calls := d.calls + 1 }, false)
      | some k => (⟨d.file.writeAt d.pos (bs.take k), d.pos + (bs.take k).length, d.buf, d.calls + 1⟩, true)

/-- The loop over the blocks of a group, `src/rescue_buffer/mod.rs` 129-133; the number of bytes taken is ignored. -/
def appendBlocks (A : Os) : List (List Byte) → Buffered → Buffered × Bool
  | [], d => (d, true)
  | b :: bs, d =>
    match d.offer A b with
    | (d, false) => (d, false)
    | (d, true) => appendBlocks A bs d

/-- What the device keeps: the files of the output directory by name, the number of write calls so far, and whether the writer thread has
met an error. -/
structure Files where
  dir : List Byte → File
  calls : Nat
  failed : Bool

/-- One group, lines 115-134: the file is opened for appending, and closed by the destructor of the writer, which tries to flush (also
after an error) and ignores the outcome. -/
def appendGroup (A : Os) (d : Files) (name : List Byte) (blocks : List (List Byte)) : Files :=
  match appendBlocks A blocks ⟨d.dir name, (d.dir name).length, [], d.calls⟩ with
  | (w, ok) => ⟨Function.update d.dir name (w.flush A).1.file, (w.flush A).1.calls, d.failed || !ok⟩

/-- `RescueBuffer::write`, lines 114-137 (`Rescue.Buffer.write`): stops at the first error. -/
def rescueGroups (A : Os) (b : Rescue.Buffer) : List (Uid × List Nat) → Files → Files
  | [], d => d
  | g :: gs, d =>
    let d := appendGroup A d (Misc.upperHex g.1.bytes) (g.2.filterMap fun i => b.slots[i]?.map fun s => s.data.take s.block.size)
    if d.failed then d else rescueGroups A b gs d

/-- The three threads (`Rescue.ring`); the writer, `src/rescue_core.rs` 413-446, breaks on an error, before the counters are updated. -/
def rescueRing (A : Os) (E : Rescue.Env) (p : Rescue.Param) (f : File) (required : Nat) : Pipeline.Ring 3 (Rescue.St × Files) Rescue.Msg where
  step := fun i st m =>
    if i = 2 then
      let d := rescueGroups A m.2 (E.order st.1.turn m.2.groups) st.2
      if d.failed then ((st.1, d), none)
      else (((Rescue.writerStep E st.1 m).1, d), (Rescue.writerStep E st.1 m).2)
    else
      match (Rescue.ring E p f required).step i st.1 m with
      | (s, out) => ((s, st.2), out)
  cap := fun _ => E.buffers + 1

/-- The pipeline before the threads start, with counters `c` read from the log and the files `dir` in the output directory. -/
def rescueInitial (E : Rescue.Env) (p : Rescue.Param) (f : File) (c : Rescue.Counters) (dir : List Byte → File) :
    Pipeline.Sys 3 (Rescue.St × Files) Rescue.Msg :=
  Pipeline.initial (fun _ => (Rescue.St.start p f c, ⟨dir, 0, false⟩)) (List.replicate E.buffers (.zero, Rescue.Buffer.new E.slots))

end Verif.Device
