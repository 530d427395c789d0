import Verif.Model.Decode
/-!
# Model of `src/sbx_container_content.rs`: hashing the file stored in a container

Used by `update` to record a hash and by `check` to compare with the recorded one.  Errors reported by the operating system and
progress reports are left out.
-/

namespace Verif.ContentHash
open Misc Scan BlockRing

/-- State of the reader thread, lines 86-90; `failed`: an error was sent. -/
structure RdSt where
  seq : Nat
  processed : Nat
  checks : Nat
  failed : Bool

/-- Configuration of the buffers, lines 62-72 (the uid is not known to them: six zeros). -/
def cfg (ref : Block) (dpb : Option Dpb) : LotCfg :=
  { version := ref.header.version, uid := ⟨[0, 0, 0, 0, 0, 0], rfl⟩, inputData := false, outputType := .disabled, dpb := dpb,
    metaEnabled := true, skipGood := false, defaultLotSize := 100 }

/-- `incre_or_stop_run_if_last!`, line 152. -/
def advance (r : RdSt) (s : Slot) (cancel : Bool) : RdSt × Slot × Bool × Bool :=
  if r.seq = lastSeqNum then (r, s, cancel, false) else ({ r with seq := r.seq + 1 }, s, cancel, true)

/-- What is done with a slot, lines 109-155.  After an error the slot is not cancelled (lines 147-149). -/
def slotStep (f : File) (ref : Block) (dpb : Option Dpb) (total : Nat) (r : RdSt) (s : Slot) : RdSt × Slot × Bool × Bool :=
  match Decode.expect f (Layout.dataWritePos ref.header.version r.seq none dpb) ref r.seq s with
  | (s, _, ok) =>
    let r := { r with checks := r.checks + 1 }
    if Layout.isParityDpb r.seq dpb then advance r s true
    else if ok then
      if total - r.processed ≤ ref.header.version.dataSize then
        ({ r with processed := total }, { s with contentLen := some (total - r.processed) }, false, false)
      else advance { r with processed := r.processed + ref.header.version.dataSize } s false
    else ({ r with failed := true }, s, false, false)

/-- One iteration of the reader's inner loop, lines 97-156. -/
def act (stop : Nat → Bool) (f : File) (ref : Block) (dpb : Option Dpb) (total : Nat) (r : RdSt) : Act RdSt :=
  if stop r.checks then .halt r else .slot (slotStep f ref dpb total r)

/-- `PIPELINE_BUFFER_IN_ROTATION`, line 19. -/
def buffersInRotation : Nat := 2

/-- `hash`, lines 21-203: the hash of type `t` of the first `total` bytes stored in the container.  The sequence number grows with
every iteration, so `fuel = 2 ^ 32 + 3` is enough. -/
def hash (H : HashFn) (lotCount : Nat) (stop : Nat → Bool) (t : HashType) (f : File) (ref : Block) (dpb : Option Dpb) (total : Nat) :
    Except Err HashBytes :=
  match run2 (buffersInRotation + 1) (act stop f ref dpb total) (2 ^ 32 + 3) hasherReset ⟨1, 0, 0, false⟩ []
      (Buffer.newMulti (cfg ref dpb) lotCount buffersInRotation) with
  | none => .error .panic
  | some (r, bytes) => if r.failed then .error .other else .ok (H.bytes t bytes)

end Verif.ContentHash
