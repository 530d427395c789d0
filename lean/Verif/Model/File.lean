import Verif.Model.Bytes
/-!
# Files and external codecs

Files as byte strings.  The operating system's files are outside `/repo`; this is the interface through which
`src/file_reader.rs`, `src/file_writer.rs`, `src/reader.rs` and `src/writer.rs` use them.  Reads deliver all the bytes
asked for unless the end of file comes first (how `FileReader::read` copes with short reads is `Verif/Model/Reader.lean`),
writes are complete.
-/

namespace Verif

/-- A file: its bytes. -/
abbrev File := List Byte

namespace File

/-- `seek(Start(pos))` then `read` of `n` bytes (`src/file_reader.rs` 97-117): the bytes delivered, fewer than `n` exactly
when the end of file is reached (`eof_seen`). -/
def readAt (f : File) (pos n : Nat) : List Byte := (f.drop pos).take n

/-- `seek(Start(pos))` then `write` (`src/file_writer.rs` 125-130): writing beyond the end leaves a hole of zeros;
writing nothing changes nothing. -/
def writeAt (f : File) (pos : Nat) (bs : List Byte) : File :=
  if bs = [] then f
  else f.take pos ++ List.replicate (pos - f.length) 0 ++ bs ++ f.drop (pos + bs.length)

/-- `set_len` (`src/file_writer.rs` 158-163): cut, or extend with zeros. -/
def setLen (f : File) (n : Nat) : File := f.take n ++ List.replicate (n - f.length) 0

/-- A sequence of positioned writes, in order. -/
def writes (f : File) (ws : List (Nat × List Byte)) : File := ws.foldl (fun f w => writeAt f w.1 w.2) f

end File

/-- An output file being written: what it contained when it was opened and the writes issued since, oldest first. -/
structure Disk where
  init : File
  ops : List (Nat × List Byte)

namespace Disk

/-- What the file contains when all writes issued have been carried out. -/
def file (d : Disk) : File := d.init.writes d.ops

/-- `seek(Start(pos))` then `write`, see `File.writeAt`. -/
def writeAt (d : Disk) (pos : Nat) (bs : List Byte) : Disk := { d with ops := d.ops ++ [(pos, bs)] }

end Disk

/-- The Reed-Solomon erasure codec, external crate `reed-solomon-erasure` 4.0, used by
`src/data_block_buffer/mod.rs` 357-376 (`encode`) and `src/rs_codec/repairer.rs` 288-300 (`reconstruct`). -/
structure RsCodec where
  /-- parity shards for the given data shards -/
  encode : (data parity : Nat) → List (List Byte) → List (List Byte)
  /-- all shards, given each shard's bytes and whether it is present; `none` is `Err(_)` -/
  reconstruct : (data parity : Nat) → List (List Byte × Bool) → Option (List (List Byte))

/-- What the documentation of the codec promises: parity shards have the length of the data shards, any `data` shards of
a code word determine the rest, fewer than `data` present shards are reported as an error, and with at least `data` of them
there is no error.  Recorded as an assumption
of the theorems that need it (see DESIGN.md); `Verif/Lemmas/Rs.lean` shows that it can be satisfied. -/
structure RsCodec.Laws (rs : RsCodec) : Prop where
  encode_length : ∀ d p n (ds : List (List Byte)), 1 ≤ d → 1 ≤ p → d + p ≤ 256 → ds.length = d →
    (∀ x ∈ ds, x.length = n) → (rs.encode d p ds).length = p ∧ ∀ x ∈ rs.encode d p ds, x.length = n
  reconstruct_ok : ∀ d p n (ds : List (List Byte)) (sh : List (List Byte × Bool)), 1 ≤ d → 1 ≤ p → d + p ≤ 256 →
    1 ≤ n → ds.length = d → (∀ x ∈ ds, x.length = n) → sh.length = d + p → (∀ x ∈ sh, x.1.length = n) →
    (∀ (i : Nat) x, sh[i]? = some (x, true) → (ds ++ rs.encode d p ds)[i]? = some x) →
    d ≤ sh.countP (·.2) → rs.reconstruct d p sh = some (ds ++ rs.encode d p ds)
  reconstruct_some : ∀ d p n (sh : List (List Byte × Bool)), 1 ≤ d → 1 ≤ p → d + p ≤ 256 → 1 ≤ n → sh.length = d + p →
    (∀ x ∈ sh, x.1.length = n) → d ≤ sh.countP (·.2) →
    ∃ out, rs.reconstruct d p sh = some out ∧ out.length = d + p ∧ ∀ x ∈ out, x.length = n
  reconstruct_err : ∀ d p (sh : List (List Byte × Bool)), sh.countP (·.2) < d → rs.reconstruct d p sh = none

end Verif
