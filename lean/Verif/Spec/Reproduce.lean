import Verif.Spec.Container
import Verif.Props.Encode
/-!
# Vocabulary for comparing containers

Which bytes of the file the blocks of a Reed-Solomon set depend on, and what it means that a file was made by `encode`.
-/

namespace Verif.Reproduce
open Format ContainerSpec LayoutSpec

/-- Number of bytes of the file that are in one Reed-Solomon set (in one block without Reed-Solomon). -/
def groupLen (v : Version) : Option Dpb → Nat
  | none => blockLen v - 16
  | some d => d.data * (blockLen v - 16)

/-- The bytes of the file in set number `t` (counted from 0). -/
def groupBytes (v : Version) (dpb : Option Dpb) (bytes : List Byte) (t : Nat) : List Byte :=
  (bytes.drop (t * groupLen v dpb)).take (groupLen v dpb)

/-- The set of the block with sequence number `s`. -/
def groupOf (dpb : Option Dpb) (s : Nat) : Nat :=
  match dpb with
  | none => s - 1
  | some d => (s - 1) / (d.data + d.parity)

/-- The sequence number of the block that holds chunk number `j` (counted from 0) of the file. -/
def seqOfChunk (dpb : Option Dpb) (j : Nat) : Nat :=
  match dpb with
  | none => j + 1
  | some d => j / d.data * (d.data + d.parity) + j % d.data + 1

/-- `encode` was told to encode the whole input `inp`, was not interrupted, succeeded and left the file `f`. -/
structure Made (E : Encode.Env) (p : Encode.Param) (inp : Encode.Input) (f : File) : Prop where
  env : E.Ok p
  param : p.Ok
  names : Encode.NamesOk p inp
  whole : inp.file = none ∨ p.fromPos = none ∧ p.toPos = none
  calm : ∀ n, E.stop n = false
  run : ∃ d rep, Encode.encodeFile E p inp = (d, .ok rep) ∧ d.file = f

/-- The settings that determine the data and parity blocks are the same. -/
structure SameKind (p p' : Encode.Param) : Prop where
  version : p'.version = p.version
  uid : p'.uid = p.uid
  dpb : p'.dpb = p.dpb
  metaEnabled : p'.metaEnabled = p.metaEnabled

end Verif.Reproduce
