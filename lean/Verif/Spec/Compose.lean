import Verif.Model.Update
/-!
# Specification of one update after the other
-/

namespace Verif.ComposeSpec

/-- A field is put back: if it was asked for, it is set to what was recorded before, or removed if nothing was. -/
def Back (asked : Bool) (before set : Option Metadata) (remove : Bool) : Prop :=
  if asked = true then set = before ∧ remove = before.isNone else set = none ∧ remove = false

/-- `q'` takes back what `q`, which only sets fields, does to a container with the fields `ms`.  (`H` computes hashes, `bytes` is the
file stored.) -/
structure Undo (H : HashFn) (bytes : List Byte) (ms : List Metadata) (q q' : Update.Cli) : Prop where
  sets : q.noFnm = false ∧ q.noSnm = false ∧ q.noHsh = false
  real : q.dryRun = false ∧ q'.dryRun = false
  fnm : Back q.fnm.isSome (getMeta ms .fnm) (q'.fnm.map .fnm) q'.noFnm
  snm : Back q.snm.isSome (getMeta ms .snm) (q'.snm.map .snm) q'.noSnm
  hash : Back q.hash.isSome (getMeta ms .hsh) (q'.hash.map fun t => .hsh (H.bytes t bytes)) q'.noHsh

/-- The fields a call of `update` sets. -/
def sets (q : Update.Cli) : List MetaId :=
  (if q.fnm.isSome then [.fnm] else []) ++ (if q.snm.isSome then [.snm] else []) ++ (if q.hash.isSome then [.hsh] else [])

/-- The fields a call of `update` removes. -/
def removes (q : Update.Cli) : List MetaId :=
  (if q.noFnm then [.fnm] else []) ++ (if q.noSnm then [.snm] else []) ++ (if q.noHsh then [.hsh] else [])

end Verif.ComposeSpec
