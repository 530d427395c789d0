import Verif.Model.Metadata
/-!
# Specification of changing metadata fields

Which fields are there after some fields have been set and some removed.
-/

namespace Verif.UpdateSpec

/-- The last request for a field with this id. -/
def lastFor (upd : List Metadata) (id : MetaId) : Option Metadata := upd.reverse.find? fun m => m.id = id

/-- The different elements of a list, in the order in which they first appear. -/
def firstOccs {α : Type} [DecidableEq α] : List α → List α
  | [] => []
  | a :: l => a :: (firstOccs l).filter (· ≠ a)

/-- The existing fields: the first field with each id that is asked for is replaced, all others stay. -/
def inPlace (upd ms : List Metadata) : List Metadata :=
  ms.mapIdx fun i m => if m.id ∈ (ms.take i).map (·.id) then m else (lastFor upd m.id).getD m

/-- Fields asked for that do not exist yet, in the order in which they are first asked for. -/
def added (upd ms : List Metadata) : List Metadata :=
  (firstOccs ((upd.map (·.id)).filter (· ∉ ms.map (·.id)))).filterMap (lastFor upd)

/-- The fields after the requests `upd` and the removal of all fields with ids in `rem`. -/
def changed (upd : List Metadata) (rem : List MetaId) (ms : List Metadata) : List Metadata :=
  (inPlace upd ms ++ added upd ms).filter fun m => m.id ∉ rem

/-- The requests with the hash filled in: `h` in every hash field. -/
def withHash (h : HashBytes) (upd : List Metadata) : List Metadata := upd.map fun m => if m.id = .hsh then .hsh h else m

end Verif.UpdateSpec
