import Verif.Props.Copies
import Verif.Props.Approved
/-!
# A copy that ends in the middle of a block hides the copies behind it (C69)
-/

namespace Verif.Copies

/-- `decode` without options. -/
def catParam : Decode.Param := ⟨⟨.prefer .metadata, none, none, none, none, none, false, some 0⟩, none⟩

def decoded (f : File) : Option File :=
  match Decode.toFile Approved.sumDecode catParam f [] with | .ok (out, _) => some out | .error _ => none

set_option maxRecDepth 1000000 in
/-- **C69, finding.** A copy that ends in the middle of a block (of which the last 84 bytes are missing) must not stand before another
one: blocks are looked for at multiples of the block size, so nothing of the intact copy behind it is found.  Its third block is lost,
although it is there.  The other way round the file is decoded. -/
theorem C69_cut_violated : Approved.sumFile <:+ Approved.sumFile.take 300 ++ Approved.sumFile ∧
    decoded Approved.sumFile = some (List.replicate 200 7) ∧
    decoded (Approved.sumFile.take 300 ++ Approved.sumFile) = some (List.replicate 112 7 ++ List.replicate 88 0) ∧
    decoded (Approved.sumFile ++ Approved.sumFile.take 300) = some (List.replicate 200 7) := by
  refine ⟨List.suffix_append _ _, ?_⟩
  decide +kernel

end Verif.Copies
