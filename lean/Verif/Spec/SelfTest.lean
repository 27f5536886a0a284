import Verif.Model.Base
/- The messages the differential tests of src/milo/primitive/*/test.h go through. -/
namespace Milo.Spec

/-- `size` bytes: `0, 1, …, i-1` (modulo 256) and then zeros. -/
@[irreducible] def inputAt (size i : Nat) : List Byte := (List.range size).map fun k => if k < i then BitVec.ofNat 8 k else 0

end Milo.Spec
