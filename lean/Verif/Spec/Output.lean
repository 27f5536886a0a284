import Verif.Model.Container
/- What a call extracting a prefix of a `full` digest into a buffer or a container must leave there. -/
namespace Spec
open Milo (Byte Container)

/-- Into a buffer: the first `n` bytes of `full` (all if fewer), the rest of the buffer unchanged; returns the number of bytes. -/
def written (full dst : List Byte) (n : Nat) : List Byte × Nat := (full.take n ++ dst.drop (min n full.length), min n full.length)

/-- Into a container: a resizable one becomes exactly the prefix, a fixed one is written like a buffer, up to its size. -/
def contained (full : List Byte) (c : Container) (n : Nat) : Container × Nat :=
  if c.dynamic then (⟨true, full.take n⟩, min n full.length)
  else (⟨false, (written full c.data (min n c.data.length)).1⟩, (written full c.data (min n c.data.length)).2)

/-- Content and returned size for a request. -/
def extracted (full : List Byte) : Milo.DigestReq → List Byte × Nat
  | .ptr dst n => written full dst n
  | .cont c n => ((contained full c n).1.data, (contained full c n).2)

end Spec
