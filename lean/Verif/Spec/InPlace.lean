import Verif.Model.Base
/- Memory that text and result share. -/
namespace Spec.InPlace
open Milo

/-- `n` bytes at offset `off`. -/
def part (mem : List Byte) (off n : Nat) : List Byte := (mem.drop off).take n

/-- The memory with the bytes at `off` replaced by `xs`. -/
def replaced (mem : List Byte) (off : Nat) (xs : List Byte) : List Byte := mem.take off ++ xs ++ mem.drop (off + xs.length)

end Spec.InPlace
