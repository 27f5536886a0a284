import Verif.Model.Sha1Asm
import Verif.Model.Sha256Asm
import Verif.Model.Sha512
/- The documented hash types: src/milo/primitive/hash/sha.h. -/
namespace Milo

/-- hash/sha.h:13-32, the seven aliases. -/
inductive ShaAlg where
  | sha_1_160 | sha_2_224 | sha_2_256 | sha_2_384 | sha_2_512 | sha_2_512_224 | sha_2_512_256
  deriving DecidableEq, Repr

/-- `bits / 8`, the default digest size. (detail/hash/sha/sha_1_160.h:15-193, sha_2_256.h:15-209, sha_2_512.h:15-241: `properties`) -/
def ShaAlg.size : ShaAlg → Nat
  | .sha_1_160 => 20
  | .sha_2_224 => 28
  | .sha_2_256 => 32
  | .sha_2_384 => 48
  | .sha_2_512 => 64
  | .sha_2_512_224 => 28
  | .sha_2_512_256 => 32

/-- The backend chosen (internal/impl.h, see Model/Dispatch): in constant evaluation the portable one (sha_1_160.h:25-36). -/
def Sha1.blocks (h : Host) : Nat → List W32 → List Byte → Option (List W32) :=
  if h.consteval then Sha1.blocksSw h else
    match h.sha with
    | none => Sha1.blocksSw h
    | some junk => Sha1.Asm.blocks junk

/-- sha_2_256.h:25-36, likewise. -/
def Sha256.blocks (h : Host) : Nat → List W32 → List Byte → Option (List W32) :=
  if h.consteval then Sha256.blocksSw h else
    match h.sha with
    | none => Sha256.blocksSw h
    | some junk => Sha256.Asm.blocks junk

/-- The class; `ds` is the value of option `digest_size`. (detail/hash/sha/sha_1_160.h:15-193, sha_2_256.h:15-209, sha_2_512.h:15-241) -/
def ShaAlg.impl (h : Host) (ds : Nat) : ShaAlg → HashImpl
  | .sha_1_160 => Sha1.impl h (Sha1.blocks h) ds
  | .sha_2_224 => Sha256.impl h (Sha256.blocks h) 224 ds
  | .sha_2_256 => Sha256.impl h (Sha256.blocks h) 256 ds
  | .sha_2_384 => Sha512.impl h (Sha512.blocksSw h) 384 ds
  | .sha_2_512 => Sha512.impl h (Sha512.blocksSw h) 512 ds
  | .sha_2_512_224 => Sha512.impl h (Sha512.blocksSw h) 224 ds
  | .sha_2_512_256 => Sha512.impl h (Sha512.blocksSw h) 256 ds

end Milo
