import Verif.Spec.Sha
import Verif.Model.ShaAlg
/- Which FIPS 180-4 function each documented type stands for. -/
namespace Milo
open Spec.Sha

/-- FIPS 180-4, by documented type. -/
def shaSpec : ShaAlg → List Byte → List Byte
  | .sha_1_160 => sha1
  | .sha_2_224 => sha224
  | .sha_2_256 => sha256
  | .sha_2_384 => sha384
  | .sha_2_512 => sha512
  | .sha_2_512_224 => sha512_224
  | .sha_2_512_256 => sha512_256

/-- FIPS 180-4 figure 1: block size in bytes. -/
def shaBlock : ShaAlg → Nat
  | .sha_1_160 | .sha_2_224 | .sha_2_256 => 64
  | .sha_2_384 | .sha_2_512 | .sha_2_512_224 | .sha_2_512_256 => 128

end Milo
