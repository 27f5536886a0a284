import Verif.Spec.ChaCha
import Verif.Spec.MacAlg
import Verif.Model.Cipher
/- What the calls on a ChaCha20 object are to output. -/
namespace Spec
open Milo

/-- The text a call works on. -/
def cipherText : Cipher.Call → List Byte
  | .init _ _ => []
  | .encrypt mem src n _ => (mem.drop src).take n
  | .decrypt mem src n _ => (mem.drop src).take n
  | .encryptC x _ => x
  | .decryptC x _ => x
  | .encryptSelf c => c.data
  | .decryptSelf c => c.data

/-- Where the result `r` of a call is to be found: memory with `r` at the destination and nothing else changed; a resizable container holding
exactly `r`; a fixed one holding `r` and then its old content. -/
def cipherPlaced (r : List Byte) : Cipher.Call → List Byte
  | .init _ _ => []
  | .encrypt mem _ n dst => mem.take dst ++ r ++ mem.drop (dst + n)
  | .decrypt mem _ n dst => mem.take dst ++ r ++ mem.drop (dst + n)
  | .encryptC _ to => if to.dynamic then r else r ++ to.data.drop r.length
  | .decryptC _ to => if to.dynamic then r else r ++ to.data.drop r.length
  | .encryptSelf _ => r
  | .decryptSelf _ => r

/-- Text xored with the RFC 8439 key stream from byte `pos` on. A key of any length is cut or zero padded to 32 bytes, an iv of any length to 16: the
first four are the initial block counter (little endian), the others the nonce. -/
def chacha (key iv : List Byte) (pos : Nat) (text : List Byte) : List Byte :=
  ChaCha.cryptFrom (padTo 32 key) (BitVec.ofNat 32 (leNat ((padTo 16 iv).take 4))) ((padTo 16 iv).drop 4) pos text

/-- Outputs of a sequence of calls of which none is `initialize`, `pos` bytes of the key stream having been used before. -/
def cipherOuts (key iv : List Byte) : (pos : Nat) → List Cipher.Call → List Cipher.Out
  | _, [] => []
  | pos, c :: cs =>
    let r := chacha key iv pos (cipherText c)
    (cipherPlaced r c, r.length) :: cipherOuts key iv (pos + r.length) cs

/-- The part of the output of a call that is the result. -/
def cipherResult (c : Cipher.Call) (out : Cipher.Out) : List Byte :=
  match c with
  | .init _ _ => []
  | .encrypt _ _ n dst => (out.1.drop dst).take n
  | .decrypt _ _ n dst => (out.1.drop dst).take n
  | .encryptC _ _ => out.1.take out.2
  | .decryptC _ _ => out.1.take out.2
  | .encryptSelf _ => out.1.take out.2
  | .decryptSelf _ => out.1.take out.2

end Spec
