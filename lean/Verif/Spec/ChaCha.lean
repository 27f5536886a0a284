import Verif.Spec.Bytes
/- RFC 8439 sections 2.1-2.4: ChaCha20. -/
namespace Spec.ChaCha

abbrev Word := BitVec 32

/-- 2.1 the quarter round. -/
def quarter (a b c d : Word) : Word × Word × Word × Word :=
  let a := a + b; let d := (d ^^^ a).rotateLeft 16
  let c := c + d; let b := (b ^^^ c).rotateLeft 12
  let a := a + b; let d := (d ^^^ a).rotateLeft 8
  let c := c + d; let b := (b ^^^ c).rotateLeft 7
  (a, b, c, d)

/-- 2.2 `QUARTERROUND(x, y, z, w)` on the state. -/
def qr (s : List Word) (x y z w : Nat) : List Word :=
  let q := quarter (s.getD x 0) (s.getD y 0) (s.getD z 0) (s.getD w 0)
  (((s.set x q.1).set y q.2.1).set z q.2.2.1).set w q.2.2.2

/-- 2.3.1 `inner_block`: a column round and a diagonal round. -/
def inner (s : List Word) : List Word :=
  let s := qr s 0 4 8 12
  let s := qr s 1 5 9 13
  let s := qr s 2 6 10 14
  let s := qr s 3 7 11 15
  let s := qr s 0 5 10 15
  let s := qr s 1 6 11 12
  let s := qr s 2 7 8 13
  qr s 3 4 9 14

/-- 2.3 the 20 rounds and the final addition, serialised. -/
def core (s : List Word) : List (BitVec 8) :=
  (List.zipWith (· + ·) s ((List.range 10).foldl (fun s _ => inner s) s)).flatMap fun w => leBytes 4 w.toNat

/-- Little-endian words of a byte string. -/
def words (bs : List (BitVec 8)) : List Word := (chunks 4 bs).map fun c => BitVec.ofNat 32 (leNat c)

/-- 2.3 the state: constants, key (32 bytes), counter, nonce (12 bytes). -/
def state (key : List (BitVec 8)) (counter : Word) (nonce : List (BitVec 8)) : List Word :=
  [0x61707865, 0x3320646e, 0x79622d32, 0x6b206574] ++ words key ++ [counter] ++ words nonce

/-- 2.3 the block function. -/
def block (key : List (BitVec 8)) (counter : Word) (nonce : List (BitVec 8)) : List (BitVec 8) := core (state key counter nonce)

/-- Byte number `i` of the key stream that starts with block `counter`: blocks `counter`, `counter + 1`, … (the counter is a 32-bit word; RFC 8439 does
not go beyond its last value). -/
def keyByte (key : List (BitVec 8)) (counter : Word) (nonce : List (BitVec 8)) (i : Nat) : BitVec 8 :=
  (block key (counter + BitVec.ofNat 32 (i / 64)) nonce).getD (i % 64) 0

/-- 2.4 encryption, and decryption: `text` xored with the key stream, from stream position `pos` on. -/
def cryptFrom (key : List (BitVec 8)) (counter : Word) (nonce : List (BitVec 8)) (pos : Nat) (text : List (BitVec 8)) : List (BitVec 8) :=
  text.mapIdx fun i b => b ^^^ keyByte key counter nonce (pos + i)

def crypt (key : List (BitVec 8)) (counter : Word) (nonce text : List (BitVec 8)) : List (BitVec 8) := cryptFrom key counter nonce 0 text

/-! RFC 8439 2.4.2 (test, not a proof): first bytes of the ciphertext of "Ladies…". -/
example : crypt ((List.range 32).map (BitVec.ofNat 8)) 1 [0, 0, 0, 0, 0, 0, 0, 0x4a, 0, 0, 0, 0] [0x4c, 0x61, 0x64, 0x69, 0x65, 0x73]
    = [0x6e, 0x2e, 0x35, 0x9a, 0x25, 0x68] := by decide +kernel

end Spec.ChaCha
