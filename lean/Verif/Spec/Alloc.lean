import Verif.Model.Alloc
import Verif.Spec.Output
import Verif.Spec.Kdf
import Verif.Spec.Cipher
/-
What becomes of objects when memory runs out while a container is to receive a result.
-/
namespace Spec.Alloc
open Milo Milo.Alloc

/-- What a container must obtain memory for: to hold more bytes than it has. -/
def grows (c : Container) (n : Nat) : Option (List Byte) := if c.dynamic = true ∧ c.data.length < n then some c.data else none

/-- The calls of a class with regard to memory. -/
structure Rules (C : Type) where
  /-- the content of the container, if the call has to obtain memory for one -/
  needs : C → Option (List Byte)
  /-- calls that do to the object what the call does when it runs out of memory -/
  lost : C → List C
  /-- how many results a call gives -/
  results : C → Nat

variable {C O : Type} (R : Rules C)

/-- A call runs out of memory if it needs some and there is none. -/
def starved (a : Bool × C) : Option (List Byte) := if a.1 then none else R.needs a.2

/-- The history of the object without the calls that ran out of memory, but for what they did to it. -/
def effective (as : List (Bool × C)) : List C := as.flatMap fun a => if (starved R a).isSome then R.lost a.2 else [a.2]

/-- What the caller gets, given the results `outs` of the effective history: a call that ran out of memory says so and leaves the container as it was; the
others answer. Nothing ends the process. -/
def outcomes : List (Bool × C) → List O → List (Outcome O)
  | [], _ => []
  | a :: as, outs => match starved R a with
    | some content => .outOfMemory content :: outcomes as (outs.drop ((R.lost a.2).map R.results).sum)
    | none => (outs.take (R.results a.2)).map .answered ++ outcomes as (outs.drop (R.results a.2))

/-- Hash objects with digests of `ds` bytes. A `digest` that runs out of memory has ended the message, like any other. -/
def hashRules (ds : Nat) : Rules HashApie.Call where
  needs
    | .digestC c n => grows c (min n ds)
    | _ => none
  lost _ := [.digest [] 0]
  results
    | .digest _ _ => 1
    | .digestC _ _ => 1
    | _ => 0

def macRules (ds : Nat) : Rules MacApie.Call where
  needs
    | .digestC c n => grows c (min n ds)
    | _ => none
  lost _ := [.digest [] 0]
  results
    | .digest _ _ => 1
    | .digestC _ _ => 1
    | _ => 0

/-- Key derivation: a `derive` that runs out of memory does nothing. -/
def kdfRules (A : Type) : Rules (Milo.Kdf.Call A) where
  needs
    | .derive (.cont c n) => grows c n
    | _ => none
  lost _ := []
  results
    | .derive _ => 1
    | _ => 0

/-- Ciphers: a call that runs out of memory does nothing. -/
def cipherRules : Rules Milo.Cipher.Call where
  needs
    | .encryptC x c => grows c x.length
    | .decryptC x c => grows c x.length
    | _ => none
  lost _ := []
  results
    | .init _ _ => 0
    | _ => 1

/-- AEAD: `encrypt` and `decrypt` do nothing, `digest` ends the message. -/
def aeadRules : Rules AeadApie.Call where
  needs
    | .text _ (.cont x c) => grows c x.length
    | .digestC c n => grows c (min n 16)
    | _ => none
  lost
    | .digestC _ _ => [.digest [] 0]
    | _ => []
  results
    | .init _ _ => 0
    | .aad _ => 0
    | _ => 1

/-- The outcome of a request for a prefix of `full`. -/
def attempted (full : List Byte) (mem : Bool) (r : DigestReq) : Outcome (List Byte × Nat) :=
  match r with
  | .ptr _ _ => .answered (extracted full r)
  | .cont c n => match (if mem then none else grows c (min n full.length)) with
    | some content => .outOfMemory content
    | none => .answered (extracted full r)

/-- The container's content, if a request for a key runs out of memory. -/
def refused (r : Bool × DigestReq) : Option (List Byte) :=
  match r.2 with
  | .ptr _ _ => none
  | .cont c n => if r.1 then none else grows c n

/-- Key derivation: the requests that did not run out of memory receive consecutive bytes of `stream`. -/
def streamed (stream : List Byte) : List (Bool × DigestReq) → List (Outcome (List Byte × Nat))
  | [] => []
  | r :: rs => match refused r with
    | some content => .outOfMemory content :: streamed stream rs
    | none => .answered (received (stream.take (asked r.2)) r.2) :: streamed (stream.drop (asked r.2)) rs

/-- Ciphers: the calls that did not run out of memory use consecutive bytes of the key stream, from `pos`. -/
def ciphered (key iv : List Byte) : (pos : Nat) → List (Bool × Milo.Cipher.Call) → List (Outcome Milo.Cipher.Out)
  | _, [] => []
  | pos, a :: as => match starved cipherRules a with
    | some content => .outOfMemory content :: ciphered key iv pos as
    | none =>
      let r := chacha key iv pos (cipherText a.2)
      .answered (cipherPlaced r a.2, r.length) :: ciphered key iv (pos + r.length) as

/-- The texts of the calls that did not run out of memory. -/
def madeTexts : List (Bool × TextReq) → List TextReq
  | [] => []
  | t :: ts => match starved aeadRules (t.1, .text false t.2) with
    | some _ => madeTexts ts
    | none => t.2 :: madeTexts ts

end Spec.Alloc
