import Verif.Model.Cipher
import Verif.Model.Kdf
import Verif.Model.Aead
/-
What is not secret of a call: which member function it is, the sizes of the data, where in memory they are, and the parameters that are numbers. The bytes are replaced by
zeros: two sequences of calls with the same `public` part differ in the bytes of keys, nonces, messages, texts, tags and old buffer contents, and in nothing else.
-/
namespace Spec.Timed
open Milo

/-- As many zeros. -/
def blank (x : List Byte) : List Byte := List.replicate x.length 0

def container (c : Container) : Container := { c with data := blank c.data }

def hash : Hash.Call → Hash.Call
  | .init => .init
  | .update x => .update (blank x)
  | .finalize => .finalize
  | .digest dst n => .digest (blank dst) n

def hashApie : HashApie.Call → HashApie.Call
  | .init => .init
  | .update x => .update (blank x)
  | .digest dst n => .digest (blank dst) n
  | .digestC c n => .digestC (container c) n

def mac : Mac.Call → Mac.Call
  | .init key => .init (blank key)
  | .update x => .update (blank x)
  | .finalize => .finalize
  | .digest dst n => .digest (blank dst) n

def macApie : MacApie.Call → MacApie.Call
  | .init key => .init (blank key)
  | .update x => .update (blank x)
  | .digest dst n => .digest (blank dst) n
  | .digestC c n => .digestC (container c) n

def request : DigestReq → DigestReq
  | .ptr dst n => .ptr (blank dst) n
  | .cont c n => .cont (container c) n

/-- The arguments of `initialize` say where the input keying material, salt and info are, how long they are, and, for PBKDF2, how many iterations there are. -/
def kdf {A : Type} : Kdf.Call A → Kdf.Call A
  | .init a => .init a
  | .poke b content => .poke b (blank content)
  | .derive r => .derive (request r)

def memory (m : Mem) : Mem := fun b => blank (m b)

def cipher : Cipher.Call → Cipher.Call
  | .init key iv => .init (blank key) (blank iv)
  | .encrypt mem src n dst => .encrypt (blank mem) src n dst
  | .decrypt mem src n dst => .decrypt (blank mem) src n dst
  | .encryptC x to => .encryptC (blank x) (container to)
  | .decryptC x to => .decryptC (blank x) (container to)
  | .encryptSelf c => .encryptSelf (container c)
  | .decryptSelf c => .decryptSelf (container c)

def area (s : Area) : Area := { s with mem := blank s.mem }

def aead : Aead.Call → Aead.Call
  | .init key iv => .init (blank key) (blank iv)
  | .aad x => .aad (blank x)
  | .aadover => .aadover
  | .encrypt s => .encrypt (area s)
  | .decrypt s => .decrypt (area s)
  | .finalize => .finalize
  | .digest dst n => .digest (blank dst) n

def text : TextReq → TextReq
  | .ptr s => .ptr (area s)
  | .cont x tgt => .cont (blank x) (container tgt)
  | .self c => .self (container c)

def aeadApie : AeadApie.Call → AeadApie.Call
  | .init key iv => .init (blank key) (blank iv)
  | .aad x => .aad (blank x)
  | .text d t => .text d (text t)
  | .digest dst n => .digest (blank dst) n
  | .digestC c n => .digestC (container c) n
  | .verify tag => .verify (blank tag)
  | .verifyThrow tag => .verifyThrow (blank tag)

/-- What the caller of an aead learns and acts upon: the verdicts. -/
def verdicts (outs : List AeadApie.Out) : List AeadApie.Out := outs.filter fun
  | .bytes _ _ => false
  | _ => true

end Spec.Timed
