import Verif.Model.Cipher
import Verif.Model.MacAlg
/-
Model of src/milo/primitive/detail/aead/chacha/chacha_20_poly_1305.h (the class) and src/milo/primitive/aead/apie.h (the wrapper and the free functions).
-/
namespace Milo

/-- Arguments of `encrypt(p + src, n, p + dst)` or `decrypt(p + src, n, p + dst)`, where `p` points at memory with the bytes `mem`. (aead/apie.h:295-310, 461-476) -/
structure Area where
  (mem : List Byte)
  (src n dst : Nat)
  deriving Repr

/-- The caller's obligation: both areas are inside the memory, equal or disjoint, and shorter than `2^64`. (aead/apie.h:295-310, 461-476) -/
def Area.Ok (s : Area) : Prop := Cipher.Fits s.mem s.src s.n s.dst ∧ s.n < 2 ^ 64

/-- The ways of passing a text: by pointers; two distinct containers; one container for input and output. (aead/apie.h:295-402, 461-568) -/
inductive TextReq where
  | ptr (s : Area)
  | cont (x : List Byte) (tgt : Container)
  | self (c : Container)
  deriving Repr

/-- The caller's obligation: a container that cannot be resized is large enough. (aead/apie.h:329-402, 495-568) -/
def TextReq.Ok : TextReq → Prop
  | .ptr s => s.Ok
  | .cont x tgt => (tgt.dynamic = false → x.length ≤ tgt.data.length) ∧ x.length < 2 ^ 64
  | .self c => c.data.length < 2 ^ 64

namespace Aead

/-- chacha_20_poly_1305.h:45-53 members. The two counters have no initialiser and the constructor :57 is defaulted: `none` is indeterminate. -/
structure Obj (M : MacImpl) where
  cipher : ChaCha.Obj
  mac : M.σ
  aadSize : Option W64
  eddSize : Option W64

/-- aead/chacha.h:8-16 the mac of `aead::chacha_20_poly_1305<…>` is `mac::poly_1305<>`, with its default digest size. -/
abbrev poly (h : Host) : MacImpl := Poly1305.impl h 16

/-- chacha_20_poly_1305.h:57 the default constructor. -/
def fresh (M : MacImpl) : Obj M := ⟨ChaCha.fresh, M.fresh, none, none⟩

variable (h : Host) (B : ChaCha.Backend) {M : MacImpl}

/-- chacha_20_poly_1305.h:73-120 `initialize`. The local `init_mac_key` holds `cipher_type::block_size` = 64 bytes and is encrypted in place. -/
def init (o : Obj M) (key iv : List Byte) : Option (Obj M) := do
  let civ ← at_ (List.replicate 16 0#8) 4 fun p => Memory.init h (p := 1) (q := 1) p iv
  let c ← ChaCha.init h o.cipher key civ
  let (c, k, _) ← ChaCha.encrypt h B c (List.replicate 64 0#8) 0 64 0
  let m ← M.init o.mac k
  pure ⟨c, m, some 0, some 0⟩

/-- chacha_20_poly_1305.h:122-138 `aad`. -/
def aad (o : Obj M) (x : List Byte) : Option (Obj M) := do
  let m ← M.update o.mac x
  let a ← o.aadSize
  pure { o with mac := m, aadSize := some (a + BitVec.ofNat 64 x.length) }

/-- chacha_20_poly_1305.h:147-150 and 241-244: `m_mac.update(buffer_zero, (16 - size % 16) & 0b1111)`. -/
def updatePad (o : Obj M) (size : W64) : Option (Obj M) := do
  let z ← rdN (List.replicate 16 0#8) 0 ((16 - size.toNat % 16) &&& 15)
  let m ← M.update o.mac z
  pure { o with mac := m }

/-- chacha_20_poly_1305.h:140-151 `aadover`. -/
def aadover (o : Obj M) : Option (Obj M) := do
  let a ← o.aadSize
  updatePad o a

/-- chacha_20_poly_1305.h:153-178 `encrypt`: `n` bytes at offset `src` of `mem` to offset `dst`; then the mac reads the ciphertext. -/
def encrypt (o : Obj M) (mem : List Byte) (src n dst : Nat) : Option (Obj M × List Byte × Nat) := do
  let (c, mem, size) ← ChaCha.encrypt h B o.cipher mem src n dst
  let x ← rdN mem dst size
  let m ← M.update o.mac x
  let e ← o.eddSize
  pure ({ o with cipher := c, mac := m, eddSize := some (e + BitVec.ofNat 64 size) }, mem, size)

/-- chacha_20_poly_1305.h:194-219 `decrypt`: the mac reads the ciphertext first. -/
def decrypt (o : Obj M) (mem : List Byte) (src n dst : Nat) : Option (Obj M × List Byte × Nat) := do
  let x ← rdN mem src n
  let m ← M.update o.mac x
  let (c, mem, size) ← ChaCha.decrypt h B o.cipher mem src n dst
  let e ← o.eddSize
  pure ({ o with cipher := c, mac := m, eddSize := some (e + BitVec.ofNat 64 size) }, mem, size)

/-- chacha_20_poly_1305.h:246-262 the two lengths in `buffer_last` (its previous content is overwritten). -/
def lengths (a e : W64) : Option (List Byte) := do
  let b ← Memory.storLe h (v := 8) (p := 1) (List.replicate 16 0#8) 0 a
  Memory.storLe h (v := 8) (p := 1) b 1 e

/-- chacha_20_poly_1305.h:235-269 `finalize`. -/
def finalize (o : Obj M) : Option (Obj M) := do
  let a ← o.aadSize
  let e ← o.eddSize
  let o ← updatePad o e
  let last ← lengths h a e
  let m ← M.update o.mac last
  let m ← M.finalize m
  pure { o with mac := m }

/-- chacha_20_poly_1305.h:271-284 `digest`. -/
def digest (o : Obj M) (dst : List Byte) (n : Nat) : Option (List Byte × Nat) := M.digest o.mac dst n

/-- The public member functions of the class. (detail/aead/chacha/chacha_20_poly_1305.h:15-285) -/
inductive Call where
  | init (key iv : List Byte)
  | aad (x : List Byte)
  | aadover
  | encrypt (s : Area)
  | decrypt (s : Area)
  | finalize
  | digest (dst : List Byte) (n : Nat)
  deriving Repr

/-- The caller's obligation: as above; room for the digest; associated data is shorter than `2^64`. (detail/aead/chacha/chacha_20_poly_1305.h:15-285) -/
def Call.Ok : Call → Prop
  | .init _ _ => True
  | .aad x => x.length < 2 ^ 64
  | .aadover => True
  | .encrypt s => s.Ok
  | .decrypt s => s.Ok
  | .finalize => True
  | .digest dst n => min n 16 ≤ dst.length

/-- Output of a call: memory or digest buffer, and the size: aead/apie.h:295-740. -/
abbrev Out := List Byte × Nat

/-- A call of the class of detail/aead/chacha/chacha_20_poly_1305.h:15-285. -/
def exec (o : Obj M) : Call → Option (Obj M × List Out)
  | .init key iv => do
    let o ← init h B o key iv
    pure (o, [])
  | .aad x => do
    let o ← aad o x
    pure (o, [])
  | .aadover => do
    let o ← aadover o
    pure (o, [])
  | .encrypt s => do
    let (o, mem, size) ← encrypt h B o s.mem s.src s.n s.dst
    pure (o, [(mem, size)])
  | .decrypt s => do
    let (o, mem, size) ← decrypt h B o s.mem s.src s.n s.dst
    pure (o, [(mem, size)])
  | .finalize => do
    let o ← finalize h o
    pure (o, [])
  | .digest dst n => do
    let out ← digest o dst n
    pure (o, [out])

/-- A default-constructed object of the class with cipher backend `b`, and a sequence of calls. (detail/aead/chacha/chacha_20_poly_1305.h:15-285) -/
def run (b : CipherBackend) (cs : List Call) : Option (Obj (poly h) × List Out) := runCalls (exec h (b.impl h)) (fresh (poly h)) cs

end Aead

namespace AeadApie
open Aead (poly)

/-- aead/apie.h:37-41 members; the flags are indeterminate (`none`) until `initialize`. -/
structure Obj (M : MacImpl) where
  impl : Aead.Obj M
  finalizedAad : Option Bool
  finalized : Option Bool

variable (h : Host) (B : ChaCha.Backend) {M : MacImpl}

/-- aead/apie.h:45 the defaulted constructor. -/
def constructDefault (M : MacImpl) : Obj M := ⟨Aead.fresh M, none, none⟩

/-- aead/apie.h:174-225 `initialize`, both overloads. -/
def initialise (o : Obj M) (key iv : List Byte) : Option (Obj M) := do
  let i ← Aead.init h B o.impl key iv
  pure ⟨i, some false, some false⟩

/-- aead/apie.h:62-125 the constructors taking key and iv. -/
def construct (M : MacImpl) (key iv : List Byte) : Option (Obj M) := initialise h B (constructDefault M) key iv

/-- aead/apie.h:130-141 `do_finalize_aad`. -/
def doFinalizeAad (o : Obj M) : Option (Obj M) :=
  match o.finalizedAad with
  | none => none
  | some true => some o
  | some false => do
    let i ← Aead.aadover o.impl
    pure { o with impl := i, finalizedAad := some true }

/-- aead/apie.h:143-154 `do_finalize`. -/
def doFinalize (o : Obj M) : Option (Obj M) :=
  match o.finalized with
  | none => none
  | some true => some o
  | some false => do
    let i ← Aead.finalize h o.impl
    pure { o with impl := i, finalized := some true }

/-- aead/apie.h:227-272 `aad`, both overloads. -/
def aad (o : Obj M) (x : List Byte) : Option (Obj M) := do
  let i ← Aead.aad o.impl x
  pure { o with impl := i }

/-- aead/apie.h:290-307 `encrypt(ptr, size, ptr)`. -/
def encrypt (o : Obj M) (mem : List Byte) (src n dst : Nat) : Option (Obj M × List Byte × Nat) := do
  let o ← doFinalizeAad o
  let (i, mem, size) ← Aead.encrypt h B o.impl mem src n dst
  pure ({ o with impl := i }, mem, size)

/-- aead/apie.h:456-473 `decrypt(ptr, size, ptr)`. -/
def decrypt (o : Obj M) (mem : List Byte) (src n dst : Nat) : Option (Obj M × List Byte × Nat) := do
  let o ← doFinalizeAad o
  let (i, mem, size) ← Aead.decrypt h B o.impl mem src n dst
  pure ({ o with impl := i }, mem, size)

/-- aead/apie.h:324-350 `encrypt(plaintext, ciphertext)` with two distinct containers; `encrypt_size` is the size of the plaintext
(chacha_20_poly_1305.h:180-192, chacha.h). -/
def encryptC (o : Obj M) (x : List Byte) (to : Container) : Option (Obj M × Container × Nat) := do
  let to := (to.resize x.length).1
  let (o, mem, size) ← encrypt h B o (x ++ to.data) 0 x.length x.length
  let to := ((to.withData (mem.drop x.length)).resize size).1
  pure (o, to, size)

/-- The same with one container as plaintext and ciphertext. (aead/apie.h:329-402) -/
def encryptSelf (o : Obj M) (c : Container) : Option (Obj M × Container × Nat) := do
  let c := (c.resize c.data.length).1
  let (o, mem, size) ← encrypt h B o c.data 0 c.data.length 0
  let c := ((c.withData mem).resize size).1
  pure (o, c, size)

/-- aead/apie.h:364-390 `encrypt<dynamic>(plaintext)`. -/
def encryptValue (o : Obj M) (x : List Byte) : Option (Obj M × Container) := do
  let (o, c, _) ← encryptC h B o x ⟨true, []⟩
  pure (o, c)

/-- aead/apie.h:490-516 `decrypt(ciphertext, plaintext)` with two distinct containers. -/
def decryptC (o : Obj M) (x : List Byte) (to : Container) : Option (Obj M × Container × Nat) := do
  let to := (to.resize x.length).1
  let (o, mem, size) ← decrypt h B o (x ++ to.data) 0 x.length x.length
  let to := ((to.withData (mem.drop x.length)).resize size).1
  pure (o, to, size)

/-- The same for `decrypt`: aead/apie.h:495-568. -/
def decryptSelf (o : Obj M) (c : Container) : Option (Obj M × Container × Nat) := do
  let c := (c.resize c.data.length).1
  let (o, mem, size) ← decrypt h B o c.data 0 c.data.length 0
  let c := ((c.withData mem).resize size).1
  pure (o, c, size)

/-- aead/apie.h:530-556 `decrypt<dynamic>(ciphertext)`. -/
def decryptValue (o : Obj M) (x : List Byte) : Option (Obj M × Container) := do
  let (o, c, _) ← decryptC h B o x ⟨true, []⟩
  pure (o, c)

/-- aead/apie.h:618-633 `digest(ptr, size)`. -/
def digest (o : Obj M) (dst : List Byte) (n : Nat) : Option (Obj M × (List Byte × Nat)) := do
  let o ← doFinalize h o
  let out ← Aead.digest o.impl dst n
  pure (o, out)

/-- aead/apie.h:647-672 `digest(container, size)`. -/
def digestC (o : Obj M) (c : Container) (n : Nat) : Option (Obj M × (Container × Nat)) := do
  let o ← doFinalize h o
  let n := min n M.digestSize
  let (c, n) := c.resize n
  let (o, (d, n)) ← digest h o c.data n
  pure (o, (c.withData d, n))

/-- aead/apie.h:715-735 `digest<static>()`, between 1 and `digest_size` bytes. -/
def digestStatic (o : Obj M) (init : List Byte) : Option (Obj M × Container) := do
  let (o, (c, _)) ← digestC h o ⟨false, init⟩ init.length
  pure (o, c)

/-- aead/apie.h:748-770 `verify(ptr, size, error&)` and :813-826 the container overload: the value assigned to the error. -/
def verify (o : Obj M) (tag : List Byte) : Option (Obj M × Error) := do
  let (o, c) ← digestStatic h o (List.replicate M.digestSize 0)
  let (m, _) ← Memory.matchC h (p := 1) (q := 1) c.data tag
  pure (o, if m then .none else .aeadVerify)

/-- aead/apie.h:780-803 `verify(ptr, size)` and :836-848: throws. -/
def verifyThrow (o : Obj M) (tag : List Byte) : Option (Obj M × Ended Unit) := do
  let (o, e) ← verify h o tag
  if e ≠ .none then pure (o, .thrown e) else pure (o, .returned ())

/-- `encrypt` (or `decrypt`) in any of the three ways: the object, memory or container content, returned size. (aead/apie.h:295-568) -/
def text (decrypting : Bool) (o : Obj M) : TextReq → Option (Obj M × List Byte × Nat)
  | .ptr s => if decrypting then decrypt h B o s.mem s.src s.n s.dst else encrypt h B o s.mem s.src s.n s.dst
  | .cont x tgt => do
    let (o, c, n) ← if decrypting then decryptC h B o x tgt else encryptC h B o x tgt
    pure (o, c.data, n)
  | .self c => do
    let (o, c, n) ← if decrypting then decryptSelf h B o c else encryptSelf h B o c
    pure (o, c.data, n)

/-- The public member functions of `apie`. (aead/apie.h:20-870) -/
inductive Call where
  | init (key iv : List Byte)
  | aad (x : List Byte)
  | text (decrypting : Bool) (t : TextReq)
  | digest (dst : List Byte) (n : Nat)
  | digestC (c : Container) (n : Nat)
  | verify (tag : List Byte)
  | verifyThrow (tag : List Byte)
  deriving Repr

/-- The caller's obligation for the member functions of aead/apie.h:20-870. -/
def Call.Ok : Call → Prop
  | .init _ _ => True
  | .aad x => x.length < 2 ^ 64
  | .text _ t => t.Ok
  | .digest dst n => min n 16 ≤ dst.length
  | .digestC _ _ => True
  | .verify _ => True
  | .verifyThrow _ => True

/-- What a call outputs: memory or container content and the returned size; the error assigned; or how a throwing `verify` ended. (aead/apie.h:295-870) -/
inductive Out where
  | bytes (content : List Byte) (size : Nat)
  | error (e : Error)
  | ended (e : Ended Unit)
  deriving DecidableEq, Repr

/-- A call of a member function of aead/apie.h:20-870. -/
def exec (o : Obj M) : Call → Option (Obj M × List Out)
  | .init key iv => do
    let o ← initialise h B o key iv
    pure (o, [])
  | .aad x => do
    let o ← aad o x
    pure (o, [])
  | .text d t => do
    let (o, content, size) ← text h B d o t
    pure (o, [.bytes content size])
  | .digest dst n => do
    let (o, d, n) ← digest h o dst n
    pure (o, [.bytes d n])
  | .digestC c n => do
    let (o, c, n) ← digestC h o c n
    pure (o, [.bytes c.data n])
  | .verify tag => do
    let (o, e) ← verify h o tag
    pure (o, [.error e])
  | .verifyThrow tag => do
    let (o, e) ← verifyThrow h o tag
    pure (o, [.ended e])

/-- Default construction and a sequence of calls; cipher backend `b`. (aead/apie.h:20-870) -/
def run (b : CipherBackend) (cs : List Call) : Option (Obj (poly h) × List Out) := runCalls (exec h (b.impl h)) (constructDefault (poly h)) cs

/-- Construction with key and iv, and a sequence of calls. (aead/apie.h:85-130) -/
def runWith (b : CipherBackend) (key iv : List Byte) (cs : List Call) : Option (Obj (poly h) × List Out) := do
  let o ← construct h (b.impl h) (poly h) key iv
  runCalls (exec h (b.impl h)) o cs

/-! ### The free functions -/

/-- Leaving a function declared `noexcept(q)`: with `q` true an exception terminates the process. (used in aead/apie.h:753-870, 1147-1366) -/
def leave {α : Type} (q : Bool) : Ended α → Ended α
  | .thrown e => if q then .terminated else .thrown e
  | r => r

variable (b : CipherBackend)

/-- aead/apie.h:893-941 `encrypt<t_impl>(pointers…)`: memory, digest buffer and the two sizes. -/
def sealPtr (key iv ad : List Byte) (s : Area) (dig : List Byte) : Option (List Byte × List Byte × Nat × Nat) := do
  let o ← construct h (b.impl h) (poly h) key iv
  let o ← aad o ad
  let (o, mem, size) ← encrypt h (b.impl h) o s.mem s.src s.n s.dst
  let (_, (d, ds)) ← digest h o dig 16
  pure (mem, d, size, ds)

/-- aead/apie.h:975-1020 with containers. -/
def sealC (key iv ad x : List Byte) (to dig : Container) : Option (Container × Container × Nat × Nat) := do
  let o ← construct h (b.impl h) (poly h) key iv
  let o ← aad o ad
  let (o, to, size) ← encryptC h (b.impl h) o x to
  let (_, (d, ds)) ← digestC h o dig 16
  pure (to, d, size, ds)

/-- aead/apie.h:1051-1088 by value. -/
def sealValue (key iv ad x : List Byte) : Option (Container × Container) := do
  let o ← construct h (b.impl h) (poly h) key iv
  let o ← aad o ad
  let (o, c) ← encryptValue h (b.impl h) o x
  let (_, d) ← digestStatic h o (List.replicate 16 0)
  pure (c, d)

/-- How `verify(tag, a_error...)` ends: with an error argument (`hasError`) it is assigned, otherwise the call may throw. The result is the error
assigned (`none` if there is no error argument). (aead/apie.h:753-870) -/
def verifyAny (hasError : Bool) (o : Obj M) (tag : List Byte) : Option (Ended Error) :=
  if hasError then do
    let (_, e) ← verify h o tag
    pure (.returned e)
  else do
    let (_, e) ← verifyThrow h o tag
    match e with
    | .returned _ => pure (.returned .none)
    | .thrown e => pure (.thrown e)
    | .terminated => pure .terminated

/-- Adding the size returned. (aead/apie.h:1147-1366) -/
def sized (n : Nat) : Ended Error → Ended (Nat × Error)
  | .returned e => .returned (n, e)
  | .thrown e => .thrown e
  | .terminated => .terminated

/-- aead/apie.h:1135-1192 `decrypt<t_impl>(pointers…, a_error…)`, declared `noexcept(sizeof...(t_error) == 0)`: the memory, and how the call ended. -/
def openPtr (hasError : Bool) (key iv ad : List Byte) (s : Area) (tag : List Byte) : Option (List Byte × Ended (Nat × Error)) := do
  let o ← construct h (b.impl h) (poly h) key iv
  let o ← aad o ad
  let (o, mem, size) ← decrypt h (b.impl h) o s.mem s.src s.n s.dst
  let e ← verifyAny h hasError o tag
  pure (mem, leave (!hasError) (sized size e))

/-- aead/apie.h:1233-1285 with containers, declared `noexcept(sizeof...(t_error) == 0 && container_static<t_plaintext>)`. -/
def openC (hasError : Bool) (key iv ad x : List Byte) (tag : List Byte) (to : Container) : Option (Container × Ended (Nat × Error)) := do
  let o ← construct h (b.impl h) (poly h) key iv
  let o ← aad o ad
  let (o, to, size) ← decryptC h (b.impl h) o x to
  let e ← verifyAny h hasError o tag
  pure (to, leave (!hasError && !to.dynamic) (sized size e))

/-- aead/apie.h:1321-1366 by value, declared `noexcept(false)`: the plaintext is returned with the error, or nothing is. -/
def openValue (hasError : Bool) (key iv ad x : List Byte) (tag : List Byte) : Option (Ended (List Byte × Error)) := do
  let o ← construct h (b.impl h) (poly h) key iv
  let o ← aad o ad
  let (o, c) ← decryptValue h (b.impl h) o x
  let e ← verifyAny h hasError o tag
  match e with
  | .returned e => pure (.returned (c.data, e))
  | .thrown e => pure (.thrown e)
  | .terminated => pure .terminated

end AeadApie
end Milo
