import Verif.Model.HashApie
import Verif.Model.MacImpl
import Verif.Model.Kdf
import Verif.Model.Cipher
import Verif.Model.Aead
import Verif.Model.CodecApie
/-
The member functions that write into containers, when memory may run out: src/milo/internal/utility.h:148-173 `resize` and its callers in
src/milo/primitive/*/apie.h. The other models of these functions (HashApie.digestC, ...) assume that there is memory.

Each call comes with `mem`: whether the container gets memory if it has to grow. `std::vector::resize` and `std::string::resize` throw `std::bad_alloc`
otherwise, and leave the container as it was; they do not throw if the container does not grow. (Simplified: an object that grows within its capacity cannot run
out of memory; such calls are those with `mem = true`.)
-/
namespace Milo

/-- How a call ends when memory may run out. (`noexcept(meta::container_static<...>)` of the container overloads in */apie.h) -/
inductive Fate (α : Type) where
  | returned (a : α)
  | badAlloc
  | terminated
  deriving DecidableEq, Repr

/-- Leaving a function declared `noexcept(q)`. (`noexcept` specifications in */apie.h) -/
def Fate.leave {α : Type} (q : Bool) : Fate α → Fate α
  | .badAlloc => if q then .terminated else .badAlloc
  | r => r

namespace Alloc

/-- utility.h:148-173 `resize`, declared `noexcept(container_static)`. -/
def resize (mem : Bool) (c : Container) (n : Nat) : Fate (Container × Nat) :=
  Fate.leave (!c.dynamic) (if c.dynamic && decide (c.data.length < n) && !mem then .badAlloc else .returned (c.resize n))

/-- `resize` and the rest `k` of a member function declared `noexcept(container_static<...>)` for the container it writes to; `o` is the object until then. (internal/utility.h:147-174 `resize`, used in */apie.h) -/
def withRoom {σ α : Type} (mem : Bool) (c : Container) (n : Nat) (o : σ) (k : Container → Nat → Option (σ × Container × Fate α)) : Option (σ × Container × Fate α) :=
  match resize mem c n with
  | .returned (c, n) => k c n
  | .badAlloc => some (o, c, Fate.leave (!c.dynamic) .badAlloc)
  | .terminated => some (o, c, .terminated)

/-- What is left of a call for its caller. `terminated` ends the process. (No code in /repo: vocabulary of the claim.) -/
inductive Outcome (O : Type) where
  | answered (o : O)
  | outOfMemory (content : List Byte)
  | terminated
  deriving DecidableEq, Repr

/-- No code in /repo: what the caller of a function of */apie.h that returns a size sees. -/
def outcome (c : Container) : Fate Nat → Outcome (List Byte × Nat)
  | .returned n => .answered (c.data, n)
  | .badAlloc => .outOfMemory c.data
  | .terminated => .terminated

/-! ### hash/apie.h -/

namespace OfHash
variable (H : HashImpl)

/-- hash/apie.h:182-209 `digest(container, size)`: `do_finalize` comes first. -/
def digestC (mem : Bool) (o : HashApie.Obj H) (c : Container) (n : Nat) : Option (HashApie.Obj H × Container × Fate Nat) := do
  let o ← HashApie.doFinalize H o
  let n := min n H.digestSize
  withRoom mem c n o fun c n => do
    let (o, (d, n)) ← HashApie.digest H o c.data n
    pure (o, c.withData d, .returned n)

/-- A call of a member function of hash/apie.h:20-270, memory running out or not. -/
def exec (o : HashApie.Obj H) (a : Bool × HashApie.Call) : Option (HashApie.Obj H × List (Outcome HashApie.Out)) :=
  match a.2 with
  | .digestC c n => do
    let (o, c, f) ← digestC H a.1 o c n
    pure (o, [outcome c f])
  | call => do
    let (o, out) ← HashApie.exec H o call
    pure (o, out.map .answered)

/-- hash/apie.h:20-270: an object and a sequence of calls. -/
def run (uninit : Bool) (as : List (Bool × HashApie.Call)) : Option (HashApie.Obj H × List (Outcome HashApie.Out)) :=
  runCalls (exec H) (HashApie.construct H uninit) as

/-- hash/apie.h:351-376 container output, declared `noexcept(container_static<t_digest>)`. -/
def oneshotC (uninit mem : Bool) (msg : List Byte) (c : Container) (n : Nat) : Option (Container × Fate Nat) := do
  let o ← HashApie.update H (HashApie.construct H uninit) msg
  let (_, c, f) ← digestC H mem o c n
  pure (c, Fate.leave (!c.dynamic) f)

end OfHash

/-! ### mac/apie.h -/

namespace OfMac
variable (M : MacImpl)

/-- mac/apie.h:247-284 `digest(container, size)`. -/
def digestC (mem : Bool) (o : MacApie.Obj M) (c : Container) (n : Nat) : Option (MacApie.Obj M × Container × Fate Nat) := do
  let o ← MacApie.doFinalize M o
  let n := min n M.digestSize
  withRoom mem c n o fun c n => do
    let (o, (d, n)) ← MacApie.digest M o c.data n
    pure (o, c.withData d, .returned n)

/-- A call of a member function of mac/apie.h:20-350, memory running out or not. -/
def exec (o : MacApie.Obj M) (a : Bool × MacApie.Call) : Option (MacApie.Obj M × List (Outcome MacApie.Out)) :=
  match a.2 with
  | .digestC c n => do
    let (o, c, f) ← digestC M a.1 o c n
    pure (o, [outcome c f])
  | call => do
    let (o, out) ← MacApie.exec M o call
    pure (o, out.map .answered)

/-- mac/apie.h:20-350: an object and a sequence of calls. -/
def run (key : List Byte) (as : List (Bool × MacApie.Call)) : Option (MacApie.Obj M × List (Outcome MacApie.Out)) := do
  let o ← MacApie.construct M key
  runCalls (exec M) o as

/-- mac/apie.h:430-456 container output. -/
def oneshotC (mem : Bool) (key msg : List Byte) (c : Container) (n : Nat) : Option (Container × Fate Nat) := do
  let o ← MacApie.construct M key
  let o ← MacApie.update M o msg
  let (_, c, f) ← digestC M mem o c n
  pure (c, Fate.leave (!c.dynamic) f)

end OfMac

/-! ### kdf/apie.h -/

namespace OfKdf
variable (K : KdfImpl)

/-- kdf/apie.h:461-479 `derive(container, size)`. -/
def deriveC (mem : Bool) (o : K.σ) (m : Mem) (c : Container) (n : Nat) : Option (K.σ × Container × Fate Nat) :=
  withRoom mem c n o fun c n => do
    let (o, d, n) ← K.derive o m c.data n
    pure (o, c.withData d, .returned n)

/-- A call of a member function of kdf/apie.h:20-545, memory running out or not. -/
def exec (s : K.σ × Mem) (a : Bool × Kdf.Call K.Args) : Option ((K.σ × Mem) × List (Outcome Kdf.Out)) :=
  match a.2 with
  | .derive (.cont c n) => do
    let (o, c, f) ← deriveC K a.1 s.1 s.2 c n
    pure ((o, s.2), [outcome c f])
  | call => do
    let (s, out) ← Kdf.exec K s call
    pure (s, out.map .answered)

/-- kdf/apie.h:20-545: an object and a sequence of calls. -/
def run (m : Mem) (as : List (Bool × Kdf.Call K.Args)) : Option ((K.σ × Mem) × List (Outcome Kdf.Out)) := runCalls (exec K) (K.fresh, m) as

/-- kdf/apie.h:637-663, 843-868 container output. -/
def oneshotC (mem : Bool) (m : Mem) (a : K.Args) (c : Container) (n : Nat) : Option (Container × Fate Nat) := do
  let o ← K.init K.fresh m a
  let (_, c, f) ← deriveC K mem o m c n
  pure (c, Fate.leave (!c.dynamic) f)

end OfKdf

/-! ### cipher/apie.h -/

namespace OfCipher
variable (h : Host) (B : ChaCha.Backend)

/-- cipher/apie.h:194-226 `encrypt(plaintext, ciphertext)` with two distinct containers. -/
def encryptC (mem : Bool) (o : ChaCha.Obj) (x : List Byte) (tgt : Container) : Option (ChaCha.Obj × Container × Fate Nat) :=
  withRoom mem tgt x.length o fun tgt _ => do
    let (o, m, size) ← ChaCha.encrypt h B o (x ++ tgt.data) 0 x.length x.length
    withRoom mem (tgt.withData (m.drop x.length)) size o fun tgt _ => some (o, tgt, .returned size)

/-- The same with one container as plaintext and ciphertext. (cipher/apie.h:209-282) -/
def encryptSelf (mem : Bool) (o : ChaCha.Obj) (c : Container) : Option (ChaCha.Obj × Container × Fate Nat) :=
  withRoom mem c c.data.length o fun c _ => do
    let (o, m, size) ← ChaCha.encrypt h B o c.data 0 c.data.length 0
    withRoom mem (c.withData m) size o fun c _ => some (o, c, .returned size)

/-- cipher/apie.h:373-405 `decrypt(ciphertext, plaintext)`. -/
def decryptC (mem : Bool) (o : ChaCha.Obj) (x : List Byte) (tgt : Container) : Option (ChaCha.Obj × Container × Fate Nat) :=
  withRoom mem tgt x.length o fun tgt _ => do
    let (o, m, size) ← ChaCha.decrypt h B o (x ++ tgt.data) 0 x.length x.length
    withRoom mem (tgt.withData (m.drop x.length)) size o fun tgt _ => some (o, tgt, .returned size)

/-- The same for `decrypt`: cipher/apie.h:373-446. -/
def decryptSelf (mem : Bool) (o : ChaCha.Obj) (c : Container) : Option (ChaCha.Obj × Container × Fate Nat) :=
  withRoom mem c c.data.length o fun c _ => do
    let (o, m, size) ← ChaCha.decrypt h B o c.data 0 c.data.length 0
    withRoom mem (c.withData m) size o fun c _ => some (o, c, .returned size)

/-- A call of a member function of cipher/apie.h:20-500, memory running out or not. -/
def exec (o : ChaCha.Obj) (a : Bool × Cipher.Call) : Option (ChaCha.Obj × List (Outcome Cipher.Out)) :=
  match a.2 with
  | .encryptC x tgt => do
    let (o, c, f) ← encryptC h B a.1 o x tgt
    pure (o, [outcome c f])
  | .decryptC x tgt => do
    let (o, c, f) ← decryptC h B a.1 o x tgt
    pure (o, [outcome c f])
  | .encryptSelf c => do
    let (o, c, f) ← encryptSelf h B a.1 o c
    pure (o, [outcome c f])
  | .decryptSelf c => do
    let (o, c, f) ← decryptSelf h B a.1 o c
    pure (o, [outcome c f])
  | call => do
    let (o, out) ← Cipher.exec h B o call
    pure (o, out.map .answered)

/-- cipher/apie.h:20-500: an object and a sequence of calls. -/
def run (as : List (Bool × Cipher.Call)) : Option (ChaCha.Obj × List (Outcome Cipher.Out)) := runCalls (exec h B) ChaCha.fresh as

end OfCipher

/-! ### aead/apie.h -/

namespace OfAead
open AeadApie
variable (h : Host) (B : ChaCha.Backend) {M : MacImpl}

/-- aead/apie.h:324-350 `encrypt(plaintext, ciphertext)` with two distinct containers. -/
def encryptC (mem : Bool) (o : Obj M) (x : List Byte) (tgt : Container) : Option (Obj M × Container × Fate Nat) :=
  withRoom mem tgt x.length o fun tgt _ => do
    let (o, m, size) ← encrypt h B o (x ++ tgt.data) 0 x.length x.length
    withRoom mem (tgt.withData (m.drop x.length)) size o fun tgt _ => some (o, tgt, .returned size)

/-- aead/apie.h:329-402 with one container as plaintext and ciphertext. -/
def encryptSelf (mem : Bool) (o : Obj M) (c : Container) : Option (Obj M × Container × Fate Nat) :=
  withRoom mem c c.data.length o fun c _ => do
    let (o, m, size) ← encrypt h B o c.data 0 c.data.length 0
    withRoom mem (c.withData m) size o fun c _ => some (o, c, .returned size)

/-- aead/apie.h:490-516 `decrypt(ciphertext, plaintext)`. -/
def decryptC (mem : Bool) (o : Obj M) (x : List Byte) (tgt : Container) : Option (Obj M × Container × Fate Nat) :=
  withRoom mem tgt x.length o fun tgt _ => do
    let (o, m, size) ← decrypt h B o (x ++ tgt.data) 0 x.length x.length
    withRoom mem (tgt.withData (m.drop x.length)) size o fun tgt _ => some (o, tgt, .returned size)

/-- aead/apie.h:495-568 with one container as plaintext and ciphertext. -/
def decryptSelf (mem : Bool) (o : Obj M) (c : Container) : Option (Obj M × Container × Fate Nat) :=
  withRoom mem c c.data.length o fun c _ => do
    let (o, m, size) ← decrypt h B o c.data 0 c.data.length 0
    withRoom mem (c.withData m) size o fun c _ => some (o, c, .returned size)

/-- aead/apie.h:647-672 `digest(container, size)`. -/
def digestC (mem : Bool) (o : Obj M) (c : Container) (n : Nat) : Option (Obj M × Container × Fate Nat) := do
  let o ← doFinalize h o
  let n := min n M.digestSize
  withRoom mem c n o fun c n => do
    let (o, (d, n)) ← digest h o c.data n
    pure (o, c.withData d, .returned n)

/-- No code in /repo: what the caller of a function of aead/apie.h that returns a size sees. -/
def outcomeA (c : Container) : Fate Nat → Outcome Out
  | .returned n => .answered (.bytes c.data n)
  | .badAlloc => .outOfMemory c.data
  | .terminated => .terminated

/-- A call of a member function of aead/apie.h:20-870, memory running out or not. -/
def exec (o : Obj M) (a : Bool × Call) : Option (Obj M × List (Outcome Out)) :=
  match a.2 with
  | .text d (.cont x tgt) => do
    let (o, c, f) ← if d then decryptC h B a.1 o x tgt else encryptC h B a.1 o x tgt
    pure (o, [outcomeA c f])
  | .text d (.self c) => do
    let (o, c, f) ← if d then decryptSelf h B a.1 o c else encryptSelf h B a.1 o c
    pure (o, [outcomeA c f])
  | .digestC c n => do
    let (o, c, f) ← digestC h a.1 o c n
    pure (o, [outcomeA c f])
  | call => do
    let (o, out) ← AeadApie.exec h B o call
    pure (o, out.map .answered)

/-- aead/apie.h:20-870: a default-constructed object and a sequence of calls. -/
def run (b : CipherBackend) (as : List (Bool × Call)) : Option (Obj (Aead.poly h) × List (Outcome Out)) := runCalls (exec h (b.impl h)) (constructDefault (Aead.poly h)) as

/-- aead/apie.h:85-130: construction with key and iv, and a sequence of calls. -/
def runWith (b : CipherBackend) (key iv : List Byte) (as : List (Bool × Call)) : Option (Obj (Aead.poly h) × List (Outcome Out)) := do
  let o ← construct h (b.impl h) (Aead.poly h) key iv
  runCalls (exec h (b.impl h)) o as

/-- aead/apie.h:975-1020 `encrypt` with containers, declared `noexcept(container_static<t_ciphertext> && container_static<t_digest>)`; `mem` is for the
ciphertext, `mem'` for the digest. -/
def sealC (b : CipherBackend) (mem mem' : Bool) (key iv ad x : List Byte) (tgt dig : Container) : Option (Container × Container × Fate (Nat × Nat)) := do
  let o ← construct h (b.impl h) (Aead.poly h) key iv
  let o ← aad o ad
  let (o, tgt, f) ← encryptC h (b.impl h) mem o x tgt
  match f with
  | .returned size => do
    let (_, d, f) ← digestC h mem' o dig 16
    pure (tgt, d, Fate.leave (!tgt.dynamic && !d.dynamic) (match f with | .returned ds => .returned (size, ds) | .badAlloc => .badAlloc | .terminated => .terminated))
  | .badAlloc => pure (tgt, dig, Fate.leave (!tgt.dynamic && !dig.dynamic) .badAlloc)
  | .terminated => pure (tgt, dig, .terminated)

/-- aead/apie.h:1233-1285 `decrypt` with containers, declared `noexcept(sizeof...(t_error) == 0 && container_static<t_plaintext>)`. -/
def openC (b : CipherBackend) (mem hasError : Bool) (key iv ad x tag : List Byte) (tgt : Container) : Option (Container × Fate (Ended (Nat × Error))) := do
  let o ← construct h (b.impl h) (Aead.poly h) key iv
  let o ← aad o ad
  let (o, tgt, f) ← decryptC h (b.impl h) mem o x tgt
  match f with
  | .returned size => do
    let e ← verifyAny h hasError o tag
    pure (tgt, .returned (AeadApie.leave (!hasError && !tgt.dynamic) (sized size e)))
  | .badAlloc => pure (tgt, Fate.leave (!hasError && !tgt.dynamic) .badAlloc)
  | .terminated => pure (tgt, .terminated)

end OfAead

/-! ### codec/apie.h -/

namespace OfCodec
variable (C : Codec.Impl)

/-- codec/apie.h:83-113 `encode(from, to)`; `mem`, `mem'` are for the two calls of `resize`. -/
def encode (mem mem' : Bool) (src : List Byte) (tgt : Container) : Option (Container × Fate Nat) := do
  let (_, c, f) ← withRoom mem tgt (C.encodeSize src) () fun tgt _ => do
    let (d, size) ← C.encode src tgt.data
    withRoom mem' (tgt.withData d) size () fun tgt _ => some ((), tgt, .returned size)
  pure (c, f)

/-- codec/apie.h:307-338 `decode(from, to, error)`. -/
def decode (mem mem' : Bool) (src : List Byte) (tgt : Container) : Option (Container × Fate (Nat × Error)) := do
  let (_, c, f) ← withRoom mem tgt (C.decodeSize src) () fun tgt _ => do
    let d ← C.decode src tgt.data
    withRoom mem' (tgt.withData d.out) d.size () fun tgt _ => some ((), tgt, .returned (d.size, d.err))
  pure (c, f)

/-- codec/apie.h:352-380 `decode(from, to)`, declared `noexcept(false)`: a malformed text is thrown before the second `resize`. -/
def decodeThrow (mem mem' : Bool) (src : List Byte) (tgt : Container) : Option (Container × Fate (Ended Nat)) :=
  match resize mem tgt (C.decodeSize src) with
  | .returned (to_, _) => do
    let (d, e) ← Codec.decodePtrThrow C src to_.data
    match e with
    | .returned size => match resize mem' (to_.withData d) size with
      | .returned (to_, _) => some (to_, .returned (.returned size))
      | .badAlloc => some (to_.withData d, .badAlloc)
      | .terminated => some (to_.withData d, .terminated)
    | e => some (to_.withData d, .returned e)
  | .badAlloc => some (tgt, .badAlloc)
  | .terminated => some (tgt, .terminated)

end OfCodec
end Alloc
end Milo
