import Verif.Model.HashImpl
import Verif.Model.Container
/-
Call sequences on a hash object, and model of src/milo/primitive/hash/apie.h.
-/
namespace Milo

/-- Run a sequence of calls, collecting what they output. (no code in /repo: a program that uses an object) -/
def runCalls {σ C O : Type} (exec : σ → C → Option (σ × List O)) : σ → List C → Option (σ × List O)
  | o, [] => some (o, [])
  | o, c :: cs => do
    let (o, out) ← exec o c
    let (o, outs) ← runCalls exec o cs
    pure (o, out ++ outs)

namespace Hash

/-- The public member functions of a hash class (documented in doc/reference_hash.md "using pointers"). `digest dst n` is
`digest(ptr, n)` with `ptr` pointing at the buffer `dst`. -/
inductive Call where
  | init
  | update (x : List Byte)
  | finalize
  | digest (dst : List Byte) (n : Nat)
  deriving Repr

/-- Output of a call: the buffer written to and the returned size. (hash/apie.h:152-270) -/
abbrev Out := List Byte × Nat

/-- The caller's obligation: a digest buffer as large as the size asked for (or the digest). (hash/apie.h:152-270) -/
def Call.Ok (ds : Nat) : Call → Prop
  | .digest dst n => min n ds ≤ dst.length
  | _ => True

/-- A call of a hash class: detail/hash/sha/sha_1_160.h:15-193, sha_2_256.h:15-209, sha_2_512.h:15-241. -/
def exec (H : HashImpl) (o : H.σ) : Call → Option (H.σ × List Out)
  | .init => some (H.init o, [])
  | .update x => do
    let o ← H.update o x
    pure (o, [])
  | .finalize => do
    let o ← H.finalize o
    pure (o, [])
  | .digest dst n => do
    let out ← H.digest o dst n
    pure (o, [out])

/-- A fresh object and a sequence of calls. (detail/hash/sha/sha_1_160.h:15-193, sha_2_256.h:15-209, sha_2_512.h:15-241) -/
def run (H : HashImpl) (cs : List Call) : Option (H.σ × List Out) := runCalls (exec H) H.fresh cs

end Hash

namespace HashApie

/-- hash/apie.h:34-36 members of `apie`. -/
structure Obj (H : HashImpl) where
  impl : H.σ
  finalized : Bool

variable (H : HashImpl)

/-- hash/apie.h:83-91 `initialize`. -/
def initialise (o : Obj H) : Obj H := ⟨H.init o.impl, false⟩

/-- hash/apie.h:40-43 the constructor. `m_finalized` has no initialiser; `initialize` sets it. -/
def construct (uninit : Bool) : Obj H := initialise H ⟨H.fresh, uninit⟩

/-- hash/apie.h:60-72 `do_finalize`. -/
def doFinalize (o : Obj H) : Option (Obj H) :=
  if o.finalized then some o
  else do
    let i ← H.finalize o.impl
    pure ⟨i, true⟩

/-- hash/apie.h:103-138 `update` (both overloads). -/
def update (o : Obj H) (x : List Byte) : Option (Obj H) := do
  let i ← H.update o.impl x
  pure { o with impl := i }

/-- hash/apie.h:152-168 `digest(ptr, size)`. -/
def digest (o : Obj H) (dst : List Byte) (n : Nat) : Option (Obj H × (List Byte × Nat)) := do
  let o ← doFinalize H o
  let out ← H.digest o.impl dst n
  pure (o, out)

/-- hash/apie.h:182-209 `digest(container, size)`. -/
def digestC (o : Obj H) (c : Container) (n : Nat) : Option (Obj H × (Container × Nat)) := do
  let o ← doFinalize H o
  let n := min n H.digestSize
  let (c, n) := c.resize n
  let (o, (d, n)) ← digest H o c.data n
  pure (o, (c.withData d, n))

/-- hash/apie.h:220-243 `digest<dynamic>(size)`. -/
def digestDynamic (o : Obj H) (n : Nat) : Option (Obj H × Container) := do
  let (o, (c, _)) ← digestC H o ⟨true, []⟩ n
  pure (o, c)

/-- hash/apie.h:253-276 `digest<static>()`; `init` is the (zero) content of the default-constructed `std::array`; its size is between 1 and
`digest_size` (`requires container_static<t_digest, 1, digest_size>`). -/
def digestStatic (o : Obj H) (init : List Byte) : Option (Obj H × Container) := do
  let (o, (c, _)) ← digestC H o ⟨false, init⟩ init.length
  pure (o, c)

/-- The public member functions of hash/apie.h:20-270. -/
inductive Call where
  | init
  | update (x : List Byte)
  | digest (dst : List Byte) (n : Nat)
  | digestC (c : Container) (n : Nat)
  deriving Repr

/-- The caller's obligation: a digest buffer as large as the size asked for (or the digest). Containers know their size. (hash/apie.h:152-270) -/
def Call.Ok (ds : Nat) : Call → Prop
  | .digest dst n => min n ds ≤ dst.length
  | _ => True

/-- A digest request as a call. (hash/apie.h:152-270) -/
def ofReq : DigestReq → Call
  | .ptr dst n => .digest dst n
  | .cont c n => .digestC c n

/-- Output of a call: the buffer or container content written to and the returned size. (hash/apie.h:152-270) -/
abbrev Out := List Byte × Nat

/-- A call of a member function of hash/apie.h:20-270. -/
def exec (o : Obj H) : Call → Option (Obj H × List Out)
  | .init => some (initialise H o, [])
  | .update x => do
    let o ← update H o x
    pure (o, [])
  | .digest dst n => do
    let (o, out) ← digest H o dst n
    pure (o, [out])
  | .digestC c n => do
    let (o, (c, n)) ← digestC H o c n
    pure (o, [(c.data, n)])

/-- Construction and a sequence of calls. (hash/apie.h:36-100) -/
def run (uninit : Bool) (cs : List Call) : Option (Obj H × List Out) := runCalls (exec H) (construct H uninit) cs

/-! The free functions, hash/apie.h:300-424. -/

/-- hash/apie.h:300-330 `digest<t_impl>(message ptr, size, digest ptr, size)`. -/
def oneshot (uninit : Bool) (msg dst : List Byte) (n : Nat) : Option (List Byte × Nat) := do
  let o ← update H (construct H uninit) msg
  let (_, out) ← digest H o dst n
  pure out

/-- hash/apie.h:351-376 container output. -/
def oneshotC (uninit : Bool) (msg : List Byte) (c : Container) (n : Nat) : Option (Container × Nat) := do
  let o ← update H (construct H uninit) msg
  let (_, out) ← digestC H o c n
  pure out

/-- hash/apie.h:378-424 returning a container by value. -/
def oneshotDynamic (uninit : Bool) (msg : List Byte) (n : Nat) : Option Container := do
  let o ← update H (construct H uninit) msg
  let (_, c) ← digestDynamic H o n
  pure c
/-- hash/apie.h:378-426 with a container of fixed size. -/
def oneshotStatic (uninit : Bool) (msg init : List Byte) : Option Container := do
  let o ← update H (construct H uninit) msg
  let (_, c) ← digestStatic H o init
  pure c

end HashApie

end Milo
