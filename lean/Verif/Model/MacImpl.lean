import Verif.Model.Base
import Verif.Model.HashApie
/-
The interface all mac classes share (`meta::primitive::mac`), call sequences on a mac object, and src/milo/primitive/mac/apie.h.
-/
namespace Milo

/-- A mac class. `none` is undefined behaviour. (the interface of detail/mac/hmac/hmac.h:80-198 and detail/mac/poly/poly_1305.h:15-233) -/
structure MacImpl where
  σ : Type
  /-- the default constructor -/
  fresh : σ
  /-- `key_size`; 0 means any size -/
  keySize : Nat
  digestSize : Nat
  init : σ → List Byte → Option σ
  update : σ → List Byte → Option σ
  finalize : σ → Option σ
  digest : σ → List Byte → Nat → Option (List Byte × Nat)

namespace Mac

/-- The public member functions of a mac class (doc/reference_mac.md "using pointers"). -/
inductive Call where
  | init (key : List Byte)
  | update (x : List Byte)
  | finalize
  | digest (dst : List Byte) (n : Nat)
  deriving Repr

/-- Output of a call: the buffer written to and the returned size (mac/apie.h:234-350). -/
abbrev Out := List Byte × Nat

/-- The caller's obligation: room for the digest asked for; spans are shorter than `2^64`. (mac/apie.h:134-350) -/
def Call.Ok (ds : Nat) : Call → Prop
  | .digest dst n => min n ds ≤ dst.length
  | .init key => key.length < 2 ^ 64
  | _ => True

/-- A call of a mac class: detail/mac/hmac/hmac.h:80-198, detail/mac/poly/poly_1305.h:15-233. -/
def exec (M : MacImpl) (o : M.σ) : Call → Option (M.σ × List Out)
  | .init key => do
    let o ← M.init o key
    pure (o, [])
  | .update x => do
    let o ← M.update o x
    pure (o, [])
  | .finalize => do
    let o ← M.finalize o
    pure (o, [])
  | .digest dst n => do
    let out ← M.digest o dst n
    pure (o, [out])

/-- A fresh object and a sequence of calls. (detail/mac/hmac/hmac.h:80-198, detail/mac/poly/poly_1305.h:15-233) -/
def run (M : MacImpl) (cs : List Call) : Option (M.σ × List Out) := runCalls (exec M) M.fresh cs

end Mac

namespace MacApie

/-- mac/apie.h:34-38 members. `finalized = none`: indeterminate (the defaulted constructor :42 leaves `m_finalized` uninitialised). -/
structure Obj (M : MacImpl) where
  impl : M.σ
  finalized : Option Bool

variable (M : MacImpl)

/-- mac/apie.h:122-169 `initialize`, both overloads. -/
def initialise (o : Obj M) (key : List Byte) : Option (Obj M) := do
  let i ← M.init o.impl key
  pure ⟨i, some false⟩

/-- mac/apie.h:42 the defaulted default constructor. -/
def constructDefault : Obj M := ⟨M.fresh, none⟩

/-- mac/apie.h:59-103 the constructors taking a key. -/
def construct (key : List Byte) : Option (Obj M) := initialise M (constructDefault M) key

/-- mac/apie.h:107-118 `do_finalize`; reading an indeterminate `bool` is undefined. -/
def doFinalize (o : Obj M) : Option (Obj M) :=
  match o.finalized with
  | none => none
  | some true => some o
  | some false => do
    let i ← M.finalize o.impl
    pure ⟨i, some true⟩

/-- mac/apie.h:171-216 `update`, both overloads. -/
def update (o : Obj M) (x : List Byte) : Option (Obj M) := do
  let i ← M.update o.impl x
  pure { o with impl := i }

/-- mac/apie.h:218-245 `digest(ptr, size)`. -/
def digest (o : Obj M) (dst : List Byte) (n : Nat) : Option (Obj M × (List Byte × Nat)) := do
  let o ← doFinalize M o
  let out ← M.digest o.impl dst n
  pure (o, out)

/-- mac/apie.h:247-284 `digest(container, size)`. -/
def digestC (o : Obj M) (c : Container) (n : Nat) : Option (Obj M × (Container × Nat)) := do
  let o ← doFinalize M o
  let n := min n M.digestSize
  let (c, n) := c.resize n
  let (o, (d, n)) ← digest M o c.data n
  pure (o, (c.withData d, n))

/-- mac/apie.h:286-317 `digest<dynamic>(size)`. -/
def digestDynamic (o : Obj M) (n : Nat) : Option (Obj M × Container) := do
  let (o, (c, _)) ← digestC M o ⟨true, []⟩ n
  pure (o, c)

/-- mac/apie.h:319-347 `digest<static>()`; the container holds between 1 and `digest_size` bytes. -/
def digestStatic (o : Obj M) (init : List Byte) : Option (Obj M × Container) := do
  let (o, (c, _)) ← digestC M o ⟨false, init⟩ init.length
  pure (o, c)

/-- The public member functions of mac/apie.h:20-350. -/
inductive Call where
  | init (key : List Byte)
  | update (x : List Byte)
  | digest (dst : List Byte) (n : Nat)
  | digestC (c : Container) (n : Nat)
  deriving Repr

/-- The caller's obligation for mac/apie.h:20-350. -/
def Call.Ok (ds : Nat) : Call → Prop
  | .digest dst n => min n ds ≤ dst.length
  | .init key => key.length < 2 ^ 64
  | _ => True

/-- A digest request as a call. (mac/apie.h:234-350) -/
def ofReq : DigestReq → Call
  | .ptr dst n => .digest dst n
  | .cont c n => .digestC c n

/-- Output of a call: the buffer or container content and the returned size (mac/apie.h:234-350). -/
abbrev Out := List Byte × Nat

/-- A call of a member function of mac/apie.h:20-350. -/
def exec (o : Obj M) : Call → Option (Obj M × List Out)
  | .init key => do
    let o ← initialise M o key
    pure (o, [])
  | .update x => do
    let o ← update M o x
    pure (o, [])
  | .digest dst n => do
    let (o, out) ← digest M o dst n
    pure (o, [out])
  | .digestC c n => do
    let (o, (c, n)) ← digestC M o c n
    pure (o, [(c.data, n)])

/-- Construction with a key and a sequence of calls. (mac/apie.h:73-105) -/
def run (key : List Byte) (cs : List Call) : Option (Obj M × List Out) := do
  let o ← construct M key
  runCalls (exec M) o cs

/-- Default construction and a sequence of calls. (mac/apie.h:36-60) -/
def runDefault (cs : List Call) : Option (Obj M × List Out) := runCalls (exec M) (constructDefault M) cs

/-- mac/apie.h:376-406 `digest<t_impl>(key ptr, message ptr, digest ptr)`. -/
def oneshot (key msg dst : List Byte) (n : Nat) : Option (List Byte × Nat) := do
  let o ← construct M key
  let o ← update M o msg
  let (_, out) ← digest M o dst n
  pure out

/-- mac/apie.h:430-456 container output. -/
def oneshotC (key msg : List Byte) (c : Container) (n : Nat) : Option (Container × Nat) := do
  let o ← construct M key
  let o ← update M o msg
  let (_, out) ← digestC M o c n
  pure out

/-- mac/apie.h:478-502 and 522-543 returning a container by value. -/
def oneshotDynamic (key msg : List Byte) (n : Nat) : Option Container := do
  let o ← construct M key
  let o ← update M o msg
  let (_, c) ← digestDynamic M o n
  pure c
/-- mac/apie.h:485-544 with a container of fixed size. -/
def oneshotStatic (key msg init : List Byte) : Option Container := do
  let o ← construct M key
  let o ← update M o msg
  let (_, c) ← digestStatic M o init
  pure c

end MacApie

end Milo
