import Verif.Model.Base
import Verif.Model.HashApie
import Verif.Model.Memory
/-
The caller's memory, views into it, the interface the kdf classes share (`meta::primitive::kdf`), call sequences, and
src/milo/primitive/kdf/apie.h.
-/
namespace Milo

/-- The caller's buffers, by number. (no code in /repo: what the pointers given to kdf/apie.h:92-430 point at) -/
abbrev Mem := Nat → List Byte

/-- A pointer and a size: the first `size` bytes of a buffer. (kdf/apie.h:92-430, 438) -/
structure Span where
  buf : Nat
  size : Nat
  deriving DecidableEq, Repr

/-- Reading the bytes a pointer and a size stand for. (internal/memory.h:1116-1260 `memory_bytes_const_view`: the buffers HKDF and PBKDF2 keep, read in detail/kdf/hkdf.h:76-100, detail/kdf/pbkdf_2.h:79-150) -/
def Span.read (m : Mem) (s : Span) : Option (List Byte) := rdN (m s.buf) 0 s.size

/-- internal/memory.h:1116-1282 `memory_bytes_const_view`: a pointer and a size, or a copy of the bytes (constant evaluation). The default-constructed
view (null, 0) is the empty copy. -/
inductive View where
  | ref (s : Span)
  | owned (bytes : List Byte)
  deriving Repr

/-- memory.h:1180-1206 the constructor from a pointer and a size; followed by a move assignment (1211-1234), which keeps the content. -/
def View.make (h : Host) (m : Mem) (s : Span) : Option View :=
  if h.consteval then (s.read m).map .owned else some (.ref s)

/-- memory.h:1270-1281 reading through `data()`, `size()`. -/
def View.bytes (m : Mem) : View → Option (List Byte)
  | .ref s => s.read m
  | .owned b => some b

/-- A kdf class. `none` is undefined behaviour. The key is written to memory of its own (a caller deriving into a buffer that a view of the object refers
to: Model/InPlaceKdf.lean). -/
structure KdfImpl where
  σ : Type
  /-- arguments of `initialize` -/
  Args : Type
  /-- the byte ranges among them -/
  spans : Args → List Span
  fresh : σ
  init : σ → Mem → Args → Option σ
  derive : σ → Mem → List Byte → Nat → Option (σ × List Byte × Nat)

namespace Kdf

/-- What a user does with a kdf object: `initialize`, changing one of the own buffers, `derive` (into a buffer or a container). (kdf/apie.h:92-545) -/
inductive Call (A : Type) where
  | init (a : A)
  | poke (b : Nat) (content : List Byte)
  | derive (r : DigestReq)
  deriving Repr

/-- Output of a call: the key memory and the size (kdf/apie.h:438-545). -/
abbrev Out := List Byte × Nat

variable (K : KdfImpl)

/-- kdf/apie.h:434-447 `derive(ptr, size)` and 461-479 `derive(container, size)`. -/
def deriveReq (o : K.σ) (m : Mem) : DigestReq → Option (K.σ × Out)
  | .ptr dst n => do
    let (o, out) ← K.derive o m dst n
    pure (o, out)
  | .cont c n => do
    let (c, n) := c.resize n
    let (o, d, n) ← K.derive o m c.data n
    pure (o, ((c.withData d).data, n))

/-- kdf/apie.h:52-238 constructors (default construction and `initialize`), 257-420 `initialize`, 434-479 `derive`. -/
def exec (s : K.σ × Mem) : Call K.Args → Option ((K.σ × Mem) × List Out)
  | .init a => do
    let o ← K.init s.1 s.2 a
    pure ((o, s.2), [])
  | .poke b content => some ((s.1, fun i => if i = b then content else s.2 i), [])
  | .derive r => do
    let (o, out) ← deriveReq K s.1 s.2 r
    pure ((o, s.2), [out])

/-- A default-constructed object, caller memory `m` and a sequence of calls. (kdf/apie.h:28-60) -/
def run (m : Mem) (cs : List (Call K.Args)) : Option ((K.σ × Mem) × List Out) := runCalls (exec K) (K.fresh, m) cs

/-- kdf/apie.h:577-609, 788-817 `derive<t_impl>(inputs, key ptr, size)`. -/
def oneshot (m : Mem) (a : K.Args) (dst : List Byte) (n : Nat) : Option Out := do
  let o ← K.init K.fresh m a
  let (_, out) ← deriveReq K o m (.ptr dst n)
  pure out

/-- kdf/apie.h:637-663, 843-868 container output. -/
def oneshotC (m : Mem) (a : K.Args) (c : Container) (n : Nat) : Option Out := do
  let o ← K.init K.fresh m a
  let (_, out) ← deriveReq K o m (.cont c n)
  pure out

/-- kdf/apie.h:491-512 `derive<dynamic>(size)` and 689-713, 892-915 returning a container by value. -/
def oneshotDynamic (m : Mem) (a : K.Args) (n : Nat) : Option Container := do
  let out ← oneshotC K m a ⟨true, []⟩ n
  pure ⟨true, out.1⟩
/-- kdf/apie.h:522-542 `derive<static>()` and 737-758, 937-957. -/
def oneshotStatic (m : Mem) (a : K.Args) (init : List Byte) : Option Container := do
  let out ← oneshotC K m a ⟨false, init⟩ init.length
  pure ⟨false, out.1⟩

/-- The caller's memory: buffer `b` has `sizes b` bytes. (no code in /repo: what the pointers given to kdf/apie.h:92-430 point at) -/
def MemOk (sizes : Nat → Nat) (m : Mem) : Prop := ∀ b, (m b).length = sizes b

/-- The caller's obligations: ranges lie in the buffers, buffers keep their size, keys have room; sizes are below `2^64`. (kdf/apie.h:92-545) -/
def Call.Ok (sizes : Nat → Nat) : Call K.Args → Prop
  | .init a => ∀ s ∈ K.spans a, s.size ≤ sizes s.buf ∧ s.size < 2 ^ 64
  | .poke b content => content.length = sizes b
  | .derive (.ptr dst n) => n ≤ dst.length
  | .derive (.cont _ _) => True

end Kdf

end Milo
