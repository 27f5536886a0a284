import Verif.Model.Kdf
import Verif.Model.MacImpl
import Verif.Model.Update
/- Model of src/milo/primitive/detail/kdf/hkdf.h. -/
namespace Milo.Hkdf
open Memory

/-- hkdf.h:37-47 members. -/
structure Obj (M : MacImpl) where
  hmac : M.σ
  info : View
  counter : BitVec 8
  prk : List Byte
  buffer : List Byte
  bufferSize : Nat

/-- The arguments of `initialize`. (detail/kdf/hkdf.h:113-147) -/
structure Args where
  ikm : Span
  salt : Span
  info : Span
  deriving DecidableEq, Repr

variable (h : Host) (M : MacImpl)

/-- hkdf.h:72-104 `expand` into memory `dst`. -/
def expand (m : Mem) (o : Obj M) (dst : List Byte) (counter : BitVec 8) (prev : List Byte) : Option (Obj M × List Byte) := do
  let s ← M.init o.hmac o.prk
  let s ← M.update s prev
  let info ← o.info.bytes m
  let s ← M.update s info
  let s ← M.update s [counter]
  let s ← M.finalize s
  let (dst, _) ← M.digest s dst M.digestSize
  pure ({ o with hmac := s }, dst)

/-- `expand(key_ptr, …)` with `key_ptr` at offset `off` of the key. (detail/kdf/hkdf.h:76-111) -/
def expandKey (m : Mem) (o : Obj M) (key : List Byte) (off : Nat) (counter : BitVec 8) (prev : List Byte) : Option (Obj M × List Byte) :=
  if off ≤ key.length then do
    let (o, out) ← expand M m o (key.drop off) counter prev
    pure (o, key.take off ++ out)
  else none

/-- `expand(m_buffer, …)`. (detail/kdf/hkdf.h:76-111) -/
def expandBuffer (m : Mem) (o : Obj M) (counter : BitVec 8) (prev : List Byte) : Option (Obj M) := do
  let (o, buf) ← expand M m o o.buffer counter prev
  pure { o with buffer := buf }

/-- hkdf.h:113-143 `initialize`. -/
def init (o : Obj M) (m : Mem) (a : Args) : Option (Obj M) := do
  let info ← View.make h m a.info
  let salt ← a.salt.read m
  let s ← M.init o.hmac salt
  let ikm ← a.ikm.read m
  let s ← M.update s ikm
  let s ← M.finalize s
  let (prk, _) ← M.digest s o.prk M.digestSize
  pure { o with info := info, counter := 1, bufferSize := 0, hmac := s, prk := prk }

/-- hkdf.h:157-174 leftover bytes of the last block. `key` is the memory at `a_key_ptr`; returns what remains to be derived. -/
def serve (o : Obj M) (key : List Byte) (n : Nat) : Option (Obj M × List Byte × Nat) :=
  if o.bufferSize > 0 then do
    let c := min n o.bufferSize
    let src ← advance o.buffer (M.digestSize - o.bufferSize)
    let key ← copy h (p := 1) (q := 1) key src c
    pure ({ o with bufferSize := o.bufferSize - c }, key, n - c)
  else pure (o, key, n)

/-- The variables of the block loop: object, key memory, `counter`, `key_ptr`, `tmp_ptr`. (detail/kdf/hkdf.h:148-248) -/
structure Loop where
  o : Obj M
  key : List Byte
  counter : BitVec 8
  keyOff : Nat
  tmpOff : Nat

/-- hkdf.h:214-226 one iteration of the block loop. -/
def step (m : Mem) (_i : Nat) (s : Loop M) : Option (Loop M) := do
  let prev ← rdN s.key s.tmpOff M.digestSize
  let (o, key) ← expandKey M m s.o s.key s.keyOff s.counter prev
  pure ⟨o, key, s.counter + 1, s.keyOff + M.digestSize, s.tmpOff + M.digestSize⟩

/-- hkdf.h:200-236 at least one full block: the blocks, then one more block into `m_buffer`. -/
def blocks (m : Mem) (o : Obj M) (key : List Byte) (off full : Nat) (prev : List Byte) : Option (Obj M × List Byte × Nat × BitVec 8) := do
  let (o, key) ← expandKey M m o key off o.counter prev
  let s ← forM' (step M m) (full - 1) 1 ⟨o, key, o.counter + 1, off + M.digestSize, off⟩
  let prev ← rdN s.key s.tmpOff M.digestSize
  let o ← expandBuffer M m s.o s.counter prev
  pure (o, s.key, s.keyOff, s.counter + 1)

/-- hkdf.h:189-199 less than a full block: one block into `m_buffer`. -/
def single (m : Mem) (o : Obj M) (key : List Byte) (off : Nat) (prev : List Byte) : Option (Obj M × List Byte × Nat × BitVec 8) := do
  let o ← expandBuffer M m o o.counter prev
  pure (o, key, off, o.counter + 1)

/-- hkdf.h:186-187 `beg_ptr`, `beg_size`. -/
def previous (o : Obj M) : List Byte := if o.counter = 1 then [] else o.buffer

/-- hkdf.h:181-246 deriving `n > 0` bytes at offset `off`. -/
def generate (m : Mem) (o : Obj M) (key : List Byte) (off n : Nat) : Option (Obj M × List Byte) := do
  let full := n / M.digestSize
  let last := n % M.digestSize
  let (o, key, off, counter) ← if full = 0 then single M m o key off (previous M o) else blocks M m o key off full (previous M o)
  let key ← at_ key off fun p => copy h (p := 1) (q := 1) p o.buffer last
  pure ({ o with bufferSize := M.digestSize - last, counter := counter }, key)

/-- hkdf.h:145-248 `derive`. -/
def derive (o : Obj M) (m : Mem) (key : List Byte) (n : Nat) : Option (Obj M × List Byte × Nat) := do
  let (o, key, rest) ← serve h M o key n
  if rest = 0 then pure (o, key, n) else do
    let (o, key) ← generate h M m o key (n - rest) rest
    pure (o, key, n)

/-- The class `hkdf<M>`. (detail/kdf/hkdf.h:15-250) -/
def impl : KdfImpl where
  σ := Obj M
  Args := Args
  spans := fun a => [a.ikm, a.salt, a.info]
  fresh := ⟨M.fresh, .owned [], 1, List.replicate M.digestSize 0, List.replicate M.digestSize 0, 0⟩
  init := init h M
  derive := derive h M

end Milo.Hkdf
