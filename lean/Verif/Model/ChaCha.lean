import Verif.Model.Sha1
import Verif.Model.Update
/-
Model of src/milo/primitive/detail/cipher/chacha/chacha.h, chacha_impl_sw.h, of cipher/impl.h and of `update_block_prod_xor` (internal/update.h).

Source and destination of a transformation may be the same memory, so the memory both pointers point into is one list of bytes, and the pointers are
offsets in it (two separate buffers are two disjoint ranges).
-/
namespace Milo.ChaCha
open Memory
open Sha1 (bitRotl)

/-- cipher/impl.h: what `update_block_prod_xor` calls. `transform blocks state mem dst src` and `generate blocks state buf` count `blocks` in units of
`ratio` 64-byte blocks and return the number of 64-byte blocks done. -/
structure Backend where
  /-- `block_ratio` -/
  ratio : Nat
  transform : Nat → List W32 → List Byte → (dst src : Nat) → Option (Nat × List Byte)
  generate : Nat → List W32 → List Byte → Option (Nat × List Byte)

/-! ### chacha_impl_sw.h -/

/-- `state_eval[a] = state_eval[a] + state_eval[b]` (detail/cipher/chacha/chacha_impl_sw.h:64-85) -/
def add (s : List W32) (a b : Nat) : Option (List W32) := do
  let x ← rd1 s a
  let y ← rd1 s b
  wr1 s a (x + y)

/-- `state_eval[d] = bit_rotl(state_eval[d] ^ state_eval[a], n)` (detail/cipher/chacha/chacha_impl_sw.h:64-85) -/
def xrot (s : List W32) (d a n : Nat) : Option (List W32) := do
  let x ← rd1 s d
  let y ← rd1 s a
  wr1 s d (bitRotl (x ^^^ y) n)

/-- chacha_impl_sw.h:66-74 the round macro. -/
def round (a0 a1 a2 a3 : Nat) (s : List W32) : Option (List W32) := do
  let s ← add s a0 a1
  let s ← xrot s a3 a0 16
  let s ← add s a2 a3
  let s ← xrot s a1 a2 12
  let s ← add s a0 a1
  let s ← xrot s a3 a0 8
  let s ← add s a2 a3
  xrot s a1 a2 7

/-- chacha_impl_sw.h:94-102 -/
def doubleRound (_j : Nat) (s : List W32) : Option (List W32) := do
  let s ← round 0 4 8 12 s
  let s ← round 1 5 9 13 s
  let s ← round 2 6 10 14 s
  let s ← round 3 7 11 15 s
  let s ← round 0 5 10 15 s
  let s ← round 1 6 11 12 s
  let s ← round 2 7 8 13 s
  round 3 4 9 14 s

/-- chacha_impl_sw.h:110-113 `state_eval[j] += state_base[j]` -/
def addBase (base : List W32) (j : Nat) (s : List W32) : Option (List W32) := do
  let x ← rd1 s j
  let y ← rd1 base j
  wr1 s j (x + y)

/-- chacha_impl_sw.h:84-113: the 16 words of one block of key stream. -/
def keyWords (base : List W32) : Option (List W32) := do
  let s ← forM' doubleRound 10 0 base
  forM' (addBase base) 16 0 s

/-- chacha_impl_sw.h:115-132 one word of `transform`. -/
def transformWord (h : Host) (w : List W32) (dst src j : Nat) (mem : List Byte) : Option (List Byte) := do
  let x ← rd1 w j
  let s ← advance mem src
  let y ← loadLe h false 4 (p := 1) s j
  at_ mem dst fun d => storLe h (v := 4) (p := 1) d j (x ^^^ y)

/-- chacha_impl_sw.h:115-132 one word of `generate`. -/
def generateWord (h : Host) (w : List W32) (dst j : Nat) (mem : List Byte) : Option (List Byte) := do
  let x ← rd1 w j
  at_ mem dst fun d => storLe h (v := 4) (p := 1) d j x

/-- chacha_impl_sw.h:134 `state_base[12] += 1` -/
def bump (s : List W32) (n : Nat) : Option (List W32) := do
  let x ← rd1 s 12
  wr1 s 12 (x + BitVec.ofNat 32 n)

/-- chacha_impl_sw.h:82-143 one block of `transform`: `state_base` and the memory; the pointers have advanced by `64 * i`. -/
def transformBlock (h : Host) (dst src i : Nat) (s : List W32 × List Byte) : Option (List W32 × List Byte) := do
  let w ← keyWords s.1
  let mem ← forM' (transformWord h w (dst + 64 * i) (src + 64 * i)) 16 0 s.2
  let base ← bump s.1 1
  pure (base, mem)

/-- chacha_impl_sw.h:82-143 one block of `generate`. -/
def generateBlock (h : Host) (i : Nat) (s : List W32 × List Byte) : Option (List W32 × List Byte) := do
  let w ← keyWords s.1
  let mem ← forM' (generateWord h w (64 * i)) 16 0 s.2
  let base ← bump s.1 1
  pure (base, mem)

/-- chacha_impl_sw.h:59-64 the copy of the state. -/
def copyState (st : List W32) : Option (List W32) := rdN st 0 16

/-- chacha_impl_sw.h:147-183 the portable backend. -/
def sw (h : Host) : Backend where
  ratio := 1
  transform := fun n st mem dst src => do
    let base ← copyState st
    let (_, mem) ← forM' (transformBlock h dst src) n 0 (base, mem)
    pure (n, mem)
  generate := fun n st buf => do
    let base ← copyState st
    let (_, buf) ← forM' (generateBlock h) n 0 (base, buf)
    pure (n, buf)

/-! ### internal/update.h -/

/-- memory.h:723-744 `memory_xor` of `n` bytes at `mem + src` with `key` into `mem + dst`. -/
def xorMem (h : Host) (mem : List Byte) (dst src : Nat) (key : List Byte) (n : Nat) : Option (List Byte) :=
  forM' (fun i mem => do
    let s ← advance mem src
    let x ← load h false (p := 1) 1 s i
    let y ← load h false (p := 1) 1 key i
    at_ mem dst fun d => stor h (v := 1) (p := 1) d i (x ^^^ y)) n 0 mem

/-- What `update_block_prod_xor` changes: `m_buffer_size` (returned), `m_buffer`, `m_state` (through the callback), and memory. (internal/update.h:100-195) -/
structure Prod where
  fill : Nat
  buf : List Byte
  st : List W32
  mem : List Byte

/-- update.h:142-166 the whole blocks; the callback is chacha.h `m_state[12] += a_blocks`. -/
def fullBlocks (B : Backend) (full : Nat) (st : List W32) (mem : List Byte) (dst src : Nat) : Option (List W32 × List Byte) :=
  if full ≠ 0 then do
    let (done, mem) ← B.transform full st mem dst src
    let st ← bump st done
    pure (st, mem)
  else pure (st, mem)

/-- update.h:168-192 the rest: a fresh block of key stream is put into the buffer. -/
def lastBytes (h : Host) (B : Backend) (last : Nat) (buf : List Byte) (st : List W32) (mem : List Byte) (dst src : Nat) : Option Prod :=
  if last ≠ 0 then do
    let (done, buf) ← B.generate 1 st buf
    let st ← bump st done
    let mem ← xorMem h mem dst src buf last
    pure ⟨last, buf, st, mem⟩
  else pure ⟨last, buf, st, mem⟩

/-- update.h:139-193 -/
def prodRest (h : Host) (B : Backend) (buf : List Byte) (st : List W32) (mem : List Byte) (dst src n : Nat) : Option Prod := do
  let block := 64 * B.ratio
  let full := n / block
  let (st, mem) ← fullBlocks B full st mem dst src
  lastBytes h B (n % block) buf st mem (dst + full * block) (src + full * block)

/-- internal/update.h:97-194 `update_block_prod_xor`. `fill` is the number of bytes of the buffer already used; `block_size - a_buf_size` would wrap
when it is above the block size, which is treated as undefined. -/
def prodXor (h : Host) (B : Backend) (buf : List Byte) (fill : Nat) (st : List W32) (mem : List Byte) (dst src n : Nat) : Option Prod := do
  let block := 64 * B.ratio
  if fill > 0 then
    if fill > block then none else do
    let left := block - fill
    let todo := min left n
    let key ← advance buf fill
    let mem ← xorMem h mem dst src key todo
    if todo < left then pure ⟨fill + todo, buf, st, mem⟩
    else prodRest h B buf st mem (dst + todo) (src + todo) (n - todo)
  else prodRest h B buf st mem dst src n

/-! ### chacha.h -/

/-- chacha.h:70-76 members. -/
structure Obj where
  state : List W32
  buffer : List Byte
  bufferSize : Nat

/-- chacha.h:70-76 the member initialisers. -/
def fresh : Obj := ⟨List.replicate 16 0, List.replicate (64 * 8) 0, 0⟩

/-- `memory_init_le(words + off, n, src, size)` (internal/memory.h:1071-1120) -/
def initWords (h : Host) (st : List W32) (off n : Nat) (src : List Byte) : Option (List W32) := do
  let w ← rdN st off n
  let w ← initLe h (p := 4) (q := 1) w src
  wrN st off w

/-- chacha.h:99-127 `initialize`. -/
def init (h : Host) (o : Obj) (key iv : List Byte) : Option Obj := do
  let st ← wr1 o.state 0 0x61707865
  let st ← wr1 st 1 0x3320646e
  let st ← wr1 st 2 0x79622d32
  let st ← wr1 st 3 0x6b206574
  let st ← initWords h st 4 8 key
  let st ← initWords h st 12 4 iv
  pure ⟨st, o.buffer, 0⟩

/-- chacha.h:133-158 `encrypt`: `n` bytes at offset `src` of `mem` to offset `dst`. Returns the object, the memory and the size. -/
def encrypt (h : Host) (B : Backend) (o : Obj) (mem : List Byte) (src n dst : Nat) : Option (Obj × List Byte × Nat) := do
  let r ← prodXor h B o.buffer o.bufferSize o.state mem dst src n
  pure (⟨r.st, r.buf, r.fill⟩, r.mem, n)

/-- chacha.h:177-202 `decrypt`. -/
def decrypt (h : Host) (B : Backend) (o : Obj) (mem : List Byte) (src n dst : Nat) : Option (Obj × List Byte × Nat) := do
  let r ← prodXor h B o.buffer o.bufferSize o.state mem dst src n
  pure (⟨r.st, r.buf, r.fill⟩, r.mem, n)

end Milo.ChaCha
