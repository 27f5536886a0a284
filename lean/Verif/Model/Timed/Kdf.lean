import Verif.Model.Timed.Mac
import Verif.Model.Hkdf
import Verif.Model.Pbkdf2
/- The kdf classes (Model/Hkdf.lean, Pbkdf2.lean) with what is observed of them. -/
namespace Milo.Timed

/-- Model/Kdf.lean `Span.read`. -/
def read (m : Mem) (s : Span) : T (List Byte) := rdN (m s.buf) 0 s.size

/-- Model/Kdf.lean `View.make`. -/
def viewMake (h : Host) (m : Mem) (s : Span) : T View :=
  if h.consteval then do
    let x ← read m s
    pure (.owned x)
  else pure (.ref s)

/-- Model/Kdf.lean `View.bytes`. -/
def viewBytes (m : Mem) : View → T (List Byte)
  | .ref s => read m s
  | .owned b => ⟨[.access 0 b.length], some b⟩

/-- The member functions of a kdf class with what is observed. (the interface of detail/kdf/hkdf.h:113-250, detail/kdf/pbkdf_2.h:154-256) -/
structure KdfT (K : KdfImpl) where
  init : K.σ → Mem → K.Args → T K.σ
  derive : K.σ → Mem → List Byte → Nat → T (K.σ × List Byte × Nat)

namespace Hkdf
open Milo.Hkdf (Obj Args Loop)

variable (h : Host) {M : MacImpl} (t : MacT M)

/-- hkdf.h:72-104 `expand`. -/
def expand (m : Mem) (o : Obj M) (dst : List Byte) (counter : BitVec 8) (prev : List Byte) : T (Obj M × List Byte) := do
  let s ← t.init o.hmac o.prk
  let s ← t.update s prev
  let info ← viewBytes m o.info
  let s ← t.update s info
  let s ← t.update s [counter]
  let s ← t.finalize s
  let (dst, _) ← t.digest s dst M.digestSize
  pure ({ o with hmac := s }, dst)

/-- `expand(key_ptr, …)` with `key_ptr` at offset `off` of the key. (detail/kdf/hkdf.h:76-111) -/
def expandKey (m : Mem) (o : Obj M) (key : List Byte) (off : Nat) (counter : BitVec 8) (prev : List Byte) : T (Obj M × List Byte) :=
  if off ≤ key.length then do
    (⟨[.pointer off], some ()⟩ : T Unit)
    let (o, out) ← expand t m o (key.drop off) counter prev
    pure (o, key.take off ++ out)
  else fail

/-- `expand(m_buffer, …)`. (detail/kdf/hkdf.h:76-111) -/
def expandBuffer (m : Mem) (o : Obj M) (counter : BitVec 8) (prev : List Byte) : T (Obj M) := do
  let (o, buf) ← expand t m o o.buffer counter prev
  pure { o with buffer := buf }

/-- hkdf.h:113-143 `initialize`. -/
def init (o : Obj M) (m : Mem) (a : Args) : T (Obj M) := do
  let info ← viewMake h m a.info
  let salt ← read m a.salt
  let s ← t.init o.hmac salt
  let ikm ← read m a.ikm
  let s ← t.update s ikm
  let s ← t.finalize s
  let (prk, _) ← t.digest s o.prk M.digestSize
  pure { o with info := info, counter := 1, bufferSize := 0, hmac := s, prk := prk }

/-- hkdf.h:157-174 leftover bytes of the last block. -/
def serve (o : Obj M) (key : List Byte) (n : Nat) : T (Obj M × List Byte × Nat) :=
  branch (o.bufferSize > 0) (do
    let c := min n o.bufferSize
    let src ← advance o.buffer (M.digestSize - o.bufferSize)
    let key ← copy h (p := 1) (q := 1) key src c
    pure ({ o with bufferSize := o.bufferSize - c }, key, n - c))
    (pure (o, key, n))

/-- hkdf.h:214-226 one iteration of the block loop. -/
def step (m : Mem) (_i : Nat) (s : Loop M) : T (Loop M) := do
  let prev ← rdN s.key s.tmpOff M.digestSize
  let (o, key) ← expandKey t m s.o s.key s.keyOff s.counter prev
  pure ⟨o, key, s.counter + 1, s.keyOff + M.digestSize, s.tmpOff + M.digestSize⟩

/-- hkdf.h:200-236 at least one full block: the blocks, then one more block into `m_buffer`. -/
def blocks (m : Mem) (o : Obj M) (key : List Byte) (off full : Nat) (prev : List Byte) : T (Obj M × List Byte × Nat × BitVec 8) := do
  let (o, key) ← expandKey t m o key off o.counter prev
  let s ← forM' (step t m) (full - 1) 1 ⟨o, key, o.counter + 1, off + M.digestSize, off⟩
  let prev ← rdN s.key s.tmpOff M.digestSize
  let o ← expandBuffer t m s.o s.counter prev
  pure (o, s.key, s.keyOff, s.counter + 1)

/-- hkdf.h:189-199 less than a full block: one block into `m_buffer`. -/
def single (m : Mem) (o : Obj M) (key : List Byte) (off : Nat) (prev : List Byte) : T (Obj M × List Byte × Nat × BitVec 8) := do
  let o ← expandBuffer t m o o.counter prev
  pure (o, key, off, o.counter + 1)

/-- hkdf.h:186-187 `beg_ptr`, `beg_size`. -/
def previous (o : Obj M) : T (List Byte) := branch (o.counter = 1) (pure []) (pure o.buffer)

/-- hkdf.h:181-246 deriving `n > 0` bytes at offset `off`. -/
def generate (m : Mem) (o : Obj M) (key : List Byte) (off n : Nat) : T (Obj M × List Byte) := do
  let full := n / M.digestSize
  let last := n % M.digestSize
  let prev ← previous o
  let (o, key, off, counter) ← branch (full = 0) (single t m o key off prev) (blocks t m o key off full prev)
  let key ← at_ key off fun p => copy h (p := 1) (q := 1) p o.buffer last
  pure ({ o with bufferSize := M.digestSize - last, counter := counter }, key)

/-- hkdf.h:145-248 `derive`. -/
def derive (o : Obj M) (m : Mem) (key : List Byte) (n : Nat) : T (Obj M × List Byte × Nat) := do
  let (o, key, rest) ← serve h o key n
  branch (rest = 0) (pure (o, key, n)) (do
    let (o, key) ← generate h t m o key (n - rest) rest
    pure (o, key, n))

end Hkdf

namespace Pbkdf2
open Milo.Pbkdf2 (Obj Args Loop uninit)

variable (h : Host) {M : MacImpl} (t : MacT M) (junk : Nat → Byte)

/-- pbkdf_2.h:118-137 one iteration. -/
def iterate (m : Mem) (ikm : View) (_i : Nat) (s : M.σ × List Byte × List Byte) : T (M.σ × List Byte × List Byte) := do
  let key ← viewBytes m ikm
  let p ← t.init s.1 key
  let p ← t.update p s.2.1
  let p ← t.finalize p
  let (b0, _) ← t.digest p s.2.1 M.digestSize
  let b1 ← xor h s.2.2 s.2.2 b0 M.digestSize
  pure (p, b0, b1)

/-- pbkdf_2.h:76-146 `expand`. -/
def expand (m : Mem) (o : Obj M) (dst : List Byte) (counter : W32) : T (Obj M × List Byte) := do
  let ctr ← storBe h (v := 4) (p := 1) (uninit junk 4) 0 counter
  let ikm ← viewBytes m o.ikm
  let p ← t.init o.prf ikm
  let salt ← viewBytes m o.salt
  let p ← t.update p salt
  let p ← t.update p ctr
  let p ← t.finalize p
  let (b0, _) ← t.digest p (uninit junk M.digestSize) M.digestSize
  let b1 ← copy h (p := 1) (q := 1) (uninit junk M.digestSize) b0 M.digestSize
  let (p, _, b1) ← forM' (iterate h t m o.ikm) (o.iterations.toNat - 1) 0 (p, b0, b1)
  let dst ← copy h (p := 1) (q := 1) dst b1 M.digestSize
  pure ({ o with prf := p }, dst)

/-- pbkdf_2.h:150-175 `initialize`. -/
def init (o : Obj M) (m : Mem) (a : Args) : T (Obj M) := do
  let ikm ← viewMake h m a.ikm
  let salt ← viewMake h m a.salt
  pure { o with ikm := ikm, salt := salt, iterations := a.iterations, counter := 1, bufferSize := 0 }

/-- pbkdf_2.h:189-206 leftover bytes of the last block. -/
def serve (o : Obj M) (key : List Byte) (n : Nat) : T (Obj M × List Byte × Nat) :=
  branch (o.bufferSize > 0) (do
    let c := min n o.bufferSize
    let src ← advance o.buffer (M.digestSize - o.bufferSize)
    let key ← copy h (p := 1) (q := 1) key src c
    pure ({ o with bufferSize := o.bufferSize - c }, key, n - c))
    (pure (o, key, n))

/-- pbkdf_2.h:218-227 one iteration of the block loop. -/
def step (m : Mem) (_i : Nat) (s : Loop M) : T (Loop M) :=
  if s.keyOff ≤ s.key.length then do
    (⟨[.pointer s.keyOff], some ()⟩ : T Unit)
    let (o, out) ← expand h t junk m s.o (s.key.drop s.keyOff) s.counter
    pure ⟨o, s.key.take s.keyOff ++ out, s.counter + 1, s.keyOff + M.digestSize⟩
  else fail

/-- pbkdf_2.h:229-250 the last, incomplete block. -/
def final (m : Mem) (s : Loop M) (last : Nat) : T (Obj M × List Byte) :=
  branch (last > 0) (do
    let (o, buf) ← expand h t junk m s.o s.o.buffer s.counter
    let key ← at_ s.key s.keyOff fun p => copy h (p := 1) (q := 1) p buf last
    pure ({ o with buffer := buf, bufferSize := M.digestSize - last, counter := s.counter + 1 }, key))
    (pure ({ s.o with bufferSize := 0, counter := s.counter }, s.key))

/-- pbkdf_2.h:213-252 deriving `n > 0` bytes at offset `off`. -/
def generate (m : Mem) (o : Obj M) (key : List Byte) (off n : Nat) : T (Obj M × List Byte) := do
  let s ← forM' (step h t junk m) (n / M.digestSize) 0 ⟨o, key, o.counter, off⟩
  final h t junk m s (n % M.digestSize)

/-- pbkdf_2.h:177-254 `derive`. -/
def derive (o : Obj M) (m : Mem) (key : List Byte) (n : Nat) : T (Obj M × List Byte × Nat) := do
  let (o, key, rest) ← serve h o key n
  branch (rest = 0) (pure (o, key, n)) (do
    let (o, key) ← generate h t junk m o key (n - rest) rest
    pure (o, key, n))

end Pbkdf2

/-- `hkdf<M>`, `pbkdf_2<M>`. (detail/kdf/hkdf.h:15-250) -/
def hkdf (h : Host) {M : MacImpl} (t : MacT M) : KdfT (Milo.Hkdf.impl h M) := ⟨Hkdf.init h t, Hkdf.derive h t⟩
/-- detail/kdf/pbkdf_2.h:15-256 -/
def pbkdf2 (h : Host) {M : MacImpl} (t : MacT M) (junk : Nat → Byte) : KdfT (Milo.Pbkdf2.impl h M junk) := ⟨Pbkdf2.init h, Pbkdf2.derive h t junk⟩

end Milo.Timed
