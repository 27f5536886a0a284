import Verif.Model.Kdf
import Verif.Model.MacImpl
import Verif.Model.Update
/- Model of src/milo/primitive/detail/kdf/pbkdf_2.h. -/
namespace Milo.Pbkdf2
open Memory

/-- pbkdf_2.h:37-49 members. -/
structure Obj (M : MacImpl) where
  prf : M.σ
  ikm : View
  salt : View
  iterations : W32
  counter : W32
  buffer : List Byte
  bufferSize : Nat

/-- The arguments of `initialize`. (detail/kdf/pbkdf_2.h:154-179) -/
structure Args where
  ikm : Span
  salt : Span
  iterations : W32
  deriving DecidableEq, Repr

-- `junk` is the indeterminate content of local arrays.
variable (h : Host) (M : MacImpl) (junk : Nat → Byte)

/-- A local array without initialiser. (detail/kdf/pbkdf_2.h:79-150) -/
def uninit (n : Nat) : List Byte := (List.range n).map junk

/-- pbkdf_2.h:118-137 one iteration: `m_prf`, `buffer_0`, `buffer_1`. -/
def iterate (m : Mem) (ikm : View) (_i : Nat) (s : M.σ × List Byte × List Byte) : Option (M.σ × List Byte × List Byte) := do
  let key ← ikm.bytes m
  let p ← M.init s.1 key
  let p ← M.update p s.2.1
  let p ← M.finalize p
  let (b0, _) ← M.digest p s.2.1 M.digestSize
  let b1 ← xor h s.2.2 s.2.2 b0 M.digestSize
  pure (p, b0, b1)

/-- pbkdf_2.h:76-146 `expand` into memory `dst`. `for (i = m_iterations; i > 1; i -= 1)` runs `iterations - 1` times. -/
def expand (m : Mem) (o : Obj M) (dst : List Byte) (counter : W32) : Option (Obj M × List Byte) := do
  let ctr ← storBe h (v := 4) (p := 1) (uninit junk 4) 0 counter
  let ikm ← o.ikm.bytes m
  let p ← M.init o.prf ikm
  let salt ← o.salt.bytes m
  let p ← M.update p salt
  let p ← M.update p ctr
  let p ← M.finalize p
  let (b0, _) ← M.digest p (uninit junk M.digestSize) M.digestSize
  let b1 ← copy h (p := 1) (q := 1) (uninit junk M.digestSize) b0 M.digestSize
  let (p, _, b1) ← forM' (iterate h M m o.ikm) (o.iterations.toNat - 1) 0 (p, b0, b1)
  let dst ← copy h (p := 1) (q := 1) dst b1 M.digestSize
  pure ({ o with prf := p }, dst)

/-- pbkdf_2.h:150-175 `initialize`. -/
def init (o : Obj M) (m : Mem) (a : Args) : Option (Obj M) := do
  let ikm ← View.make h m a.ikm
  let salt ← View.make h m a.salt
  pure { o with ikm := ikm, salt := salt, iterations := a.iterations, counter := 1, bufferSize := 0 }

/-- pbkdf_2.h:189-206 leftover bytes of the last block; returns what remains to be derived. -/
def serve (o : Obj M) (key : List Byte) (n : Nat) : Option (Obj M × List Byte × Nat) :=
  if o.bufferSize > 0 then do
    let c := min n o.bufferSize
    let src ← advance o.buffer (M.digestSize - o.bufferSize)
    let key ← copy h (p := 1) (q := 1) key src c
    pure ({ o with bufferSize := o.bufferSize - c }, key, n - c)
  else pure (o, key, n)

/-- The variables of the block loop: object, key memory, `counter`, `key_ptr`. (detail/kdf/pbkdf_2.h:180-254) -/
structure Loop where
  o : Obj M
  key : List Byte
  counter : W32
  keyOff : Nat

/-- pbkdf_2.h:218-227 one iteration of the block loop. -/
def step (m : Mem) (_i : Nat) (s : Loop M) : Option (Loop M) :=
  if s.keyOff ≤ s.key.length then do
    let (o, out) ← expand h M junk m s.o (s.key.drop s.keyOff) s.counter
    pure ⟨o, s.key.take s.keyOff ++ out, s.counter + 1, s.keyOff + M.digestSize⟩
  else none

/-- pbkdf_2.h:229-250 the last, incomplete block. -/
def final (m : Mem) (s : Loop M) (last : Nat) : Option (Obj M × List Byte) :=
  if last > 0 then do
    let (o, buf) ← expand h M junk m s.o s.o.buffer s.counter
    let key ← at_ s.key s.keyOff fun p => copy h (p := 1) (q := 1) p buf last
    pure ({ o with buffer := buf, bufferSize := M.digestSize - last, counter := s.counter + 1 }, key)
  else pure ({ s.o with bufferSize := 0, counter := s.counter }, s.key)

/-- pbkdf_2.h:213-252 deriving `n > 0` bytes at offset `off`. -/
def generate (m : Mem) (o : Obj M) (key : List Byte) (off n : Nat) : Option (Obj M × List Byte) := do
  let s ← forM' (step h M junk m) (n / M.digestSize) 0 ⟨o, key, o.counter, off⟩
  final h M junk m s (n % M.digestSize)

/-- pbkdf_2.h:177-254 `derive`. -/
def derive (o : Obj M) (m : Mem) (key : List Byte) (n : Nat) : Option (Obj M × List Byte × Nat) := do
  let (o, key, rest) ← serve h M o key n
  if rest = 0 then pure (o, key, n) else do
    let (o, key) ← generate h M junk m o key (n - rest) rest
    pure (o, key, n)

/-- The class `pbkdf_2<M>`. (detail/kdf/pbkdf_2.h:15-256) -/
def impl : KdfImpl where
  σ := Obj M
  Args := Args
  spans := fun a => [a.ikm, a.salt]
  fresh := ⟨M.fresh, .owned [], .owned [], 0, 1, List.replicate M.digestSize 0, 0⟩
  init := init h M
  derive := derive h M junk

end Milo.Pbkdf2
