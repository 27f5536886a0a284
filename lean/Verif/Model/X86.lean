import Verif.Model.Memory
/-
The x86-64 vector instructions used by the assembly files, and straight-line programs of them.

Semantics after the Intel Software Developer's Manual, volume 2. What is modelled: the vector registers, the stack slots the code names, constants,
`movdqu` and VEX memory operands on the caller's memory with their bounds, pointer registers. Not modelled: flags other than through the counted
loops (in the files that use the instructions), addresses of stack slots and their alignment, saving and restoring the caller's registers (Windows), the
upper halves of `ymm` registers after legacy SSE instructions (no program here mixes the two).

Programs are run over any implementation of the instructions (`Alg`), so that running a program on registers holding unknown values is a computation;
`simd` is the implementation that says what they do.
-/
namespace Milo.X86
open Memory

/-- A vector register as its 32-bit lanes, lane 0 being the least significant. A register of 128 bits has lanes 0-3, one of 256 bits lanes 0-7; what the
function gives beyond has no meaning, and no store writes it. -/
abbrev Vec := Nat → W32

/-- Two-operand vector instructions. No code in /repo: the instruction set (Intel SDM), as far as chacha_impl_hw_x86_64.asm:1-981, sha_1_160_impl_hw_x86_64.asm:1-180 and sha_2_256_impl_hw_x86_64.asm:1-217 use it. -/
inductive Bin where
  | paddd | pxor | pshufb | punpckhdq | punpckldq | punpckhqdq | punpcklqdq
  | sha1nexte | sha1msg1 | sha1msg2 | sha256msg1 | sha256msg2
  deriving DecidableEq, Repr

/-- Instructions with one operand and an immediate. No code in /repo: the instruction set (Intel SDM), as far as chacha_impl_hw_x86_64.asm:1-981, sha_1_160_impl_hw_x86_64.asm:1-180 and sha_2_256_impl_hw_x86_64.asm:1-217 use it. -/
inductive UnImm where
  | pslld | psrld | pshufd | pslldq | psrldq
  deriving DecidableEq, Repr

/-- Instructions with two operands and an immediate. No code in /repo: the instruction set (Intel SDM), as far as chacha_impl_hw_x86_64.asm:1-981, sha_1_160_impl_hw_x86_64.asm:1-180 and sha_2_256_impl_hw_x86_64.asm:1-217 use it. -/
inductive BinImm where
  | vperm2i128 | palignr | sha1rnds4
  deriving DecidableEq, Repr

/-- Implementation of the instructions on values `V` and memory `M`. `load` also yields a memory, so that an access out of bounds can be recorded. (No code in /repo: the instruction set (Intel SDM), as far as chacha_impl_hw_x86_64.asm:1-981, sha_1_160_impl_hw_x86_64.asm:1-180 and sha_2_256_impl_hw_x86_64.asm:1-217 use it) -/
structure Alg (V M : Type) where
  bin : Bin → V → V → V
  unImm : UnImm → V → Nat → V
  binImm : BinImm → V → V → Nat → V
  /-- `sha256rnds2 a, b` with the implicit operand `xmm0`. -/
  rnds2 : V → V → V → V
  load : M → Nat → V × M
  store : M → Nat → V → M

/-- Registers and slots; `dst` and `src` are the pointer registers, as offsets in the memory. (chacha_impl_hw_x86_64.asm:25-43, 93-102, 282-311: stack slots) -/
structure St (V M : Type) where
  x : List V
  temp : List V
  base : List V
  mem : M
  dst : Nat
  src : Nat

/-- A source operand: register, stack slot (`s_state_temp(i)`, `s_state_base(i)`), constant in `.rodata` (or a value loaded from the state array, which no
program writes while it runs), memory at `g_src + k`. (chacha_impl_hw_x86_64.asm:25-43) -/
inductive Src (V : Type) where
  | x (i : Nat) | temp (i : Nat) | base (i : Nat) | const (v : V) | src (k : Nat)

/-- A destination: register, stack slot or memory (chacha_impl_hw_x86_64.asm:25-43). -/
inductive Dst where
  | x (i : Nat) | temp (i : Nat) | base (i : Nat) | dst (k : Nat)

/-- Instructions. No code in /repo: the instruction set (Intel SDM), as far as chacha_impl_hw_x86_64.asm:1-981, sha_1_160_impl_hw_x86_64.asm:1-180 and sha_2_256_impl_hw_x86_64.asm:1-217 use it. -/
inductive Instr (V : Type) where
  /-- `movdqa`, `movdqu`, `vmovdqa`, `vmovdqu`, `vbroadcasti128` of a constant -/
  | mov (d : Dst) (s : Src V)
  /-- `op d, a, b` (VEX), and `op d, b` with `a = d` -/
  | bin (o : Bin) (d a : Nat) (b : Src V)
  | unImm (o : UnImm) (d a imm : Nat)
  | binImm (o : BinImm) (d a b imm : Nat)
  | rnds2 (d b : Nat)
  /-- `add g_dst, n`, `add g_src, n` -/
  | addDst (n : Nat)
  | addSrc (n : Nat)

section
variable {V M : Type} (A : Alg V M)

/-- Reading an operand. No code in /repo: the instruction set (Intel SDM), as far as chacha_impl_hw_x86_64.asm:1-981, sha_1_160_impl_hw_x86_64.asm:1-180 and sha_2_256_impl_hw_x86_64.asm:1-217 use it. -/
def get (s : St V M) : Src V → Option (V × M)
  | .x i => do pure (← rd1 s.x i, s.mem)
  | .temp i => do pure (← rd1 s.temp i, s.mem)
  | .base i => do pure (← rd1 s.base i, s.mem)
  | .const v => some (v, s.mem)
  | .src k => some (A.load s.mem (s.src + k))

/-- Writing a destination. No code in /repo: the instruction set (Intel SDM), as far as chacha_impl_hw_x86_64.asm:1-981, sha_1_160_impl_hw_x86_64.asm:1-180 and sha_2_256_impl_hw_x86_64.asm:1-217 use it. -/
def put (s : St V M) (v : V) : Dst → Option (St V M)
  | .x i => do pure { s with x := ← wr1 s.x i v }
  | .temp i => do pure { s with temp := ← wr1 s.temp i v }
  | .base i => do pure { s with base := ← wr1 s.base i v }
  | .dst k => some { s with mem := A.store s.mem (s.dst + k) v }

/-- One instruction. No code in /repo: the instruction set (Intel SDM), as far as chacha_impl_hw_x86_64.asm:1-981, sha_1_160_impl_hw_x86_64.asm:1-180 and sha_2_256_impl_hw_x86_64.asm:1-217 use it. -/
def step (s : St V M) : Instr V → Option (St V M)
  | .mov d b => do
    let (v, mem) ← get A s b
    put A { s with mem := mem } v d
  | .bin o d a b => do
    let y ← rd1 s.x a
    let (v, mem) ← get A s b
    put A { s with mem := mem } (A.bin o y v) (.x d)
  | .unImm o d a imm => do
    let y ← rd1 s.x a
    put A s (A.unImm o y imm) (.x d)
  | .binImm o d a b imm => do
    let y ← rd1 s.x a
    let z ← rd1 s.x b
    put A s (A.binImm o y z imm) (.x d)
  | .rnds2 d b => do
    let y ← rd1 s.x d
    let z ← rd1 s.x b
    let k ← rd1 s.x 0
    put A s (A.rnds2 y z k) (.x d)
  | .addDst n => some { s with dst := s.dst + n }
  | .addSrc n => some { s with src := s.src + n }

/-- A sequence of instructions. No code in /repo: the instruction set (Intel SDM), as far as chacha_impl_hw_x86_64.asm:1-981, sha_1_160_impl_hw_x86_64.asm:1-180 and sha_2_256_impl_hw_x86_64.asm:1-217 use it. -/
def exec (s : St V M) : List (Instr V) → Option (St V M)
  | [] => some s
  | i :: is => do
    let s ← step A s i
    exec s is

end

/-! ### What the instructions do -/

/-- Rotation, `pslld`/`psrld`/`por` and inside the SHA instructions. No code in /repo: the instruction set (Intel SDM), as far as chacha_impl_hw_x86_64.asm:1-981, sha_1_160_impl_hw_x86_64.asm:1-180 and sha_2_256_impl_hw_x86_64.asm:1-217 use it. -/
def rol (x : W32) (n : Nat) : W32 := x <<< n ||| x >>> (32 - n)
/-- Rotation. No code in /repo: the instruction set (Intel SDM), as far as chacha_impl_hw_x86_64.asm:1-981, sha_1_160_impl_hw_x86_64.asm:1-180 and sha_2_256_impl_hw_x86_64.asm:1-217 use it. -/
def ror (x : W32) (n : Nat) : W32 := x >>> n ||| x <<< (32 - n)

/-- Byte `k` (of 16) of the 128-bit lane starting at 32-bit lane `h`. (No code in /repo: the instruction set (Intel SDM), as far as chacha_impl_hw_x86_64.asm:1-981, sha_1_160_impl_hw_x86_64.asm:1-180 and sha_2_256_impl_hw_x86_64.asm:1-217 use it) -/
def byteAt (v : Vec) (h k : Nat) : Byte := ((v (h + k / 4)) >>> (8 * (k % 4))).setWidth 8

/-- Byte `k` of the result of `pshufb`: the byte the mask selects within the 128-bit lane, or zero. (No code in /repo: the instruction set (Intel SDM), as far as chacha_impl_hw_x86_64.asm:1-981, sha_1_160_impl_hw_x86_64.asm:1-180 and sha_2_256_impl_hw_x86_64.asm:1-217 use it) -/
def shufByte (v m : Vec) (h k : Nat) : Byte :=
  let c := byteAt m h k
  if c.getLsbD 7 then 0 else byteAt v h (c.toNat % 16)

/-- A word from its bytes. No code in /repo: the instruction set (Intel SDM), as far as chacha_impl_hw_x86_64.asm:1-981, sha_1_160_impl_hw_x86_64.asm:1-180 and sha_2_256_impl_hw_x86_64.asm:1-217 use it. -/
def word (b0 b1 b2 b3 : Byte) : W32 := (b3 ++ b2 ++ b1 ++ b0 : BitVec 32)

/-- A byte of the 128-bit lane starting at lane `h`, or zero. (No code in /repo: the instruction set (Intel SDM), as far as chacha_impl_hw_x86_64.asm:1-981, sha_1_160_impl_hw_x86_64.asm:1-180 and sha_2_256_impl_hw_x86_64.asm:1-217 use it) -/
def selByte (v : Vec) (h : Nat) : Option Nat → Byte
  | some i => byteAt v h i
  | none => 0

/-- Lane `j` of the 128-bit lane starting at lane `h`, when its byte `k` is taken from `f k`. (No code in /repo: the instruction set (Intel SDM), as far as chacha_impl_hw_x86_64.asm:1-981, sha_1_160_impl_hw_x86_64.asm:1-180 and sha_2_256_impl_hw_x86_64.asm:1-217 use it) -/
def shiftBytes (v : Vec) (h j : Nat) (f : Nat → Option Nat) : W32 :=
  word (selByte v h (f (4 * j))) (selByte v h (f (4 * j + 1))) (selByte v h (f (4 * j + 2))) (selByte v h (f (4 * j + 3)))

/-- The functions of `sha1rnds4`. No code in /repo: the instruction set (Intel SDM), as far as chacha_impl_hw_x86_64.asm:1-981, sha_1_160_impl_hw_x86_64.asm:1-180 and sha_2_256_impl_hw_x86_64.asm:1-217 use it. -/
def sha1f : Nat → W32 → W32 → W32 → W32
  | 0, b, c, d => (b &&& c) ^^^ (~~~ b &&& d)
  | 2, b, c, d => (b &&& c) ^^^ (b &&& d) ^^^ (c &&& d)
  | _, b, c, d => b ^^^ c ^^^ d

/-- The constants of `sha1rnds4`. No code in /repo: the instruction set (Intel SDM), as far as chacha_impl_hw_x86_64.asm:1-981, sha_1_160_impl_hw_x86_64.asm:1-180 and sha_2_256_impl_hw_x86_64.asm:1-217 use it. -/
def sha1k : Nat → W32
  | 0 => 0x5A827999
  | 1 => 0x6ED9EBA1
  | 2 => 0x8F1BBCDC
  | _ => 0xCA62C1D6

/-- One of the four rounds of `sha1rnds4`: `(A, B, C, D, E)` to the next; `w` is the word with, in the first round, `E` already added. (No code in /repo: the instruction set (Intel SDM), as far as chacha_impl_hw_x86_64.asm:1-981, sha_1_160_impl_hw_x86_64.asm:1-180 and sha_2_256_impl_hw_x86_64.asm:1-217 use it) -/
def sha1round (imm : Nat) (w : W32) (s : W32 × W32 × W32 × W32 × W32) : W32 × W32 × W32 × W32 × W32 :=
  let (a, b, c, d, e) := s
  (sha1f imm b c d + rol a 5 + w + e + sha1k imm, a, rol b 30, c, d)

/-- A register from its four lanes. (No code in /repo: the instruction set (Intel SDM), as far as chacha_impl_hw_x86_64.asm:1-981, sha_1_160_impl_hw_x86_64.asm:1-180 and sha_2_256_impl_hw_x86_64.asm:1-217 use it) -/
def vec4 (a b c d : W32) : Vec
  | 0 => a
  | 1 => b
  | 2 => c
  | 3 => d
  | _ => 0

/-- `sha1rnds4`. No code in /repo: the instruction set (Intel SDM), as far as chacha_impl_hw_x86_64.asm:1-981, sha_1_160_impl_hw_x86_64.asm:1-180 and sha_2_256_impl_hw_x86_64.asm:1-217 use it. -/
def sha1rnds4 (x y : Vec) (imm : Nat) : Vec :=
  let s := sha1round imm (y 3) (x 3, x 2, x 1, x 0, 0)
  let s := sha1round imm (y 2) s
  let s := sha1round imm (y 1) s
  let s := sha1round imm (y 0) s
  vec4 s.2.2.2.1 s.2.2.1 s.2.1 s.1

/-- `sha256msg1`. No code in /repo: the instruction set (Intel SDM), as far as chacha_impl_hw_x86_64.asm:1-981, sha_1_160_impl_hw_x86_64.asm:1-180 and sha_2_256_impl_hw_x86_64.asm:1-217 use it. -/
def sha256s0 (x : W32) : W32 := ror x 7 ^^^ ror x 18 ^^^ x >>> 3
/-- `sha256msg2`. No code in /repo: the instruction set (Intel SDM), as far as chacha_impl_hw_x86_64.asm:1-981, sha_1_160_impl_hw_x86_64.asm:1-180 and sha_2_256_impl_hw_x86_64.asm:1-217 use it. -/
def sha256s1 (x : W32) : W32 := ror x 17 ^^^ ror x 19 ^^^ x >>> 10

/-- A round of `sha256rnds2`: `(A, B, C, D, E, F, G, H)`. (No code in /repo: the instruction set (Intel SDM), as far as chacha_impl_hw_x86_64.asm:1-981, sha_1_160_impl_hw_x86_64.asm:1-180 and sha_2_256_impl_hw_x86_64.asm:1-217 use it) -/
def sha256round (wk : W32) (s : W32 × W32 × W32 × W32 × W32 × W32 × W32 × W32) : W32 × W32 × W32 × W32 × W32 × W32 × W32 × W32 :=
  let (a, b, c, d, e, f, g, h) := s
  let t := ((e &&& f) ^^^ (~~~ e &&& g)) + (ror e 6 ^^^ ror e 11 ^^^ ror e 25) + wk + h
  (t + ((a &&& b) ^^^ (a &&& c) ^^^ (b &&& c)) + (ror a 2 ^^^ ror a 13 ^^^ ror a 22), a, b, c, t + d, e, f, g)

/-- `sha256rnds2`. No code in /repo: the instruction set (Intel SDM), as far as chacha_impl_hw_x86_64.asm:1-981, sha_1_160_impl_hw_x86_64.asm:1-180 and sha_2_256_impl_hw_x86_64.asm:1-217 use it. -/
def sha256rnds2 (x y k : Vec) : Vec :=
  let s := sha256round (k 0) (y 3, y 2, x 3, x 2, y 1, y 0, x 1, x 0)
  let s := sha256round (k 1) s
  vec4 s.2.2.2.2.2.1 s.2.2.2.2.1 s.2.1 s.1

/-- Two-operand instructions. The 32-bit lane `j` of the result; `j / 4 * 4` is the first lane of its 128-bit lane. (No code in /repo: the instruction set (Intel SDM), as far as chacha_impl_hw_x86_64.asm:1-981, sha_1_160_impl_hw_x86_64.asm:1-180 and sha_2_256_impl_hw_x86_64.asm:1-217 use it) -/
def bin : Bin → Vec → Vec → Vec
  | .paddd, a, b => fun j => a j + b j
  | .pxor, a, b => fun j => a j ^^^ b j
  | .pshufb, a, b => fun j =>
    let h := j / 4 * 4
    let k := 4 * (j % 4)
    word (shufByte a b h k) (shufByte a b h (k + 1)) (shufByte a b h (k + 2)) (shufByte a b h (k + 3))
  | .punpckhdq, a, b => fun j =>
    let h := j / 4 * 4
    if j % 2 = 0 then a (h + 2 + j % 4 / 2) else b (h + 2 + j % 4 / 2)
  | .punpckldq, a, b => fun j =>
    let h := j / 4 * 4
    if j % 2 = 0 then a (h + j % 4 / 2) else b (h + j % 4 / 2)
  | .punpckhqdq, a, b => fun j =>
    let h := j / 4 * 4
    if j % 4 < 2 then a (h + 2 + j % 2) else b (h + 2 + j % 2)
  | .punpcklqdq, a, b => fun j =>
    let h := j / 4 * 4
    if j % 4 < 2 then a (h + j % 2) else b (h + j % 2)
  | .sha1nexte, a, b => vec4 (b 0) (b 1) (b 2) (b 3 + rol (a 3) 30)
  | .sha1msg1, a, b => vec4 (b 2 ^^^ a 0) (b 3 ^^^ a 1) (a 0 ^^^ a 2) (a 1 ^^^ a 3)
  | .sha1msg2, a, b =>
    let w16 := rol (a 3 ^^^ b 2) 1
    let w17 := rol (a 2 ^^^ b 1) 1
    let w18 := rol (a 1 ^^^ b 0) 1
    let w19 := rol (a 0 ^^^ w16) 1
    vec4 w19 w18 w17 w16
  | .sha256msg1, a, b => vec4 (a 0 + sha256s0 (a 1)) (a 1 + sha256s0 (a 2)) (a 2 + sha256s0 (a 3)) (a 3 + sha256s0 (b 0))
  | .sha256msg2, a, b =>
    let w16 := a 0 + sha256s1 (b 2)
    let w17 := a 1 + sha256s1 (b 3)
    let w18 := a 2 + sha256s1 w16
    let w19 := a 3 + sha256s1 w17
    vec4 w16 w17 w18 w19

/-- Instructions with an immediate. No code in /repo: the instruction set (Intel SDM), as far as chacha_impl_hw_x86_64.asm:1-981, sha_1_160_impl_hw_x86_64.asm:1-180 and sha_2_256_impl_hw_x86_64.asm:1-217 use it. -/
def unImm : UnImm → Vec → Nat → Vec
  | .pslld, a, n => fun j => a j <<< n
  | .psrld, a, n => fun j => a j >>> n
  | .pshufd, a, n => fun j => a (j / 4 * 4 + n / 4 ^ (j % 4) % 4)
  | .pslldq, a, n => fun j => shiftBytes a (j / 4 * 4) (j % 4) fun k => if n ≤ k then some (k - n) else none
  | .psrldq, a, n => fun j => shiftBytes a (j / 4 * 4) (j % 4) fun k => if k + n < 16 then some (k + n) else none

/-- The 128-bit lane a two-bit selector of `vperm2i128` chooses (the zeroing bits 3 and 7 are not used by the programs). (No code in /repo: the instruction set (Intel SDM), as far as chacha_impl_hw_x86_64.asm:1-981, sha_1_160_impl_hw_x86_64.asm:1-180 and sha_2_256_impl_hw_x86_64.asm:1-217 use it) -/
def sel128 (a b : Vec) (s j : Nat) : W32 :=
  match s % 4 with
  | 0 => a j
  | 1 => a (4 + j)
  | 2 => b j
  | _ => b (4 + j)

/-- `palignr d, s, n`: bytes `n` to `n + 15` of `d : s` (`s` the low part). (No code in /repo: the instruction set (Intel SDM), as far as chacha_impl_hw_x86_64.asm:1-981, sha_1_160_impl_hw_x86_64.asm:1-180 and sha_2_256_impl_hw_x86_64.asm:1-217 use it) -/
def alignByte (a b : Vec) (h n k : Nat) : Byte :=
  if k + n < 16 then byteAt b h (k + n) else if k + n < 32 then byteAt a h (k + n - 16) else 0

/-- Instructions with an immediate. No code in /repo: the instruction set (Intel SDM), as far as chacha_impl_hw_x86_64.asm:1-981, sha_1_160_impl_hw_x86_64.asm:1-180 and sha_2_256_impl_hw_x86_64.asm:1-217 use it. -/
def binImm : BinImm → Vec → Vec → Nat → Vec
  | .vperm2i128, a, b, n => fun j => if j < 4 then sel128 a b n j else sel128 a b (n / 16) (j - 4)
  | .palignr, a, b, n => fun j =>
    let h := j / 4 * 4
    let k := 4 * (j % 4)
    word (alignByte a b h n k) (alignByte a b h n (k + 1)) (alignByte a b h n (k + 2)) (alignByte a b h n (k + 3))
  | .sha1rnds4, a, b, n => sha1rnds4 a b (n % 4)

/-- `lanes` little-endian words at offset `off`. (No code in /repo: the instruction set (Intel SDM), as far as chacha_impl_hw_x86_64.asm:1-981, sha_1_160_impl_hw_x86_64.asm:1-180 and sha_2_256_impl_hw_x86_64.asm:1-217 use it) -/
def loadVec (lanes : Nat) (mem : Option (List Byte)) (off : Nat) : Vec × Option (List Byte) :=
  match mem.bind fun m => rdN m off (4 * lanes) with
  | some bs => (fun j => if j < lanes then ofBytes .little 4 ((bs.drop (4 * j)).take 4) else 0, mem)
  | none => (fun _ => 0, none)

/-- The bytes of a register. No code in /repo: the instruction set (Intel SDM), as far as chacha_impl_hw_x86_64.asm:1-981, sha_1_160_impl_hw_x86_64.asm:1-180 and sha_2_256_impl_hw_x86_64.asm:1-217 use it. -/
def vecBytes (lanes : Nat) (v : Vec) : List Byte := (List.range lanes).flatMap fun j => toLE 4 (v j).toNat

/-- The instructions on registers of `lanes` 32-bit lanes (4: SSE, 8: AVX) and memory, `none` being an access out of bounds. (No code in /repo: the instruction set (Intel SDM), as far as chacha_impl_hw_x86_64.asm:1-981, sha_1_160_impl_hw_x86_64.asm:1-180 and sha_2_256_impl_hw_x86_64.asm:1-217 use it) -/
def simd (lanes : Nat) : Alg Vec (Option (List Byte)) where
  bin := bin
  unImm := unImm
  binImm := binImm
  rnds2 := sha256rnds2
  load := loadVec lanes
  store := fun mem off v => mem.bind fun m => wrN m off (vecBytes lanes v)

/-- A constant given as bytes (`db`). (chacha_impl_hw_x86_64.asm:264-280, 748-765) -/
def ofDb (bs : List Byte) : Vec := fun j => ofBytes .little 4 ((bs.drop (4 * j)).take 4)

/-- A constant given as 32-bit words (`dd`). (sha_2_256_impl_hw_x86_64.asm:55-79) -/
def ofDd (ws : List W32) : Vec := fun j => ws.getD j 0

end Milo.X86
