import Verif.Model.ChaChaAsm
import Verif.Model.Sha1Asm
import Verif.Model.Sha256Asm
/-
The assembly functions as they run on the processor: general registers, full vector registers, flags as far as they are read, byte-addressed memory with
permissions, alignment faults, the stack, calls and returns; both calling conventions.

The vector code is that of Verif.Model.ChaChaAsm, Sha1Asm and Sha256Asm (every instruction of the macros, in the order of the files); here each operand gets
its address and each instruction its encoding (`lower`), and what was left out there is added: prologues, epilogues, saving the caller's registers, loops,
jumps, the return value.

Files: src/milo/primitive/detail/cipher/chacha/chacha_impl_hw_x86_64.asm ("chacha.asm"), src/milo/primitive/detail/hash/sha/sha_1_160_impl_hw_x86_64.asm
("sha1.asm"), src/milo/primitive/detail/hash/sha/sha_2_256_impl_hw_x86_64.asm ("sha256.asm"), src/milo/internal/arch/x86_64/abi.asm ("abi.asm"),
src/milo/internal/arch/x86_64/cpuid.asm ("cpuid.asm").

Semantics after the Intel Software Developer's Manual, volume 2. Left out: flags other than ZF (no other is read), the encoding of instructions as bytes and
the instruction pointer (a position is the list of lines still to come), virtual memory beyond permissions by byte.
-/
namespace Milo.X64
open Memory X86

/-- General registers named in chacha_impl_hw_x86_64.asm:25-42 and internal/arch/x86_64/abi.asm:1-17. -/
inductive Reg where
  | rax | rbx | rcx | rdx | rsi | rdi | rbp | rsp | r8 | r9 | r10 | r11 | r12 | r13 | r14 | r15
  deriving DecidableEq, Repr

/-- Registers, zero flag and memory. A vector register has eight 32-bit lanes (`ymm`), of which the first four are the `xmm` register. (No code in /repo: the instruction set (Intel SDM), as far as chacha_impl_hw_x86_64.asm:1-981, sha_1_160_impl_hw_x86_64.asm:1-180 and sha_2_256_impl_hw_x86_64.asm:1-217 use it) -/
structure State where
  g : Reg → W64
  v : Nat → Vec
  zf : Bool
  mem : W64 → Byte

/-- What does not change while a function runs: which bytes may be read and written, the address of its constants, the processor's answers to `cpuid`. (No code in /repo: the instruction set (Intel SDM), as far as chacha_impl_hw_x86_64.asm:1-981, sha_1_160_impl_hw_x86_64.asm:1-180 and sha_2_256_impl_hw_x86_64.asm:1-217 use it) -/
structure Machine where
  rd : W64 → Bool
  wr : W64 → Bool
  ro : W64
  cpuid : W32 → W32 → W32 × W32 × W32 × W32

/-! ### Memory -/

/-- `n` bytes from address `a` on. (no code in /repo: vocabulary. Used for the memory operands of chacha_impl_hw_x86_64.asm:1-981) -/
def bytesAt (mem : W64 → Byte) (a : W64) (n : Nat) : List Byte := (List.range n).map fun i => mem (a + BitVec.ofNat 64 i)

/-- A read of `n` bytes; `none` is a fault. (No code in /repo: the instruction set (Intel SDM), as far as chacha_impl_hw_x86_64.asm:1-981, sha_1_160_impl_hw_x86_64.asm:1-180 and sha_2_256_impl_hw_x86_64.asm:1-217 use it) -/
def Machine.read (M : Machine) (s : State) (a : W64) (n : Nat) : Option (List Byte) :=
  if (List.range n).all fun i => M.rd (a + BitVec.ofNat 64 i) then some (bytesAt s.mem a n) else none

/-- Writing bytes to memory. No code in /repo: the instruction set (Intel SDM), as far as chacha_impl_hw_x86_64.asm:1-981, sha_1_160_impl_hw_x86_64.asm:1-180 and sha_2_256_impl_hw_x86_64.asm:1-217 use it. -/
def putBytes (mem : W64 → Byte) (a : W64) (bs : List Byte) : W64 → Byte :=
  fun x => if (x - a).toNat < bs.length then bs.getD (x - a).toNat 0 else mem x

/-- A write; `none` is a fault. (No code in /repo: the instruction set (Intel SDM), as far as chacha_impl_hw_x86_64.asm:1-981, sha_1_160_impl_hw_x86_64.asm:1-180 and sha_2_256_impl_hw_x86_64.asm:1-217 use it) -/
def Machine.write (M : Machine) (s : State) (a : W64) (bs : List Byte) : Option State :=
  if (List.range bs.length).all fun i => M.wr (a + BitVec.ofNat 64 i) then some { s with mem := putBytes s.mem a bs } else none

/-! ### Instructions -/

/-- `[r + d]`, `[rel constant + off]`. (operands `m_state(i)`, `m_dst(i)`, `m_src(i)`, `[rel .constant]` of chacha_impl_hw_x86_64.asm:25-42, 264-280) -/
inductive Addr where
  | reg (r : Reg) (d : W64)
  | rel (off : Nat)

/-- The address of an operand. No code in /repo: the instruction set (Intel SDM), as far as chacha_impl_hw_x86_64.asm:1-981, sha_1_160_impl_hw_x86_64.asm:1-180 and sha_2_256_impl_hw_x86_64.asm:1-217 use it. -/
def addr (M : Machine) (s : State) : Addr → W64
  | .reg r d => s.g r + d
  | .rel off => M.ro + BitVec.ofNat 64 off

/-- Encodings of vector instructions: legacy SSE on `xmm`, VEX on `xmm`, VEX on `ymm`. (No code in /repo: the instruction set (Intel SDM), as far as chacha_impl_hw_x86_64.asm:1-981, sha_1_160_impl_hw_x86_64.asm:1-180 and sha_2_256_impl_hw_x86_64.asm:1-217 use it) -/
inductive Kind where
  | sse | vex128 | vex256
  deriving DecidableEq, Repr

/-- Lanes of an encoding. No code in /repo: the instruction set (Intel SDM), as far as chacha_impl_hw_x86_64.asm:1-981, sha_1_160_impl_hw_x86_64.asm:1-180 and sha_2_256_impl_hw_x86_64.asm:1-217 use it. -/
def Kind.lanes : Kind → Nat
  | .sse => 4
  | .vex128 => 4
  | .vex256 => 8

/-- What becomes of a destination register: legacy SSE keeps the upper half, VEX instructions on `xmm` clear it. (No code in /repo: the instruction set (Intel SDM), as far as chacha_impl_hw_x86_64.asm:1-981, sha_1_160_impl_hw_x86_64.asm:1-180 and sha_2_256_impl_hw_x86_64.asm:1-217 use it) -/
def Kind.merge : Kind → Vec → Vec → Vec
  | .sse, old, new => fun j => if j < 4 then new j else old j
  | .vex128, _, new => fun j => if j < 4 then new j else 0
  | .vex256, _, new => new

/-- A vector operand, in a register or in memory. No code in /repo: the instruction set (Intel SDM), as far as chacha_impl_hw_x86_64.asm:1-981, sha_1_160_impl_hw_x86_64.asm:1-180 and sha_2_256_impl_hw_x86_64.asm:1-217 use it. -/
inductive Opnd where
  | x (i : Nat)
  | m (a : Addr)

/-- No code in /repo: the instruction set (Intel SDM), as far as chacha_impl_hw_x86_64.asm:1-981, sha_1_160_impl_hw_x86_64.asm:1-180 and sha_2_256_impl_hw_x86_64.asm:1-217 use it. -/
inductive Ins where
  | push (r : Reg)
  | pop (r : Reg)
  | mov (d s : Reg)
  | load (d : Reg) (a : Addr)
  | store32 (a : Addr) (s : Reg)
  | add (d : Reg) (imm : W64)
  | sub (d : Reg) (imm : W64)
  | and (d : Reg) (imm : W64)
  | shl (d : Reg) (imm : Nat)
  | test (a b : Reg)
  | xchg (a b : Reg)
  | cpuid
  | vzeroupper
  /-- `movdqa`/`vmovdqa` (`aligned`), `movdqu`/`vmovdqu` from memory, to memory, between registers -/
  | vload (k : Kind) (aligned : Bool) (d : Nat) (a : Addr)
  | vstore (k : Kind) (aligned : Bool) (a : Addr) (s : Nat)
  | vmov (k : Kind) (d s : Nat)
  | movdLoad (d : Nat) (a : Addr)
  | movdStore (a : Addr) (s : Nat)
  | vbroadcasti128 (d : Nat) (a : Addr)
  | bin (k : Kind) (o : Bin) (d a : Nat) (b : Opnd)
  | unImm (k : Kind) (o : UnImm) (d a imm : Nat)
  | binImm (k : Kind) (o : BinImm) (d a b imm : Nat)
  | rnds2 (d b : Nat)
  /-- there is no such instruction -/
  | ud2

/-- Setting a general register. No code in /repo: the instruction set (Intel SDM), as far as chacha_impl_hw_x86_64.asm:1-981, sha_1_160_impl_hw_x86_64.asm:1-180 and sha_2_256_impl_hw_x86_64.asm:1-217 use it. -/
def setG (s : State) (r : Reg) (w : W64) : State := { s with g := fun q => if q = r then w else s.g q }
/-- Setting a vector register. No code in /repo: the instruction set (Intel SDM), as far as chacha_impl_hw_x86_64.asm:1-981, sha_1_160_impl_hw_x86_64.asm:1-180 and sha_2_256_impl_hw_x86_64.asm:1-217 use it. -/
def setV (s : State) (i : Nat) (v : Vec) : State := { s with v := fun q => if q = i then v else s.v q }

/-- Result and zero flag of an arithmetic instruction. (No code in /repo: the instruction set (Intel SDM), as far as chacha_impl_hw_x86_64.asm:1-981, sha_1_160_impl_hw_x86_64.asm:1-180 and sha_2_256_impl_hw_x86_64.asm:1-217 use it) -/
def alu (s : State) (r : Reg) (w : W64) : State := { setG s r w with zf := w == 0 }

/-- `lanes` words from memory. (No code in /repo: the instruction set (Intel SDM), as far as chacha_impl_hw_x86_64.asm:1-981, sha_1_160_impl_hw_x86_64.asm:1-180 and sha_2_256_impl_hw_x86_64.asm:1-217 use it) -/
def readVec (M : Machine) (s : State) (lanes : Nat) (aligned : Bool) (a : W64) : Option Vec :=
  if aligned && a.toNat % (4 * lanes) != 0 then none else (M.read s a (4 * lanes)).map ofDb

/-- A vector operand; legacy SSE instructions fault if it is in memory and not aligned, VEX instructions do not. (No code in /repo: the instruction set (Intel SDM), as far as chacha_impl_hw_x86_64.asm:1-981, sha_1_160_impl_hw_x86_64.asm:1-180 and sha_2_256_impl_hw_x86_64.asm:1-217 use it) -/
def opndVal (M : Machine) (s : State) (k : Kind) : Opnd → Option Vec
  | .x i => some (s.v i)
  | .m a => readVec M s k.lanes (k = .sse) (addr M s a)

/-- 32 bits written to a general register clear its upper half. (No code in /repo: the instruction set (Intel SDM), as far as chacha_impl_hw_x86_64.asm:1-981, sha_1_160_impl_hw_x86_64.asm:1-180 and sha_2_256_impl_hw_x86_64.asm:1-217 use it) -/
def zext (w : W32) : W64 := w.setWidth 64

/-- What an instruction does. No code in /repo: the instruction set (Intel SDM), as far as chacha_impl_hw_x86_64.asm:1-981, sha_1_160_impl_hw_x86_64.asm:1-180 and sha_2_256_impl_hw_x86_64.asm:1-217 use it. -/
def ins (M : Machine) (s : State) : Ins → Option State
  | .push r => do
    let t ← M.write s (s.g .rsp - 8) (toLE 8 (s.g r).toNat)
    pure (setG t .rsp (s.g .rsp - 8))
  | .pop r => do
    let bs ← M.read s (s.g .rsp) 8
    pure (setG (setG s .rsp (s.g .rsp + 8)) r (ofBytes .little 8 bs))
  | .mov d r => some (setG s d (s.g r))
  | .load d a => do
    let bs ← M.read s (addr M s a) 8
    pure (setG s d (ofBytes .little 8 bs))
  | .store32 a r => M.write s (addr M s a) (toLE 4 ((s.g r).toNat % 2 ^ 32))
  | .add d w => some (alu s d (s.g d + w))
  | .sub d w => some (alu s d (s.g d - w))
  | .and d w => some (alu s d (s.g d &&& w))
  | .shl d n => some (alu s d (s.g d <<< n))
  | .test a b => some { s with zf := (s.g a &&& s.g b) == 0 }
  | .xchg a b => some (setG (setG s a (s.g b)) b (s.g a))
  | .cpuid =>
    let (a, b, c, d) := M.cpuid ((s.g .rax).setWidth 32) ((s.g .rcx).setWidth 32)
    some (setG (setG (setG (setG s .rax (zext a)) .rbx (zext b)) .rcx (zext c)) .rdx (zext d))
  | .vzeroupper => some { s with v := fun i j => if i < 16 ∧ 4 ≤ j then 0 else s.v i j }
  | .vload k al d a => do
    let v ← readVec M s k.lanes al (addr M s a)
    pure (setV s d (k.merge (s.v d) v))
  | .vstore k al a r =>
    if al && (addr M s a).toNat % (4 * k.lanes) != 0 then none else M.write s (addr M s a) (vecBytes k.lanes (s.v r))
  | .vmov k d r => some (setV s d (k.merge (s.v d) (s.v r)))
  | .movdLoad d a => do
    let bs ← M.read s (addr M s a) 4
    pure (setV s d (Kind.sse.merge (s.v d) (vec4 (ofBytes .little 4 bs) 0 0 0)))
  | .movdStore a r => M.write s (addr M s a) (toLE 4 (s.v r 0).toNat)
  | .vbroadcasti128 d a => do
    let v ← readVec M s 4 false (addr M s a)
    pure (setV s d fun j => v (j % 4))
  | .bin k o d a b => do
    let v ← opndVal M s k b
    pure (setV s d (k.merge (s.v d) (X86.bin o (s.v a) v)))
  | .unImm k o d a n => some (setV s d (k.merge (s.v d) (X86.unImm o (s.v a) n)))
  | .binImm k o d a b n => some (setV s d (k.merge (s.v d) (X86.binImm o (s.v a) (s.v b) n)))
  | .rnds2 d b => some (setV s d (Kind.sse.merge (s.v d) (sha256rnds2 (s.v d) (s.v b) (s.v 0))))
  | .ud2 => none

/-! ### Functions -/

/-- Labels of chacha_impl_hw_x86_64.asm:262-454, 746-981, sha_1_160_impl_hw_x86_64.asm:41-180, sha_2_256_impl_hw_x86_64.asm:46-217. -/
inductive Label where
  | blocks_loop | blocks_loop_first | rounds_loop | blocks_loop_end
  deriving DecidableEq, Repr

/-- A line of these files. -/
inductive Line where
  | label (l : Label)
  | ins (i : Ins)
  | jz (l : Label)
  | jnz (l : Label)
  | jmp (l : Label)
  | ret

/-- Lines after a label. (no code in /repo: where a jump continues. Labels of chacha_impl_hw_x86_64.asm:262-454) -/
def target (l : Label) : List Line → Option (List Line)
  | [] => none
  | .label m :: rest => if m = l then some rest else target l rest
  | _ :: rest => target l rest

/-- Where a run is: before the lines `rest`, or returned to the address `ra`. (no code in /repo: the state of a run of the lines of chacha_impl_hw_x86_64.asm:1-981) -/
inductive Config where
  | at (rest : List Line) (s : State)
  | returned (ra : W64) (s : State)

/-- A jump (`jnz`, `jz`, `jmp` in chacha_impl_hw_x86_64.asm:1-981). -/
def jump (code : List Line) (l : Label) (s : State) : Option Config := (target l code).map fun r => .at r s

/-- One step; `none` is a fault, or running past the end of the function. (No code in /repo: the instruction set (Intel SDM), as far as chacha_impl_hw_x86_64.asm:1-981, sha_1_160_impl_hw_x86_64.asm:1-180 and sha_2_256_impl_hw_x86_64.asm:1-217 use it) -/
def next (M : Machine) (code : List Line) : Config → Option Config
  | .returned ra s => some (.returned ra s)
  | .at [] _ => none
  | .at (.label _ :: r) s => some (.at r s)
  | .at (.ins i :: r) s => (ins M s i).map fun s => .at r s
  | .at (.jz l :: r) s => if s.zf then jump code l s else some (.at r s)
  | .at (.jnz l :: r) s => if s.zf then some (.at r s) else jump code l s
  | .at (.jmp l :: _) s => jump code l s
  | .at (.ret :: _) s => do
    let bs ← M.read s (s.g .rsp) 8
    pure (.returned (ofBytes .little 8 bs) (setG s .rsp (s.g .rsp + 8)))

/-- Steps of a run. No code in /repo: the instruction set (Intel SDM), as far as chacha_impl_hw_x86_64.asm:1-981, sha_1_160_impl_hw_x86_64.asm:1-180 and sha_2_256_impl_hw_x86_64.asm:1-217 use it. -/
def steps (M : Machine) (code : List Line) : Nat → Config → Option Config
  | 0, c => some c
  | n + 1, c => do
    let c ← next M code c
    steps M code n c

/-! ### Calling conventions -/

/-- abi.asm: `MILO_INTERNAL_ABI_UNIX`, `MILO_INTERNAL_ABI_WIND`. -/
inductive Abi where
  | unix | wind
  deriving DecidableEq, Repr

/-- abi.asm:4-16 `abi_arg_i`; the fifth is on the stack on Windows, and loaded into `r10` (chacha.asm:38-40, 95-102). -/
def Abi.arg : Abi → Nat → Reg
  | .unix, 0 => .rdi
  | .unix, 1 => .rsi
  | .unix, 2 => .rdx
  | .unix, 3 => .rcx
  | .unix, _ => .r8
  | .wind, 0 => .rcx
  | .wind, 1 => .rdx
  | .wind, 2 => .r8
  | .wind, 3 => .r9
  | .wind, _ => .r10

/-! ### Operands of the vector code -/

/-- What a constant operand of the vector code is: `[rel ...]` at an offset of the function's constants, sixteen bytes of the state array, one word of it. (constants of chacha_impl_hw_x86_64.asm:264-280, 746-765, sha_1_160_impl_hw_x86_64.asm:49-56, sha_2_256_impl_hw_x86_64.asm:55-79) -/
inductive Ref where
  | ro (off : Nat)
  | state (off : Nat)
  | state32 (off : Nat)
  deriving DecidableEq

/-- Encoding and pointer registers of a function. (chacha_impl_hw_x86_64.asm:25-42, 492-510, sha_1_160_impl_hw_x86_64.asm:17-26, sha_2_256_impl_hw_x86_64.asm:17-28) -/
structure Regs where
  k : Kind
  dst : Reg
  src : Reg
  st : Reg

/-- chacha.asm:17-22, 484-489: `s_state_temp(i)` is slot `i`, `s_state_base(i)` slot `6 + i`. -/
def slot (k : Kind) (i : Nat) : Addr := .reg .rsp (BitVec.ofNat 64 (4 * k.lanes * i))

/-- A source operand of Model/X86 as an operand of the file: chacha_impl_hw_x86_64.asm:25-42, 492-510. -/
def srcOpnd (r : Regs) : Src Ref → Option Opnd
  | .x i => some (.x i)
  | .temp i => some (.m (slot r.k i))
  | .base i => some (.m (slot r.k (6 + i)))
  | .const (.ro off) => some (.m (.rel off))
  | .const _ => none
  | .src k => some (.m (.reg r.src (BitVec.ofNat 64 k)))

/-- Instructions with two operands in the legacy encoding, `a` being the destination too. `vpunpcklqdq` and `vpunpckhqdq` on `xmm` registers (sha256.asm:100,
101, 195, 196) are the only ones with three. -/
def binKind (k : Kind) (d a : Nat) : Kind := if k = .sse ∧ d ≠ a then .vex128 else k

/-- The SHA instructions, which have no VEX encoding (Intel SDM); sha_1_160_impl_hw_x86_64.asm:28-39, sha_2_256_impl_hw_x86_64.asm:30-44. -/
def isSha : Bin → Bool
  | .sha1nexte => true
  | .sha1msg1 => true
  | .sha1msg2 => true
  | .sha256msg1 => true
  | .sha256msg2 => true
  | _ => false

/-- Legacy instructions other than `pshufd` overwrite their first operand; the SHA instructions have no VEX form; `vperm2i128` has only one on `ymm`. (No code in /repo: the instruction set (Intel SDM), as far as chacha_impl_hw_x86_64.asm:1-981, sha_1_160_impl_hw_x86_64.asm:1-180 and sha_2_256_impl_hw_x86_64.asm:1-217 use it) -/
def encodable (k : Kind) : Instr Ref → Bool
  | .bin o d a _ => binKind k d a = .sse || !isSha o
  | .unImm o d a _ => k ≠ .sse || d = a || o = .pshufd
  | .binImm .vperm2i128 _ _ _ _ => k = .vex256
  | .binImm .palignr d a _ _ => k ≠ .sse || d = a
  | .binImm .sha1rnds4 d a _ _ => k = .sse && d = a
  | .rnds2 _ _ => k = .sse
  | _ => true

/-- The instruction of the file that an instruction of the vector code stands for. (chacha_impl_hw_x86_64.asm:45-260, 512-744) -/
def lowerE (r : Regs) : Instr Ref → Ins
  | .mov (.x d) (.x s) => .vmov r.k d s
  | .mov (.x d) (.temp i) => .vload r.k true d (slot r.k i)
  | .mov (.x d) (.base i) => .vload r.k true d (slot r.k (6 + i))
  | .mov (.x d) (.const (.ro off)) => .vload r.k true d (.rel off)
  | .mov (.x d) (.const (.state off)) =>
    if r.k = .vex256 then .vbroadcasti128 d (.reg r.st (BitVec.ofNat 64 off)) else .vload r.k false d (.reg r.st (BitVec.ofNat 64 off))
  | .mov (.x d) (.const (.state32 off)) => .movdLoad d (.reg r.st (BitVec.ofNat 64 off))
  | .mov (.x d) (.src k) => .vload r.k false d (.reg r.src (BitVec.ofNat 64 k))
  | .mov (.temp i) (.x s) => .vstore r.k true (slot r.k i) s
  | .mov (.base i) (.x s) => .vstore r.k true (slot r.k (6 + i)) s
  | .mov (.dst k) (.x s) => .vstore r.k false (.reg r.dst (BitVec.ofNat 64 k)) s
  | .mov _ _ => .ud2
  | .bin o d a b =>
    match srcOpnd r b with
    | some b => .bin (binKind r.k d a) o d a b
    | none => .ud2
  | .unImm o d a n => .unImm r.k o d a n
  | .binImm o d a b n => .binImm r.k o d a b n
  | .rnds2 d b => .rnds2 d b
  | .addDst n => .add r.dst (BitVec.ofNat 64 n)
  | .addSrc n => .add r.src (BitVec.ofNat 64 n)

/-- As `lowerE`; what cannot be encoded faults (chacha_impl_hw_x86_64.asm:1-981 has no such line). -/
def lower (r : Regs) (i : Instr Ref) : Ins := if encodable r.k i then lowerE r i else .ud2

/-- Vector code as lines: chacha_impl_hw_x86_64.asm:45-260, 512-744. -/
def code (r : Regs) (p : List (Instr Ref)) : List Line := p.map fun i => .ins (lower r i)

/-! ### Saving the caller's vector registers -/

/-- `movdqa [rbp - c - 16 * k], xmm(5 + k)` for `k` from 1 to `n`: chacha.asm:294-303, 791-800 (`c = 8`), sha1.asm:64-67, sha256.asm:87-91 (`c = 0`). -/
def saveVec (c n : Nat) : List Ins :=
  (List.range n).map fun i => .vstore .sse true (.reg .rbp (- BitVec.ofNat 64 (c + 16 * (i + 1)))) (6 + i)

/-- `movdqa xmm(5 + k), [rbp - c - 16 * k]` for `k` from 1 to `n`: chacha.asm:432-441, 933-942, sha1.asm:169-172, sha256.asm:204-208. -/
def restoreVec (c n : Nat) : List Ins :=
  (List.range n).map fun i => .vload .sse true (6 + i) (.reg .rbp (- BitVec.ofNat 64 (c + 16 * (i + 1))))

/-! ### ChaCha -/

/-- chacha.asm:25-41, 492-508. -/
def chachaRegs (abi : Abi) (k : Kind) : Regs := ⟨k, abi.arg 3, abi.arg 4, abi.arg 2⟩

/-- chacha.asm:264-279 and 748-773: the constants, one after the other. -/
def chachaConsts (k : Kind) : ChaCha.Asm.Consts Ref := ⟨.ro (4 * k.lanes * 0), .ro (4 * k.lanes * 1), .ro (4 * k.lanes * 2), .ro (4 * k.lanes * 3)⟩

/-- chacha.asm:266-279, the bytes of `.rodata`. -/
def ssse3Ro : List Byte :=
  ([3, 2, 1, 0, 4, 4, 4, 4].flatMap fun w => toLE 4 w) ++
  [0x02, 0x03, 0x00, 0x01, 0x06, 0x07, 0x04, 0x05, 0x0a, 0x0b, 0x08, 0x09, 0x0e, 0x0f, 0x0c, 0x0d,
   0x03, 0x00, 0x01, 0x02, 0x07, 0x04, 0x05, 0x06, 0x0b, 0x08, 0x09, 0x0a, 0x0f, 0x0c, 0x0d, 0x0e]

/-- chacha.asm:750-773. -/
def avx2Ro : List Byte :=
  ([7, 6, 5, 4, 3, 2, 1, 0, 8, 8, 8, 8, 8, 8, 8, 8].flatMap fun w => toLE 4 w) ++
  [0x02, 0x03, 0x00, 0x01, 0x06, 0x07, 0x04, 0x05, 0x0a, 0x0b, 0x08, 0x09, 0x0e, 0x0f, 0x0c, 0x0d,
   0x02, 0x03, 0x00, 0x01, 0x06, 0x07, 0x04, 0x05, 0x0a, 0x0b, 0x08, 0x09, 0x0e, 0x0f, 0x0c, 0x0d,
   0x03, 0x00, 0x01, 0x02, 0x07, 0x04, 0x05, 0x06, 0x0b, 0x08, 0x09, 0x0a, 0x0f, 0x0c, 0x0d, 0x0e,
   0x03, 0x00, 0x01, 0x02, 0x07, 0x04, 0x05, 0x06, 0x0b, 0x08, 0x09, 0x0a, 0x0f, 0x0c, 0x0d, 0x0e]

/-- The two backends: `sse` stands for SSSE3, `vex256` for AVX2. (chacha_impl_hw_x86_64.asm:264-280, 748-765) -/
def chachaRo (k : Kind) : List Byte := if k = .vex256 then avx2Ro else ssse3Ro

/-- chacha.asm:22, 489 `stack_size`. -/
def stackSize (k : Kind) : Nat := 4 * k.lanes * 6 + 4 * k.lanes * 16

/-- chacha.asm:283-310, 777-807 -/
def chachaHead (abi : Abi) (k : Kind) (transform : Bool) : List Ins :=
  [.push .rbp, .push .rbx, .mov .rbp .rsp] ++
  (match abi with
    | .unix => [.sub .rsp (BitVec.ofNat 64 (stackSize k + 8))]
    | .wind => [.sub .rsp (BitVec.ofNat 64 (stackSize k + 8 + 16 * 10))] ++ saveVec 8 10) ++
  (if k = .vex256 then [.and .rsp 0xffffffffffffffe0] else []) ++
  (if transform ∧ abi = .wind then [.load (abi.arg 4) (.reg .rbp (24 + 32))] else []) ++
  [.test (abi.arg 1) (abi.arg 1), .mov .rax (abi.arg 1)]

/-- chacha.asm:431-453, 932-956 -/
def chachaTail (abi : Abi) (k : Kind) : List Ins :=
  (match abi with
    | .unix => []
    | .wind => restoreVec 8 10) ++
  (if k = .vex256 then [.vzeroupper] else []) ++
  [.mov .rsp .rbp, .pop .rbx, .pop .rbp, .mov .rax (abi.arg 1), .shl .rax (if k = .vex256 then 3 else 2)]

/-- The code of a block group: chacha_impl_hw_x86_64.asm:138-190, 221-260, 687-744. -/
def chachaBody (k : Kind) (transform : Bool) : List (Instr Ref) :=
  match k, transform with
  | .vex256, true => ChaCha.Asm.transformBodyAvx (chachaConsts k)
  | .vex256, false => ChaCha.Asm.generateBodyAvx (chachaConsts k)
  | _, true => ChaCha.Asm.transformBody (chachaConsts k)
  | _, false => ChaCha.Asm.generateBody (chachaConsts k)

/-- chacha.asm:262-454 (SSSE3), 746-957 (AVX2), for `transform` and `generate`. The labels nothing jumps to are left out. -/
def chacha (abi : Abi) (k : Kind) (transform : Bool) : List Line :=
  let r := chachaRegs abi k
  (chachaHead abi k transform).map .ins ++ (.jz .blocks_loop_end ::
  (code r (ChaCha.Asm.blocksInit (chachaConsts k) fun i => .state (16 * i)) ++ (.jmp .blocks_loop_first :: .label .blocks_loop ::
  (code r ChaCha.Asm.reload ++ (.label .blocks_loop_first :: .ins (.mov .rbx (abi.arg 0)) :: .label .rounds_loop ::
  (code r (ChaCha.Asm.doubleRound (chachaConsts k)) ++ (.ins (.sub .rbx 1) :: .jnz .rounds_loop ::
  (code r (chachaBody k transform) ++ (.ins (.sub .rax 1) :: .jnz .blocks_loop :: .label .blocks_loop_end ::
  ((chachaTail abi k).map .ins ++ [.ret]))))))))))

/-! ### SHA -/

/-- sha1.asm:17-22, sha256.asm:17-22; there is no destination pointer (`r11` stands in its place, and is not used). -/
def shaRegs (abi : Abi) : Regs := ⟨.sse, .r11, abi.arg 2, abi.arg 1⟩

/-- sha1.asm:60-68 (`n = 4`), sha256.asm:83-92 (`n = 5`) -/
def shaHead (abi : Abi) (n : Nat) : List Ins :=
  match abi with
  | .unix => []
  | .wind => [.push .rbp, .mov .rbp .rsp, .sub .rsp (BitVec.ofNat 64 (16 * n))] ++ saveVec 0 n

/-- sha1.asm:168-179, sha256.asm:203-216 -/
def shaTail (abi : Abi) (n : Nat) : List Ins :=
  (match abi with
    | .unix => []
    | .wind => restoreVec 0 n ++ [.mov .rsp .rbp, .pop .rbp]) ++ [.mov .rax (abi.arg 0)]

/-- sha1.asm:77-79 and 157-160, sha256.asm:103-105 and 191-194: the loop over the blocks. -/
def shaLoop (abi : Abi) (n : Nat) (load block unload : List (Instr Ref)) (store : List Ins) : List Line :=
  let r := shaRegs abi
  (shaHead abi n).map .ins ++ (code r load ++ ([.test (abi.arg 0) (abi.arg 0), .mov .rax (abi.arg 0)].map .ins ++ (.jz .blocks_loop_end :: .label .blocks_loop ::
  (code r block ++ (.ins (.sub .rax 1) :: .jnz .blocks_loop :: .label .blocks_loop_end ::
  (code r unload ++ (store.map .ins ++ ((shaTail abi n).map .ins ++ [.ret]))))))))

/-- sha1.asm:41-178 -/
def sha1 (abi : Abi) : List Line :=
  shaLoop abi 4 (Sha1.Asm.load (.state 0) (.state32 16) (.ro 0)) Sha1.Asm.block Sha1.Asm.unload
    [.vstore .sse false (.reg (abi.arg 1) 0) (Sha1.Asm.state 0), .movdStore (.reg (abi.arg 1) 16) (Sha1.Asm.state 1)]

/-- sha1.asm:49-55 -/
def sha1Ro : List Byte := [0x0f, 0x0e, 0x0d, 0x0c, 0x0b, 0x0a, 0x09, 0x08, 0x07, 0x06, 0x05, 0x04, 0x03, 0x02, 0x01, 0x00]

/-- sha256.asm:47-215 -/
def sha256 (abi : Abi) : List Line :=
  shaLoop abi 5 (Sha256.Asm.load (.state (16 * 0)) (.state (16 * 1)) (.ro 0)) (Sha256.Asm.block fun i => .ro (16 + 16 * i)) Sha256.Asm.unload
    [.vstore .sse false (.reg (abi.arg 1) (16 * 0)) (Sha256.Asm.save 0), .vstore .sse false (.reg (abi.arg 1) (16 * 1)) (Sha256.Asm.save 1)]

/-- sha256.asm:55-78 -/
def sha256Ro : List Byte :=
  [0x03, 0x02, 0x01, 0x00, 0x07, 0x06, 0x05, 0x04, 0x0b, 0x0a, 0x09, 0x08, 0x0f, 0x0e, 0x0d, 0x0c] ++ Sha256.Asm.kTable.flatMap fun w => toLE 8 w.toNat

/-! ### cpuid -/

/-- cpuid.asm:17-27 -/
def cpuidFn (abi : Abi) : List Line :=
  ([.xchg .rbx .r10, .mov .r9 (abi.arg 0), .mov .rax (abi.arg 1), .mov .rcx (abi.arg 2), .cpuid,
    .store32 (.reg .r9 0) .rax, .store32 (.reg .r9 4) .rbx, .store32 (.reg .r9 8) .rcx, .store32 (.reg .r9 12) .rdx,
    .xchg .rbx .r10] : List Ins).map .ins ++ [.ret]

end Milo.X64
