import Verif.Model.X86
import Verif.Model.ChaCha
/-
Model of src/milo/primitive/detail/cipher/chacha/chacha_impl_hw_x86_64.asm and chacha_impl_hw_x86_64.h: every instruction of the two backends, macro by
macro, in the order of the file. `_` arguments of the macros are left out.
-/
namespace Milo.ChaCha.Asm
open Memory X86

section
variable {V : Type}

/-- The constants of a backend, asm:264-279 and asm:748-773. -/
structure Consts (V : Type) where
  addInit : V
  addAdvance : V
  rol16 : V
  rol8 : V

/-- A sequence of instructions of chacha_impl_hw_x86_64.asm:45-260, 512-744. -/
abbrev Prog (V : Type) := List (Instr V)

/-! Two-operand (SSE) notation. -/
/-- An instruction in the notation of chacha_impl_hw_x86_64.asm:45-260. -/
def paddd (d s : Nat) : Instr V := .bin .paddd d d (.x s)
/-- An instruction in the notation of chacha_impl_hw_x86_64.asm:45-260. -/
def pxor (d s : Nat) : Instr V := .bin .pxor d d (.x s)
/-- An instruction in the notation of chacha_impl_hw_x86_64.asm:45-260. -/
def pshufb (d : Nat) (c : V) : Instr V := .bin .pshufb d d (.const c)
/-- An instruction in the notation of chacha_impl_hw_x86_64.asm:45-260. -/
def pslld (d n : Nat) : Instr V := .unImm .pslld d d n
/-- An instruction in the notation of chacha_impl_hw_x86_64.asm:45-260. -/
def psrld (d n : Nat) : Instr V := .unImm .psrld d d n
/-- An instruction in the notation of chacha_impl_hw_x86_64.asm:45-260. -/
def movx (d s : Nat) : Instr V := .mov (.x d) (.x s)
/-- An instruction in the notation of chacha_impl_hw_x86_64.asm:45-260. -/
def punpckhdq (d s : Nat) : Instr V := .bin .punpckhdq d d (.x s)
/-- An instruction in the notation of chacha_impl_hw_x86_64.asm:45-260. -/
def punpckldq (d s : Nat) : Instr V := .bin .punpckldq d d (.x s)
/-- An instruction in the notation of chacha_impl_hw_x86_64.asm:45-260. -/
def punpckhqdq (d s : Nat) : Instr V := .bin .punpckhqdq d d (.x s)
/-- An instruction in the notation of chacha_impl_hw_x86_64.asm:45-260. -/
def punpcklqdq (d s : Nat) : Instr V := .bin .punpcklqdq d d (.x s)
/-- An instruction in the notation of chacha_impl_hw_x86_64.asm:45-260. -/
def loadSrc (d k : Nat) : Instr V := .mov (.x d) (.src k)
/-- An instruction in the notation of chacha_impl_hw_x86_64.asm:45-260. -/
def storeDst (k s : Nat) : Instr V := .mov (.dst k) (.x s)
/-- `paddd x_state_eval(i), s_state_base(i)` (chacha_impl_hw_x86_64.asm:138-190) -/
def addBase (i : Nat) : Instr V := .bin .paddd i i (.base i)
/-- `movdqa s_state_base(i), x_state_eval(i)` (chacha_impl_hw_x86_64.asm:312-364) -/
def saveBase (i : Nat) : Instr V := .mov (.base i) (.x i)
/-- `movdqa x_state_eval(d), s_state_base(i)`: chacha_impl_hw_x86_64.asm:368-385. -/
def loadBase (d i : Nat) : Instr V := .mov (.x d) (.base i)
/-- `movdqa x_state_eval(d), s_state_temp(i)`: chacha_impl_hw_x86_64.asm:138-260. -/
def loadTemp (d i : Nat) : Instr V := .mov (.x d) (.temp i)
/-- `movdqa s_state_temp(i), x_state_eval(s)`: chacha_impl_hw_x86_64.asm:138-260. -/
def saveTemp (i s : Nat) : Instr V := .mov (.temp i) (.x s)
/-- Three-operand (AVX) notation. (chacha_impl_hw_x86_64.asm:512-744) -/
def vbin (o : Bin) (d a b : Nat) : Instr V := .bin o d a (.x b)

/-! ### SSSE3 -/

/-- asm:45-91 (SSSE3) and asm:512-558 (AVX2, the same with the first operand repeated) macro `chacha_ssse_3_rounds`; `shuf` is the constant its argument 17 names, `n` its argument 18. -/
def rounds (a1 a2 a3 a4 a5 a6 a7 a8 a9 a10 a11 a12 a13 a14 a15 a16 : Nat) (shuf : V) (n : Nat) : Prog V :=
  [paddd a1 a5, paddd a2 a6, pxor a13 a1, pxor a14 a2, paddd a3 a7, paddd a4 a8,
   pshufb a13 shuf, pshufb a14 shuf, pxor a15 a3, pxor a16 a4, saveTemp 0 a13, saveTemp 1 a14, pshufb a15 shuf, pshufb a16 shuf,
   paddd a9 a13, paddd a10 a14, pxor a5 a9, pxor a6 a10, paddd a11 a15, paddd a12 a16,
   movx a13 a5, movx a14 a6, pslld a5 n, psrld a13 (32 - n), pslld a6 n, psrld a14 (32 - n),
   pxor a7 a11, pxor a8 a12, pxor a5 a13, pxor a6 a14,
   movx a13 a7, movx a14 a8, pslld a7 n, psrld a13 (32 - n), pslld a8 n, psrld a14 (32 - n),
   pxor a7 a13, pxor a8 a14, loadTemp a13 0, loadTemp a14 1]

/-- asm:391-417 (SSSE3), asm:892-918 (AVX2): the body of the rounds loop. -/
def doubleRound (k : Consts V) : Prog V :=
  rounds 0 1 2 3 4 5 6 7 8 9 10 11 12 13 14 15 k.rol16 12 ++
  rounds 0 1 2 3 4 5 6 7 8 9 10 11 12 13 14 15 k.rol8 7 ++
  rounds 0 1 2 3 5 6 7 4 10 11 8 9 15 12 13 14 k.rol16 12 ++
  rounds 0 1 2 3 5 6 7 4 10 11 8 9 15 12 13 14 k.rol8 7

/-- asm:104-136 macro `chacha_ssse_3_transform_core`; `off` is its argument 2. -/
def transformCore (off a3 a4 a5 a6 a7 a8 a9 a10 a11 a12 : Nat) : Prog V :=
  [movx a7 a3, movx a8 a5, loadSrc a9 (16 * (off + 0)), loadSrc a10 (16 * (off + 4)), punpckhdq a3 a4, punpckldq a7 a4,
   loadSrc a11 (16 * (off + 8)), loadSrc a12 (16 * (off + 12)), punpckhdq a5 a6, punpckldq a8 a6,
   movx a4 a3, movx a6 a7, punpckhqdq a3 a5, punpcklqdq a4 a5, pxor a3 a9, pxor a4 a10,
   storeDst (16 * (off + 0)) a3, storeDst (16 * (off + 4)) a4, punpckhqdq a7 a8, punpcklqdq a6 a8, pxor a7 a11, pxor a6 a12,
   storeDst (16 * (off + 8)) a7, storeDst (16 * (off + 12)) a6]

/-- asm:138-190 macro `chacha_ssse_3_transform_body`, in parts. -/
def transformBody0 : Prog V :=
  [addBase 10, addBase 11, addBase 13, addBase 14, saveTemp 2 10, saveTemp 3 11, saveTemp 4 13, saveTemp 5 14,
   addBase 0, addBase 1, addBase 2, addBase 3, addBase 4, addBase 5, addBase 6, addBase 7]
/-- chacha_impl_hw_x86_64.asm:138-190, first part. -/
def transformBody1 : Prog V := [loadBase 2 12, loadTemp 0 0, loadTemp 1 1]
/-- chacha_impl_hw_x86_64.asm:138-190, second part. -/
def transformBody2 (k : Consts V) : Prog V :=
  [loadTemp 3 2, loadTemp 4 3, loadTemp 6 4, loadTemp 7 5, addBase 8, addBase 9,
   paddd 1 2, .bin .paddd 0 0 (.base 15), .bin .paddd 2 2 (.const k.addAdvance)]
/-- chacha_impl_hw_x86_64.asm:138-190 macro `chacha_ssse_3_transform_body`. -/
def transformBody (k : Consts V) : Prog V :=
  transformBody0 ++ transformCore 0 0 1 2 3 10 11 12 13 14 15 ++
  transformBody1 ++ transformCore 1 4 5 6 7 10 11 12 13 14 15 ++
  transformBody2 k ++ transformCore 2 8 9 3 4 10 11 12 13 14 15 ++
  [.mov (.base 12) (.x 2)] ++ transformCore 3 1 6 7 0 10 11 12 13 14 15 ++
  [.addDst 256, .addSrc 256]

/-- asm:196-219 macro `chacha_ssse_3_generate_core`. -/
def generateCore (off a3 a4 a5 a6 a7 a8 : Nat) : Prog V :=
  [movx a7 a3, movx a8 a5, punpckhdq a3 a4, punpckldq a7 a4, punpckhdq a5 a6, punpckldq a8 a6,
   movx a4 a3, movx a6 a7, punpckhqdq a3 a5, punpcklqdq a4 a5, storeDst (16 * (off + 0)) a3, storeDst (16 * (off + 4)) a4,
   punpckhqdq a7 a8, punpcklqdq a6 a8, storeDst (16 * (off + 8)) a7, storeDst (16 * (off + 12)) a6]

/-- asm:221-260 macro `chacha_ssse_3_generate_body`. -/
def generateBody0 : Prog V :=
  [addBase 0, addBase 1, addBase 2, addBase 3, addBase 4, addBase 5, addBase 6, addBase 7, addBase 8, addBase 9, addBase 10, addBase 11,
   addBase 13, addBase 14]
/-- chacha_impl_hw_x86_64.asm:221-260, first part. -/
def generateBody1 : Prog V := [loadBase 2 12, loadTemp 0 0, loadTemp 1 1]
/-- chacha_impl_hw_x86_64.asm:221-260, second part. -/
def generateBody2 (k : Consts V) : Prog V := [paddd 1 2, .bin .paddd 0 0 (.base 15), .bin .paddd 2 2 (.const k.addAdvance)]
/-- chacha_impl_hw_x86_64.asm:221-260 macro `chacha_ssse_3_generate_body`. -/
def generateBody (k : Consts V) : Prog V :=
  generateBody0 ++ generateCore 0 0 1 2 3 12 15 ++
  generateBody1 ++ generateCore 1 4 5 6 7 12 15 ++
  generateBody2 k ++ generateCore 2 8 9 10 11 12 15 ++
  [.mov (.base 12) (.x 2)] ++ generateCore 3 1 13 14 0 12 15 ++
  [.addDst 256]

/-- asm:312-364 (SSSE3), asm:809-865 (AVX2) `.blocks_init`; `q i` is `m_state(16 * i)`, loaded by `movdqu` or `vbroadcasti128`. -/
def blocksInit (k : Consts V) (q : Nat → V) : Prog V :=
  [.mov (.x 12) (.const (q 0)), .mov (.x 13) (.const (q 1)), .mov (.x 14) (.const (q 2)), .mov (.x 15) (.const (q 3)),
   .unImm .pshufd 0 12 0b00000000, .unImm .pshufd 1 12 0b01010101, .unImm .pshufd 2 12 0b10101010, .unImm .pshufd 3 12 0b11111111,
   saveBase 0, saveBase 1, saveBase 2, saveBase 3,
   .unImm .pshufd 4 13 0b00000000, .unImm .pshufd 5 13 0b01010101, .unImm .pshufd 6 13 0b10101010, .unImm .pshufd 7 13 0b11111111,
   saveBase 4, saveBase 5, saveBase 6, saveBase 7,
   .unImm .pshufd 8 14 0b00000000, .unImm .pshufd 9 14 0b01010101, .unImm .pshufd 10 14 0b10101010, .unImm .pshufd 11 14 0b11111111,
   saveBase 8, saveBase 9, saveBase 10, saveBase 11,
   .unImm .pshufd 12 15 0b00000000, .unImm .pshufd 13 15 0b01010101, .bin .paddd 12 12 (.const k.addInit),
   .unImm .pshufd 14 15 0b10101010, .unImm .pshufd 15 15 0b11111111,
   saveBase 12, saveBase 13, saveBase 14, saveBase 15]

/-- asm:368-385 (SSSE3), asm:869-886 (AVX2) `.blocks_loop`: the state from the stack. -/
def reload : Prog V :=
  [loadBase 0 0, loadBase 1 1, loadBase 2 2, loadBase 3 3, loadBase 4 4, loadBase 5 5, loadBase 6 6, loadBase 7 7,
   loadBase 8 8, loadBase 9 9, loadBase 10 10, loadBase 11 11, loadBase 12 12, loadBase 13 13, loadBase 14 14, loadBase 15 15]

/-! ### AVX2 -/

/-- asm:571-583 macro `chacha_avx_2_merge_32`. -/
def merge32 (a1 a2 a3 a4 a5 a6 : Nat) : Prog V :=
  [vbin .punpckhdq a1 a3 a4, vbin .punpckhdq a2 a5 a6, vbin .punpckldq a3 a3 a4, vbin .punpckldq a5 a5 a6]

/-- asm:585-597 macro `chacha_avx_2_merge_64`. -/
def merge64 (a1 a2 a3 a4 a5 a6 : Nat) : Prog V :=
  [vbin .punpckhqdq a1 a3 a4, vbin .punpckhqdq a2 a5 a6, vbin .punpcklqdq a3 a3 a4, vbin .punpcklqdq a5 a5 a6]

/-- asm:599-610 macro `chacha_avx_2_merge_128`. -/
def merge128 (a1 a2 a3 a4 : Nat) : Prog V :=
  [.binImm .vperm2i128 a1 a3 a4 0b00110001, .binImm .vperm2i128 a2 a3 a4 0b00100000]

/-- asm:612-625 macros `chacha_avx_2_merge_transform` and `chacha_avx_2_merge_generate`. -/
def mergeXor (transform : Bool) (a1 a2 o3 o4 : Nat) : Prog V :=
  match transform with
  | true => [.bin .pxor a1 a1 (.src (32 * o3)), .bin .pxor a2 a2 (.src (32 * o4))]
  | false => []

/-- asm:627-635 macro `chacha_avx_2_merge_stor`. -/
def mergeStor (a1 a2 a3 a4 o5 o6 o7 o8 : Nat) : Prog V :=
  [storeDst (32 * o5) a1, storeDst (32 * o6) a2, storeDst (32 * o7) a3, storeDst (32 * o8) a4]

/-- asm:637-685 macro `chacha_avx_2_merge_v_1`; `off` is its argument 2. -/
def mergeV1 (t : Bool) (off a3 a4 a7 a8 a9 a10 a11 a12 a13 a14 : Nat) : Prog V :=
  merge32 a3 a4 a7 a8 a9 a10 ++ merge64 a8 a10 a3 a4 a7 a9 ++ merge32 a4 a9 a11 a12 a13 a14 ++ merge64 a12 a14 a4 a9 a11 a13 ++
  merge128 a9 a13 a8 a12 ++ mergeXor t a9 a13 (off + 0) (off + 8) ++
  merge128 a8 a12 a10 a14 ++ mergeXor t a8 a12 (off + 4) (off + 12) ++
  mergeStor a9 a13 a8 a12 (off + 0) (off + 8) (off + 4) (off + 12) ++
  merge128 a10 a14 a3 a4 ++ mergeXor t a10 a14 (off + 2) (off + 10) ++
  merge128 a3 a4 a7 a11 ++ mergeXor t a3 a4 (off + 6) (off + 14) ++
  mergeStor a10 a14 a3 a4 (off + 2) (off + 10) (off + 6) (off + 14)

/-- asm:687-727 macro `chacha_avx_2_merge`, in parts. -/
def merge0 : Prog V := [addBase 0, addBase 1, addBase 2, addBase 3, addBase 4, addBase 5, addBase 6, addBase 7]
/-- chacha_impl_hw_x86_64.asm:637-685, the part common to both. -/
def merge1 (k : Consts V) : Prog V :=
  [loadBase 2 12, loadTemp 6 1, loadTemp 1 0, addBase 8, addBase 9, addBase 10, addBase 11, addBase 13, addBase 14,
   paddd 6 2, .bin .paddd 1 1 (.base 15), .bin .paddd 2 2 (.const k.addAdvance)]
/-- chacha_impl_hw_x86_64.asm:687-727 macro `chacha_avx_2_merge`. -/
def merge (k : Consts V) (t : Bool) : Prog V :=
  merge0 ++ mergeV1 t 0 12 15 0 1 2 3 4 5 6 7 ++ merge1 k ++ mergeV1 t 1 5 0 8 9 10 11 6 13 14 1 ++ [.mov (.base 12) (.x 2)]

/-- asm:729-734 macro `chacha_avx_2_transform_body`. -/
def transformBodyAvx (k : Consts V) : Prog V := merge k true ++ [.addDst 512, .addSrc 512]

/-- asm:740-744 macro `chacha_avx_2_generate_body`. -/
def generateBodyAvx (k : Consts V) : Prog V := merge k false ++ [.addDst 512]

end

/-! ### The loops -/

section
variable {V M : Type} (A : Alg V M)

/-- asm:389-422 `.rounds_loop`: `n` times (the callers pass 10). -/
def roundsLoop (k : Consts V) : Nat → St V M → Option (St V M)
  | 0, s => some s
  | n + 1, s => do
    let s ← exec A s (doubleRound k)
    roundsLoop k n s

/-- asm:387-429 from `.blocks_loop_first`, with the counter `g_blocks_cnt` at `n + 1`. -/
def blocksLoop (k : Consts V) (body : Prog V) : Nat → St V M → Option (St V M)
  | 0, s => do
    let s ← roundsLoop A k 10 s
    exec A s body
  | n + 1, s => do
    let s ← roundsLoop A k 10 s
    let s ← exec A s body
    let s ← exec A s reload
    blocksLoop k body n s

/-- asm:262-454 macro `chacha_ssse_3_body`, asm:746-957 macro `chacha_avx_2_body`. -/
def run (k : Consts V) (q : Nat → V) (body : Prog V) : Nat → St V M → Option (St V M)
  | 0, s => some s
  | n + 1, s => do
    let s ← exec A s (blocksInit k q)
    blocksLoop A k body n s

end

/-- asm:264-279 -/
def ssse3Consts : Consts Vec where
  addInit := ofDd [3, 2, 1, 0]
  addAdvance := ofDd [4, 4, 4, 4]
  rol16 := ofDb [0x02, 0x03, 0x00, 0x01, 0x06, 0x07, 0x04, 0x05, 0x0a, 0x0b, 0x08, 0x09, 0x0e, 0x0f, 0x0c, 0x0d]
  rol8 := ofDb [0x03, 0x00, 0x01, 0x02, 0x07, 0x04, 0x05, 0x06, 0x0b, 0x08, 0x09, 0x0a, 0x0f, 0x0c, 0x0d, 0x0e]

/-- asm:748-773 -/
def avx2Consts : Consts Vec where
  addInit := ofDd [7, 6, 5, 4, 3, 2, 1, 0]
  addAdvance := ofDd [8, 8, 8, 8, 8, 8, 8, 8]
  rol16 := ofDb [0x02, 0x03, 0x00, 0x01, 0x06, 0x07, 0x04, 0x05, 0x0a, 0x0b, 0x08, 0x09, 0x0e, 0x0f, 0x0c, 0x0d,
    0x02, 0x03, 0x00, 0x01, 0x06, 0x07, 0x04, 0x05, 0x0a, 0x0b, 0x08, 0x09, 0x0e, 0x0f, 0x0c, 0x0d]
  rol8 := ofDb [0x03, 0x00, 0x01, 0x02, 0x07, 0x04, 0x05, 0x06, 0x0b, 0x08, 0x09, 0x0a, 0x0f, 0x0c, 0x0d, 0x0e,
    0x03, 0x00, 0x01, 0x02, 0x07, 0x04, 0x05, 0x06, 0x0b, 0x08, 0x09, 0x0a, 0x0f, 0x0c, 0x0d, 0x0e]

/-- `movdqu` of four words of the state (SSSE3), `vbroadcasti128` (AVX2): every 128-bit lane gets them. (chacha_impl_hw_x86_64.asm:312-364, 809-865) -/
def quad (st : List W32) (i : Nat) : Vec := fun j => st.getD (4 * i + j % 4) 0

/-- Registers and slots on entry hold anything: `junk` is a parameter of the backends, over which every theorem quantifies. (chacha_impl_hw_x86_64.asm:282-311, 780-808) -/
def entry (junk : Nat → Vec) (mem : List Byte) (dst src : Nat) : St Vec (Option (List Byte)) :=
  ⟨(List.range 16).map junk, (List.range 6).map fun i => junk (16 + i), (List.range 16).map fun i => junk (22 + i), some mem, dst, src⟩

/-- chacha_impl_hw_x86_64.h:51-126 and :130-209: a backend; `lanes` is the number of 32-bit lanes of a register and of blocks done at a time. The result of
the call is `blocks << 2` or `blocks << 3` in a 64-bit register. -/
def backend (lanes : Nat) (k : Consts Vec) (transformBody generateBody : Prog Vec) (junk : Nat → Vec) : Backend where
  ratio := lanes
  transform := fun n st mem dst src => do
    let st ← copyState st
    let s ← run (simd lanes) k (quad st) transformBody n (entry junk mem dst src)
    let mem ← s.mem
    pure (n * lanes % 2 ^ 64, mem)
  generate := fun n st buf => do
    let st ← copyState st
    let s ← run (simd lanes) k (quad st) generateBody n (entry junk buf 0 0)
    let mem ← s.mem
    pure (n * lanes % 2 ^ 64, mem)

/-- asm:457-477 and chacha_impl_hw_x86_64.h:51-126 -/
def ssse3 (junk : Nat → Vec) : Backend := backend 4 ssse3Consts (transformBody ssse3Consts) (generateBody ssse3Consts) junk

/-- asm:960-980 and chacha_impl_hw_x86_64.h:130-209 -/
def avx2 (junk : Nat → Vec) : Backend := backend 8 avx2Consts (transformBodyAvx avx2Consts) (generateBodyAvx avx2Consts) junk

end Milo.ChaCha.Asm
