import Verif.Model.X86
import Verif.Model.Sha1
/-
Model of src/milo/primitive/detail/hash/sha/sha_1_160_impl_hw_x86_64.asm ("asm") and sha_1_160_impl_hw_x86_64.h.

Not modelled: saving and restoring the caller's registers under the Windows ABI, the return value (ignored by the caller).
-/
namespace Milo.Sha1.Asm
open Memory X86

/-- A sequence of instructions of sha_1_160_impl_hw_x86_64.asm:28-180. -/
abbrev Prog (V : Type) := List (Instr V)

section
variable {V : Type}

/-- asm:23-26: `x_state_base`, `x_message`, `x_shuff_mask`, `x_state_save`. -/
abbrev state (i : Nat) : Nat := i + 0
/-- sha_1_160_impl_hw_x86_64.asm:24 `x_message(i)` -/
abbrev message (i : Nat) : Nat := i + 3
/-- sha_1_160_impl_hw_x86_64.asm:25 `x_shuff_mask` -/
abbrev mask : Nat := 7
/-- sha_1_160_impl_hw_x86_64.asm:26 `x_state_save(i)` -/
abbrev save (i : Nat) : Nat := i + 8

/-- An instruction in the notation of sha_1_160_impl_hw_x86_64.asm:28-180. -/
abbrev nexte (d s : Nat) : Instr V := .bin .sha1nexte d d (.x s)
/-- An instruction in the notation of sha_1_160_impl_hw_x86_64.asm:28-180. -/
abbrev msg1 (d s : Nat) : Instr V := .bin .sha1msg1 d d (.x s)
/-- An instruction in the notation of sha_1_160_impl_hw_x86_64.asm:28-180. -/
abbrev msg2 (d s : Nat) : Instr V := .bin .sha1msg2 d d (.x s)
/-- An instruction in the notation of sha_1_160_impl_hw_x86_64.asm:28-180. -/
abbrev rnds4 (d s imm : Nat) : Instr V := .binImm .sha1rnds4 d d s imm
/-- An instruction in the notation of sha_1_160_impl_hw_x86_64.asm:28-180. -/
abbrev pxor (d s : Nat) : Instr V := .bin .pxor d d (.x s)
/-- An instruction in the notation of sha_1_160_impl_hw_x86_64.asm:28-180. -/
abbrev paddd (d s : Nat) : Instr V := .bin .paddd d d (.x s)
/-- An instruction in the notation of sha_1_160_impl_hw_x86_64.asm:28-180. -/
abbrev pshufb (d s : Nat) : Instr V := .bin .pshufb d d (.x s)
/-- An instruction in the notation of sha_1_160_impl_hw_x86_64.asm:28-180. -/
abbrev movdqa (d s : Nat) : Instr V := .mov (.x d) (.x s)

/-- asm:28-39 macro `sha_1_160_rounds`. -/
def rounds (m1 m2 m3 m4 s5 s6 s7 c : Nat) : Prog V :=
  [nexte (state s7) (message m4), movdqa (state s6) (state s5), msg2 (message m1) (message m4), rnds4 (state s5) (state s7) c,
   msg1 (message m3) (message m4), pxor (message m2) (message m4)]

/-- asm:70-75: load the state; `q` is `m_state(0)` (four words), `e` is `m_state(16)` (`movd`: one word, the others zero), `k` the constant of asm:51-55. -/
def load (q e k : V) : Prog V :=
  [.mov (.x (state 0)) (.const q), .mov (.x (state 1)) (.const e), .mov (.x mask) (.const k),
   .unImm .pshufd (state 0) (state 0) 0b00011011, .unImm .pslldq (state 1) (state 1) 12]

/-- asm:82-90: read a block, save the state, advance the pointer. -/
def read : Prog V :=
  [.mov (.x (message 0)) (.src (16 * 0)), .mov (.x (message 1)) (.src (16 * 1)), .mov (.x (message 2)) (.src (16 * 2)),
   .mov (.x (message 3)) (.src (16 * 3)), movdqa (save 0) (state 0), movdqa (save 1) (state 1), .addSrc 64]

/-- asm:91-95 rounds 0 to 3 -/
def rounds00 : Prog V := [pshufb (message 0) mask, paddd (state 1) (message 0), movdqa (state 2) (state 0), rnds4 (state 0) (state 1) 0]
/-- asm:96-101 rounds 4 to 7 -/
def rounds04 : Prog V :=
  [pshufb (message 1) mask, nexte (state 2) (message 1), movdqa (state 1) (state 0), rnds4 (state 0) (state 2) 0, msg1 (message 0) (message 1)]
/-- asm:102-108 rounds 8 to 11 -/
def rounds08 : Prog V :=
  [pshufb (message 2) mask, nexte (state 1) (message 2), movdqa (state 2) (state 0), rnds4 (state 0) (state 1) 0, msg1 (message 1) (message 2),
   pxor (message 0) (message 2)]
/-- asm:109-137 rounds 12 to 67 -/
def rounds12 : Prog V :=
  [pshufb (message 3) mask] ++ (rounds 0 1 2 3 0 1 2 0 ++ (rounds 1 2 3 0 0 2 1 0 ++ (rounds 2 3 0 1 0 1 2 1 ++ (rounds 3 0 1 2 0 2 1 1 ++
  (rounds 0 1 2 3 0 1 2 1 ++ (rounds 1 2 3 0 0 2 1 1 ++ (rounds 2 3 0 1 0 1 2 1 ++ (rounds 3 0 1 2 0 2 1 2 ++
  (rounds 0 1 2 3 0 1 2 2 ++ (rounds 1 2 3 0 0 2 1 2 ++ (rounds 2 3 0 1 0 1 2 2 ++ (rounds 3 0 1 2 0 2 1 2 ++
  (rounds 0 1 2 3 0 1 2 3 ++ rounds 1 2 3 0 0 2 1 3)))))))))))))
/-- asm:138-143 rounds 68 to 71 -/
def rounds68 : Prog V :=
  [nexte (state 2) (message 1), movdqa (state 1) (state 0), msg2 (message 2) (message 1), rnds4 (state 0) (state 2) 3, pxor (message 3) (message 1)]
/-- asm:144-148 rounds 72 to 75 -/
def rounds72 : Prog V := [nexte (state 1) (message 2), movdqa (state 2) (state 0), msg2 (message 3) (message 2), rnds4 (state 0) (state 1) 3]
/-- asm:149-152 rounds 76 to 79 -/
def rounds76 : Prog V := [nexte (state 2) (message 3), movdqa (state 1) (state 0), rnds4 (state 0) (state 2) 3]
/-- asm:153-155 -/
def merge : Prog V := [nexte (state 1) (save 1), paddd (state 0) (save 0)]

/-- asm:81-155, the body of `.blocks_loop`. -/
def block : Prog V := read ++ (rounds00 ++ (rounds04 ++ (rounds08 ++ (rounds12 ++ (rounds68 ++ (rounds72 ++ (rounds76 ++ merge)))))))

/-- asm:162-163, before the state is stored. -/
def unload : Prog V := [.unImm .pshufd (state 0) (state 0) 0b00011011, .unImm .psrldq (state 1) (state 1) 12]

end

/-- asm:77-79, 81-158: `.blocks_loop`, run `g_blocks` times. -/
def loop {V M : Type} (A : Alg V M) : Nat → St V M → Option (St V M)
  | 0, s => some s
  | n + 1, s => do
    let s ← exec A s block
    loop A n s

/-- asm:51-55 -/
def maskConst : Vec := ofDb [0x0f, 0x0e, 0x0d, 0x0c, 0x0b, 0x0a, 0x09, 0x08, 0x07, 0x06, 0x05, 0x04, 0x03, 0x02, 0x01, 0x00]

/-- asm:164-165: store the state. An access out of bounds has made the memory `none`. -/
def finish (st : List W32) (s : St Vec (Option (List Byte))) : Option (List W32) := do
  let _ ← s.mem
  let q ← rd1 s.x (state 0)
  let r ← rd1 s.x (state 1)
  let st ← wr1 st 0 (q 0)
  let st ← wr1 st 1 (q 1)
  let st ← wr1 st 2 (q 2)
  let st ← wr1 st 3 (q 3)
  wr1 st 4 (r 0)

/-- asm:41-178 and sha_1_160_impl_hw_x86_64.h:60-78 `blocks`. Registers on entry hold anything (`junk`). The loads and stores of the state array are on
32-bit words, in the order of the host: the code is only assembled for x86-64, which is little-endian. -/
def blocks (junk : Nat → Vec) (n : Nat) (st : List W32) (src : List Byte) : Option (List W32) := do
  let a ← rd1 st 0
  let b ← rd1 st 1
  let c ← rd1 st 2
  let d ← rd1 st 3
  let e ← rd1 st 4
  let s ← exec (simd 4) ⟨(List.range 16).map junk, [], [], some src, 0, 0⟩ (load (vec4 a b c d) (vec4 e 0 0 0) maskConst)
  let s ← loop (simd 4) n s
  let s ← exec (simd 4) s unload
  finish st s

end Milo.Sha1.Asm
