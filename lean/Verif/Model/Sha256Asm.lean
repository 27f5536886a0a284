import Verif.Model.X86
import Verif.Model.Sha256
/-
Model of src/milo/primitive/detail/hash/sha/sha_2_256_impl_hw_x86_64.asm ("asm") and sha_2_256_impl_hw_x86_64.h.

Not modelled: saving and restoring the caller's registers under the Windows ABI, the return value (ignored by the caller).
-/
namespace Milo.Sha256.Asm
open Memory X86

/-- A sequence of instructions of sha_2_256_impl_hw_x86_64.asm:30-217. -/
abbrev Prog (V : Type) := List (Instr V)

section
variable {V : Type}

/-- asm:24-28: `x_implicit`, `x_state_base`, `x_message`, `x_shuff_mask`, `x_state_save`. -/
abbrev implicit : Nat := 0
/-- sha_2_256_impl_hw_x86_64.asm:25 `x_state_base(i)` -/
abbrev state (i : Nat) : Nat := i + 1
/-- sha_2_256_impl_hw_x86_64.asm:26 `x_message(i)` -/
abbrev message (i : Nat) : Nat := i + 3
/-- sha_2_256_impl_hw_x86_64.asm:27 `x_shuff_mask` -/
abbrev mask : Nat := 8
/-- sha_2_256_impl_hw_x86_64.asm:28 `x_state_save(i)` -/
abbrev save (i : Nat) : Nat := i + 9

/-- An instruction in the notation of sha_2_256_impl_hw_x86_64.asm:30-217. -/
abbrev msg1 (d s : Nat) : Instr V := .bin .sha256msg1 d d (.x s)
/-- An instruction in the notation of sha_2_256_impl_hw_x86_64.asm:30-217. -/
abbrev msg2 (d s : Nat) : Instr V := .bin .sha256msg2 d d (.x s)
/-- An instruction in the notation of sha_2_256_impl_hw_x86_64.asm:30-217. -/
abbrev rnds2 (d s : Nat) : Instr V := .rnds2 d s
/-- An instruction in the notation of sha_2_256_impl_hw_x86_64.asm:30-217. -/
abbrev palignr (d s imm : Nat) : Instr V := .binImm .palignr d d s imm
/-- An instruction in the notation of sha_2_256_impl_hw_x86_64.asm:30-217. -/
abbrev paddd (d s : Nat) : Instr V := .bin .paddd d d (.x s)
/-- An instruction in the notation of sha_2_256_impl_hw_x86_64.asm:30-217. -/
abbrev padddK (d : Nat) (k : V) : Instr V := .bin .paddd d d (.const k)
/-- An instruction in the notation of sha_2_256_impl_hw_x86_64.asm:30-217. -/
abbrev pshufb (d s : Nat) : Instr V := .bin .pshufb d d (.x s)
/-- An instruction in the notation of sha_2_256_impl_hw_x86_64.asm:30-217. -/
abbrev pshufd (d s imm : Nat) : Instr V := .unImm .pshufd d s imm
/-- An instruction in the notation of sha_2_256_impl_hw_x86_64.asm:30-217. -/
abbrev movdqa (d s : Nat) : Instr V := .mov (.x d) (.x s)

/-- asm:30-44 macro `sha_2_256_rounds`; `k` is `m_k(%5)`. -/
def rounds (m1 _m2 m3 m4 : Nat) (k : V) : Prog V :=
  [movdqa implicit (message m4), movdqa (message 4) (message m4), padddK implicit k, rnds2 (state 1) (state 0),
   palignr (message 4) (message m3) 4, paddd (message m1) (message 4), pshufd implicit implicit 0b00001110, msg2 (message m1) (message m4),
   rnds2 (state 0) (state 1), msg1 (message m3) (message m4)]

/-- asm:94-101: load the state; `q0`, `q1` are `m_state(16 * 0)`, `m_state(16 * 1)`, `c` the constant of asm:57-61. -/
def load (q0 q1 c : V) : Prog V :=
  [.mov (.x (save 0)) (.const q0), .mov (.x (save 1)) (.const q1), .mov (.x mask) (.const c),
   pshufd (save 0) (save 0) 0b10110001, pshufd (save 1) (save 1) 0b10110001,
   .bin .punpcklqdq (state 0) (save 1) (.x (save 0)), .bin .punpckhqdq (state 1) (save 1) (.x (save 0))]

/-- asm:108-116 -/
def read : Prog V :=
  [.mov (.x implicit) (.src (16 * 0)), .mov (.x (message 1)) (.src (16 * 1)), .mov (.x (message 2)) (.src (16 * 2)),
   .mov (.x (message 3)) (.src (16 * 3)), movdqa (save 0) (state 0), movdqa (save 1) (state 1), .addSrc 64]

/-- asm:117-124 rounds 0 to 3 -/
def rounds00 (k : Nat → V) : Prog V :=
  [pshufb implicit mask, pshufb (message 1) mask, movdqa (message 0) implicit, padddK implicit (k 0), rnds2 (state 1) (state 0),
   pshufd implicit implicit 0b00001110, rnds2 (state 0) (state 1)]
/-- asm:125-132 rounds 4 to 7 -/
def rounds04 (k : Nat → V) : Prog V :=
  [movdqa implicit (message 1), pshufb (message 2) mask, padddK implicit (k 1), rnds2 (state 1) (state 0),
   pshufd implicit implicit 0b00001110, rnds2 (state 0) (state 1), msg1 (message 0) (message 1)]
/-- asm:133-140 rounds 8 to 11 -/
def rounds08 (k : Nat → V) : Prog V :=
  [movdqa implicit (message 2), pshufb (message 3) mask, padddK implicit (k 2), rnds2 (state 1) (state 0),
   pshufd implicit implicit 0b00001110, rnds2 (state 0) (state 1), msg1 (message 1) (message 2)]
/-- asm:141-160 rounds 12 to 51 -/
def rounds12 (k : Nat → V) : Prog V :=
  rounds 0 1 2 3 (k 3) ++ (rounds 1 2 3 0 (k 4) ++ (rounds 2 3 0 1 (k 5) ++ (rounds 3 0 1 2 (k 6) ++
  (rounds 0 1 2 3 (k 7) ++ (rounds 1 2 3 0 (k 8) ++ (rounds 2 3 0 1 (k 9) ++ (rounds 3 0 1 2 (k 10) ++
  (rounds 0 1 2 3 (k 11) ++ rounds 1 2 3 0 (k 12)))))))))
/-- asm:161-170 rounds 52 to 55 -/
def rounds52 (k : Nat → V) : Prog V :=
  [movdqa implicit (message 1), movdqa (message 4) (message 1), padddK implicit (k 13), rnds2 (state 1) (state 0),
   palignr (message 4) (message 0) 4, paddd (message 2) (message 4), pshufd implicit implicit 0b00001110, msg2 (message 2) (message 1),
   rnds2 (state 0) (state 1)]
/-- asm:171-180 rounds 56 to 59 -/
def rounds56 (k : Nat → V) : Prog V :=
  [movdqa implicit (message 2), movdqa (message 4) (message 2), padddK implicit (k 14), rnds2 (state 1) (state 0),
   palignr (message 4) (message 1) 4, paddd (message 3) (message 4), pshufd implicit implicit 0b00001110, msg2 (message 3) (message 2),
   rnds2 (state 0) (state 1)]
/-- asm:181-186 rounds 60 to 63 -/
def rounds60 (k : Nat → V) : Prog V :=
  [movdqa implicit (message 3), padddK implicit (k 15), rnds2 (state 1) (state 0), pshufd implicit implicit 0b00001110, rnds2 (state 0) (state 1)]
/-- asm:187-189 -/
def merge : Prog V := [paddd (state 1) (save 1), paddd (state 0) (save 0)]

/-- asm:107-189, the body of `.blocks_loop`. -/
def block (k : Nat → V) : Prog V :=
  read ++ (rounds00 k ++ (rounds04 k ++ (rounds08 k ++ (rounds12 k ++ (rounds52 k ++ (rounds56 k ++ (rounds60 k ++ merge)))))))

/-- asm:195-199, before the state is stored. -/
def unload : Prog V :=
  [.bin .punpckhqdq (save 0) (state 0) (.x (state 1)), .bin .punpcklqdq (save 1) (state 0) (.x (state 1)),
   pshufd (save 0) (save 0) 0b10110001, pshufd (save 1) (save 1) 0b10110001]

end

/-- asm:103-105, 107-192: `.blocks_loop`, run `g_blocks` times. -/
def loop {V M : Type} (A : Alg V M) (k : Nat → V) : Nat → St V M → Option (St V M)
  | 0, s => some s
  | n + 1, s => do
    let s ← exec A s (block k)
    loop A k n s

/-- asm:57-61 -/
def maskConst : Vec := ofDb [0x03, 0x02, 0x01, 0x00, 0x07, 0x06, 0x05, 0x04, 0x0b, 0x0a, 0x09, 0x08, 0x0f, 0x0e, 0x0d, 0x0c]

/-- asm:62-78 `.constant_k`, as the quadwords it is written in. -/
def kTable : List W64 := [
  0x71374491428a2f98#64, 0xe9b5dba5b5c0fbcf#64,
  0x59f111f13956c25b#64, 0xab1c5ed5923f82a4#64,
  0x12835b01d807aa98#64, 0x550c7dc3243185be#64,
  0x80deb1fe72be5d74#64, 0xc19bf1749bdc06a7#64,
  0xefbe4786e49b69c1#64, 0x240ca1cc0fc19dc6#64,
  0x4a7484aa2de92c6f#64, 0x76f988da5cb0a9dc#64,
  0xa831c66d983e5152#64, 0xbf597fc7b00327c8#64,
  0xd5a79147c6e00bf3#64, 0x1429296706ca6351#64,
  0x2e1b213827b70a85#64, 0x53380d134d2c6dfc#64,
  0x766a0abb650a7354#64, 0x92722c8581c2c92e#64,
  0xa81a664ba2bfe8a1#64, 0xc76c51a3c24b8b70#64,
  0xd6990624d192e819#64, 0x106aa070f40e3585#64,
  0x1e376c0819a4c116#64, 0x34b0bcb52748774c#64,
  0x4ed8aa4a391c0cb3#64, 0x682e6ff35b9cca4f#64,
  0x78a5636f748f82ee#64, 0x8cc7020884c87814#64,
  0xa4506ceb90befffa#64, 0xc67178f2bef9a3f7#64]

/-- asm:23 `m_k(i)`: sixteen bytes, the two quadwords `2 i` and `2 i + 1`. -/
def kVec (i : Nat) : Vec :=
  vec4 ((kTable.getD (2 * i) 0).setWidth 32) ((kTable.getD (2 * i) 0 >>> 32).setWidth 32)
    ((kTable.getD (2 * i + 1) 0).setWidth 32) ((kTable.getD (2 * i + 1) 0 >>> 32).setWidth 32)

/-- asm:200-201: store the state. An access out of bounds has made the memory `none`. -/
def finish (st : List W32) (s : St Vec (Option (List Byte))) : Option (List W32) := do
  let _ ← s.mem
  let q ← rd1 s.x (save 0)
  let r ← rd1 s.x (save 1)
  let st ← wr1 st 0 (q 0)
  let st ← wr1 st 1 (q 1)
  let st ← wr1 st 2 (q 2)
  let st ← wr1 st 3 (q 3)
  let st ← wr1 st 4 (r 0)
  let st ← wr1 st 5 (r 1)
  let st ← wr1 st 6 (r 2)
  wr1 st 7 (r 3)

/-- asm:47-215 and sha_2_256_impl_hw_x86_64.h:62-80 `blocks`. Registers on entry hold anything (`junk`). The loads and stores of the state array are on
32-bit words, in the order of the host: the code is only assembled for x86-64, which is little-endian. -/
def blocks (junk : Nat → Vec) (n : Nat) (st : List W32) (src : List Byte) : Option (List W32) := do
  let a ← rd1 st 0
  let b ← rd1 st 1
  let c ← rd1 st 2
  let d ← rd1 st 3
  let e ← rd1 st 4
  let f ← rd1 st 5
  let g ← rd1 st 6
  let h ← rd1 st 7
  let s ← exec (simd 4) ⟨(List.range 16).map junk, [], [], some src, 0, 0⟩ (load (vec4 a b c d) (vec4 e f g h) maskConst)
  let s ← loop (simd 4) kVec n s
  let s ← exec (simd 4) s unload
  finish st s

end Milo.Sha256.Asm
