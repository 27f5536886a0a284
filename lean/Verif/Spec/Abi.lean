import Verif.Model.X64
import Verif.Spec.ChaCha
import Verif.Spec.Sha
/-
What C++ code that calls an assembly function guarantees and relies on: the System V AMD64 ABI (Linux) and the Microsoft x64 calling convention (Windows),
as far as they concern functions with integer and pointer arguments only.
-/
namespace Milo.X64

/-- The `n` bytes from address `b` on (addresses are 64-bit words and wrap around). -/
def Area (b : W64) (n : Nat) (a : W64) : Prop := (a - b).toNat < n

def Apart (p q : W64 → Prop) : Prop := ∀ a, p a → ¬ q a

end Milo.X64

namespace Spec.Abi
open Milo Milo.X64

/-- The eight bytes at an address, as a number. -/
def qword (s : State) (a : W64) : W64 := BitVec.ofNat 64 (leNat (bytesAt s.mem a 8))

/-- Argument `i` (from 0) at the first instruction of a function: the first six in `rdi`, `rsi`, `rdx`, `rcx`, `r8`, `r9` (System V), the first four in `rcx`,
`rdx`, `r8`, `r9` and the others on the stack, above the return address and 32 bytes of shadow space (Windows). -/
def arg : Abi → State → Nat → W64
  | .unix, s, 0 => s.g .rdi
  | .unix, s, 1 => s.g .rsi
  | .unix, s, 2 => s.g .rdx
  | .unix, s, 3 => s.g .rcx
  | .unix, s, 4 => s.g .r8
  | .unix, s, _ => s.g .r9
  | .wind, s, 0 => s.g .rcx
  | .wind, s, 1 => s.g .rdx
  | .wind, s, 2 => s.g .r8
  | .wind, s, 3 => s.g .r9
  | .wind, s, i => qword s (s.g .rsp + BitVec.ofNat 64 (8 + 8 * i))

/-- The stack that holds those of the first `n` arguments that are not in registers (`n` at most six). -/
def stackArgs : Abi → State → Nat → List (W64 × Nat)
  | .unix, _, _ => []
  | .wind, s, n => [(s.g .rsp + 40, 8 * (n - 4))]

/-- General registers a function has to restore, besides `rsp`. -/
def savedRegs : Abi → List Reg
  | .unix => [.rbx, .rbp, .r12, .r13, .r14, .r15]
  | .wind => [.rbx, .rbp, .rdi, .rsi, .r12, .r13, .r14, .r15]

/-- Vector registers of which a function has to restore the low 128 bits. -/
def savedVecs : Abi → List Nat
  | .unix => []
  | .wind => [6, 7, 8, 9, 10, 11, 12, 13, 14, 15]

/-- The stack a function may use: 1024 bytes below the stack pointer it is entered with. -/
def room (s : State) : W64 → Prop := Area (s.g .rsp - 1024) 1024

/-- The same with the return address. -/
def frame (s : State) : W64 → Prop := Area (s.g .rsp - 1024) 1032

/-- The state at the first instruction of a function whose constants are the bytes `ro`, called with arguments through which it reads the areas `reads` and
writes the areas `writes` (pairs of an address and a size). -/
structure Entered (M : Machine) (s : State) (ro : List Byte) (reads writes : List (W64 × Nat)) : Prop where
  /-- the stack is aligned to 16 bytes when the call pushes the return address -/
  aligned : (s.g .rsp).toNat % 16 = 8
  stack : ∀ a, room s a → M.rd a = true ∧ M.wr a = true
  ret : ∀ a, Area (s.g .rsp) 8 a → M.rd a = true
  /-- `align 16` in `.rodata` -/
  roAligned : M.ro.toNat % 16 = 0
  roRead : ∀ a, Area M.ro ro.length a → M.rd a = true ∧ ¬ frame s a
  roBytes : bytesAt s.mem M.ro ro.length = ro
  read : ∀ p ∈ reads, ∀ a, Area p.1 p.2 a → M.rd a = true ∧ ¬ room s a
  write : ∀ p ∈ writes, ∀ a, Area p.1 p.2 a → M.wr a = true ∧ ¬ frame s a ∧ ¬ Area M.ro ro.length a

/-- The function `code`, entered in state `s`, runs without a fault, ends, and returns to its caller in state `s'`, with the stack pointer and the registers the
convention demands as before, having changed no memory but the areas `writes` and the stack below the caller's. -/
structure Returns (abi : Abi) (M : Machine) (code : List Line) (s s' : State) (writes : List (W64 × Nat)) : Prop where
  runs : ∃ n, steps M code n (.at code s) = some (.returned (qword s (s.g .rsp)) s')
  rsp : s'.g .rsp = s.g .rsp + 8
  regs : ∀ r ∈ savedRegs abi, s'.g r = s.g r
  vecs : ∀ i ∈ savedVecs abi, ∀ j, j < 4 → s'.v i j = s.v i j
  mem : ∀ a, ¬ room s a → (∀ p ∈ writes, ¬ Area p.1 p.2 a) → s'.mem a = s.mem a

/-- The 32-bit words of an array. -/
def words (s : State) (a : W64) (n : Nat) : List (BitVec 32) := (List.range n).map fun i => BitVec.ofNat 32 (leNat (bytesAt s.mem (a + BitVec.ofNat 64 (4 * i)) 4))

/-- Byte `i` of the ChaCha key stream of a state: that of the block whose counter, word 12, is `i / 64` more. -/
def keyByte (st : List (BitVec 32)) (i : Nat) : Byte := (ChaCha.core (st.set 12 (st.getD 12 0 + BitVec.ofNat 32 (i / 64)))).getD (i % 64) 0

/-- The SHA state after the blocks of `src`. -/
def hashed (compress : List (BitVec 32) → List Byte → List (BitVec 32)) (st : List (BitVec 32)) (src : List Byte) : List (BitVec 32) :=
  (chunks 64 src).foldl compress st

end Spec.Abi
