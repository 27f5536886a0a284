import Verif.Proof.ChaChaAsm
/- The assembly backends of ChaCha: what a loop iteration stores. -/
namespace Milo.ChaCha.Asm
open Memory X86

section
variable {V M : Type} (A : Alg V M)

/-! Rows of the transposition of four registers. -/
def rowHH (a b c d : V) : V := A.bin .punpckhqdq (A.bin .punpckhdq a b) (A.bin .punpckhdq c d)
def rowLH (a b c d : V) : V := A.bin .punpcklqdq (A.bin .punpckhdq a b) (A.bin .punpckhdq c d)
def rowHL (a b c d : V) : V := A.bin .punpckhqdq (A.bin .punpckldq a b) (A.bin .punpckldq c d)
def rowLL (a b c d : V) : V := A.bin .punpcklqdq (A.bin .punpckldq a b) (A.bin .punpckldq c d)

/-- Xors the values `v i` with memory at `src + o i` into `dst + o i`: the loads first. -/
def xor4 (mem : M) (dst src : Nat) (o0 o1 o2 o3 : Nat) (v0 v1 v2 v3 : V) : M :=
  let l0 := A.load mem (src + o0)
  let l1 := A.load l0.2 (src + o1)
  let l2 := A.load l1.2 (src + o2)
  let l3 := A.load l2.2 (src + o3)
  let m := A.store l3.2 (dst + o0) (A.bin .pxor v0 l0.1)
  let m := A.store m (dst + o1) (A.bin .pxor v1 l1.1)
  let m := A.store m (dst + o2) (A.bin .pxor v2 l2.1)
  A.store m (dst + o3) (A.bin .pxor v3 l3.1)

def stor4 (mem : M) (dst : Nat) (o0 o1 o2 o3 : Nat) (v0 v1 v2 v3 : V) : M :=
  A.store (A.store (A.store (A.store mem (dst + o0) v0) (dst + o1) v1) (dst + o2) v2) (dst + o3) v3

def coreT (mem : M) (dst src off : Nat) (a b c d : V) : M :=
  xor4 A mem dst src (16 * (off + 0)) (16 * (off + 4)) (16 * (off + 8)) (16 * (off + 12)) (rowHH A a b c d) (rowLH A a b c d) (rowHL A a b c d) (rowLL A a b c d)

def coreG (mem : M) (dst off : Nat) (a b c d : V) : M :=
  stor4 A mem dst (16 * (off + 0)) (16 * (off + 4)) (16 * (off + 8)) (16 * (off + 12)) (rowHH A a b c d) (rowLH A a b c d) (rowHL A a b c d) (rowLL A a b c d)

def shape (s : St V M) : Nat × Nat × List V × M × Nat × Nat := (s.x.length, s.temp.length, s.base, s.mem, s.dst, s.src)

def add (a b : V) : V := A.bin .paddd a b

theorem transformBody_run (k : Consts V) (x0 x1 x2 x3 x4 x5 x6 x7 x8 x9 x10 x11 x12 x13 x14 x15 t0 t1 t2 t3 t4 t5
    b0 b1 b2 b3 b4 b5 b6 b7 b8 b9 b10 b11 b12 b13 b14 b15 : V) (mem : M) (dst src : Nat) :
    (exec A ⟨[x0, x1, x2, x3, x4, x5, x6, x7, x8, x9, x10, x11, x12, x13, x14, x15], [t0, t1, t2, t3, t4, t5],
      [b0, b1, b2, b3, b4, b5, b6, b7, b8, b9, b10, b11, b12, b13, b14, b15], mem, dst, src⟩ (transformBody k)).map shape
    = some (16, 6, [b0, b1, b2, b3, b4, b5, b6, b7, b8, b9, b10, b11, add A b12 k.addAdvance, b13, b14, b15],
        coreT A (coreT A (coreT A (coreT A mem
          dst src 0 (add A x0 b0) (add A x1 b1) (add A x2 b2) (add A x3 b3))
          dst src 1 (add A x4 b4) (add A x5 b5) (add A x6 b6) (add A x7 b7))
          dst src 2 (add A x8 b8) (add A x9 b9) (add A x10 b10) (add A x11 b11))
          dst src 3 (add A t1 b12) (add A x13 b13) (add A x14 b14) (add A t0 b15),
        dst + 256, src + 256) := by kernel_rfl

theorem generateBody_run (k : Consts V) (x0 x1 x2 x3 x4 x5 x6 x7 x8 x9 x10 x11 x12 x13 x14 x15 t0 t1 t2 t3 t4 t5
    b0 b1 b2 b3 b4 b5 b6 b7 b8 b9 b10 b11 b12 b13 b14 b15 : V) (mem : M) (dst src : Nat) :
    (exec A ⟨[x0, x1, x2, x3, x4, x5, x6, x7, x8, x9, x10, x11, x12, x13, x14, x15], [t0, t1, t2, t3, t4, t5],
      [b0, b1, b2, b3, b4, b5, b6, b7, b8, b9, b10, b11, b12, b13, b14, b15], mem, dst, src⟩ (generateBody k)).map shape
    = some (16, 6, [b0, b1, b2, b3, b4, b5, b6, b7, b8, b9, b10, b11, add A b12 k.addAdvance, b13, b14, b15],
        coreG A (coreG A (coreG A (coreG A mem
          dst 0 (add A x0 b0) (add A x1 b1) (add A x2 b2) (add A x3 b3))
          dst 1 (add A x4 b4) (add A x5 b5) (add A x6 b6) (add A x7 b7))
          dst 2 (add A x8 b8) (add A x9 b9) (add A x10 b10) (add A x11 b11))
          dst 3 (add A t1 b12) (add A x13 b13) (add A x14 b14) (add A t0 b15),
        dst + 256, src) := by kernel_rfl

/-- Halves of two registers. -/
def top (a b : V) : V := A.binImm .vperm2i128 a b 0b00110001
def low (a b : V) : V := A.binImm .vperm2i128 a b 0b00100000

/-- `chacha_avx_2_merge_v_1` with words `a…h`. -/
def coreAT (mem : M) (dst src off : Nat) (a b c d e f g h : V) : M :=
  let m := xor4 A mem dst src (32 * (off + 0)) (32 * (off + 8)) (32 * (off + 4)) (32 * (off + 12))
    (top A (rowHH A a b c d) (rowHH A e f g h)) (low A (rowHH A a b c d) (rowHH A e f g h))
    (top A (rowHL A a b c d) (rowHL A e f g h)) (low A (rowHL A a b c d) (rowHL A e f g h))
  xor4 A m dst src (32 * (off + 2)) (32 * (off + 10)) (32 * (off + 6)) (32 * (off + 14))
    (top A (rowLH A a b c d) (rowLH A e f g h)) (low A (rowLH A a b c d) (rowLH A e f g h))
    (top A (rowLL A a b c d) (rowLL A e f g h)) (low A (rowLL A a b c d) (rowLL A e f g h))

def coreAG (mem : M) (dst off : Nat) (a b c d e f g h : V) : M :=
  let m := stor4 A mem dst (32 * (off + 0)) (32 * (off + 8)) (32 * (off + 4)) (32 * (off + 12))
    (top A (rowHH A a b c d) (rowHH A e f g h)) (low A (rowHH A a b c d) (rowHH A e f g h))
    (top A (rowHL A a b c d) (rowHL A e f g h)) (low A (rowHL A a b c d) (rowHL A e f g h))
  stor4 A m dst (32 * (off + 2)) (32 * (off + 10)) (32 * (off + 6)) (32 * (off + 14))
    (top A (rowLH A a b c d) (rowLH A e f g h)) (low A (rowLH A a b c d) (rowLH A e f g h))
    (top A (rowLL A a b c d) (rowLL A e f g h)) (low A (rowLL A a b c d) (rowLL A e f g h))

theorem transformAvx_run (k : Consts V) (x0 x1 x2 x3 x4 x5 x6 x7 x8 x9 x10 x11 x12 x13 x14 x15 t0 t1 t2 t3 t4 t5
    b0 b1 b2 b3 b4 b5 b6 b7 b8 b9 b10 b11 b12 b13 b14 b15 : V) (mem : M) (dst src : Nat) :
    (exec A ⟨[x0, x1, x2, x3, x4, x5, x6, x7, x8, x9, x10, x11, x12, x13, x14, x15], [t0, t1, t2, t3, t4, t5],
      [b0, b1, b2, b3, b4, b5, b6, b7, b8, b9, b10, b11, b12, b13, b14, b15], mem, dst, src⟩ (transformBodyAvx k)).map shape
    = some (16, 6, [b0, b1, b2, b3, b4, b5, b6, b7, b8, b9, b10, b11, add A b12 k.addAdvance, b13, b14, b15],
        coreAT A (coreAT A mem
          dst src 0 (add A x0 b0) (add A x1 b1) (add A x2 b2) (add A x3 b3) (add A x4 b4) (add A x5 b5) (add A x6 b6) (add A x7 b7))
          dst src 1 (add A x8 b8) (add A x9 b9) (add A x10 b10) (add A x11 b11) (add A t1 b12) (add A x13 b13) (add A x14 b14) (add A t0 b15),
        dst + 512, src + 512) := by kernel_rfl

theorem generateAvx_run (k : Consts V) (x0 x1 x2 x3 x4 x5 x6 x7 x8 x9 x10 x11 x12 x13 x14 x15 t0 t1 t2 t3 t4 t5
    b0 b1 b2 b3 b4 b5 b6 b7 b8 b9 b10 b11 b12 b13 b14 b15 : V) (mem : M) (dst src : Nat) :
    (exec A ⟨[x0, x1, x2, x3, x4, x5, x6, x7, x8, x9, x10, x11, x12, x13, x14, x15], [t0, t1, t2, t3, t4, t5],
      [b0, b1, b2, b3, b4, b5, b6, b7, b8, b9, b10, b11, b12, b13, b14, b15], mem, dst, src⟩ (generateBodyAvx k)).map shape
    = some (16, 6, [b0, b1, b2, b3, b4, b5, b6, b7, b8, b9, b10, b11, add A b12 k.addAdvance, b13, b14, b15],
        coreAG A (coreAG A mem
          dst 0 (add A x0 b0) (add A x1 b1) (add A x2 b2) (add A x3 b3) (add A x4 b4) (add A x5 b5) (add A x6 b6) (add A x7 b7))
          dst 1 (add A x8 b8) (add A x9 b9) (add A x10 b10) (add A x11 b11) (add A t1 b12) (add A x13 b13) (add A x14 b14) (add A t0 b15),
        dst + 512, src) := by kernel_rfl

theorem blocksInit_run (k : Consts V) (q : Nat → V) (x0 x1 x2 x3 x4 x5 x6 x7 x8 x9 x10 x11 x12 x13 x14 x15 t0 t1 t2 t3 t4 t5
    b0 b1 b2 b3 b4 b5 b6 b7 b8 b9 b10 b11 b12 b13 b14 b15 : V) (mem : M) (dst src : Nat) :
    exec A ⟨[x0, x1, x2, x3, x4, x5, x6, x7, x8, x9, x10, x11, x12, x13, x14, x15], [t0, t1, t2, t3, t4, t5],
      [b0, b1, b2, b3, b4, b5, b6, b7, b8, b9, b10, b11, b12, b13, b14, b15], mem, dst, src⟩ (blocksInit k q)
    = (let p := fun i n => A.unImm .pshufd (q i) n
       let s := [p 0 0x00, p 0 0x55, p 0 0xaa, p 0 0xff, p 1 0x00, p 1 0x55, p 1 0xaa, p 1 0xff, p 2 0x00, p 2 0x55, p 2 0xaa, p 2 0xff,
        add A (p 3 0x00) k.addInit, p 3 0x55, p 3 0xaa, p 3 0xff]
       some ⟨s, [t0, t1, t2, t3, t4, t5], s, mem, dst, src⟩) := by kernel_rfl

theorem reload_run (x0 x1 x2 x3 x4 x5 x6 x7 x8 x9 x10 x11 x12 x13 x14 x15
    b0 b1 b2 b3 b4 b5 b6 b7 b8 b9 b10 b11 b12 b13 b14 b15 : V) (t : List V) (mem : M) (dst src : Nat) :
    exec A ⟨[x0, x1, x2, x3, x4, x5, x6, x7, x8, x9, x10, x11, x12, x13, x14, x15], t,
      [b0, b1, b2, b3, b4, b5, b6, b7, b8, b9, b10, b11, b12, b13, b14, b15], mem, dst, src⟩ reload
    = some ⟨[b0, b1, b2, b3, b4, b5, b6, b7, b8, b9, b10, b11, b12, b13, b14, b15], t,
      [b0, b1, b2, b3, b4, b5, b6, b7, b8, b9, b10, b11, b12, b13, b14, b15], mem, dst, src⟩ := by kernel_rfl

end
end Milo.ChaCha.Asm
