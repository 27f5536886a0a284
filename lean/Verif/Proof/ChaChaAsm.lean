import Verif.Model.ChaChaAsm
import Verif.Proof.ChaChaProd
import Verif.Proof.X86
import Mathlib.Tactic.IntervalCases
/- The assembly backends of ChaCha: running the programs. -/
namespace Milo.ChaCha.Asm
open Memory X86

/-! ### Rotations -/

theorem word_rol16 (x : W32) : word ((x >>> 16).setWidth 8) ((x >>> 24).setWidth 8) ((x >>> 0).setWidth 8) ((x >>> 8).setWidth 8) = x.rotateLeft 16 := by
  unfold word
  apply BitVec.eq_of_getLsbD_eq
  intro i hi
  simp only [BitVec.getLsbD_append, BitVec.getLsbD_setWidth, BitVec.getLsbD_ushiftRight, BitVec.getLsbD_rotateLeft]
  interval_cases i <;> simp

theorem word_rol8 (x : W32) : word ((x >>> 24).setWidth 8) ((x >>> 0).setWidth 8) ((x >>> 8).setWidth 8) ((x >>> 16).setWidth 8) = x.rotateLeft 8 := by
  unfold word
  apply BitVec.eq_of_getLsbD_eq
  intro i hi
  simp only [BitVec.getLsbD_append, BitVec.getLsbD_setWidth, BitVec.getLsbD_ushiftRight, BitVec.getLsbD_rotateLeft]
  interval_cases i <;> simp

theorem ssse3_rol16 (v : Vec) (j : Nat) (hj : j < 4) : bin .pshufb v ssse3Consts.rol16 j = (v j).rotateLeft 16 := by
  rw [← word_rol16]
  interval_cases j <;> rfl
theorem avx_rol16 (v : Vec) (j : Nat) (hj : j < 8) : bin .pshufb v avx2Consts.rol16 j = (v j).rotateLeft 16 := by
  rw [← word_rol16]
  interval_cases j <;> rfl
theorem avx_rol8 (v : Vec) (j : Nat) (hj : j < 8) : bin .pshufb v avx2Consts.rol8 j = (v j).rotateLeft 8 := by
  rw [← word_rol8]
  interval_cases j <;> rfl
theorem ssse3_rol8 (v : Vec) (j : Nat) (hj : j < 4) : bin .pshufb v ssse3Consts.rol8 j = (v j).rotateLeft 8 := by
  rw [← word_rol8]
  interval_cases j <;> rfl
theorem shift_rol (x : W32) (n : Nat) (h : n < 32) : (x <<< n) ^^^ (x >>> (32 - n)) = x.rotateLeft n := by
  apply BitVec.eq_of_getLsbD_eq
  intro i hi
  simp only [BitVec.getLsbD_xor, BitVec.getLsbD_shiftLeft, BitVec.getLsbD_ushiftRight, BitVec.getLsbD_rotateLeft, Nat.mod_eq_of_lt h]
  by_cases h1 : i < n
  · simp [h1, hi]
  · simp [h1, hi]
    rw [BitVec.getLsbD_of_ge x (32 - n + i) (by omega), Bool.xor_false]

/-- What the constants of a backend with `lanes` lanes are. -/
structure Good (lanes : Nat) (k : Consts Vec) : Prop where
  init : ∀ j, j < lanes → k.addInit j = BitVec.ofNat 32 (lanes - 1 - j)
  advance : ∀ j, j < lanes → k.addAdvance j = BitVec.ofNat 32 lanes
  rol16 : ∀ v j, j < lanes → bin .pshufb v k.rol16 j = (v j).rotateLeft 16
  rol8 : ∀ v j, j < lanes → bin .pshufb v k.rol8 j = (v j).rotateLeft 8

theorem ssse3_good : Good 4 ssse3Consts where
  init := fun j hj => by interval_cases j <;> rfl
  advance := fun j hj => by interval_cases j <;> rfl
  rol16 := ssse3_rol16
  rol8 := ssse3_rol8

theorem avx2_good : Good 8 avx2Consts where
  init := fun j hj => by interval_cases j <;> rfl
  advance := fun j hj => by interval_cases j <;> rfl
  rol16 := avx_rol16
  rol8 := avx_rol8

/-! ### The rounds -/

section
variable {V M : Type} (A : Alg V M)

/-- Half a quarter round on registers. -/
def hA (a b : V) : V := A.bin .paddd a b
def hD (shuf a b d : V) : V := A.bin .pshufb (A.bin .pxor d (hA A a b)) shuf
def hC (shuf a b c d : V) : V := A.bin .paddd c (hD A shuf a b d)
def hB (shuf : V) (n : Nat) (a b c d : V) : V :=
  A.bin .pxor (A.unImm .pslld (A.bin .pxor b (hC A shuf a b c d)) n) (A.unImm .psrld (A.bin .pxor b (hC A shuf a b c d)) (32 - n))

theorem rounds_col (shuf : V) (n : Nat) (a0 a1 a2 a3 b0 b1 b2 b3 c0 c1 c2 c3 d0 d1 d2 d3 t0 t1 t2 t3 t4 t5 : V) (base : List V) (mem : M) (dst src : Nat) :
    exec A ⟨[a0, a1, a2, a3, b0, b1, b2, b3, c0, c1, c2, c3, d0, d1, d2, d3], [t0, t1, t2, t3, t4, t5], base, mem, dst, src⟩
      (rounds 0 1 2 3 4 5 6 7 8 9 10 11 12 13 14 15 shuf n)
    = some ⟨[hA A a0 b0, hA A a1 b1, hA A a2 b2, hA A a3 b3, hB A shuf n a0 b0 c0 d0, hB A shuf n a1 b1 c1 d1, hB A shuf n a2 b2 c2 d2, hB A shuf n a3 b3 c3 d3,
        hC A shuf a0 b0 c0 d0, hC A shuf a1 b1 c1 d1, hC A shuf a2 b2 c2 d2, hC A shuf a3 b3 c3 d3,
        hD A shuf a0 b0 d0, hD A shuf a1 b1 d1, hD A shuf a2 b2 d2, hD A shuf a3 b3 d3],
      [hD A shuf a0 b0 d0, hD A shuf a1 b1 d1, t2, t3, t4, t5], base, mem, dst, src⟩ := by kernel_rfl

theorem rounds_diag (shuf : V) (n : Nat) (a0 a1 a2 a3 b0 b1 b2 b3 c0 c1 c2 c3 d0 d1 d2 d3 t0 t1 t2 t3 t4 t5 : V) (base : List V) (mem : M) (dst src : Nat) :
    exec A ⟨[a0, a1, a2, a3, b0, b1, b2, b3, c0, c1, c2, c3, d0, d1, d2, d3], [t0, t1, t2, t3, t4, t5], base, mem, dst, src⟩
      (rounds 0 1 2 3 5 6 7 4 10 11 8 9 15 12 13 14 shuf n)
    = some ⟨[hA A a0 b1, hA A a1 b2, hA A a2 b3, hA A a3 b0, hB A shuf n a3 b0 c1 d2, hB A shuf n a0 b1 c2 d3, hB A shuf n a1 b2 c3 d0, hB A shuf n a2 b3 c0 d1,
        hC A shuf a2 b3 c0 d1, hC A shuf a3 b0 c1 d2, hC A shuf a0 b1 c2 d3, hC A shuf a1 b2 c3 d0,
        hD A shuf a1 b2 d0, hD A shuf a2 b3 d1, hD A shuf a3 b0 d2, hD A shuf a0 b1 d3],
      [hD A shuf a0 b1 d3, hD A shuf a1 b2 d0, t2, t3, t4, t5], base, mem, dst, src⟩ := by kernel_rfl

end

/-- Half a quarter round on words. -/
def wA (a b : W32) : W32 := a + b
def wD (r : Nat) (a b d : W32) : W32 := (d ^^^ wA a b).rotateLeft r
def wC (r : Nat) (a b c d : W32) : W32 := c + wD r a b d
def wB (r n : Nat) (a b c d : W32) : W32 := (b ^^^ wC r a b c d).rotateLeft n

def halfCol (r n : Nat) : List W32 → List W32
  | [a0, a1, a2, a3, b0, b1, b2, b3, c0, c1, c2, c3, d0, d1, d2, d3] =>
    [wA a0 b0, wA a1 b1, wA a2 b2, wA a3 b3, wB r n a0 b0 c0 d0, wB r n a1 b1 c1 d1, wB r n a2 b2 c2 d2, wB r n a3 b3 c3 d3,
      wC r a0 b0 c0 d0, wC r a1 b1 c1 d1, wC r a2 b2 c2 d2, wC r a3 b3 c3 d3, wD r a0 b0 d0, wD r a1 b1 d1, wD r a2 b2 d2, wD r a3 b3 d3]
  | _ => []

def halfDiag (r n : Nat) : List W32 → List W32
  | [a0, a1, a2, a3, b0, b1, b2, b3, c0, c1, c2, c3, d0, d1, d2, d3] =>
    [wA a0 b1, wA a1 b2, wA a2 b3, wA a3 b0, wB r n a3 b0 c1 d2, wB r n a0 b1 c2 d3, wB r n a1 b2 c3 d0, wB r n a2 b3 c0 d1,
      wC r a2 b3 c0 d1, wC r a3 b0 c1 d2, wC r a0 b1 c2 d3, wC r a1 b2 c3 d0, wD r a1 b2 d0, wD r a2 b3 d1, wD r a3 b0 d2, wD r a0 b1 d3]
  | _ => []

/-- `Spec.ChaCha.qr` with any function for the quarter round. -/
def qrG (f : W32 → W32 → W32 → W32 → W32 × W32 × W32 × W32) (s : List W32) (x y z w : Nat) : List W32 :=
  let q := f (s.getD x 0) (s.getD y 0) (s.getD z 0) (s.getD w 0)
  (((s.set x q.1).set y q.2.1).set z q.2.2.1).set w q.2.2.2

theorem qr_eq (s : List W32) (x y z w : Nat) : Spec.ChaCha.qr s x y z w = qrG Spec.ChaCha.quarter s x y z w := rfl

theorem qrG_col (f : W32 → W32 → W32 → W32 → W32 × W32 × W32 × W32) (a0 a1 a2 a3 b0 b1 b2 b3 c0 c1 c2 c3 d0 d1 d2 d3 : W32) :
    qrG f (qrG f (qrG f (qrG f [a0, a1, a2, a3, b0, b1, b2, b3, c0, c1, c2, c3, d0, d1, d2, d3] 0 4 8 12) 1 5 9 13) 2 6 10 14) 3 7 11 15
    = [(f a0 b0 c0 d0).1, (f a1 b1 c1 d1).1, (f a2 b2 c2 d2).1, (f a3 b3 c3 d3).1,
      (f a0 b0 c0 d0).2.1, (f a1 b1 c1 d1).2.1, (f a2 b2 c2 d2).2.1, (f a3 b3 c3 d3).2.1,
      (f a0 b0 c0 d0).2.2.1, (f a1 b1 c1 d1).2.2.1, (f a2 b2 c2 d2).2.2.1, (f a3 b3 c3 d3).2.2.1,
      (f a0 b0 c0 d0).2.2.2, (f a1 b1 c1 d1).2.2.2, (f a2 b2 c2 d2).2.2.2, (f a3 b3 c3 d3).2.2.2] := by kernel_rfl

theorem qrG_diag (f : W32 → W32 → W32 → W32 → W32 × W32 × W32 × W32) (a0 a1 a2 a3 b0 b1 b2 b3 c0 c1 c2 c3 d0 d1 d2 d3 : W32) :
    qrG f (qrG f (qrG f (qrG f [a0, a1, a2, a3, b0, b1, b2, b3, c0, c1, c2, c3, d0, d1, d2, d3] 0 5 10 15) 1 6 11 12) 2 7 8 13) 3 4 9 14
    = [(f a0 b1 c2 d3).1, (f a1 b2 c3 d0).1, (f a2 b3 c0 d1).1, (f a3 b0 c1 d2).1,
      (f a3 b0 c1 d2).2.1, (f a0 b1 c2 d3).2.1, (f a1 b2 c3 d0).2.1, (f a2 b3 c0 d1).2.1,
      (f a2 b3 c0 d1).2.2.1, (f a3 b0 c1 d2).2.2.1, (f a0 b1 c2 d3).2.2.1, (f a1 b2 c3 d0).2.2.1,
      (f a1 b2 c3 d0).2.2.2, (f a2 b3 c0 d1).2.2.2, (f a3 b0 c1 d2).2.2.2, (f a0 b1 c2 d3).2.2.2] := by kernel_rfl

theorem quarter_halves (a b c d : W32) : Spec.ChaCha.quarter a b c d =
    (wA (wA a b) (wB 16 12 a b c d), wB 8 7 (wA a b) (wB 16 12 a b c d) (wC 16 a b c d) (wD 16 a b d),
      wC 8 (wA a b) (wB 16 12 a b c d) (wC 16 a b c d) (wD 16 a b d), wD 8 (wA a b) (wB 16 12 a b c d) (wD 16 a b d)) := rfl

theorem col_halves (s : List W32) (h : s.length = 16) :
    qrG Spec.ChaCha.quarter (qrG Spec.ChaCha.quarter (qrG Spec.ChaCha.quarter (qrG Spec.ChaCha.quarter s 0 4 8 12) 1 5 9 13) 2 6 10 14) 3 7 11 15
    = halfCol 8 7 (halfCol 16 12 s) := by
  obtain ⟨a0, a1, a2, a3, a4, a5, a6, a7, a8, a9, a10, a11, a12, a13, a14, a15, rfl⟩ := list16 s h
  rw [qrG_col]
  simp only [quarter_halves, halfCol]

theorem diag_halves (s : List W32) (h : s.length = 16) :
    qrG Spec.ChaCha.quarter (qrG Spec.ChaCha.quarter (qrG Spec.ChaCha.quarter (qrG Spec.ChaCha.quarter s 0 5 10 15) 1 6 11 12) 2 7 8 13) 3 4 9 14
    = halfDiag 8 7 (halfDiag 16 12 s) := by
  obtain ⟨a0, a1, a2, a3, a4, a5, a6, a7, a8, a9, a10, a11, a12, a13, a14, a15, rfl⟩ := list16 s h
  rw [qrG_diag]
  simp only [quarter_halves, halfDiag]

theorem halfCol_length (r n : Nat) (s : List W32) (h : s.length = 16) : (halfCol r n s).length = 16 := by
  obtain ⟨a0, a1, a2, a3, a4, a5, a6, a7, a8, a9, a10, a11, a12, a13, a14, a15, rfl⟩ := list16 s h
  rfl

theorem inner_halves (s : List W32) (h : s.length = 16) : Spec.ChaCha.inner s = halfDiag 8 7 (halfDiag 16 12 (halfCol 8 7 (halfCol 16 12 s))) := by
  rw [← col_halves s h, ← diag_halves _ (by rw [col_halves s h, halfCol_length _ _ _ (halfCol_length _ _ _ h)])]
  simp only [Spec.ChaCha.inner, qr_eq]

/-- Lane `j` of every register. -/
def lane (xs : List Vec) (j : Nat) : List W32 := xs.map (· j)

section
variable {lanes : Nat}

theorem lane_hA (a b : Vec) (j : Nat) : hA (simd lanes) a b j = wA (a j) (b j) := rfl

theorem lane_hD {shuf : Vec} {r : Nat} (hs : ∀ v j, j < lanes → bin .pshufb v shuf j = (v j).rotateLeft r) (a b d : Vec) (j : Nat) (hj : j < lanes) :
    hD (simd lanes) shuf a b d j = wD r (a j) (b j) (d j) := hs _ j hj

theorem lane_hC {shuf : Vec} {r : Nat} (hs : ∀ v j, j < lanes → bin .pshufb v shuf j = (v j).rotateLeft r) (a b c d : Vec) (j : Nat) (hj : j < lanes) :
    hC (simd lanes) shuf a b c d j = wC r (a j) (b j) (c j) (d j) := by
  show c j + hD (simd lanes) shuf a b d j = _
  rw [lane_hD hs a b d j hj]; rfl

theorem lane_hB {shuf : Vec} {r : Nat} (hs : ∀ v j, j < lanes → bin .pshufb v shuf j = (v j).rotateLeft r) (n : Nat) (hn : n < 32) (a b c d : Vec) (j : Nat)
    (hj : j < lanes) : hB (simd lanes) shuf n a b c d j = wB r n (a j) (b j) (c j) (d j) := by
  show ((b j ^^^ hC (simd lanes) shuf a b c d j) <<< n) ^^^ ((b j ^^^ hC (simd lanes) shuf a b c d j) >>> (32 - n)) = _
  rw [shift_rol _ _ hn, lane_hC hs a b c d j hj]; rfl

theorem col_eq {shuf : Vec} {r : Nat} (hs : ∀ v j, j < lanes → bin .pshufb v shuf j = (v j).rotateLeft r) (n : Nat) (hn : n < 32)
    (x t base : List Vec) (mem : Option (List Byte)) (dst src : Nat) (hx : x.length = 16) (ht : t.length = 6) :
    ∃ x' t', exec (simd lanes) ⟨x, t, base, mem, dst, src⟩ (rounds 0 1 2 3 4 5 6 7 8 9 10 11 12 13 14 15 shuf n) = some ⟨x', t', base, mem, dst, src⟩ ∧
      x'.length = 16 ∧ t'.length = 6 ∧ ∀ j, j < lanes → lane x' j = halfCol r n (lane x j) := by
  obtain ⟨a0, a1, a2, a3, b0, b1, b2, b3, c0, c1, c2, c3, d0, d1, d2, d3, rfl⟩ := list16 x hx
  match t, ht with
  | [t0, t1, t2, t3, t4, t5], _ =>
    refine ⟨_, _, rounds_col (simd lanes) shuf n a0 a1 a2 a3 b0 b1 b2 b3 c0 c1 c2 c3 d0 d1 d2 d3 t0 t1 t2 t3 t4 t5 base mem dst src, rfl, rfl, fun j hj => ?_⟩
    simp only [lane, List.map_cons, List.map_nil, lane_hA, lane_hD hs _ _ _ _ hj, lane_hC hs _ _ _ _ _ hj, lane_hB hs n hn _ _ _ _ _ hj, halfCol]

theorem diag_eq {shuf : Vec} {r : Nat} (hs : ∀ v j, j < lanes → bin .pshufb v shuf j = (v j).rotateLeft r) (n : Nat) (hn : n < 32)
    (x t base : List Vec) (mem : Option (List Byte)) (dst src : Nat) (hx : x.length = 16) (ht : t.length = 6) :
    ∃ x' t', exec (simd lanes) ⟨x, t, base, mem, dst, src⟩ (rounds 0 1 2 3 5 6 7 4 10 11 8 9 15 12 13 14 shuf n) = some ⟨x', t', base, mem, dst, src⟩ ∧
      x'.length = 16 ∧ t'.length = 6 ∧ (∀ j, j < lanes → lane x' j = halfDiag r n (lane x j)) ∧ t'[0]? = x'[15]? ∧ t'[1]? = x'[12]? := by
  obtain ⟨a0, a1, a2, a3, b0, b1, b2, b3, c0, c1, c2, c3, d0, d1, d2, d3, rfl⟩ := list16 x hx
  match t, ht with
  | [t0, t1, t2, t3, t4, t5], _ =>
    refine ⟨_, _, rounds_diag (simd lanes) shuf n a0 a1 a2 a3 b0 b1 b2 b3 c0 c1 c2 c3 d0 d1 d2 d3 t0 t1 t2 t3 t4 t5 base mem dst src, rfl, rfl, fun j hj => ?_,
      by simp only [List.getElem?_cons_zero, List.getElem?_cons_succ], by simp only [List.getElem?_cons_zero, List.getElem?_cons_succ]⟩
    simp only [lane, List.map_cons, List.map_nil, lane_hA, lane_hD hs _ _ _ _ hj, lane_hC hs _ _ _ _ _ hj, lane_hB hs n hn _ _ _ _ _ hj, halfDiag]

theorem doubleRound_lanes {k : Consts Vec} (g : Good lanes k) (x t base : List Vec) (mem : Option (List Byte)) (dst src : Nat) (hx : x.length = 16)
    (ht : t.length = 6) :
    ∃ x' t', exec (simd lanes) ⟨x, t, base, mem, dst, src⟩ (doubleRound k) = some ⟨x', t', base, mem, dst, src⟩ ∧
      x'.length = 16 ∧ t'.length = 6 ∧ (∀ j, j < lanes → lane x' j = Spec.ChaCha.inner (lane x j)) ∧ t'[0]? = x'[15]? ∧ t'[1]? = x'[12]? := by
  obtain ⟨x1, t1, e1, hx1, ht1, l1⟩ := col_eq g.rol16 12 (by omega) x t base mem dst src hx ht
  obtain ⟨x2, t2, e2, hx2, ht2, l2⟩ := col_eq g.rol8 7 (by omega) x1 t1 base mem dst src hx1 ht1
  obtain ⟨x3, t3, e3, hx3, ht3, l3, -, -⟩ := diag_eq g.rol16 12 (by omega) x2 t2 base mem dst src hx2 ht2
  obtain ⟨x4, t4, e4, hx4, ht4, l4, q1, q2⟩ := diag_eq g.rol8 7 (by omega) x3 t3 base mem dst src hx3 ht3
  refine ⟨x4, t4, ?_, hx4, ht4, fun j hj => ?_, q1, q2⟩
  · unfold doubleRound
    exact exec_trans (exec_trans (exec_trans e1 e2) e3) e4
  · rw [l4 j hj, l3 j hj, l2 j hj, l1 j hj, inner_halves _ (by simp [lane, hx])]

/-- The words after `n` double rounds. -/
def inners (n : Nat) (s : List W32) : List W32 := (List.range n).foldl (fun s _ => Spec.ChaCha.inner s) s

theorem inners_zero (s : List W32) : inners 0 s = s := rfl

theorem inners_succ (n : Nat) (s : List W32) : inners (n + 1) s = Spec.ChaCha.inner (inners n s) := by
  unfold inners; rw [List.range_succ, List.foldl_append, List.foldl_cons, List.foldl_nil]

theorem inners_succ' (n : Nat) (s : List W32) : inners (n + 1) s = inners n (Spec.ChaCha.inner s) := by
  induction n with
  | zero => rw [inners_succ, inners_zero, inners_zero]
  | succ n ih => rw [inners_succ, ih, inners_succ]

theorem roundsLoop_lanes {k : Consts Vec} (g : Good lanes k) (n : Nat) (x t base : List Vec) (mem : Option (List Byte)) (dst src : Nat) (hx : x.length = 16)
    (ht : t.length = 6) (hn : 0 < n) :
    ∃ x' t', roundsLoop (simd lanes) k n ⟨x, t, base, mem, dst, src⟩ = some ⟨x', t', base, mem, dst, src⟩ ∧
      x'.length = 16 ∧ t'.length = 6 ∧ (∀ j, j < lanes → lane x' j = inners n (lane x j)) ∧ t'[0]? = x'[15]? ∧ t'[1]? = x'[12]? := by
  induction n generalizing x t with
  | zero => omega
  | succ n ih =>
    obtain ⟨x1, t1, e1, hx1, ht1, l1, q1, q2⟩ := doubleRound_lanes g x t base mem dst src hx ht
    cases n with
    | zero => exact ⟨x1, t1, by rw [roundsLoop, e1]; rfl, hx1, ht1, fun j hj => by rw [l1 j hj, inners_succ, inners_zero], q1, q2⟩
    | succ n =>
      obtain ⟨x2, t2, e2, hx2, ht2, l2, q3, q4⟩ := ih x1 t1 hx1 ht1 (by omega)
      refine ⟨x2, t2, ?_, hx2, ht2, fun j hj => ?_, q3, q4⟩
      · rw [roundsLoop, e1]; exact e2
      · rw [l2 j hj, l1 j hj, inners_succ' (n + 1)]

end
end Milo.ChaCha.Asm
