import Verif.Model.Sha1Asm
import Verif.Proof.X86
/- The SHA-NI backend of SHA-1: running the block program on abstract values. -/
namespace Milo.Sha1.Asm
open Memory X86

section
variable {V M : Type} (A : Alg V M)

theorem rounds_a (c : Nat) (s0 s1 s2 m0 m1 m2 m3 : V) (r t b : List V) (mem : M) (dst src : Nat) :
    exec A ⟨s0 :: s1 :: s2 :: m0 :: m1 :: m2 :: m3 :: r, t, b, mem, dst, src⟩ (rounds 0 1 2 3 0 1 2 c)
    = some ⟨A.binImm .sha1rnds4 s0 (A.bin .sha1nexte s2 m3) c :: s0 :: A.bin .sha1nexte s2 m3 ::
        A.bin .sha1msg2 m0 m3 :: A.bin .pxor m1 m3 :: A.bin .sha1msg1 m2 m3 :: m3 :: r, t, b, mem, dst, src⟩ := by kernel_rfl

theorem rounds_b (c : Nat) (s0 s1 s2 m0 m1 m2 m3 : V) (r t b : List V) (mem : M) (dst src : Nat) :
    exec A ⟨s0 :: s1 :: s2 :: m0 :: m1 :: m2 :: m3 :: r, t, b, mem, dst, src⟩ (rounds 1 2 3 0 0 2 1 c)
    = some ⟨A.binImm .sha1rnds4 s0 (A.bin .sha1nexte s1 m0) c :: A.bin .sha1nexte s1 m0 :: s0 ::
        m0 :: A.bin .sha1msg2 m1 m0 :: A.bin .pxor m2 m0 :: A.bin .sha1msg1 m3 m0 :: r, t, b, mem, dst, src⟩ := by kernel_rfl

theorem rounds_c (c : Nat) (s0 s1 s2 m0 m1 m2 m3 : V) (r t b : List V) (mem : M) (dst src : Nat) :
    exec A ⟨s0 :: s1 :: s2 :: m0 :: m1 :: m2 :: m3 :: r, t, b, mem, dst, src⟩ (rounds 2 3 0 1 0 1 2 c)
    = some ⟨A.binImm .sha1rnds4 s0 (A.bin .sha1nexte s2 m1) c :: s0 :: A.bin .sha1nexte s2 m1 ::
        A.bin .sha1msg1 m0 m1 :: m1 :: A.bin .sha1msg2 m2 m1 :: A.bin .pxor m3 m1 :: r, t, b, mem, dst, src⟩ := by kernel_rfl

theorem rounds_d (c : Nat) (s0 s1 s2 m0 m1 m2 m3 : V) (r t b : List V) (mem : M) (dst src : Nat) :
    exec A ⟨s0 :: s1 :: s2 :: m0 :: m1 :: m2 :: m3 :: r, t, b, mem, dst, src⟩ (rounds 3 0 1 2 0 2 1 c)
    = some ⟨A.binImm .sha1rnds4 s0 (A.bin .sha1nexte s1 m2) c :: A.bin .sha1nexte s1 m2 :: s0 ::
        A.bin .pxor m0 m2 :: A.bin .sha1msg1 m1 m2 :: m2 :: A.bin .sha1msg2 m3 m2 :: r, t, b, mem, dst, src⟩ := by kernel_rfl

/-- What a block needs of the instructions: `X t` holds the working variables before group `t` of four rounds, `W t` the four words of the group, `N t` these
words with the fifth variable added. -/
structure Groups (X W N : Nat → V) (s1 mask : V) (L : Nat → V) : Prop where
  words : ∀ i, i < 4 → A.bin .pshufb (L i) mask = W i
  first : A.bin .paddd s1 (W 0) = N 0
  next : ∀ t, A.bin .sha1nexte (X t) (W (t + 1)) = N (t + 1)
  round : ∀ t, t < 20 → A.binImm .sha1rnds4 (X t) (N t) (t / 5) = X (t + 1)
  sched : ∀ t, t + 4 < 20 → A.bin .sha1msg2 (A.bin .pxor (A.bin .sha1msg1 (W t) (W (t + 1))) (W (t + 2))) (W (t + 3)) = W (t + 4)

variable {A} {X W N : Nat → V} {s1 mask : V} {L : Nat → V}

abbrev Y (A : Alg V M) (W : Nat → V) (t : Nat) : V := A.bin .sha1msg1 (W t) (W (t + 1))
abbrev Z (A : Alg V M) (W : Nat → V) (t : Nat) : V := A.bin .pxor (Y A W t) (W (t + 2))

section
variable (h : Groups A X W N s1 mask L) (k : Nat) (hk : k + 4 < 20) (g : V) (r t b : List V) (mem : M) (dst src : Nat)
include h hk

theorem group_a :
    exec A ⟨X (k + 3) :: g :: X (k + 2) :: Z A W k :: Y A W (k + 1) :: W (k + 2) :: W (k + 3) :: r, t, b, mem, dst, src⟩ (rounds 0 1 2 3 0 1 2 ((k + 3) / 5))
    = some ⟨X (k + 4) :: X (k + 3) :: N (k + 3) :: W (k + 4) :: Z A W (k + 1) :: Y A W (k + 2) :: W (k + 3) :: r, t, b, mem, dst, src⟩ := by
  rw [rounds_a, h.next (k + 2), h.round (k + 3) (by omega), h.sched k hk]

theorem group_b :
    exec A ⟨X (k + 3) :: X (k + 2) :: g :: W (k + 3) :: Z A W k :: Y A W (k + 1) :: W (k + 2) :: r, t, b, mem, dst, src⟩ (rounds 1 2 3 0 0 2 1 ((k + 3) / 5))
    = some ⟨X (k + 4) :: N (k + 3) :: X (k + 3) :: W (k + 3) :: W (k + 4) :: Z A W (k + 1) :: Y A W (k + 2) :: r, t, b, mem, dst, src⟩ := by
  rw [rounds_b, h.next (k + 2), h.round (k + 3) (by omega), h.sched k hk]

theorem group_c :
    exec A ⟨X (k + 3) :: g :: X (k + 2) :: W (k + 2) :: W (k + 3) :: Z A W k :: Y A W (k + 1) :: r, t, b, mem, dst, src⟩ (rounds 2 3 0 1 0 1 2 ((k + 3) / 5))
    = some ⟨X (k + 4) :: X (k + 3) :: N (k + 3) :: Y A W (k + 2) :: W (k + 3) :: W (k + 4) :: Z A W (k + 1) :: r, t, b, mem, dst, src⟩ := by
  rw [rounds_c, h.next (k + 2), h.round (k + 3) (by omega), h.sched k hk]

theorem group_d :
    exec A ⟨X (k + 3) :: X (k + 2) :: g :: Y A W (k + 1) :: W (k + 2) :: W (k + 3) :: Z A W k :: r, t, b, mem, dst, src⟩ (rounds 3 0 1 2 0 2 1 ((k + 3) / 5))
    = some ⟨X (k + 4) :: N (k + 3) :: X (k + 3) :: Z A W (k + 1) :: Y A W (k + 2) :: W (k + 3) :: W (k + 4) :: r, t, b, mem, dst, src⟩ := by
  rw [rounds_d, h.next (k + 2), h.round (k + 3) (by omega), h.sched k hk]
end

section
variable (h : Groups A X W N s1 mask L) (r t b : List V) (mem : M) (dst src : Nat)
include h

theorem rounds12_run (g : V) :
    exec A ⟨X 3 :: g :: X 2 :: Z A W 0 :: Y A W 1 :: W 2 :: L 3 :: mask :: r, t, b, mem, dst, src⟩ rounds12
    = some ⟨X 17 :: N 16 :: X 16 :: W 16 :: W 17 :: Z A W 14 :: Y A W 15 :: mask :: r, t, b, mem, dst, src⟩ := by
  have e : exec A ⟨X 3 :: g :: X 2 :: Z A W 0 :: Y A W 1 :: W 2 :: L 3 :: mask :: r, t, b, mem, dst, src⟩ [pshufb (message 3) Asm.mask]
      = some ⟨X 3 :: g :: X 2 :: Z A W 0 :: Y A W 1 :: W 2 :: W 3 :: mask :: r, t, b, mem, dst, src⟩ := by
    rw [← h.words 3 (by omega)]; kernel_rfl
  unfold rounds12
  exact exec_trans e
    (exec_trans (group_a h 0 (by omega) _ _ _ _ _ _ _) (exec_trans (group_b h 1 (by omega) _ _ _ _ _ _ _)
    (exec_trans (group_c h 2 (by omega) _ _ _ _ _ _ _) (exec_trans (group_d h 3 (by omega) _ _ _ _ _ _ _)
    (exec_trans (group_a h 4 (by omega) _ _ _ _ _ _ _) (exec_trans (group_b h 5 (by omega) _ _ _ _ _ _ _)
    (exec_trans (group_c h 6 (by omega) _ _ _ _ _ _ _) (exec_trans (group_d h 7 (by omega) _ _ _ _ _ _ _)
    (exec_trans (group_a h 8 (by omega) _ _ _ _ _ _ _) (exec_trans (group_b h 9 (by omega) _ _ _ _ _ _ _)
    (exec_trans (group_c h 10 (by omega) _ _ _ _ _ _ _) (exec_trans (group_d h 11 (by omega) _ _ _ _ _ _ _)
    (exec_trans (group_a h 12 (by omega) _ _ _ _ _ _ _) (group_b h 13 (by omega) _ _ _ _ _ _ _))))))))))))))

theorem head_run (g2 g3 g4 g5 g6 g8 g9 : V) (hl : ∀ i, i < 4 → A.load mem (src + 16 * i) = (L i, mem)) :
    exec A ⟨X 0 :: s1 :: g2 :: g3 :: g4 :: g5 :: g6 :: mask :: g8 :: g9 :: r, t, b, mem, dst, src⟩ (read ++ (rounds00 ++ (rounds04 ++ rounds08)))
    = some ⟨X 3 :: N 2 :: X 2 :: Z A W 0 :: Y A W 1 :: W 2 :: L 3 :: mask :: X 0 :: s1 :: r, t, b, mem, dst, src + 64⟩ := by
  have e1 : exec A ⟨X 0 :: s1 :: g2 :: g3 :: g4 :: g5 :: g6 :: mask :: g8 :: g9 :: r, t, b, mem, dst, src⟩ read
      = (let l0 := A.load mem (src + 16 * 0)
         let l1 := A.load l0.2 (src + 16 * 1)
         let l2 := A.load l1.2 (src + 16 * 2)
         let l3 := A.load l2.2 (src + 16 * 3)
         some ⟨X 0 :: s1 :: g2 :: l0.1 :: l1.1 :: l2.1 :: l3.1 :: mask :: X 0 :: s1 :: r, t, b, l3.2, dst, src + 64⟩) := by kernel_rfl
  simp only [hl 0 (by omega), hl 1 (by omega), hl 2 (by omega), hl 3 (by omega)] at e1
  refine exec_trans e1 ?_
  generalize src + 64 = src
  refine exec_trans (s1 := ⟨X 1 :: N 0 :: X 0 :: W 0 :: L 1 :: L 2 :: L 3 :: mask :: X 0 :: s1 :: r, t, b, mem, dst, src⟩) ?_ ?_
  · rw [← h.round 0 (by omega), ← h.first, ← h.words 0 (by omega)]; kernel_rfl
  refine exec_trans (s1 := ⟨X 2 :: X 1 :: N 1 :: Y A W 0 :: W 1 :: L 2 :: L 3 :: mask :: X 0 :: s1 :: r, t, b, mem, dst, src⟩) ?_ ?_
  · rw [← h.round 1 (by omega), ← h.next 0, show W (0 + 1) = _ from (h.words 1 (by omega)).symm]
    rw [show Y A W 0 = A.bin .sha1msg1 (W 0) (W 1) from rfl, ← h.words 1 (by omega)]
    kernel_rfl
  · rw [← h.round 2 (by omega), show N 2 = _ from (h.next 1).symm, show Z A W 0 = A.bin .pxor (A.bin .sha1msg1 (W 0) (W 1)) (W 2) from rfl,
      show Y A W 0 = A.bin .sha1msg1 (W 0) (W 1) from rfl,
      show Y A W 1 = A.bin .sha1msg1 (W 1) (W 2) from rfl, show W (1 + 1) = W 2 from rfl, ← h.words 2 (by omega)]
    kernel_rfl

theorem tail_run :
    exec A ⟨X 17 :: N 16 :: X 16 :: W 16 :: W 17 :: Z A W 14 :: Y A W 15 :: mask :: X 0 :: s1 :: r, t, b, mem, dst, src⟩
      (rounds68 ++ (rounds72 ++ (rounds76 ++ merge)))
    = some ⟨A.bin .paddd (X 20) (X 0) :: A.bin .sha1nexte (X 19) s1 :: N 19 :: W 16 :: W 17 :: W 18 :: W 19 :: mask :: X 0 :: s1 :: r, t, b, mem, dst, src⟩ := by
  refine exec_trans (s1 := ⟨X 18 :: X 17 :: N 17 :: W 16 :: W 17 :: W 18 :: Z A W 15 :: mask :: X 0 :: s1 :: r, t, b, mem, dst, src⟩) ?_ ?_
  · rw [← h.round 17 (by omega), show N 17 = _ from (h.next 16).symm, show W 18 = _ from (h.sched 14 (by omega)).symm]; kernel_rfl
  refine exec_trans (s1 := ⟨X 19 :: N 18 :: X 18 :: W 16 :: W 17 :: W 18 :: W 19 :: mask :: X 0 :: s1 :: r, t, b, mem, dst, src⟩) ?_ ?_
  · rw [← h.round 18 (by omega), show N 18 = _ from (h.next 17).symm, show W 19 = _ from (h.sched 15 (by omega)).symm]; kernel_rfl
  refine exec_trans (s1 := ⟨X 20 :: X 19 :: N 19 :: W 16 :: W 17 :: W 18 :: W 19 :: mask :: X 0 :: s1 :: r, t, b, mem, dst, src⟩) ?_ ?_
  · rw [← h.round 19 (by omega), show N 19 = _ from (h.next 18).symm]; kernel_rfl
  · kernel_rfl

theorem block_run (g2 g3 g4 g5 g6 g8 g9 : V) (hl : ∀ i, i < 4 → A.load mem (src + 16 * i) = (L i, mem)) :
    exec A ⟨X 0 :: s1 :: g2 :: g3 :: g4 :: g5 :: g6 :: mask :: g8 :: g9 :: r, t, b, mem, dst, src⟩ block
    = some ⟨A.bin .paddd (X 20) (X 0) :: A.bin .sha1nexte (X 19) s1 :: N 19 :: W 16 :: W 17 :: W 18 :: W 19 :: mask :: X 0 :: s1 :: r,
        t, b, mem, dst, src + 64⟩ := by
  have e := exec_trans (head_run h r t b mem dst src g2 g3 g4 g5 g6 g8 g9 hl)
    (exec_trans (rounds12_run h (X 0 :: s1 :: r) t b mem dst (src + 64) (N 2)) (tail_run h r t b mem dst (src + 64)))
  rw [List.append_assoc, List.append_assoc, List.append_assoc] at e
  exact e
end
end
end Milo.Sha1.Asm
