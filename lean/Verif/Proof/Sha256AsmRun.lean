import Verif.Model.Sha256Asm
import Verif.Proof.X86
/- The SHA-NI backend of SHA-256: running the block program on abstract values. -/
namespace Milo.Sha256.Asm
open Memory X86

section
variable {V M : Type} (A : Alg V M)

abbrev hi (kw : V) : V := A.unImm .pshufd kw 0b00001110
abbrev al (a b : V) : V := A.binImm .palignr a b 4
abbrev two (e p kw : V) : V := A.rnds2 p e kw

/-- The registers of the working variables after a group of four rounds. -/
abbrev p' (e p kw : V) : V := A.rnds2 p e kw
abbrev e' (e p kw : V) : V := A.rnds2 e (p' A e p kw) (hi A kw)

theorem rounds_a (k i e p m0 m1 m2 m3 m4 : V) (r t b : List V) (mem : M) (dst src : Nat) :
    exec A ⟨i :: e :: p :: m0 :: m1 :: m2 :: m3 :: m4 :: r, t, b, mem, dst, src⟩ (rounds 0 1 2 3 k)
    = some ⟨hi A (A.bin .paddd m3 k) :: e' A e p (A.bin .paddd m3 k) :: p' A e p (A.bin .paddd m3 k) ::
        A.bin .sha256msg2 (A.bin .paddd m0 (al A m3 m2)) m3 :: m1 :: A.bin .sha256msg1 m2 m3 :: m3 :: al A m3 m2 :: r, t, b, mem, dst, src⟩ := by kernel_rfl

theorem rounds_b (k i e p m0 m1 m2 m3 m4 : V) (r t b : List V) (mem : M) (dst src : Nat) :
    exec A ⟨i :: e :: p :: m0 :: m1 :: m2 :: m3 :: m4 :: r, t, b, mem, dst, src⟩ (rounds 1 2 3 0 k)
    = some ⟨hi A (A.bin .paddd m0 k) :: e' A e p (A.bin .paddd m0 k) :: p' A e p (A.bin .paddd m0 k) ::
        m0 :: A.bin .sha256msg2 (A.bin .paddd m1 (al A m0 m3)) m0 :: m2 :: A.bin .sha256msg1 m3 m0 :: al A m0 m3 :: r, t, b, mem, dst, src⟩ := by kernel_rfl

theorem rounds_c (k i e p m0 m1 m2 m3 m4 : V) (r t b : List V) (mem : M) (dst src : Nat) :
    exec A ⟨i :: e :: p :: m0 :: m1 :: m2 :: m3 :: m4 :: r, t, b, mem, dst, src⟩ (rounds 2 3 0 1 k)
    = some ⟨hi A (A.bin .paddd m1 k) :: e' A e p (A.bin .paddd m1 k) :: p' A e p (A.bin .paddd m1 k) ::
        A.bin .sha256msg1 m0 m1 :: m1 :: A.bin .sha256msg2 (A.bin .paddd m2 (al A m1 m0)) m1 :: m3 :: al A m1 m0 :: r, t, b, mem, dst, src⟩ := by kernel_rfl

theorem rounds_d (k i e p m0 m1 m2 m3 m4 : V) (r t b : List V) (mem : M) (dst src : Nat) :
    exec A ⟨i :: e :: p :: m0 :: m1 :: m2 :: m3 :: m4 :: r, t, b, mem, dst, src⟩ (rounds 3 0 1 2 k)
    = some ⟨hi A (A.bin .paddd m2 k) :: e' A e p (A.bin .paddd m2 k) :: p' A e p (A.bin .paddd m2 k) ::
        m0 :: A.bin .sha256msg1 m1 m2 :: m2 :: A.bin .sha256msg2 (A.bin .paddd m3 (al A m2 m1)) m2 :: al A m2 m1 :: r, t, b, mem, dst, src⟩ := by kernel_rfl

/-- What a block needs of the instructions: `E t`, `P t` hold the working variables before group `t` of four rounds, `W t` the four words of the group. -/
structure Groups (E P W K : Nat → V) (mask : V) (L : Nat → V) : Prop where
  words : ∀ i, i < 4 → A.bin .pshufb (L i) mask = W i
  roundP : ∀ t, t < 16 → p' A (E t) (P t) (A.bin .paddd (W t) (K t)) = P (t + 1)
  roundE : ∀ t, t < 16 → e' A (E t) (P t) (A.bin .paddd (W t) (K t)) = E (t + 1)
  sched : ∀ t, t + 4 < 16 → A.bin .sha256msg2 (A.bin .paddd (A.bin .sha256msg1 (W t) (W (t + 1))) (al A (W (t + 3)) (W (t + 2)))) (W (t + 3)) = W (t + 4)

variable {A} {E P W K : Nat → V} {mask : V} {L : Nat → V}

abbrev Y (A : Alg V M) (W : Nat → V) (t : Nat) : V := A.bin .sha256msg1 (W t) (W (t + 1))
abbrev H (A : Alg V M) (W K : Nat → V) (t : Nat) : V := hi A (A.bin .paddd (W t) (K t))

section
variable (h : Groups A E P W K mask L) (k : Nat) (hk : k + 4 < 16) (i q : V) (r t b : List V) (mem : M) (dst src : Nat)
include h hk

theorem group_a :
    exec A ⟨i :: E (k + 3) :: P (k + 3) :: Y A W k :: Y A W (k + 1) :: W (k + 2) :: W (k + 3) :: q :: r, t, b, mem, dst, src⟩ (rounds 0 1 2 3 (K (k + 3)))
    = some ⟨H A W K (k + 3) :: E (k + 4) :: P (k + 4) :: W (k + 4) :: Y A W (k + 1) :: Y A W (k + 2) :: W (k + 3) :: al A (W (k + 3)) (W (k + 2)) :: r,
        t, b, mem, dst, src⟩ := by
  rw [rounds_a, h.roundE (k + 3) (by omega), h.roundP (k + 3) (by omega), h.sched k hk]

theorem group_b :
    exec A ⟨i :: E (k + 3) :: P (k + 3) :: W (k + 3) :: Y A W k :: Y A W (k + 1) :: W (k + 2) :: q :: r, t, b, mem, dst, src⟩ (rounds 1 2 3 0 (K (k + 3)))
    = some ⟨H A W K (k + 3) :: E (k + 4) :: P (k + 4) :: W (k + 3) :: W (k + 4) :: Y A W (k + 1) :: Y A W (k + 2) :: al A (W (k + 3)) (W (k + 2)) :: r,
        t, b, mem, dst, src⟩ := by
  rw [rounds_b, h.roundE (k + 3) (by omega), h.roundP (k + 3) (by omega), h.sched k hk]

theorem group_c :
    exec A ⟨i :: E (k + 3) :: P (k + 3) :: W (k + 2) :: W (k + 3) :: Y A W k :: Y A W (k + 1) :: q :: r, t, b, mem, dst, src⟩ (rounds 2 3 0 1 (K (k + 3)))
    = some ⟨H A W K (k + 3) :: E (k + 4) :: P (k + 4) :: Y A W (k + 2) :: W (k + 3) :: W (k + 4) :: Y A W (k + 1) :: al A (W (k + 3)) (W (k + 2)) :: r,
        t, b, mem, dst, src⟩ := by
  rw [rounds_c, h.roundE (k + 3) (by omega), h.roundP (k + 3) (by omega), h.sched k hk]

theorem group_d :
    exec A ⟨i :: E (k + 3) :: P (k + 3) :: Y A W (k + 1) :: W (k + 2) :: W (k + 3) :: Y A W k :: q :: r, t, b, mem, dst, src⟩ (rounds 3 0 1 2 (K (k + 3)))
    = some ⟨H A W K (k + 3) :: E (k + 4) :: P (k + 4) :: Y A W (k + 1) :: Y A W (k + 2) :: W (k + 3) :: W (k + 4) :: al A (W (k + 3)) (W (k + 2)) :: r,
        t, b, mem, dst, src⟩ := by
  rw [rounds_d, h.roundE (k + 3) (by omega), h.roundP (k + 3) (by omega), h.sched k hk]
end

section
variable (h : Groups A E P W K mask L) (r t b : List V) (mem : M) (dst src : Nat)
include h

theorem rounds12_run (i q : V) :
    exec A ⟨i :: E 3 :: P 3 :: Y A W 0 :: Y A W 1 :: W 2 :: W 3 :: q :: r, t, b, mem, dst, src⟩ (rounds12 K)
    = some ⟨H A W K 12 :: E 13 :: P 13 :: W 12 :: W 13 :: Y A W 10 :: Y A W 11 :: al A (W 12) (W 11) :: r, t, b, mem, dst, src⟩ := by
  unfold rounds12
  exact
    (exec_trans (group_a h 0 (by omega) _ _ _ _ _ _ _ _) (exec_trans (group_b h 1 (by omega) _ _ _ _ _ _ _ _)
    (exec_trans (group_c h 2 (by omega) _ _ _ _ _ _ _ _) (exec_trans (group_d h 3 (by omega) _ _ _ _ _ _ _ _)
    (exec_trans (group_a h 4 (by omega) _ _ _ _ _ _ _ _) (exec_trans (group_b h 5 (by omega) _ _ _ _ _ _ _ _)
    (exec_trans (group_c h 6 (by omega) _ _ _ _ _ _ _ _) (exec_trans (group_d h 7 (by omega) _ _ _ _ _ _ _ _)
    (exec_trans (group_a h 8 (by omega) _ _ _ _ _ _ _ _) (group_b h 9 (by omega) _ _ _ _ _ _ _ _))))))))))

theorem head_run (g0 g3 g4 g5 g6 g7 g9 g10 : V) (hl : ∀ i, i < 4 → A.load mem (src + 16 * i) = (L i, mem)) :
    exec A ⟨g0 :: E 0 :: P 0 :: g3 :: g4 :: g5 :: g6 :: g7 :: mask :: g9 :: g10 :: r, t, b, mem, dst, src⟩
      (read ++ (rounds00 K ++ (rounds04 K ++ rounds08 K)))
    = some ⟨H A W K 2 :: E 3 :: P 3 :: Y A W 0 :: Y A W 1 :: W 2 :: W 3 :: g7 :: mask :: E 0 :: P 0 :: r, t, b, mem, dst, src + 64⟩ := by
  have e1 : exec A ⟨g0 :: E 0 :: P 0 :: g3 :: g4 :: g5 :: g6 :: g7 :: mask :: g9 :: g10 :: r, t, b, mem, dst, src⟩ read
      = (let l0 := A.load mem (src + 16 * 0)
         let l1 := A.load l0.2 (src + 16 * 1)
         let l2 := A.load l1.2 (src + 16 * 2)
         let l3 := A.load l2.2 (src + 16 * 3)
         some ⟨l0.1 :: E 0 :: P 0 :: g3 :: l1.1 :: l2.1 :: l3.1 :: g7 :: mask :: E 0 :: P 0 :: r, t, b, l3.2, dst, src + 64⟩) := by kernel_rfl
  simp only [hl 0 (by omega), hl 1 (by omega), hl 2 (by omega), hl 3 (by omega)] at e1
  refine exec_trans e1 ?_
  generalize src + 64 = src
  refine exec_trans (s1 := ⟨H A W K 0 :: E 1 :: P 1 :: W 0 :: W 1 :: L 2 :: L 3 :: g7 :: mask :: E 0 :: P 0 :: r, t, b, mem, dst, src⟩) ?_ ?_
  · rw [← h.roundE 0 (by omega), ← h.roundP 0 (by omega), show H A W K 0 = hi A (A.bin .paddd (W 0) (K 0)) from rfl,
      ← h.words 0 (by omega), ← h.words 1 (by omega)]; kernel_rfl
  refine exec_trans (s1 := ⟨H A W K 1 :: E 2 :: P 2 :: Y A W 0 :: W 1 :: W 2 :: L 3 :: g7 :: mask :: E 0 :: P 0 :: r, t, b, mem, dst, src⟩) ?_ ?_
  · rw [← h.roundE 1 (by omega), ← h.roundP 1 (by omega), ← h.words 2 (by omega)]; kernel_rfl
  · rw [← h.roundE 2 (by omega), ← h.roundP 2 (by omega), ← h.words 3 (by omega)]; kernel_rfl

theorem tail_run (i q : V) :
    exec A ⟨i :: E 13 :: P 13 :: W 12 :: W 13 :: Y A W 10 :: Y A W 11 :: q :: mask :: E 0 :: P 0 :: r, t, b, mem, dst, src⟩
      (rounds52 K ++ (rounds56 K ++ (rounds60 K ++ merge)))
    = some ⟨H A W K 15 :: A.bin .paddd (E 16) (E 0) :: A.bin .paddd (P 16) (P 0) :: W 12 :: W 13 :: W 14 :: W 15 :: al A (W 14) (W 13) ::
        mask :: E 0 :: P 0 :: r, t, b, mem, dst, src⟩ := by
  refine exec_trans (s1 := ⟨H A W K 13 :: E 14 :: P 14 :: W 12 :: W 13 :: W 14 :: Y A W 11 :: al A (W 13) (W 12) :: mask :: E 0 :: P 0 :: r,
    t, b, mem, dst, src⟩) ?_ ?_
  · rw [← h.roundE 13 (by omega), ← h.roundP 13 (by omega), show W 14 = _ from (h.sched 10 (by omega)).symm]; kernel_rfl
  refine exec_trans (s1 := ⟨H A W K 14 :: E 15 :: P 15 :: W 12 :: W 13 :: W 14 :: W 15 :: al A (W 14) (W 13) :: mask :: E 0 :: P 0 :: r,
    t, b, mem, dst, src⟩) ?_ ?_
  · rw [← h.roundE 14 (by omega), ← h.roundP 14 (by omega), show W 15 = _ from (h.sched 11 (by omega)).symm]; kernel_rfl
  refine exec_trans (s1 := ⟨H A W K 15 :: E 16 :: P 16 :: W 12 :: W 13 :: W 14 :: W 15 :: al A (W 14) (W 13) :: mask :: E 0 :: P 0 :: r,
    t, b, mem, dst, src⟩) ?_ ?_
  · rw [← h.roundE 15 (by omega), ← h.roundP 15 (by omega)]; kernel_rfl
  · kernel_rfl

theorem block_run (g0 g3 g4 g5 g6 g7 g9 g10 : V) (hl : ∀ i, i < 4 → A.load mem (src + 16 * i) = (L i, mem)) :
    exec A ⟨g0 :: E 0 :: P 0 :: g3 :: g4 :: g5 :: g6 :: g7 :: mask :: g9 :: g10 :: r, t, b, mem, dst, src⟩ (block K)
    = some ⟨H A W K 15 :: A.bin .paddd (E 16) (E 0) :: A.bin .paddd (P 16) (P 0) :: W 12 :: W 13 :: W 14 :: W 15 :: al A (W 14) (W 13) ::
        mask :: E 0 :: P 0 :: r, t, b, mem, dst, src + 64⟩ := by
  have e := exec_trans (head_run h r t b mem dst src g0 g3 g4 g5 g6 g7 g9 g10 hl)
    (exec_trans (rounds12_run h (mask :: E 0 :: P 0 :: r) t b mem dst (src + 64) _ _) (tail_run h r t b mem dst (src + 64) _ _))
  rw [List.append_assoc, List.append_assoc, List.append_assoc] at e
  exact e
end
end
end Milo.Sha256.Asm
