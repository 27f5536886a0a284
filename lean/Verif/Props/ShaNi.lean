import Verif.Proof.ShaAlg
/- C45, C46: the SHA-NI backends and the portable ones. -/
namespace Milo
open Memory

/-- The state after `n` blocks: the compression function of FIPS 180-4 applied to one 64-byte block after the other. -/
def shaBlocks (compress : List W32 → List Byte → List W32) : (n : Nat) → (st : List W32) → (src : List Byte) → List W32
  | 0, st, _ => st
  | n + 1, st, src => shaBlocks compress n (compress st (src.take 64)) (src.drop 64)

theorem shaBlocks_eq (compress : List W32 → List Byte → List W32) (n : Nat) (st : List W32) (src : List Byte) (hl : n * 64 ≤ src.length) :
    shaBlocks compress n st src = (Spec.chunks 64 (src.take (n * 64))).foldl compress st := by
  induction n generalizing st src with
  | zero => simp [shaBlocks, chunks_nil]
  | succ n ih =>
    rw [Nat.succ_mul] at hl
    have : src.take ((n + 1) * 64) = src.take 64 ++ (src.drop 64).take (n * 64) := by rw [Nat.succ_mul, Nat.add_comm, List.take_add]
    rw [this, chunks_cons 64 (by omega) _ _ (by simp; omega), List.foldl_cons, shaBlocks, ih _ _ (by simp; omega)]

/-- C45: for every state, every number of blocks and every input long enough, whatever the registers held before, the SHA-1 code written with the SHA
instructions and the portable code leave the same state: the one of FIPS 180-4. -/
theorem C45_sha1_ni (h : Host) (junk : Nat → X86.Vec) (n : Nat) (st : List W32) (hst : st.length = 5) (src : List Byte) (hl : n * 64 ≤ src.length) :
    Sha1.Asm.blocks junk n st src = some (shaBlocks Spec.Sha.Sha1.compress n st src) ∧
    Sha1.blocksSw h n st src = some (shaBlocks Spec.Sha.Sha1.compress n st src) := by
  rw [shaBlocks_eq _ _ _ _ hl]
  exact ⟨(Sha1.Asm.blocks_ok junk).eq n st src hst hl, (Sha1.blocksSw_ok h).eq n st src hst hl⟩

/-- C45: on input that is too short, the code is not shown safe: it reads beyond the end. (No caller in the library does that: C14.) -/
example : Sha1.Asm.blocks (fun _ _ => 0) 1 [1, 2, 3, 4, 5] (List.replicate 63 0) = none := by decide +kernel
example : Sha1.Asm.blocks (fun _ j => BitVec.ofNat 32 j) 2 [1, 2, 3, 4, 5] (List.replicate 130 9)
    = Sha1.blocksSw ⟨.little, false, none⟩ 2 [1, 2, 3, 4, 5] (List.replicate 130 9) := by
  have := C45_sha1_ni ⟨.little, false, none⟩ (fun _ j => BitVec.ofNat 32 j) 2 [1, 2, 3, 4, 5] rfl (List.replicate 130 9) (by simp)
  exact this.1.trans this.2.symm

/-- C46: likewise for SHA-224/SHA-256. -/
theorem C46_sha256_ni (h : Host) (junk : Nat → X86.Vec) (n : Nat) (st : List W32) (hst : st.length = 8) (src : List Byte) (hl : n * 64 ≤ src.length) :
    Sha256.Asm.blocks junk n st src = some (shaBlocks (Spec.Sha.Sha2.compress Spec.Sha.p32) n st src) ∧
    Sha256.blocksSw h n st src = some (shaBlocks (Spec.Sha.Sha2.compress Spec.Sha.p32) n st src) := by
  have e := shaBlocks_eq (Spec.Sha.Sha2.compress Spec.Sha.p32) n st src hl
  exact ⟨((Sha256.Asm.blocks_ok junk).eq n st src hst hl).trans (congrArg some e.symm), ((Sha256.blocksSw_ok h).eq n st src hst hl).trans (congrArg some e.symm)⟩

example : Sha256.Asm.blocks (fun _ _ => 0) 1 [1, 2, 3, 4, 5, 6, 7, 8] (List.replicate 63 0) = none := by decide +kernel
example : Sha256.Asm.blocks (fun _ j => BitVec.ofNat 32 j) 2 [1, 2, 3, 4, 5, 6, 7, 8] (List.replicate 130 9)
    = Sha256.blocksSw ⟨.big, true, none⟩ 2 [1, 2, 3, 4, 5, 6, 7, 8] (List.replicate 130 9) := by
  have := C46_sha256_ni ⟨.big, true, none⟩ (fun _ j => BitVec.ofNat 32 j) 2 [1, 2, 3, 4, 5, 6, 7, 8] rfl (List.replicate 130 9) (by simp)
  exact this.1.trans this.2.symm

end Milo
