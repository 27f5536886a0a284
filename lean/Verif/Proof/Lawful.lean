import Verif.Proof.Sched
import Verif.Model.HashImpl
/- What the users of a hash class may rely on, and the padding lemmas shared by the SHA classes. -/
namespace Milo
open Memory

/-- `H` computes the hash function `F`. `Wf` holds of every object (also after misuse such as updating a finalized object); `Rep o m`: `o`
was initialized and has been fed `m`; `Fin o m`: it was then finalized. A chunk passed to `update` has fewer than `2^64` bytes (`size_t`). -/
structure Lawful (H : HashImpl) (F : List Byte → List Byte) where
  Wf : H.σ → Prop
  Rep : H.σ → List Byte → Prop
  Fin : H.σ → List Byte → Prop
  block_pos : 0 < H.blockSize
  fresh : Wf H.fresh
  rep_wf : ∀ o m, Rep o m → Wf o
  fin_wf : ∀ o m, Fin o m → Wf o
  init : ∀ o, Wf o → Rep (H.init o) []
  update_wf : ∀ o x, Wf o → ∃ o', H.update o x = some o' ∧ Wf o'
  update : ∀ o m x, Rep o m → x.length < 2 ^ 64 → ∃ o', H.update o x = some o' ∧ Rep o' (m ++ x)
  finalize_wf : ∀ o, Wf o → ∃ o', H.finalize o = some o' ∧ Wf o'
  finalize : ∀ o m, Rep o m → ∃ o', H.finalize o = some o' ∧ Fin o' m
  digest_wf : ∀ o dst n, Wf o → min n H.digestSize ≤ dst.length →
    ∃ out, H.digest o dst n = some (out, min n H.digestSize) ∧ out.length = dst.length
  digest : ∀ o m dst n, Fin o m → min n H.digestSize ≤ dst.length →
    H.digest o dst n = some ((F m).take (min n H.digestSize) ++ dst.drop (min n H.digestSize), min n H.digestSize)
  length : ∀ m, (F m).length = H.digestSize

/-- The bytes following the whole blocks of the padded message. -/
def padTail (B L : Nat) (m : List Byte) (last : Nat) : List Byte :=
  tail B m ++ [0x80#8] ++ List.replicate (last - L - (m.length % B + 1)) 0#8 ++ Spec.beBytes L (8 * m.length)

theorem padTail_length (B L : Nat) (m : List Byte) (last : Nat) (h : m.length % B + 1 + L ≤ last) :
    (padTail B L m last).length = last := by
  simp [padTail, tail_length, Spec.beBytes]; omega

theorem pad_eq (B L : Nat) (hL : L < B) (m : List Byte) (last : Nat)
    (hlast : last = if m.length % B ≥ B - L then 2 * B else B) :
    Spec.Sha.pad B L m = m.take (m.length / B * B) ++ padTail B L m last := by
  unfold Spec.Sha.pad padTail
  have hB : 0 < B := by omega
  have hmod := Nat.mod_lt m.length hB
  have hz : (B - (m.length + 1 + L) % B) % B = last - L - (m.length % B + 1) := by
    have e : (m.length + 1 + L) % B = (m.length % B + 1 + L) % B := by
      rw [Nat.add_assoc, Nat.add_mod, Nat.add_assoc, Nat.add_mod (m.length % B) (1 + L) B, Nat.mod_mod]
    rw [e]
    by_cases hc : m.length % B ≥ B - L
    · rw [if_pos hc] at hlast
      have : (m.length % B + 1 + L) % B = m.length % B + 1 + L - B := by
        rw [Nat.mod_eq_sub_mod (by omega), Nat.mod_eq_of_lt (by omega)]
      rw [this, Nat.mod_eq_of_lt (by omega)]; omega
    · rw [if_neg hc] at hlast
      by_cases he : m.length % B + 1 + L = B
      · rw [he, Nat.mod_self, Nat.sub_zero, Nat.mod_self]; omega
      · have h1 : (m.length % B + 1 + L) % B = m.length % B + 1 + L := Nat.mod_eq_of_lt (by omega)
        rw [h1, Nat.mod_eq_of_lt (by omega)]; omega
  simp only [hz]
  have hsp := split_tail B m
  generalize m.take (m.length / B * B) = a at *
  generalize tail B m = b at *
  generalize Spec.beBytes L (8 * m.length) = c
  generalize List.replicate (last - L - (m.length % B + 1)) 0#8 = d
  rw [hsp]
  simp [List.append_assoc]

/-- Hashing splits into the absorbed blocks and the padded tail. -/
theorem iterate_eq {σ : Type} (compress : σ → List Byte → σ) (B L : Nat) (hL : L < B) (iv : σ) (m : List Byte) (last : Nat)
    (hlast : last = if m.length % B ≥ B - L then 2 * B else B) :
    Spec.Sha.iterate compress B L iv m = (Spec.chunks B (padTail B L m last)).foldl compress (absorbed B compress iv m) := by
  have hB : 0 < B := by omega
  unfold Spec.Sha.iterate
  rw [pad_eq B L hL m last hlast, chunks_append B hB, List.foldl_append]
  · rfl
  · have := Nat.div_mul_le_self m.length B
    simp [Nat.min_eq_left this]

/-- The two stores of `finalize` before the length field. -/
theorem pad_stores (buf : List Byte) (left n : Nat) (h : left + 1 + n ≤ buf.length) :
    ((wr1 buf left 128#8).bind fun buf => forM' (fun i buf => wr1 buf i 0#8) n (left + 1) buf)
      = some (buf.take left ++ [0x80#8] ++ List.replicate n 0#8 ++ buf.drop (left + 1 + n)) := by
  have h1 : wr1 buf left 128#8 = some (buf.set left 128#8) := by unfold wr1; rw [if_pos (by omega)]
  rw [h1, Option.bind_some]
  have h2 := wr_zero_loop (p := 1) (buf.set left 128#8) n (left + 1) (by simp; omega)
  have h3 : (buf.set left 128#8).take (left + 1) = buf.take left ++ [128#8] := by
    rw [List.take_add_one, List.take_set_of_le (Nat.le_refl _), List.getElem?_set_self (by omega)]; rfl
  have h4 : (buf.set left 128#8).drop (left + 1 + n) = buf.drop (left + 1 + n) := by
    rw [List.drop_set_of_lt (by omega)]
  rw [h3, h4] at h2
  exact h2

/-- Storing a big-endian 64-bit word at a byte offset. -/
theorem at_storBe8 (h : Host) (buf : List Byte) (off i : Nat) (x : W64) (hl : off + 8 * i + 8 ≤ buf.length) :
    (at_ buf off fun p => storBe h (v := 8) (p := 1) p i x)
      = some (buf.take (off + 8 * i) ++ Spec.beBytes 8 x.toNat ++ buf.drop (off + 8 * i + 8)) := by
  rw [at_eq _ _ _ (by omega), storBe_eq h ⟨by omega, by omega, .inl ⟨8, by omega⟩⟩ (by simp [Swappable]), image_bytes']
  have hb : (toBytes .big (n := 8) x).length = 8 := by simp [toBytes]
  rw [wrN_some _ _ _ (by rw [hb]; simp; omega)]
  simp only [Option.map_some]
  rw [ofImage_bytes' _ _ _ (by simp [hb]; omega), hb, toBytes_big]
  rw [List.take_drop, List.drop_drop]
  congr 1
  rw [Nat.mul_comm i 8, show off + (8 * i + 8) = off + 8 * i + 8 by omega]
  have : buf.take (off + 8 * i) = buf.take off ++ (buf.take (off + 8 * i)).drop off := by
    conv => lhs; rw [← List.take_append_drop off (buf.take (off + 8 * i))]
    rw [List.take_take, Nat.min_eq_left (by omega)]
  conv => rhs; rw [this]
  simp [List.append_assoc]

theorem beBytes_mod (n x y : Nat) (h : x % 256 ^ n = y % 256 ^ n) : Spec.beBytes n x = Spec.beBytes n y := by
  unfold Spec.beBytes
  apply List.map_congr_left
  intro i hi
  have hi := List.mem_range.mp hi
  apply BitVec.eq_of_toNat_eq
  simp only [BitVec.toNat_ofNat]
  have key : ∀ z : Nat, z / 256 ^ (n - 1 - i) % 2 ^ 8 = z % 256 ^ n / 256 ^ (n - 1 - i) % 2 ^ 8 := by
    intro z
    have hn : 256 ^ n = 256 ^ (n - 1 - i) * 256 ^ (i + 1) := by rw [← Nat.pow_add]; congr 1; omega
    rw [hn, Nat.mod_mul_right_div_self, show (2:Nat) ^ 8 = 256 from rfl, Nat.pow_succ, Nat.mod_mul_left_mod]
  rw [key x, key y, h]

theorem image_big (n : Nat) (l : List (Word n)) : image .big l = Spec.Sha.output l := by
  unfold image Spec.Sha.output
  congr 1
  funext w
  exact toBytes_big w

theorem image_big_length (n : Nat) (l : List (Word n)) : (Spec.Sha.output l).length = l.length * n := by
  rw [← image_big]; simp

end Milo
