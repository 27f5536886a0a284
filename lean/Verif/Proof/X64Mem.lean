import Verif.Spec.Abi
import Verif.Proof.ChaChaAsmMem
/- Memory of the machine: areas, reads and writes. -/
namespace Milo.X64
open Memory X86

theorem sub_off (B : W64) (u v n : Nat) (hu : u < 2 ^ 64) (hv : v + n ≤ 2 ^ 64) :
    ((B + BitVec.ofNat 64 u) - (B + BitVec.ofNat 64 v)).toNat < n ↔ v ≤ u ∧ u < v + n := by
  have e : (B + BitVec.ofNat 64 u) - (B + BitVec.ofNat 64 v) = BitVec.ofNat 64 u - BitVec.ofNat 64 v := by
    simp only [BitVec.sub_eq_add_neg, BitVec.neg_add]
    rw [BitVec.add_assoc, ← BitVec.add_assoc (BitVec.ofNat 64 u), BitVec.add_comm (BitVec.ofNat 64 u), BitVec.add_assoc, ← BitVec.add_assoc B, ← BitVec.sub_eq_add_neg B,
      BitVec.sub_self, BitVec.zero_add]
  rw [e, BitVec.toNat_sub, BitVec.toNat_ofNat, BitVec.toNat_ofNat]
  omega

theorem sub_off_val (B : W64) (u v : Nat) (hu : u < 2 ^ 64) (hv : v ≤ u) : ((B + BitVec.ofNat 64 u) - (B + BitVec.ofNat 64 v)).toNat = u - v := by
  have e : (B + BitVec.ofNat 64 u) - (B + BitVec.ofNat 64 v) = BitVec.ofNat 64 u - BitVec.ofNat 64 v := by
    simp only [BitVec.sub_eq_add_neg, BitVec.neg_add]
    rw [BitVec.add_assoc, ← BitVec.add_assoc (BitVec.ofNat 64 u), BitVec.add_comm (BitVec.ofNat 64 u), BitVec.add_assoc, ← BitVec.add_assoc B, ← BitVec.sub_eq_add_neg B,
      BitVec.sub_self, BitVec.zero_add]
  rw [e, BitVec.toNat_sub, BitVec.toNat_ofNat, BitVec.toNat_ofNat]
  omega

theorem area_off (B : W64) (u n : Nat) (hu : u < 2 ^ 64) : Area B n (B + BitVec.ofNat 64 u) ↔ u < n := by
  unfold Area
  have e : B + BitVec.ofNat 64 u - B = BitVec.ofNat 64 u := by rw [BitVec.add_comm, BitVec.add_sub_cancel]
  rw [e, BitVec.toNat_ofNat, Nat.mod_eq_of_lt hu]

theorem area_sub_off (B : W64) (u v n : Nat) (hu : u < 2 ^ 64) (hv : v + n ≤ 2 ^ 64) :
    Area (B + BitVec.ofNat 64 v) n (B + BitVec.ofNat 64 u) ↔ v ≤ u ∧ u < v + n := sub_off B u v n hu hv

/-- An address of an area is its base plus an offset. -/
theorem Area.off {B a : W64} {n : Nat} (h : Area B n a) : ∃ u, u < n ∧ u < 2 ^ 64 ∧ a = B + BitVec.ofNat 64 u := by
  refine ⟨(a - B).toNat, h, (a - B).isLt, ?_⟩
  rw [BitVec.ofNat_toNat, BitVec.setWidth_eq, BitVec.add_comm, BitVec.sub_add_cancel]

theorem Area.sub {B a : W64} {v n m : Nat} (h : Area (B + BitVec.ofNat 64 v) n a) (hm : v + n ≤ m) (hm' : m ≤ 2 ^ 64) : Area B m a := by
  obtain ⟨u, hu, hu', rfl⟩ := h.off
  rw [BitVec.add_assoc, ← BitVec.ofNat_add]
  exact (area_off B _ m (by omega)).mpr (by omega)

theorem bytesAt_length (mem : W64 → Byte) (a : W64) (n : Nat) : (bytesAt mem a n).length = n := by simp [bytesAt]

theorem bytesAt_get (mem : W64 → Byte) (a : W64) (n i : Nat) (h : i < n) : (bytesAt mem a n)[i]? = some (mem (a + BitVec.ofNat 64 i)) := by
  simp [bytesAt, h]

theorem bytesAt_congr {m m' : W64 → Byte} {a : W64} {n : Nat} (h : ∀ i, i < n → m (a + BitVec.ofNat 64 i) = m' (a + BitVec.ofNat 64 i)) :
    bytesAt m a n = bytesAt m' a n := by
  unfold bytesAt
  exact List.map_congr_left fun i hi => h i (List.mem_range.mp hi)

theorem putBytes_out {mem : W64 → Byte} {a x : W64} {bs : List Byte} (h : ¬ Area a bs.length x) : putBytes mem a bs x = mem x := if_neg h

theorem putBytes_in {mem : W64 → Byte} {a : W64} {bs : List Byte} (i : Nat) (h : i < bs.length) (h' : i < 2 ^ 64) :
    putBytes mem a bs (a + BitVec.ofNat 64 i) = bs.getD i 0 := by
  unfold putBytes
  have e : (a + BitVec.ofNat 64 i - a).toNat = i := by
    rw [BitVec.add_comm, BitVec.add_sub_cancel, BitVec.toNat_ofNat, Nat.mod_eq_of_lt h']
  rw [e, if_pos h]

theorem bytesAt_putBytes (mem : W64 → Byte) (a : W64) (bs : List Byte) (h : bs.length ≤ 2 ^ 64) : bytesAt (putBytes mem a bs) a bs.length = bs := by
  apply List.ext_getElem?
  intro i
  by_cases hi : i < bs.length
  · rw [bytesAt_get _ _ _ _ hi, putBytes_in i hi (by omega), List.getD_eq_getElem?_getD, List.getElem?_eq_getElem hi]; rfl
  · rw [List.getElem?_eq_none (by rw [bytesAt_length]; omega), List.getElem?_eq_none (by omega)]

/-- Reading where nothing was written. -/
theorem bytesAt_putBytes_ne (mem : W64 → Byte) (B : W64) (u v n : Nat) (bs : List Byte) (hu : u + n ≤ 2 ^ 64) (hv : v + bs.length ≤ 2 ^ 64)
    (h : u + n ≤ v ∨ v + bs.length ≤ u) : bytesAt (putBytes mem (B + BitVec.ofNat 64 v) bs) (B + BitVec.ofNat 64 u) n = bytesAt mem (B + BitVec.ofNat 64 u) n := by
  apply bytesAt_congr
  intro i hi
  apply putBytes_out
  rw [BitVec.add_assoc, ← BitVec.ofNat_add, area_sub_off _ _ _ _ (by omega) hv]
  omega

theorem read_eq {M : Machine} {s : State} {a : W64} {n : Nat} (h : ∀ i, i < n → M.rd (a + BitVec.ofNat 64 i) = true) : M.read s a n = some (bytesAt s.mem a n) := by
  unfold Machine.read
  rw [if_pos]
  simpa using h

theorem write_eq {M : Machine} {s : State} {a : W64} {bs : List Byte} (h : ∀ i, i < bs.length → M.wr (a + BitVec.ofNat 64 i) = true) :
    M.write s a bs = some { s with mem := putBytes s.mem a bs } := by
  unfold Machine.write
  rw [if_pos]
  simpa using h

/-! ### Vectors as bytes -/

theorem le4 (w : W32) : ofBytes .little 4 (toLE 4 w.toNat) = w := ofBytes_toBytes .little (n := 4) w
theorem le8 (w : W64) : ofBytes .little 8 (toLE 8 w.toNat) = w := ofBytes_toBytes .little (n := 8) w

theorem ofDb_vecBytes {lanes : Nat} (v : Vec) (j : Nat) (hj : j < lanes) : ofDb (vecBytes lanes v) j = v j := by
  unfold ofDb
  have : ((vecBytes lanes v).drop (4 * j)).take 4 = toLE 4 (v j).toNat := by
    apply List.ext_getElem?
    intro b
    by_cases hb : b < 4
    · rw [List.getElem?_take_of_lt hb, List.getElem?_drop, ChaCha.Asm.vecBytes_get v j b hj hb]
    · rw [List.getElem?_eq_none (by simp; omega), List.getElem?_eq_none (by simp; omega)]
  rw [this]
  exact le4 _

end Milo.X64
