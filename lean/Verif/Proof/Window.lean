import Verif.Proof.Stor
import Verif.Proof.Memory
/- Writing a window of a memory piece by piece, possibly reading from the same memory. -/
namespace Milo
open Memory

/-- Memory `mem` is `mem0` with the bytes at `dst + j`, for the `j` in `D`, replaced by `out j`. -/
def Upd (mem0 : List Byte) (dst : Nat) (out : Nat → Byte) (D : Nat → Prop) (mem : List Byte) : Prop :=
  mem.length = mem0.length ∧ ∀ i, (dst ≤ i → D (i - dst) → i < mem0.length → mem[i]? = some (out (i - dst))) ∧
    (¬ (dst ≤ i ∧ D (i - dst)) → mem[i]? = mem0[i]?)

/-- The source is the destination, or they do not overlap. -/
def NoOverlap (dst src n : Nat) : Prop := dst = src ∨ src + n ≤ dst ∨ dst + n ≤ src

/-- `mem` with `n` bytes at `dst` replaced by those at `src` xored with `ks`. -/
def xored (mem : List Byte) (dst src : Nat) (ks : Nat → Byte) (n : Nat) : List Byte :=
  mem.take dst ++ (List.range n).map (fun j => mem.getD (src + j) 0 ^^^ ks j) ++ mem.drop (dst + n)

theorem Upd.start (mem0 : List Byte) (dst : Nat) (out : Nat → Byte) : Upd mem0 dst out (fun _ => False) mem0 :=
  ⟨rfl, fun _ => ⟨fun _ h => h.elim, fun _ => rfl⟩⟩

theorem Upd.congr {mem0 : List Byte} {dst : Nat} {out : Nat → Byte} {D D' : Nat → Prop} {mem : List Byte} (h : Upd mem0 dst out D mem)
    (hd : ∀ j, D j ↔ D' j) : Upd mem0 dst out D' mem := by
  have : D = D' := funext fun j => propext (hd j)
  exact this ▸ h

theorem Upd.write {mem0 : List Byte} {dst : Nat} {out : Nat → Byte} {D : Nat → Prop} {mem : List Byte} (h : Upd mem0 dst out D mem)
    (k : Nat) (w : List Byte) (hw : ∀ j, j < w.length → w[j]? = some (out (k + j))) (hl : dst + k + w.length ≤ mem0.length) :
    ∃ mem', wrN mem (dst + k) w = some mem' ∧ Upd mem0 dst out (fun j => D j ∨ (k ≤ j ∧ j < k + w.length)) mem' := by
  obtain ⟨hlen, hp⟩ := h
  refine ⟨_, wrN_some _ _ _ (by omega), by simp; omega, fun i => ?_⟩
  have h1 : (mem.take (dst + k)).length = dst + k := by simp; omega
  have e : (mem.take (dst + k) ++ w ++ mem.drop (dst + k + w.length))[i]?
      = if i < dst + k then mem[i]? else if i < dst + k + w.length then w[i - (dst + k)]? else mem[i]? := by
    by_cases h2 : i < dst + k
    · rw [if_pos h2, List.append_assoc, List.getElem?_append_left (by omega), List.getElem?_take_of_lt h2]
    · rw [if_neg h2]
      by_cases h3 : i < dst + k + w.length
      · rw [if_pos h3, List.append_assoc, List.getElem?_append_right (by omega), List.getElem?_append_left (by omega), h1]
      · rw [if_neg h3, List.getElem?_append_right (by simp; omega), List.getElem?_drop]
        congr 1; simp; omega
  rw [e]
  constructor
  · intro hi hD hil
    by_cases h3 : dst + k ≤ i ∧ i < dst + k + w.length
    · rw [if_neg (by omega), if_pos h3.2, hw _ (by omega)]
      congr 2; omega
    · rcases hD with hD | hD
      · have := (hp i).1 hi hD hil
        by_cases h4 : i < dst + k
        · rw [if_pos h4, this]
        · rw [if_neg h4, if_neg (by omega), this]
      · omega
  · intro hn
    have hn' : ¬ (dst ≤ i ∧ D (i - dst)) := fun ⟨a, b⟩ => hn ⟨a, .inl b⟩
    have hn2 : ¬ (dst + k ≤ i ∧ i < dst + k + w.length) := fun ⟨a, b⟩ => hn ⟨by omega, .inr (by omega)⟩
    by_cases h4 : i < dst + k
    · rw [if_pos h4, (hp i).2 hn']
    · rw [if_neg h4, if_neg (by omega), (hp i).2 hn']

/-- Reading from a not yet replaced part of the source. -/
theorem Upd.get {mem0 : List Byte} {dst : Nat} {out : Nat → Byte} {D : Nat → Prop} {mem : List Byte} (h : Upd mem0 dst out D mem)
    (src n k : Nat) (ho : NoOverlap dst src n) (hD : ∀ j, D j → j < n) (hk : k < n) (hn : ¬ D k) : mem[src + k]? = mem0[src + k]? := by
  refine (h.2 _).2 fun ⟨h1, h2⟩ => ?_
  rcases ho with rfl | ho | ho
  · rw [Nat.add_sub_cancel_left] at h2; exact hn h2
  · omega
  · have := hD _ h2; omega

theorem Upd.read {mem0 : List Byte} {dst : Nat} {out : Nat → Byte} {D : Nat → Prop} {mem : List Byte} (h : Upd mem0 dst out D mem)
    (src n k z : Nat) (ho : NoOverlap dst src n) (hD : ∀ j, D j → j < n) (hk : k + z ≤ n) (hn : ∀ j, k ≤ j → j < k + z → ¬ D j)
    (hl : src + n ≤ mem0.length) : rdN mem (src + k) z = some ((mem0.drop (src + k)).take z) := by
  rw [rdN_some _ _ _ (by rw [h.1]; omega)]
  congr 1
  apply List.ext_getElem?
  intro i
  by_cases hi : i < z
  · rw [List.getElem?_take_of_lt hi, List.getElem?_take_of_lt hi, List.getElem?_drop, List.getElem?_drop, Nat.add_assoc]
    exact h.get src n (k + i) ho hD (by omega) (hn _ (by omega) (by omega))
  · rw [List.getElem?_eq_none (by simp; omega), List.getElem?_eq_none (by simp; omega)]

theorem Upd.done {mem0 : List Byte} {dst : Nat} {out : Nat → Byte} {n : Nat} {mem : List Byte} (h : Upd mem0 dst out (fun j => j < n) mem)
    (hl : dst + n ≤ mem0.length) : mem = mem0.take dst ++ (List.range n).map out ++ mem0.drop (dst + n) := by
  obtain ⟨hlen, hp⟩ := h
  apply List.ext_getElem?
  intro i
  have h1 : (mem0.take dst).length = dst := by simp; omega
  by_cases h2 : i < dst
  · rw [(hp i).2 (by omega), List.append_assoc, List.getElem?_append_left (by omega), List.getElem?_take_of_lt h2]
  · by_cases h3 : i < dst + n
    · rw [(hp i).1 (by omega) (by omega) (by omega), List.append_assoc, List.getElem?_append_right (by omega),
        List.getElem?_append_left (by simp; omega), h1, List.getElem?_map, List.getElem?_range (by omega)]
      rfl
    · rw [(hp i).2 (by omega), List.getElem?_append_right (by simp; omega), List.getElem?_drop]
      congr 1; simp; omega

theorem Upd.of_window (mem0 : List Byte) (dst n : Nat) (out : Nat → Byte) (hl : dst + n ≤ mem0.length) :
    Upd mem0 dst out (fun j => j < n) (mem0.take dst ++ (List.range n).map out ++ mem0.drop (dst + n)) := by
  obtain ⟨m, e, u⟩ := (Upd.start mem0 dst out).write 0 ((List.range n).map out) (fun j hj => by
    simp at hj; simp [List.getElem?_range hj]) (by simpa using hl)
  have u' : Upd mem0 dst out (fun j => j < n) m := u.congr (by simp)
  exact (u'.done hl) ▸ u'

/-- The pieces of `xored`. -/
theorem Upd.xored_iff (mem0 : List Byte) (dst src n : Nat) (ks : Nat → Byte) (hl : dst + n ≤ mem0.length) (mem : List Byte) :
    Upd mem0 dst (fun j => mem0.getD (src + j) 0 ^^^ ks j) (fun j => j < n) mem ↔ mem = xored mem0 dst src ks n :=
  ⟨fun h => h.done hl, fun h => h ▸ Upd.of_window mem0 dst n _ hl⟩

theorem xored_length (mem : List Byte) (dst src n : Nat) (ks : Nat → Byte) (hl : dst + n ≤ mem.length) : (xored mem dst src ks n).length = mem.length := by
  simp [xored]; omega

theorem xored_zero (mem : List Byte) (dst src : Nat) (ks : Nat → Byte) : xored mem dst src ks 0 = mem := by simp [xored]

/-- One part after the other. -/
theorem xored_xored (mem : List Byte) (dst src a b : Nat) (ks : Nat → Byte) (ho : NoOverlap dst src (a + b)) (hl : dst + (a + b) ≤ mem.length) :
    xored (xored mem dst src ks a) (dst + a) (src + a) (fun j => ks (a + j)) b = xored mem dst src ks (a + b) := by
  have u1 := (Upd.xored_iff mem dst src a ks (by omega) _).mpr rfl
  have hlen := xored_length mem dst src a ks (by omega)
  generalize xored mem dst src ks a = m1 at u1 hlen ⊢
  have u2 := (Upd.xored_iff m1 (dst + a) (src + a) b (fun j => ks (a + j)) (by omega) _).mpr rfl
  generalize xored m1 (dst + a) (src + a) (fun j => ks (a + j)) b = m2 at u2 ⊢
  apply (Upd.xored_iff mem dst src (a + b) ks hl m2).mp
  refine ⟨u2.1.trans hlen, fun i => ⟨fun h1 h2 h3 => ?_, fun h1 => ?_⟩⟩
  · by_cases h4 : i - dst < a
    · rw [(u2.2 i).2 (by omega), (u1.2 i).1 h1 h4 h3]
    · rw [(u2.2 i).1 (by omega) (by omega) (by omega)]
      have : m1[src + a + (i - (dst + a))]? = mem[src + a + (i - (dst + a))]? := by
        rw [Nat.add_assoc]
        exact u1.get src (a + b) (a + (i - (dst + a))) ho (fun j hj => by omega) (by omega) (by omega)
      simp only [List.getD_eq_getElem?_getD, this]
      rw [show src + a + (i - (dst + a)) = src + (i - dst) by omega, show a + (i - (dst + a)) = i - dst by omega]
  · rw [(u2.2 i).2 (by omega), (u1.2 i).2 (by omega)]

end Milo
