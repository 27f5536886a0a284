import Verif.Model.InPlaceKdf
import Verif.Spec.InPlaceKdf
import Verif.Proof.Pbkdf2
import Verif.Proof.Hkdf
/- Key derivation into retained memory. -/
namespace Milo.InPlace
open Memory Spec.InPlace

theorem put_self (m : Mem) (b d : Nat) : m.put b d ((m b).drop d) = m := by
  funext i
  unfold Mem.put
  by_cases h : i = b
  · subst h; simp
  · simp [h]

theorem put_at (m : Mem) (b d : Nat) (key : List Byte) : (m.put b d key) b = (m b).take d ++ key := by simp [Mem.put]

/-- A write in the middle of the key. -/
theorem write_put (m : Mem) (b d off : Nat) (key xs : List Byte) (hd : d ≤ (m b).length) (ho : off + xs.length ≤ key.length) :
    write (m.put b d key) b (d + off) xs = m.put b d (key.take off ++ xs ++ key.drop (off + xs.length)) := by
  funext i
  unfold write
  by_cases h : i = b
  · subst h
    rw [if_pos rfl, put_at, put_at]
    unfold replaced
    have hl : ((m i).take d).length = d := by simp; omega
    rw [List.take_append, List.drop_append, hl, List.take_of_length_le (by omega), List.drop_of_length_le (by omega)]
    rw [show d + off - d = off by omega, show d + off + xs.length - d = off + xs.length by omega]
    simp
  · simp [h, Mem.put]

theorem overwritten_last (block : Nat → (Nat → List Byte) → List Byte) (b d size n k : Nat) : ∀ (i : Nat) (m : Nat → List Byte),
    overwritten block b d size n (k + 1) i m
      = write (overwritten block b d size n k i m) b (d + (i + k) * size) ((block (i + k) (overwritten block b d size n k i m)).take (n - (i + k) * size)) := by
  induction k with
  | zero => intro i m; rfl
  | succ k ih =>
    intro i m
    rw [overwritten, ih, overwritten, show i + 1 + k = i + (k + 1) by omega]

end Milo.InPlace

namespace Milo.Pbkdf2.At
open Memory Spec.InPlace Milo.InPlace

variable (h : Host) (junk : Nat → Byte) {M : MacImpl} {F : List Byte → List Byte → List Byte} (L : LawfulMac M F)

/-- Block `i` from what is read in memory. -/
def block (F : List Byte → List Byte → List Byte) (P S : Mem → List Byte) (c : Nat) (i : Nat) (m : Mem) : List Byte := Spec.pbkdf2T F (P m) (S m) (i + 1) c

/-- What the object reads while the key is written. -/
def Reads (m : Mem) (b d kl : Nat) (v : View) (P : Mem → List Byte) : Prop :=
  ∀ key, key.length = kl → v.bytes (m.put b d key) = some (P (m.put b d key)) ∧ (P (m.put b d key)).length < 2 ^ 64

theorem loop_eq (hL : M.digestSize < 2 ^ 64) (m : Mem) (b d kl : Nat) (hd : d ≤ (m b).length) (P S : Mem → List Byte) (n : Nat) (hnk : n ≤ kl) (hn32 : n ≤ (2 ^ 32 - 1) * M.digestSize)
    (hpos : 0 < M.digestSize) (k : Nat) :
    ∀ (i j : Nat) (o : Obj M) (key : List Byte), L.Wf o.prf → Reads m b d kl o.ikm P → Reads m b d kl o.salt S → key.length = kl → (i + k) * M.digestSize ≤ n →
    ∃ st key', forM' (fun i s => step h M junk (m.put b d s.key) i s) k j ⟨o, key, BitVec.ofNat 32 (i + 1), i * M.digestSize⟩
      = some ⟨{ o with prf := st }, key', BitVec.ofNat 32 (i + k + 1), (i + k) * M.digestSize⟩ ∧ L.Wf st ∧ key'.length = kl ∧
      m.put b d key' = overwritten (block F P S (o.iterations.toNat - 1 + 1)) b d M.digestSize n k i (m.put b d key) := by
  induction k with
  | zero => intro i j o key w _ _ hk _; exact ⟨o.prf, key, rfl, w, hk, rfl⟩
  | succ k ih =>
    intro i j o key w hp hs hk hik
    have hi1 : (i + 1) * M.digestSize ≤ n := Nat.le_trans (Nat.mul_le_mul_right _ (by omega)) hik
    have hi32 : i + 1 < 2 ^ 32 := by
      have : i + 1 ≤ 2 ^ 32 - 1 := Nat.le_of_mul_le_mul_right (Nat.le_trans hi1 hn32) hpos
      omega
    have hio : i * M.digestSize + M.digestSize ≤ n := by rw [← Nat.succ_mul]; exact hi1
    obtain ⟨p1, p2⟩ := hp key hk
    obtain ⟨q1, q2⟩ := hs key hk
    obtain ⟨s1, e1, w1⟩ := expand_eq h junk L hL (m.put b d key) o (key.drop (i * M.digestSize)) (BitVec.ofNat 32 (i + 1)) _ _ w p1 p2 q1 q2 (by simp; omega)
    have ht : (T F (P (m.put b d key)) (S (m.put b d key)) o.iterations (BitVec.ofNat 32 (i + 1))).length = M.digestSize := T_length' L _ _ _ _
    have hT : T F (P (m.put b d key)) (S (m.put b d key)) o.iterations (BitVec.ofNat 32 (i + 1)) = block F P S (o.iterations.toNat - 1 + 1) i (m.put b d key) := by
      unfold T block; rw [BitVec.toNat_ofNat, Nat.mod_eq_of_lt hi32]
    rw [hT] at e1 ht
    generalize hB : block F P S (o.iterations.toNat - 1 + 1) i (m.put b d key) = B at e1 ht
    have es : step h M junk (m.put b d key) j ⟨o, key, BitVec.ofNat 32 (i + 1), i * M.digestSize⟩
        = some ⟨{ o with prf := s1 }, key.take (i * M.digestSize) ++ B ++ key.drop (i * M.digestSize + M.digestSize), BitVec.ofNat 32 (i + 1 + 1), (i + 1) * M.digestSize⟩ := by
      unfold step
      rw [if_pos (by simp only; omega), e1]
      simp only [Option.bind_eq_bind, Option.bind_some, Option.pure_def, List.drop_drop, List.append_assoc]
      rw [BitVec.add_comm, Hkdf.one_add_ofNat, Nat.succ_mul]
    have hk' : (key.take (i * M.digestSize) ++ B ++ key.drop (i * M.digestSize + M.digestSize)).length = kl := by
      simp only [List.length_append, List.length_take, List.length_drop, ht]; omega
    obtain ⟨s2, key', e2, w2, l2, m2⟩ := ih (i + 1) (j + 1) { o with prf := s1 } _ w1 hp hs hk' (by rw [show i + 1 + k = i + (k + 1) by omega]; exact hik)
    refine ⟨s2, key', ?_, w2, l2, ?_⟩
    · simp only [forM', Option.bind_eq_bind]
      rw [es, Option.bind_some, e2, show i + 1 + k = i + (k + 1) by omega]
    · rw [m2, overwritten, hB, List.take_of_length_le (l := B) (by omega), write_put m b d _ key B hd (by omega), ht]

theorem derive_eq (hL : M.digestSize < 2 ^ 64) (hpos : 0 < M.digestSize) (m : Mem) (b d n : Nat) (hd : d + n ≤ (m b).length) (P S : Mem → List Byte)
    (hn32 : n ≤ (2 ^ 32 - 1) * M.digestSize) (o : Obj M) (w : L.Wf o.prf) (hp : Reads m b d ((m b).length - d) o.ikm P) (hs : Reads m b d ((m b).length - d) o.salt S)
    (hc : o.counter = 1) (hb : o.buffer.length = M.digestSize) (hbs : o.bufferSize = 0) :
    ∃ o', derive h M junk o m b d n
      = some (o', overwritten (block F P S (o.iterations.toNat - 1 + 1)) b d M.digestSize n ((n + M.digestSize - 1) / M.digestSize) 0 m, n) := by
  have hdm := Nat.div_add_mod n M.digestSize
  have hml := Nat.mod_lt n hpos
  rw [Nat.mul_comm] at hdm
  have hceil : (n + M.digestSize - 1) / M.digestSize = n / M.digestSize + (if n % M.digestSize = 0 then 0 else 1) := by
    split
    · rename_i hz
      rw [show n + M.digestSize - 1 = (M.digestSize - 1) + n / M.digestSize * M.digestSize by omega, Nat.add_mul_div_right _ _ hpos, Nat.div_eq_of_lt (by omega)]; omega
    · rename_i hz
      rw [show n + M.digestSize - 1 = (n % M.digestSize - 1) + (n / M.digestSize + 1) * M.digestSize by rw [Nat.succ_mul]; omega, Nat.add_mul_div_right _ _ hpos,
        Nat.div_eq_of_lt (by omega)]; omega
  unfold derive
  rw [if_pos (by omega)]
  unfold serve
  rw [if_neg (by omega)]
  simp only [Option.bind_eq_bind, Option.bind_some, Option.pure_def]
  by_cases hz : n = 0
  · subst hz
    rw [if_pos rfl, put_self]
    refine ⟨o, ?_⟩
    rw [hceil]; simp [overwritten]
  rw [if_neg hz, Nat.sub_self, hceil]
  generalize hq : n / M.digestSize = full at hdm
  generalize hr : n % M.digestSize = last at hdm hml
  have hkl : ((m b).drop d).length = (m b).length - d := by simp
  obtain ⟨s1, key', e1, w1, l1, m1⟩ := loop_eq h junk L hL m b d ((m b).length - d) (by omega) P S n (by omega) hn32 hpos full 0 0 o ((m b).drop d) w hp hs hkl (by rw [Nat.zero_add]; omega)
  rw [put_self] at m1
  have hc0 : BitVec.ofNat 32 (0 + 1) = o.counter := by rw [hc]; rfl
  rw [hc0, Nat.zero_mul] at e1
  unfold generate
  rw [hq, hr, e1]
  simp only [Option.bind_eq_bind, Option.bind_some]
  unfold final
  by_cases hl : last = 0
  · subst hl
    rw [if_neg (by omega), if_pos rfl, show full + 0 = full from rfl, ← m1]
    exact ⟨_, rfl⟩
  · obtain ⟨p1, p2⟩ := hp key' l1
    obtain ⟨q1, q2⟩ := hs key' l1
    obtain ⟨s2, e2, w2⟩ := expand_eq h junk L hL (m.put b d key') { o with prf := s1 } o.buffer (BitVec.ofNat 32 (0 + full + 1)) _ _ w1 p1 p2 q1 q2 (by omega)
    have ht : (T F (P (m.put b d key')) (S (m.put b d key')) o.iterations (BitVec.ofNat 32 (0 + full + 1))).length = M.digestSize := T_length' L _ _ _ _
    have h32 : 0 + full + 1 < 2 ^ 32 := by
      have : full * M.digestSize < (2 ^ 32 - 1) * M.digestSize := by omega
      have := Nat.lt_of_mul_lt_mul_right this
      omega
    have hT : T F (P (m.put b d key')) (S (m.put b d key')) o.iterations (BitVec.ofNat 32 (0 + full + 1)) = block F P S (o.iterations.toNat - 1 + 1) full (m.put b d key') := by
      unfold T block; rw [BitVec.toNat_ofNat, Nat.mod_eq_of_lt h32, Nat.zero_add]
    rw [List.drop_of_length_le (by omega), List.append_nil] at e2
    rw [hT] at ht
    simp only at e2
    rw [hT] at e2
    rw [if_pos (by omega), if_neg hl, e2]
    simp only [Option.bind_eq_bind, Option.bind_some]
    rw [overwritten_last, Nat.zero_add, ← m1, write_put m b d _ key' _ (by omega) (by simp only [List.length_take, ht]; omega)]
    rw [at_eq _ _ _ (by omega), copy_bytes h _ _ _ (by omega) (by simp; omega)]
    simp only [Option.map_some, Option.bind_some, Option.pure_def]
    rw [show n - full * M.digestSize = last by omega, List.length_take, ht, Nat.min_eq_left (by omega), List.drop_drop]
    simp only [List.append_assoc, Nat.zero_add]
    exact ⟨_, rfl⟩

end Milo.Pbkdf2.At

namespace Milo.Hkdf.At
open Memory Spec.InPlace Milo.InPlace

variable (h : Host) {M : MacImpl} {F : List Byte → List Byte → List Byte} (L : LawfulMac M F)

/-- Block `i` from what is read in memory. -/
def block (F : List Byte → List Byte → List Byte) (prk : List Byte) (I : Mem → List Byte) (b d size : Nat) (i : Nat) (m : Mem) : List Byte :=
  F prk ((if i = 0 then [] else part (m b) (d + (i - 1) * size) size) ++ I m ++ [BitVec.ofNat 8 (i + 1)])

theorem rd_prev (m : Mem) (b d size : Nat) (key : List Byte) (i : Nat) (hd : d ≤ (m b).length) (hk : (i + 1) * size ≤ key.length) :
    rdN key (i * size) size = some (part ((m.put b d key) b) (d + i * size) size) := by
  rw [Nat.succ_mul] at hk
  rw [rdN_some _ _ _ (by omega), put_at]
  have hl : ((m b).take d).length = d := by simp; omega
  unfold part
  rw [List.drop_append, hl, List.drop_of_length_le (l := (m b).take d) (by omega), List.nil_append, show d + i * size - d = i * size by omega]

/-- `expandKey` in a memory that contains the key. -/
theorem expandKey_eq (hL : M.digestSize < 2 ^ 64) (m : Mem) (b d kl : Nat) (hd : d ≤ (m b).length) (I : Mem → List Byte) (n : Nat) (hnk : n ≤ kl) (i : Nat) (o : Obj M) (key prev : List Byte)
    (w : L.Wf o.hmac) (hp : o.prk.length = M.digestSize) (hi : Pbkdf2.At.Reads m b d kl o.info I) (hk : key.length = kl) (hin : (i + 1) * M.digestSize ≤ n) (hpl : prev.length < 2 ^ 64)
    (hprev : prev = if i = 0 then [] else part ((m.put b d key) b) (d + (i - 1) * M.digestSize) M.digestSize) :
    ∃ st key', expandKey M (m.put b d key) o key (i * M.digestSize) (BitVec.ofNat 8 (i + 1)) prev = some ({ o with hmac := st }, key') ∧ L.Wf st ∧ key'.length = kl ∧
      m.put b d key' = overwritten (block F o.prk I b d M.digestSize) b d M.digestSize n 1 i (m.put b d key) := by
  have hio := hin
  rw [Nat.succ_mul] at hio
  obtain ⟨i1, i2⟩ := hi key hk
  obtain ⟨s1, e1, w1⟩ := expand_eq L hL (m.put b d key) o (key.drop (i * M.digestSize)) (BitVec.ofNat 8 (i + 1)) prev _ w hp i1 i2 hpl (by simp; omega)
  have hB : blk F o.prk (I (m.put b d key)) prev (BitVec.ofNat 8 (i + 1)) = block F o.prk I b d M.digestSize i (m.put b d key) := by
    unfold blk block; rw [hprev]
  have hbl := blk_length L o.prk (I (m.put b d key)) prev (BitVec.ofNat 8 (i + 1))
  rw [hB] at e1 hbl
  refine ⟨s1, key.take (i * M.digestSize) ++ block F o.prk I b d M.digestSize i (m.put b d key) ++ key.drop (i * M.digestSize + M.digestSize), ?_, w1, ?_, ?_⟩
  · unfold expandKey
    rw [if_pos (by omega), e1]
    simp only [Option.bind_eq_bind, Option.bind_some, Option.pure_def, List.drop_drop, List.append_assoc]
  · simp only [List.length_append, List.length_take, List.length_drop, hbl]; omega
  · rw [overwritten, overwritten]
    generalize block F o.prk I b d M.digestSize i (m.put b d key) = B at hbl ⊢
    rw [List.take_of_length_le (l := B) (by omega), write_put m b d _ key B hd (by omega), hbl]

theorem overwritten_first (blk : Nat → (Nat → List Byte) → List Byte) (b d size n k i : Nat) (m : Nat → List Byte) :
    overwritten blk b d size n (k + 1) i m = overwritten blk b d size n k (i + 1) (overwritten blk b d size n 1 i m) := rfl

theorem loop_eq (hL : M.digestSize < 2 ^ 64) (m : Mem) (b d kl : Nat) (hd : d ≤ (m b).length) (I : Mem → List Byte) (n : Nat) (hnk : n ≤ kl) (k : Nat) :
    ∀ (i j : Nat) (o : Obj M) (key : List Byte), L.Wf o.hmac → o.prk.length = M.digestSize → Pbkdf2.At.Reads m b d kl o.info I → key.length = kl → (i + 1 + k) * M.digestSize ≤ n →
    ∃ st key', forM' (fun i s => step M (m.put b d s.key) i s) k j ⟨o, key, BitVec.ofNat 8 (i + 1 + 1), (i + 1) * M.digestSize, i * M.digestSize⟩
      = some ⟨{ o with hmac := st }, key', BitVec.ofNat 8 (i + 1 + k + 1), (i + 1 + k) * M.digestSize, (i + k) * M.digestSize⟩ ∧ L.Wf st ∧ key'.length = kl ∧
      m.put b d key' = overwritten (block F o.prk I b d M.digestSize) b d M.digestSize n k (i + 1) (m.put b d key) := by
  induction k with
  | zero => intro i j o key w _ _ hk _; exact ⟨o.hmac, key, rfl, w, hk, rfl⟩
  | succ k ih =>
    intro i j o key w hp hi hk hik
    have hi1 : (i + 1 + 1) * M.digestSize ≤ n := Nat.le_trans (Nat.mul_le_mul_right _ (by omega)) hik
    have hpr : (i + 1) * M.digestSize ≤ n := Nat.le_trans (Nat.mul_le_mul_right _ (by omega)) hi1
    have hrd := rd_prev m b d M.digestSize key i hd (by omega)
    have hpl : (part ((m.put b d key) b) (d + i * M.digestSize) M.digestSize).length < 2 ^ 64 := by unfold part; simp only [List.length_take]; omega
    obtain ⟨s1, k1, e1, w1, l1, m1⟩ := expandKey_eq L hL m b d kl hd I n hnk (i + 1) o key _ w hp hi hk hi1 hpl (by rw [if_neg (by omega), Nat.add_sub_cancel])
    have es : step M (m.put b d key) j ⟨o, key, BitVec.ofNat 8 (i + 1 + 1), (i + 1) * M.digestSize, i * M.digestSize⟩
        = some ⟨{ o with hmac := s1 }, k1, BitVec.ofNat 8 (i + 1 + 1 + 1), (i + 1 + 1) * M.digestSize, (i + 1) * M.digestSize⟩ := by
      unfold step
      simp only [hrd, Option.bind_eq_bind, Option.bind_some, e1, Option.pure_def]
      rw [BitVec.add_comm, Hkdf.one_add_ofNat, Nat.succ_mul (i + 1), Nat.succ_mul i]
    obtain ⟨s2, key', e2, w2, l2, m2⟩ := ih (i + 1) (j + 1) { o with hmac := s1 } k1 w1 hp hi l1 (by rw [show i + 1 + 1 + k = i + 1 + (k + 1) by omega]; exact hik)
    refine ⟨s2, key', ?_, w2, l2, ?_⟩
    · simp only [forM', Option.bind_eq_bind]
      rw [es, Option.bind_some, e2, show i + 1 + 1 + k = i + 1 + (k + 1) by omega, show i + 1 + k = i + (k + 1) by omega]
    · rw [m2, m1]; rfl

theorem derive_eq (hL : M.digestSize < 2 ^ 64) (hpos : 0 < M.digestSize) (m : Mem) (b d n : Nat) (hd : d + n ≤ (m b).length) (I : Mem → List Byte)
    (o : Obj M) (w : L.Wf o.hmac) (hp : o.prk.length = M.digestSize) (hi : Pbkdf2.At.Reads m b d ((m b).length - d) o.info I)
    (hc : o.counter = 1) (hb : o.buffer.length = M.digestSize) (hbs : o.bufferSize = 0) :
    ∃ o', derive h M o m b d n
      = some (o', overwritten (block F o.prk I b d M.digestSize) b d M.digestSize n ((n + M.digestSize - 1) / M.digestSize) 0 m, n) := by
  have hdm := Nat.div_add_mod n M.digestSize
  have hml := Nat.mod_lt n hpos
  rw [Nat.mul_comm] at hdm
  have hceil : (n + M.digestSize - 1) / M.digestSize = n / M.digestSize + (if n % M.digestSize = 0 then 0 else 1) := by
    split
    · rename_i hz
      rw [show n + M.digestSize - 1 = (M.digestSize - 1) + n / M.digestSize * M.digestSize by omega, Nat.add_mul_div_right _ _ hpos, Nat.div_eq_of_lt (by omega)]; omega
    · rename_i hz
      rw [show n + M.digestSize - 1 = (n % M.digestSize - 1) + (n / M.digestSize + 1) * M.digestSize by rw [Nat.succ_mul]; omega, Nat.add_mul_div_right _ _ hpos,
        Nat.div_eq_of_lt (by omega)]; omega
  unfold derive
  rw [if_pos (by omega)]
  unfold serve
  rw [if_neg (by omega)]
  simp only [Option.bind_eq_bind, Option.bind_some, Option.pure_def]
  by_cases hz : n = 0
  · subst hz
    rw [if_pos rfl, put_self]
    refine ⟨o, ?_⟩
    rw [hceil]; simp [overwritten]
  rw [if_neg hz, Nat.sub_self, hceil]
  generalize hq : n / M.digestSize = full at hdm
  generalize hr : n % M.digestSize = last at hdm hml
  have hkl : ((m b).drop d).length = (m b).length - d := by simp
  have hprev : previous M o = [] := by unfold previous; rw [if_pos hc]
  -- the last step: `last` bytes of the block in the buffer
  have fin : ∀ (o2 : Obj M) (key : List Byte) (c : BitVec 8), key.length = (m b).length - d → o2.buffer.length = M.digestSize →
      m.put b d key = overwritten (block F o.prk I b d M.digestSize) b d M.digestSize n full 0 m →
      (last ≠ 0 → o2.buffer = block F o.prk I b d M.digestSize full (m.put b d key)) →
      ∃ o', ((do let key ← at_ key (full * M.digestSize) fun p => copy h (p := 1) (q := 1) p o2.buffer last
                 pure ({ o2 with bufferSize := M.digestSize - last, counter := c }, key) : Option (Obj M × List Byte)).bind fun x => some (x.1, m.put b d x.2, n))
        = some (o', overwritten (block F o.prk I b d M.digestSize) b d M.digestSize n (full + (if last = 0 then 0 else 1)) 0 m, n) := by
    intro o2 key c lk lb mk hbuf
    rw [at_eq _ _ _ (by omega), copy_bytes h _ _ _ (by omega) (by simp; omega)]
    simp only [Option.map_some, Option.bind_eq_bind, Option.bind_some, Option.pure_def]
    by_cases hl : last = 0
    · subst hl
      rw [if_pos rfl, show full + 0 = full from rfl, ← mk]
      simp only [List.take_zero, List.nil_append, List.drop_zero, List.take_append_drop]
      exact ⟨_, rfl⟩
    · rw [if_neg hl, overwritten_last, Nat.zero_add, ← mk, ← hbuf hl, write_put m b d _ key _ (by omega) (by simp only [List.length_take, lb]; omega)]
      rw [show n - full * M.digestSize = last by omega, List.length_take, lb, Nat.min_eq_left (by omega), List.drop_drop]
      simp only [List.append_assoc]
      exact ⟨_, rfl⟩
  unfold generate
  simp only [hq, hr]
  by_cases hf : full = 0
  · rw [if_pos hf]
    subst hf
    obtain ⟨i1, i2⟩ := hi ((m b).drop d) hkl
    obtain ⟨s1, e1, w1⟩ := expand_eq L hL (m.put b d ((m b).drop d)) o o.buffer o.counter (previous M o) _ w hp i1 i2 (by simp [hprev]) (by omega)
    have hbl := blk_length L o.prk (I (m.put b d ((m b).drop d))) (previous M o) o.counter
    rw [List.drop_of_length_le (Nat.le_of_eq hb), List.append_nil] at e1
    simp only [single, expandBuffer, e1, Option.bind_eq_bind, Option.bind_some, Option.pure_def]
    have := fin { o with hmac := s1, buffer := blk F o.prk (I (m.put b d ((m b).drop d))) (previous M o) o.counter } ((m b).drop d) (o.counter + 1) hkl hbl
      (by rw [put_self]; rfl) (fun _ => by simp only [block, blk, hprev, hc, if_true]; rfl)
    simpa only [Nat.zero_mul, Option.bind_eq_bind, Option.pure_def] using this
  · rw [if_neg hf]
    obtain ⟨f, rfl⟩ : ∃ f, full = f + 1 := ⟨full - 1, by omega⟩
    obtain ⟨s1, k1, e1, w1, l1, m1⟩ := expandKey_eq L hL m b d ((m b).length - d) (by omega) I n (by omega) 0 o ((m b).drop d) [] w hp hi hkl
      (by have := Nat.succ_mul f M.digestSize; have := Nat.le_mul_of_pos_left M.digestSize (show 0 < f + 1 by omega); omega) (by simp) (by simp)
    obtain ⟨s2, k2, e2, w2, l2, m2⟩ := loop_eq L hL m b d ((m b).length - d) (by omega) I n (by omega) f 0 1 { o with hmac := s1 } k1 w1 hp hi l1
      (by rw [show 0 + 1 + f = f + 1 by omega]; omega)
    rw [put_self] at m1
    have hm2 : m.put b d k2 = overwritten (block F o.prk I b d M.digestSize) b d M.digestSize n (f + 1) 0 m := by
      rw [m2, m1]; rfl
    have hc0 : BitVec.ofNat 8 (0 + 1) = o.counter := by rw [hc]; rfl
    rw [hc0, Nat.zero_mul] at e1
    have hc1 : BitVec.ofNat 8 (0 + 1 + 1) = o.counter + 1 := by rw [hc]; rfl
    rw [hc1, show (0 + 1) * M.digestSize = 0 + M.digestSize by omega, Nat.zero_mul] at e2
    have hrd := rd_prev m b d M.digestSize k2 f (by omega) (by omega)
    obtain ⟨i1, i2⟩ := hi k2 l2
    have hpl : (part ((m.put b d k2) b) (d + f * M.digestSize) M.digestSize).length < 2 ^ 64 := by unfold part; simp only [List.length_take]; omega
    obtain ⟨s3, e3, w3⟩ := expand_eq L hL (m.put b d k2) { o with hmac := s2 } o.buffer (BitVec.ofNat 8 (0 + 1 + f + 1)) _ _ w2 hp i1 i2 hpl (by omega)
    have hbl := blk_length L o.prk (I (m.put b d k2)) (part ((m.put b d k2) b) (d + f * M.digestSize) M.digestSize) (BitVec.ofNat 8 (0 + 1 + f + 1))
    rw [List.drop_of_length_le (Nat.le_of_eq hb), List.append_nil] at e3
    unfold blocks
    simp only [hprev, e1, Option.bind_eq_bind, Option.bind_some, Nat.add_sub_cancel]
    rw [e2]
    simp only [Option.bind_some]
    rw [show 0 + f = f by omega, hrd]
    simp only [Option.bind_some, expandBuffer, Option.bind_eq_bind, e3, Option.pure_def]
    have := fin { o with hmac := s3, buffer := blk F o.prk (I (m.put b d k2)) (part ((m.put b d k2) b) (d + f * M.digestSize) M.digestSize) (BitVec.ofNat 8 (0 + 1 + f + 1)) } k2
      (BitVec.ofNat 8 (0 + 1 + f + 1) + 1) l2 hbl hm2 (fun _ => by
        simp only [block, blk]
        rw [if_neg (by omega), Nat.add_sub_cancel, show 0 + 1 + f + 1 = f + 1 + 1 by omega])
    simpa only [show 0 + 1 + f = f + 1 by omega, Option.bind_eq_bind, Option.pure_def] using this

end Milo.Hkdf.At

namespace Milo.InPlace
open Memory Spec.InPlace

/-- What is read through a view of `s` made in memory `m` when the memory is `m'`. -/
def seen (h : Host) (m : Mem) (s : Span) (m' : Mem) : List Byte := if h.consteval then (m s.buf).take s.size else (m' s.buf).take s.size

theorem put_length (m : Mem) (b d : Nat) (key : List Byte) (hd : d ≤ (m b).length) (hk : key.length = (m b).length - d) (i : Nat) : ((m.put b d key) i).length = (m i).length := by
  unfold Mem.put
  split
  · rename_i e; subst e; simp; omega
  · rfl

theorem make_reads (h : Host) (sizes : Nat → Nat) (m : Mem) (s : Span) (hm : Kdf.MemOk sizes m) (hs : s.size ≤ sizes s.buf ∧ s.size < 2 ^ 64) (b d : Nat) (hd : d ≤ (m b).length) :
    ∃ v, View.make h m s = some v ∧ Pbkdf2.At.Reads m b d ((m b).length - d) v (seen h m s) := by
  have hr := read_some sizes m s hm hs.1
  unfold View.make
  by_cases hc : h.consteval
  · refine ⟨.owned ((m s.buf).take s.size), by rw [if_pos hc, hr]; rfl, fun key hk => ?_⟩
    unfold seen
    rw [if_pos hc]
    exact ⟨rfl, by simp; omega⟩
  · refine ⟨.ref s, by rw [if_neg hc], fun key hk => ?_⟩
    unfold seen
    rw [if_neg hc]
    refine ⟨?_, by simp; omega⟩
    show rdN (m.put b d key s.buf) 0 s.size = _
    rw [rdN_some _ _ _ (by rw [put_length m b d key hd hk, hm]; omega), List.drop_zero]

/-- Blocks that come out as in memory of their own. -/
theorem overwritten_stream (block : Nat → (Nat → List Byte) → List Byte) (b d size n : Nat) (m : Nat → List Byte) (c : Nat → List Byte) (hl : ∀ i, (c i).length = size)
    (hb : ∀ k, k * size < n → block k (write m b d ((List.range k).map c).flatten) = c k) (K : Nat) (hd : d + n ≤ (m b).length) (hK : ∀ k, k < K → k * size < n) :
    overwritten block b d size n K 0 m = write m b d (((List.range K).map c).flatten.take n) := by
  have hfl : ∀ k, (((List.range k).map c).flatten).length = k * size := by
    intro k
    rw [List.length_flatten, List.map_map, show List.length ∘ c = fun _ => size from funext hl]
    simp [List.map_const']
  induction K with
  | zero =>
    funext i
    unfold write replaced overwritten
    by_cases hi : i = b
    · subst hi; simp
    · simp [hi]
  | succ K ih =>
    have hkn := hK K (by omega)
    rw [overwritten_last, ih (fun k hk => hK k (by omega)), Nat.zero_add]
    rw [List.take_of_length_le (by rw [hfl]; omega), hb K hkn, List.range_succ, List.map_append, List.flatten_append, List.take_append, hfl,
      List.take_of_length_le (i := n) (by rw [hfl]; omega)]
    simp only [List.map_cons, List.map_nil, List.flatten_cons, List.flatten_nil, List.append_nil]
    generalize (c K).take (n - K * size) = y
    have hx := hfl K
    generalize ((List.range K).map c).flatten = x at hx ⊢
    funext i
    unfold write replaced
    by_cases hi : i = b
    · subst hi
      simp only [if_true]
      have ht : ((m i).take d).length = d := by simp; omega
      rw [← hx, show d + x.length = (List.take d (m i) ++ x).length by simp [ht]]
      rw [List.take_left' rfl, ← List.drop_drop, List.drop_left' rfl, List.drop_drop]
      simp only [List.append_assoc, List.length_append, ht, Nat.add_assoc]
    · simp [hi]

theorem take_flatten_range (c : Nat → List Byte) (size n k N : Nat) (hl : ∀ i, (c i).length = size) (hk : k ≤ N) (hn : n ≤ k * size) :
    ((List.range N).map c).flatten.take n = ((List.range k).map c).flatten.take n := by
  obtain ⟨j, rfl⟩ : ∃ j, N = k + j := ⟨N - k, by omega⟩
  have hfl : (((List.range k).map c).flatten).length = k * size := by
    rw [List.length_flatten, List.map_map, show List.length ∘ c = fun _ => size from funext hl]
    simp [List.map_const']
  rw [List.range_add, List.map_append, List.flatten_append, List.take_append_of_le_length (by rw [hfl]; exact hn)]

/-- A range not reached by the write. -/
theorem seen_elsewhere (h : Host) (m : Mem) (s : Span) (b d : Nat) (xs : List Byte) (hd : d ≤ (m b).length) (he : h.consteval = true ∨ s.buf ≠ b ∨ s.size ≤ d) :
    seen h m s (write m b d xs) = (m s.buf).take s.size := by
  unfold seen
  by_cases hc : h.consteval
  · rw [if_pos hc]
  rw [if_neg hc]
  by_cases hb : s.buf = b
  · have hsd : s.size ≤ d := by
      rcases he with h1 | h1 | h1
      · exact absurd h1 hc
      · exact absurd hb h1
      · exact h1
    unfold write replaced
    rw [if_pos hb, hb, List.append_assoc, List.take_append_of_le_length (by simp; omega), List.take_take, Nat.min_eq_left hsd]
  · simp [write, hb]

theorem ceil_lt {n size k : Nat} (hpos : 0 < size) (hk : k < (n + size - 1) / size) : k * size < n := by
  have := (Nat.le_div_iff_mul_le hpos).mp hk
  rw [Nat.succ_mul] at this
  omega

theorem ceil_le {n size N : Nat} (hpos : 0 < size) (hn : n ≤ N * size) : (n + size - 1) / size ≤ N := by
  apply Nat.le_of_lt_succ
  rw [Nat.div_lt_iff_lt_mul hpos, Nat.succ_mul]
  omega

theorem le_ceil {n size : Nat} (hpos : 0 < size) : n ≤ (n + size - 1) / size * size := by
  have := Nat.div_add_mod (n + size - 1) size
  have := Nat.mod_lt (n + size - 1) hpos
  rw [Nat.mul_comm]
  omega

end Milo.InPlace

namespace Milo.Pbkdf2.At
open Memory Spec.InPlace Milo.InPlace

variable (h : Host) (junk : Nat → Byte) {M : MacImpl} {F : List Byte → List Byte → List Byte} (L : LawfulMac M F)

include L in
theorem oneshot_eq (hL : M.digestSize < 2 ^ 64) (hpos : 0 < M.digestSize) (sizes : Nat → Nat) (m : Mem) (hm : Kdf.MemOk sizes m) (a : Args)
    (ha : ∀ s ∈ [a.ikm, a.salt], s.size ≤ sizes s.buf ∧ s.size < 2 ^ 64) (b d n : Nat) (hd : d + n ≤ (m b).length) (hn : n ≤ (2 ^ 32 - 1) * M.digestSize) :
    oneshot h M junk m a b d n
      = some (overwritten (fun i m' => Spec.pbkdf2T F (seen h m a.ikm m') (seen h m a.salt m') (i + 1) (max a.iterations.toNat 1)) b d M.digestSize n
          ((n + M.digestSize - 1) / M.digestSize) 0 m, n) := by
  simp only [List.mem_cons, List.not_mem_nil, or_false, forall_eq_or_imp, forall_eq] at ha
  obtain ⟨v, ev, rv⟩ := make_reads h sizes m a.ikm hm ha.1 b d (by omega)
  obtain ⟨u, eu, ru⟩ := make_reads h sizes m a.salt hm ha.2 b d (by omega)
  unfold oneshot
  simp only [init, ev, eu, Option.bind_eq_bind, Option.bind_some, Option.pure_def, impl]
  obtain ⟨o', e⟩ := derive_eq h junk L hL hpos m b d n hd _ _ hn
    ⟨M.fresh, v, u, a.iterations, 1, List.replicate M.digestSize 0, 0⟩ L.fresh rv ru rfl (by simp) rfl
  rw [e]
  simp only [Option.bind_some]
  rw [show max a.iterations.toNat 1 = a.iterations.toNat - 1 + 1 by omega]
  rfl

end Milo.Pbkdf2.At

namespace Milo.Hkdf.At
open Memory Spec.InPlace Milo.InPlace

variable (h : Host) {M : MacImpl} {F : List Byte → List Byte → List Byte} (L : LawfulMac M F)

include L in
theorem oneshot_eq (hL : M.digestSize < 2 ^ 64) (hpos : 0 < M.digestSize) (sizes : Nat → Nat) (m : Mem) (hm : Kdf.MemOk sizes m) (a : Args)
    (ha : ∀ s ∈ [a.ikm, a.salt, a.info], s.size ≤ sizes s.buf ∧ s.size < 2 ^ 64) (b d n : Nat) (hd : d + n ≤ (m b).length) :
    oneshot h M m a b d n
      = some (overwritten (block F (F (val m a.salt) (val m a.ikm)) (seen h m a.info) b d M.digestSize) b d M.digestSize n
          ((n + M.digestSize - 1) / M.digestSize) 0 m, n) := by
  simp only [List.mem_cons, List.not_mem_nil, or_false, forall_eq_or_imp, forall_eq] at ha
  obtain ⟨h1, h2, h3⟩ := ha
  obtain ⟨v, ev, rv⟩ := make_reads h sizes m a.info hm h3 b d (by omega)
  obtain ⟨s1, e1, r1⟩ := L.init M.fresh (val m a.salt) L.fresh (by simp [val]; omega)
  obtain ⟨s2, e2, r2⟩ := L.update s1 _ _ (val m a.ikm) r1 (by simp [val]; omega)
  obtain ⟨s3, e3, f3⟩ := L.finalize s2 _ _ r2
  have e4 := digest_all L s3 _ _ (List.replicate M.digestSize 0) f3 (by simp)
  rw [List.drop_of_length_le (by simp), List.append_nil, List.nil_append] at e4
  unfold oneshot
  simp only [init, ev, read_some sizes m a.salt hm h2.1, read_some sizes m a.ikm hm h1.1, Option.bind_eq_bind, Option.bind_some,
      show List.take a.salt.size (m a.salt.buf) = val m a.salt from rfl, show List.take a.ikm.size (m a.ikm.buf) = val m a.ikm from rfl, impl,
      e1, e2, e3, e4, Option.pure_def]
  obtain ⟨o', e⟩ := derive_eq h L hL hpos m b d n hd _
    ⟨s3, v, 1, F (val m a.salt) (val m a.ikm), List.replicate M.digestSize 0, 0⟩ (L.fin_wf _ _ _ f3) (L.length _ _) rv rfl (by simp) rfl
  rw [e]
  rfl

end Milo.Hkdf.At
