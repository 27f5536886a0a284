import Verif.Proof.PolyHash
import Verif.Proof.MacAlg
import Verif.Proof.ResumeSpec
import Verif.Proof.ForgeryCount
/- Poly1305 objects that are given data after they were finalized. -/
namespace Milo.Poly1305
open Memory Spec.Resume

/-- The final reduction leaves limbs of 32 bits and the top limb alone. -/
theorem carry_bounded (acc s : List W32) (ha : Bounded acc) (hs : s.length = 4) : ∃ out, carry acc s = some out ∧ Bounded out := by
  obtain ⟨len, l0, l1, l2, l3, l4⟩ := ha
  obtain ⟨c0, c1, c2, c3, c4, rfl⟩ := list5 acc len
  match s, hs with
  | [s0, s1, s2, s3], _ =>
    have lo : ∀ x : W32, (u64 x).toNat < 2 ^ 32 := fun x => by rw [u64_toNat]; exact x.isLt
    exact ⟨_, rfl, rfl, lo _, lo _, lo _, lo _, l4⟩

theorem valL_split (acc : List W32) (h : Bounded acc) : ∃ c ≤ 4, valL acc = val4 (acc.take 4) + 2 ^ 128 * c ∧ val4 (acc.take 4) < 2 ^ 128 := by
  obtain ⟨len, l0, l1, l2, l3, l4⟩ := h
  obtain ⟨a, b, c, d, e, rfl⟩ := list5 acc len
  refine ⟨e.toNat, ?_, ?_, ?_⟩
  · have h : (u64 e).toNat ≤ 4 := l4
    rwa [u64_toNat] at h
  · simp only [valL, ofL, val5, u64_toNat]; rfl
  · show a.toNat + 2 ^ 32 * b.toNat + 2 ^ 64 * c.toNat + 2 ^ 96 * d.toNat < _
    have := a.isLt
    have := b.isLt
    have := c.isLt
    have := d.isLt
    omega

/-- The message `m`, `finalize`, then `y`: the accumulator continues from `acc0`, whose low words are the tag. -/
structure Resumed (h : Host) (o : Obj) (k m y : List Byte) : Prop where
  wf : Wf o
  ex : ∃ acc0, Bounded acc0 ∧ val4 (acc0.take 4) = tagN (seen h.endian k) m ∧
    KeyOk o.keyR (Spec.Poly1305.clamp (leNat ((seen h.endian k).take 16))) ∧
    SoakRep 16 (comp h o.keyR 1#32) acc0 o.acc o.buffer o.bufferSize (tail 16 m ++ y)

theorem lastBlock_keeps (h : Host) (o o' : Obj) (ho : Wf o) (e : lastBlock h o = some o') :
    o'.keyR = o.keyR ∧ o'.bufferSize = o.bufferSize ∧ o'.buffer.take o'.bufferSize = o.buffer.take o.bufferSize := by
  rw [lastBlock_eq h o ho] at e
  have e := Option.some.inj e
  subst e
  have := ho.buffer
  have := ho.size
  split
  · refine ⟨rfl, rfl, ?_⟩
    show (lastBuf o).take o.bufferSize = _
    unfold lastBuf
    rw [List.append_assoc, List.take_left' (by simp; omega)]
  · exact ⟨rfl, rfl, rfl⟩

theorem finalize_resumed (h : Host) (o : Obj) (k m : List Byte) (hr : Rep h o k m) : ∃ o', finalize h o = some o' ∧ Resumed h o' k m [] := by
  obtain ⟨o1, e1, w1, ks, b1, v1⟩ := lastBlock_val h o k m hr
  obtain ⟨out, e2, l2, v2⟩ := carry_val o1.acc o1.keyS b1 w1.s
  obtain ⟨out', e3, b3⟩ := carry_bounded o1.acc o1.keyS b1 w1.s
  rw [e2] at e3
  cases e3
  obtain ⟨k1, k2, k3⟩ := lastBlock_keeps h o o1 hr.wf e1
  have wf : Wf { o1 with acc := out } := ⟨w1.r, w1.s, l2, w1.buffer, w1.size⟩
  refine ⟨_, finalize_eq h o o1 e1 out e2, wf, out, b3, ?_, ?_, ?_⟩
  · rw [v2, v1, ks, hr.ks]
    unfold tagN
    rw [spec_leNat, spec_leNat]
  · show KeyOk o1.keyR _
    rw [k1]; exact hr.kr
  · have s := self_rep h { o1 with acc := out } wf
    rw [List.append_nil]
    have : o1.buffer.take o1.bufferSize = tail 16 m := by rw [k3]; exact hr.soaked.data
    rw [← this]
    exact s

theorem update_resumed (h : Host) (o : Obj) (k m y x : List Byte) (hr : Resumed h o k m y) : ∃ o', update h o x = some o' ∧ Resumed h o' k m (y ++ x) := by
  obtain ⟨wf, acc0, b, t, kr, s⟩ := hr
  obtain ⟨o', e, w, k1, k2, s'⟩ := update_gen h o wf acc0 b.len _ x s
  refine ⟨o', e, w, acc0, b, t, by rw [k1]; exact kr, ?_⟩
  rw [k1, ← List.append_assoc]
  exact s'

theorem digest_wf_eq (h : Host) (ds : Nat) (hds : ds ≤ 16) (o : Obj) (ho : Wf o) (dst : List Byte) (n : Nat) (hn : min n ds ≤ dst.length) :
    digest h ds o dst n = some (Spec.written ((Spec.leBytes 16 (val4 (o.acc.take 4))).take ds) dst n) := by
  have hs := ho.acc
  have hc := copyLe_eq h (q := 4) (by simp [Swappable]) dst o.acc (min n ds) (by rw [hs]; omega) hn
  have e : digest h ds o dst n = some ((image .little (p := 4) o.acc).take (min n ds) ++ dst.drop (min n ds), min n ds) := by
    unfold digest; simp only; rw [hc]; rfl
  rw [e, image_tag _ hs _ (by omega)]
  have hl : ((Spec.leBytes 16 (val4 (o.acc.take 4))).take ds).length = ds := by simp [Spec.leBytes]; omega
  unfold Spec.written
  rw [hl, List.take_take]

theorem polyTag_eq (key m : List Byte) : polyTag key m = tagN key m := by
  unfold polyTag
  rw [mac_eq, Milo.Forgery.leNat_leBytes (tagN key m) (Nat.mod_lt _ (by omega))]

/-- What `digest` returns of such an object. -/
theorem resumed_value (h : Host) (o : Obj) (k m y : List Byte) (hr : Resumed h o k m y) :
    ∃ v, PolyResumed (seen h.endian k) m y v ∧ val4 (o.acc.take 4) = v % 2 ^ 128 := by
  obtain ⟨wf, acc0, b, t, kr, s⟩ := hr
  obtain ⟨c, hc, e0, -⟩ := valL_split acc0 b
  have hst := s.state
  unfold absorbed at hst
  have hfull : ((tail 16 m ++ y).take ((tail 16 m ++ y).length / 16 * 16)).length % 16 = 0 := by
    have := Nat.div_mul_le_self (tail 16 m ++ y).length 16
    rw [List.length_take, Nat.min_eq_left this, Nat.mul_mod_left]
  obtain ⟨b1, v1⟩ := fold_val h o.keyR _ kr _ (chunks_all_length 16 (by omega) _ hfull) acc0 b (valL acc0) rfl
  rw [← hst] at b1 v1
  obtain ⟨c1, hc1, e1, l1⟩ := valL_split o.acc b1
  refine ⟨valL o.acc, ⟨c, hc, by omega, ?_, ?_⟩, by omega⟩
  · intro hs
    have : (tail 16 m ++ y).length / 16 = 0 := Nat.div_eq_of_lt hs
    rw [this, Nat.zero_mul, List.take_zero, chunks_nil] at hst
    rw [hst]
    show valL acc0 = _
    rw [e0, t, polyTag_eq]
  · rw [v1, e0, t, spec_leNat, polyTag_eq, tail]

end Milo.Poly1305
