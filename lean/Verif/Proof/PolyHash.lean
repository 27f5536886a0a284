import Verif.Proof.Poly1305
import Verif.Proof.Lawful
/- The Poly1305 class computes RFC 8439's Poly1305, on the key bytes as the host's byte order sees them. -/
namespace Milo.Poly1305
open Memory

/-- Words, as a number. -/
theorem image_val4 (a b c d : W32) : leNat (image .little (p := 4) [a, b, c, d]) = val4 [a, b, c, d] := by
  have hb := a.isLt
  have := b.isLt
  have := c.isLt
  have := d.isLt
  simp only [image_cons, image_nil, List.append_nil]
  rw [leNat_append, leNat_append, leNat_append]
  have e : ∀ x : W32, leNat (toBytes .little (n := 4) x) = x.toNat := by
    intro x
    have := x.isLt
    rw [toBytes_little, spec_leBytes, leNat_toLE]
    apply Nat.mod_eq_of_lt
    exact x.isLt
  have hl : ∀ x : W32, (toBytes .little (n := 4) x).length = 4 := by intro x; simp [toBytes]
  rw [e, e, e, e, hl, hl, hl]
  simp only [val4]
  omega

theorem and_split (v m : Nat) : v &&& m = (v % 2 ^ 32 &&& m % 2 ^ 32) + 2 ^ 32 * (v / 2 ^ 32 &&& m / 2 ^ 32) := by
  rw [← Nat.and_mod_two_pow, ← Nat.and_div_two_pow]
  omega

theorem clamp_val4 (a b c d : W32) : Spec.Poly1305.clamp (val4 [a, b, c, d])
    = val4 [a &&& 0x0fffffff#32, b &&& 0x0ffffffc#32, c &&& 0x0ffffffc#32, d &&& 0x0ffffffc#32] := by
  have := a.isLt
  have := b.isLt
  have := c.isLt
  have := d.isLt
  unfold Spec.Poly1305.clamp val4
  simp only [BitVec.toNat_and, BitVec.toNat_ofNat]
  rw [and_split, and_split (_ / 2 ^ 32), and_split (_ / 2 ^ 32 / 2 ^ 32)]
  rw [show (0x0ffffffc0ffffffc0ffffffc0fffffff : Nat) % 2 ^ 32 = 0x0fffffff from rfl,
    show (0x0ffffffc0ffffffc0ffffffc0fffffff : Nat) / 2 ^ 32 % 2 ^ 32 = 0x0ffffffc from rfl,
    show (0x0ffffffc0ffffffc0ffffffc0fffffff : Nat) / 2 ^ 32 / 2 ^ 32 % 2 ^ 32 = 0x0ffffffc from rfl,
    show (0x0ffffffc0ffffffc0ffffffc0fffffff : Nat) / 2 ^ 32 / 2 ^ 32 / 2 ^ 32 = 0x0ffffffc from rfl,
    show (0x0fffffff : Nat) % 2 ^ 32 = 0x0fffffff from rfl, show (0x0ffffffc : Nat) % 2 ^ 32 = 0x0ffffffc from rfl]
  generalize hv : a.toNat + 2 ^ 32 * b.toNat + 2 ^ 64 * c.toNat + 2 ^ 96 * d.toNat = v
  have e0 : v % 2 ^ 32 = a.toNat := by omega
  have e1 : v / 2 ^ 32 % 2 ^ 32 = b.toNat := by omega
  have e2 : v / 2 ^ 32 / 2 ^ 32 % 2 ^ 32 = c.toNat := by omega
  have e3 : v / 2 ^ 32 / 2 ^ 32 / 2 ^ 32 = d.toNat := by omega
  rw [e0, e1, e2, e3]
  omega

theorem and_le (x : W32) (m : Nat) (hm : m < 2 ^ 32) : (x &&& BitVec.ofNat 32 m).toNat ≤ m := by
  rw [BitVec.toNat_and, BitVec.toNat_ofNat, Nat.mod_eq_of_lt hm]
  exact Nat.and_le_right

theorem and_fc (x : W32) : (x &&& 0x0ffffffc#32).toNat % 4 = 0 := by
  rw [BitVec.toNat_and]
  exact (Nat.and_mod_two_pow (n := 2) (a := x.toNat) (b := 0x0ffffffc)).trans (Nat.and_zero _)

theorem five (x : W32) (hx : x.toNat < 2 ^ 28) : ((x >>> 2) * 5#32).toNat = x.toNat / 4 * 5 := by
  rw [BitVec.toNat_mul, BitVec.toNat_ushiftRight, Nat.shiftRight_eq_div_pow]
  show _ / 4 * 5 % _ = _
  omega

/-- The key schedule of the eight words `w`. -/
theorem schedule_eq (w : List W32) (hw : w.length = 8) : ∃ r s, schedule w = some (r, s) ∧ r.length = 8 ∧ s.length = 4 ∧
    KeyOk r (Spec.Poly1305.clamp (leNat ((image .little (p := 4) w).take 16))) ∧
    val4 s = leNat (((image .little (p := 4) w).drop 16).take 16) := by
  obtain ⟨x0, x1, x2, x3, s0, s1, s2, s3, rfl⟩ := list8 w hw
  refine ⟨_, _, rfl, rfl, rfl, ?_, ?_⟩
  · have e := image_take .little (p := 4) [x0, x1, x2, x3, s0, s1, s2, s3] 4
    rw [show 4 * 4 = 16 from rfl] at e
    rw [e]
    show KeyOk _ (Spec.Poly1305.clamp (leNat (image .little (p := 4) [x0, x1, x2, x3])))
    rw [image_val4, clamp_val4]
    have b0 : (x0 &&& 0x0fffffff#32).toNat ≤ 0x0fffffff := and_le x0 0x0fffffff (by decide)
    have b1 : (x1 &&& 0x0ffffffc#32).toNat ≤ 0x0ffffffc := and_le x1 0x0ffffffc (by decide)
    have b2 : (x2 &&& 0x0ffffffc#32).toNat ≤ 0x0ffffffc := and_le x2 0x0ffffffc (by decide)
    have b3 : (x3 &&& 0x0ffffffc#32).toNat ≤ 0x0ffffffc := and_le x3 0x0ffffffc (by decide)
    exact ⟨_, _, _, _, _, _, _, _, rfl, by omega, by omega, by omega, by omega, and_fc _, and_fc _, and_fc _,
      five _ (by omega), five _ (by omega), five _ (by omega), five _ (by omega), rfl⟩
  · have e := image_drop .little (p := 4) [x0, x1, x2, x3, s0, s1, s2, s3] 4
    rw [show 4 * 4 = 16 from rfl] at e
    rw [e, List.take_of_length_le (by rw [image_length]; simp)]
    exact (image_val4 s0 s1 s2 s3).symm

/-- The key bytes, as a host of that byte order understands them. -/
def seen (e : Endian) (key : List Byte) : List Byte := image .little (p := 4) (ofImage e 4 8 (fit 32 key))

def F (h : Host) (ds : Nat) (key msg : List Byte) : List Byte := (Spec.Poly1305.mac (seen h.endian key) msg).take ds

structure Wf (o : Obj) : Prop where
  r : o.keyR.length = 8
  s : o.keyS.length = 4
  acc : o.acc.length = 5
  buffer : o.buffer.length = 16
  size : o.bufferSize < 16

def zero5 : List W32 := [0, 0, 0, 0, 0]

structure Rep (h : Host) (o : Obj) (k m : List Byte) : Prop where
  wf : Wf o
  kr : KeyOk o.keyR (Spec.Poly1305.clamp (leNat ((seen h.endian k).take 16)))
  ks : val4 o.keyS = leNat (((seen h.endian k).drop 16).take 16)
  soaked : SoakRep 16 (comp h o.keyR 1#32) zero5 o.acc o.buffer o.bufferSize m

/-- The number RFC 8439 encodes as the tag. -/
def tagN (key msg : List Byte) : Nat :=
  ((Spec.chunks 16 msg).foldl (Spec.Poly1305.absorb (Spec.Poly1305.clamp (Spec.leNat (key.take 16)))) 0 + Spec.leNat ((key.drop 16).take 16)) % 2 ^ 128

structure Fin (h : Host) (o : Obj) (k m : List Byte) : Prop where
  wf : Wf o
  tag : val4 (o.acc.take 4) = tagN (seen h.endian k) m

theorem self_rep (h : Host) (o : Obj) (ho : Wf o) :
    SoakRep 16 (comp h o.keyR 1#32) o.acc o.acc o.buffer o.bufferSize (o.buffer.take o.bufferSize) := by
  have hl : (o.buffer.take o.bufferSize).length = o.bufferSize := by have := ho.buffer; have := ho.size; simp only [List.length_take]; omega
  obtain ⟨e1, e2⟩ := absorbed_short 16 (comp h o.keyR 1#32) o.acc (o.buffer.take o.bufferSize) (by have := ho.size; omega)
  exact ⟨e1.symm, by rw [hl, Nat.mod_eq_of_lt ho.size], e2.symm⟩

theorem update_gen (h : Host) (o : Obj) (ho : Wf o) (iv : List W32) (hiv : iv.length = 5)
    (m x : List Byte) (hr : SoakRep 16 (comp h o.keyR 1#32) iv o.acc o.buffer o.bufferSize m) :
    ∃ o', update h o x = some o' ∧ Wf o' ∧ o'.keyR = o.keyR ∧ o'.keyS = o.keyS ∧
      SoakRep 16 (comp h o.keyR 1#32) iv o'.acc o'.buffer o'.bufferSize (m ++ x) := by
  have hb := blocks_ok h o.keyR ho.r 1#32
  obtain ⟨n, buf', st', he, hl, hrep⟩ := soak_rep h hb iv hiv o.buffer o.bufferSize x o.acc m (by rw [ho.buffer]) hr
  refine ⟨⟨o.keyR, o.keyS, st', buf', n⟩, ?_, ⟨ho.r, ho.s, ?_, by rw [hl]; exact ho.buffer, ?_⟩, rfl, rfl, hrep⟩
  · unfold update
    simp only [he, Option.bind_eq_bind, Option.bind_some, Option.pure_def]
  · show st'.length = 5
    rw [hrep.state]; exact absorbed_wf hb.pos hb.wf _ hiv _
  · show n < 16
    rw [hrep.size]; exact Nat.mod_lt _ (by omega)

/-- The last partial block as the class builds it. -/
def lastBuf (o : Obj) : List Byte := o.buffer.take o.bufferSize ++ [1#8] ++ List.replicate (16 - o.bufferSize - 1) 0#8

theorem lastBuf_length (o : Obj) (ho : Wf o) : (lastBuf o).length = 16 := by
  have := ho.buffer
  have := ho.size
  simp [lastBuf]; omega

theorem lastBlock_eq (h : Host) (o : Obj) (ho : Wf o) :
    lastBlock h o = some (if o.bufferSize > 0 then { o with buffer := lastBuf o, acc := comp h o.keyR 0#32 o.acc (lastBuf o) } else o) := by
  have hbl := ho.buffer
  have hsz := ho.size
  unfold lastBlock
  by_cases hz : o.bufferSize > 0
  · rw [if_pos hz, if_pos hz]
    have e1 : wr1 o.buffer o.bufferSize 1#8 = some (o.buffer.take o.bufferSize ++ [1#8] ++ o.buffer.drop (o.bufferSize + 1)) := by
      unfold wr1
      rw [if_pos (by omega), List.set_eq_take_append_cons_drop, if_pos (by omega)]
      simp
    have e2 : (at_ (o.buffer.take o.bufferSize ++ [1#8] ++ o.buffer.drop (o.bufferSize + 1)) (o.bufferSize + 1)
        fun p => Memory.set h (p := 1) p 0 (16 - o.bufferSize - 1)) = some (lastBuf o) := by
      have hl : (o.buffer.take o.bufferSize ++ [1#8]).length = o.bufferSize + 1 := by simp only [List.length_append, List.length_take, List.length_singleton]; omega
      rw [at_eq _ _ _ (by rw [List.length_append, hl]; omega), List.drop_left' hl, List.take_left' hl, set_bytes _ _ _ _ (by rw [List.length_drop]; omega)]
      simp only [Option.map_some]
      rw [List.drop_drop, List.drop_of_length_le (by omega)]
      simp [lastBuf]
    have hp := process_eq h o.keyR ho.r 0#32 1 o.acc ho.acc (lastBuf o) (by rw [lastBuf_length o ho])
    have hc : Spec.chunks 16 ((lastBuf o).take (1 * 16)) = [lastBuf o] := by
      rw [List.take_of_length_le (by rw [lastBuf_length o ho])]
      have := chunks_cons 16 (by omega) (lastBuf o) [] (lastBuf_length o ho)
      rwa [List.append_nil, chunks_nil] at this
    rw [hc] at hp
    simp only [e1, Option.bind_eq_bind, Option.bind_some, e2, hp]
    rfl
  · rw [if_neg hz, if_neg hz]; rfl

theorem lastBlock_wf (h : Host) (o : Obj) (ho : Wf o) : ∃ o', lastBlock h o = some o' ∧ Wf o' ∧ o'.keyS = o.keyS := by
  refine ⟨_, lastBlock_eq h o ho, ?_, ?_⟩
  · split
    · exact ⟨ho.r, ho.s, rfl, lastBuf_length o ho, ho.size⟩
    · exact ho
  · split <;> rfl

theorem finalize_eq (h : Host) (o o1 : Obj) (e1 : lastBlock h o = some o1) (out : List W32) (e2 : carry o1.acc o1.keyS = some out) :
    finalize h o = some { o1 with acc := out } := by
  unfold finalize
  simp only [e1, e2, Option.bind_eq_bind, Option.bind_some, Option.pure_def]

theorem chunks_short (m : List Byte) (h0 : 0 < m.length) (h : m.length ≤ 16) : Spec.chunks 16 m = [m] := by
  unfold Spec.chunks
  have : m ≠ [] := fun e => by simp [e] at h0
  rw [dif_neg (by simp [this])]
  rw [List.take_of_length_le h, List.drop_of_length_le h, chunks_nil]

theorem fold_mod (r : Nat) (cs : List (List Byte)) (acc : Nat) (h : acc < Spec.Poly1305.p) :
    cs.foldl (Spec.Poly1305.absorb r) acc < Spec.Poly1305.p := by
  induction cs generalizing acc with
  | nil => exact h
  | cons c cs ih =>
    exact ih _ (Nat.mod_lt _ (by decide))

theorem zero5_bounded : Bounded zero5 := ⟨rfl, by decide, by decide, by decide, by decide, by decide⟩

/-- The accumulator before the final reduction. -/
theorem lastBlock_val (h : Host) (o : Obj) (k m : List Byte) (hr : Rep h o k m) :
    ∃ o', lastBlock h o = some o' ∧ Wf o' ∧ o'.keyS = o.keyS ∧ Bounded o'.acc ∧
      valL o'.acc % Spec.Poly1305.p
        = (Spec.chunks 16 m).foldl (Spec.Poly1305.absorb (Spec.Poly1305.clamp (leNat ((seen h.endian k).take 16)))) 0 := by
  obtain ⟨o', e, w, ks⟩ := lastBlock_wf h o hr.wf
  refine ⟨o', e, w, ks, ?_⟩
  rw [lastBlock_eq h o hr.wf] at e
  have e := Option.some.inj e
  subst e
  have hkr := hr.kr
  generalize Spec.Poly1305.clamp (leNat ((seen h.endian k).take 16)) = r at hkr ⊢
  have hmod0 : ∀ cs : List (List Byte), cs.foldl (Spec.Poly1305.absorb r) 0 % Spec.Poly1305.p = cs.foldl (Spec.Poly1305.absorb r) 0 :=
    fun cs => Nat.mod_eq_of_lt (fold_mod r cs 0 (by decide))
  -- whole blocks
  have hfull : (m.take (m.length / 16 * 16)).length % 16 = 0 := by
    have := Nat.div_mul_le_self m.length 16
    simp [Nat.min_eq_left this]
  have hchunks : Spec.chunks 16 m = Spec.chunks 16 (m.take (m.length / 16 * 16)) ++ Spec.chunks 16 (tail 16 m) := by
    conv => lhs; rw [split_tail 16 m]
    exact chunks_append 16 (by omega) _ _ hfull
  have hst := hr.soaked.state
  obtain ⟨b1, v1⟩ := fold_val h o.keyR _ hkr (Spec.chunks 16 (m.take (m.length / 16 * 16)))
    (chunks_all_length 16 (by omega) _ hfull) zero5 zero5_bounded 0 rfl
  unfold absorbed at hst
  rw [← hst] at b1 v1
  have htl := tail_length 16 m
  have hsz := hr.soaked.size
  by_cases hz : o.bufferSize > 0
  · rw [if_pos hz]
    obtain ⟨b2, v2⟩ := comp_val h o.keyR _ hkr 0#32 (by decide) o.acc b1 (lastBuf o) (lastBuf_length o hr.wf)
    refine ⟨b2, ?_⟩
    show valL (comp h o.keyR 0#32 o.acc (lastBuf o)) % _ = _
    rw [v2, hchunks, chunks_short (tail 16 m) (by omega) (by omega), List.foldl_append]
    have hn : leNat (lastBuf o) = Spec.leNat (tail 16 m ++ [1]) := by
      rw [spec_leNat]
      unfold lastBuf
      rw [hr.soaked.data, leNat_append, leNat_replicate_zero, Nat.mul_zero, Nat.add_zero]
      rfl
    rw [hn]
    simp only [List.foldl_cons, List.foldl_nil]
    show (valL o.acc + Spec.leNat (tail 16 m ++ [1]) + 0) * r % _ = _
    rw [Nat.add_zero]
    unfold Spec.Poly1305.absorb at v1 ⊢
    rw [Nat.mul_mod, Nat.add_mod, v1, ← Nat.add_mod, ← Nat.mul_mod]
  · rw [if_neg hz]
    refine ⟨b1, ?_⟩
    have ht : tail 16 m = [] := List.length_eq_zero_iff.mp (by omega)
    rw [v1, hmod0, hchunks, ht, chunks_nil, List.append_nil]

theorem mac_eq (key msg : List Byte) : Spec.Poly1305.mac key msg = Spec.leBytes 16 (tagN key msg) := rfl

/-- The first 16 bytes of the accumulator image. -/
theorem image_tag (acc : List W32) (ha : acc.length = 5) (n : Nat) (hn : n ≤ 16) :
    (image .little (p := 4) acc).take n = (Spec.leBytes 16 (val4 (acc.take 4))).take n := by
  obtain ⟨a, b, c, d, e, rfl⟩ := list5 acc ha
  have h1 : (image .little (p := 4) [a, b, c, d, e]).take n = (image .little (p := 4) [a, b, c, d]).take n := by
    have := image_take .little (p := 4) [a, b, c, d, e] 4
    rw [show [a, b, c, d] = [a, b, c, d, e].take 4 from rfl, ← this, List.take_take]
    rw [show min n (4 * 4) = n by omega]
  rw [h1]
  congr 1
  show _ = Spec.leBytes 16 (val4 [a, b, c, d])
  rw [← image_val4, spec_leBytes, toLE_leNat' (by rw [image_length]; rfl)]

def lawful (h : Host) (ds : Nat) (hds : ds ≤ 16) : LawfulMac (impl h ds) (F h ds) where
  Wf := Wf
  Rep := Rep h
  Fin := Fin h
  fresh := ⟨by simp [impl], by simp [impl], by simp [impl], by simp [impl], by show 0 < 16; omega⟩
  rep_wf := fun _ _ _ h => h.wf
  fin_wf := fun _ _ _ h => h.wf
  init := by
    intro o k ho hk
    have hi := init_eq h (p := 4) (q := 1) (by omega) (by omega) o.keyR k
    have hr := ho.r
    rw [image_bytes', hr] at hi
    obtain ⟨r, s, es, lr, ls, kr, ks⟩ := schedule_eq (ofImage h.endian 4 8 (fit (8 * 4) k)) (ofImage_length ..)
    refine ⟨{ o with keyR := r, keyS := s, acc := zero5, bufferSize := 0 }, ?_, ⟨lr, ls, rfl, ho.buffer, by show 0 < 16; omega⟩, kr, ks, ?_⟩
    · show initObj h o k = _
      unfold initObj
      simp only [hi, es, Option.bind_eq_bind, Option.bind_some, Option.pure_def]
      rfl
    · obtain ⟨e1, e2⟩ := absorbed_short 16 (comp h r 1#32) zero5 [] (by show 0 < 16; omega)
      exact ⟨e1.symm, rfl, e2.symm⟩
  update_wf := by
    intro o x ho
    obtain ⟨o', e, w, -⟩ := update_gen h o ho o.acc ho.acc _ x (self_rep h o ho)
    exact ⟨o', e, w⟩
  update := by
    intro o k m x hr _
    obtain ⟨o', e, w, kr, ks, s⟩ := update_gen h o hr.wf zero5 rfl m x hr.soaked
    exact ⟨o', e, w, kr ▸ hr.kr, ks ▸ hr.ks, kr.symm ▸ s⟩
  finalize_wf := by
    intro o ho
    obtain ⟨o1, e1, w1, -⟩ := lastBlock_wf h o ho
    obtain ⟨out, e2, l2⟩ := carry_some o1.acc o1.keyS w1.acc w1.s
    exact ⟨_, finalize_eq h o o1 e1 out e2, w1.r, w1.s, l2, w1.buffer, w1.size⟩
  finalize := by
    intro o k m hr
    obtain ⟨o1, e1, w1, ks, b1, v1⟩ := lastBlock_val h o k m hr
    obtain ⟨out, e2, l2, v2⟩ := carry_val o1.acc o1.keyS b1 w1.s
    refine ⟨_, finalize_eq h o o1 e1 out e2, ⟨w1.r, w1.s, l2, w1.buffer, w1.size⟩, ?_⟩
    show val4 (out.take 4) = _
    rw [v2, v1, ks, hr.ks]
    unfold tagN
    rw [spec_leNat, spec_leNat]
  digest_wf := by
    intro o dst n ho hn
    have hs := ho.acc
    have hn' : min n ds ≤ dst.length := hn
    have hc := copyLe_eq h (q := 4) (by simp [Swappable]) dst o.acc (min n ds) (by rw [hs]; omega) hn
    have e : digest h ds o dst n = some ((image .little (p := 4) o.acc).take (min n ds) ++ dst.drop (min n ds), min n ds) := by
      unfold digest; simp only; rw [hc]; rfl
    refine ⟨_, e, ?_⟩
    have := image_length (p := 4) Endian.little o.acc
    rw [hs] at this
    simp; omega
  digest := by
    intro o k m dst n hf hn
    have hs := hf.wf.acc
    have hc := copyLe_eq h (q := 4) (by simp [Swappable]) dst o.acc (min n ds) (by rw [hs]; omega) hn
    have e : digest h ds o dst n = some ((image .little (p := 4) o.acc).take (min n ds) ++ dst.drop (min n ds), min n ds) := by
      unfold digest; simp only; rw [hc]; rfl
    refine e.trans ?_
    unfold F
    rw [List.take_take, mac_eq, ← hf.tag, ← image_tag _ hs _ (by show min (min n ds) ds ≤ 16; omega)]
    show some (_, min n ds) = some (List.take (min (min n ds) ds) _ ++ _, min n ds)
    rw [show min (min n ds) ds = min n ds by omega]
    rfl
  length := by
    intro k m
    show (F h ds k m).length = ds
    unfold F Spec.Poly1305.mac Spec.leBytes
    simp
    omega

end Milo.Poly1305
