import Verif.Proof.Lawful
import Verif.Proof.Sha512
/- The SHA-384, SHA-512, SHA-512/224, SHA-512/256 classes compute the functions of FIPS 180-4, over any backend that computes the compression function. -/
namespace Milo.Sha512
open Memory Spec.Sha

set_option maxRecDepth 100000 in
theorem iv224_eq : iv 224 = Spec.Sha.ivT "SHA-512/224" := by decide +kernel
set_option maxRecDepth 100000 in
theorem iv256_eq : iv 256 = Spec.Sha.ivT "SHA-512/256" := by decide +kernel
theorem iv384_eq : iv 384 = Spec.Sha.iv384 := by decide +kernel
theorem iv512_eq : iv 512 = Spec.Sha.iv512 := by decide +kernel

abbrev StateOk (st : List W64) : Prop := st.length = 8

structure Wf (o : Obj) : Prop where
  state : StateOk o.state
  buffer : o.buffer.length = 256
  size : o.bufferSize < 128

/-- The 128-bit byte counter. -/
def count (o : Obj) : Nat := o.processed1.toNat * 2 ^ 64 + o.processed0.toNat

structure Rep (bits : Nat) (o : Obj) (m : List Byte) : Prop where
  wf : Wf o
  processed : count o = m.length % 2 ^ 128
  soaked : SoakRep 128 compress (iv bits) o.state o.buffer o.bufferSize m

structure Fin (bits : Nat) (o : Obj) (m : List Byte) : Prop where
  wf : Wf o
  state : o.state = iterate compress 128 16 (iv bits) m

variable (h : Host) {blocks : Nat → List W64 → List Byte → Option (List W64)}

/-- Every object is as if freshly initialized with its own state and fed its buffered bytes. -/
theorem self_rep (o : Obj) (ho : Wf o) : SoakRep 128 compress o.state o.state o.buffer o.bufferSize (o.buffer.take o.bufferSize) := by
  have hl : (o.buffer.take o.bufferSize).length = o.bufferSize := by have := ho.buffer; have := ho.size; simp; omega
  obtain ⟨e1, e2⟩ := absorbed_short 128 compress o.state (o.buffer.take o.bufferSize) (by have := ho.size; omega)
  exact ⟨e1.symm, by rw [hl, Nat.mod_eq_of_lt ho.size], e2.symm⟩

theorem count_add (p0 p1 : W64) (n : Nat) (hn : n < 2 ^ 64) :
    (p1 + (if p0 > BitVec.allOnes 64 - BitVec.ofNat 64 n then 1#64 else 0#64)).toNat * 2 ^ 64 + (p0 + BitVec.ofNat 64 n).toNat
      = (p1.toNat * 2 ^ 64 + p0.toNat + n) % 2 ^ 128 := by
  have h0 := p0.isLt
  have h1 := p1.isLt
  have hlt : (p0 > BitVec.allOnes 64 - BitVec.ofNat 64 n) ↔ p0.toNat + n ≥ 2 ^ 64 := by
    show BitVec.allOnes 64 - BitVec.ofNat 64 n < p0 ↔ _
    rw [BitVec.lt_def, BitVec.toNat_sub, BitVec.toNat_allOnes, BitVec.toNat_ofNat]
    omega
  by_cases hc : p0.toNat + n ≥ 2 ^ 64
  · rw [if_pos (hlt.mpr hc)]
    simp only [BitVec.toNat_add, BitVec.toNat_ofNat]
    omega
  · rw [if_neg (fun h => hc (hlt.mp h))]
    simp only [BitVec.toNat_add, BitVec.toNat_ofNat]
    omega

theorem update_gen (hb : BlocksOk 128 StateOk compress blocks) (o : Obj) (ho : Wf o) (ivs : List W64) (hiv : StateOk ivs)
    (m x : List Byte) (hr : SoakRep 128 compress ivs o.state o.buffer o.bufferSize m) :
    ∃ o', update h blocks o x = some o' ∧ Wf o' ∧ (x.length < 2 ^ 64 → count o' = (count o + x.length) % 2 ^ 128) ∧
      SoakRep 128 compress ivs o'.state o'.buffer o'.bufferSize (m ++ x) := by
  obtain ⟨n, buf', st', he, hl, hrep⟩ := soak_rep h hb ivs hiv o.buffer o.bufferSize x o.state m (by rw [ho.buffer]; omega) hr
  refine ⟨⟨st', _, _, buf', n⟩, ?_, ⟨?_, by rw [hl]; exact ho.buffer, ?_⟩, fun hx => count_add o.processed0 o.processed1 x.length hx, hrep⟩
  · unfold update
    simp only [he, Option.bind_eq_bind, Option.bind_some, Option.pure_def]
  · show StateOk st'
    rw [hrep.state]; exact absorbed_wf hb.pos hb.wf _ hiv _
  · show n < 128
    rw [hrep.size]; exact Nat.mod_lt _ (by omega)

theorem beBytes_append (a b : Nat) (hb : b < 2 ^ 64) :
    Spec.beBytes 8 a ++ Spec.beBytes 8 b = Spec.beBytes 16 (a * 2 ^ 64 + b) := by
  have hr : List.range 16 = List.range 8 ++ (List.range 8).map (8 + ·) := by rw [← List.range_add]
  unfold Spec.beBytes
  rw [hr, List.map_append, List.map_map]
  congr 1
  · apply List.map_congr_left
    intro i hi
    have hi := List.mem_range.mp hi
    have : 256 ^ (16 - 1 - i) = 2 ^ 64 * 256 ^ (8 - 1 - i) := by
      rw [show (2 : Nat) ^ 64 = 256 ^ 8 from rfl, ← Nat.pow_add]; congr 1; omega
    rw [this, ← Nat.div_div_eq_div_mul]
    congr 2
    omega
  · apply List.map_congr_left
    intro i hi
    have hi := List.mem_range.mp hi
    simp only [Function.comp]
    apply BitVec.eq_of_toNat_eq
    simp only [BitVec.toNat_ofNat]
    rw [show 16 - 1 - (8 + i) = 8 - 1 - i by omega]
    have h1 : (2 : Nat) ^ 64 = 256 ^ (8 - 1 - i) * (256 * 256 ^ i) := by
      rw [show (2 : Nat) ^ 64 = 256 ^ 8 from rfl, ← Nat.pow_succ', ← Nat.pow_add]; congr 1; omega
    rw [h1, show a * (256 ^ (8 - 1 - i) * (256 * 256 ^ i)) + b = 256 ^ (8 - 1 - i) * (256 * (256 ^ i * a)) + b by
      congr 1; ac_rfl, Nat.mul_add_div (Nat.pow_pos (by omega))]
    omega

/-- The 128-bit length field. -/
theorem length_field (o : Obj) :
    Spec.beBytes 8 (o.processed1 <<< 3 ||| o.processed0 >>> 61).toNat ++ Spec.beBytes 8 (o.processed0 <<< 3).toNat
      = Spec.beBytes 16 (8 * count o) := by
  have h0 := o.processed0.isLt
  have h1 := o.processed1.isLt
  rw [beBytes_append _ _ (BitVec.isLt _)]
  apply beBytes_mod
  unfold count
  have hor : (o.processed1 <<< 3 ||| o.processed0 >>> 61).toNat = (o.processed1.toNat * 8) % 2 ^ 64 + o.processed0.toNat / 2 ^ 61 := by
    rw [BitVec.toNat_or, BitVec.toNat_shiftLeft, BitVec.toNat_ushiftRight, Nat.shiftLeft_eq, Nat.shiftRight_eq_div_pow]
    have : o.processed1.toNat * 2 ^ 3 % 2 ^ 64 = 2 ^ 3 * (o.processed1.toNat % 2 ^ 61) := by omega
    rw [this, ← Nat.two_pow_add_eq_or_of_lt (by omega)]
  rw [hor, BitVec.toNat_shiftLeft, Nat.shiftLeft_eq]
  omega

/-- `finalize` of an object holding back `t`. -/
theorem finalize_gen (hb : BlocksOk 128 StateOk compress blocks) (o : Obj) (ho : Wf o) (last : Nat)
    (hlast : last = if o.bufferSize ≥ 128 - 16 then 2 * 128 else 128) :
    ∃ o', finalize h blocks o = some o' ∧ Wf o' ∧
      o'.state = (Spec.chunks 128 (o.buffer.take o.bufferSize ++ [0x80#8] ++ List.replicate (last - 16 - (o.bufferSize + 1)) 0#8 ++
        Spec.beBytes 16 (8 * count o))).foldl compress o.state := by
  have hsz := ho.size
  have hbl := ho.buffer
  have hls : 128 <<< (if o.bufferSize ≥ 112 then 1 else 0) = last := by
    rw [hlast]; by_cases hc : o.bufferSize ≥ 112 <;> simp [hc]
  have hle : last = 128 ∨ last = 256 := by rw [hlast]; split <;> simp
  have hfit : o.bufferSize + 1 + 16 ≤ last := by rw [hlast]; split <;> omega
  unfold finalize
  simp only [hls]
  have e1 := pad_stores o.buffer o.bufferSize (last - 16 - (o.bufferSize + 1)) (by omega)
  cases hw : wr1 o.buffer o.bufferSize 128#8 with
  | none => rw [hw] at e1; simp at e1
  | some b1 =>
    rw [hw] at e1
    simp only [Option.bind_some, Option.bind_eq_bind] at e1 ⊢
    rw [e1]
    simp only [Option.bind_some]
    rw [at_storBe8 h _ _ 0 _ (by simp; omega)]
    simp only [Option.bind_some, Nat.mul_zero, Nat.add_zero]
    rw [at_storBe8 h _ _ 1 _ (by simp [Spec.beBytes]; omega)]
    simp only [Option.bind_some]
    have hpl : (o.buffer.take o.bufferSize ++ [0x80#8] ++ List.replicate (last - 16 - (o.bufferSize + 1)) 0#8).length = last - 16 := by
      simp; omega
    rw [List.take_left' hpl]
    have hb8 : ∀ x, (Spec.beBytes 8 x).length = 8 := fun x => by simp [Spec.beBytes]
    rw [List.take_left' (by rw [List.length_append, hpl, hb8])]
    rw [List.append_assoc _ (Spec.beBytes 8 _) (Spec.beBytes 8 _), length_field]
    have hpl2 : (o.buffer.take o.bufferSize ++ [0x80#8] ++ List.replicate (last - 16 - (o.bufferSize + 1)) 0#8 ++
        Spec.beBytes 16 (8 * count o)).length = last := by
      rw [List.length_append, hpl]; simp [Spec.beBytes]; omega
    have hmul : last / 128 * 128 = last := by rcases hle with e | e <;> rw [e]
    have hst := ho.state
    rw [hb.eq _ _ _ hst (by rw [hmul, List.length_append, hpl2]; omega), hmul, List.take_left' hpl2]
    refine ⟨_, rfl, ⟨?_, ?_, hsz⟩, rfl⟩
    · apply foldl_wf hb.wf _ _ _ hst
      apply chunks_all_length 128 (by omega)
      rw [hpl2]; rcases hle with e | e <;> rw [e]
    · show List.length (_ ++ _) = 256
      rw [List.length_append, hpl2]; simp [hb8]; omega

theorem fresh_wf : Wf ⟨List.replicate 8 0, 0, 0, List.replicate 256 0, 0⟩ := by
  constructor
  · simp only [StateOk, List.length_replicate]
  · simp only [List.length_replicate]
  · simp only; omega

/-- The class as a hash function. -/
def F (bits digestSize : Nat) (m : List Byte) : List Byte :=
  (output (n := 8) (iterate compress 128 16 (iv bits) m)).take digestSize

def lawful (hb : BlocksOk 128 StateOk compress blocks) (bits digestSize : Nat) (hbits : bits = 224 ∨ bits = 256 ∨ bits = 384 ∨ bits = 512)
    (hd : digestSize ≤ 64) : Lawful (impl h blocks bits digestSize) (F bits digestSize) where
  Wf := Wf
  Rep := Rep bits
  Fin := Fin bits
  block_pos := by show 0 < 128; omega
  fresh := fresh_wf
  rep_wf := fun _ _ h => h.wf
  fin_wf := fun _ _ h => h.wf
  init := by
    intro o ho
    have hiv : StateOk (iv bits) := by rcases hbits with rfl | rfl | rfl | rfl <;> rfl
    refine ⟨⟨hiv, ho.buffer, by show 0 < 128; omega⟩, ?_, ?_⟩
    · have e : count ((impl h blocks bits digestSize).init o) = (0#64).toNat * 2 ^ 64 + (0#64).toNat := rfl
      rw [e]; decide
    obtain ⟨e1, e2⟩ := absorbed_short 128 compress (iv bits) [] (by show 0 < 128; exact Nat.zero_lt_succ _)
    exact ⟨e1.symm, rfl, e2.symm⟩
  update_wf := by
    intro o x ho
    obtain ⟨o', e, w, -, -⟩ := update_gen h hb o ho o.state ho.state _ x (self_rep o ho)
    exact ⟨o', e, w⟩
  update := by
    intro o m x hr hx
    have hiv : StateOk (iv bits) := by rcases hbits with rfl | rfl | rfl | rfl <;> rfl
    obtain ⟨o', e, w, p, s⟩ := update_gen h hb o hr.wf (iv bits) hiv m x hr.soaked
    refine ⟨o', e, w, ?_, s⟩
    rw [p hx, hr.processed, List.length_append]; omega
  finalize_wf := by
    intro o ho
    obtain ⟨o', e, w, -⟩ := finalize_gen h hb o ho _ rfl
    exact ⟨o', e, w⟩
  finalize := by
    intro o m hr
    obtain ⟨o', e, w, s⟩ := finalize_gen h hb o hr.wf _ rfl
    refine ⟨o', e, w, ?_⟩
    have hsz := hr.soaked.size
    rw [s, hr.soaked.data, hr.soaked.state, hsz]
    have hlf : Spec.beBytes 16 (8 * count o) = Spec.beBytes 16 (8 * m.length) := by
      apply beBytes_mod; rw [hr.processed]; omega
    rw [hlf]
    rw [iterate_eq compress 128 16 (by omega) (iv bits) m _ rfl]
    rfl
  digest_wf := by
    intro o dst n ho hn
    have hs := ho.state
    have hn' : min n digestSize ≤ dst.length := hn
    have hc := copyBe_eq h (q := 8) (by simp [Swappable]) dst o.state (min n digestSize) (by rw [hs]; omega) hn
    have e : digest h digestSize o dst n = some ((image .big (p := 8) o.state).take (min n digestSize) ++ dst.drop (min n digestSize),
        min n digestSize) := by
      unfold digest; simp only; rw [hc]; rfl
    refine ⟨_, e, ?_⟩
    have := image_length (p := 8) Endian.big o.state
    rw [hs] at this
    simp; omega
  digest := by
    intro o m dst n hf hn
    have hs := hf.wf.state
    have hc := copyBe_eq h (q := 8) (by simp [Swappable]) dst o.state (min n digestSize) (by rw [hs]; omega) hn
    have e : digest h digestSize o dst n = some ((image .big (p := 8) o.state).take (min n digestSize) ++ dst.drop (min n digestSize),
        min n digestSize) := by
      unfold digest; simp only; rw [hc]; rfl
    refine e.trans ?_
    unfold F
    rw [List.take_take, ← hf.state, ← image_big]
    show some (_, min n digestSize) = some (List.take (min (min n digestSize) digestSize) _ ++ _, min n digestSize)
    rw [show min (min n digestSize) digestSize = min n digestSize by omega]
    rfl
  length := by
    intro m
    unfold F
    rw [List.length_take, image_big_length]
    have : (iterate compress 128 16 (iv bits) m).length = 8 := by
      unfold iterate
      apply foldl_wf hb.wf
      · apply chunks_all_length 128 (by omega)
        rw [pad_eq 128 16 (by omega) m _ rfl, List.length_append, padTail_length]
        · have := Nat.div_mul_le_self m.length 128
          simp only [List.length_take, Nat.min_eq_left this]
          split <;> omega
        · split <;> omega
      · rcases hbits with rfl | rfl | rfl | rfl <;> rfl
    rw [this]; exact Nat.min_eq_left (by omega)

end Milo.Sha512
