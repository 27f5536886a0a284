import Verif.Proof.Lawful
import Verif.Proof.Sha1
/- The SHA-1 class computes FIPS 180-4 SHA-1, over any backend that computes the Spec.Sha.Sha1.compression function. -/
namespace Milo.Sha1
open Memory Spec.Sha

theorem iv_eq (o : Obj) : (initObj o).state = Spec.Sha.Sha1.iv := rfl

abbrev StateOk (st : List W32) : Prop := st.length = 5

structure Wf (o : Obj) : Prop where
  state : StateOk o.state
  buffer : o.buffer.length = 128
  size : o.bufferSize < 64

structure Rep (o : Obj) (m : List Byte) : Prop where
  wf : Wf o
  processed : o.processed = BitVec.ofNat 64 m.length
  soaked : SoakRep 64 Spec.Sha.Sha1.compress Spec.Sha.Sha1.iv o.state o.buffer o.bufferSize m

structure Fin (o : Obj) (m : List Byte) : Prop where
  wf : Wf o
  state : o.state = iterate Spec.Sha.Sha1.compress 64 8 Spec.Sha.Sha1.iv m

variable (h : Host) {blocks : Nat → List W32 → List Byte → Option (List W32)}

/-- Every object is as if freshly initialized with its own state and fed its buffered bytes. -/
theorem self_rep (o : Obj) (ho : Wf o) : SoakRep 64 Spec.Sha.Sha1.compress o.state o.state o.buffer o.bufferSize (o.buffer.take o.bufferSize) := by
  have hl : (o.buffer.take o.bufferSize).length = o.bufferSize := by have := ho.buffer; have := ho.size; simp; omega
  obtain ⟨e1, e2⟩ := absorbed_short 64 Spec.Sha.Sha1.compress o.state (o.buffer.take o.bufferSize) (by have := ho.size; omega)
  exact ⟨e1.symm, by rw [hl, Nat.mod_eq_of_lt ho.size], e2.symm⟩

theorem update_gen (hb : BlocksOk 64 StateOk Spec.Sha.Sha1.compress blocks) (o : Obj) (ho : Wf o) (ivs : List W32) (hiv : StateOk ivs)
    (m x : List Byte) (hr : SoakRep 64 Spec.Sha.Sha1.compress ivs o.state o.buffer o.bufferSize m) :
    ∃ o', update h blocks o x = some o' ∧ Wf o' ∧ o'.processed = o.processed + BitVec.ofNat 64 x.length ∧
      SoakRep 64 Spec.Sha.Sha1.compress ivs o'.state o'.buffer o'.bufferSize (m ++ x) := by
  obtain ⟨n, buf', st', he, hl, hrep⟩ := soak_rep h hb ivs hiv o.buffer o.bufferSize x o.state m (by rw [ho.buffer]; omega) hr
  refine ⟨⟨st', o.processed + BitVec.ofNat 64 x.length, buf', n⟩, ?_, ⟨?_, by rw [hl]; exact ho.buffer, ?_⟩, rfl, hrep⟩
  · unfold update
    simp only [he, Option.bind_eq_bind, Option.bind_some, Option.pure_def]
  · show StateOk st'
    rw [hrep.state]; exact absorbed_wf hb.pos hb.wf _ hiv _
  · show n < 64
    rw [hrep.size]; exact Nat.mod_lt _ (by omega)

/-- `finalize` of an object holding back `t`. -/
theorem finalize_gen (hb : BlocksOk 64 StateOk Spec.Sha.Sha1.compress blocks) (o : Obj) (ho : Wf o) (last : Nat)
    (hlast : last = if o.bufferSize ≥ 64 - 8 then 2 * 64 else 64) :
    ∃ o', finalize h blocks o = some o' ∧ Wf o' ∧
      o'.state = (Spec.chunks 64 (o.buffer.take o.bufferSize ++ [0x80#8] ++ List.replicate (last - 8 - (o.bufferSize + 1)) 0#8 ++
        Spec.beBytes 8 (o.processed <<< 3).toNat)).foldl Spec.Sha.Sha1.compress o.state := by
  have hsz := ho.size
  have hbl := ho.buffer
  have hls : 64 <<< (if o.bufferSize ≥ 56 then 1 else 0) = last := by
    rw [hlast]; by_cases hc : o.bufferSize ≥ 56 <;> simp [hc]
  have hle : last = 64 ∨ last = 128 := by rw [hlast]; split <;> simp
  have hfit : o.bufferSize + 1 + 8 ≤ last := by rw [hlast]; split <;> omega
  unfold finalize
  simp only [hls]
  have e1 := pad_stores o.buffer o.bufferSize (last - 8 - (o.bufferSize + 1)) (by omega)
  cases hw : wr1 o.buffer o.bufferSize 128#8 with
  | none => rw [hw] at e1; simp at e1
  | some b1 =>
    rw [hw] at e1
    simp only [Option.bind_some, Option.bind_eq_bind] at e1 ⊢
    rw [e1]
    simp only [Option.bind_some]
    rw [at_storBe8 h _ _ 0 _ (by simp; omega)]
    simp only [Option.bind_some, Nat.mul_zero, Nat.add_zero]
    have hpl : (o.buffer.take o.bufferSize ++ [0x80#8] ++ List.replicate (last - 8 - (o.bufferSize + 1)) 0#8).length = last - 8 := by
      simp; omega
    rw [List.take_left' hpl]
    have hpl2 : (o.buffer.take o.bufferSize ++ [0x80#8] ++ List.replicate (last - 8 - (o.bufferSize + 1)) 0#8 ++
        Spec.beBytes 8 (o.processed <<< 3).toNat).length = last := by
      rw [List.length_append, hpl]; simp [Spec.beBytes]; omega
    have hmul : last / 64 * 64 = last := by rcases hle with e | e <;> rw [e]
    have hst := ho.state
    rw [hb.eq _ _ _ hst (by rw [hmul, List.length_append, hpl2]; omega), hmul, List.take_left' hpl2]
    refine ⟨_, rfl, ⟨?_, ?_, hsz⟩, rfl⟩
    · apply foldl_wf hb.wf _ _ _ hst
      apply chunks_all_length 64 (by omega)
      rw [hpl2]; rcases hle with e | e <;> rw [e]
    · show List.length (_ ++ _) = 128
      rw [List.length_append, hpl2]; simp; omega

/-- The 64-bit length field. -/
theorem length_field (n : Nat) : Spec.beBytes 8 (BitVec.ofNat 64 n <<< 3).toNat = Spec.beBytes 8 (8 * n) := by
  apply beBytes_mod
  simp only [BitVec.toNat_shiftLeft, BitVec.toNat_ofNat, Nat.shiftLeft_eq]
  omega

/-- The class as a hash function. -/
def F (digestSize : Nat) (m : List Byte) : List Byte :=
  (output (n := 4) (iterate Spec.Sha.Sha1.compress 64 8 Spec.Sha.Sha1.iv m)).take digestSize

def lawful (hb : BlocksOk 64 StateOk Spec.Sha.Sha1.compress blocks) (digestSize : Nat)
    (hd : digestSize ≤ 20) : Lawful (impl h blocks digestSize) (F digestSize) where
  Wf := Wf
  Rep := Rep
  Fin := Fin
  block_pos := by show 0 < 64; omega
  fresh := ⟨by simp [StateOk, impl], by simp [impl], by show 0 < 64; omega⟩
  rep_wf := fun _ _ h => h.wf
  fin_wf := fun _ _ h => h.wf
  init := by
    intro o ho
    have hiv : StateOk Spec.Sha.Sha1.iv := rfl
    refine ⟨⟨hiv, ho.buffer, by show 0 < 64; omega⟩, rfl, ?_⟩
    obtain ⟨e1, e2⟩ := absorbed_short 64 Spec.Sha.Sha1.compress Spec.Sha.Sha1.iv [] (by show 0 < 64; omega)
    exact ⟨e1.symm, rfl, e2.symm⟩
  update_wf := by
    intro o x ho
    obtain ⟨o', e, w, -, -⟩ := update_gen h hb o ho o.state ho.state _ x (self_rep o ho)
    exact ⟨o', e, w⟩
  update := by
    intro o m x hr _
    have hiv : StateOk Spec.Sha.Sha1.iv := rfl
    obtain ⟨o', e, w, p, s⟩ := update_gen h hb o hr.wf Spec.Sha.Sha1.iv hiv m x hr.soaked
    refine ⟨o', e, w, ?_, s⟩
    rw [p, hr.processed, List.length_append, BitVec.ofNat_add]
  finalize_wf := by
    intro o ho
    obtain ⟨o', e, w, -⟩ := finalize_gen h hb o ho _ rfl
    exact ⟨o', e, w⟩
  finalize := by
    intro o m hr
    obtain ⟨o', e, w, s⟩ := finalize_gen h hb o hr.wf _ rfl
    refine ⟨o', e, w, ?_⟩
    have hsz := hr.soaked.size
    rw [s, hr.soaked.data, hr.soaked.state, hr.processed, length_field, hsz]
    rw [iterate_eq Spec.Sha.Sha1.compress 64 8 (by omega) Spec.Sha.Sha1.iv m _ rfl]
    rfl
  digest_wf := by
    intro o dst n ho hn
    have hs := ho.state
    have hn' : min n digestSize ≤ dst.length := hn
    have hc := copyBe_eq h (q := 4) (by simp [Swappable]) dst o.state (min n digestSize) (by rw [hs]; omega) hn
    have e : digest h digestSize o dst n = some ((image .big (p := 4) o.state).take (min n digestSize) ++ dst.drop (min n digestSize),
        min n digestSize) := by
      unfold digest; simp only; rw [hc]; rfl
    refine ⟨_, e, ?_⟩
    have := image_length (p := 4) Endian.big o.state
    rw [hs] at this
    simp; omega
  digest := by
    intro o m dst n hf hn
    have hs := hf.wf.state
    have hc := copyBe_eq h (q := 4) (by simp [Swappable]) dst o.state (min n digestSize) (by rw [hs]; omega) hn
    have e : digest h digestSize o dst n = some ((image .big (p := 4) o.state).take (min n digestSize) ++ dst.drop (min n digestSize),
        min n digestSize) := by
      unfold digest; simp only; rw [hc]; rfl
    refine e.trans ?_
    unfold F
    rw [List.take_take, ← hf.state, ← image_big]
    show some (_, min n digestSize) = some (List.take (min (min n digestSize) digestSize) _ ++ _, min n digestSize)
    rw [show min (min n digestSize) digestSize = min n digestSize by omega]
    rfl
  length := by
    intro m
    unfold F
    rw [List.length_take, image_big_length]
    have : (iterate Spec.Sha.Sha1.compress 64 8 Spec.Sha.Sha1.iv m).length = 5 := by
      unfold iterate
      apply foldl_wf hb.wf
      · apply chunks_all_length 64 (by omega)
        rw [pad_eq 64 8 (by omega) m _ rfl, List.length_append, padTail_length]
        · have := Nat.div_mul_le_self m.length 64
          simp only [List.length_take, Nat.min_eq_left this]
          split <;> omega
        · split <;> omega
      · rfl
    rw [this]; exact Nat.min_eq_left (by omega)

end Milo.Sha1
