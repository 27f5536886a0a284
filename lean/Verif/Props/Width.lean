import Verif.Props.Room
import Verif.Proof.CodecRoom
import Verif.Model.Width
/-
C74: the codecs on machines with other sizes than 64 bits. `Codec.base64W w` is `codec::base_64` on a machine whose `size_t` has `w` bits
(Model/Width.lean); `Codec.base64` is the one all other codec theorems are about (64 bits).
-/
namespace Milo.Props
open Milo
open Spec.Codec

private theorem mask2 (w : Nat) (x : BitVec w) (hw : 4 ≤ w) : (x &&& ~~~ 3#w).toNat = x.toNat / 4 * 4 := by
  have h1 : x &&& ~~~ 3#w = (x >>> 2) <<< 2 := by
    ext i hi
    simp only [BitVec.getElem_and, BitVec.getElem_not, BitVec.getElem_shiftLeft, BitVec.getElem_ushiftRight]
    have h3 : (3#w)[i] = Nat.testBit 3 i := by
      rw [BitVec.getElem_eq_testBit_toNat, BitVec.toNat_ofNat, Nat.mod_eq_of_lt (Nat.lt_of_lt_of_le (by decide : 3 < 2 ^ 4) (Nat.pow_le_pow_right (by omega) hw))]
    rw [h3]
    by_cases h2 : i < 2
    · have : i = 0 ∨ i = 1 := by omega
      rcases this with rfl | rfl <;> simp [show Nat.testBit 3 1 = true by decide]
    · have e : 2 + (i - 2) = i := by omega
      have hz : Nat.testBit 3 i = false :=
        Nat.testBit_lt_two_pow (Nat.lt_of_lt_of_le (by decide : 3 < 2 ^ 2) (Nat.pow_le_pow_right (by omega) (by omega)))
      simp [h2, hz, BitVec.getLsbD_eq_getElem, hi, e]
  rw [h1, BitVec.toNat_shiftLeft, BitVec.toNat_ushiftRight, Nat.shiftRight_eq_div_pow, Nat.shiftLeft_eq]
  have := x.isLt
  exact Nat.mod_eq_of_lt (by omega)

/-- `encode_size` of Base64, in ordinary arithmetic. -/
theorem b64_encodeSizeW (w n : Nat) (hw : 4 ≤ w) (hn : n < 2 ^ w) : Base64.encodeSizeW w n = (n * 4 % 2 ^ w / 3 + 3) / 4 * 4 := by
  have h16 : 2 ^ 4 ≤ 2 ^ w := Nat.pow_le_pow_right (by omega) hw
  unfold Base64.encodeSizeW
  rw [mask2 w _ hw]
  simp only [BitVec.toNat_add, BitVec.toNat_udiv, BitVec.toNat_mul, BitVec.toNat_ofNat]
  generalize 2 ^ w = W at *
  rw [Nat.mod_eq_of_lt hn, Nat.mod_eq_of_lt (a := 4) (by omega), Nat.mod_eq_of_lt (a := 3) (by omega)]
  have : n * 4 % W < W := Nat.mod_lt _ (by omega)
  generalize n * 4 % W = r at *
  rw [Nat.mod_eq_of_lt (by omega)]

/-- `decode_size` of Base64 for texts whose length times three fits, in ordinary arithmetic. -/
theorem b64_decodeSizeW (w : Nat) (txt : List Byte) (hw : 4 ≤ w) (hw' : w ≤ 64) (hn : 3 * txt.length < 2 ^ w) :
    Base64.decodeSizeW w txt = Base64.decodeSize txt := by
  have h16 : 2 ^ 4 ≤ 2 ^ w := Nat.pow_le_pow_right (by omega) hw
  have h64 : 2 ^ w ≤ 2 ^ 64 := Nat.pow_le_pow_right (by omega) hw'
  have hs : (BitVec.ofNat w txt.length * 3#w / 4#w).toNat = txt.length * 3 / 4 := by
    simp only [BitVec.toNat_udiv, BitVec.toNat_mul, BitVec.toNat_ofNat]
    rw [Nat.mod_eq_of_lt (a := txt.length) (by omega), Nat.mod_eq_of_lt (a := 4) (by omega), Nat.mod_eq_of_lt (a := 3) (by omega), Nat.mod_eq_of_lt (by omega)]
  have h1 : (1#w).toNat = 1 := by rw [BitVec.toNat_ofNat, Nat.mod_eq_of_lt (by omega)]
  have h0 : (0#w).toNat = 0 := by rw [BitVec.toNat_ofNat, Nat.mod_eq_of_lt (by omega)]
  unfold Base64.decodeSizeW Base64.decodeSize
  simp only
  rw [show txt.length * 3 % 2 ^ 64 = txt.length * 3 from Nat.mod_eq_of_lt (by omega)]
  split
  · next h =>
    rw [BitVec.toNat_sub_of_le, BitVec.toNat_sub_of_le, hs, h1]
    · split
      · rw [h1]
      · rw [h0]
    · rw [BitVec.le_def, hs, h1]; omega
    · rw [BitVec.le_def, BitVec.toNat_sub_of_le (by rw [BitVec.le_def, hs, h1]; omega), hs, h1]
      split
      · rw [h1]; omega
      · rw [h0]; omega
  · exact hs

/-- C74 for Base16: on every machine, for every result that fits into its memory (`2 * n < 2^w` bytes), and for every text, `codec::base_16` is the
codec all other theorems are about. -/
theorem C74_base16 (w : Nat) (hw : 4 ≤ w) (hw' : w ≤ 64) (sg : Bool) (c : Container) :
    (∀ x : List Byte, (hexEncode x).length < 2 ^ w → Codec.encode (Codec.base16W w sg) x c = Codec.encode (Codec.base16 sg) x c ∧
      Codec.encodeValue (Codec.base16W w sg) x = Codec.encodeValue (Codec.base16 sg) x) ∧
    (∀ txt : List Byte, txt.length < 2 ^ w → Codec.decode (Codec.base16W w sg) txt c = Codec.decode (Codec.base16 sg) txt c ∧
      Codec.decodeThrow (Codec.base16W w sg) txt c = Codec.decodeThrow (Codec.base16 sg) txt c ∧
      Codec.decodeValue (Codec.base16W w sg) txt = Codec.decodeValue (Codec.base16 sg) txt) := by
  have h16 : 2 ^ 4 ≤ 2 ^ w := Nat.pow_le_pow_right (by omega) hw
  have h64 : 2 ^ w ≤ 2 ^ 64 := Nat.pow_le_pow_right (by omega) hw'
  constructor
  · intro x hx
    rw [Base16.hexEncode_length] at hx
    have hs : Base16.encodeSizeW w x.length = Base16.encodeSize x.length := by
      unfold Base16.encodeSizeW Base16.encodeSize
      rw [BitVec.toNat_mul, BitVec.toNat_ofNat, BitVec.toNat_ofNat, Nat.mod_eq_of_lt (a := x.length) (by omega), Nat.mod_eq_of_lt (a := 2) (by omega),
        Nat.mod_eq_of_lt (by omega), Nat.mod_eq_of_lt (by omega)]
    have he : ∀ c, Codec.encode (Codec.base16W w sg) x c = Codec.encode (Codec.base16 sg) x c := fun c => by
      simp only [Codec.encode, Codec.base16W, Codec.base16, hs]
    exact ⟨he c, by simp only [Codec.encodeValue, he]⟩
  · intro txt hn
    have hs : Base16.decodeSizeW w txt.length = Base16.decodeSize txt.length := by
      unfold Base16.decodeSizeW Base16.decodeSize
      rw [BitVec.toNat_add, BitVec.toNat_ushiftRight, BitVec.toNat_and, BitVec.toNat_ofNat, BitVec.toNat_ofNat, Nat.mod_eq_of_lt hn,
        Nat.mod_eq_of_lt (a := 1) (by omega), Nat.and_one_is_mod, Nat.shiftRight_eq_div_pow, Nat.mod_eq_of_lt (by omega)]
    have he : Codec.decode (Codec.base16W w sg) txt c = Codec.decode (Codec.base16 sg) txt c := by
      simp only [Codec.decode, Codec.base16W, Codec.base16, hs]
    have ht : ∀ c, Codec.decodeThrow (Codec.base16W w sg) txt c = Codec.decodeThrow (Codec.base16 sg) txt c := fun c => by
      simp only [Codec.decodeThrow, Codec.decodePtrThrow, Codec.base16W, Codec.base16, hs]
    exact ⟨he, ht c, by simp only [Codec.decodeValue, ht]⟩

/-- C74 for Base64, the part that holds: if four times the number of bytes (for decoding: three times the number of characters) fits into `size_t`,
`codec::base_64` is the codec all other theorems are about. Missing: the results beyond that fit into the memory, but the next theorems hold. -/
theorem C74_base64_partial (w : Nat) (hw : 4 ≤ w) (hw' : w ≤ 64) (sg : Bool) (c : Container) :
    (∀ x : List Byte, 4 * x.length < 2 ^ w → Codec.encode (Codec.base64W w sg) x c = Codec.encode (Codec.base64 sg) x c ∧
      Codec.encodeValue (Codec.base64W w sg) x = Codec.encodeValue (Codec.base64 sg) x) ∧
    (∀ txt : List Byte, 3 * txt.length < 2 ^ w → Codec.decode (Codec.base64W w sg) txt c = Codec.decode (Codec.base64 sg) txt c ∧
      Codec.decodeThrow (Codec.base64W w sg) txt c = Codec.decodeThrow (Codec.base64 sg) txt c ∧
      Codec.decodeValue (Codec.base64W w sg) txt = Codec.decodeValue (Codec.base64 sg) txt) := by
  have h64 : 2 ^ w ≤ 2 ^ 64 := Nat.pow_le_pow_right (by omega) hw'
  constructor
  · intro x hx
    have hs : Base64.encodeSizeW w x.length = Base64.encodeSize x.length := by
      rw [b64_encodeSizeW w _ hw (by omega), Base64.encodeSize_eq _ (by omega), Nat.mod_eq_of_lt (by omega)]
      omega
    have he : ∀ c, Codec.encode (Codec.base64W w sg) x c = Codec.encode (Codec.base64 sg) x c := fun c => by
      simp only [Codec.encode, Codec.base64W, Codec.base64, hs]
    exact ⟨he c, by simp only [Codec.encodeValue, he]⟩
  · intro txt hn
    have hs := b64_decodeSizeW w txt hw hw' hn
    have he : Codec.decode (Codec.base64W w sg) txt c = Codec.decode (Codec.base64 sg) txt c := by
      simp only [Codec.decode, Codec.base64W, Codec.base64, hs]
    have ht : ∀ c, Codec.decodeThrow (Codec.base64W w sg) txt c = Codec.decodeThrow (Codec.base64 sg) txt c := fun c => by
      simp only [Codec.decodeThrow, Codec.decodePtrThrow, Codec.base64W, Codec.base64, hs]
    exact ⟨he, ht c, by simp only [Codec.decodeValue, ht]⟩

/-- C74 is false of the Base64 encoder: whenever four times the number of bytes does not fit into `size_t`, the container is made too small, and the
encoder writes past its end, whatever the container held. -/
theorem C74_base64_encode_wrong (w : Nat) (hw : 4 ≤ w) (sg : Bool) (x old : List Byte) (hx : x.length < 2 ^ w) (hb : 2 ^ w ≤ 4 * x.length) :
    Codec.encode (Codec.base64W w sg) x ⟨true, old⟩ = none ∧ Codec.encodeValue (Codec.base64W w sg) x = none := by
  have h16 : 2 ^ 4 ≤ 2 ^ w := Nat.pow_le_pow_right (by omega) hw
  have hs : Base64.encodeSizeW w x.length < (b64Encode x).length := by
    rw [b64_encodeSizeW w _ hw hx, Base64.b64Encode_length]
    have : x.length * 4 % 2 ^ w ≤ x.length * 4 - 2 ^ w := by
      rw [Nat.mod_eq_sub_mod (by omega)]
      exact Nat.mod_le _ _
    omega
  have he : ∀ old, Codec.encode (Codec.base64W w sg) x ⟨true, old⟩ = none := by
    intro old
    have hl : (Container.resize ⟨true, old⟩ (Base64.encodeSizeW w x.length)).1.data.length = Base64.encodeSizeW w x.length := by
      simp only [Container.resize, if_true, List.length_append, List.length_take, List.length_replicate]
      omega
    have := (C54_codec_overrun_wrong sg x (Container.resize ⟨true, old⟩ (Base64.encodeSizeW w x.length)).1.data).2.1 (by rw [hl]; exact hs)
    have hn : Base64.encode x (Container.resize ⟨true, old⟩ (Base64.encodeSizeW w x.length)).1.data = none := by
      generalize (Container.resize ⟨true, old⟩ (Base64.encodeSizeW w x.length)).1.data = d at *
      cases e : Base64.encode x d with
      | none => rfl
      | some r => simp [Codec.encode, Codec.base64, Container.resize, e] at this
    simp only [Codec.encode, Codec.base64W, hn, Option.bind_eq_bind, Option.bind_none]
  exact ⟨he old, by simp only [Codec.encodeValue, he, Option.bind_eq_bind, Option.bind_none]⟩

/-- C74 is false of the Base64 decoder: whenever three times the number of characters does not fit into `size_t`, decoding a well-formed text writes
past the end of the container that was sized for it, unless the size computed falls below zero (`hp`; the container is then asked to hold about `2^w` bytes). -/
theorem C74_base64_decode_wrong (w : Nat) (hw : 4 ≤ w) (sg : Bool) (txt x old : List Byte) (ht : b64Decode txt = some x) (hx : txt.length < 2 ^ w)
    (hx' : txt.length < 2 ^ 62) (hb : 2 ^ w ≤ 3 * txt.length) (hp : x.length % 3 = 0 ∨ 8 ≤ 3 * txt.length % 2 ^ w) :
    Codec.decode (Codec.base64W w sg) txt ⟨true, old⟩ = none ∧ Codec.decodeThrow (Codec.base64W w sg) txt ⟨true, old⟩ = none ∧
      Codec.decodeValue (Codec.base64W w sg) txt = none := by
  have h16 : 2 ^ 4 ≤ 2 ^ w := Nat.pow_le_pow_right (by omega) hw
  have hv := Base64.laxDecode_valid sg _ _ ht
  have hm := Base64.b64Decode_length ht
  have hlen : x.length = Base64.decodeSize txt := by
    have := (Base64.laxDecode_size sg txt hx' hm).2
    rw [hv] at this
    exact this rfl
  have hs : Base64.decodeSizeW w txt < x.length := by
    have hsz : (BitVec.ofNat w txt.length * 3#w / 4#w).toNat = 3 * txt.length % 2 ^ w / 4 := by
      simp only [BitVec.toNat_udiv, BitVec.toNat_mul, BitVec.toNat_ofNat]
      rw [Nat.mod_eq_of_lt hx, Nat.mod_eq_of_lt (a := 4) (by omega), Nat.mod_eq_of_lt (a := 3) (by omega), Nat.mul_comm]
    have hle : 3 * txt.length % 2 ^ w ≤ 3 * txt.length - 2 ^ w := by
      rw [Nat.mod_eq_sub_mod (by omega)]
      exact Nat.mod_le _ _
    have h1 : (1#w).toNat = 1 := by rw [BitVec.toNat_ofNat, Nat.mod_eq_of_lt (by omega)]
    have h0 : (0#w).toNat = 0 := by rw [BitVec.toNat_ofNat, Nat.mod_eq_of_lt (by omega)]
    unfold Base64.decodeSize at hlen
    simp only [show txt.length * 3 % 2 ^ 64 = txt.length * 3 from Nat.mod_eq_of_lt (by omega)] at hlen
    unfold Base64.decodeSizeW
    simp only
    generalize BitVec.ofNat w txt.length * 3#w / 4#w = sz at *
    by_cases hc : txt.length > 1 ∧ txt[txt.length - 1]? = some Base64.padChar
    · rw [if_pos hc] at hlen ⊢
      have hp8 : 8 ≤ 3 * txt.length % 2 ^ w := by
        rcases hp with hp | hp
        · split at hlen <;> omega
        · exact hp
      rw [BitVec.toNat_sub_of_le, BitVec.toNat_sub_of_le, hsz, h1]
      · split at hlen
        · next h => rw [if_pos h, h1]; omega
        · next h => rw [if_neg h, h0]; omega
      · rw [BitVec.le_def, hsz, h1]; omega
      · rw [BitVec.le_def, BitVec.toNat_sub_of_le (by rw [BitVec.le_def, hsz, h1]; omega), hsz, h1]
        split
        · rw [h1]; omega
        · rw [h0]; omega
    · rw [if_neg hc] at hlen ⊢
      omega
  have hn : ∀ old, Base64.decode sg txt (Container.resize ⟨true, old⟩ (Base64.decodeSizeW w txt)).1.data = none := by
    intro old
    have hl : (Container.resize ⟨true, old⟩ (Base64.decodeSizeW w txt)).1.data.length = Base64.decodeSizeW w txt := by
      simp only [Container.resize, if_true, List.length_append, List.length_take, List.length_replicate]
      omega
    cases e : Base64.decode sg txt (Container.resize ⟨true, old⟩ (Base64.decodeSizeW w txt)).1.data with
    | none => rfl
    | some d =>
      have := Base64.decode_room sg txt _ d hm e
      rw [hv, hl] at this
      simp only at this
      omega
  have he : ∀ old, Codec.decodeThrow (Codec.base64W w sg) txt ⟨true, old⟩ = none := fun old => by
    simp only [Codec.decodeThrow, Codec.decodePtrThrow, Codec.base64W, hn, Option.bind_eq_bind, Option.bind_none]
  exact ⟨by simp only [Codec.decode, Codec.base64W, hn, Option.bind_eq_bind, Option.bind_none], he old,
    by simp only [Codec.decodeValue, he, Option.bind_eq_bind, Option.bind_none]⟩

/-- Hypotheses met: on a machine with 32-bit sizes, encoding one GiB. The text (1431655768 characters) would fit. -/
example : Codec.encodeValue (Codec.base64W 32 true) (List.replicate (2 ^ 30) 0) = none ∧ (b64Encode (List.replicate (2 ^ 30) 0)).length < 2 ^ 31 :=
  ⟨(C74_base64_encode_wrong 32 (by decide) true (List.replicate (2 ^ 30) 0) [] (by rw [List.length_replicate]; omega)
      (by rw [List.length_replicate]; omega)).2,
    by rw [Base64.b64Encode_length, List.length_replicate]; omega⟩

/-- There, decoding the text of 1073741826 bytes. -/
example : Codec.decodeValue (Codec.base64W 32 true) (b64Encode (List.replicate 1073741826 0)) = none := by
  have hl := Base64.b64Encode_length (List.replicate 1073741826 0)
  rw [List.length_replicate] at hl
  exact (C74_base64_decode_wrong 32 (by decide) true _ _ [] (Base64.b64_roundtrip _) (by omega) (by omega) (by omega)
    (Or.inl (by rw [List.length_replicate]))).2.2

/-- The part that holds: a megabyte on the same machine. -/
example : Codec.encodeValue (Codec.base64W 32 true) (List.replicate 1000000 0) = Codec.encodeValue (Codec.base64 true) (List.replicate 1000000 0) ∧
    Codec.encodeValue (Codec.base16W 32 true) (List.replicate 1000000 0) = Codec.encodeValue (Codec.base16 true) (List.replicate 1000000 0) :=
  ⟨((C74_base64_partial 32 (by decide) (by decide) true ⟨true, []⟩).1 _ (by rw [List.length_replicate]; omega)).2,
    ((C74_base16 32 (by decide) (by decide) true ⟨true, []⟩).1 _ (by rw [Base16.hexEncode_length, List.length_replicate]; omega)).2⟩

end Milo.Props
