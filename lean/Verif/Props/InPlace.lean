import Verif.Proof.InPlace
import Verif.Props.Room
/-
Property theorems C70: the result may take the place of the text. Specification: Spec/InPlace.lean, Spec/Codec.lean.
-/
namespace Milo.Props
open Milo Spec.Codec Spec.InPlace Milo.InPlace

private theorem part_length (mem : List Byte) (off n : Nat) (h : off + n ≤ mem.length) : (part mem off n).length = n := by
  unfold part; simp; omega

private theorem replaced_part (mem : List Byte) (off n : Nat) (h : off + n ≤ mem.length) : replaced mem off (part mem off n) = mem := by
  unfold replaced
  rw [part_length mem off n h]
  unfold part
  rw [List.append_assoc, ← List.drop_drop, List.take_append_drop, List.take_append_drop]

private theorem unread_part (mem : List Byte) (src n : Nat) : Unread (part mem src n) src 0 mem := by
  intro j _ hj
  unfold part at *
  simp only [List.length_take] at hj
  rw [List.getElem?_take_of_lt (by omega), List.getElem?_drop]

/-! ## Decoding by pointers -/

/-- C70, decoding by pointers, any text: when the result begins no later than the text (in particular at the same place), or the areas are disjoint, the call does what it does
for a text of its own: same memory at `dst`, same size, same error; the rest of the memory is unchanged. -/
theorem C70_decode_pointers (sg : Bool) (mem : List Byte) (src n dst : Nat) (hs : src + n ≤ mem.length) (hn : n < 2 ^ 62) (hb : dst ≤ src ∨ src + n ≤ dst) :
    (dst + Base16.decodeSize n ≤ mem.length → ∃ d, Base16.decode sg (part mem src n) (part mem dst (Base16.decodeSize n)) = some d ∧
      Base16.At.decode sg mem src n dst = some ⟨replaced mem dst d.out, d.size, d.err⟩) ∧
    (dst + Base64.decodeSize (part mem src n) ≤ mem.length → ∃ d, Base64.decode sg (part mem src n) (part mem dst (Base64.decodeSize (part mem src n))) = some d ∧
      Base64.At.decode sg mem src n dst = some ⟨replaced mem dst d.out, d.size, d.err⟩) := by
  have hl := part_length mem src n hs
  constructor
  · intro hr
    have hp := part_length mem dst _ hr
    obtain ⟨d, e, -⟩ := C05_base16_decode_in_bounds sg (part mem src n) (part mem dst (Base16.decodeSize n)) (by rw [hl]; omega)
    refine ⟨d, e, ?_⟩
    have := b16_decode mem (part mem src n) src dst (by omega) sg n hl.symm _ d (by omega) (by rw [replaced_part mem dst _ hr]; exact unread_part mem src n) e
    rwa [replaced_part mem dst _ hr] at this
  · intro hr
    have hp := part_length mem dst _ hr
    obtain ⟨d, e, -⟩ := C05_base64_decode_in_bounds sg (part mem src n) (part mem dst (Base64.decodeSize (part mem src n))) (by omega) (by omega)
    refine ⟨d, e, ?_⟩
    have := b64_decode mem (part mem src n) src dst (by omega) sg n hl.symm _ d (by omega) (by rw [replaced_part mem dst _ hr]; exact unread_part mem src n) e
    rwa [replaced_part mem dst _ hr] at this

/-- C70, decoding by pointers, well-formed text: the bytes it stands for are at `dst`. -/
theorem C70_decode_in_place (sg : Bool) (mem : List Byte) (src n dst : Nat) (hs : src + n ≤ mem.length) (hn : n < 2 ^ 62) (hb : dst ≤ src ∨ src + n ≤ dst) (x : List Byte)
    (hr : dst + x.length ≤ mem.length) :
    (hexDecode (part mem src n) = some x → Base16.At.decode sg mem src n dst = some ⟨replaced mem dst x, x.length, .none⟩) ∧
    (b64Decode (part mem src n) = some x → Base64.At.decode sg mem src n dst = some ⟨replaced mem dst x, x.length, .none⟩) := by
  have hl := part_length mem src n hs
  have hp := part_length mem dst _ hr
  constructor
  · intro ht
    have e := Base16.decode_valid sg _ (part mem dst x.length) x ht (by omega)
    rw [List.drop_of_length_le (by omega), List.append_nil] at e
    have := b16_decode mem (part mem src n) src dst (by omega) sg n hl.symm _ _ (by omega) (by rw [replaced_part mem dst _ hr]; exact unread_part mem src n) e
    rwa [replaced_part mem dst _ hr] at this
  · intro ht
    have hv := Base64.laxDecode_valid sg _ _ ht
    have e := Base64.decode_eq sg (part mem src n) (part mem dst x.length) (Base64.b64Decode_length ht) (by rw [hv]; exact Nat.le_of_eq hp.symm)
    simp only [hv] at e
    rw [List.drop_of_length_le (by simp [hp]), List.append_nil] at e
    have := b64_decode mem (part mem src n) src dst (by omega) sg n hl.symm _ _ (by omega) (by rw [replaced_part mem dst _ hr]; exact unread_part mem src n) e
    rw [replaced_part mem dst _ hr] at this
    rw [this]; rfl

/-- Beside C70_decode_in_place: eight hexadecimal digits in the middle of a buffer become four bytes in the same place, the digits after them remain. -/
example : Base16.At.decode true ([9] ++ hexEncode [0xde, 0xad, 0xbe, 0xef] ++ [7]) 1 8 1 = some ⟨[9, 0xde, 0xad, 0xbe, 0xef, 0x62, 0x65, 0x65, 0x66, 7], 4, .none⟩ :=
  (C70_decode_in_place true ([9] ++ hexEncode [0xde, 0xad, 0xbe, 0xef] ++ [7]) 1 8 1 (by decide) (by decide) (.inl (by decide)) [0xde, 0xad, 0xbe, 0xef] (by decide)).1 (by decide +kernel)

/-- C70 fails where the result overtakes the text: two digits after the beginning, unread digits are overwritten. -/
theorem C70_decode_ahead_wrong : Base16.At.decode true (hexEncode [0x12, 0x34, 0x56] ++ [0]) 0 6 2 = some ⟨[0x31, 0x32, 0x12, 0x34, 0x35, 0x36, 0], 2, .codecBase16Decode⟩ := by
  decide +kernel

/-! ## Encoding by pointers -/

/-- C70, encoding by pointers, as far as it holds: the text lies behind the place of the result by its own size (Base-16) or by a third of it (Base-64), so that for instance
a text at the end of a buffer is encoded into the whole buffer; or the areas are disjoint. -/
theorem C70_encode_pointers_partial (mem : List Byte) (src n dst : Nat) (hs : src + n ≤ mem.length) :
    (dst + 2 * n ≤ mem.length → dst + n ≤ src ∨ src + n ≤ dst → Base16.At.encode mem src n dst = some (replaced mem dst (hexEncode (part mem src n)), 2 * n)) ∧
    (dst + (n + 2) / 3 * 4 ≤ mem.length → dst + (n + 2) / 3 ≤ src ∨ src + n ≤ dst →
      Base64.At.encode mem src n dst = some (replaced mem dst (b64Encode (part mem src n)), (n + 2) / 3 * 4)) := by
  have hl := part_length mem src n hs
  constructor
  · intro hr hb
    have hp := part_length mem dst _ hr
    have e := Base16.encode_eq (part mem src n) (part mem dst (2 * n)) (by omega)
    rw [List.drop_of_length_le (by omega), List.append_nil, hl] at e
    have := b16_encode mem (part mem src n) src dst (by omega) n hl.symm _ _ (by omega) (by rw [replaced_part mem dst _ hr]; exact unread_part mem src n) e
    rwa [replaced_part mem dst _ hr] at this
  · intro hr hb
    have hp := part_length mem dst _ hr
    have e := Base64.encode_eq (part mem src n) (part mem dst ((n + 2) / 3 * 4)) (by rw [hl]; omega)
    rw [List.drop_of_length_le (by rw [hl]; omega), List.append_nil, hl] at e
    have := b64_encode mem (part mem src n) src dst (by omega) n hl.symm _ _ (by omega) (by rw [replaced_part mem dst _ hr]; exact unread_part mem src n) e
    rwa [replaced_part mem dst _ hr] at this

/-- Beside C70_encode_pointers_partial: the last three bytes of a buffer of six. -/
example : Base16.At.encode [0, 0, 0, 0x0a, 0x1b, 0x2c] 3 3 0 = some (hexEncode [0x0a, 0x1b, 0x2c], 6) :=
  (C70_encode_pointers_partial [0, 0, 0, 0x0a, 0x1b, 0x2c] 3 3 0 (by decide)).1 (by decide) (.inl (by decide))

/-- C70 fails for encoding in place: the digits of the first bytes overwrite the bytes to be encoded next. -/
theorem C70_encode_in_place_wrong :
    Base16.At.encode [0x12, 0x34, 0, 0] 0 2 0 = some (hexEncode [0x12, 0x32], 4) ∧ hexEncode [0x12, 0x32] ≠ hexEncode [0x12, 0x34] ∧
    Base64.At.encode [0, 0, 0, 0xff, 0, 0, 0, 0] 0 4 0 = some (b64Encode [0, 0, 0, 0x41], 8) ∧ b64Encode [0, 0, 0, 0x41] ≠ b64Encode [0, 0, 0, 0xff] := by
  decide +kernel

/-! ## One container for text and result -/

private theorem b16_encode_room (k : Nat) : ∀ (fr t : Nat) (mem m' : List Byte), Base16.At.encodeLoop k fr t mem = some m' → 0 < k → t + 2 * k ≤ mem.length := by
  induction k with
  | zero => intro _ _ _ _ _ h; omega
  | succ k ih =>
    intro fr t mem m' e _
    simp only [Base16.At.encodeLoop, Option.bind_eq_bind] at e
    obtain ⟨b, -, e⟩ := InPlace.bind_some e
    obtain ⟨o1, w1, e⟩ := InPlace.bind_some e
    obtain ⟨o2, w2, e⟩ := InPlace.bind_some e
    obtain ⟨-, rfl⟩ := wr1_some w1
    obtain ⟨h2, rfl⟩ := wr1_some w2
    simp only [List.length_set] at h2
    rcases Nat.eq_zero_or_pos k with rfl | hk
    · omega
    · have := ih _ _ _ _ e hk
      simp only [List.length_set] at this
      omega

private theorem b64_encode_room (k : Nat) : ∀ (fr t : Nat) (mem m' : List Byte), Base64.At.encodeLoop k fr t mem = some m' → m'.length = mem.length ∧ (0 < k → t + 4 * k ≤ mem.length) := by
  induction k with
  | zero => intro _ _ _ _ e; cases e; exact ⟨rfl, fun h => by omega⟩
  | succ k ih =>
    intro fr t mem m' e
    simp only [Base64.At.encodeLoop, Option.bind_eq_bind] at e
    obtain ⟨b0, -, e⟩ := InPlace.bind_some e
    obtain ⟨b1, -, e⟩ := InPlace.bind_some e
    obtain ⟨b2, -, e⟩ := InPlace.bind_some e
    obtain ⟨o1, w1, e⟩ := InPlace.bind_some e
    obtain ⟨o2, w2, e⟩ := InPlace.bind_some e
    obtain ⟨o3, w3, e⟩ := InPlace.bind_some e
    obtain ⟨o4, w4, e⟩ := InPlace.bind_some e
    obtain ⟨-, rfl⟩ := wr1_some w1
    obtain ⟨-, rfl⟩ := wr1_some w2
    obtain ⟨-, rfl⟩ := wr1_some w3
    obtain ⟨h4, rfl⟩ := wr1_some w4
    simp only [List.length_set] at h4
    obtain ⟨i1, i2⟩ := ih _ _ _ _ e
    simp only [List.length_set] at i1 i2
    refine ⟨i1, fun _ => ?_⟩
    rcases Nat.eq_zero_or_pos k with rfl | hk
    · omega
    · have := i2 hk; omega

private theorem b16_encode_all (mem : List Byte) (hne : mem ≠ []) : Base16.At.encode mem 0 mem.length 0 = none := by
  have hp := List.length_pos_iff.mpr hne
  cases e : Base16.At.encode mem 0 mem.length 0 with
  | none => rfl
  | some r =>
    simp only [Base16.At.encode, Option.bind_eq_bind] at e
    obtain ⟨m', e, -⟩ := InPlace.bind_some e
    have := b16_encode_room _ _ _ _ _ e hp
    omega

private theorem b64_encode_all (mem : List Byte) (hne : mem ≠ []) : Base64.At.encode mem 0 mem.length 0 = none := by
  have hp := List.length_pos_iff.mpr hne
  cases e : Base64.At.encode mem 0 mem.length 0 with
  | none => rfl
  | some r =>
    simp only [Base64.At.encode, Option.bind_eq_bind] at e
    obtain ⟨m', e, e'⟩ := InPlace.bind_some e
    obtain ⟨h1, h2⟩ := b64_encode_room _ _ _ _ _ e
    split at e'
    · obtain ⟨b0, -, e'⟩ := InPlace.bind_some e'
      obtain ⟨b1, -, e'⟩ := InPlace.bind_some e'
      obtain ⟨o1, w1, e'⟩ := InPlace.bind_some e'
      obtain ⟨o2, w2, e'⟩ := InPlace.bind_some e'
      obtain ⟨o3, w3, e'⟩ := InPlace.bind_some e'
      obtain ⟨o4, w4, e'⟩ := InPlace.bind_some e'
      obtain ⟨-, rfl⟩ := wr1_some w1
      obtain ⟨-, rfl⟩ := wr1_some w2
      obtain ⟨-, rfl⟩ := wr1_some w3
      obtain ⟨h4, rfl⟩ := wr1_some w4
      simp only [List.length_set] at h4
      omega
    · have : mem.length % 3 = 0 := by rename_i h; simpa using h
      have := h2 (by omega)
      omega

/-- C70 fails for `encode(c, c)`, always: the container grows first, then all of it is encoded, into itself: every call with a container that is not empty writes outside. -/
theorem C70_encode_same_container_wrong (sg : Bool) (c : Container) (hne : c.data ≠ []) (hl : c.data.length < 2 ^ 62) :
    Codec.encodeSelf (Codec.base16At sg) c = none ∧ Codec.encodeSelf (Codec.base64At sg) c = none := by
  have hp := List.length_pos_iff.mpr hne
  have hz : ∀ n, c.data.length ≤ n → (c.resize n).1.data ≠ [] := by
    intro n hn h
    have := congrArg List.length h
    unfold Container.resize at this
    split at this
    · simp only [List.length_append, List.length_take, List.length_replicate, List.length_nil] at this; omega
    · simp only [List.length_nil] at this; omega
  constructor
  · unfold Codec.encodeSelf
    simp only [Codec.base16At, Codec.base16, Option.bind_eq_bind]
    rw [b16_encode_all _ (hz _ (by unfold Base16.encodeSize; omega))]; rfl
  · unfold Codec.encodeSelf
    simp only [Codec.base64At, Codec.base64, Option.bind_eq_bind]
    rw [b64_encode_all _ (hz _ (by rw [Base64.encodeSize_eq _ hl]; omega))]; rfl

private theorem hex_split (a b : List Byte) : hexEncode (a ++ b) = hexEncode a ++ hexEncode b := by unfold hexEncode; simp

/-- C70 fails for `decode(c, c)` with a resizable container: it is cut to the size of the result before the text is read, and without any error half of the result
(Base-16) or three quarters of it (Base-64) are returned, for every text of an even number of bytes or a multiple of 12 bytes. -/
theorem C70_decode_same_container_wrong (sg : Bool) (x : List Byte) (hl : x.length < 2 ^ 60) :
    (x.length % 2 = 0 → Codec.decodeSelf (Codec.base16At sg) ⟨true, hexEncode x⟩ = some (⟨true, x.take (x.length / 2)⟩, x.length / 2, .none) ∧
      Codec.decodeThrowSelf (Codec.base16At sg) ⟨true, hexEncode x⟩ = some (⟨true, x.take (x.length / 2)⟩, .returned (x.length / 2))) ∧
    (x.length % 12 = 0 → Codec.decodeSelf (Codec.base64At sg) ⟨true, b64Encode x⟩ = some (⟨true, x.take (x.length / 4 * 3)⟩, x.length / 4 * 3, .none) ∧
      Codec.decodeThrowSelf (Codec.base64At sg) ⟨true, b64Encode x⟩ = some (⟨true, x.take (x.length / 4 * 3)⟩, .returned (x.length / 4 * 3))) := by
  constructor
  · intro hm
    generalize hj : x.length / 2 = j
    have hx := (List.take_append_drop j x).symm
    have htl : (x.take j).length = j := by simp; omega
    have he : (hexEncode x).take x.length = hexEncode (x.take j) := by
      conv_lhs => rw [hx, hex_split]
      exact List.take_left' (by rw [Base16.hexEncode_length, htl]; simp; omega)
    have hs : (hexEncode x).length = 2 * x.length := Base16.hexEncode_length x
    have hd : Base16.decodeSize (hexEncode x).length = x.length := by
      unfold Base16.decodeSize; rw [hs, Nat.and_one_is_mod, Nat.shiftRight_eq_div_pow]; omega
    have hr : ((⟨true, hexEncode x⟩ : Container).resize x.length).1 = ⟨true, hexEncode (x.take j)⟩ := by
      unfold Container.resize
      simp only [if_true, he, hs]
      rw [show x.length - 2 * x.length = 0 by omega]; simp
    have ht : (hexEncode (x.take j)).length = 2 * j := by rw [Base16.hexEncode_length, htl]
    have hdec := (C70_decode_in_place sg (hexEncode (x.take j)) 0 (hexEncode (x.take j)).length 0 (by omega) (by omega) (.inl (Nat.le_refl _)) (x.take j) (by omega)).1
      (by unfold part; simp [hexDecode_hexEncode])
    have hrep : (⟨true, replaced (hexEncode (x.take j)) 0 (x.take j)⟩ : Container).resize j = (⟨true, x.take j⟩, j) := by
      unfold Container.resize replaced
      simp only [if_true, List.take_zero, List.nil_append, List.length_append, htl]
      rw [List.take_left' htl]
      simp
    constructor
    · unfold Codec.decodeSelf
      simp only [Codec.base16At, Codec.base16, hd, hr, hdec, Option.bind_eq_bind, Option.bind_some, Container.withData, htl, hrep, pure]
    · unfold Codec.decodeThrowSelf
      simp only [Codec.base16At, Codec.base16, hd, hr, hdec, Option.bind_eq_bind, Option.bind_some, Container.withData, htl, hrep, pure, ne_eq, not_true, if_false]
  · intro hm
    generalize hj : x.length / 4 * 3 = j
    have hx := (List.take_append_drop j x).symm
    have htl : (x.take j).length = j := by simp; omega
    have hs : (b64Encode x).length = x.length / 3 * 4 := by rw [Base64.b64Encode_length]; omega
    have ht : (b64Encode (x.take j)).length = x.length := by rw [Base64.b64Encode_length, htl]; omega
    have he : (b64Encode x).take x.length = b64Encode (x.take j) := by
      conv_lhs => rw [hx, Base64.b64Encode_append (j / 3) _ _ (by omega)]
      exact List.take_left' (by rw [List.take_append_drop, ht])
    have hv := Base64.laxDecode_valid sg _ _ (Base64.b64_roundtrip x)
    have hd : Base64.decodeSize (b64Encode x) = x.length := by
      have := (Base64.laxDecode_size sg (b64Encode x) (by omega) (Base64.b64Decode_length (Base64.b64_roundtrip x))).2 (by rw [hv])
      rw [hv] at this
      exact this.symm
    have hr : ((⟨true, b64Encode x⟩ : Container).resize x.length).1 = ⟨true, b64Encode (x.take j)⟩ := by
      unfold Container.resize
      simp only [if_true, he, hs]
      rw [show x.length - x.length / 3 * 4 = 0 by omega]; simp
    have hdec := (C70_decode_in_place sg (b64Encode (x.take j)) 0 (b64Encode (x.take j)).length 0 (by omega) (by omega) (.inl (Nat.le_refl _)) (x.take j) (by omega)).2
      (by unfold part; simp [Base64.b64_roundtrip])
    have hrep : (⟨true, replaced (b64Encode (x.take j)) 0 (x.take j)⟩ : Container).resize j = (⟨true, x.take j⟩, j) := by
      unfold Container.resize replaced
      simp only [if_true, List.take_zero, List.nil_append, List.length_append, htl]
      rw [List.take_left' htl]
      simp
    constructor
    · unfold Codec.decodeSelf
      simp only [Codec.base64At, Codec.base64, hd, hr, hdec, Option.bind_eq_bind, Option.bind_some, Container.withData, htl, hrep, pure]
    · unfold Codec.decodeThrowSelf
      simp only [Codec.base64At, Codec.base64, hd, hr, hdec, Option.bind_eq_bind, Option.bind_some, Container.withData, htl, hrep, pure, ne_eq, not_true, if_false]

/-- Beside C70_decode_same_container_wrong: `decode(s, s)` with `s = "61626364"` gives `"ab"`, no error. -/
example : Codec.decodeSelf (Codec.base16At true) ⟨true, hexEncode [0x61, 0x62, 0x63, 0x64]⟩ = some (⟨true, [0x61, 0x62]⟩, 2, .none) :=
  ((C70_decode_same_container_wrong true [0x61, 0x62, 0x63, 0x64] (by decide)).1 (by decide)).1

/-- C70, `decode(c, c)` as far as it holds: containers of fixed size (`std::span`, `std::array`) full of well-formed text. -/
theorem C70_decode_same_container_partial (sg : Bool) (t x : List Byte) (hl : t.length < 2 ^ 62) :
    (hexDecode t = some x → Codec.decodeSelf (Codec.base16At sg) ⟨false, t⟩ = some (⟨false, x ++ t.drop x.length⟩, x.length, .none) ∧
      Codec.decodeThrowSelf (Codec.base16At sg) ⟨false, t⟩ = some (⟨false, x ++ t.drop x.length⟩, .returned x.length)) ∧
    (b64Decode t = some x → Codec.decodeSelf (Codec.base64At sg) ⟨false, t⟩ = some (⟨false, x ++ t.drop x.length⟩, x.length, .none) ∧
      Codec.decodeThrowSelf (Codec.base64At sg) ⟨false, t⟩ = some (⟨false, x ++ t.drop x.length⟩, .returned x.length)) := by
  have hp : part t 0 t.length = t := by unfold part; simp
  have key : ∀ xs, replaced t 0 xs = xs ++ t.drop xs.length := fun xs => by unfold replaced; simp
  constructor
  · intro ht
    have hx := Base16.hexDecode_length ht
    have hdec := (C70_decode_in_place sg t 0 t.length 0 (by omega) hl (.inl (Nat.le_refl _)) x (by omega)).1 (by rw [hp]; exact ht)
    rw [key] at hdec
    constructor
    · unfold Codec.decodeSelf
      simp only [Codec.base16At, Codec.base16, Container.resize, Bool.false_eq_true, if_false, hdec, Option.bind_eq_bind, Option.bind_some, Container.withData, pure]
    · unfold Codec.decodeThrowSelf
      simp only [Codec.base16At, Codec.base16, Container.resize, Bool.false_eq_true, if_false, hdec, Option.bind_eq_bind, Option.bind_some, Container.withData, pure, ne_eq, not_true]
  · intro ht
    have hv := Base64.laxDecode_valid sg _ _ ht
    have hx : x.length ≤ t.length := by
      have := Base64.laxDecode_nopad_length sg t
      rw [hv] at this
      simp only at this
      omega
    have hdec := (C70_decode_in_place sg t 0 t.length 0 (by omega) hl (.inl (Nat.le_refl _)) x (by omega)).2 (by rw [hp]; exact ht)
    rw [key] at hdec
    constructor
    · unfold Codec.decodeSelf
      simp only [Codec.base64At, Codec.base64, Container.resize, Bool.false_eq_true, if_false, hdec, Option.bind_eq_bind, Option.bind_some, Container.withData, pure]
    · unfold Codec.decodeThrowSelf
      simp only [Codec.base64At, Codec.base64, Container.resize, Bool.false_eq_true, if_false, hdec, Option.bind_eq_bind, Option.bind_some, Container.withData, pure, ne_eq, not_true]

/-- Beside C70_decode_same_container_partial: a span over `"AQID"`. -/
example : Codec.decodeSelf (Codec.base64At false) ⟨false, b64Encode [1, 2, 3]⟩ = some (⟨false, [1, 2, 3, 0x44]⟩, 3, .none) :=
  ((C70_decode_same_container_partial false (b64Encode [1, 2, 3]) [1, 2, 3] (by decide)).2 (by decide +kernel)).1

end Milo.Props
