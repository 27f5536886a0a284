import Verif.Model.CodecApie
import Verif.Proof.Base16
import Verif.Proof.Base64Dec
/-
Property theorems C01-C10 (codecs).
-/
namespace Milo.Props
open Milo Spec.Codec

/-! ## C01 -/

/-- C01. For every byte string and every output buffer with room for `2 * n` bytes, Base-16 `encode` writes exactly the
lowercase hexadecimal text, leaves the rest of the buffer alone, returns `2 * n`; `encode_size` announces that size. -/
theorem C01_base16_encode_exact (x out : List Byte) (hroom : 2 * x.length ≤ out.length) :
    Base16.encode x out = some (hexEncode x ++ out.drop (2 * x.length), 2 * x.length) ∧
      (hexEncode x).length = 2 * x.length ∧
      (x.length < 2 ^ 63 → Base16.encodeSize x.length = 2 * x.length) := by
  refine ⟨Base16.encode_eq x out hroom, Base16.hexEncode_length x, fun h => ?_⟩
  unfold Base16.encodeSize; omega

/-- With less room the write leaves the buffer (undefined behaviour in C++): the bound is tight. -/
theorem C01_base16_encode_needs_room : Base16.encode [0x12#8] [0#8] = none := by decide

example : Base16.encode [0x00#8, 0xff#8, 0x1a#8] (List.replicate 7 0#8)
    = some ([0x30#8, 0x30#8, 0x66#8, 0x66#8, 0x31#8, 0x61#8, 0#8], 6) := by decide

/-! ## C02 -/

/-- Lower case of a hexadecimal digit (other characters unchanged). -/
def lowerHex (c : Byte) : Byte :=
  if ascii 'A' ≤ c ∧ c ≤ ascii 'F' then c + 0x20#8 else c

theorem hexValue_lower : ∀ c : Byte, hexValue (lowerHex c) = hexValue c := by decide +kernel
theorem hexValue_digit : ∀ v, v < 16 → hexValue (hexDigit v) = some v := by decide +kernel

theorem hexDecode_lower (t : List Byte) : hexDecode (t.map lowerHex) = hexDecode t := by
  induction t using hexDecode.induct with
  | case1 => rfl
  | case2 => rfl
  | case3 c0 c1 rest ih => simp [hexDecode, hexValue_lower, ih]

theorem hexDecode_hexEncode (x : List Byte) : hexDecode (hexEncode x) = some x := by
  induction x with
  | nil => rfl
  | cons b x ih =>
    have hb := b.isLt
    have e : hexEncode (b :: x) = hexDigit (b.toNat / 16) :: hexDigit (b.toNat % 16) :: hexEncode x := by
      simp [hexEncode]
    rw [e]
    simp only [hexDecode, hexValue_digit _ (show b.toNat / 16 < 16 by omega),
      hexValue_digit _ (show b.toNat % 16 < 16 by omega), ih]
    simp
    apply BitVec.eq_of_toNat_eq; simp; omega

/-- C02. Decoding any case variant of the encoding of `x` returns `x` without error (signed or unsigned `char`). -/
theorem C02_base16_roundtrip (sg : Bool) (x txt out : List Byte) (hcase : txt.map lowerHex = hexEncode x)
    (hroom : x.length ≤ out.length) :
    Base16.decode sg txt out = some ⟨x ++ out.drop x.length, x.length, .none⟩ := by
  apply Base16.decode_valid sg txt out x _ hroom
  rw [← hexDecode_lower, hcase, hexDecode_hexEncode]

/-- C02 through the value-returning overloads (also `operator"" _base_16`): encode then decode is the identity. -/
theorem C02_base16_roundtrip_values (sg : Bool) (x : List Byte) (hsz : x.length < 2 ^ 63) :
    (Codec.encodeValue (Codec.base16 sg) x).bind (Codec.decodeValue (Codec.base16 sg)) = some (.returned x) := by
  have he : Codec.encodeValue (Codec.base16 sg) x = some (hexEncode x) := by
    unfold Codec.encodeValue Codec.encode Codec.base16 Container.resize Container.withData
    have h1 : Base16.encodeSize x.length = 2 * x.length := by unfold Base16.encodeSize; omega
    simp [h1, Base16.encode_eq, Base16.hexEncode_length]
    exact List.take_of_length_le (by rw [Base16.hexEncode_length]; omega)
  rw [he]
  have hd : Base16.decodeSize (hexEncode x).length = x.length := by
    rw [Base16.hexEncode_length]; unfold Base16.decodeSize
    rw [Nat.and_one_is_mod, Nat.shiftRight_eq_div_pow]; omega
  simp only [Option.bind_some]
  unfold Codec.decodeValue Codec.decodeThrow Codec.decodePtrThrow Codec.base16 Container.resize Container.withData
  simp [hd, Base16.decode_valid sg _ _ x (hexDecode_hexEncode x)]

example : ([0x41#8, 0x62#8] : List Byte).map lowerHex = hexEncode [0xab#8] := by decide

/-! ## C03 -/

/-- C03, full statement for one target: on even-length texts the decoder reports an error iff some character is no
hexadecimal digit, and otherwise returns the value of the text. -/
def C03_Statement (sg : Bool) : Prop :=
  ∀ (txt out : List Byte), txt.length % 2 = 0 → txt.length / 2 ≤ out.length →
    ∃ d, Base16.decode sg txt out = some d ∧
      (d.err = .none ↔ ∀ c ∈ txt, (hexValue c).isSome) ∧
      ((∃ c ∈ txt, hexValue c = none) → d.err = .codecBase16Decode) ∧
      (∀ r, hexDecode txt = some r → d.out = r ++ out.drop r.length ∧ d.size = r.length)

theorem base16_even_total (sg : Bool) (txt out : List Byte) (he : txt.length % 2 = 0) (ho : txt.length / 2 ≤ out.length) :
    ∃ d, Base16.decode sg txt out = some d ∧ d.out.length = out.length ∧
      (txt.all (Base16.lax sg) = true → d.err = .none ∧ d.size = txt.length / 2) ∧
      (txt.all (Base16.lax sg) = false → d.err = .codecBase16Decode) := by
  have h1 : txt.length >>> 1 = txt.length / 2 := by rw [Nat.shiftRight_eq_div_pow]
  have h2 : txt.length &&& 1 = 0 := by rw [Nat.and_one_is_mod]; omega
  unfold Base16.decode
  simp only [h1, h2, ne_eq, not_true_eq_false, if_false, Nat.add_zero, Nat.sub_zero]
  obtain ⟨d, hd, hl, ha, hb, _⟩ := Base16.decodeLoop_total sg (txt.length / 2) 0 txt (txt.length / 2) 0 0 out
    (by omega) (by omega)
  have ht : (txt.drop 0).take (2 * (txt.length / 2)) = txt := by
    rw [List.drop_zero]; exact List.take_of_length_le (by omega)
  rw [ht] at ha hb
  exact ⟨d, hd, hl, ha, hb⟩

/-- C03 restricted to texts of 7-bit characters, or to targets whose `char` is unsigned. Missing: bytes 0x80..0xff on
signed-`char` targets, where the claim is false (`C03_base16_accepts_garbage`). -/
theorem C03_base16_accepts_exactly_partial (sg : Bool) (txt out : List Byte) (he : txt.length % 2 = 0)
    (ho : txt.length / 2 ≤ out.length) (h7 : sg = false ∨ ∀ c ∈ txt, c.toNat < 128) :
    ∃ d, Base16.decode sg txt out = some d ∧
      (d.err = .none ↔ ∀ c ∈ txt, (hexValue c).isSome) ∧
      ((∃ c ∈ txt, hexValue c = none) → d.err = .codecBase16Decode) ∧
      (∀ r, hexDecode txt = some r → d.out = r ++ out.drop r.length ∧ d.size = r.length) := by
  have hlax : txt.all (Base16.lax sg) = txt.all (fun c => (hexValue c).isSome) := by
    rw [Bool.eq_iff_iff, List.all_eq_true, List.all_eq_true]
    have : ∀ c ∈ txt, Base16.lax sg c = (hexValue c).isSome := by
      intro c hc
      unfold Base16.lax
      rcases h7 with rfl | h7
      · simp
      · have : ¬ 128 ≤ c.toNat := by have := h7 c hc; omega
        simp [this]
    constructor <;> intro h c hc
    · rw [← this c hc]; exact h c hc
    · rw [this c hc]; exact h c hc
  obtain ⟨d, hd, _, ha, hb⟩ := base16_even_total sg txt out he ho
  rw [hlax] at ha hb
  refine ⟨d, hd, ⟨fun h => ?_, fun h => (ha (by simpa using h)).1⟩, ?_, ?_⟩
  · cases hall : txt.all (fun c => (hexValue c).isSome) with
    | true => simpa using hall
    | false => rw [hb hall] at h; cases h
  · rintro ⟨c, hc, hn⟩
    apply hb
    rw [List.all_eq_false]
    exact ⟨c, hc, by simp [hn]⟩
  · intro r hr
    have hl := Base16.hexDecode_length hr
    have := Base16.decode_valid sg txt out r hr (by omega)
    rw [hd] at this
    cases this
    exact ⟨rfl, rfl⟩

/-- On a target with unsigned `char`, C03 holds in full. -/
theorem C03_base16_unsigned_char : C03_Statement false :=
  fun txt out he ho => C03_base16_accepts_exactly_partial false txt out he ho (.inl rfl)

/-- On a target with signed `char` (x86-64), C03 is false: the two bytes `ff ff` decode "successfully". -/
theorem C03_base16_accepts_garbage : ¬ C03_Statement true := by
  intro h
  obtain ⟨d, hd, hiff, _⟩ := h [0xff#8, 0xff#8] [0#8] rfl (by decide)
  have hd' : Base16.decode true [0xff#8, 0xff#8] [0#8] = some ⟨[0xff#8], 1, .none⟩ := by decide
  rw [hd'] at hd
  cases hd
  have := hiff.mp rfl (0xff#8) (by simp)
  revert this; decide

/-- Exactly which even-length texts are accepted, on every target. -/
theorem C03_base16_acceptance_characterised (sg : Bool) (txt out : List Byte) (he : txt.length % 2 = 0)
    (ho : txt.length / 2 ≤ out.length) :
    ∃ d, Base16.decode sg txt out = some d ∧
      (d.err = .none ↔ ∀ c ∈ txt, (hexValue c).isSome ∨ (sg = true ∧ 128 ≤ c.toNat)) := by
  obtain ⟨d, hd, _, ha, hb⟩ := base16_even_total sg txt out he ho
  refine ⟨d, hd, ⟨fun h => ?_, fun h => (ha ?_).1⟩⟩
  · cases hall : txt.all (Base16.lax sg) with
    | true => simpa [Base16.lax] using hall
    | false => rw [hb hall] at h; cases h
  · simpa [Base16.lax] using h

example : ∀ c ∈ [0x30#8, 0x67#8], c.toNat < 128 := by decide

/-! ## C04 -/

/-- C04, full statement: an odd-length hexadecimal text `c :: rest` decodes to the value of `c` followed by the bytes of
`rest`. -/
def C04_Statement (sg : Bool) : Prop :=
  ∀ (c : Byte) (rest out r : List Byte) (v : Nat), hexValue c = some v → hexDecode rest = some r →
    r.length + 1 ≤ out.length →
    Base16.decode sg (c :: rest) out = some ⟨(BitVec.ofNat 8 v :: r) ++ out.drop (r.length + 1), r.length + 1, .none⟩

/-- C04 is false: "abc" yields two bytes of which only the first was written (the second keeps the buffer's old value). -/
theorem C04_base16_odd_wrong (sg : Bool) : ¬ C04_Statement sg := by
  intro h
  have := h 0x61#8 [0x62#8, 0x63#8] [0x55#8, 0x55#8] [0xbc#8] 10 (by decide) (by decide) (by decide)
  revert this; cases sg <;> decide

/-- C04 for texts of length one. Missing: odd lengths from three on, where the claim is false (`C04_base16_odd_wrong`,
`C04_base16_odd_actual`). -/
theorem C04_base16_odd_partial (sg : Bool) (c : Byte) (out : List Byte) (v : Nat) (hv : hexValue c = some v)
    (ho : 1 ≤ out.length) :
    Base16.decode sg [c] out = some ⟨[BitVec.ofNat 8 v] ++ out.drop 1, 1, .none⟩ := by
  match out, ho with
  | o :: out, _ =>
    obtain ⟨e, _⟩ := Base16.decodeDigit_val (sg := sg) hv
    have hl : Base16.lax sg c = true := by simp [Base16.lax, hv]
    have : Base16.decodeDigit sg c = BitVec.ofNat 8 v := by
      apply BitVec.eq_of_toNat_eq; rw [← e]; simp
    simp [Base16.decode, rd1, wr1, Base16.sameInt_lax, hl, this, Base16.decodeLoop]

/-- What really happens for odd lengths from three on: the first digit goes to byte 0, byte 1 is never written, the pairs
of `pairs` go to the bytes after it, the last pair `d0 d1` is not even looked at, and success is reported. -/
theorem C04_base16_odd_actual (sg : Bool) (c d0 d1 : Byte) (pairs r : List Byte) (v : Nat) (o0 o1 : Byte)
    (mid post : List Byte) (hv : hexValue c = some v) (hp : hexDecode pairs = some r) (hm : mid.length = r.length) :
    Base16.decode sg (c :: pairs ++ [d0, d1]) (o0 :: o1 :: mid ++ post)
      = some ⟨BitVec.ofNat 8 v :: o1 :: r ++ post, r.length + 2, .none⟩ := by
  obtain ⟨e, _⟩ := Base16.decodeDigit_val (sg := sg) hv
  have hl : Base16.lax sg c = true := by simp [Base16.lax, hv]
  have hcv : Base16.decodeDigit sg c = BitVec.ofNat 8 v := by
    apply BitVec.eq_of_toNat_eq; rw [← e]; simp
  have hpl := Base16.hexDecode_length hp
  have hlen : (c :: pairs ++ [d0, d1]).length = 2 * (r.length + 1) + 1 := by simp; omega
  have hfull : (2 * (r.length + 1) + 1) >>> 1 = r.length + 1 := by rw [Nat.shiftRight_eq_div_pow]; omega
  have hlast : (2 * (r.length + 1) + 1) &&& 1 = 1 := by rw [Nat.and_one_is_mod]; omega
  have h1 : rd1 (c :: pairs ++ [d0, d1]) 0 = some c := by simp [rd1]
  have h2 : wr1 (o0 :: o1 :: mid ++ post) 0 (BitVec.ofNat 8 v) = some (BitVec.ofNat 8 v :: o1 :: mid ++ post) := by
    simp [wr1]
  have hloop := Base16.decodeLoop_valid sg (r.length + 1 + 1) 1 pairs [c] [d0, d1] [BitVec.ofNat 8 v, o1] mid post r 1 hp hm
    (by simp) r.length rfl
  unfold Base16.decode
  simp only [hlen, hfull, hlast, h1, Base16.sameInt_lax, hl, hcv, h2, ne_eq, Nat.one_ne_zero, not_false_eq_true, if_true,
    Bool.not_true, Bool.false_eq_true, if_false, Option.bind_eq_bind, Option.bind_some, Nat.add_sub_cancel]
  simpa using hloop

example : Base16.decode true [0x31#8, 0x32#8, 0x33#8] [0x77#8, 0x77#8] = some ⟨[0x01#8, 0x77#8], 2, .none⟩ := by decide

/-! ## C05 -/

/-- C05, Base-16 decoder: with `decode_size` bytes of output, no input whatsoever (any bytes, any length) makes it write
outside, and without error it returns exactly `decode_size`. -/
theorem C05_base16_decode_in_bounds (sg : Bool) (txt out : List Byte) (ho : Base16.decodeSize txt.length ≤ out.length) :
    ∃ d, Base16.decode sg txt out = some d ∧ d.out.length = out.length ∧
      (∀ j, Base16.decodeSize txt.length ≤ j → d.out[j]? = out[j]?) ∧
      (d.err = .none → d.size = Base16.decodeSize txt.length) := by
  unfold Base16.decodeSize at *
  rw [Nat.and_one_is_mod, Nat.shiftRight_eq_div_pow] at *
  by_cases he : txt.length % 2 = 0
  · have h1 : txt.length >>> 1 = txt.length / 2 := by rw [Nat.shiftRight_eq_div_pow]
    have h2 : txt.length &&& 1 = 0 := by rw [Nat.and_one_is_mod]; omega
    unfold Base16.decode
    simp only [h1, h2, ne_eq, not_true_eq_false, if_false, Nat.add_zero, Nat.sub_zero]
    obtain ⟨d, hd, hl, ha, hb, hc⟩ := Base16.decodeLoop_total sg (txt.length / 2) 0 txt (txt.length / 2) 0 0 out
      (by omega) (by omega)
    refine ⟨d, hd, hl, fun j hj => hc j (by omega), fun herr => ?_⟩
    cases hall : ((txt.drop 0).take (2 * (txt.length / 2))).all (Base16.lax sg) with
    | true => rw [(ha hall).2]; omega
    | false => rw [hb hall] at herr; cases herr
  · have h1 : txt.length >>> 1 = txt.length / 2 := by rw [Nat.shiftRight_eq_div_pow]
    have h2 : txt.length &&& 1 = 1 := by rw [Nat.and_one_is_mod]; omega
    unfold Base16.decode
    simp only [h1, h2, ne_eq, Nat.one_ne_zero, not_false_eq_true, if_true, rd1_lt txt 0 (by omega),
      Option.bind_eq_bind, Option.bind_some]
    split
    · exact ⟨_, rfl, rfl, fun _ _ => rfl, fun h => by cases h⟩
    · rw [wr1_isSome _ _ _ (by omega)]
      simp only [Option.bind_some]
      obtain ⟨d, hd, hl, ha, hb, hc⟩ := Base16.decodeLoop_total sg (txt.length / 2 + 1) 1 txt (txt.length / 2 - 1) 1 1
        (out.set 0 (Base16.decodeDigit sg txt[0])) (by omega) (by simp; omega)
      refine ⟨d, hd, by simpa using hl, fun j hj => ?_, fun herr => ?_⟩
      · rw [hc j (by omega), List.getElem?_set_ne (by omega)]
      · cases hall : ((txt.drop 1).take (2 * (txt.length / 2 - 1))).all (Base16.lax sg) with
        | true => rw [(ha hall).2]; omega
        | false => rw [hb hall] at herr; cases herr

/-- C05, the size Base-16 needs: two characters per byte, for every input that fits into memory; the 64-bit computation wraps for more than `2^63` bytes only. -/
theorem C05_base16_encode_size (n : Nat) (hn : n < 2 ^ 64) :
    (n < 2 ^ 63 → Base16.encodeSize n = 2 * n) ∧ (2 ^ 63 ≤ n → Base16.encodeSize n = 2 * n - 2 ^ 64) := by
  unfold Base16.encodeSize; omega

example : Base16.encodeSize (2 ^ 63 - 1) = 2 ^ 64 - 2 := (C05_base16_encode_size (2 ^ 63 - 1) (by omega)).1 (by omega)

/-- C05, Base-64 encoder: with `encode_size` bytes of output the encoder stays inside and returns that size. -/
theorem C05_base64_encode_in_bounds (x out : List Byte) (hsz : x.length < 2 ^ 62)
    (ho : Base64.encodeSize x.length ≤ out.length) :
    ∃ o, Base64.encode x out = some (o, Base64.encodeSize x.length) ∧ o.length = out.length ∧
      (∀ j, Base64.encodeSize x.length ≤ j → o[j]? = out[j]?) := by
  have hs := Base64.encodeSize_eq x.length hsz
  simp only [hs] at ho ⊢
  refine ⟨_, Base64.encode_eq x out ho, ?_, ?_⟩
  · simp [Base64.b64Encode_length]; omega
  · intro j hj
    rw [List.getElem?_append_right (by rw [Base64.b64Encode_length]; exact hj), Base64.b64Encode_length, List.getElem?_drop]
    congr 1; omega

/-- C05, Base-64 decoder: with `decode_size` bytes of output, no input makes it write outside; without error it returns
exactly `decode_size`, with an error at most that. -/
theorem C05_base64_decode_in_bounds (sg : Bool) (txt out : List Byte) (hsz : txt.length < 2 ^ 62)
    (ho : Base64.decodeSize txt ≤ out.length) :
    ∃ d, Base64.decode sg txt out = some d ∧ d.out.length = out.length ∧
      (∀ j, Base64.decodeSize txt ≤ j → d.out[j]? = out[j]?) ∧
      d.size ≤ Base64.decodeSize txt ∧ (d.err = .none → d.size = Base64.decodeSize txt) := by
  by_cases hm : txt.length % 4 = 0
  · obtain ⟨h1, h2⟩ := Base64.laxDecode_size sg txt hsz hm
    refine ⟨_, Base64.decode_eq sg txt out hm (by omega), ?_, ?_, h1, ?_⟩
    · simp; omega
    · intro j hj
      simp only
      rw [List.getElem?_append_right (by omega), List.getElem?_drop]
      congr 1; omega
    · intro he
      apply h2
      unfold Base64.errOf at he
      simp only at he
      split at he
      · assumption
      · cases he
  · exact ⟨_, Base64.decode_badLength sg txt out hm, rfl, fun _ _ => rfl, Nat.zero_le _, fun h => by cases h⟩

example : Base64.decodeSize [0x41#8, 0x41#8, 0x3d#8, 0x3d#8] ≤ [0#8].length := by decide
example : Base16.decodeSize [0xff#8, 0x00#8, 0x30#8].length ≤ [0#8, 0#8].length := by decide

/-! ## C06 -/

/-- C06. Base-64 `encode` produces the RFC 4648 text of every byte string, of the size `encode_size` announces. -/
theorem C06_base64_encode_rfc4648 (x out : List Byte) (hsz : x.length < 2 ^ 62)
    (ho : (b64Encode x).length ≤ out.length) :
    Base64.encode x out = some (b64Encode x ++ out.drop (b64Encode x).length, (b64Encode x).length) ∧
      Base64.encodeSize x.length = (b64Encode x).length ∧ (b64Encode x).length = (x.length + 2) / 3 * 4 := by
  rw [Base64.b64Encode_length] at *
  exact ⟨Base64.encode_eq x out ho, Base64.encodeSize_eq x.length hsz, rfl⟩

/-- The size bound is needed: `size_t` arithmetic in `encode_size` wraps (no such buffer can exist in practice). -/
theorem C06_base64_encode_size_wraps : Base64.encodeSize (2 ^ 62) ≠ (2 ^ 62 + 2) / 3 * 4 := by decide +kernel

/-- (test) "message" -/
example : Base64.encode [0x6d#8, 0x65#8, 0x73#8, 0x73#8, 0x61#8, 0x67#8, 0x65#8] (List.replicate 12 0#8)
    = some ((['b','W','V','z','c','2','F','n','Z','Q','=','='] : List Char).map ascii, 12) := by decide +kernel

/-! ## C07 -/

/-- C07. Decoding the encoding of `x` returns `x` without error. -/
theorem C07_base64_roundtrip (sg : Bool) (x out : List Byte) (ho : x.length ≤ out.length) :
    Base64.decode sg (b64Encode x) out = some ⟨x ++ out.drop x.length, x.length, .none⟩ := by
  have hv := Base64.laxDecode_valid sg _ _ (Base64.b64_roundtrip x)
  have := Base64.decode_eq sg (b64Encode x) out (Base64.b64Decode_length (Base64.b64_roundtrip x)) (by rw [hv]; exact ho)
  simpa [hv, Base64.errOf] using this

/-- C07 through the value-returning overloads (also `operator"" _base_64`). -/
theorem C07_base64_roundtrip_values (sg : Bool) (x : List Byte) (hsz : x.length < 2 ^ 61) :
    (Codec.encodeValue (Codec.base64 sg) x).bind (Codec.decodeValue (Codec.base64 sg)) = some (.returned x) := by
  have hes := Base64.encodeSize_eq x.length (by omega)
  have he : Codec.encodeValue (Codec.base64 sg) x = some (b64Encode x) := by
    unfold Codec.encodeValue Codec.encode Codec.base64 Container.resize Container.withData
    simp [hes, Base64.encode_eq, Base64.b64Encode_length]
    exact List.take_of_length_le (by rw [Base64.b64Encode_length]; omega)
  rw [he]
  have hlen := Base64.b64Encode_length x
  have hv := Base64.laxDecode_valid sg _ _ (Base64.b64_roundtrip x)
  have hd : Base64.decodeSize (b64Encode x) = x.length := by
    have := (Base64.laxDecode_size sg (b64Encode x) (by omega) (by omega)).2
    rw [hv] at this
    exact (this rfl).symm
  simp only [Option.bind_some]
  unfold Codec.decodeValue Codec.decodeThrow Codec.decodePtrThrow Codec.base64 Container.resize Container.withData
  simp [hd, C07_base64_roundtrip]

/-- Distinct byte strings have distinct encodings. -/
theorem C07_base64_encode_injective (x y : List Byte) (h : b64Encode x = b64Encode y) : x = y := by
  have hx := Base64.b64_roundtrip x
  rw [h, Base64.b64_roundtrip y] at hx
  exact (Option.some.inj hx).symm

/-! ## C08 -/

/-- C08, full statement for one target: the decoder accepts exactly the well-formed padded texts and returns the bytes
they spell. -/
def C08_Statement (sg : Bool) : Prop :=
  ∀ (txt out : List Byte), txt.length < 2 ^ 62 → Base64.decodeSize txt ≤ out.length →
    ∃ d, Base64.decode sg txt out = some d ∧
      (∀ r, b64Decode txt = some r → d = ⟨r ++ out.drop r.length, r.length, .none⟩) ∧
      (b64Decode txt = none → d.err = .codecBase64Decode)

/-- C08 for texts of 7-bit characters, or targets whose `char` is unsigned. Missing: bytes 0x80..0xff on signed-`char`
targets, where the claim is false (`C08_base64_accepts_garbage`). -/
theorem C08_base64_accepts_exactly_partial (sg : Bool) (txt out : List Byte) (hsz : txt.length < 2 ^ 62)
    (ho : Base64.decodeSize txt ≤ out.length) (h7 : sg = false ∨ ∀ c ∈ txt, c.toNat < 128) :
    ∃ d, Base64.decode sg txt out = some d ∧
      (∀ r, b64Decode txt = some r → d = ⟨r ++ out.drop r.length, r.length, .none⟩) ∧
      (b64Decode txt = none → d.err = .codecBase64Decode) := by
  by_cases hm : txt.length % 4 = 0
  · obtain ⟨h1, h2⟩ := Base64.laxDecode_size sg txt hsz hm
    refine ⟨_, Base64.decode_eq sg txt out hm (by omega), ?_, ?_⟩
    · intro r hr
      rw [Base64.laxDecode_valid sg txt r hr]; rfl
    · intro hn
      have : (Base64.laxDecode sg txt).2 = false := by
        cases hh : (Base64.laxDecode sg txt).2 with
        | false => rfl
        | true => have := Base64.laxDecode_strict sg txt h7 hh; rw [hn] at this; cases this
      simp [this, Base64.errOf]
  · refine ⟨_, Base64.decode_badLength sg txt out hm, fun r hr => ?_, fun _ => rfl⟩
    exact absurd (Base64.b64Decode_length hr) hm

theorem C08_base64_unsigned_char : C08_Statement false :=
  fun txt out hsz ho => C08_base64_accepts_exactly_partial false txt out hsz ho (.inl rfl)

/-- On signed-`char` targets (x86-64) C08 is false: four bytes `ff` are accepted. -/
theorem C08_base64_accepts_garbage : ¬ C08_Statement true := by
  intro h
  obtain ⟨d, hd, _, he⟩ := h [0xff#8, 0xff#8, 0xff#8, 0xff#8] [0#8, 0#8, 0#8] (by decide) (by decide)
  have hd' : Base64.decode true [0xff#8, 0xff#8, 0xff#8, 0xff#8] [0#8, 0#8, 0#8]
      = some ⟨[0xff#8, 0xff#8, 0xff#8], 3, .none⟩ := by decide
  rw [hd'] at hd
  cases hd
  have := he (by decide)
  cases this

/-- On every target: a well-formed text is decoded to the bytes it spells. -/
theorem C08_base64_wellformed_accepted (sg : Bool) (txt out r : List Byte) (hr : b64Decode txt = some r)
    (ho : r.length ≤ out.length) :
    Base64.decode sg txt out = some ⟨r ++ out.drop r.length, r.length, .none⟩ := by
  have hv := Base64.laxDecode_valid sg txt r hr
  have := Base64.decode_eq sg txt out (Base64.b64Decode_length hr) (by rw [hv]; exact ho)
  simpa [hv, Base64.errOf] using this

example : b64Decode [0x51#8, 0x51#8, 0x3d#8, 0x3d#8] = some [0x41#8] ∧
    b64Decode [0x51#8, 0x3d#8, 0x3d#8, 0x3d#8] = none := by decide

/-! ## C09 -/

/-- C09, full statement: accepted texts are canonical. -/
def C09_Statement (sg : Bool) : Prop :=
  ∀ (txt out : List Byte) (d : Base16.Decoded), Base64.decode sg txt out = some d → d.err = .none →
    txt = b64Encode (d.out.take d.size)

/-- C09 is false on every target: "QR==" is accepted and yields the byte whose encoding is "QQ==". -/
theorem C09_base64_not_canonical (sg : Bool) : ¬ C09_Statement sg := by
  intro h
  have hd : Base64.decode sg [0x51#8, 0x52#8, 0x3d#8, 0x3d#8] [0#8] = some ⟨[0x41#8], 1, .none⟩ := by
    cases sg <;> decide
  have := h _ _ _ hd rfl
  revert this; decide

/-- C09 for texts of 7-bit alphabet characters whose length is a multiple of four and that carry no padding (no discarded
bits). Missing: padded texts, where the claim is false. -/
theorem C09_base64_canonical_partial (sg : Bool) (txt out : List Byte) (d : Base16.Decoded)
    (hd : Base64.decode sg txt out = some d) (he : d.err = .none)
    (h7 : ∀ c ∈ txt, c.toNat < 128) (hnp : pad ∉ txt) (ho : txt.length / 4 * 3 ≤ out.length) :
    txt = b64Encode (d.out.take d.size) := by
  by_cases hm : txt.length % 4 = 0
  · have hle := Base64.laxDecode_nopad_length sg txt
    have := Base64.decode_eq sg txt out hm (by omega)
    rw [hd] at this
    cases this
    have hok : (Base64.laxDecode sg txt).2 = true := by
      simp only [Base64.errOf] at he
      split at he
      · assumption
      · cases he
    obtain ⟨r, hr⟩ := Option.isSome_iff_exists.mp (Base64.laxDecode_strict sg txt (.inr h7) hok)
    have hv := Base64.laxDecode_valid sg txt r hr
    simp only [hv, List.take_left]
    exact (Base64.b64Encode_decode_nopad txt r hr hnp).symm
  · rw [Base64.decode_badLength sg txt out hm] at hd
    cases hd; cases he

/-! ## C10 -/

/-- C10. For every codec, input and output container: the throwing container overload throws `e` iff the non-throwing one
reports `e ≠ none`, and otherwise both leave the same container and return the same size. -/
theorem C10_codec_overloads_agree (C : Codec.Impl) (src : List Byte) (to : Container)
    (c : Container) (n : Nat) (e : Error) (h : Codec.decode C src to = some (c, n, e)) :
    (e = .none → Codec.decodeThrow C src to = some (c, .returned n)) ∧
    (e ≠ .none → ∃ c', Codec.decodeThrow C src to = some (c', .thrown e)) := by
  unfold Codec.decode at h
  unfold Codec.decodeThrow Codec.decodePtrThrow
  cases hd : C.decode src (to.resize (C.decodeSize src)).1.data with
  | none => simp [hd] at h
  | some d =>
    simp [hd] at h
    obtain ⟨rfl, rfl, rfl⟩ := h
    constructor
    · intro he; simp only [Option.bind_eq_bind, hd, Option.bind_some, he, ne_eq, not_true_eq_false, if_false]; rfl
    · intro he
      refine ⟨(to.resize (C.decodeSize src)).1.withData d.out, ?_⟩
      simp only [Option.bind_eq_bind, hd, Option.bind_some, he, ne_eq, not_false_eq_true, if_true]; rfl

/-- C10. The overload that returns a container (also `operator"" _base_16`, `_base_64`) throws that error too, and otherwise returns what the others leave in
an empty one. -/
theorem C10_codec_value (C : Codec.Impl) (src : List Byte) (c : Container) (n : Nat) (e : Error) (h : Codec.decode C src ⟨true, []⟩ = some (c, n, e)) :
    (e = .none → Codec.decodeValue C src = some (.returned c.data)) ∧ (e ≠ .none → Codec.decodeValue C src = some (.thrown e)) := by
  obtain ⟨h1, h2⟩ := C10_codec_overloads_agree C src ⟨true, []⟩ c n e h
  unfold Codec.decodeValue
  refine ⟨fun he => ?_, fun he => ?_⟩
  · rw [h1 he]; rfl
  · obtain ⟨c', h2⟩ := h2 he
    rw [h2]; rfl

/-- C10. A resizable container always ends with exactly the returned number of bytes, whatever it held before. -/
theorem C10_codec_container_size (C : Codec.Impl) (src : List Byte) (to : Container) (hdyn : to.dynamic = true)
    (c : Container) (n : Nat) (e : Error) (h : Codec.decode C src to = some (c, n, e)) :
    c.dynamic = true ∧ c.data.length = n := by
  unfold Codec.decode at h
  cases hd : C.decode src (to.resize (C.decodeSize src)).1.data with
  | none => simp [hd] at h
  | some d =>
    simp [hd] at h
    obtain ⟨rfl, rfl, rfl⟩ := h
    unfold Container.resize Container.withData
    simp [hdyn]; omega

/-- C10. Base-64 into a resizable container, any prior content: never undefined, and on success the container is exactly
the decoded bytes. -/
theorem C10_base64_container (sg : Bool) (txt prior r : List Byte) (hr : b64Decode txt = some r)
    (hsz : txt.length < 2 ^ 62) :
    Codec.decode (Codec.base64 sg) txt ⟨true, prior⟩ = some (⟨true, r⟩, r.length, .none) := by
  have hv := Base64.laxDecode_valid sg txt r hr
  have hm := Base64.b64Decode_length hr
  have hd : Base64.decodeSize txt = r.length := by
    have := (Base64.laxDecode_size sg txt hsz hm).2
    rw [hv] at this
    exact (this rfl).symm
  unfold Codec.decode Codec.base64 Container.resize Container.withData
  simp only [hd, if_true, Option.bind_eq_bind]
  rw [C08_base64_wellformed_accepted sg txt _ r hr (by simp; omega)]
  simp

/-- C10. Base-16 (even-length text) into a resizable container. -/
theorem C10_base16_container (sg : Bool) (txt prior r : List Byte) (hr : hexDecode txt = some r) :
    Codec.decode (Codec.base16 sg) txt ⟨true, prior⟩ = some (⟨true, r⟩, r.length, .none) := by
  have hl := Base16.hexDecode_length hr
  have hd : Base16.decodeSize txt.length = r.length := by
    unfold Base16.decodeSize
    rw [Nat.and_one_is_mod, Nat.shiftRight_eq_div_pow]; omega
  unfold Codec.decode Codec.base16 Container.resize Container.withData
  simp only [hd, if_true, Option.bind_eq_bind]
  rw [Base16.decode_valid sg txt _ r hr (by simp; omega)]
  simp

/-- C10. No input (valid or garbage) makes container decoding undefined when the container is resizable. -/
theorem C10_codec_container_total (sg : Bool) (txt prior : List Byte) (hsz : txt.length < 2 ^ 62) :
    (∃ c n e, Codec.decode (Codec.base64 sg) txt ⟨true, prior⟩ = some (c, n, e)) ∧
    (∃ c n e, Codec.decode (Codec.base16 sg) txt ⟨true, prior⟩ = some (c, n, e)) := by
  constructor
  · obtain ⟨d, hd, _⟩ := C05_base64_decode_in_bounds sg txt
      (prior.take (Base64.decodeSize txt) ++ List.replicate (Base64.decodeSize txt - prior.length) 0#8) hsz (by simp; omega)
    refine ⟨((Container.mk true d.out).resize d.size).1, d.size, d.err, ?_⟩
    simp only [Codec.decode, Codec.base64, Container.resize, if_true, Option.bind_eq_bind, hd, Option.bind_some, Container.withData]
    rfl
  · obtain ⟨d, hd, _⟩ := C05_base16_decode_in_bounds sg txt
      (prior.take (Base16.decodeSize txt.length) ++ List.replicate (Base16.decodeSize txt.length - prior.length) 0#8)
      (by simp; omega)
    refine ⟨((Container.mk true d.out).resize d.size).1, d.size, d.err, ?_⟩
    simp only [Codec.decode, Codec.base16, Container.resize, if_true, Option.bind_eq_bind, hd, Option.bind_some, Container.withData]
    rfl

example : Codec.decode (Codec.base64 true) [0x51#8, 0x51#8, 0x3d#8, 0x3d#8] ⟨true, [1#8, 2#8, 3#8]⟩
    = some (⟨true, [0x41#8]⟩, 1, .none) := by decide
example : Codec.decodeThrow (Codec.base64 true) [0x51#8] ⟨true, [1#8, 2#8, 3#8]⟩
    = some (⟨true, []⟩, .thrown .codecBase64Decode) := by decide

end Milo.Props
