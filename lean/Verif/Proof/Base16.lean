import Verif.Model.Base16
import Verif.Spec.Codec
import Verif.Proof.Buf
namespace Milo.Base16
open Milo Spec.Codec

theorem encodeDigit_table : ∀ a : BitVec 8, a.toNat < 16 → encodeDigit a = hexDigit a.toNat := by
  decide +kernel

theorem encodeDigit_hi (b : Byte) : encodeDigit (b >>> 4) = hexDigit (b.toNat / 16) := by
  rw [encodeDigit_table] <;> simp [BitVec.toNat_ushiftRight, Nat.shiftRight_eq_div_pow]; omega

theorem encodeDigit_lo (b : Byte) : encodeDigit (b &&& 0b1111#8) = hexDigit (b.toNat % 16) := by
  have h : (b &&& 0b1111#8).toNat = b.toNat % 16 := by
    simp only [BitVec.toNat_and, BitVec.toNat_ofNat]
    exact Nat.and_two_pow_sub_one_eq_mod b.toNat 4
  rw [encodeDigit_table, h]
  omega

theorem hexEncode_length (x : List Byte) : (hexEncode x).length = 2 * x.length := by
  induction x with
  | nil => rfl
  | cons b x ih => simp [hexEncode] at *; omega

theorem encodeLoop_eq (x pre mid post : List Byte) (hm : mid.length = 2 * x.length) :
    encodeLoop x pre.length (pre ++ mid ++ post) = some (pre ++ hexEncode x ++ post) := by
  induction x generalizing pre mid with
  | nil => simp at hm; subst hm; simp [encodeLoop, hexEncode]
  | cons b x ih =>
    match mid, hm with
    | m0 :: m1 :: mid, hm =>
      have hm' : mid.length = 2 * x.length := by simp at hm; omega
      simp only [encodeLoop, Nat.add_zero]
      have e1 : pre ++ m0 :: m1 :: mid ++ post = pre ++ m0 :: (m1 :: mid ++ post) := by simp
      rw [e1, wr1_append]
      simp only [Option.bind_eq_bind, Option.bind_some]
      have e2 : pre ++ encodeDigit (b >>> 4) :: (m1 :: mid ++ post)
          = (pre ++ [encodeDigit (b >>> 4)]) ++ m1 :: (mid ++ post) := by simp
      rw [e2, wr1_append' _ _ _ _ _ (by simp)]
      simp only [Option.bind_some]
      have := ih (pre ++ [encodeDigit (b >>> 4), encodeDigit (b &&& 0b1111#8)]) mid hm'
      simp only [List.length_append, List.length_cons, List.length_nil] at this
      rw [encodeDigit_hi, encodeDigit_lo] at *
      simpa [hexEncode] using this

theorem encode_eq (x out : List Byte) (h : 2 * x.length ≤ out.length) :
    encode x out = some (hexEncode x ++ out.drop (2 * x.length), 2 * x.length) := by
  have := encodeLoop_eq x [] (out.take (2 * x.length)) (out.drop (2 * x.length)) (by simp; omega)
  simp only [List.nil_append, List.take_append_drop, List.length_nil] at this
  simp [encode, this, Nat.mul_comm]

/-- What the decoder takes for a digit: a real digit, or (when `char` is signed) any byte with the top bit set. -/
def lax (sg : Bool) (c : Byte) : Bool := (hexValue c).isSome || (sg && decide (128 ≤ c.toNat))

/-- Over the whole table of 256 characters and both `char` signednesses. -/
theorem sameInt_lax : ∀ sg : Bool, ∀ c : Byte, sameInt sg c (decodeDigit sg c) = !lax sg c := by
  decide +kernel

theorem digit_table : ∀ sg : Bool, ∀ c : Byte,
    (hexValue c).all (fun v => (decodeDigit sg c).toNat = v && decide (v < 16)) = true := by
  decide +kernel

theorem decodeDigit_val {sg : Bool} {c : Byte} {v : Nat} (h : hexValue c = some v) :
    (decodeDigit sg c).toNat = v ∧ v < 16 := by
  have := digit_table sg c; rw [h] at this; simpa using this

theorem pair_val {sg : Bool} {c0 c1 : Byte} {h l : Nat} (h0 : hexValue c0 = some h) (h1 : hexValue c1 = some l) :
    (decodeDigit sg c0 <<< 4 ||| decodeDigit sg c1) = BitVec.ofNat 8 (16 * h + l) := by
  obtain ⟨e0, b0⟩ := decodeDigit_val (sg := sg) h0
  obtain ⟨e1, b1⟩ := decodeDigit_val (sg := sg) h1
  apply BitVec.eq_of_toNat_eq
  simp only [BitVec.toNat_or, BitVec.toNat_shiftLeft, e0, e1, BitVec.toNat_ofNat]
  have : h <<< 4 % 2 ^ 8 = h <<< 4 := by rw [Nat.shiftLeft_eq]; omega
  rw [this, ← Nat.shiftLeft_add_eq_or_of_lt (by omega : l < 2 ^ 4), Nat.shiftLeft_eq]
  omega

/-- One step of the loop, on a source split at the read position. -/
theorem decodeLoop_valid (sg : Bool) (ret to : Nat) (txt spre spost opre omid opost : List Byte) (r : List Byte)
    (i : Nat) (hr : hexDecode txt = some r) (ho : omid.length = r.length) (hi : to + i = opre.length) (k : Nat)
    (hk : k = r.length) :
    decodeLoop sg (spre ++ txt ++ spost) ret to k i spre.length (opre ++ omid ++ opost)
      = some ⟨opre ++ r ++ opost, ret, .none⟩ := by
  induction txt using hexDecode.induct generalizing spre opre omid r i k with
  | case1 => simp [hexDecode] at hr; subst hr; simp at ho; subst ho hk; simp [decodeLoop]
  | case2 => simp [hexDecode] at hr
  | case3 c0 c1 rest ih =>
    simp only [hexDecode, Option.bind_eq_bind, Option.bind_eq_some_iff, Option.some.injEq] at hr
    obtain ⟨h, hh, l, hl, r', hr', rfl⟩ := hr
    match omid, ho with
    | o :: omid, ho =>
      subst hk
      simp only [List.length_cons, decodeLoop]
      have e0 : rd1 (spre ++ c0 :: c1 :: rest ++ spost) (spre.length + 0) = some c0 := by
        rw [show spre ++ c0 :: c1 :: rest ++ spost = spre ++ c0 :: (c1 :: rest ++ spost) by simp]
        exact rd1_append _ _ _ _ rfl
      have e1 : rd1 (spre ++ c0 :: c1 :: rest ++ spost) (spre.length + 1) = some c1 := by
        rw [show spre ++ c0 :: c1 :: rest ++ spost = (spre ++ [c0]) ++ c1 :: (rest ++ spost) by simp]
        exact rd1_append _ _ _ _ (by simp)
      rw [e0, e1]
      simp only [Option.bind_eq_bind, Option.bind_some, sameInt_lax]
      have l0 : lax sg c0 = true := by simp [lax, hh]
      have l1 : lax sg c1 = true := by simp [lax, hl]
      simp only [l0, l1, Bool.not_true, Bool.or_self, Bool.false_eq_true, if_false]
      rw [show opre ++ o :: omid ++ opost = opre ++ o :: (omid ++ opost) by simp, wr1_append' _ _ _ _ _ hi]
      simp only [Option.bind_some]
      rw [pair_val hh hl]
      have := ih (spre ++ [c0, c1]) (opre ++ [BitVec.ofNat 8 (16 * h + l)]) omid r' (i + 1) hr'
        (by simp at ho; exact ho) (by simp; omega) r'.length rfl
      simpa using this

theorem hexDecode_length {txt r : List Byte} (h : hexDecode txt = some r) : txt.length = 2 * r.length := by
  induction txt using hexDecode.induct generalizing r with
  | case1 => simp [hexDecode] at h; subst h; rfl
  | case2 => simp [hexDecode] at h
  | case3 c0 c1 rest ih =>
    simp only [hexDecode, Option.bind_eq_bind, Option.bind_eq_some_iff, Option.some.injEq] at h
    obtain ⟨_, _, _, _, r', hr', rfl⟩ := h
    simp [ih hr']; omega

theorem decode_valid (sg : Bool) (txt out r : List Byte) (hr : hexDecode txt = some r) (ho : r.length ≤ out.length) :
    decode sg txt out = some ⟨r ++ out.drop r.length, r.length, .none⟩ := by
  have hl := hexDecode_length hr
  have h1 : txt.length >>> 1 = r.length := by rw [Nat.shiftRight_eq_div_pow]; omega
  have h2 : txt.length &&& 1 = 0 := by
    rw [Nat.and_one_is_mod]; omega
  unfold decode
  simp only [h1, h2]
  have := decodeLoop_valid sg r.length 0 txt [] [] [] (out.take r.length) (out.drop r.length) r 0 hr
    (by simp; omega) (by simp) r.length rfl
  simpa using this

/-! ### Invalid even-length texts -/

/-- What happens in general, valid or not: the loop never leaves the buffers, and reports an error iff some
character of the remaining text is not taken for a digit. -/
theorem decodeLoop_total (sg : Bool) (ret to : Nat) (src : List Byte) (k i fr : Nat) (out : List Byte)
    (hs : fr + 2 * k ≤ src.length) (ho : k ≠ 0 → to + i + k ≤ out.length) :
    ∃ d, decodeLoop sg src ret to k i fr out = some d ∧ d.out.length = out.length ∧
      (((src.drop fr).take (2 * k)).all (lax sg) = true → d.err = .none ∧ d.size = ret) ∧
      (((src.drop fr).take (2 * k)).all (lax sg) = false → d.err = .codecBase16Decode) ∧
      (∀ j, j < to + i ∨ to + i + k ≤ j → d.out[j]? = out[j]?) := by
  induction k generalizing i fr out with
  | zero => exact ⟨_, rfl, rfl, by simp⟩
  | succ k ih =>
    have ho := ho (by omega)
    have f0 : fr + 0 < src.length := by omega
    have f1 : fr + 1 < src.length := by omega
    simp only [decodeLoop, rd1_lt _ _ f0, rd1_lt _ _ f1, Option.bind_eq_bind, Option.bind_some, sameInt_lax]
    have htake : (src.drop fr).take (2 * (k + 1)) =
        src[fr + 0] :: src[fr + 1] :: (src.drop (fr + 2)).take (2 * k) := by
      rw [List.drop_eq_getElem_cons (show fr < src.length by omega),
        List.drop_eq_getElem_cons (show fr + 1 < src.length by omega)]
      rfl
    rw [htake]
    by_cases hc : (!lax sg src[fr + 0] || !lax sg src[fr + 1]) = true
    · rw [if_pos hc]
      refine ⟨_, rfl, rfl, ?_, ?_, ?_⟩
      · intro hall; simp at hc hall; rcases hc with hc | hc <;> simp_all
      · intro; rfl
      · intros; rfl
    · rw [if_neg hc, wr1_isSome _ _ _ (by omega)]
      simp only [Option.bind_some]
      obtain ⟨d, hd, hlen, ha, hb, hcx⟩ := ih (i + 1) (fr + 2) (out.set (to + i)
        (decodeDigit sg src[fr + 0] <<< 4 ||| decodeDigit sg src[fr + 1])) (by omega) (by simp; omega)
      refine ⟨d, hd, by simpa using hlen, ?_, ?_, ?_⟩
      · intro hall; apply ha; simp at hc hall; simp_all
      · intro hall; apply hb; simp at hc; simp [hc.1, hc.2] at hall; simp_all
      · intro j hj
        rw [hcx j (by omega), List.getElem?_set_ne (by omega)]

theorem hexDecode_isSome (txt : List Byte) :
    (hexDecode txt).isSome = (decide (txt.length % 2 = 0) && txt.all (fun c => (hexValue c).isSome)) := by
  induction txt using hexDecode.induct with
  | case1 => rfl
  | case2 => simp [hexDecode]
  | case3 c0 c1 rest ih =>
    simp only [hexDecode, List.length_cons, List.all_cons]
    have : decide ((rest.length + 1 + 1) % 2 = 0) = decide (rest.length % 2 = 0) := by
      apply decide_eq_decide.mpr; omega
    rw [this]
    cases h0 : hexValue c0 <;> cases h1 : hexValue c1 <;> simp
    rw [← ih]
    cases hr : hexDecode rest <;> simp

end Milo.Base16
