import Verif.Proof.Base64
namespace Milo.Base64
open Milo Milo.Base16 Spec.Codec

/-- What the decoder takes for an alphabet character. -/
def lax (sg : Bool) (c : Byte) : Bool := (sextetValue c).isSome || (sg && decide (128 ≤ c.toNat))

theorem sameInt_lax : ∀ sg : Bool, ∀ c : Byte, sameInt sg c (decodeDigit sg c) = !lax sg c := by
  decide +kernel

theorem digit_table : ∀ sg : Bool, ∀ c : Byte,
    (sextetValue c).all (fun v => (decodeDigit sg c).toNat = v && decide (v < 64)) = true := by
  decide +kernel

theorem decodeDigit_val {sg : Bool} {c : Byte} {v : Nat} (h : sextetValue c = some v) :
    (decodeDigit sg c).toNat = v ∧ v < 64 := by
  have := digit_table sg c; rw [h] at this; simpa using this

theorem pad_not_lax (sg : Bool) : lax sg pad = false := by cases sg <;> decide

theorem lax_ne_pad {sg : Bool} {c : Byte} (h : lax sg c = true) : c ≠ pad := by
  rintro rfl; rw [pad_not_lax] at h; cases h

/-- Induction over groups of four characters. -/
theorem groups {P : List Byte → Prop} (nil : P []) (one : ∀ c0 c1 c2 c3, P [c0, c1, c2, c3])
    (more : ∀ c0 c1 c2 c3 rest, rest ≠ [] → P rest → P (c0 :: c1 :: c2 :: c3 :: rest))
    (other : ∀ l : List Byte, (∃ a, l = [a]) ∨ (∃ a b, l = [a, b]) ∨ (∃ a b c, l = [a, b, c]) → P l) : ∀ l, P l
  | [] => nil
  | [a] => other _ (.inl ⟨a, rfl⟩)
  | [a, b] => other _ (.inr (.inl ⟨a, b, rfl⟩))
  | [a, b, c] => other _ (.inr (.inr ⟨a, b, c, rfl⟩))
  | [c0, c1, c2, c3] => one c0 c1 c2 c3
  | c0 :: c1 :: c2 :: c3 :: d :: rest => more c0 c1 c2 c3 (d :: rest) (by simp) (groups nil one more other (d :: rest))

/-- List-level description of what `decode` does after the length check: bytes written, and success. -/
def laxDecode (sg : Bool) : List Byte → List Byte × Bool
  | [] => ([], true)
  | [c0, c1, c2, c3] =>
    let b0 := decodeDigit sg c0
    let b1 := decodeDigit sg c1
    let b2 := decodeDigit sg c2
    let b3 := decodeDigit sg c3
    if lax sg c0 && lax sg c1 then
      if c2 = pad then
        if c3 = pad then ([b0 <<< 2 ||| b1 >>> 4], true) else ([], false)
      else if lax sg c2 then
        if c3 = pad then ([b0 <<< 2 ||| b1 >>> 4, b1 <<< 4 ||| b2 >>> 2], true)
        else if lax sg c3 then ([b0 <<< 2 ||| b1 >>> 4, b1 <<< 4 ||| b2 >>> 2, b2 <<< 6 ||| b3], true)
        else ([], false)
      else ([], false)
    else ([], false)
  | c0 :: c1 :: c2 :: c3 :: rest =>
    let b0 := decodeDigit sg c0
    let b1 := decodeDigit sg c1
    let b2 := decodeDigit sg c2
    let b3 := decodeDigit sg c3
    if lax sg c0 && lax sg c1 && lax sg c2 && lax sg c3 then
      let r := laxDecode sg rest
      ((b0 <<< 2 ||| b1 >>> 4) :: (b1 <<< 4 ||| b2 >>> 2) :: (b2 <<< 6 ||| b3) :: r.1, r.2)
    else ([], false)
  | _ => ([], false)

def errOf (ok : Bool) : Error := if ok then .none else .codecBase64Decode

theorem decodeLast_eq (sg : Bool) (c0 c1 c2 c3 : Byte) (spre opre omid : List Byte)
    (ho : (laxDecode sg [c0, c1, c2, c3]).1.length ≤ omid.length) :
    decodeLast sg (spre ++ [c0, c1, c2, c3]) spre.length opre.length (opre ++ omid)
      = some ⟨opre ++ (laxDecode sg [c0, c1, c2, c3]).1 ++ omid.drop (laxDecode sg [c0, c1, c2, c3]).1.length,
          opre.length + (laxDecode sg [c0, c1, c2, c3]).1.length, errOf (laxDecode sg [c0, c1, c2, c3]).2⟩ := by
  unfold decodeLast
  have r0 : rd1 (spre ++ [c0, c1, c2, c3]) (spre.length + 0) = some c0 := by simp [rd1]
  have r1 : rd1 (spre ++ [c0, c1, c2, c3]) (spre.length + 1) = some c1 := by simp [rd1]
  have r2 : rd1 (spre ++ [c0, c1, c2, c3]) (spre.length + 2) = some c2 := by simp [rd1]
  have r3 : rd1 (spre ++ [c0, c1, c2, c3]) (spre.length + 3) = some c3 := by simp [rd1]
  simp only [r0, r1, r2, r3, Option.bind_eq_bind, Option.bind_some, sameInt_lax, padChar_eq]
  simp only [laxDecode] at *
  by_cases l0 : lax sg c0 = true
  case neg => simp [l0, errOf]
  by_cases l1 : lax sg c1 = true
  case neg => simp [l1, errOf]
  · simp only [l0, l1, Bool.not_true, Bool.or_self, Bool.false_or, Bool.and_self, if_true] at *
    by_cases p2 : c2 = pad
    · subst p2
      by_cases p3 : c3 = pad
      · subst p3
        simp [pad_not_lax, errOf] at *
        match omid, ho with
        | o :: omid, _ => simp [wr1]
      · have : (c3 == pad) = false := by simpa using p3
        simp [p3, errOf, this]
    · have hp2 : (c2 == pad) = false := by simpa using p2
      by_cases l2 : lax sg c2 = true
      · by_cases p3 : c3 = pad
        · subst p3
          simp [pad_not_lax, errOf, p2, l2, hp2] at *
          match omid, ho with
          | o :: o' :: omid, _ => simp [wr1]
        · have hp3 : (c3 == pad) = false := by simpa using p3
          by_cases l3 : lax sg c3 = true
          · simp [errOf, p2, l2, l3, hp2, hp3, p3] at *
            match omid, ho with
            | o :: o' :: o'' :: omid, _ => simp [wr1]
          · simp [errOf, p2, l2, l3, hp2, hp3, p3] at *
      · simp [errOf, p2, l2, hp2] at *

theorem laxDecode_cons (sg : Bool) (c0 c1 c2 c3 : Byte) (rest : List Byte) (h : rest ≠ []) :
    laxDecode sg (c0 :: c1 :: c2 :: c3 :: rest) =
      if lax sg c0 && lax sg c1 && lax sg c2 && lax sg c3 then
        ((decodeDigit sg c0 <<< 2 ||| decodeDigit sg c1 >>> 4) ::
          (decodeDigit sg c1 <<< 4 ||| decodeDigit sg c2 >>> 2) ::
          (decodeDigit sg c2 <<< 6 ||| decodeDigit sg c3) :: (laxDecode sg rest).1, (laxDecode sg rest).2)
      else ([], false) := by
  match rest, h with
  | d :: rest, _ => simp [laxDecode]

theorem decodeLoop_eq (sg : Bool) (k : Nat) (txt spre opre omid : List Byte)
    (ht : txt.length = 4 * (k + 1)) (ho : (laxDecode sg txt).1.length ≤ omid.length) :
    decodeLoop sg (spre ++ txt) (decodeLast sg (spre ++ txt)) k spre.length opre.length (opre ++ omid)
      = some ⟨opre ++ (laxDecode sg txt).1 ++ omid.drop (laxDecode sg txt).1.length,
          opre.length + (laxDecode sg txt).1.length, errOf (laxDecode sg txt).2⟩ := by
  induction k generalizing txt spre opre omid with
  | zero =>
    match txt, ht with
    | [c0, c1, c2, c3], _ => exact decodeLast_eq sg c0 c1 c2 c3 spre opre omid ho
  | succ k ih =>
    obtain ⟨c0, c1, c2, c3, rest, rfl⟩ := exists4 txt (by omega)
    have hr : rest.length = 4 * (k + 1) := by simp at ht; omega
    have hne : rest ≠ [] := by rintro rfl; simp at hr
    have r0 : rd1 (spre ++ c0 :: c1 :: c2 :: c3 :: rest) (spre.length + 0) = some c0 := by simp [rd1]
    have r1 : rd1 (spre ++ c0 :: c1 :: c2 :: c3 :: rest) (spre.length + 1) = some c1 := by simp [rd1]
    have r2 : rd1 (spre ++ c0 :: c1 :: c2 :: c3 :: rest) (spre.length + 2) = some c2 := by simp [rd1]
    have r3 : rd1 (spre ++ c0 :: c1 :: c2 :: c3 :: rest) (spre.length + 3) = some c3 := by simp [rd1]
    simp only [decodeLoop, r0, r1, r2, r3, Option.bind_eq_bind, Option.bind_some, sameInt_lax]
    rw [laxDecode_cons _ _ _ _ _ _ hne] at *
    by_cases hl : (lax sg c0 && lax sg c1 && lax sg c2 && lax sg c3) = true
    · have hl' : (!lax sg c0 || !lax sg c1 || !lax sg c2 || !lax sg c3) = false := by
        simp at hl; simp [hl]
      rw [hl']
      simp only [if_pos hl] at *
      simp only [Bool.false_eq_true, if_false]
      match omid, ho with
      | o0 :: o1 :: o2 :: omid, ho =>
        simp only [List.length_cons] at ho
        have w : ∀ (x y z : Byte) (f : List Byte → Option Decoded),
            ((wr1 (opre ++ o0 :: o1 :: o2 :: omid) (opre.length + 0) x).bind fun out =>
              (wr1 out (opre.length + 1) y).bind fun out => (wr1 out (opre.length + 2) z).bind f)
              = f (opre ++ x :: y :: z :: omid) := by
          intro x y z f; simp [wr1]
        rw [w]
        have := ih rest (spre ++ [c0, c1, c2, c3]) (opre ++ [decodeDigit sg c0 <<< 2 ||| decodeDigit sg c1 >>> 4,
          decodeDigit sg c1 <<< 4 ||| decodeDigit sg c2 >>> 2, decodeDigit sg c2 <<< 6 ||| decodeDigit sg c3]) omid hr
          (by omega)
        simp only [List.append_assoc, List.cons_append, List.nil_append, List.length_append, List.length_cons,
          List.length_nil, Nat.zero_add, Nat.reduceAdd] at this
        rw [this]
        simp
        omega
    · have hl' : (!lax sg c0 || !lax sg c1 || !lax sg c2 || !lax sg c3) = true := by
        cases h0 : lax sg c0 <;> cases h1 : lax sg c1 <;> cases h2 : lax sg c2 <;> cases h3 : lax sg c3 <;> simp_all
      rw [hl']
      simp only [if_neg hl] at *
      simp [errOf]

theorem decode_eq (sg : Bool) (txt out : List Byte) (ht : txt.length % 4 = 0)
    (ho : (laxDecode sg txt).1.length ≤ out.length) :
    decode sg txt out = some ⟨(laxDecode sg txt).1 ++ out.drop (laxDecode sg txt).1.length,
          (laxDecode sg txt).1.length, errOf (laxDecode sg txt).2⟩ := by
  unfold decode
  simp only [ht, ne_eq, not_true_eq_false, if_false]
  by_cases hf : txt.length / 4 > 0
  · rw [if_pos hf]
    have := decodeLoop_eq sg (txt.length / 4 - 1) txt [] [] out (by omega) ho
    simpa using this
  · have : txt = [] := by
      apply List.eq_nil_of_length_eq_zero; omega
    subst this
    simp [laxDecode, errOf]

theorem decode_badLength (sg : Bool) (txt out : List Byte) (ht : txt.length % 4 ≠ 0) :
    decode sg txt out = some ⟨out, 0, .codecBase64Decode⟩ := by
  unfold decode; simp [ht]

/-! ### Sizes -/

theorem decodeSize_nopad (txt : List Byte) (hn : txt.length < 2 ^ 62) (h : txt[txt.length - 1]? ≠ some padChar) :
    decodeSize txt = txt.length * 3 / 4 := by
  unfold decodeSize
  simp only [h, and_false, if_false]
  rw [Nat.mod_eq_of_lt (by omega)]

/-- `decode_size` depends only on the length and the last two characters. -/
theorem decodeSize_append (l t : List Byte) (ht : 3 ≤ t.length) (hl : l.length % 4 = 0) (hn : (l ++ t).length < 2 ^ 62) :
    decodeSize (l ++ t) = l.length / 4 * 3 + decodeSize t := by
  unfold decodeSize
  have e1 : (l ++ t)[(l ++ t).length - 1]? = t[t.length - 1]? := by
    rw [List.getElem?_append_right (by simp; omega)]; congr 1; simp; omega
  have e2 : (l ++ t)[(l ++ t).length - 2]? = t[t.length - 2]? := by
    rw [List.getElem?_append_right (by simp; omega)]; congr 1; simp; omega
  simp only [e1, e2]
  simp only [List.length_append] at *
  have g1 : l.length + t.length > 1 := by omega
  have g2 : t.length > 1 := by omega
  have g3 : l.length + t.length > 2 := by omega
  have g4 : t.length > 2 := by omega
  simp only [g1, g2, g3, g4, true_and]
  rw [Nat.mod_eq_of_lt (by omega), Nat.mod_eq_of_lt (by omega)]
  split <;> (try split) <;> omega

theorem laxDecode_size (sg : Bool) (txt : List Byte) (hn : txt.length < 2 ^ 62) (hm : txt.length % 4 = 0) :
    (laxDecode sg txt).1.length ≤ decodeSize txt ∧
      ((laxDecode sg txt).2 = true → (laxDecode sg txt).1.length = decodeSize txt) := by
  induction txt using groups with
  | nil => simp [laxDecode, decodeSize]
  | one c0 c1 c2 c3 =>
    simp only [laxDecode, decodeSize, padChar_eq]
    by_cases p2 : c2 = pad <;> by_cases p3 : c3 = pad <;> simp [p2, p3] <;>
    (repeat' split) <;> simp_all
    all_goals first | (rename_i h; exact absurd h (lax_ne_pad ‹_›)) | skip
  | more c0 c1 c2 c3 rest hr ih =>
    have hrl : rest.length % 4 = 0 := by simp at hm; omega
    have hrn : rest.length < 2 ^ 62 := by simp at hn; omega
    have h4 : 3 ≤ rest.length := by
      have : rest.length ≠ 0 := by simpa using hr
      omega
    have := decodeSize_append [c0, c1, c2, c3] rest h4 (by simp) (by simpa using hn)
    simp only [List.cons_append, List.nil_append] at this
    rw [laxDecode_cons _ _ _ _ _ _ hr, this]
    obtain ⟨i1, i2⟩ := ih hrn hrl
    split
    · simp
      refine ⟨by omega, fun h => ?_⟩
      have := i2 h
      omega
    · simp
  | other l hl => rcases hl with ⟨_, rfl⟩ | ⟨_, _, rfl⟩ | ⟨_, _, _, rfl⟩ <;> simp_all

/-! ### Relation to the specification -/

theorem or3 {x y : Byte} {v0 v1 : Nat} (h0 : x.toNat = v0) (h1 : y.toNat = v1) (k j : Nat) (hk : k ≤ 8)
    (hy : v1 / 2 ^ j < 2 ^ k) : (x <<< k ||| y >>> j) = BitVec.ofNat 8 (v0 * 2 ^ k + v1 / 2 ^ j) := by
  apply BitVec.eq_of_toNat_eq
  rw [shl_or_mod _ _ _ hk (by rw [shr, h1]; exact hy), shr, h0, h1]
  rfl

theorem or3' {x y : Byte} {v0 v1 : Nat} (h0 : x.toNat = v0) (h1 : y.toNat = v1) (k : Nat) (hk : k ≤ 8)
    (hy : v1 < 2 ^ k) : (x <<< k ||| y) = BitVec.ofNat 8 (v0 * 2 ^ k + v1) := by
  have := or3 h0 h1 k 0 hk (by simpa using hy)
  simpa using this

theorem ofNat8_congr {a b : Nat} (h : a % 256 = b % 256) : BitVec.ofNat 8 a = BitVec.ofNat 8 b := by
  apply BitVec.eq_of_toNat_eq; simpa using h

theorem sextet_lax {sg : Bool} {c : Byte} {v : Nat} (h : sextetValue c = some v) : lax sg c = true := by
  simp [lax, h]

theorem laxDecode_valid (sg : Bool) (txt r : List Byte) (h : b64Decode txt = some r) : laxDecode sg txt = (r, true) := by
  induction txt using groups generalizing r with
  | nil => simp [b64Decode] at h; subst h; simp [laxDecode]
  | one c0 c1 c2 c3 =>
    simp only [b64Decode] at h
    split at h
    · rename_i h3
      split at h
      · rename_i h2
        simp only [Option.bind_eq_bind, Option.bind_eq_some_iff, Option.some.injEq] at h
        obtain ⟨s0, e0, s1, e1, rfl⟩ := h
        obtain ⟨v0, b0⟩ := decodeDigit_val (sg := sg) e0
        obtain ⟨v1, b1⟩ := decodeDigit_val (sg := sg) e1
        simp only [laxDecode, sextet_lax e0, sextet_lax e1, h2, h3, Bool.and_self, if_true]
        rw [or3 v0 v1 2 4 (by omega) (by omega)]
        simp; apply ofNat8_congr; omega
      · rename_i h2
        simp only [Option.bind_eq_bind, Option.bind_eq_some_iff, Option.some.injEq] at h
        obtain ⟨s0, e0, s1, e1, s2, e2, rfl⟩ := h
        obtain ⟨v0, b0⟩ := decodeDigit_val (sg := sg) e0
        obtain ⟨v1, b1⟩ := decodeDigit_val (sg := sg) e1
        obtain ⟨v2, b2⟩ := decodeDigit_val (sg := sg) e2
        simp only [laxDecode, sextet_lax e0, sextet_lax e1, sextet_lax e2, h2, h3, Bool.and_self, if_true, if_false]
        rw [or3 v0 v1 2 4 (by omega) (by omega), or3 v1 v2 4 2 (by omega) (by omega)]
        simp; constructor <;> apply ofNat8_congr <;> omega
    · rename_i h3
      simp only [Option.bind_eq_bind, Option.bind_eq_some_iff, Option.some.injEq] at h
      obtain ⟨s0, e0, s1, e1, s2, e2, s3, e3, rfl⟩ := h
      obtain ⟨v0, b0⟩ := decodeDigit_val (sg := sg) e0
      obtain ⟨v1, b1⟩ := decodeDigit_val (sg := sg) e1
      obtain ⟨v2, b2⟩ := decodeDigit_val (sg := sg) e2
      obtain ⟨v3, b3⟩ := decodeDigit_val (sg := sg) e3
      have h2 : c2 ≠ pad := lax_ne_pad (sextet_lax (sg := sg) e2)
      simp only [laxDecode, sextet_lax e0, sextet_lax e1, sextet_lax e2, sextet_lax e3, h2, h3, Bool.and_self, if_true,
        if_false]
      rw [or3 v0 v1 2 4 (by omega) (by omega), or3 v1 v2 4 2 (by omega) (by omega), or3' v2 v3 6 (by omega) (by omega)]
      simp; refine ⟨?_, ?_, ?_⟩ <;> apply ofNat8_congr <;> omega
  | more c0 c1 c2 c3 rest hr ih =>
    rw [laxDecode_cons _ _ _ _ _ _ hr]
    match rest, hr with
    | d :: rest, _ =>
      simp only [b64Decode, Option.bind_eq_bind, Option.bind_eq_some_iff, Option.some.injEq] at h
      obtain ⟨s0, e0, s1, e1, s2, e2, s3, e3, r', hr', rfl⟩ := h
      obtain ⟨v0, b0⟩ := decodeDigit_val (sg := sg) e0
      obtain ⟨v1, b1⟩ := decodeDigit_val (sg := sg) e1
      obtain ⟨v2, b2⟩ := decodeDigit_val (sg := sg) e2
      obtain ⟨v3, b3⟩ := decodeDigit_val (sg := sg) e3
      simp only [sextet_lax e0, sextet_lax e1, sextet_lax e2, sextet_lax e3, Bool.and_self, if_true, ih _ hr']
      rw [or3 v0 v1 2 4 (by omega) (by omega), or3 v1 v2 4 2 (by omega) (by omega), or3' v2 v3 6 (by omega) (by omega)]
      simp; refine ⟨?_, ?_, ?_⟩ <;> apply ofNat8_congr <;> omega
  | other l hl => rcases hl with ⟨_, rfl⟩ | ⟨_, _, rfl⟩ | ⟨_, _, _, rfl⟩ <;> simp [b64Decode] at h

theorem lax_strict {sg : Bool} {c : Byte} (hs : sg = false ∨ c.toNat < 128) : lax sg c = (sextetValue c).isSome := by
  unfold lax; rcases hs with rfl | h
  · simp
  · have : ¬ 128 ≤ c.toNat := by omega
    simp [this]

theorem laxDecode_strict (sg : Bool) (txt : List Byte) (hs : sg = false ∨ ∀ c ∈ txt, c.toNat < 128)
    (hok : (laxDecode sg txt).2 = true) : (b64Decode txt).isSome = true := by
  induction txt using groups with
  | nil => simp [b64Decode]
  | one c0 c1 c2 c3 =>
    have l0 : lax sg c0 = (sextetValue c0).isSome := lax_strict (by rcases hs with h | h; exact .inl h; exact .inr (h _ (by simp)))
    have l1 : lax sg c1 = (sextetValue c1).isSome := lax_strict (by rcases hs with h | h; exact .inl h; exact .inr (h _ (by simp)))
    have l2 : lax sg c2 = (sextetValue c2).isSome := lax_strict (by rcases hs with h | h; exact .inl h; exact .inr (h _ (by simp)))
    have l3 : lax sg c3 = (sextetValue c3).isSome := lax_strict (by rcases hs with h | h; exact .inl h; exact .inr (h _ (by simp)))
    simp only [laxDecode, l0, l1, l2, l3] at hok
    simp only [b64Decode]
    cases h0 : sextetValue c0 <;> cases h1 : sextetValue c1 <;> cases h2 : sextetValue c2 <;> cases h3 : sextetValue c3 <;>
      by_cases p2 : c2 = pad <;> by_cases p3 : c3 = pad <;> simp_all
  | more c0 c1 c2 c3 rest hr ih =>
    have l0 : lax sg c0 = (sextetValue c0).isSome := lax_strict (by rcases hs with h | h; exact .inl h; exact .inr (h _ (by simp)))
    have l1 : lax sg c1 = (sextetValue c1).isSome := lax_strict (by rcases hs with h | h; exact .inl h; exact .inr (h _ (by simp)))
    have l2 : lax sg c2 = (sextetValue c2).isSome := lax_strict (by rcases hs with h | h; exact .inl h; exact .inr (h _ (by simp)))
    have l3 : lax sg c3 = (sextetValue c3).isSome := lax_strict (by rcases hs with h | h; exact .inl h; exact .inr (h _ (by simp)))
    rw [laxDecode_cons _ _ _ _ _ _ hr] at hok
    have ih' := ih (by rcases hs with h | h; exact .inl h; exact .inr (fun c hc => h c (by simp [hc])))
    match rest, hr with
    | d :: rest, _ =>
      simp only [l0, l1, l2, l3] at hok
      simp only [b64Decode]
      split at hok
      · rename_i hh
        cases h0 : sextetValue c0 <;> cases h1 : sextetValue c1 <;> cases h2 : sextetValue c2 <;> cases h3 : sextetValue c3 <;>
          simp_all
        obtain ⟨a, ha⟩ := Option.isSome_iff_exists.mp ih'
        simp [ha]
      · simp at hok
  | other l hl => rcases hl with ⟨_, rfl⟩ | ⟨_, _, rfl⟩ | ⟨_, _, _, rfl⟩ <;> simp_all [laxDecode]

theorem b64Decode_length {txt r : List Byte} (h : b64Decode txt = some r) : txt.length % 4 = 0 := by
  induction txt using groups generalizing r with
  | nil => rfl
  | one => simp
  | more c0 c1 c2 c3 rest hr ih =>
    match rest, hr with
    | d :: rest, _ =>
      simp only [b64Decode, Option.bind_eq_bind, Option.bind_eq_some_iff, Option.some.injEq] at h
      obtain ⟨s0, e0, s1, e1, s2, e2, s3, e3, r', hr', rfl⟩ := h
      have := ih hr'
      simp at *; omega
  | other l hl => rcases hl with ⟨_, rfl⟩ | ⟨_, _, rfl⟩ | ⟨_, _, _, rfl⟩ <;> simp [b64Decode] at h

/-! ### Round trip in the specification -/

theorem sextet_rt : ∀ v, v < 64 → sextetValue (sextetChar v) = some v := by decide +kernel
theorem sextet_pad : ∀ v, v < 64 → sextetChar v ≠ pad := by decide +kernel

theorem b64_roundtrip (x : List Byte) : b64Decode (b64Encode x) = some x := by
  induction x using b64Encode.induct with
  | case1 => rfl
  | case2 b0 =>
    have := b0.isLt
    simp only [b64Encode, b64Decode]
    rw [sextet_rt _ (by omega), sextet_rt _ (by omega)]
    simp
    apply BitVec.eq_of_toNat_eq; simp; omega
  | case3 b0 b1 =>
    have := b0.isLt
    have := b1.isLt
    simp only [b64Encode, b64Decode]
    rw [if_pos trivial, if_neg (sextet_pad _ (by omega)), sextet_rt _ (by omega), sextet_rt _ (by omega), sextet_rt _ (by omega)]
    simp
    constructor <;> apply BitVec.eq_of_toNat_eq <;> simp <;> omega
  | case4 b0 b1 b2 rest ih =>
    have := b0.isLt
    have := b1.isLt
    have := b2.isLt
    simp only [b64Encode]
    generalize hr : b64Encode rest = e at *
    match e with
    | [] =>
      simp only [b64Decode]
      rw [if_neg (sextet_pad _ (by omega)), sextet_rt _ (by omega), sextet_rt _ (by omega), sextet_rt _ (by omega), sextet_rt _ (by omega)]
      simp [b64Decode] at ih
      subst ih
      simp
      refine ⟨?_, ?_, ?_⟩ <;> apply BitVec.eq_of_toNat_eq <;> simp <;> omega
    | d :: e =>
      simp only [b64Decode]
      rw [sextet_rt _ (by omega), sextet_rt _ (by omega), sextet_rt _ (by omega), sextet_rt _ (by omega), ih]
      simp
      refine ⟨?_, ?_, ?_⟩ <;> apply BitVec.eq_of_toNat_eq <;> simp <;> omega

end Milo.Base64

namespace Milo.Base64
open Milo Milo.Base16 Spec.Codec

theorem encodeSize_eq (n : Nat) (h : n < 2 ^ 62) : encodeSize n = (n + 2) / 3 * 4 := by
  unfold encodeSize
  have hm : ∀ x : BitVec 64, (x &&& ~~~(0b11#64)).toNat = x.toNat / 4 * 4 := by
    intro x
    have h1 : x &&& ~~~(0b11#64) = (x >>> 2) <<< 2 := by
      ext i hi
      simp only [BitVec.getElem_and, BitVec.getElem_not, BitVec.getElem_shiftLeft, BitVec.getElem_ushiftRight]
      by_cases h2 : i < 2
      · have : i = 0 ∨ i = 1 := by omega
        rcases this with rfl | rfl <;> simp
      · have e : 2 + (i - 2) = i := by omega
        have hz : (0b11#64)[i] = false := by
          have hlt : (3 : Nat) < 2 ^ i := Nat.lt_of_lt_of_le (by decide : 3 < 2 ^ 2) (Nat.pow_le_pow_right (by omega) (by omega))
          rw [BitVec.getElem_eq_testBit_toNat]
          exact Nat.testBit_lt_two_pow hlt
        simp [h2, hz, BitVec.getLsbD_eq_getElem, hi, e]
    rw [h1, BitVec.toNat_shiftLeft, BitVec.toNat_ushiftRight, Nat.shiftRight_eq_div_pow, Nat.shiftLeft_eq]
    have := x.isLt
    omega
  rw [hm]
  simp only [BitVec.toNat_add, BitVec.toNat_udiv, BitVec.toNat_mul, BitVec.toNat_ofNat, Nat.reducePow, Nat.reduceMod]
  rw [Nat.mod_eq_of_lt (show n < 18446744073709551616 by omega), Nat.mod_eq_of_lt (show n * 4 < 18446744073709551616 by omega),
    Nat.mod_eq_of_lt (by omega)]
  obtain ⟨q, r, hr, rfl⟩ : ∃ q r, r < 3 ∧ n = 3 * q + r := ⟨n / 3, n % 3, by omega, by omega⟩
  have : r = 0 ∨ r = 1 ∨ r = 2 := by omega
  rcases this with rfl | rfl | rfl <;> omega

theorem laxDecode_nopad_length (sg : Bool) (txt : List Byte) : (laxDecode sg txt).1.length ≤ txt.length / 4 * 3 := by
  induction txt using groups with
  | nil => simp [laxDecode]
  | one c0 c1 c2 c3 => simp only [laxDecode]; (repeat' split) <;> simp
  | more c0 c1 c2 c3 rest hr ih =>
    rw [laxDecode_cons _ _ _ _ _ _ hr]
    split
    · simp; omega
    · simp
  | other l hl => rcases hl with ⟨_, rfl⟩ | ⟨_, _, rfl⟩ | ⟨_, _, _, rfl⟩ <;> simp [laxDecode]

theorem sextetChar_value : ∀ c : Byte, (sextetValue c).all (fun v => decide (sextetChar v = c) && decide (v < 64)) = true := by
  decide +kernel

theorem sextetChar_of {c : Byte} {v : Nat} (h : sextetValue c = some v) : sextetChar v = c ∧ v < 64 := by
  have := sextetChar_value c; rw [h] at this; simpa using this

theorem b64Encode_decode_nopad (txt r : List Byte) (h : b64Decode txt = some r) (hnp : pad ∉ txt) : b64Encode r = txt := by
  induction txt using groups generalizing r with
  | nil => simp [b64Decode] at h; subst h; rfl
  | one c0 c1 c2 c3 =>
    have h3 : c3 ≠ pad := by rintro rfl; simp at hnp
    simp only [b64Decode, h3, if_false] at h
    simp only [Option.bind_eq_bind, Option.bind_eq_some_iff, Option.some.injEq] at h
    obtain ⟨s0, e0, s1, e1, s2, e2, s3, e3, rfl⟩ := h
    obtain ⟨v0, b0⟩ := sextetChar_of e0
    obtain ⟨v1, b1⟩ := sextetChar_of e1
    obtain ⟨v2, b2⟩ := sextetChar_of e2
    obtain ⟨v3, b3⟩ := sextetChar_of e3
    simp only [b64Encode, BitVec.toNat_ofNat]
    rw [← v0, ← v1, ← v2, ← v3]
    simp
    refine ⟨?_, ?_, ?_, ?_⟩ <;> congr 1 <;> omega
  | more c0 c1 c2 c3 rest hr ih =>
    match rest, hr with
    | d :: rest, _ =>
      simp only [b64Decode, Option.bind_eq_bind, Option.bind_eq_some_iff, Option.some.injEq] at h
      obtain ⟨s0, e0, s1, e1, s2, e2, s3, e3, r', hr', rfl⟩ := h
      obtain ⟨v0, b0⟩ := sextetChar_of e0
      obtain ⟨v1, b1⟩ := sextetChar_of e1
      obtain ⟨v2, b2⟩ := sextetChar_of e2
      obtain ⟨v3, b3⟩ := sextetChar_of e3
      have hi := ih r' hr' (fun hh => hnp (by
        rcases List.mem_cons.mp hh with h | h <;> simp [h]))
      simp only [b64Encode, BitVec.toNat_ofNat, hi]
      rw [← v0, ← v1, ← v2, ← v3]
      simp
      refine ⟨?_, ?_, ?_, ?_⟩ <;> congr 1 <;> omega
  | other l hl => rcases hl with ⟨_, rfl⟩ | ⟨_, _, rfl⟩ | ⟨_, _, _, rfl⟩ <;> simp [b64Decode] at h

end Milo.Base64
