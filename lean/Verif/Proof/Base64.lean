import Verif.Model.Base64
import Verif.Spec.Codec
import Verif.Proof.Buf
namespace Milo.Base64
open Milo Milo.Base16 Spec.Codec

theorem encodeDigit_table : ∀ a : BitVec 8, a.toNat < 64 → encodeDigit a = sextetChar a.toNat := by
  decide +kernel

theorem padChar_eq : padChar = pad := by decide

/-! ### Arithmetic of the bit fields -/

theorem and_mask (b : Byte) (m : Byte) (k : Nat) (h : m.toNat = 2 ^ k - 1) : (b &&& m).toNat = b.toNat % 2 ^ k := by
  rw [BitVec.toNat_and, h, Nat.and_two_pow_sub_one_eq_mod]

theorem shl_or (x y : Byte) (k : Nat) (hx : x.toNat * 2 ^ k < 256) (hy : y.toNat < 2 ^ k) :
    (x <<< k ||| y).toNat = x.toNat * 2 ^ k + y.toNat := by
  rw [BitVec.toNat_or, BitVec.toNat_shiftLeft, Nat.shiftLeft_eq, Nat.mod_eq_of_lt hx, ← Nat.shiftLeft_eq,
    ← Nat.shiftLeft_add_eq_or_of_lt hy]

/-- Same with the high bits shifted out, as in `t_to(b_0 << 2 | b_1 >> 4)`. -/
theorem shl_or_mod (x y : Byte) (k : Nat) (hk : k ≤ 8) (hy : y.toNat < 2 ^ k) :
    (x <<< k ||| y).toNat = (x.toNat * 2 ^ k + y.toNat) % 256 := by
  rw [BitVec.toNat_or, BitVec.toNat_shiftLeft, Nat.shiftLeft_eq]
  have h1 : x.toNat * 2 ^ k % 2 ^ 8 = (x.toNat % 2 ^ (8 - k)) * 2 ^ k := by
    have : (2 : Nat) ^ 8 = 2 ^ (8 - k) * 2 ^ k := by rw [← Nat.pow_add]; congr 1; omega
    rw [this, Nat.mul_mod_mul_right]
  rw [h1, ← Nat.shiftLeft_eq, ← Nat.shiftLeft_add_eq_or_of_lt hy, Nat.shiftLeft_eq, ← h1]
  have h2 : (x.toNat % 2 ^ (8 - k)) * 2 ^ k + y.toNat < 256 := by
    have hlt : x.toNat % 2 ^ (8 - k) < 2 ^ (8 - k) := Nat.mod_lt _ (Nat.two_pow_pos _)
    have : (2 : Nat) ^ 8 = 2 ^ (8 - k) * 2 ^ k := by rw [← Nat.pow_add]; congr 1; omega
    calc _ < (x.toNat % 2 ^ (8 - k)) * 2 ^ k + 2 ^ k := by omega
      _ = (x.toNat % 2 ^ (8 - k) + 1) * 2 ^ k := by rw [Nat.add_mul, Nat.one_mul]
      _ ≤ 2 ^ (8 - k) * 2 ^ k := Nat.mul_le_mul_right _ hlt
      _ = 256 := this.symm
  rw [← h1] at h2
  omega

theorem shr (b : Byte) (k : Nat) : (b >>> k).toNat = b.toNat / 2 ^ k := by
  rw [BitVec.toNat_ushiftRight, Nat.shiftRight_eq_div_pow]

theorem enc0 (b0 : Byte) : encodeDigit (b0 >>> 2) = sextetChar (b0.toNat / 4) := by
  have := b0.isLt
  rw [encodeDigit_table] <;> rw [shr] <;> omega

theorem enc1 (b0 b1 : Byte) : encodeDigit ((b0 &&& 0b00000011#8) <<< 4 ||| b1 >>> 4)
    = sextetChar (b0.toNat % 4 * 16 + b1.toNat / 16) := by
  have h := shl_or (b0 &&& 0b00000011#8) (b1 >>> 4) 4
  rw [and_mask b0 _ 2 rfl, shr] at h
  have := b1.isLt
  have h' := h (by omega) (by omega)
  rw [encodeDigit_table, h'] <;> omega

theorem enc2 (b1 b2 : Byte) : encodeDigit ((b1 &&& 0b00001111#8) <<< 2 ||| b2 >>> 6)
    = sextetChar (b1.toNat % 16 * 4 + b2.toNat / 64) := by
  have h := shl_or (b1 &&& 0b00001111#8) (b2 >>> 6) 2
  rw [and_mask b1 _ 4 rfl, shr] at h
  have := b2.isLt
  have h' := h (by omega) (by omega)
  rw [encodeDigit_table, h'] <;> omega

theorem enc2' (b1 : Byte) : encodeDigit ((b1 &&& 0b00001111#8) <<< 2) = sextetChar (b1.toNat % 16 * 4) := by
  have := enc2 b1 0#8
  simpa using this

theorem enc3 (b2 : Byte) : encodeDigit (b2 &&& 0b00111111#8) = sextetChar (b2.toNat % 64) := by
  rw [encodeDigit_table] <;> rw [and_mask b2 _ 6 rfl] <;> omega

theorem wr4 (pre post : List Byte) (o0 o1 o2 o3 c0 c1 c2 c3 : Byte) (i : Nat) (h : i = pre.length) :
    (do let out ← wr1 (pre ++ o0 :: o1 :: o2 :: o3 :: post) (i + 0) c0
        let out ← wr1 out (i + 1) c1
        let out ← wr1 out (i + 2) c2
        wr1 out (i + 3) c3) = some (pre ++ c0 :: c1 :: c2 :: c3 :: post) := by
  subst h
  simp [wr1, List.length_append]

theorem rd3 (pre post : List Byte) (b0 b1 b2 : Byte) (i : Nat) (h : i = pre.length) :
    rd1 (pre ++ b0 :: b1 :: b2 :: post) (i + 0) = some b0 ∧ rd1 (pre ++ b0 :: b1 :: b2 :: post) (i + 1) = some b1 ∧
    rd1 (pre ++ b0 :: b1 :: b2 :: post) (i + 2) = some b2 := by
  subst h; simp [rd1]

theorem bind4 {α : Type} (pre post : List Byte) (o0 o1 o2 o3 c0 c1 c2 c3 : Byte) (i : Nat) (h : i = pre.length)
    (f : List Byte → Option α) :
    ((wr1 (pre ++ o0 :: o1 :: o2 :: o3 :: post) (i + 0) c0).bind fun out => (wr1 out (i + 1) c1).bind fun out =>
      (wr1 out (i + 2) c2).bind fun out => (wr1 out (i + 3) c3).bind f) = f (pre ++ c0 :: c1 :: c2 :: c3 :: post) := by
  have := wr4 pre post o0 o1 o2 o3 c0 c1 c2 c3 i h
  simp only [Option.bind_eq_bind] at this
  have h2 := congrArg (fun o => o.bind f) this
  simpa only [Option.bind_assoc, Option.bind_some] using h2

theorem encodeLoop_eq (k : Nat) (x spre spost pre mid post : List Byte) (hx : x.length = 3 * k)
    (hm : mid.length = 4 * k) :
    encodeLoop (spre ++ x ++ spost) k spre.length pre.length (pre ++ mid ++ post)
      = some (pre ++ b64Encode x ++ post) := by
  induction k generalizing x spre pre mid with
  | zero => simp at hx hm; subst hx hm; simp [encodeLoop, b64Encode]
  | succ k ih =>
    match x, hx, mid, hm with
    | b0 :: b1 :: b2 :: x, hx, o0 :: o1 :: o2 :: o3 :: mid, hm =>
      have hx' : x.length = 3 * k := by simp at hx; omega
      have hm' : mid.length = 4 * k := by simp at hm; omega
      simp only [encodeLoop]
      have es : spre ++ b0 :: b1 :: b2 :: x ++ spost = spre ++ b0 :: b1 :: b2 :: (x ++ spost) := by simp
      have eo : pre ++ o0 :: o1 :: o2 :: o3 :: mid ++ post = pre ++ o0 :: o1 :: o2 :: o3 :: (mid ++ post) := by simp
      obtain ⟨r0, r1, r2⟩ := rd3 spre (x ++ spost) b0 b1 b2 _ rfl
      rw [es, eo, r0, r1, r2]
      simp only [Option.bind_eq_bind, Option.bind_some]
      rw [bind4 _ _ _ _ _ _ _ _ _ _ _ rfl]
      rw [enc0, enc1, enc2, enc3]
      have hb0 := b0.isLt
      have hb1 := b1.isLt
      have hb2 := b2.isLt
      have := ih x (spre ++ [b0, b1, b2]) (pre ++ [sextetChar (b0.toNat / 4),
        sextetChar (b0.toNat % 4 * 16 + b1.toNat / 16), sextetChar (b1.toNat % 16 * 4 + b2.toNat / 64),
        sextetChar (b2.toNat % 64)]) mid hx' hm'
      simp only [List.length_append, List.length_cons, List.length_nil, List.append_assoc, List.cons_append,
        List.nil_append] at this
      rw [this]
      simp only [b64Encode, List.append_assoc, List.cons_append, Option.some.injEq, List.append_cancel_left_eq,
        List.cons.injEq]
      refine ⟨?_, ?_, ?_, ?_, trivial⟩ <;> congr 1 <;> omega

theorem b64Encode_append (k : Nat) (x y : List Byte) (hx : x.length = 3 * k) :
    b64Encode (x ++ y) = b64Encode x ++ b64Encode y := by
  induction k generalizing x with
  | zero => simp at hx; subst hx; simp [b64Encode]
  | succ k ih =>
    match x, hx with
    | b0 :: b1 :: b2 :: x, hx =>
      have hx' : x.length = 3 * k := by simp at hx; omega
      simp [b64Encode, ih x hx']

theorem b64Encode_length (x : List Byte) : (b64Encode x).length = (x.length + 2) / 3 * 4 := by
  induction x using b64Encode.induct with
  | case1 => rfl
  | case2 => simp [b64Encode]
  | case3 => simp [b64Encode]
  | case4 b0 b1 b2 rest ih => simp [b64Encode, ih]; omega

theorem exists4 (l : List Byte) (h : 4 ≤ l.length) : ∃ a b c d t, l = a :: b :: c :: d :: t := by
  match l, h with
  | a :: b :: c :: d :: t, _ => exact ⟨a, b, c, d, t, rfl⟩

theorem split_at (l : List Byte) (n : Nat) (h : n ≤ l.length) : ∃ a b, l = a ++ b ∧ a.length = n :=
  ⟨l.take n, l.drop n, by simp, by simp; omega⟩

theorem encode_eq (x out : List Byte) (h : (x.length + 2) / 3 * 4 ≤ out.length) :
    encode x out = some (b64Encode x ++ out.drop ((x.length + 2) / 3 * 4), (x.length + 2) / 3 * 4) := by
  obtain ⟨x, y, rfl, hx⟩ := split_at x (x.length / 3 * 3) (by omega)
  have hy : y.length = (x.length + y.length) % 3 := by simp at hx; omega
  simp only [List.length_append] at *
  have hxk : x.length = 3 * ((x.length + y.length) / 3) := by omega
  obtain ⟨o, o', rfl, ho⟩ := split_at out (4 * ((x.length + y.length) / 3)) (by omega)
  have hl := encodeLoop_eq ((x.length + y.length) / 3) x [] y [] o o' hxk ho
  simp only [List.nil_append, List.length_nil] at hl
  unfold encode
  simp only [List.length_append, hl, Option.bind_eq_bind, Option.bind_some]
  have hbx := b64Encode_append _ x y hxk
  rw [← hy]
  match y, hy with
  | [], hy =>
    simp only [List.length_nil, ne_eq, not_true_eq_false, if_false, Nat.add_zero] at *
    have e : (x.length + 2) / 3 * 4 = o.length := by omega
    have e2 : x.length / 3 * 4 = o.length := by omega
    simp only [e, e2, List.append_nil, List.drop_left]
    rfl
  | [b0], hy =>
    simp only [List.length_cons, List.length_nil] at *
    obtain ⟨o0, o1, o2, o3, o', rfl⟩ := exists4 o' (by rw [List.length_append] at h; omega)
    · have e : (x.length + (0 + 1) + 2) / 3 * 4 = o.length + 4 := by omega
      have e2 : ((x.length + (0 + 1)) / 3 + 1) * 4 = o.length + 4 := by omega
      have e3 : (x.length + (0 + 1)) / 3 * 3 = x.length := by omega
      have e4 : (x.length + (0 + 1)) / 3 * 4 = (b64Encode x).length := by rw [b64Encode_length]; omega
      have r : rd1 (x ++ [b0]) (x.length + 0) = some b0 := by simp [rd1]
      simp only [Nat.zero_add, ne_eq, Nat.succ_ne_self, not_false_eq_true, if_true, e3] at *
      simp only [r, Option.bind_some, Nat.reduceEqDiff, if_false, e]
      rw [bind4 _ _ _ _ _ _ _ _ _ _ _ e4]
      simp only [hbx, enc0, enc1, e2]
      have hb0 := b0.isLt
      have hd : (o ++ o0 :: o1 :: o2 :: o3 :: o').drop (o.length + 4) = o' := by simp
      rw [hd]
      simp [b64Encode, padChar_eq]
      refine ⟨?_, ?_, by decide⟩ <;> congr 1 <;> omega
  | [b0, b1], hy =>
    simp only [List.length_cons, List.length_nil] at *
    obtain ⟨o0, o1, o2, o3, o', rfl⟩ := exists4 o' (by rw [List.length_append] at h; omega)
    · have e : (x.length + (0 + 1 + 1) + 2) / 3 * 4 = o.length + 4 := by omega
      have e2 : ((x.length + (0 + 1 + 1)) / 3 + 1) * 4 = o.length + 4 := by omega
      have e3 : (x.length + (0 + 1 + 1)) / 3 * 3 = x.length := by omega
      have e4 : (x.length + (0 + 1 + 1)) / 3 * 4 = (b64Encode x).length := by rw [b64Encode_length]
      have r : rd1 (x ++ [b0, b1]) (x.length + 0) = some b0 := by simp [rd1]
      have r1 : rd1 (x ++ [b0, b1]) (x.length + 1) = some b1 := by simp [rd1]
      simp only [Nat.zero_add, Nat.reduceAdd] at *
      simp only [r, r1, Option.bind_some, e, e3, ne_eq, Nat.reduceEqDiff, not_false_eq_true, if_true]
      rw [bind4 _ _ _ _ _ _ _ _ _ _ _ e4]
      have hm : b1 &&& 0xff#8 = b1 := by
        apply BitVec.eq_of_toNat_eq; rw [and_mask b1 _ 8 rfl]; have := b1.isLt; omega
      simp only [hbx, enc0, enc1, enc2', hm, e2]
      have hb0 := b0.isLt
      have hb1 := b1.isLt
      have hd : (o ++ o0 :: o1 :: o2 :: o3 :: o').drop (o.length + 4) = o' := by simp
      rw [hd]
      have hs : ∀ v : Byte, (v &&& 0xff#8) ||| (padChar &&& ~~~ 0xff#8) = v := by decide +kernel
      simp [b64Encode, padChar_eq] at hs ⊢
      refine ⟨?_, ?_, ?_⟩
      · congr 1; omega
      · congr 1; omega
      · rw [hs]; congr 1; omega
  | _ :: _ :: _ :: _, hy => simp at hy; omega

end Milo.Base64
