import Verif.Props.Kdf
import Verif.Proof.Pbkdf2Wrap
import Verif.Proof.HkdfLong
/-
C73: RFC 8018, 5.2, step 1: a key longer than `(2^32 - 1) * hLen` bytes must be refused ("derived key too long"). The code has no such check
(src/milo/primitive/detail/kdf/pbkdf_2.h: the block counter is a `uint32_t` that is only incremented).

C27: the same for HKDF (src/milo/primitive/detail/kdf/hkdf.h: the block counter is one byte).
-/
namespace Milo.Props
open Milo

theorem pbkdf2Wrapped_add (F : List Byte → List Byte → List Byte) (p s : List Byte) (c A B : Nat) :
    Spec.pbkdf2Wrapped F p s c (A + B)
      = Spec.pbkdf2Wrapped F p s c A ++ ((List.range B).map fun i => Spec.pbkdf2T F p s ((A + i + 1) % 2 ^ 32) c).flatten := by
  simp only [Spec.pbkdf2Wrapped, List.range_add, List.map_append, List.flatten_append, List.map_map]
  rfl

theorem pbkdf2Wrapped_length (F : List Byte → List Byte → List Byte) (n : Nat) (hF : ∀ k m, (F k m).length = n) (p s : List Byte) (c : Nat) (hc : 0 < c)
    (N : Nat) : (Spec.pbkdf2Wrapped F p s c N).length = N * n := by
  obtain ⟨c, rfl⟩ : ∃ d, c = d + 1 := ⟨c - 1, by omega⟩
  unfold Spec.pbkdf2Wrapped
  rw [List.length_flatten, List.map_map]
  have : (List.length ∘ fun i => Spec.pbkdf2T F p s ((i + 1) % 2 ^ 32) (c + 1)) = fun _ => n := funext fun i => pbkdf2T_length F n hF _ _ _ _
  rw [this]
  simp [List.map_const']

/-- After `2^32` blocks the same blocks come again. -/
theorem pbkdf2Wrapped_period (F : List Byte → List Byte → List Byte) (p s : List Byte) (c B : Nat) :
    Spec.pbkdf2Wrapped F p s c (2 ^ 32 + B) = Spec.pbkdf2Wrapped F p s c (2 ^ 32) ++ Spec.pbkdf2Wrapped F p s c B := by
  rw [pbkdf2Wrapped_add]
  congr 2
  refine List.map_congr_left fun i _ => ?_
  rw [show 2 ^ 32 + i + 1 = i + 1 + 2 ^ 32 by omega, Nat.add_mod_right]

/-- Up to `2^32 - 1` blocks these are the blocks of RFC 8018. -/
theorem pbkdf2Wrapped_short (F : List Byte → List Byte → List Byte) (p s : List Byte) (c : Nat) :
    Spec.pbkdf2Wrapped F p s c (2 ^ 32 - 1) = Spec.pbkdf2 F p s c := by
  have key : ∀ N, N ≤ 2 ^ 32 - 1 → ((List.range N).map fun i => Spec.pbkdf2T F p s ((i + 1) % 2 ^ 32) c)
      = (List.range N).map fun i => Spec.pbkdf2T F p s (i + 1) c := fun N hN => List.map_congr_left fun i hi => by
    rw [List.mem_range] at hi
    rw [Nat.mod_eq_of_lt (by omega)]
  unfold Spec.pbkdf2Wrapped Spec.pbkdf2
  rw [key _ (Nat.le_refl _)]

/-- C73, what happens instead: any requests, however many bytes they ask for in total, are answered; the block number is the number of the block
modulo `2^32`. -/
theorem C73_pbkdf2_actual (h : Host) (junk : Nat → Byte) (a : ShaAlg) (sizes : Nat → Nat) (m : Mem) (hm : Kdf.MemOk sizes m)
    (ikm salt : Span) (iterations : W32) (hs : ∀ s ∈ [ikm, salt], s.size ≤ sizes s.buf ∧ s.size < 2 ^ 64)
    (rs : List DigestReq) (hrs : ∀ r ∈ rs, Kdf.Call.Ok (pbkdf2Class h junk a a.size) sizes (.derive r))
    (N : Nat) (hN : Spec.totalAsked rs ≤ N * a.size) :
    ∃ st, Kdf.run (pbkdf2Class h junk a a.size) m (.init ⟨ikm, salt, iterations⟩ :: rs.map .derive)
      = some (st, Spec.streamed (Spec.pbkdf2Wrapped (hmacSpec a) (bytesOf m ikm) (bytesOf m salt) (max iterations.toNat 1) N) rs) := by
  obtain ⟨M⟩ := hmacDefault h a
  have hb := size_bounds a
  have hd := macDigestSize h (.hmac a a.size) a.size
  exact Kdf.run_fresh_derives (Pbkdf2Wrap.lawful h junk M N (by rw [hd]; omega) (by rw [hd]; omega)) sizes m hm ⟨ikm, salt, iterations⟩ hs rs hrs
    (Nat.le_trans hN (Nat.le_of_eq
      (pbkdf2Wrapped_length (hmacSpec a) a.size (hmacSpec_length a) _ _ _ (by simp only; omega) N).symm))

/-- The one-shot function, for any number of bytes. -/
theorem pbkdf2_oneshot_actual (h : Host) (junk : Nat → Byte) (a : ShaAlg) (sizes : Nat → Nat) (m : Mem) (hm : Kdf.MemOk sizes m)
    (ikm salt : Span) (it : W32) (hs : ∀ s ∈ [ikm, salt], s.size ≤ sizes s.buf ∧ s.size < 2 ^ 64) (dst : List Byte) (n : Nat) (hn : n ≤ dst.length)
    (N : Nat) (hN : n ≤ N * a.size) :
    Kdf.oneshot (pbkdf2Class h junk a a.size) m ⟨ikm, salt, it⟩ dst n
      = some ((Spec.pbkdf2Wrapped (hmacSpec a) (bytesOf m ikm) (bytesOf m salt) (max it.toNat 1) N).take n ++ dst.drop n, n) := by
  obtain ⟨M⟩ := hmacDefault h a
  have hb := size_bounds a
  have hd := macDigestSize h (.hmac a a.size) a.size
  have hlen := pbkdf2Wrapped_length (hmacSpec a) a.size (hmacSpec_length a) (bytesOf m ikm) (bytesOf m salt) (max it.toNat 1) (by omega) N
  have := (Kdf.oneshots (Pbkdf2Wrap.lawful h junk M N (by rw [hd]; omega) (by rw [hd]; omega)) sizes m hm ⟨ikm, salt, it⟩ hs).1 dst n hn
    (by rw [show (Pbkdf2Wrap.stream N _ m ⟨ikm, salt, it⟩).length = _ from hlen]; exact hN)
  refine Eq.trans this ?_
  show some (Spec.received ((Spec.pbkdf2Wrapped (hmacSpec a) (bytesOf m ikm) (bytesOf m salt) (max it.toNat 1) N).take n) (.ptr dst n)) = _
  simp only [Spec.received, List.length_take, hlen, Nat.min_eq_left hN]

/-- C73 is false of the code: asked for more than `2^32` blocks, the one-shot function reports the full size, and the key repeats itself after `2^32`
blocks: what follows them is again the beginning of the key. -/
theorem C73_pbkdf2_repeats_wrong (h : Host) (junk : Nat → Byte) (a : ShaAlg) (sizes : Nat → Nat) (m : Mem) (hm : Kdf.MemOk sizes m)
    (ikm salt : Span) (it : W32) (hs : ∀ s ∈ [ikm, salt], s.size ≤ sizes s.buf ∧ s.size < 2 ^ 64) (dst : List Byte) (more : Nat)
    (hn : 2 ^ 32 * a.size + more = dst.length) :
    ∃ key, Kdf.oneshot (pbkdf2Class h junk a a.size) m ⟨ikm, salt, it⟩ dst (2 ^ 32 * a.size + more) = some (key, 2 ^ 32 * a.size + more) ∧
      key.length = dst.length ∧ key.drop (2 ^ 32 * a.size) = key.take more := by
  have hb := size_bounds a
  have hmore : more ≤ more * a.size := Nat.le_mul_of_pos_right _ hb.1
  have hlen := pbkdf2Wrapped_length (hmacSpec a) a.size (hmacSpec_length a) (bytesOf m ikm) (bytesOf m salt) (max it.toNat 1) (by omega)
  have hper := pbkdf2Wrapped_period (hmacSpec a) (bytesOf m ikm) (bytesOf m salt) (max it.toNat 1) more
  have hpre := pbkdf2Wrapped_add (hmacSpec a) (bytesOf m ikm) (bytesOf m salt) (max it.toNat 1) more (2 ^ 32)
  have hc := pbkdf2_oneshot_actual h junk a sizes m hm ikm salt it hs dst (2 ^ 32 * a.size + more) (Nat.le_of_eq hn) (2 ^ 32 + more)
    (by rw [Nat.add_mul]; omega)
  refine ⟨_, hc, ?_⟩
  have h1 := hlen (2 ^ 32)
  have h2 := hlen more
  have h3 := hlen (2 ^ 32 + more)
  rw [Nat.add_comm more, hper] at hpre
  rw [hper] at h3 ⊢
  rw [List.drop_of_length_le (Nat.le_of_eq hn.symm), List.append_nil]
  generalize hmacSpec a = F at *
  generalize Spec.pbkdf2Wrapped F _ _ _ (2 ^ 32) = X at *
  generalize Spec.pbkdf2Wrapped F _ _ _ more = Y at *
  generalize ((List.range (2 ^ 32)).map _).flatten = Z at *
  generalize 2 ^ 32 * a.size = P at *
  rw [Nat.add_mul] at h3
  have hl : (List.take (P + more) (X ++ Y)).length = P + more := by
    rw [List.length_take, List.length_append]; omega
  refine ⟨by rw [hl, hn], ?_⟩
  rw [List.drop_take, List.take_take, Nat.add_sub_cancel_left, Nat.min_eq_left (by omega), List.drop_left' h1, hpre,
    List.take_append_of_le_length (by omega)]

/-- C73, what does hold (with C28, which states the same for histories): up to the limit the key is the one of RFC 8018, and it ends exactly there: the
next block the code delivers would be the block numbered 0. -/
theorem C73_pbkdf2_partial (h : Host) (junk : Nat → Byte) (a : ShaAlg) (sizes : Nat → Nat) (m : Mem) (hm : Kdf.MemOk sizes m)
    (ikm salt : Span) (it : W32) (hs : ∀ s ∈ [ikm, salt], s.size ≤ sizes s.buf ∧ s.size < 2 ^ 64) (dst : List Byte) (n : Nat) (hn : n ≤ dst.length) :
    (n ≤ (2 ^ 32 - 1) * a.size → Kdf.oneshot (pbkdf2Class h junk a a.size) m ⟨ikm, salt, it⟩ dst n
      = some ((Spec.pbkdf2 (hmacSpec a) (bytesOf m ikm) (bytesOf m salt) (max it.toNat 1)).take n ++ dst.drop n, n)) ∧
    (n = 2 ^ 32 * a.size → Kdf.oneshot (pbkdf2Class h junk a a.size) m ⟨ikm, salt, it⟩ dst n
      = some (Spec.pbkdf2 (hmacSpec a) (bytesOf m ikm) (bytesOf m salt) (max it.toNat 1)
          ++ Spec.pbkdf2T (hmacSpec a) (bytesOf m ikm) (bytesOf m salt) 0 (max it.toNat 1) ++ dst.drop n, n)) := by
  constructor
  · intro hl
    rw [pbkdf2_oneshot_actual h junk a sizes m hm ikm salt it hs dst n hn (2 ^ 32 - 1) hl, pbkdf2Wrapped_short]
  · intro hl
    rw [pbkdf2_oneshot_actual h junk a sizes m hm ikm salt it hs dst n hn (2 ^ 32) (Nat.le_of_eq hl)]
    have hlen := pbkdf2Wrapped_length (hmacSpec a) a.size (hmacSpec_length a) (bytesOf m ikm) (bytesOf m salt) (max it.toNat 1) (by omega) (2 ^ 32)
    rw [List.take_of_length_le (by rw [hlen, hl])]
    have := pbkdf2Wrapped_add (hmacSpec a) (bytesOf m ikm) (bytesOf m salt) (max it.toNat 1) (2 ^ 32 - 1) 1
    rw [show 2 ^ 32 - 1 + 1 = 2 ^ 32 from rfl] at this
    rw [this, pbkdf2Wrapped_short]
    simp only [List.range_one, List.map_cons, List.map_nil, List.flatten_cons, List.flatten_nil, List.append_nil,
      show (2 ^ 32 - 1 + 0 + 1) % 2 ^ 32 = 0 from rfl]

/-- Hypotheses met: a key of more than `2^32` blocks of SHA-1 (a buffer of 80 GiB), of a password of 8 and a salt of 4 bytes. -/
example : ∃ key, Kdf.oneshot (pbkdf2Class ⟨.little, false, none⟩ (fun _ => 0x55) .sha_1_160 20) exMem ⟨⟨0, 8⟩, ⟨1, 4⟩, 1000⟩
      (List.replicate (2 ^ 32 * ShaAlg.sha_1_160.size + 20) 0) (2 ^ 32 * ShaAlg.sha_1_160.size + 20) = some (key, 2 ^ 32 * ShaAlg.sha_1_160.size + 20) ∧
    key.length = 2 ^ 32 * ShaAlg.sha_1_160.size + 20 ∧ key.drop (2 ^ 32 * ShaAlg.sha_1_160.size) = key.take 20 := by
  have := C73_pbkdf2_repeats_wrong ⟨.little, false, none⟩ (fun _ => 0x55) .sha_1_160 (fun _ => 64) exMem (fun b => by simp [exMem]) ⟨0, 8⟩ ⟨1, 4⟩ 1000
    (by simp) (List.replicate (2 ^ 32 * ShaAlg.sha_1_160.size + 20) 0) 20 (by rw [List.length_replicate])
  rw [List.length_replicate] at this
  exact this

/-- Two requests, the second crossing the end of the first 100 blocks: any bound on the number of blocks will do. -/
example : ∃ st, Kdf.run (pbkdf2Class ⟨.little, false, none⟩ (fun _ => 0x55) .sha_1_160 20) exMem
    (.init ⟨⟨0, 64⟩, ⟨1, 4⟩, 0⟩ :: [DigestReq.ptr (List.replicate 25 0) 25, .cont ⟨true, [1]⟩ 2000].map .derive)
    = some (st, Spec.streamed (Spec.pbkdf2Wrapped (hmacSpec .sha_1_160) (bytesOf exMem ⟨0, 64⟩) (bytesOf exMem ⟨1, 4⟩) 1 (2 ^ 33))
        [DigestReq.ptr (List.replicate 25 0) 25, .cont ⟨true, [1]⟩ 2000]) :=
  C73_pbkdf2_actual ⟨.little, false, none⟩ (fun _ => 0x55) .sha_1_160 (fun _ => 64) exMem (fun b => by simp [exMem]) ⟨0, 64⟩ ⟨1, 4⟩ 0
    (by simp) _ (by simp [Kdf.Call.Ok]) (2 ^ 33) (by simp [Spec.totalAsked, Spec.asked]; decide)

/-- C27, what happens whatever is asked for: all requests are answered in full, by a generator that counts the blocks modulo 256 and starts with an empty block again when a request has
to make blocks and the next number is 1. (So beyond the limit the bytes depend on how they are divided into requests.) -/
theorem C27_hkdf_actual (h : Host) (a : ShaAlg) (sizes : Nat → Nat) (m : Mem) (hm : Kdf.MemOk sizes m) (ikm salt info : Span)
    (hs : ∀ s ∈ [ikm, salt, info], s.size ≤ sizes s.buf ∧ s.size < 2 ^ 64) (rs : List DigestReq)
    (hrs : ∀ r ∈ rs, Kdf.Call.Ok (hkdfClass h a a.size) sizes (.derive r)) :
    ∃ st, Kdf.run (hkdfClass h a a.size) m (.init ⟨ikm, salt, info⟩ :: rs.map .derive)
      = some (st, Spec.hkdfRequests (hmacSpec a) (hmacSpec a (bytesOf m salt) (bytesOf m ikm)) (bytesOf m info) a.size ⟨0, [], []⟩ rs) := by
  obtain ⟨M⟩ := hmacDefault h a
  have hb := size_bounds a
  have hd : (MacAlg.impl h a.size (.hmac a a.size)).digestSize = a.size := macDigestSize h (.hmac a a.size) a.size
  have := HkdfLong.run_eq h M (by rw [hd]; omega) (by rw [hd]; omega) sizes m hm ⟨ikm, salt, info⟩ hs rs hrs
  rw [hd] at this
  exact this

/-- Hypotheses met: 6000 bytes in two requests, where RFC 5869 allows 5100 for SHA-1. -/
example : ∃ st, Kdf.run (hkdfClass ⟨.little, false, none⟩ .sha_1_160 20) exMem
    (.init ⟨⟨0, 64⟩, ⟨1, 4⟩, ⟨2, 3⟩⟩ :: [DigestReq.ptr (List.replicate 25 0) 25, .cont ⟨true, [1]⟩ 5975].map .derive)
    = some (st, Spec.hkdfRequests (hmacSpec .sha_1_160) (hmacSpec .sha_1_160 (bytesOf exMem ⟨1, 4⟩) (bytesOf exMem ⟨0, 64⟩)) (bytesOf exMem ⟨2, 3⟩) 20 ⟨0, [], []⟩
      [DigestReq.ptr (List.replicate 25 0) 25, .cont ⟨true, [1]⟩ 5975]) :=
  C27_hkdf_actual ⟨.little, false, none⟩ .sha_1_160 (fun _ => 64) exMem (fun b => by simp [exMem]) ⟨0, 64⟩ ⟨1, 4⟩ ⟨2, 3⟩ (by simp) _ (by
    intro r hr
    simp only [List.mem_cons, List.not_mem_nil, or_false] at hr
    rcases hr with rfl | rfl
    · exact Nat.le_of_eq (by simp)
    · trivial)

end Milo.Props
