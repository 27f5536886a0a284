import Verif.Proof.Collision
import Verif.Props.Hash
import Verif.Props.Mac
import Verif.Props.Kdf
/-
Property theorems C71: different messages get different digests, unless the compression function is broken by the very evaluations made; the same for HMAC and HKDF.
Specification: Spec/Collision.lean.
-/
namespace Milo.Props
open Milo Spec.Collision Milo.Collision

private theorem snoc_inj {α : Type} {l l' : List α} {x y : α} (h : l ++ [x] = l' ++ [y]) : x = y := by
  have := congrArg List.getLast? h
  simpa using this

/-- C71, hash functions: two objects of a class (any hosts, any earlier use, the messages cut into any pieces) write the same `n` digest bytes. Then the messages are the same or the evaluations
of the compression function contain a collision. -/
theorem C71_hash (a : ShaAlg) (h h' : Host) (ds ds' n : Nat) (hds : ds ≤ a.size) (hds' : ds' ≤ a.size) (hn : n ≤ ds) (hn' : n ≤ ds')
    (pre pre' : List Hash.Call) (hpre : ∀ c ∈ pre, c.Ok ds) (hpre' : ∀ c ∈ pre', c.Ok ds')
    (xs ys : List (List Byte)) (hx : ∀ x ∈ xs, x.length < 2 ^ 64) (hy : ∀ y ∈ ys, y.length < 2 ^ 64) (fx : fits a xs.flatten) (fy : fits a ys.flatten)
    (dst dst' : List Byte) (hd : n ≤ dst.length) (hd' : n ≤ dst'.length)
    (o : (a.impl h ds).σ) (o' : (a.impl h' ds').σ) (outs outs' : List (List Byte × Nat)) (out out' : List Byte × Nat)
    (e : Hash.run (a.impl h ds) (hashing pre xs [(dst, n)]) = some (o, outs ++ [out]))
    (e' : Hash.run (a.impl h' ds') (hashing pre' ys [(dst', n)]) = some (o', outs' ++ [out']))
    (same : out.1.take n = out'.1.take n) :
    xs.flatten = ys.flatten ∨ Broken a n xs.flatten ys.flatten := by
  obtain ⟨_, _, c⟩ := computes a h ds hds pre hpre xs hx [(dst, n)] (by simp; omega)
  obtain ⟨_, _, c'⟩ := computes a h' ds' hds' pre' hpre' ys hy [(dst', n)] (by simp; omega)
  rw [e] at c
  rw [e'] at c'
  simp only [Option.some.injEq, Prod.mk.injEq, List.map_cons, List.map_nil] at c c'
  rw [snoc_inj c.2, snoc_inj c'.2] at same
  refine broken a n _ _ fx fy ?_
  have hl := shaSpec_length a xs.flatten
  have hl' := shaSpec_length a ys.flatten
  unfold Spec.written at same
  simp only at same
  rw [List.take_take, List.take_take, Nat.min_eq_left hn, Nat.min_eq_left hn'] at same
  rwa [List.take_append_of_le_length (by simp; omega), List.take_append_of_le_length (by simp; omega), List.take_take, List.take_take, Nat.min_self] at same

/-- C71 for the functions whose digest is all of the last chaining value: a collision of the compression function itself. -/
theorem C71_hash_full (a : ShaAlg) (ha : a = .sha_1_160 ∨ a = .sha_2_256 ∨ a = .sha_2_512) (h h' : Host)
    (pre pre' : List Hash.Call) (hpre : ∀ c ∈ pre, c.Ok a.size) (hpre' : ∀ c ∈ pre', c.Ok a.size)
    (xs ys : List (List Byte)) (hx : ∀ x ∈ xs, x.length < 2 ^ 64) (hy : ∀ y ∈ ys, y.length < 2 ^ 64) (fx : fits a xs.flatten) (fy : fits a ys.flatten)
    (dst dst' : List Byte) (hd : a.size ≤ dst.length) (hd' : a.size ≤ dst'.length)
    (o : (a.impl h a.size).σ) (o' : (a.impl h' a.size).σ) (outs outs' : List (List Byte × Nat)) (out out' : List Byte × Nat)
    (e : Hash.run (a.impl h a.size) (hashing pre xs [(dst, a.size)]) = some (o, outs ++ [out]))
    (e' : Hash.run (a.impl h' a.size) (hashing pre' ys [(dst', a.size)]) = some (o', outs' ++ [out']))
    (same : out.1.take a.size = out'.1.take a.size) :
    xs.flatten = ys.flatten ∨ Collides (chain a) xs.flatten ys.flatten := by
  rcases C71_hash a h h' _ _ _ (Nat.le_refl _) (Nat.le_refl _) (Nat.le_refl _) (Nat.le_refl _) pre pre' hpre hpre' xs ys hx hy fx fy dst dst' hd hd' o o' outs outs' out out' e e' same with r | r
  · exact .inl r
  · exact .inr (broken_full a ha _ _ r)

/-- C71, HMAC: the same tag of `n` bytes for two keys and messages: the messages are the same and the keys are equivalent by RFC 2104, or one of the hash computations contains a collision. -/
theorem C71_hmac (a : ShaAlg) (h h' : Host) (ds ds' n : Nat) (hds : ds ≤ a.size) (hds' : ds' ≤ a.size) (hn : n ≤ ds) (hn' : n ≤ ds')
    (pre pre' : List Mac.Call) (hpre : ∀ c ∈ pre, c.Ok ds) (hpre' : ∀ c ∈ pre', c.Ok ds')
    (k k' : List Byte) (hk : k.length < 2 ^ 64) (hk' : k'.length < 2 ^ 64) (fk : fits a k) (fk' : fits a k')
    (xs ys : List (List Byte)) (hx : ∀ x ∈ xs, x.length < 2 ^ 64) (hy : ∀ y ∈ ys, y.length < 2 ^ 64) (fx : fitsHmac a xs.flatten) (fy : fitsHmac a ys.flatten)
    (dst dst' : List Byte) (hd : n ≤ dst.length) (hd' : n ≤ dst'.length)
    (o : (MacAlg.impl h ds (.hmac a a.size)).σ) (o' : (MacAlg.impl h' ds' (.hmac a a.size)).σ) (outs outs' : List (List Byte × Nat)) (out out' : List Byte × Nat)
    (e : Mac.run (MacAlg.impl h ds (.hmac a a.size)) (macing pre k xs [(dst, n)]) = some (o, outs ++ [out]))
    (e' : Mac.run (MacAlg.impl h' ds' (.hmac a a.size)) (macing pre' k' ys [(dst', n)]) = some (o', outs' ++ [out']))
    (same : out.1.take n = out'.1.take n) :
    Equivalent a k k' ∧ xs.flatten = ys.flatten ∨ HmacBroken a n k xs.flatten k' ys.flatten := by
  obtain ⟨_, _, c⟩ := C20_hmac h a ds hds pre hpre k hk trivial xs hx [(dst, n)] (by simp; omega)
  obtain ⟨_, _, c'⟩ := C20_hmac h' a ds' hds' pre' hpre' k' hk' trivial ys hy [(dst', n)] (by simp; omega)
  rw [e] at c
  rw [e'] at c'
  simp only [Option.some.injEq, Prod.mk.injEq, List.map_cons, List.map_nil] at c c'
  rw [snoc_inj c.2, snoc_inj c'.2] at same
  refine hmac_broken a n _ _ _ _ fk fk' fx fy ?_
  have hl := hmacSpec_length a k xs.flatten
  have hl' := hmacSpec_length a k' ys.flatten
  unfold hmacSpec at hl hl'
  unfold Spec.written at same
  simp only at same
  rw [List.take_take, List.take_take, Nat.min_eq_left hn, Nat.min_eq_left hn'] at same
  rwa [List.take_append_of_le_length (by simp; omega), List.take_append_of_le_length (by simp; omega), List.take_take, List.take_take, Nat.min_self] at same

/-- C21: only the documented keys are equivalent: keys that give one message the same tag (of all bytes) are equivalent, or break the hash function; and equivalent keys always do. -/
theorem C21_only_documented (a : ShaAlg) (k k' m : List Byte) (fk : fits a k) (fk' : fits a k') (fm : fitsHmac a m) :
    (hmacSpec a k m = hmacSpec a k' m → Equivalent a k k' ∨ HmacBroken a a.size k m k' m) ∧ (Equivalent a k k' → hmacSpec a k m = hmacSpec a k' m) := by
  constructor
  · intro e
    rcases hmac_broken a a.size k m k' m fk fk' fm fm (by unfold hmacSpec at e; rw [e]) with r | r
    · exact .inl r.1
    · exact .inr r
  · intro e
    unfold hmacSpec Spec.hmac
    rw [equivalent_keys a k k' e]

private theorem hkdf_first (a : ShaAlg) (ikm salt info : List Byte) (n : Nat) :
    ((Spec.hkdf (hmacSpec a) ikm salt info).take n).take a.size = (hmacSpec a (hmacSpec a salt ikm) (info ++ [1])).take n := by
  have hl := hmacSpec_length a (hmacSpec a salt ikm) (info ++ [1])
  unfold Spec.hkdf
  rw [show (255 : Nat) = 254 + 1 from rfl, List.range_succ_eq_map, List.map_cons, List.flatten_cons, List.take_take, Nat.min_comm, ← List.take_take]
  have e1 : Spec.hkdfT (hmacSpec a) (hmacSpec a salt ikm) info (0 + 1) = hmacSpec a (hmacSpec a salt ikm) (info ++ [1]) := rfl
  rw [e1, List.take_left' hl]

/-- C71, HKDF: the same key bytes (at least one) from two sets of inputs: input key and info are the same and the salts equivalent, or one of the hash computations contains a collision
(counting `min n size` bytes of the first block). -/
theorem C71_hkdf (a : ShaAlg) (h h' : Host) (sizes sizes' : Nat → Nat) (m m' : Mem) (hm : Kdf.MemOk sizes m) (hm' : Kdf.MemOk sizes' m') (ikm salt info ikm' salt' info' : Span)
    (hs : ∀ s ∈ [ikm, salt, info], s.size ≤ sizes s.buf ∧ s.size < 2 ^ 64) (hs' : ∀ s ∈ [ikm', salt', info'], s.size ≤ sizes' s.buf ∧ s.size < 2 ^ 64)
    (fs : fits a (bytesOf m salt)) (fs' : fits a (bytesOf m' salt')) (fk : fitsHmac a (bytesOf m ikm)) (fk' : fitsHmac a (bytesOf m' ikm'))
    (fi : fitsHmac a (bytesOf m info ++ [1])) (fi' : fitsHmac a (bytesOf m' info' ++ [1]))
    (dst dst' : List Byte) (n : Nat) (hn : n ≤ dst.length) (hn' : n ≤ dst'.length) (hl : n ≤ 255 * a.size) (out out' : List Byte × Nat)
    (e : Kdf.oneshot (hkdfClass h a a.size) m ⟨ikm, salt, info⟩ dst n = some out)
    (e' : Kdf.oneshot (hkdfClass h' a a.size) m' ⟨ikm', salt', info'⟩ dst' n = some out')
    (same : out.1.take n = out'.1.take n) :
    (Equivalent a (bytesOf m salt) (bytesOf m' salt') ∧ bytesOf m ikm = bytesOf m' ikm' ∧ bytesOf m info = bytesOf m' info') ∨
    HmacBroken a n (hmacSpec a (bytesOf m salt) (bytesOf m ikm)) (bytesOf m info ++ [1]) (hmacSpec a (bytesOf m' salt') (bytesOf m' ikm')) (bytesOf m' info' ++ [1]) ∨
    HmacBroken a a.size (bytesOf m salt) (bytesOf m ikm) (bytesOf m' salt') (bytesOf m' ikm') := by
  have hb := size_bounds a
  have ht : (fun k m => (hmacSpec a k m).take a.size) = hmacSpec a := by
    funext k m; exact List.take_of_length_le (Nat.le_of_eq (hmacSpec_length a k m))
  have c := C25_hkdf_truncated_hmac h a a.size hb.1 (Nat.le_refl _) sizes m hm ikm salt info hs dst n hn hl
  have c' := C25_hkdf_truncated_hmac h' a a.size hb.1 (Nat.le_refl _) sizes' m' hm' ikm' salt' info' hs' dst' n hn' hl
  rw [ht] at c c'
  rw [e] at c
  rw [e'] at c'
  rw [Option.some.inj c, Option.some.inj c'] at same
  have l1 := hkdf_length (hmacSpec a) a.size (hmacSpec_length a) (bytesOf m ikm) (bytesOf m salt) (bytesOf m info)
  have l2 := hkdf_length (hmacSpec a) a.size (hmacSpec_length a) (bytesOf m' ikm') (bytesOf m' salt') (bytesOf m' info')
  simp only at same
  rw [List.take_left' (by rw [List.length_take]; omega), List.take_left' (by rw [List.length_take]; omega)] at same
  have first := congrArg (List.take a.size) same
  rw [hkdf_first, hkdf_first] at first
  have fp : ∀ k m, fits a (hmacSpec a k m) := by
    intro k m
    unfold fits
    rw [hmacSpec_length]
    cases a <;> decide
  rcases hmac_broken a n _ _ _ _ (fp _ _) (fp _ _) fi fi' first with ⟨r1, r2⟩ | r
  · have r3 := equivalent_size a _ _ (hmacSpec_length _ _ _) (hmacSpec_length _ _ _) r1
    rcases hmac_broken a a.size _ _ _ _ fs fs' fk fk' (by unfold hmacSpec at r3; rw [r3]) with ⟨s1, s2⟩ | s
    · exact .inl ⟨s1, s2, List.append_cancel_right r2⟩
    · exact .inr (.inr s)
  · exact .inr (.inl r)

/-- Hypotheses of C71_hash met, by messages that do break the digest cut to one byte: SHA-256 of 05 and of 0b begin with the byte e7. -/
example : Broken .sha_2_256 1 [5] [11] := by
  obtain ⟨o, outs, e⟩ := computes .sha_2_256 ⟨.little, false, none⟩ 32 (by decide) [] (by simp) [[5]] (by simp) [(List.replicate 4 0, 1)] (by simp)
  obtain ⟨o', outs', e'⟩ := computes .sha_2_256 ⟨.big, false, none⟩ 1 (by decide) [.update [1]] (by simp [Hash.Call.Ok]) [[11], []] (by simp) [(List.replicate 4 0, 1)] (by simp)
  rcases C71_hash .sha_2_256 ⟨.little, false, none⟩ ⟨.big, false, none⟩ 32 1 1 (by decide) (by decide) (by decide) (by decide) [] [.update [1]] (by simp) (by simp [Hash.Call.Ok])
    [[5]] [[11], []] (by simp) (by simp) (by unfold fits; decide) (by unfold fits; decide) (List.replicate 4 0) (List.replicate 4 0) (by simp) (by simp) o o' outs outs' _ _ e e'
    (by decide +kernel) with r | r
  · exact absurd r (by decide)
  · exact r

/-- Hypotheses of C71_hmac met, by messages that do break the tag cut to one byte: HMAC-SHA-1 of 03 and of 10 under 01010101 begin with the byte 91. -/
example : HmacBroken .sha_1_160 1 [1, 1, 1, 1] [3] [1, 1, 1, 1] [16] := by
  obtain ⟨o, outs, e⟩ := C20_hmac ⟨.little, false, none⟩ .sha_1_160 20 (by decide) [] (by simp) [1, 1, 1, 1] (by decide) trivial [[3]] (by simp) [(List.replicate 4 0, 1)] (by simp)
  obtain ⟨o', outs', e'⟩ := C20_hmac ⟨.big, false, none⟩ .sha_1_160 1 (by decide) [.init [9]] (by simp [Mac.Call.Ok]) [1, 1, 1, 1] (by decide) trivial [[], [16]] (by simp)
    [(List.replicate 4 0, 1)] (by simp)
  rcases C71_hmac .sha_1_160 ⟨.little, false, none⟩ ⟨.big, false, none⟩ 20 1 1 (by decide) (by decide) (by decide) (by decide) [] [.init [9]] (by simp) (by simp [Mac.Call.Ok])
    [1, 1, 1, 1] [1, 1, 1, 1] (by decide) (by decide) (by unfold fits; decide) (by unfold fits; decide)
    [[3]] [[], [16]] (by simp) (by simp) (by unfold fitsHmac; decide) (by unfold fitsHmac; decide) (List.replicate 4 0) (List.replicate 4 0) (by simp) (by simp) o o' outs outs' _ _ e e'
    (by decide +kernel) with r | r
  · exact absurd r.2 (by decide)
  · exact r

/-- Hypotheses of C71_hkdf met by different input keys: HKDF-SHA-256 of 0b and of 0c (no salt, info 02) begin with the byte cd. -/
example : HmacBroken .sha_2_256 1 (hmacSpec .sha_2_256 [] [11]) [2, 1] (hmacSpec .sha_2_256 [] [12]) [2, 1] ∨ HmacBroken .sha_2_256 32 [] [11] [] [12] := by
  rcases C71_hkdf .sha_2_256 ⟨.little, false, none⟩ ⟨.big, false, none⟩ (fun _ => 1) (fun _ => 1) (fun b => if b = 0 then [11] else [2]) (fun b => if b = 0 then [12] else [2])
    (fun b => by simp only; split <;> rfl) (fun b => by simp only; split <;> rfl) ⟨0, 1⟩ ⟨1, 0⟩ ⟨2, 1⟩ ⟨0, 1⟩ ⟨1, 0⟩ ⟨2, 1⟩ (by simp) (by simp)
    (by unfold fits; decide) (by unfold fits; decide) (by unfold fitsHmac; decide) (by unfold fitsHmac; decide) (by unfold fitsHmac; decide) (by unfold fitsHmac; decide)
    [7] [8] 1 (by decide) (by decide) (by decide) ([0xcd], 1) ([0xcd], 1) (by decide +kernel) (by decide +kernel) rfl with r | r | r
  · exact absurd r.2.1 (by decide)
  · exact .inl r
  · exact .inr r

/-- Equivalent keys: a short key and the key with zero bytes after it; a long key and its hash. -/
example : Equivalent .sha_2_256 [1, 2] [1, 2, 0, 0] ∧ Equivalent .sha_2_256 (List.replicate 65 3) (shaSpec .sha_2_256 (List.replicate 65 3)) ∧ ¬ Equivalent .sha_2_256 [1, 2] [1, 3] := by
  refine ⟨.inr (.inl (by decide)), .inr (.inr (.inl ⟨by decide, by rw [shaSpec_length]; decide, rfl⟩)), ?_⟩
  unfold Equivalent
  decide

end Milo.Props
