import Verif.Proof.InPlaceKdf
import Verif.Props.Kdf
/-
Property theorems C70, key derivation: the key is written `d` bytes into buffer `b`, which may be a buffer the inputs are read from. `At.oneshot` gives the caller's memory
afterwards and the size returned. Specification: Spec/InPlace.lean, Spec/InPlaceKdf.lean, Spec/Kdf.lean.
-/
namespace Milo.Props
open Milo Spec.InPlace Milo.InPlace

/-- `hmac<H>` with its default digest size. -/
abbrev hmacClass (h : Host) (a : ShaAlg) : MacImpl := MacAlg.impl h a.size (.hmac a a.size)

/-- The range `s` of the caller's memory is not touched by writing from byte `d` of buffer `b` on. -/
def Apart (s : Span) (b d : Nat) : Prop := s.buf ≠ b ∨ s.size ≤ d

/-! ## What happens -/

/-- C70, PBKDF2 at run time, exactly: every block is computed from the input key and salt as the blocks before it have left them. -/
theorem C70_pbkdf2_overwritten (h : Host) (hc : h.consteval = false) (junk : Nat → Byte) (a : ShaAlg) (sizes : Nat → Nat) (m : Mem) (hm : Kdf.MemOk sizes m) (ikm salt : Span) (it : W32)
    (hs : ∀ s ∈ [ikm, salt], s.size ≤ sizes s.buf ∧ s.size < 2 ^ 64) (b d n : Nat) (hd : d + n ≤ (m b).length) (hl : n ≤ (2 ^ 32 - 1) * a.size) :
    Pbkdf2.At.oneshot h (hmacClass h a) junk m ⟨ikm, salt, it⟩ b d n
      = some (overwritten (fun i m' => Spec.pbkdf2T (hmacSpec a) (bytesOf m' ikm) (bytesOf m' salt) (i + 1) (max it.toNat 1)) b d a.size n ((n + a.size - 1) / a.size) 0 m, n) := by
  obtain ⟨M⟩ := hmacDefault h a
  have hb := size_bounds a
  have hds := macDigestSize h (.hmac a a.size) a.size
  have := Pbkdf2.At.oneshot_eq h junk M (by rw [hds]; omega) (by rw [hds]; omega) sizes m hm ⟨ikm, salt, it⟩ hs b d n hd (by rw [hds]; exact hl)
  rw [hds] at this
  rw [this]
  simp only [seen, hc, Bool.false_eq_true, if_false, bytesOf]

/-- C70, HKDF at run time, exactly: every block is computed from the info and the previous block as they then are in memory; input key and salt are read beforehand. -/
theorem C70_hkdf_overwritten (h : Host) (hc : h.consteval = false) (a : ShaAlg) (sizes : Nat → Nat) (m : Mem) (hm : Kdf.MemOk sizes m) (ikm salt info : Span)
    (hs : ∀ s ∈ [ikm, salt, info], s.size ≤ sizes s.buf ∧ s.size < 2 ^ 64) (b d n : Nat) (hd : d + n ≤ (m b).length) :
    Hkdf.At.oneshot h (hmacClass h a) m ⟨ikm, salt, info⟩ b d n
      = some (overwritten (fun i m' => hmacSpec a (hmacSpec a (bytesOf m salt) (bytesOf m ikm))
            ((if i = 0 then [] else part (m' b) (d + (i - 1) * a.size) a.size) ++ bytesOf m' info ++ [BitVec.ofNat 8 (i + 1)])) b d a.size n ((n + a.size - 1) / a.size) 0 m, n) := by
  obtain ⟨M⟩ := hmacDefault h a
  have hb := size_bounds a
  have hds := macDigestSize h (.hmac a a.size) a.size
  have := Hkdf.At.oneshot_eq h M (by rw [hds]; omega) (by rw [hds]; omega) sizes m hm ⟨ikm, salt, info⟩ hs b d n hd
  rw [hds] at this
  rw [this]
  refine congrArg (fun f => some (overwritten f b d a.size n ((n + a.size - 1) / a.size) 0 m, n)) (funext fun i => funext fun m' => ?_)
  simp only [seen, hc, Bool.false_eq_true, if_false, bytesOf, Hkdf.At.block, Hkdf.val]

/-! ## Where the result is right -/

/-- C70, PBKDF2, as far as it holds: the key is right, and nothing else in memory changes, if input key and salt lie elsewhere, or at most one block is derived, or in constant evaluation
(where the object has copies). -/
theorem C70_pbkdf2_partial (h : Host) (junk : Nat → Byte) (a : ShaAlg) (sizes : Nat → Nat) (m : Mem) (hm : Kdf.MemOk sizes m) (ikm salt : Span) (it : W32)
    (hs : ∀ s ∈ [ikm, salt], s.size ≤ sizes s.buf ∧ s.size < 2 ^ 64) (b d n : Nat) (hd : d + n ≤ (m b).length) (hl : n ≤ (2 ^ 32 - 1) * a.size)
    (ok : h.consteval = true ∨ n ≤ a.size ∨ Apart ikm b d ∧ Apart salt b d) :
    Pbkdf2.At.oneshot h (hmacClass h a) junk m ⟨ikm, salt, it⟩ b d n
      = some (write m b d ((Spec.pbkdf2 (hmacSpec a) (bytesOf m ikm) (bytesOf m salt) (max it.toNat 1)).take n), n) := by
  obtain ⟨M⟩ := hmacDefault h a
  have hb := size_bounds a
  have hds := macDigestSize h (.hmac a a.size) a.size
  have := Pbkdf2.At.oneshot_eq h junk M (by rw [hds]; omega) (by rw [hds]; omega) sizes m hm ⟨ikm, salt, it⟩ hs b d n hd (by rw [hds]; exact hl)
  rw [hds] at this
  rw [this]
  obtain ⟨c, hc⟩ : ∃ c, max it.toNat 1 = c + 1 := ⟨max it.toNat 1 - 1, by omega⟩
  simp only [hc]
  have hlen : ∀ i, (Spec.pbkdf2T (hmacSpec a) (bytesOf m ikm) (bytesOf m salt) (i + 1) (c + 1)).length = a.size := fun i => pbkdf2T_length _ _ (hmacSpec_length a) _ _ _ _
  rw [overwritten_stream _ b d a.size n m (fun i => Spec.pbkdf2T (hmacSpec a) (bytesOf m ikm) (bytesOf m salt) (i + 1) (c + 1)) hlen ?_ _ hd (fun k => ceil_lt hb.1)]
  · unfold Spec.pbkdf2
    rw [take_flatten_range _ a.size n _ _ hlen (ceil_le hb.1 hl) (le_ceil hb.1)]
  · intro k hk
    rcases ok with h1 | h1 | h1
    · rw [seen_elsewhere h m ikm b d _ (by omega) (.inl h1), seen_elsewhere h m salt b d _ (by omega) (.inl h1)]; rfl
    · have : k = 0 := by
        rcases Nat.eq_zero_or_pos k with h0 | h0
        · exact h0
        · have := Nat.le_mul_of_pos_left a.size h0; omega
      subst this
      have e : write m b d ((List.range 0).map fun i => Spec.pbkdf2T (hmacSpec a) (bytesOf m ikm) (bytesOf m salt) (i + 1) (c + 1)).flatten = m := by
        funext i
        unfold write replaced
        by_cases hi : i = b
        · subst hi; simp
        · simp [hi]
      rw [e]
      simp only [seen, ite_self, bytesOf]
    · rw [seen_elsewhere h m ikm b d _ (by omega) (.inr h1.1), seen_elsewhere h m salt b d _ (by omega) (.inr h1.2)]; rfl

/-- C70, HKDF, as far as it holds: likewise if the info lies elsewhere, wherever input key and salt lie. -/
theorem C70_hkdf_partial (h : Host) (a : ShaAlg) (sizes : Nat → Nat) (m : Mem) (hm : Kdf.MemOk sizes m) (ikm salt info : Span)
    (hs : ∀ s ∈ [ikm, salt, info], s.size ≤ sizes s.buf ∧ s.size < 2 ^ 64) (b d n : Nat) (hd : d + n ≤ (m b).length) (hl : n ≤ 255 * a.size)
    (ok : h.consteval = true ∨ n ≤ a.size ∨ Apart info b d) :
    Hkdf.At.oneshot h (hmacClass h a) m ⟨ikm, salt, info⟩ b d n
      = some (write m b d ((Spec.hkdf (hmacSpec a) (bytesOf m ikm) (bytesOf m salt) (bytesOf m info)).take n), n) := by
  obtain ⟨M⟩ := hmacDefault h a
  have hb := size_bounds a
  have hds := macDigestSize h (.hmac a a.size) a.size
  have := Hkdf.At.oneshot_eq h M (by rw [hds]; omega) (by rw [hds]; omega) sizes m hm ⟨ikm, salt, info⟩ hs b d n hd
  rw [hds] at this
  rw [this]
  have hlen : ∀ i, (Spec.hkdfT (hmacSpec a) (hmacSpec a (bytesOf m salt) (bytesOf m ikm)) (bytesOf m info) (i + 1)).length = a.size := fun i => hmacSpec_length a _ _
  rw [overwritten_stream _ b d a.size n m (fun i => Spec.hkdfT (hmacSpec a) (hmacSpec a (bytesOf m salt) (bytesOf m ikm)) (bytesOf m info) (i + 1)) hlen ?_ _ hd (fun k => ceil_lt hb.1)]
  · unfold Spec.hkdf
    rw [take_flatten_range _ a.size n _ _ hlen (ceil_le hb.1 hl) (le_ceil hb.1)]
  · intro k hk
    have hinfo : seen h m info (write m b d ((List.range k).map fun i =>
        Spec.hkdfT (hmacSpec a) (hmacSpec a (bytesOf m salt) (bytesOf m ikm)) (bytesOf m info) (i + 1)).flatten) = bytesOf m info := by
      rcases ok with h1 | h1 | h1
      · exact seen_elsewhere h m info b d _ (by omega) (.inl h1)
      · have : k = 0 := by
          rcases Nat.eq_zero_or_pos k with h0 | h0
          · exact h0
          · have := Nat.le_mul_of_pos_left a.size h0; omega
        subst this
        have e : write m b d ((List.range 0).map fun i =>
            Spec.hkdfT (hmacSpec a) (hmacSpec a (bytesOf m salt) (bytesOf m ikm)) (bytesOf m info) (i + 1)).flatten = m := by
          funext i
          unfold write replaced
          by_cases hi : i = b
          · subst hi; simp
          · simp [hi]
        rw [e]
        simp only [seen, ite_self, bytesOf]
      · exact seen_elsewhere h m info b d _ (by omega) (.inr h1)
    unfold Hkdf.At.block
    rw [hinfo]
    show hmacSpec a (hmacSpec a (bytesOf m salt) (bytesOf m ikm)) _
      = hmacSpec a (hmacSpec a (bytesOf m salt) (bytesOf m ikm)) (Spec.hkdfT (hmacSpec a) (hmacSpec a (bytesOf m salt) (bytesOf m ikm)) (bytesOf m info) k ++ bytesOf m info ++ [BitVec.ofNat 8 (k + 1)])
    congr 3
    cases k with
    | zero => simp [Spec.hkdfT]
    | succ k =>
      rw [if_neg (by omega), Nat.add_sub_cancel, List.range_succ, List.map_append, List.flatten_append]
      simp only [List.map_cons, List.map_nil, List.flatten_cons, List.flatten_nil, List.append_nil]
      have hx : (((List.range k).map fun i => Spec.hkdfT (hmacSpec a) (hmacSpec a (bytesOf m salt) (bytesOf m ikm)) (bytesOf m info) (i + 1)).flatten).length = k * a.size := by
        rw [List.length_flatten, List.map_map, show List.length ∘ _ = fun _ => a.size from funext hlen]
        simp [List.map_const']
      generalize (((List.range k).map fun i => Spec.hkdfT (hmacSpec a) (hmacSpec a (bytesOf m salt) (bytesOf m ikm)) (bytesOf m info) (i + 1)).flatten) = x at hx
      have hy := hlen k
      generalize Spec.hkdfT (hmacSpec a) (hmacSpec a (bytesOf m salt) (bytesOf m ikm)) (bytesOf m info) (k + 1) = y at hy
      have ht : ((m b).take d).length = d := by simp; omega
      unfold write replaced part
      rw [if_pos rfl, ← hx, show d + x.length = (List.take d (m b) ++ x).length by simp [ht]]
      simp only [← List.append_assoc]
      rw [List.append_assoc _ y, List.drop_left' rfl, List.take_left' hy]

/-- Three buffers of 48 bytes. -/
def inMem : Mem := fun b => List.replicate 48 (BitVec.ofNat 8 (b + 1))

/-- Hypotheses of C70_pbkdf2_partial met: a key of 40 bytes written behind the input key of 8 bytes, in the same buffer; and of 20 bytes over it. -/
example : Pbkdf2.At.oneshot ⟨.little, false, none⟩ (hmacClass ⟨.little, false, none⟩ .sha_1_160) (fun _ => 7) inMem ⟨⟨0, 8⟩, ⟨1, 16⟩, 3⟩ 0 8 40
      = some (write inMem 0 8 ((Spec.pbkdf2 (hmacSpec .sha_1_160) (bytesOf inMem ⟨0, 8⟩) (bytesOf inMem ⟨1, 16⟩) 3).take 40), 40) ∧
    Pbkdf2.At.oneshot ⟨.little, false, none⟩ (hmacClass ⟨.little, false, none⟩ .sha_1_160) (fun _ => 7) inMem ⟨⟨0, 8⟩, ⟨1, 16⟩, 3⟩ 0 0 20
      = some (write inMem 0 0 ((Spec.pbkdf2 (hmacSpec .sha_1_160) (bytesOf inMem ⟨0, 8⟩) (bytesOf inMem ⟨1, 16⟩) 3).take 20), 20) :=
  ⟨C70_pbkdf2_partial _ _ .sha_1_160 (fun _ => 48) inMem (fun _ => by simp [inMem]) ⟨0, 8⟩ ⟨1, 16⟩ 3 (by simp) 0 8 40 (by simp [inMem]) (by decide)
    (.inr (.inr ⟨.inr (by decide), .inl (by decide)⟩)),
   C70_pbkdf2_partial _ _ .sha_1_160 (fun _ => 48) inMem (fun _ => by simp [inMem]) ⟨0, 8⟩ ⟨1, 16⟩ 3 (by simp) 0 0 20 (by simp [inMem]) (by decide) (.inr (.inl (by decide)))⟩

/-- Hypotheses of C70_hkdf_partial met: the key is written over input key and salt. -/
example : Hkdf.At.oneshot ⟨.big, false, none⟩ (hmacClass ⟨.big, false, none⟩ .sha_2_256) inMem ⟨⟨0, 8⟩, ⟨0, 16⟩, ⟨1, 5⟩⟩ 0 0 45
      = some (write inMem 0 0 ((Spec.hkdf (hmacSpec .sha_2_256) (bytesOf inMem ⟨0, 8⟩) (bytesOf inMem ⟨0, 16⟩) (bytesOf inMem ⟨1, 5⟩)).take 45), 45) :=
  C70_hkdf_partial _ .sha_2_256 (fun _ => 48) inMem (fun _ => by simp [inMem]) ⟨0, 8⟩ ⟨0, 16⟩ ⟨1, 5⟩ (by simp) 0 0 45 (by simp [inMem]) (by decide) (.inr (.inr (.inl (by decide))))

/-! ## Where it is not -/

/-- C70 fails for PBKDF2: two blocks derived over the input key: the second is not that of the standard (it is computed with the first block as password). -/
theorem C70_pbkdf2_in_place_wrong : ∃ m',
    Pbkdf2.At.oneshot ⟨.little, false, none⟩ (hmacClass ⟨.little, false, none⟩ .sha_1_160) (fun _ => 7) inMem ⟨⟨0, 20⟩, ⟨1, 16⟩, 1⟩ 0 0 40 = some (m', 40) ∧
    part (m' 0) 0 20 = Spec.pbkdf2T (hmacSpec .sha_1_160) (bytesOf inMem ⟨0, 20⟩) (bytesOf inMem ⟨1, 16⟩) 1 1 ∧
    part (m' 0) 20 20 = Spec.pbkdf2T (hmacSpec .sha_1_160) (part (m' 0) 0 20) (bytesOf inMem ⟨1, 16⟩) 2 1 ∧
    part (m' 0) 20 20 ≠ Spec.pbkdf2T (hmacSpec .sha_1_160) (bytesOf inMem ⟨0, 20⟩) (bytesOf inMem ⟨1, 16⟩) 2 1 := by
  refine ⟨_, C70_pbkdf2_overwritten ⟨.little, false, none⟩ rfl (fun _ => 7) .sha_1_160 (fun _ => 48) inMem (fun _ => by simp [inMem]) ⟨0, 20⟩ ⟨1, 16⟩ 1 (by simp) 0 0 40 (by simp [inMem])
    (by decide), ?_⟩
  decide +kernel

/-- C70 fails for HKDF: two blocks derived over the info: the second is not that of the standard. -/
theorem C70_hkdf_in_place_wrong : ∃ m',
    Hkdf.At.oneshot ⟨.little, false, none⟩ (hmacClass ⟨.little, false, none⟩ .sha_1_160) inMem ⟨⟨1, 20⟩, ⟨2, 16⟩, ⟨0, 8⟩⟩ 0 0 40 = some (m', 40) ∧
    part (m' 0) 0 20 = Spec.hkdfT (hmacSpec .sha_1_160) (hmacSpec .sha_1_160 (bytesOf inMem ⟨2, 16⟩) (bytesOf inMem ⟨1, 20⟩)) (bytesOf inMem ⟨0, 8⟩) 1 ∧
    part (m' 0) 20 20 ≠ Spec.hkdfT (hmacSpec .sha_1_160) (hmacSpec .sha_1_160 (bytesOf inMem ⟨2, 16⟩) (bytesOf inMem ⟨1, 20⟩)) (bytesOf inMem ⟨0, 8⟩) 2 := by
  refine ⟨_, C70_hkdf_overwritten ⟨.little, false, none⟩ rfl .sha_1_160 (fun _ => 48) inMem (fun _ => by simp [inMem]) ⟨1, 20⟩ ⟨2, 16⟩ ⟨0, 8⟩ (by simp) 0 0 40 (by simp [inMem]), ?_⟩
  decide +kernel

end Milo.Props
