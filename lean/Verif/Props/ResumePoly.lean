import Verif.Proof.PolyReveal
import Verif.Props.Resume
import Verif.Props.Forgery
/-
Property theorems C78 for Poly1305: data given after a tag was taken. The accumulator is then not 0 but the tag, so that what comes out is a linear function of `r` alone: whoever may ask for a second
tag after one more block knows the key, up to a few candidates.
-/
namespace Milo.Props
open Milo Spec.Resume Spec.Forgery

theorem seen_asRead (e : Endian) (key : List Byte) : Poly1305.seen e key = asRead e (Spec.padTo 32 key) := by
  unfold Poly1305.seen asRead
  cases e with
  | little => simp only; rw [Memory.image_ofImage _ _ _ _ (by simp), fit_padTo]
  | big => simp only; rw [image_swap _ _ (by simp), fit_padTo]

/-- C78: after a message `xs` and its tag, more data `ys` yields a number `v` following from the tag: the accumulator goes on from the tag, plus a small multiple of `2^128`,
and the second half of the key is not added any more. -/
theorem C78_poly_resumed (h : Host) (ds : Nat) (hds : ds ≤ 16) (key0 : List Byte) (hk0 : key0.length < 2 ^ 64) (pre : List MacApie.Call) (hpre : ∀ c ∈ pre, c.Ok ds)
    (key : List Byte) (hk : key.length < 2 ^ 64) (xs ys : List (List Byte)) (hx : ∀ x ∈ xs, x.length < 2 ^ 64) (d1 d2 : DigestReq) (h1 : d1.Ok ds) (h2 : d2.Ok ds) :
    ∃ outs v, (MacApie.run (MacAlg.impl h ds .poly_1305) key0 pre).map (·.2) = some outs ∧ PolyResumed (asRead h.endian (Spec.padTo 32 key)) xs.flatten ys.flatten v ∧
      (MacApie.run (MacAlg.impl h ds .poly_1305) key0 (macResuming pre key xs ys d1 d2)).map (·.2)
      = some (outs ++ [Spec.extracted ((Spec.macOn h.endian .poly_1305 key xs.flatten).take ds) d1, Spec.extracted ((Spec.leBytes 16 (v % 2 ^ 128)).take ds) d2]) := by
  obtain ⟨outs, v, e0, hv, e⟩ := Poly1305.resuming_value h ds hds key0 hk0 pre hpre key hk xs ys hx d1 d2 h1 h2
  rw [seen_asRead] at hv
  rw [polyF_eq] at e
  exact ⟨outs, v, e0, hv, e⟩

/-- C78: for Poly1305, data that does not complete a block together with the end of the message is ignored. -/
theorem C78_poly_ignored (h : Host) (ds : Nat) (hds : ds ≤ 16) (key0 : List Byte) (hk0 : key0.length < 2 ^ 64) (pre : List MacApie.Call) (hpre : ∀ c ∈ pre, c.Ok ds)
    (key : List Byte) (hk : key.length < 2 ^ 64) (xs ys : List (List Byte)) (hx : ∀ x ∈ xs, x.length < 2 ^ 64) (d1 d2 : DigestReq) (h1 : d1.Ok ds) (h2 : d2.Ok ds)
    (hs : xs.flatten.length % 16 + ys.flatten.length < 16) :
    ∃ outs, (MacApie.run (MacAlg.impl h ds .poly_1305) key0 (macResuming pre key xs ys d1 d2)).map (·.2)
      = some (outs ++ [Spec.extracted ((Spec.macOn h.endian .poly_1305 key xs.flatten).take ds) d1, Spec.extracted ((Spec.macOn h.endian .poly_1305 key xs.flatten).take ds) d2]) := by
  obtain ⟨outs, v, -, ⟨c, -, -, hv, -⟩, e⟩ := C78_poly_resumed h ds hds key0 hk0 pre hpre key hk xs ys hx d1 d2 h1 h2
  refine ⟨outs, ?_⟩
  have hv := hv (by rw [List.length_append, List.length_drop]; omega)
  have t1 : polyTag (asRead h.endian (Spec.padTo 32 key)) xs.flatten < 2 ^ 128 := by rw [Poly1305.polyTag_eq]; exact Nat.mod_lt _ (by norm_num)
  have e1 : v % 2 ^ 128 = polyTag (asRead h.endian (Spec.padTo 32 key)) xs.flatten := by omega
  have e2 : Spec.leBytes 16 (polyTag (asRead h.endian (Spec.padTo 32 key)) xs.flatten) = Spec.macOn h.endian .poly_1305 key xs.flatten := by
    rw [Poly1305.polyTag_eq, ← Poly1305.mac_eq]
    rfl
  rw [e1, e2] at e
  exact e

/-- Hypotheses met: 20 bytes and their tag, 11 bytes more, the same tag. -/
example : ∃ outs, (MacApie.run (MacAlg.impl ⟨.big, false, none⟩ 16 .poly_1305) [1] (macResuming [.update [9]] (List.replicate 32 7) [List.replicate 20 1] [[1, 2], List.replicate 9 3]
      (.cont ⟨true, []⟩ 16) (.cont ⟨true, []⟩ 16))).map (·.2)
    = some (outs ++ [Spec.extracted ((Spec.macOn .big .poly_1305 (List.replicate 32 7) [List.replicate 20 1].flatten).take 16) (.cont ⟨true, []⟩ 16),
        Spec.extracted ((Spec.macOn .big .poly_1305 (List.replicate 32 7) [List.replicate 20 1].flatten).take 16) (.cont ⟨true, []⟩ 16)]) :=
  C78_poly_ignored ⟨.big, false, none⟩ 16 (by decide) [1] (by simp) _ (by simp [MacApie.Call.Ok]) _ (by simp) _ _ (by simp) _ _ trivial trivial (by decide)

private theorem zero_differs (e : Endian) : Spec.macOn e .poly_1305 (List.replicate 32 0xff) [] ≠ Spec.macOn e .poly_1305 (List.replicate 32 0xff) [0] := by
  cases e <;> decide +kernel

/-- C78 is false for Poly1305 on every host: with a key of `0xff`, a zero byte after the tag of nothing is ignored. -/
theorem C78_poly_false (h : Host) : ¬MacCoversAll h .poly_1305 16 := by
  intro hf
  have e := hf [] (by simp) (macResuming [] (List.replicate 32 0xff) [] [[0]] (.cont ⟨true, []⟩ 16) (.cont ⟨true, []⟩ 16))
    (by simp [macResuming, MacApie.ofReq, MacApie.Call.Ok, MacApie.Call.Short])
  obtain ⟨outs, e'⟩ := C78_poly_ignored h 16 (Nat.le_refl _) [] (by simp) [] (by simp) (List.replicate 32 0xff) (by simp) [] [[0]] (by simp) (.cont ⟨true, []⟩ 16) (.cont ⟨true, []⟩ 16)
    trivial trivial (by decide)
  rw [e'] at e
  have e := Option.some.inj e
  simp only [macResuming, MacApie.ofReq, List.map_nil, List.map_cons, List.nil_append, List.append_nil, List.singleton_append, List.cons_append, promisedMac,
    List.flatten_nil] at e
  have hl := congrArg List.length e
  simp only [List.length_append, List.length_cons, List.length_nil] at hl
  have ho : outs = [] := List.length_eq_zero_iff.mp (by omega)
  subst ho
  simp only [List.nil_append, List.cons.injEq, and_true, Spec.extracted, Spec.contained, if_true, Prod.mk.injEq] at e
  have len : ∀ k m, (Spec.macOn h.endian .poly_1305 k m).length = 16 := fun k m => by
    unfold Spec.macOn; simp only; rw [Poly1305.mac_eq, Forgery.leBytes_length]
  have e3 := e.2.1
  simp only [List.take_take, Nat.min_self] at e3
  rw [List.take_of_length_le (by rw [len]), List.take_of_length_le (by rw [len])] at e3
  exact zero_differs h.endian e3

/-- What an object answers that is initialised with `key`, and given the message `m`, a request for the tag, the bytes `y` and another request. -/
def twice (h : Host) (key m y : List Byte) : Option (List MacApie.Out) :=
  (MacApie.run (MacAlg.impl h 16 .poly_1305) [] [.init key, .update m, .digestC ⟨true, []⟩ 16, .update y, .digestC ⟨true, []⟩ 16]).map (·.2)

private theorem twice_value (h : Host) (key m y : List Byte) (hk : key.length = 32) (hm : m.length < 2 ^ 64) :
    ∃ v, PolyResumed (asRead h.endian key) m y v ∧
      twice h key m y = some [(Spec.Poly1305.mac (asRead h.endian key) m, 16), (Spec.leBytes 16 (v % 2 ^ 128), 16)] := by
  obtain ⟨outs, v, e0, hv, e⟩ := C78_poly_resumed h 16 (Nat.le_refl _) [] (by simp) [] (by simp) key (by omega) [m] [y] (by simpa using hm) (.cont ⟨true, []⟩ 16) (.cont ⟨true, []⟩ 16)
    trivial trivial
  have ho : outs = [] := by
    unfold MacApie.run at e0
    cases hc : MacApie.construct (MacAlg.impl h 16 .poly_1305) [] with
    | none => rw [hc] at e0; exact absurd e0 (by simp)
    | some o =>
      rw [hc] at e0
      have e0 : some ([] : List MacApie.Out) = some outs := e0
      exact (Option.some.inj e0).symm
  subst ho
  rw [padTo_id 32 key hk, List.flatten_singleton, List.flatten_singleton] at hv
  refine ⟨v, hv, ?_⟩
  have e2 : Spec.macOn h.endian .poly_1305 key m = Spec.Poly1305.mac (asRead h.endian key) m := by
    simp only [Spec.macOn, padTo_id 32 key hk]; cases h.endian <;> rfl
  have l1 : (Spec.Poly1305.mac (asRead h.endian key) m).length = 16 := by rw [Poly1305.mac_eq, Forgery.leBytes_length]
  have l2 : (Spec.leBytes 16 (v % 2 ^ 128)).length = 16 := Forgery.leBytes_length _ _
  rw [List.flatten_singleton, e2, List.take_of_length_le (by rw [l1]), List.take_of_length_le (by rw [l2])] at e
  refine Eq.trans e ?_
  simp only [List.nil_append, Spec.extracted, Spec.contained, if_true, l1, l2, Nat.min_self]
  rw [List.take_of_length_le (by rw [l1]), List.take_of_length_le (by rw [l2])]

/-- C78: Poly1305 gives its key away. Of all keys of 32 bytes, at most `25 * 2^22` answer a message of whole blocks and one more block `y` with given tags `t1` and `t2`
(one tag leaves `2^128`, C69; `2^22` keys each are the same key, whose other bits are not used), unless `t1 + y + 5` is a multiple of `2^128`, which `y` can be chosen to avoid. -/
theorem C78_poly_reveals_key (h : Host) (m y : List Byte) (hm : m.length % 16 = 0) (hm' : m.length < 2 ^ 64) (hy : y.length = 16) (t1 t2 : List Byte)
    (hne : (Spec.leNat t1 + Spec.leNat y + 5) % 2 ^ 128 ≠ 0) :
    (keys fun key => twice h key m y = some [(t1, 16), (t2, 16)]).ncard ≤ 25 * 2 ^ 22 := by
  have sub : keys (fun key => twice h key m y = some [(t1, 16), (t2, 16)])
      ⊆ keys fun k => Spec.Poly1305.mac (asRead h.endian k) m = t1
        ∧ Spec.Poly1305.clamp (Spec.leNat ((asRead h.endian k).take 16)) ∈ Forgery.left (Spec.leNat t1) (Spec.leNat t2) (Spec.leNat y) := by
    rintro k ⟨hk, e⟩
    obtain ⟨v, hv, e'⟩ := twice_value h k m y hk hm'
    rw [e] at e'
    have e' := Option.some.inj e'
    simp only [List.cons.injEq, Prod.mk.injEq, and_true] at e'
    obtain ⟨r1, r2⟩ := e'
    refine ⟨hk, r1.symm, ?_⟩
    have p1 : polyTag (asRead h.endian k) m = Spec.leNat t1 := by rw [r1]; rfl
    have p2 : Spec.leNat t2 = v % 2 ^ 128 := by rw [r2, Forgery.leNat_leBytes (v % 2 ^ 128) (Nat.mod_lt _ (by norm_num))]
    have := Forgery.mem_left _ m y v hv hm hy (by rw [p1]; exact hne)
    rw [p1, ← p2] at this
    exact this
  refine Nat.le_trans (Set.ncard_le_ncard sub ?_) ?_
  · exact (Forgery.keys_finite).subset fun k hk => hk.1
  rw [asRead_ncard h.endian fun k => Spec.Poly1305.mac k m = t1 ∧ Spec.Poly1305.clamp (Spec.leNat (k.take 16)) ∈ Forgery.left (Spec.leNat t1) (Spec.leNat t2) (Spec.leNat y)]
  by_cases ht : t1.length = 16
  · refine Nat.le_trans (Forgery.count_known _ m t1 ht) ?_
    rw [Nat.mul_comm]
    exact Nat.mul_le_mul_right _ (Forgery.left_card _ _ _)
  · have : keys (fun k => Spec.Poly1305.mac k m = t1 ∧ Spec.Poly1305.clamp (Spec.leNat (k.take 16)) ∈ Forgery.left (Spec.leNat t1) (Spec.leNat t2) (Spec.leNat y)) = ∅ := by
      ext k
      simp only [keys, Set.mem_setOf_eq, Set.mem_empty_iff_false, iff_false]
      rintro ⟨-, e, -⟩
      exact ht (by rw [← e, Poly1305.mac_eq, Forgery.leBytes_length])
    rw [this, Set.ncard_empty]
    exact Nat.zero_le _

/-- Hypotheses met, and the set is not empty: the key `1, 1, 1, ...`, the message of 32 bytes `2`, and 16 bytes `3`. -/
example : ∃ t1 t2, (Spec.leNat t1 + Spec.leNat (List.replicate 16 3) + 5) % 2 ^ 128 ≠ 0
    ∧ List.replicate 32 1 ∈ keys (fun key => twice ⟨.little, false, none⟩ key (List.replicate 32 2) (List.replicate 16 3) = some [(t1, 16), (t2, 16)])
    ∧ (keys fun key => twice ⟨.little, false, none⟩ key (List.replicate 32 2) (List.replicate 16 3) = some [(t1, 16), (t2, 16)]).ncard ≤ 25 * 2 ^ 22 := by
  obtain ⟨v, -, e⟩ := twice_value ⟨.little, false, none⟩ (List.replicate 32 1) (List.replicate 32 2) (List.replicate 16 3) (by simp) (by simp)
  have hne : (Spec.leNat (Spec.Poly1305.mac (List.replicate 32 1) (List.replicate 32 2)) + Spec.leNat (List.replicate 16 3) + 5) % 2 ^ 128 ≠ 0 := by decide +kernel
  change twice _ _ _ _ = some [(Spec.Poly1305.mac (List.replicate 32 1) (List.replicate 32 2), 16), _] at e
  generalize Spec.Poly1305.mac (List.replicate 32 1) (List.replicate 32 2) = t1 at e hne
  exact ⟨t1, Spec.leBytes 16 (v % 2 ^ 128), hne, ⟨by simp, e⟩,
    C78_poly_reveals_key ⟨.little, false, none⟩ (List.replicate 32 2) (List.replicate 16 3) (by simp) (by simp) (by simp) t1 _ hne⟩

end Milo.Props
