import Verif.Proof.AeadResume
import Verif.Props.ResumePoly
import Verif.Props.Aead
/-
Property theorems C78 for AEAD: text given after a tag was taken or verified is still encrypted or decrypted, with the key stream going on, but is not authenticated: with less than 16 bytes of it, the
object answers as if nothing had been added.
-/
namespace Milo.Props
open Milo Spec.Resume

/-- A session on `apie`: `initialize`, `aad` for each of `ads`, `encrypt` (if `d`: `decrypt`) for each of `ts`, the calls `cs1`, then `encrypt` (if `d2`: `decrypt`) for each of `us`, and the calls `cs2`. -/
def aeadResuming (d d2 : Bool) (key iv : List Byte) (ads : List (List Byte)) (ts : List TextReq) (cs1 : List AeadApie.Call) (us : List TextReq) (cs2 : List AeadApie.Call) : List AeadApie.Call :=
  [.init key iv] ++ ads.map .aad ++ ts.map (.text d) ++ cs1 ++ us.map (.text d2) ++ cs2

private theorem bodies_all (ts : List TextReq) : (AeadApie.bodies ts).flatten = allText ts := rfl

/-- C78: after a tag was taken or verified, more texts are processed with the key stream going on (as if they were one text with the earlier ones), and the tag is then a number `v` following from the
first tag: Poly1305 is continued from it with the ciphertext of the new texts alone, neither padded nor followed by any size. -/
theorem C78_aead_resumed (h : Host) (b : CipherBackend) (pre : List AeadApie.Call) (hp : AeadApie.Begun pre) (d d2 : Bool) (key : List Byte) (hk : key.length = 32) (nonce : List Byte)
    (hn : nonce.length = 12) (ads : List (List Byte)) (ha : ∀ x ∈ ads, x.length < 2 ^ 64) (ts us : List TextReq) (ht : ∀ t ∈ ts, t.Ok) (hne : ts ≠ []) (hu : ∀ t ∈ us, t.Ok)
    (cs1 cs2 : List AeadApie.Call) (hc1 : ∀ c ∈ cs1, c.Ok ∧ Spec.Aead.Ends c) (hne1 : cs1 ≠ []) (hc2 : ∀ c ∈ cs2, c.Ok ∧ Spec.Aead.Ends c) :
    ∃ o0 o outs rs1 rs2 v, AeadApie.run h b pre = some (o0, outs) ∧
      AeadApie.run h b (pre ++ aeadResuming d d2 key nonce ads ts cs1 us cs2)
        = some (o, outs ++ (textOuts ts rs1 ++ cs1.map (Spec.Aead.ending (Spec.Aead.macOn h.endian key nonce (Spec.Aead.authenticated ads.flatten (cipherOf d key nonce (allText ts))))) ++
            textOuts us rs2 ++ cs2.map (Spec.Aead.ending (Spec.leBytes 16 (v % 2 ^ 128))))) ∧
      (rs1 ++ rs2).map List.length = (ts ++ us).map (fun t => (Spec.Aead.text t).length) ∧ rs1.length = ts.length ∧
      (rs1 ++ rs2).flatten = Spec.Aead.crypt key nonce (allText ts ++ allText us) ∧
      PolyResumed (asRead h.endian (Spec.Aead.oneTimeKey key nonce)) (Spec.Aead.authenticated ads.flatten (cipherOf d key nonce (allText ts))) (if d2 then allText us else rs2.flatten) v := by
  obtain ⟨o0, o, outs, v, e0, hv, e⟩ := AeadApie.resumed_session h b pre hp d d2 key nonce ads ha ts us ht hne hu cs1 cs2 hc1 hne1 hc2
  rw [AeadApie.seen_one] at hv
  rw [padTo_id 32 key hk, padTo_id 12 nonce hn] at hv
  have ec : AeadApie.ciphertext d key nonce (AeadApie.bodies ts).flatten = cipherOf d key nonce (allText ts) := by
    unfold AeadApie.ciphertext cipherOf
    rw [padTo_id 32 key hk, padTo_id 12 nonce hn, bodies_all]
  have et : AeadApie.tagOn h key nonce ads.flatten (cipherOf d key nonce (allText ts))
      = Spec.Aead.macOn h.endian key nonce (Spec.Aead.authenticated ads.flatten (cipherOf d key nonce (allText ts))) := by
    unfold AeadApie.tagOn
    rw [padTo_id 32 key hk, padTo_id 12 nonce hn]
  rw [ec] at hv e
  rw [et] at e
  refine ⟨o0, o, outs, _, _, v, e0, e, ?_, ?_, ?_, ?_⟩
  · rw [List.map_append, Aead.pieces_length, Aead.pieces_length, List.map_append]
    simp only [AeadApie.bodies, List.map_map]
    rfl
  · have := congrArg List.length (Aead.pieces_length key nonce 0 (AeadApie.bodies ts))
    simpa [AeadApie.bodies] using this
  · have ee : (AeadApie.bodies ts).flatten.length = 0 + (AeadApie.bodies ts).flatten.length := by omega
    rw [List.flatten_append, Aead.pieces_flatten, Aead.pieces_flatten, bodies_all, bodies_all]
    rw [bodies_all] at ee
    rw [ee, ← Aead.crypted_append, AeadApie.crypt_eq, padTo_id 32 key hk, padTo_id 12 nonce hn]
  · rw [Aead.pieces_flatten]
    unfold asRead
    rw [bodies_all] at hv ⊢
    exact hv

private theorem macOn_polyTag (e : Endian) (key nonce m : List Byte) :
    Spec.Aead.macOn e key nonce m = Spec.leBytes 16 (polyTag (asRead e (Spec.Aead.oneTimeKey key nonce)) m) := by
  rw [Poly1305.polyTag_eq, ← Poly1305.mac_eq]
  unfold Spec.Aead.macOn asRead
  cases e <;> rfl

/-- C78: for AEAD, less than 16 bytes given after a tag was taken or verified are encrypted or decrypted as the continuation of the text, but not authenticated: every later digest and verification is
answered as before them. -/
theorem C78_aead_ignored (h : Host) (b : CipherBackend) (pre : List AeadApie.Call) (hp : AeadApie.Begun pre) (d d2 : Bool) (key : List Byte) (hk : key.length = 32) (nonce : List Byte)
    (hn : nonce.length = 12) (ads : List (List Byte)) (ha : ∀ x ∈ ads, x.length < 2 ^ 64) (ts us : List TextReq) (ht : ∀ t ∈ ts, t.Ok) (hne : ts ≠ []) (hu : ∀ t ∈ us, t.Ok)
    (hs : (allText us).length < 16)
    (cs1 cs2 : List AeadApie.Call) (hc1 : ∀ c ∈ cs1, c.Ok ∧ Spec.Aead.Ends c) (hne1 : cs1 ≠ []) (hc2 : ∀ c ∈ cs2, c.Ok ∧ Spec.Aead.Ends c) :
    ∃ o0 o outs rs1 rs2, AeadApie.run h b pre = some (o0, outs) ∧
      AeadApie.run h b (pre ++ aeadResuming d d2 key nonce ads ts cs1 us cs2)
        = some (o, outs ++ (textOuts ts rs1 ++ cs1.map (Spec.Aead.ending (Spec.Aead.macOn h.endian key nonce (Spec.Aead.authenticated ads.flatten (cipherOf d key nonce (allText ts))))) ++
            textOuts us rs2 ++ cs2.map (Spec.Aead.ending (Spec.Aead.macOn h.endian key nonce (Spec.Aead.authenticated ads.flatten (cipherOf d key nonce (allText ts))))))) ∧
      (rs1 ++ rs2).map List.length = (ts ++ us).map (fun t => (Spec.Aead.text t).length) ∧ rs1.length = ts.length ∧
      (rs1 ++ rs2).flatten = Spec.Aead.crypt key nonce (allText ts ++ allText us) := by
  obtain ⟨o0, o, outs, rs1, rs2, v, e0, e, l1, l2, fl, ⟨c, -, -, hv, -⟩⟩ :=
    C78_aead_resumed h b pre hp d d2 key hk nonce hn ads ha ts us ht hne hu cs1 cs2 hc1 hne1 hc2
  refine ⟨o0, o, outs, rs1, rs2, e0, ?_, l1, l2, fl⟩
  have hl2 : rs2.map List.length = us.map fun t => (Spec.Aead.text t).length := by
    rw [List.map_append, List.map_append] at l1
    exact (List.append_inj l1 (by simp [l2])).2
  have hl : (if d2 then allText us else rs2.flatten).length < 16 := by
    cases d2 with
    | true => exact hs
    | false =>
      have : rs2.flatten.length = (allText us).length := by
        rw [List.length_flatten, hl2, allText, List.length_flatten, List.map_map]; rfl
      simp only [Bool.false_eq_true, if_false]
      omega
  have hm : (Spec.Aead.authenticated ads.flatten (cipherOf d key nonce (allText ts))).length % 16 = 0 := by
    simp only [Spec.Aead.authenticated, Spec.Aead.pad16, List.length_append, List.length_replicate, Spec.leBytes, List.length_map, List.length_range]
    omega
  have hv := hv (by rw [List.length_append, List.length_drop]; omega)
  have t1 : polyTag (asRead h.endian (Spec.Aead.oneTimeKey key nonce)) (Spec.Aead.authenticated ads.flatten (cipherOf d key nonce (allText ts))) < 2 ^ 128 := by
    rw [Poly1305.polyTag_eq]; exact Nat.mod_lt _ (by norm_num)
  have e1 : v % 2 ^ 128 = polyTag (asRead h.endian (Spec.Aead.oneTimeKey key nonce)) (Spec.Aead.authenticated ads.flatten (cipherOf d key nonce (allText ts))) := by omega
  rw [e1, ← macOn_polyTag] at e
  exact e

/-- Texts of an example: 20 bytes, and then 15. -/
def exTexts : List TextReq := [.cont (List.replicate 20 4) ⟨true, []⟩]
/-- The second of them. -/
def exMore : List TextReq := [.cont (List.replicate 15 6) ⟨true, []⟩]
/-- Their tag: that of the first alone. -/
def exTag : List Byte := Spec.Aead.macOn .little (List.replicate 32 1) (List.replicate 12 2) (Spec.Aead.authenticated [[3]].flatten (cipherOf true (List.replicate 32 1) (List.replicate 12 2) (allText exTexts)))

/-- Hypotheses met: 20 bytes are decrypted and verified, 15 more decrypted, and verified again. -/
example : ∃ o0 o outs rs1 rs2, AeadApie.run ⟨.little, false, none⟩ .portable [] = some (o0, outs) ∧
    AeadApie.run ⟨.little, false, none⟩ .portable ([] ++ aeadResuming true true (List.replicate 32 1) (List.replicate 12 2) [[3]] exTexts [.verify (List.replicate 16 5)] exMore
        [.verify (List.replicate 16 5)])
      = some (o, outs ++ (textOuts exTexts rs1 ++ [AeadApie.Call.verify (List.replicate 16 5)].map (Spec.Aead.ending exTag) ++ textOuts exMore rs2 ++
          [AeadApie.Call.verify (List.replicate 16 5)].map (Spec.Aead.ending exTag))) ∧
      (rs1 ++ rs2).map List.length = (exTexts ++ exMore).map (fun t => (Spec.Aead.text t).length) ∧ rs1.length = exTexts.length ∧
      (rs1 ++ rs2).flatten = Spec.Aead.crypt (List.replicate 32 1) (List.replicate 12 2) (allText exTexts ++ allText exMore) :=
  C78_aead_ignored ⟨.little, false, none⟩ .portable [] ⟨by simp, by simp⟩ true true _ (by simp) _ (by simp) [[3]] (by simp) exTexts exMore (by simp [exTexts, TextReq.Ok]) (by simp [exTexts])
    (by simp [exMore, TextReq.Ok]) (by decide) _ _ (by simp [AeadApie.Call.Ok, Spec.Aead.Ends]) (by simp) (by simp [AeadApie.Call.Ok, Spec.Aead.Ends])

/-- What a user expects: a digest taken after more text covers all the text. -/
def AeadCoversAll (h : Host) (b : CipherBackend) : Prop :=
  ∀ (d : Bool) (key nonce : List Byte), key.length = 32 → nonce.length = 12 → ∀ ad x y : List Byte, ad.length < 2 ^ 64 → x.length < 2 ^ 64 → y.length < 2 ^ 64 →
    ∃ o outs, AeadApie.run h b (aeadResuming d d key nonce [ad] [.cont x ⟨true, []⟩] [.digestC ⟨true, []⟩ 16] [.cont y ⟨true, []⟩] [.digestC ⟨true, []⟩ 16]) = some (o, outs) ∧
      outs.getLast? = some (.bytes (Spec.Aead.macOn h.endian key nonce (Spec.Aead.authenticated ad (cipherOf d key nonce (x ++ y)))) 16)

private theorem tags_differ (e : Endian) :
    Spec.Aead.macOn e (List.replicate 32 0) (List.replicate 12 0) (Spec.Aead.authenticated [] [1])
      ≠ Spec.Aead.macOn e (List.replicate 32 0) (List.replicate 12 0) (Spec.Aead.authenticated [] ([1] ++ [2])) := by
  cases e <;> decide +kernel

/-- C78 is false for AEAD on every host and with every backend. -/
theorem C78_aead_false (h : Host) (b : CipherBackend) : ¬AeadCoversAll h b := by
  intro hf
  obtain ⟨o, outs, e, l⟩ := hf true (List.replicate 32 0) (List.replicate 12 0) (by simp) (by simp) [] [1] [2] (by simp) (by simp) (by simp)
  obtain ⟨o0, o', outs0, rs1, rs2, e0, e', -⟩ := C78_aead_ignored h b [] ⟨by simp, by simp⟩ true true (List.replicate 32 0) (by simp) (List.replicate 12 0) (by simp) [[]] (by simp) [.cont [1] ⟨true, []⟩]
    [.cont [2] ⟨true, []⟩] (by simp [TextReq.Ok]) (by simp) (by simp [TextReq.Ok]) (by decide) [.digestC ⟨true, []⟩ 16] [.digestC ⟨true, []⟩ 16] (by simp [AeadApie.Call.Ok, Spec.Aead.Ends]) (by simp)
    (by simp [AeadApie.Call.Ok, Spec.Aead.Ends])
  rw [List.nil_append, e] at e'
  have e' := (Prod.mk.inj (Option.some.inj e')).2
  rw [e'] at l
  have len : ∀ m, (Spec.Aead.macOn h.endian (List.replicate 32 0) (List.replicate 12 0) m).length = 16 := fun m => by
    unfold Spec.Aead.macOn; rw [Poly1305.mac_eq, Forgery.leBytes_length]
  simp only [List.map_cons, List.map_nil, ← List.append_assoc, List.getLast?_concat, Spec.Aead.ending, Spec.contained, if_true, Option.some.injEq, AeadApie.Out.bytes.injEq, len] at l
  have l := l.1
  rw [List.take_of_length_le (by rw [len])] at l
  exact tags_differ h.endian l

/-- What is seen of an `encrypt` of `x`, a digest, an `encrypt` of `y` and another digest. -/
def seenTwice (h : Host) (b : CipherBackend) (key nonce ad x y : List Byte) : Option (List AeadApie.Out) :=
  (AeadApie.run h b (aeadResuming false false key nonce [ad] [.cont x ⟨true, []⟩] [.digestC ⟨true, []⟩ 16] [.cont y ⟨true, []⟩] [.digestC ⟨true, []⟩ 16])).map (·.2)

private theorem one_length (key nonce : List Byte) (hk : key.length = 32) (hn : nonce.length = 12) : (Spec.Aead.oneTimeKey key nonce).length = 32 := by
  have := Aead.key32_eq key nonce
  rw [padTo_id 32 key hk, padTo_id 12 nonce hn] at this
  rw [← this]
  unfold Spec.padTo
  simp

private theorem single {α : Type} (l : List (List α)) (h : l.length = 1) : ∃ a, l = [a] := by
  match l, h with
  | [a], _ => exact ⟨a, rfl⟩

/-- C78: AEAD gives the one-time key away. Of an encryption, its tag `t1`, the encryption of 16 bytes more and another tag `t2`, the associated data, the ciphertexts and the tags alone leave a set `S` of
at most `25 * 2^22` of the `2^256` one-time keys (`2^22` each differ in bits Poly1305 does not use only), whatever the key, the nonce and the texts, unless `t1 + c2 + 5` is a multiple of `2^128`. -/
theorem C78_aead_reveals_key (h : Host) (ad c1 t1 c2 t2 : List Byte) (ha : ad.length < 2 ^ 64) (hc : c1.length < 2 ^ 64) (h2 : c2.length = 16)
    (hne : (Spec.leNat t1 + Spec.leNat c2 + 5) % 2 ^ 128 ≠ 0) :
    ∃ S : Finset (List Byte), S.card ≤ 25 * 2 ^ 22 ∧ ∀ b key nonce x y, key.length = 32 → nonce.length = 12 → x.length < 2 ^ 64 → y.length < 2 ^ 64 →
      seenTwice h b key nonce ad x y = some [.bytes c1 c1.length, .bytes t1 16, .bytes c2 16, .bytes t2 16] → asRead h.endian (Spec.Aead.oneTimeKey key nonce) ∈ S := by
  let m := Spec.Aead.authenticated ad c1
  have fin : {k : List Byte | k.length = 32 ∧ Spec.Poly1305.mac k m = t1 ∧ Spec.Poly1305.clamp (Spec.leNat (k.take 16)) ∈ Forgery.left (Spec.leNat t1) (Spec.leNat t2) (Spec.leNat c2)}.Finite :=
    (Forgery.keys_finite).subset fun k hk => hk.1
  refine ⟨fin.toFinset, ?_, ?_⟩
  · rw [← Set.ncard_eq_toFinset_card _ fin]
    by_cases ht : t1.length = 16
    · refine Nat.le_trans (Forgery.count_known _ m t1 ht) ?_
      rw [Nat.mul_comm]
      exact Nat.mul_le_mul_right _ (Forgery.left_card _ _ _)
    · have : {k : List Byte | k.length = 32 ∧ Spec.Poly1305.mac k m = t1 ∧ Spec.Poly1305.clamp (Spec.leNat (k.take 16)) ∈ Forgery.left (Spec.leNat t1) (Spec.leNat t2) (Spec.leNat c2)} = ∅ := by
        ext k
        simp only [Set.mem_setOf_eq, Set.mem_empty_iff_false, iff_false]
        rintro ⟨-, e, -⟩
        exact ht (by rw [← e, Poly1305.mac_eq, Forgery.leBytes_length])
      rw [this, Set.ncard_empty]
      exact Nat.zero_le _
  · intro b key nonce x y hk hn hx hy e
    obtain ⟨o0, o, outs, rs1, rs2, v, e0, e', l1, l2, fl, hv⟩ := C78_aead_resumed h b [] ⟨by simp, by simp⟩ false false key hk nonce hn [ad] (by simpa using ha) [.cont x ⟨true, []⟩] [.cont y ⟨true, []⟩]
      (by simpa [TextReq.Ok] using hx) (by simp) (by simpa [TextReq.Ok] using hy) [.digestC ⟨true, []⟩ 16] [.digestC ⟨true, []⟩ 16] (by simp [AeadApie.Call.Ok, Spec.Aead.Ends]) (by simp)
      (by simp [AeadApie.Call.Ok, Spec.Aead.Ends])
    have ho : outs = [] := by
      have e0 : some (_, ([] : List AeadApie.Out)) = some (o0, outs) := e0
      exact (Prod.mk.inj (Option.some.inj e0)).2.symm
    subst ho
    obtain ⟨r1, rfl⟩ := single rs1 (by simpa using l2)
    obtain ⟨r2, rfl⟩ := single rs2 (by have := congrArg List.length l1; simp at this; omega)
    have len : ∀ m, (Spec.Aead.macOn h.endian key nonce m).length = 16 := fun m => by
      unfold Spec.Aead.macOn; rw [Poly1305.mac_eq, Forgery.leBytes_length]
    unfold seenTwice at e
    rw [List.nil_append] at e'
    rw [e'] at e
    have e := Option.some.inj e
    simp only [textOuts, List.zipWith_cons_cons, List.zipWith_nil_left, List.map_cons, List.map_nil, List.nil_append, List.cons_append, Spec.Aead.placed, if_true, Spec.Aead.ending, Spec.contained,
      List.cons.injEq, AeadApie.Out.bytes.injEq, and_true, len, Forgery.leBytes_length] at e
    obtain ⟨⟨q1, -⟩, ⟨q2, -⟩, ⟨q3, -⟩, q4, -⟩ := e
    rw [List.take_of_length_le (by rw [len])] at q2
    rw [List.take_of_length_le (by rw [Forgery.leBytes_length])] at q4
    subst q1 q3
    have hx' : cipherOf false key nonce (allText [.cont x ⟨true, []⟩]) = r1 := by
      simp only [cipherOf, Bool.false_eq_true, if_false]
      have hl := congrArg List.length fl
      have l1 : r1.length = x.length ∧ r2.length = y.length := by simpa [Spec.Aead.text] using l1
      have t : allText [.cont x ⟨true, []⟩] = x := by simp [allText, Spec.Aead.text]
      have t' : allText [.cont y ⟨true, []⟩] = y := by simp [allText, Spec.Aead.text]
      rw [t] at fl ⊢
      rw [t'] at fl
      have fl : r1 ++ r2 = Spec.Aead.crypt key nonce (x ++ y) := by simpa using fl
      have ec : ∀ z, Spec.Aead.crypt key nonce z = Aead.crypted key nonce 0 z := fun z => by rw [AeadApie.crypt_eq, padTo_id 32 key hk, padTo_id 12 nonce hn]
      rw [ec, Aead.crypted_append] at fl
      rw [ec]
      exact ((List.append_inj fl (by rw [Aead.crypted_length, l1.1])).1).symm
    rw [hx'] at q2 hv
    simp only [Bool.false_eq_true, if_false, List.flatten_singleton] at hv
    rw [List.flatten_singleton] at q2
    have hm : m.length % 16 = 0 := by
      simp only [m, Spec.Aead.authenticated, Spec.Aead.pad16, List.length_append, List.length_replicate, Spec.leBytes, List.length_map, List.length_range]
      omega
    rw [macOn_polyTag] at q2
    have p1 : polyTag (asRead h.endian (Spec.Aead.oneTimeKey key nonce)) m = Spec.leNat t1 := by
      rw [← q2, Forgery.leNat_leBytes _ (by rw [Poly1305.polyTag_eq]; exact Nat.mod_lt _ (by norm_num))]
    have p2 : v % 2 ^ 128 = Spec.leNat t2 := by rw [← q4, Forgery.leNat_leBytes _ (Nat.mod_lt _ (by norm_num))]
    have ml := Forgery.mem_left _ m r2 v hv hm h2 (by rw [p1]; exact hne)
    rw [p1, p2] at ml
    rw [Set.Finite.mem_toFinset]
    refine ⟨(asRead_facts h.endian _ (one_length key nonce hk hn)).1, ?_, ml⟩
    rw [← q2, Poly1305.mac_eq, Poly1305.polyTag_eq]

/-- Hypotheses met by a session, for every key and nonce: ciphertexts of 20 and 16 bytes, and any two tags but those excluded. -/
example (h : Host) (b : CipherBackend) (key nonce x y : List Byte) (hk : key.length = 32) (hn : nonce.length = 12) (hx : x.length = 20) (hy : y.length = 16) :
    ∃ c1 t1 c2 t2, seenTwice h b key nonce [] x y = some [.bytes c1 c1.length, .bytes t1 16, .bytes c2 16, .bytes t2 16] ∧ c2.length = 16 := by
  obtain ⟨o0, o, outs, rs1, rs2, v, e0, e', l1, l2, -, -⟩ := C78_aead_resumed h b [] ⟨by simp, by simp⟩ false false key hk nonce hn [[]] (by simp) [.cont x ⟨true, []⟩] [.cont y ⟨true, []⟩]
    (by simp [TextReq.Ok, hx]) (by simp) (by simp [TextReq.Ok, hy]) [.digestC ⟨true, []⟩ 16] [.digestC ⟨true, []⟩ 16] (by simp [AeadApie.Call.Ok, Spec.Aead.Ends]) (by simp)
    (by simp [AeadApie.Call.Ok, Spec.Aead.Ends])
  have ho : outs = [] := by
    have e0 : some (_, ([] : List AeadApie.Out)) = some (o0, outs) := e0
    exact (Prod.mk.inj (Option.some.inj e0)).2.symm
  subst ho
  obtain ⟨r1, rfl⟩ := single rs1 (by simpa using l2)
  obtain ⟨r2, rfl⟩ := single rs2 (by have := congrArg List.length l1; simp at this; omega)
  have l1 : r1.length = x.length ∧ r2.length = y.length := by simpa [Spec.Aead.text] using l1
  have len : ∀ m, (Spec.Aead.macOn h.endian key nonce m).length = 16 := fun m => by
    unfold Spec.Aead.macOn; rw [Poly1305.mac_eq, Forgery.leBytes_length]
  unfold seenTwice
  rw [List.nil_append] at e'
  rw [e']
  simp only [textOuts, List.zipWith_cons_cons, List.zipWith_nil_left, List.map_cons, List.map_nil, List.nil_append, List.cons_append, Spec.Aead.placed, if_true, Spec.Aead.ending, Spec.contained,
    Option.map_some, len, Forgery.leBytes_length, l1.2, hy]
  exact ⟨r1, _, r2, _, rfl, by rw [l1.2, hy]⟩

end Milo.Props
