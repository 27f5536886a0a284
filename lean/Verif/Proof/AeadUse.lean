import Verif.Proof.AeadApie
import Verif.Proof.MacAlg
/- Sessions with ChaCha20 and Poly1305. -/
namespace Milo.Aead
open Memory ChaCha Cipher

/-- The laws of the mac. -/
def L (h : Host) : LawfulMac (poly h) (Poly1305.F h 16) := Poly1305.lawful h 16 (by omega)

theorem polyF (h : Host) (key iv m : List Byte) :
    Poly1305.F h 16 (macKey key iv) m = Spec.Aead.macOn h.endian (Spec.padTo 32 key) (Spec.padTo 12 iv) m := by
  rw [polyF_eq]
  simp only [Spec.macOn, Spec.Aead.macOn, key32_eq]
  apply List.take_of_length_le
  simp [Spec.Poly1305.mac, Spec.leBytes]

theorem session (h : Host) (b : CipherBackend) (pre : List Call) (hp : Begun pre) (d over : Bool) (key iv : List Byte) (ads : List (List Byte))
    (ha : ∀ x ∈ ads, x.length < 2 ^ 64) (ss : List Area) (hs : ∀ s ∈ ss, s.Ok) (ds : List (List Byte × Nat)) (hdd : ∀ d ∈ ds, min d.2 16 ≤ d.1.length) :
    ∃ o outs, run h b (pre ++ ([.init key iv] ++ ads.map .aad ++ (if over then [.aadover] else []) ++ ss.map (textCall d) ++ [.finalize] ++
        ds.map fun d => .digest d.1 d.2))
      = some (o, outs ++ (List.zipWith (fun s r => (Spec.Aead.placed r (.ptr s), r.length)) ss (pieces key iv 0 (ptrs ss)) ++
          ds.map fun x => Spec.written (Spec.Aead.macOn h.endian (Spec.padTo 32 key) (Spec.padTo 12 iv)
            (transcript over ads.flatten (if d then (ptrs ss).flatten else crypted key iv 0 (ptrs ss).flatten))) x.1 x.2)) := by
  obtain ⟨o, outs, e, hb⟩ := run_base h (backendLawful h b) (L h) rfl pre hp
  obtain ⟨o', e'⟩ := session_eq h (backendLawful h b) (L h) rfl d over key iv o hb ads ha ss hs ds hdd
  refine ⟨o', outs, ?_⟩
  unfold run
  rw [runCalls_append, e]
  simp only [Option.bind_some, e', Option.map_some, polyF]

end Milo.Aead

namespace Milo.AeadApie
open Memory ChaCha Cipher Aead

/-- What the mac has been given at the end of: associated data, data (`ct` being the ciphertext; `some`: at least one call), more associated data, the end. -/
def lateTranscript (some : Bool) (ad ct ad2 : List Byte) : List Byte :=
  ad ++ (if some then Spec.Aead.pad16 ad else []) ++ ct ++ ad2 ++ Spec.Aead.trailer (ad ++ ad2).length ct.length

theorem late_nil (ad ct : List Byte) : lateTranscript true ad ct [] = Spec.Aead.authenticated ad ct := by
  unfold lateTranscript Spec.Aead.trailer Spec.Aead.authenticated Spec.Aead.pad16
  simp only [List.append_nil, List.append_assoc, if_true]

theorem late_none (ad : List Byte) (ha : ad.length % 16 = 0) : lateTranscript false ad [] [] = Spec.Aead.authenticated ad [] := by
  unfold lateTranscript Spec.Aead.trailer Spec.Aead.authenticated Spec.Aead.pad16
  simp [ha]

theorem crypt_eq (key iv t : List Byte) : crypted key iv 0 t = Spec.Aead.crypt (Spec.padTo 32 key) (Spec.padTo 12 iv) t := crypted_eq key iv 0 t

/-- The ciphertext of texts. -/
def ciphertext (d : Bool) (key iv t : List Byte) : List Byte := if d then t else Spec.Aead.crypt (Spec.padTo 32 key) (Spec.padTo 12 iv) t

theorem session (h : Host) (b : CipherBackend) (pre : List Call) (hp : Begun pre) (d : Bool) (key iv : List Byte) (ads : List (List Byte))
    (ha : ∀ x ∈ ads, x.length < 2 ^ 64) (ts : List TextReq) (ht : ∀ t ∈ ts, t.Ok) (ads2 : List (List Byte)) (ha2 : ∀ x ∈ ads2, x.length < 2 ^ 64)
    (cs : List Call) (hc : ∀ c ∈ cs, c.Ok ∧ Spec.Aead.Ends c) :
    ∃ o0 o outs, run h b pre = some (o0, outs) ∧ run h b (pre ++ ([.init key iv] ++ ads.map .aad ++ ts.map (.text d) ++ ads2.map .aad ++ cs))
      = some (o, outs ++ (List.zipWith (fun t r => .bytes (Spec.Aead.placed r t) r.length) ts (pieces key iv 0 (bodies ts)) ++
          cs.map (Spec.Aead.ending (Spec.Aead.macOn h.endian (Spec.padTo 32 key) (Spec.padTo 12 iv)
            (lateTranscript (!ts.isEmpty) ads.flatten (ciphertext d key iv (bodies ts).flatten) ads2.flatten))))) := by
  obtain ⟨o, outs, e, hb⟩ := run_base h (backendLawful h b) (L h) rfl pre hp
  obtain ⟨o0, e0, h0⟩ := init_st h (backendLawful h b) (L h) o hb key iv
  obtain ⟨o1, e1, h1⟩ := aads_st h (L h) key iv ads ha o0 _ _ _ _ h0
  obtain ⟨o2, e2, h2⟩ := texts_st' h (backendLawful h b) (L h) d false key iv ts ht o1 _ _ _ h1
  obtain ⟨o3, e3, h3⟩ := aads_st h (L h) key iv ads2 ha2 o2 _ _ _ _ h2
  obtain ⟨o4, e4⟩ := ends_ready h (L h) rfl key iv o3 _ (.inl ⟨_, _, _, _, h3, rfl⟩) cs hc
  refine ⟨o, o4, outs, e, ?_⟩
  have ei : runCalls (exec h (b.impl h)) o [.init key iv] = some (o0, []) := by simp [runCalls, exec, e0]
  have et : ([] ++ ads.flatten ++ (if ts = [] then [] else gap false (0 + ads.flatten.length)) ++
      (if d = true then (bodies ts).flatten else crypted key iv 0 (bodies ts).flatten) ++ ads2.flatten) ++
      Aead.trailer (0 + ads.flatten.length + ads2.flatten.length) (0 + (bodies ts).flatten.length)
      = lateTranscript (!ts.isEmpty) ads.flatten (ciphertext d key iv (bodies ts).flatten) ads2.flatten := by
    unfold lateTranscript ciphertext Aead.trailer Spec.Aead.trailer gap
    rw [crypt_eq, ← crypt_eq]
    have hl : (if d = true then (bodies ts).flatten else crypted key iv 0 (bodies ts).flatten).length = (bodies ts).flatten.length := by
      cases d <;> simp [crypted_length]
    have hz : (if ts = [] then [] else if false = true then [] else zeros (0 + ads.flatten.length)) = if (!ts.isEmpty) = true then Spec.Aead.pad16 ads.flatten else [] := by
      rw [Nat.zero_add, zeros_eq]
      cases ts <;> rfl
    rw [hz, hl]
    simp only [List.nil_append, Nat.zero_add, List.length_append, List.append_assoc, zeros]
    rfl
  rw [et] at e4
  unfold run
  rw [runCalls_append, e]
  simp only [Option.bind_some]
  rw [runCalls_append, runCalls_append, runCalls_append, runCalls_append, ei]
  simp only [Option.bind_some, Option.map_some, e1, e2, e3, e4, List.nil_append, List.append_nil, polyF]

/-! ### Free functions -/

/-- The state after construction and one `aad`. -/
theorem begun (h : Host) (b : CipherBackend) (key iv ad : List Byte) (ha : ad.length < 2 ^ 64) :
    ∃ o0 o1, construct h (b.impl h) (poly h) key iv = some o0 ∧ aad o0 ad = some o1 ∧ St (b.impl h) (L h) key iv o1 ad ad.length 0 false := by
  obtain ⟨o0, e0, h0⟩ := init_st h (backendLawful h b) (L h) (constructDefault (poly h)) (base_default (backendLawful h b) (L h)) key iv
  obtain ⟨o1, e1, h1⟩ := aad_st (L h) key iv o0 _ _ _ _ h0 ad ha
  exact ⟨o0, o1, e0, e1, by simpa using h1⟩

/-- The tag that comes out. -/
def tagOn (h : Host) (key iv ad ct : List Byte) : List Byte :=
  Spec.Aead.macOn h.endian (Spec.padTo 32 key) (Spec.padTo 12 iv) (Spec.Aead.authenticated ad ct)

theorem ready_of (h : Host) (B : ChaCha.Backend) (key iv ad ct : List Byte) (o : Obj (poly h))
    (hs : St B (L h) key iv o (ad ++ gap false ad.length ++ ct) ad.length ct.length true) :
    Ready B (L h) key iv o (Spec.Aead.authenticated ad ct) := by
  refine .inl ⟨_, _, _, _, hs, ?_⟩
  unfold Spec.Aead.authenticated Aead.trailer gap
  simp only [Bool.false_eq_true, if_false, zeros_eq, List.append_assoc]

theorem F_tagOn (h : Host) (key iv ad ct : List Byte) : Poly1305.F h 16 (macKey key iv) (Spec.Aead.authenticated ad ct) = tagOn h key iv ad ct := polyF _ _ _ _

theorem tagOn_length (h : Host) (key iv ad ct : List Byte) : (tagOn h key iv ad ct).length = 16 := by
  simp [tagOn, Spec.Aead.macOn, Spec.Poly1305.mac, Spec.leBytes]

theorem sealPtr_eq (h : Host) (b : CipherBackend) (key iv ad : List Byte) (ha : ad.length < 2 ^ 64) (s : Area) (hs : s.Ok) (dig : List Byte) (hd : 16 ≤ dig.length) :
    sealPtr h b key iv ad s dig = some (Spec.Aead.placed (crypted key iv 0 (Spec.Aead.text (.ptr s))) (.ptr s),
      tagOn h key iv ad (crypted key iv 0 (Spec.Aead.text (.ptr s))) ++ dig.drop 16, s.n, 16) := by
  obtain ⟨o0, o1, e0, e1, h1⟩ := begun h b key iv ad ha
  obtain ⟨o2, e2, h2⟩ := ptr_st h (backendLawful h b) (L h) false key iv o1 _ _ _ _ h1 s.mem s.src s.n s.dst hs.1 hs.2
  simp only [Bool.false_eq_true, if_false] at e2 h2
  have hl := crypted_length key iv 0 ((s.mem.drop s.src).take s.n)
  have ht : ((s.mem.drop s.src).take s.n).length = s.n := span_text_length s hs
  rw [show 0 + s.n = (crypted key iv 0 ((s.mem.drop s.src).take s.n)).length by omega] at h2
  obtain ⟨o3, e3, -⟩ := digest_ready h (L h) key iv o2 _ (ready_of h _ key iv ad _ o2 h2) dig 16 (by simpa [poly, Poly1305.impl] using hd)
  rw [F_tagOn] at e3
  unfold sealPtr
  simp only [e0, e1, e2, e3, Option.bind_eq_bind, Option.bind_some, Spec.written]
  have h16 := tagOn_length h key iv ad (crypted key iv 0 ((s.mem.drop s.src).take s.n))
  rw [List.take_of_length_le (l := tagOn h key iv ad _) (by omega), h16]
  rfl

theorem sealC_eq (h : Host) (b : CipherBackend) (key iv ad : List Byte) (ha : ad.length < 2 ^ 64) (x : List Byte) (tgt dig : Container)
    (hok : (TextReq.cont x tgt).Ok) :
    ∃ c, sealC h b key iv ad x tgt dig = some (c, (Spec.contained (tagOn h key iv ad (crypted key iv 0 x)) dig 16).1, x.length,
        (Spec.contained (tagOn h key iv ad (crypted key iv 0 x)) dig 16).2) ∧
      c.data = Spec.Aead.placed (crypted key iv 0 x) (.cont x tgt) ∧ c.dynamic = tgt.dynamic := by
  obtain ⟨o0, o1, e0, e1, h1⟩ := begun h b key iv ad ha
  obtain ⟨o2, c, e2, e2', e2'', h2⟩ := cont_st h (backendLawful h b) (L h) false key iv o1 _ _ _ _ h1 x tgt hok
  simp only [Bool.false_eq_true, if_false] at e2 h2
  have hl := crypted_length key iv 0 x
  rw [show 0 + x.length = (crypted key iv 0 x).length by omega] at h2
  obtain ⟨o3, e3, -⟩ := digestC_ready h (L h) key iv o2 _ (ready_of h _ key iv ad _ o2 h2) dig 16
  rw [F_tagOn] at e3
  refine ⟨c, ?_, e2', e2''⟩
  unfold sealC
  simp only [e0, e1, e2, e3, Option.bind_eq_bind, Option.bind_some]; rfl

theorem sealValue_eq (h : Host) (b : CipherBackend) (key iv ad : List Byte) (ha : ad.length < 2 ^ 64) (x : List Byte) (hx : x.length < 2 ^ 64) :
    sealValue h b key iv ad x = some (⟨true, crypted key iv 0 x⟩, ⟨false, tagOn h key iv ad (crypted key iv 0 x)⟩) := by
  obtain ⟨o0, o1, e0, e1, h1⟩ := begun h b key iv ad ha
  obtain ⟨o2, c, e2, e2', e2'', h2⟩ := cont_st h (backendLawful h b) (L h) false key iv o1 _ _ _ _ h1 x ⟨true, []⟩ ⟨by simp, hx⟩
  simp only [Bool.false_eq_true, if_false] at e2 h2
  have hl := crypted_length key iv 0 x
  rw [show 0 + x.length = (crypted key iv 0 x).length by omega] at h2
  obtain ⟨o3, e3, -⟩ := digestStatic_ready h (L h) key iv o2 _ (ready_of h _ key iv ad _ o2 h2)
  rw [F_tagOn] at e3
  have ec : c = ⟨true, crypted key iv 0 x⟩ := by
    cases c; simp only [Spec.Aead.placed, if_true] at e2' e2''; rw [e2', e2'']
  unfold sealValue encryptValue
  have e3' : digestStatic h o2 (List.replicate 16 0) = some (o3, ⟨false, tagOn h key iv ad (crypted key iv 0 x)⟩) := e3
  simp only [e0, e1, e2, e3', Option.bind_eq_bind, Option.bind_some, Option.pure_def, ec]

theorem verifyAny_eq (h : Host) (B : ChaCha.Backend) (hasError : Bool) (key iv : List Byte) (o : Obj (poly h)) (m : List Byte) (ho : Ready B (L h) key iv o m) (tag : List Byte) :
    verifyAny h hasError o tag = some (if hasError then .returned (verdict (Poly1305.F h 16 (macKey key iv) m) tag)
      else if tag = Poly1305.F h 16 (macKey key iv) m then .returned .none else .thrown .aeadVerify) := by
  unfold verifyAny
  cases hasError
  · obtain ⟨o', e, -⟩ := verifyThrow_ready h (L h) key iv o m ho tag
    simp only [Bool.false_eq_true, if_false, e, Option.bind_eq_bind, Option.bind_some]
    by_cases ht : tag = Poly1305.F h 16 (macKey key iv) m <;> simp [ht]
  · obtain ⟨o', e, -⟩ := verify_ready h (L h) key iv o m ho tag
    simp only [if_true, e, Option.bind_eq_bind, Option.bind_some]; rfl

theorem sized_reported (hasError : Bool) (n : Nat) (t tag : List Byte) :
    sized n (if hasError then .returned (verdict t tag) else if tag = t then .returned .none else .thrown .aeadVerify)
      = Spec.Aead.reported hasError (decide (tag = t)) n := by
  unfold Spec.Aead.reported verdict
  cases hasError <;> by_cases ht : tag = t <;> simp [ht, sized]

theorem openPtr_eq (h : Host) (b : CipherBackend) (hasError : Bool) (key iv ad : List Byte) (ha : ad.length < 2 ^ 64) (s : Area) (hs : s.Ok) (tag : List Byte) :
    openPtr h b hasError key iv ad s tag = some (Spec.Aead.placed (crypted key iv 0 (Spec.Aead.text (.ptr s))) (.ptr s),
      leave (!hasError) (Spec.Aead.reported hasError (decide (tag = tagOn h key iv ad (Spec.Aead.text (.ptr s)))) s.n)) := by
  obtain ⟨o0, o1, e0, e1, h1⟩ := begun h b key iv ad ha
  obtain ⟨o2, e2, h2⟩ := ptr_st h (backendLawful h b) (L h) true key iv o1 _ _ _ _ h1 s.mem s.src s.n s.dst hs.1 hs.2
  simp only [if_true] at e2 h2
  have ht : ((s.mem.drop s.src).take s.n).length = s.n := span_text_length s hs
  rw [show 0 + s.n = ((s.mem.drop s.src).take s.n).length by omega] at h2
  have e3 := verifyAny_eq h (b.impl h) hasError key iv o2 _ (ready_of h _ key iv ad _ o2 h2) tag
  rw [F_tagOn] at e3
  unfold openPtr
  simp only [e0, e1, e2, e3, Option.bind_eq_bind, Option.bind_some, sized_reported]; rfl

theorem openC_eq (h : Host) (b : CipherBackend) (hasError : Bool) (key iv ad : List Byte) (ha : ad.length < 2 ^ 64) (x tag : List Byte) (tgt : Container)
    (hok : (TextReq.cont x tgt).Ok) :
    ∃ c, openC h b hasError key iv ad x tag tgt = some (c,
        leave (!hasError && !tgt.dynamic) (Spec.Aead.reported hasError (decide (tag = tagOn h key iv ad x)) x.length)) ∧
      c.data = Spec.Aead.placed (crypted key iv 0 x) (.cont x tgt) := by
  obtain ⟨o0, o1, e0, e1, h1⟩ := begun h b key iv ad ha
  obtain ⟨o2, c, e2, e2', e2'', h2⟩ := cont_st h (backendLawful h b) (L h) true key iv o1 _ _ _ _ h1 x tgt hok
  simp only [if_true] at e2 h2
  rw [show 0 + x.length = x.length by omega] at h2
  have e3 := verifyAny_eq h (b.impl h) hasError key iv o2 _ (ready_of h _ key iv ad _ o2 h2) tag
  rw [F_tagOn] at e3
  refine ⟨c, ?_, e2'⟩
  unfold openC
  simp only [e0, e1, e2, e3, Option.bind_eq_bind, Option.bind_some, sized_reported, e2'']; rfl

theorem openValue_eq (h : Host) (b : CipherBackend) (hasError : Bool) (key iv ad : List Byte) (ha : ad.length < 2 ^ 64) (x tag : List Byte) (hx : x.length < 2 ^ 64) :
    openValue h b hasError key iv ad x tag = some (Spec.Aead.reported hasError (decide (tag = tagOn h key iv ad x)) (crypted key iv 0 x)) := by
  obtain ⟨o0, o1, e0, e1, h1⟩ := begun h b key iv ad ha
  obtain ⟨o2, c, e2, e2', e2'', h2⟩ := cont_st h (backendLawful h b) (L h) true key iv o1 _ _ _ _ h1 x ⟨true, []⟩ ⟨by simp, hx⟩
  simp only [if_true] at e2 h2
  rw [show 0 + x.length = x.length by omega] at h2
  have e3 := verifyAny_eq h (b.impl h) hasError key iv o2 _ (ready_of h _ key iv ad _ o2 h2) tag
  rw [F_tagOn] at e3
  simp only [Spec.Aead.placed, if_true] at e2'
  unfold openValue decryptValue
  simp only [e0, e1, e2, e3, Option.bind_eq_bind, Option.bind_some, Option.pure_def, Spec.Aead.reported, verdict, e2']
  cases hasError <;> by_cases ht : tag = tagOn h key iv ad x <;> simp [ht]

end Milo.AeadApie
