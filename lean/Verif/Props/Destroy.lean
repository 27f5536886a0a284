import Verif.Proof.Destroy
import Verif.Proof.Residue
import Verif.Props.Kdf
/-
Property theorems C47 (destructors) and C48 (local arrays).

`Spec.Wiped D o`: the destructor `D` of the class runs on `o`, and all bytes of the data members listed by `D.memory` are zero afterwards. What
`D.memory` lists: see Model/Destroy.lean; not listed are the counters of an aead object (`C47_aead_counters_remain`), addresses and sizes of the
ranges of caller memory a kdf object refers to, the state flags of the wrappers and padding.
-/
namespace Milo.Props
open Milo Spec

theorem wiped_hashApie {H : HashImpl} {D : Dtor H.σ} (o : HashApie.Obj H) (h : Wiped D o.impl) : Wiped (HashApie.dtor H D) o := by
  obtain ⟨i, e, z⟩ := h
  exact ⟨{ o with impl := i }, by simp [HashApie.dtor, e], z⟩

theorem wiped_macApie {M : MacImpl} {D : Dtor M.σ} (o : MacApie.Obj M) (h : Wiped D o.impl) : Wiped (MacApie.dtor M D) o := by
  obtain ⟨i, e, z⟩ := h
  exact ⟨{ o with impl := i }, by simp [MacApie.dtor, e], z⟩

/-- C47, hash classes: whatever was done with the object. -/
theorem C47_hash (h : Host) (a : ShaAlg) (ds : Nat) (hds : ds ≤ a.size) (cs : List Hash.Call) (hc : ∀ c ∈ cs, c.Ok ds) :
    ∃ o outs, Hash.run (a.impl h ds) cs = some (o, outs) ∧ Wiped (a.dtor h ds) o := by
  obtain ⟨L, w⟩ := shaWiped h a ds hds
  obtain ⟨o, outs, e, ho⟩ := Hash.run_wf L cs (by rwa [shaDigestSize])
  exact ⟨o, outs, e, w o ho⟩

/-- C47, hash wrapper (`u`: what `m_finalized` held before construction). -/
theorem C47_hash_apie (h : Host) (a : ShaAlg) (ds : Nat) (hds : ds ≤ a.size) (u : Bool) (cs : List HashApie.Call) (hc : ∀ c ∈ cs, c.Ok ds) :
    ∃ o outs, HashApie.run (a.impl h ds) u cs = some (o, outs) ∧ Wiped (HashApie.dtor _ (a.dtor h ds)) o := by
  obtain ⟨L, w⟩ := shaWiped h a ds hds
  obtain ⟨o, outs, e, ho⟩ := HashApie.run_wf L u cs (by rwa [shaDigestSize])
  exact ⟨o, outs, e, wiped_hashApie o (w _ ho)⟩

/-- C47, mac classes. -/
theorem C47_mac (h : Host) (a : MacAlg) (ha : a.Ok) (ds : Nat) (hds : ds ≤ a.size) (cs : List Mac.Call) (hc : ∀ c ∈ cs, c.Ok ds) :
    ∃ o outs, Mac.run (a.impl h ds) cs = some (o, outs) ∧ Wiped (a.dtor h ds) o := by
  obtain ⟨L, w⟩ := macWiped h a ha ds hds
  obtain ⟨o, outs, e, ho⟩ := Mac.run_wf L cs (by rwa [macDigestSize])
  exact ⟨o, outs, e, w o ho⟩

/-- C47, mac wrapper constructed with a key. -/
theorem C47_mac_apie (h : Host) (a : MacAlg) (ha : a.Ok) (ds : Nat) (hds : ds ≤ a.size) (key : List Byte) (hk : key.length < 2 ^ 64)
    (cs : List MacApie.Call) (hc : ∀ c ∈ cs, c.Ok ds) :
    ∃ o outs, MacApie.run (a.impl h ds) key cs = some (o, outs) ∧ Wiped (MacApie.dtor _ (a.dtor h ds)) o := by
  obtain ⟨L, w⟩ := macWiped h a ha ds hds
  obtain ⟨o, outs, e, ho⟩ := MacApie.run_good L key hk cs (by rwa [macDigestSize])
  exact ⟨o, outs, e, wiped_macApie o (w _ ho.1)⟩

/-- C47, `hkdf<hmac<H>>` (the wrapper holds nothing else). -/
theorem C47_hkdf (h : Host) (a : ShaAlg) (ds : Nat) (h0 : 0 < ds) (hds : ds ≤ a.size) (sizes : Nat → Nat) (m : Mem) (hm : Kdf.MemOk sizes m)
    (cs : List (Kdf.Call Hkdf.Args)) (hc : ∀ c ∈ cs, Kdf.Call.Ok (hkdfClass h a ds) sizes c) :
    ∃ s outs, Kdf.run (hkdfClass h a ds) m cs = some (s, outs) ∧ Wiped (Hkdf.dtor h _ (MacAlg.dtor h ds (.hmac a a.size))) s.1 := by
  obtain ⟨L, w⟩ := macWiped h (.hmac a a.size) (Nat.le_refl _) ds hds
  have hd := macDigestSize h (.hmac a a.size) ds
  have hb := size_bounds a
  obtain ⟨s, outs, e, ho, -⟩ := Kdf.runCalls_wf (Hkdf.lawful h L (by rw [hd]; omega) (by rw [hd]; omega)) sizes (_, m) cs
    ⟨(Hkdf.lawful h L (by rw [hd]; omega) (by rw [hd]; omega)).fresh sizes, hm⟩ hc
  exact ⟨s, outs, e, Hkdf.wiped h L _ w sizes s.1 ho⟩

/-- C47, `pbkdf_2<hmac<H>>`. -/
theorem C47_pbkdf2 (h : Host) (junk : Nat → Byte) (a : ShaAlg) (ds : Nat) (h0 : 0 < ds) (hds : ds ≤ a.size) (sizes : Nat → Nat) (m : Mem)
    (hm : Kdf.MemOk sizes m) (cs : List (Kdf.Call Pbkdf2.Args)) (hc : ∀ c ∈ cs, Kdf.Call.Ok (pbkdf2Class h junk a ds) sizes c) :
    ∃ s outs, Kdf.run (pbkdf2Class h junk a ds) m cs = some (s, outs) ∧ Wiped (Pbkdf2.dtor h _ (MacAlg.dtor h ds (.hmac a a.size))) s.1 := by
  obtain ⟨L, w⟩ := macWiped h (.hmac a a.size) (Nat.le_refl _) ds hds
  have hd := macDigestSize h (.hmac a a.size) ds
  have hb := size_bounds a
  obtain ⟨s, outs, e, ho, -⟩ := Kdf.runCalls_wf (Pbkdf2.lawful h junk L (by rw [hd]; omega) (by rw [hd]; omega)) sizes (_, m) cs
    ⟨(Pbkdf2.lawful h junk L (by rw [hd]; omega) (by rw [hd]; omega)).fresh sizes, hm⟩ hc
  exact ⟨s, outs, e, Pbkdf2.wiped h L _ w sizes s.1 ho⟩

/-- C47, cipher (the wrapper holds nothing else), any implementation. -/
theorem C47_cipher (h : Host) (b : CipherBackend) (cs : List Cipher.Call) (hc : ∀ c ∈ cs, c.Ok) :
    ∃ o outs, Cipher.run h (b.impl h) cs = some (o, outs) ∧ Wiped (ChaCha.dtor h) o := by
  obtain ⟨o, outs, e, ho⟩ := Cipher.run_wf h (backendLawful h b) cs hc
  exact ⟨o, outs, e, ChaCha.wiped h _ o ho⟩

/-- C47, aead class: cipher and mac (`Aead.dtor` counts only their memory). Missing: the two counters of the class itself (`C47_aead_counters_remain`). -/
theorem C47_aead_partial (h : Host) (b : CipherBackend) (cs : List Aead.Call) (hc : Aead.Begun cs) :
    ∃ o outs, Aead.run h b cs = some (o, outs) ∧ Wiped (Aead.dtor h (Aead.poly h) (Poly1305.dtor h)) o := by
  obtain ⟨o, outs, e, ho⟩ := Aead.run_base h (backendLawful h b) (Aead.L h) rfl cs hc
  obtain ⟨o', e', z, -⟩ := Aead.wiped h _ (Aead.L h) (Poly1305.dtor h) (fun o w => Poly1305.wiped h o w) o ho
  exact ⟨o, outs, e, o', e', z⟩

/-- C47, aead wrapper (missing: as for the class). -/
theorem C47_aead_apie_partial (h : Host) (b : CipherBackend) (cs : List AeadApie.Call) (hc : AeadApie.Begun cs) :
    ∃ o outs, AeadApie.run h b cs = some (o, outs) ∧ Wiped (AeadApie.dtor h (Aead.poly h) (Poly1305.dtor h)) o := by
  obtain ⟨o, outs, e, ho⟩ := AeadApie.run_base h (backendLawful h b) (Aead.L h) rfl cs hc
  obtain ⟨o', e', z, -⟩ := Aead.wiped h _ (Aead.L h) (Poly1305.dtor h) (fun o w => Poly1305.wiped h o w) o.impl ho
  exact ⟨o, outs, e, { o with impl := o' }, by simp [AeadApie.dtor, e'], z⟩

/-- C47 fails for the counters of an aead object: the size of the associated data is still there after the destructor. -/
theorem C47_aead_counters_remain (h : Host) (b : CipherBackend) (key iv ad : List Byte) (h0 : ad ≠ []) (h1 : ad.length < 2 ^ 64) :
    ∃ o o' bs, Aead.run h b [.init key iv, .aad ad] = some (o, []) ∧ (Aead.dtor h (Aead.poly h) (Poly1305.dtor h)).destroy o = some o' ∧
      Aead.counters h o' = some bs ∧ ∃ x ∈ bs, x ≠ 0#8 := by
  obtain ⟨o1, e1, r1⟩ := Aead.init_holds h (backendLawful h b) (Aead.L h) (Aead.fresh _) (Aead.fresh_base (backendLawful h b) (Aead.L h)) key iv
  obtain ⟨o2, e2, r2⟩ := Aead.aad_holds (Aead.L h) key iv o1 _ _ _ r1 ad h1
  obtain ⟨o', e', -, ha, he⟩ := Aead.wiped h _ (Aead.L h) (Poly1305.dtor h) (fun o w => Poly1305.wiped h o w) o2 r2.wf.1
  refine ⟨o2, o', _, by simp [Aead.run, runCalls, Aead.exec, e1, e2], e', by simp only [Aead.counters, ha, he, r2.aad, r2.edd]; rfl, ?_⟩
  apply Classical.byContradiction
  intro hx
  have hz : ∀ x ∈ Memory.toBytes h.endian (n := 8) (BitVec.ofNat 64 (0 + ad.length)), x = 0#8 := fun x hm =>
    Classical.byContradiction fun hn => hx ⟨x, List.mem_append_left _ hm, hn⟩
  have hl := Memory.toBytes_length h.endian (n := 8) (BitVec.ofNat 64 (0 + ad.length))
  have hr := List.eq_replicate_iff.2 ⟨hl, hz⟩
  have h8 := List.eq_replicate_iff.2 ⟨Memory.toBytes_length h.endian (n := 8) (0 : BitVec 64), toBytes_zero h.endian 8⟩
  have h5 := congrArg BitVec.toNat (Memory.toBytes_inj h.endian (n := 8) (hr.trans h8.symm))
  have : ad.length ≠ 0 := fun h => h0 (List.length_eq_zero_iff.1 h)
  rw [BitVec.toNat_ofNat, Nat.zero_add, Nat.mod_eq_of_lt (by omega)] at h5
  exact this h5

/-! ## C48 -/

/-- C48 fails for aead `initialize`: whatever was done with the object before, and for every key and nonce, the one-time key of RFC 8439 2.6 is left in the
local array `init_mac_key`. (`initLeft` is `initialize` together with that array; `Aead.initLeft_fst`.) -/
theorem C48_aead_key_left_wrong (h : Host) (b : CipherBackend) (pre : List Aead.Call) (hp : Aead.Begun pre) (key iv : List Byte) :
    ∃ o outs o' left, Aead.run h b pre = some (o, outs) ∧ Aead.init h (b.impl h) o key iv = some o' ∧
      Aead.initLeft h (b.impl h) o key iv = some (o', left) ∧ left.take 32 = Spec.Aead.oneTimeKey (Spec.padTo 32 key) (Spec.padTo 12 iv) := by
  obtain ⟨o, outs, e, ho⟩ := Aead.run_base h (backendLawful h b) (Aead.L h) rfl pre hp
  obtain ⟨o', e'⟩ := Aead.initLeft_eq h (backendLawful h b) (Aead.L h) o ho key iv
  have := Aead.initLeft_fst h (b.impl h) o key iv
  rw [e'] at this
  exact ⟨o, outs, o', _, e, this.symm, e', Aead.macKey_take key iv⟩

/-- C48 fails for PBKDF2: each block of the derived key is left in the local array `buffer_1` of `expand`. -/
theorem C48_pbkdf2_key_left_wrong (h : Host) (junk : Nat → Byte) (a : ShaAlg) (sizes : Nat → Nat) (m : Mem) (hm : Kdf.MemOk sizes m)
    (ikm salt : Span) (it : W32) (hit : 0 < it.toNat) (hs : ∀ s ∈ [ikm, salt], s.size ≤ sizes s.buf ∧ s.size < 2 ^ 64) (c : W32)
    (dst : List Byte) (hd : a.size ≤ dst.length) :
    ∃ s o' out b0 left, Kdf.run (pbkdf2Class h junk a a.size) m [.init ⟨ikm, salt, it⟩] = some (s, []) ∧
      Pbkdf2.expand h _ junk m s.1 dst c = some (o', out) ∧ Pbkdf2.expandLeft h _ junk m s.1 dst c = some ((o', out), b0, left) ∧
      left = Spec.pbkdf2T (hmacSpec a) (bytesOf m ikm) (bytesOf m salt) c.toNat it.toNat ∧ left = out.take a.size := by
  obtain ⟨M⟩ := hmacDefault h a
  have hb := size_bounds a
  have hdz := macDigestSize h (.hmac a a.size) a.size
  simp only [List.mem_cons, List.not_mem_nil, or_false, forall_eq_or_imp, forall_eq] at hs
  obtain ⟨v, ev, -, bv, -⟩ := View.make_some h sizes m ikm hm hs.1
  obtain ⟨u, eu, -, bu, -⟩ := View.make_some h sizes m salt hm hs.2
  have ei : Pbkdf2.init h (MacAlg.impl h a.size (.hmac a a.size)) (pbkdf2Class h junk a a.size).fresh m ⟨ikm, salt, it⟩
      = some { (pbkdf2Class h junk a a.size).fresh with ikm := v, salt := u, iterations := it, counter := 1, bufferSize := 0 } := by
    simp only [Pbkdf2.init, ev, eu, Option.bind_eq_bind, Option.bind_some, Option.pure_def]
  obtain ⟨o', b0, e'⟩ := Pbkdf2.expandLeft_eq h junk M (by rw [hdz]; omega) m
    { (pbkdf2Class h junk a a.size).fresh with ikm := v, salt := u, iterations := it, counter := 1, bufferSize := 0 } dst c _ _ M.fresh bv
    (by simp [Hkdf.val]; omega) bu (by simp [Hkdf.val]; omega) (by rw [hdz]; exact hd)
  have e2 := Pbkdf2.expandLeft_fst h (MacAlg.impl h a.size (.hmac a a.size)) junk m
    { (pbkdf2Class h junk a a.size).fresh with ikm := v, salt := u, iterations := it, counter := 1, bufferSize := 0 } dst c
  rw [e'] at e2
  have ht : Pbkdf2.T (hmacSpec a) (Hkdf.val m ikm) (Hkdf.val m salt) it c = Spec.pbkdf2T (hmacSpec a) (bytesOf m ikm) (bytesOf m salt) c.toNat it.toNat := by
    unfold Pbkdf2.T
    rw [show it.toNat - 1 + 1 = it.toNat by omega]
    rfl
  refine ⟨(_, m), o', _, b0, _, ?_, e2.symm, e', ht, ?_⟩
  · have ei' : (pbkdf2Class h junk a a.size).init (pbkdf2Class h junk a a.size).fresh m ⟨ikm, salt, it⟩ = _ := ei
    simp only [Kdf.run, runCalls, Kdf.exec, ei']
    rfl
  · exact (List.take_left' (l₁ := Pbkdf2.T (hmacSpec a) (Hkdf.val m ikm) (Hkdf.val m salt) it c) ((Pbkdf2.T_length' M _ _ _ _).trans hdz)).symm

/-- C48 fails for the portable ChaCha20: after `initialize`, a call of `transform` leaves the key in the local array `state_base`. -/
theorem C48_chacha_key_left_wrong (h : Host) (key iv mem : List Byte) (n dst src : Nat) (r : Nat × List Byte) :
    ∃ o, Cipher.run h (ChaCha.sw h) [.init key iv] = some (o, []) ∧
      ((ChaCha.sw h).transform n o.state mem dst src = some r →
        ∃ left, ChaCha.swTransformLeft h n o.state mem dst src = some (r, left) ∧ (left.drop 4).take 8 = Spec.ChaCha.words (Spec.padTo 32 key)) := by
  refine ⟨⟨ChaCha.initState key iv, ChaCha.fresh.buffer, 0⟩, ?_, fun e => ⟨_, ChaCha.swTransformLeft_eq h n _ mem dst src (ChaCha.initState_length _ _) r e, ?_⟩⟩
  · simp only [Cipher.run, runCalls, Cipher.exec]
    rw [ChaCha.init_eq h _ key iv List.length_replicate]
    rfl
  · have hk : (Spec.ChaCha.words (Spec.padTo 32 key)).length = 8 := by
      rw [ChaCha.words_eq 8 _ (by simp [Spec.padTo]), Memory.ofImage_length]
    simp only [ChaCha.ctr, ChaCha.initState, Spec.ChaCha.state]
    have hk4 : ([0x61707865, 0x3320646e, 0x79622d32, 0x6b206574] : List (BitVec 32)).length = 4 := rfl
    generalize Spec.ChaCha.words (Spec.padTo 32 key) = w at hk ⊢
    generalize ([0x61707865, 0x3320646e, 0x79622d32, 0x6b206574] : List (BitVec 32)) = k4 at hk4 ⊢
    rw [List.append_assoc, List.append_assoc, List.set_append_right _ _ (by rw [hk4]; omega), List.drop_left' hk4, List.set_append_right _ _ (by rw [hk4, hk]),
      List.take_left' hk]

/-! ## Non-vacuity -/

/-- Before its destructor an object does hold its key. -/
example : ∃ o outs, Mac.run (MacAlg.impl ⟨.little, false, none⟩ 16 .poly_1305) [.init [0xff, 0xff]] = some (o, outs) ∧
    0xff#8 ∈ (Poly1305.dtor ⟨.little, false, none⟩).memory o := by
  refine ⟨_, _, rfl, ?_⟩
  decide +kernel

example : ∃ r, (ChaCha.sw ⟨.little, false, none⟩).transform 1 (ChaCha.initState [1, 2, 3] [4]) (List.replicate 128 0) 64 0 = some r := by
  obtain ⟨d, e, -⟩ := (ChaCha.sw_lawful ⟨.little, false, none⟩).transform 1 (ChaCha.initState [1, 2, 3] [4]) (List.replicate 128 0) 64 0
    (ChaCha.initState_length _ _) (.inr (.inl (by decide))) (by rw [List.length_replicate]; decide) (by rw [List.length_replicate]; decide)
  exact ⟨_, e⟩

end Milo.Props
