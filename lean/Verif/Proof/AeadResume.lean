import Verif.Proof.AeadUse
import Verif.Proof.PolyResumeUse
/- AEAD objects that are given text after a tag was taken or verified. -/
namespace Milo

/-- The same mac class with the other member functions replaced by trivial ones: text only needs `update`. -/
def MacImpl.other (M : MacImpl) (s : M.σ) : MacImpl :=
  { σ := M.σ, fresh := s, keySize := M.keySize, digestSize := M.digestSize, init := fun _ _ => some s, update := M.update, finalize := some,
    digest := fun _ dst n => some (Spec.written (List.replicate M.digestSize 0) dst n) }

theorem other_lawful (M : MacImpl) (s : M.σ) (P : M.σ → List Byte → Prop) (hs : P s []) (hu : ∀ i y x, P i y → ∃ i', M.update i x = some i' ∧ P i' (y ++ x)) :
    ∃ L : LawfulMac (M.other s) (fun _ _ => List.replicate M.digestSize 0), ∀ (i : M.σ) k y, L.Rep i k y ↔ P i y := by
  refine ⟨{ Wf := fun i => ∃ y, P i y, Rep := fun i _ y => P i y, Fin := fun i _ _ => ∃ y, P i y, fresh := ⟨[], hs⟩, rep_wf := fun i _ y h => ⟨y, h⟩, fin_wf := fun i _ _ h => h,
            init := fun _ _ _ _ => ⟨s, rfl, hs⟩, update_wf := ?_, update := fun i _ m x h _ => hu i m x h, finalize_wf := fun o h => ⟨o, rfl, h⟩, finalize := fun o _ m h => ⟨o, rfl, m, h⟩,
            digest_wf := ?_, digest := ?_, length := fun _ _ => ?_ }, fun _ _ _ => Iff.rfl⟩
  · rintro o x ⟨y, h⟩
    obtain ⟨i', e, h'⟩ := hu o y x h
    exact ⟨i', e, _, h'⟩
  · intro o dst n _ hn
    have hn : min n M.digestSize ≤ dst.length := hn
    refine ⟨(Spec.written (List.replicate M.digestSize 0) dst n).1, ?_, ?_⟩
    · simp only [MacImpl.other, Spec.written, List.length_replicate]
    · simp only [Spec.written, List.length_append, List.length_take, List.length_drop, List.length_replicate]
      omega
  · intro o k m dst n _ hn
    simp only [MacImpl.other, Spec.written, List.length_replicate]
    congr 3
    rw [List.take_replicate, List.take_replicate]
    congr 1
    omega
  · simp [MacImpl.other]

namespace Aead

variable {M : MacImpl} {s : M.σ}

def back (o : Obj (M.other s)) : Obj M := ⟨o.cipher, o.mac, o.aadSize, o.eddSize⟩

theorem aadover_back (o : Obj (M.other s)) : aadover (back o) = (aadover o).map back := by
  obtain ⟨c, m, a, e⟩ := o
  unfold aadover updatePad
  cases a with
  | none => rfl
  | some a =>
    simp only [back, Option.bind_eq_bind, Option.bind_some, Option.pure_def]
    cases rdN (List.replicate 16 0#8) 0 ((16 - a.toNat % 16) &&& 15) with
    | none => rfl
    | some z =>
      simp only [Option.bind_some]
      show (M.update m z).bind _ = Option.map _ ((M.update m z).bind _)
      cases M.update m z <;> rfl

variable (h : Host) (B : ChaCha.Backend)

theorem encrypt_back (o : Obj (M.other s)) (mem : List Byte) (src n dst : Nat) :
    encrypt h B (back o) mem src n dst = (encrypt h B o mem src n dst).map fun r => (back r.1, r.2) := by
  obtain ⟨c, m, a, e⟩ := o
  unfold encrypt
  simp only [back, Option.bind_eq_bind, Option.pure_def]
  cases ChaCha.encrypt h B c mem src n dst with
  | none => rfl
  | some r =>
    obtain ⟨c', mem', size⟩ := r
    simp only [Option.bind_some]
    cases rdN mem' dst size with
    | none => rfl
    | some x =>
      simp only [Option.bind_some]
      show (M.update m x).bind _ = Option.map _ ((M.update m x).bind _)
      cases M.update m x with
      | none => rfl
      | some i => cases e <;> rfl

theorem decrypt_back (o : Obj (M.other s)) (mem : List Byte) (src n dst : Nat) :
    decrypt h B (back o) mem src n dst = (decrypt h B o mem src n dst).map fun r => (back r.1, r.2) := by
  obtain ⟨c, m, a, e⟩ := o
  unfold decrypt
  simp only [back, Option.bind_eq_bind, Option.pure_def]
  cases rdN mem src n with
  | none => rfl
  | some x =>
    simp only [Option.bind_some]
    show (M.update m x).bind _ = Option.map _ ((M.update m x).bind _)
    cases M.update m x with
    | none => rfl
    | some i =>
      simp only [Option.bind_some]
      cases ChaCha.decrypt h B c mem src n dst with
      | none => rfl
      | some r => cases e <;> rfl

end Aead

namespace AeadApie
open Memory ChaCha Cipher Aead

variable {M : MacImpl} {s : M.σ}

def back (f : Option Bool) (o : Obj (M.other s)) : Obj M := ⟨Aead.back o.impl, o.finalizedAad, f⟩

theorem aadOver_back (f : Option Bool) (o : Obj (M.other s)) : doFinalizeAad (back f o) = (doFinalizeAad o).map (back f) := by
  obtain ⟨i, fa, fi⟩ := o
  unfold doFinalizeAad
  cases fa with
  | none => rfl
  | some x =>
    cases x with
    | true => rfl
    | false =>
      simp only [back, Aead.aadover_back]
      cases Aead.aadover i <;> rfl

variable (h : Host) (B : ChaCha.Backend)

theorem encrypt_back (f : Option Bool) (o : Obj (M.other s)) (mem : List Byte) (src n dst : Nat) :
    encrypt h B (back f o) mem src n dst = (encrypt h B o mem src n dst).map fun r => (back f r.1, r.2) := by
  unfold encrypt
  rw [aadOver_back]
  cases doFinalizeAad o with
  | none => rfl
  | some o1 =>
    simp only [Option.map_some, Option.bind_eq_bind, Option.bind_some, back, Aead.encrypt_back]
    cases Aead.encrypt h B o1.impl mem src n dst <;> rfl

theorem decrypt_back (f : Option Bool) (o : Obj (M.other s)) (mem : List Byte) (src n dst : Nat) :
    decrypt h B (back f o) mem src n dst = (decrypt h B o mem src n dst).map fun r => (back f r.1, r.2) := by
  unfold decrypt
  rw [aadOver_back]
  cases doFinalizeAad o with
  | none => rfl
  | some o1 =>
    simp only [Option.map_some, Option.bind_eq_bind, Option.bind_some, back, Aead.decrypt_back]
    cases Aead.decrypt h B o1.impl mem src n dst <;> rfl

theorem text_back (f : Option Bool) (d : Bool) (o : Obj (M.other s)) (t : TextReq) : text h B d (back f o) t = (text h B d o t).map fun r => (back f r.1, r.2) := by
  cases t with
  | ptr a =>
    cases d
    · exact encrypt_back h B f o _ _ _ _
    · exact decrypt_back h B f o _ _ _ _
  | cont x tgt =>
    cases d
    · simp only [text, Bool.false_eq_true, if_false, encryptC, encrypt_back, Option.bind_eq_bind]
      cases encrypt h B o (x ++ (tgt.resize x.length).1.data) 0 x.length x.length <;> rfl
    · simp only [text, if_true, decryptC, decrypt_back, Option.bind_eq_bind]
      cases decrypt h B o (x ++ (tgt.resize x.length).1.data) 0 x.length x.length <;> rfl
  | self c =>
    cases d
    · simp only [text, Bool.false_eq_true, if_false, encryptSelf, encrypt_back, Option.bind_eq_bind]
      cases encrypt h B o (c.resize c.data.length).1.data 0 (c.resize c.data.length).1.data.length 0 <;> rfl
    · simp only [text, if_true, decryptSelf, decrypt_back, Option.bind_eq_bind]
      cases decrypt h B o (c.resize c.data.length).1.data 0 (c.resize c.data.length).1.data.length 0 <;> rfl

theorem texts_back (f : Option Bool) (d : Bool) (ts : List TextReq) (o : Obj (M.other s)) :
    runCalls (exec h B) (back f o) (ts.map (.text d)) = (runCalls (exec h B) o (ts.map (.text d))).map fun r => (back f r.1, r.2) := by
  induction ts generalizing o with
  | nil => rfl
  | cons t ts ih =>
    simp only [List.map_cons, runCalls, exec, text_back, Option.bind_eq_bind, Option.pure_def]
    cases text h B d o t with
    | none => rfl
    | some r =>
      obtain ⟨o1, c, n⟩ := r
      simp only [Option.map_some, Option.bind_some, ih]
      cases runCalls (exec h B) o1 (ts.map (.text d)) <;> rfl

/-! ### The end of a finalized object -/

theorem end_pre (o o1 : Obj M) (e : doFinalize h o = some o1) (hf : o1.finalized = some true) (c : Call) (hc : Spec.Aead.Ends c) : exec h B o c = exec h B o1 c := by
  have e1 : doFinalize h o1 = some o1 := by unfold doFinalize; rw [hf]
  cases c with
  | init => exact hc.elim
  | aad => exact hc.elim
  | text => exact hc.elim
  | digest dst n => simp only [exec, digest, e, e1]
  | digestC c n => simp only [exec, digestC, e, e1]
  | verify tag => simp only [exec, verify, digestStatic, digestC, e, e1]
  | verifyThrow tag => simp only [exec, verifyThrow, verify, digestStatic, digestC, e, e1]

theorem end_final (hds : M.digestSize = 16) (o : Obj M) (hf : o.finalized = some true) (full : List Byte) (hl : full.length = 16)
    (hd : ∀ dst n, min n 16 ≤ dst.length → M.digest o.impl.mac dst n = some (Spec.written full dst n)) (c : Call) (hok : c.Ok) (hc : Spec.Aead.Ends c) :
    exec h B o c = some (o, [Spec.Aead.ending full c]) := by
  have e1 : doFinalize h o = some o := by unfold doFinalize; rw [hf]
  have dc : ∀ (c : Container) n, digestC h o c n = some (o, Spec.contained full c n) := by
    intro c n
    have h1 := HashApie.resize_fits c (min n 16)
    have e2 := hd (c.resize (min n 16)).1.data (c.resize (min n 16)).2 (by omega)
    have e3 := contained_resize full 16 hl c n
    simp only [digestC, digest, Aead.digest, e1, hds, e2, Option.bind_eq_bind, Option.bind_some, Option.pure_def]
    rw [e3]
  have st : digestStatic h o (List.replicate M.digestSize 0) = some (o, ⟨false, full⟩) := by
    simp only [digestStatic, dc, Option.bind_eq_bind, Option.bind_some, Spec.contained, Spec.written, Bool.false_eq_true, if_false, List.length_replicate, hds, hl, Nat.min_self, Option.pure_def]
    rw [List.take_of_length_le (by omega), List.drop_of_length_le (by rw [List.length_replicate]), List.append_nil]
  have ve : ∀ tag, verify h o tag = some (o, verdict full tag) := fun tag => by
    simp only [verify, st, Option.bind_eq_bind, Option.bind_some, matchC_bytes, verdict, decide_eq_true_eq, @eq_comm _ tag]; rfl
  cases c with
  | init => exact hc.elim
  | aad => exact hc.elim
  | text => exact hc.elim
  | digest dst n =>
    have hok : min n 16 ≤ dst.length := hok
    simp [exec, digest, Aead.digest, e1, hd dst n hok, Spec.Aead.ending]
  | digestC c n => simp [exec, dc, Spec.Aead.ending]
  | verify tag => simp [exec, ve, Spec.Aead.ending, verdict]
  | verifyThrow tag =>
    simp only [exec, verifyThrow, ve, Option.bind_eq_bind, Option.bind_some, Spec.Aead.ending, verdict]
    by_cases ht : tag = full <;> simp [ht]

theorem ends_final (hds : M.digestSize = 16) (o : Obj M) (hf : o.finalized = some true) (full : List Byte) (hl : full.length = 16)
    (hd : ∀ dst n, min n 16 ≤ dst.length → M.digest o.impl.mac dst n = some (Spec.written full dst n)) (cs : List Call) (hc : ∀ c ∈ cs, c.Ok ∧ Spec.Aead.Ends c) :
    runCalls (exec h B) o cs = some (o, cs.map (Spec.Aead.ending full)) := by
  induction cs with
  | nil => rfl
  | cons c cs ih =>
    have ih := ih fun c m => hc c (List.mem_cons_of_mem _ m)
    have e := end_final h B hds o hf full hl hd c (hc c List.mem_cons_self).1 (hc c List.mem_cons_self).2
    simp only [runCalls, e, ih, Option.bind_eq_bind, Option.bind_some, Option.pure_def, List.map_cons, List.singleton_append]

/-! ### Poly1305 -/

theorem finalize_resumed (b : CipherBackend) (key iv : List Byte) (o : Obj (poly h)) (m : List Byte) (a e : Nat) (hs : St (b.impl h) (L h) key iv o m a e true) :
    ∃ o', doFinalize h o = some o' ∧ o'.finalized = some true ∧ o'.finalizedAad = some true ∧ ChaCha.Rep (b.impl h) (Aead.S key iv) o'.impl.cipher (64 + e) ∧
      o'.impl.aadSize = some (BitVec.ofNat 64 a) ∧ o'.impl.eddSize = some (BitVec.ofNat 64 e) ∧
      Poly1305.Resumed h o'.impl.mac (Aead.macKey key iv) (m ++ Aead.trailer a e) [] ∧ (L h).Fin o'.impl.mac (Aead.macKey key iv) (m ++ Aead.trailer a e) := by
  have hh := hs.holds
  obtain ⟨m1, e1, r1⟩ := Aead.updatePad_eq (L h) o.impl m _ hh.mac e
  have hl : ∀ n, (Spec.leBytes 8 n).length = 8 := fun n => by simp [Spec.leBytes]
  obtain ⟨m2, e2, r2⟩ := (L h).update m1 _ _ (Spec.leBytes 8 a ++ Spec.leBytes 8 e) r1 (by simp [hl])
  obtain ⟨m3, e3, r3⟩ := Poly1305.finalize_resumed h m2 (Aead.macKey key iv) _ r2
  obtain ⟨m3', e3', f3⟩ := (L h).finalize m2 _ _ r2
  have : some m3' = some m3 := e3'.symm.trans e3
  cases this
  have et : m ++ Aead.zeros e ++ (Spec.leBytes 8 a ++ Spec.leBytes 8 e) = m ++ Aead.trailer a e := by simp [Aead.trailer, List.append_assoc]
  rw [et] at r3 f3
  have ef : Aead.finalize h o.impl = some { o.impl with mac := m3 } := by
    simp only [Aead.finalize, hh.aad, hh.edd, Option.bind_eq_bind, Option.bind_some, e1, Aead.lengths_eq, e2, e3']; rfl
  refine ⟨⟨{ o.impl with mac := m3 }, o.finalizedAad, some true⟩, ?_, rfl, hs.over, hh.cipher, hh.aad, hh.edd, r3, f3⟩
  unfold doFinalize
  rw [hs.fin]
  simp only [ef, Option.bind_eq_bind, Option.bind_some, Option.pure_def]

/-- Text given to a finalized object. -/
theorem texts_resumed (b : CipherBackend) (d : Bool) (key iv k m : List Byte) (o : Obj (poly h)) (a e : Nat) (hf : o.finalized = some true) (ha : o.finalizedAad = some true)
    (hc : ChaCha.Rep (b.impl h) (Aead.S key iv) o.impl.cipher (64 + e)) (h1 : o.impl.aadSize = some (BitVec.ofNat 64 a)) (h2 : o.impl.eddSize = some (BitVec.ofNat 64 e))
    (hm : Poly1305.Resumed h o.impl.mac k m []) (ts : List TextReq) (ht : ∀ t ∈ ts, t.Ok) :
    ∃ o', runCalls (exec h (b.impl h)) o (ts.map (.text d))
        = some (o', List.zipWith (fun t r => .bytes (Spec.Aead.placed r t) r.length) ts (Aead.pieces key iv e (bodies ts))) ∧ o'.finalized = some true ∧
      Poly1305.Resumed h o'.impl.mac k m (if d then (bodies ts).flatten else Aead.crypted key iv e (bodies ts).flatten) := by
  obtain ⟨L', hL⟩ := other_lawful (poly h) o.impl.mac (fun i y => Poly1305.Resumed h i k m y) hm (fun i y x => Poly1305.update_resumed h i k m y x)
  have st : St (b.impl h) L' key iv (⟨⟨o.impl.cipher, o.impl.mac, o.impl.aadSize, o.impl.eddSize⟩, o.finalizedAad, some false⟩ : Obj ((poly h).other o.impl.mac)) [] a e true :=
    ⟨⟨hc, (hL _ _ _).mpr hm, h1, h2⟩, ha, rfl⟩
  obtain ⟨o', e', s'⟩ := texts_st h (backendLawful h b) L' d key iv ts ht _ _ _ _ st
  have hb := texts_back h (b.impl h) (some true) d ts (⟨⟨o.impl.cipher, o.impl.mac, o.impl.aadSize, o.impl.eddSize⟩, o.finalizedAad, some false⟩ : Obj ((poly h).other o.impl.mac))
  rw [e'] at hb
  have eo : back (some true) (⟨⟨o.impl.cipher, o.impl.mac, o.impl.aadSize, o.impl.eddSize⟩, o.finalizedAad, some false⟩ : Obj ((poly h).other o.impl.mac)) = o := by
    obtain ⟨⟨_, _, _, _⟩, _, _⟩ := o
    simp only [] at hf
    subst hf
    rfl
  rw [eo] at hb
  exact ⟨_, hb, rfl, (hL _ _ _).mp s'.holds.mac⟩

theorem seen_one (h : Host) (key iv : List Byte) :
    Poly1305.seen h.endian (macKey key iv)
      = (match h.endian with
          | .little => Spec.Aead.oneTimeKey (Spec.padTo 32 key) (Spec.padTo 12 iv)
          | .big => Spec.swapWords (Spec.Aead.oneTimeKey (Spec.padTo 32 key) (Spec.padTo 12 iv))) := by
  unfold Poly1305.seen
  cases h.endian with
  | little => simp only; rw [Memory.image_ofImage _ _ _ _ (by simp), fit_padTo, key32_eq]
  | big => simp only; rw [image_swap _ _ (by simp), fit_padTo, key32_eq]

/-- A session, an end, more text, and another end. -/
theorem resumed_session (b : CipherBackend) (pre : List Call) (hp : Begun pre) (d d2 : Bool) (key iv : List Byte) (ads : List (List Byte))
    (ha : ∀ x ∈ ads, x.length < 2 ^ 64) (ts us : List TextReq) (ht : ∀ t ∈ ts, t.Ok) (hne : ts ≠ []) (hu : ∀ t ∈ us, t.Ok)
    (cs1 cs2 : List Call) (hc1 : ∀ c ∈ cs1, c.Ok ∧ Spec.Aead.Ends c) (hc1' : cs1 ≠ []) (hc2 : ∀ c ∈ cs2, c.Ok ∧ Spec.Aead.Ends c) :
    ∃ o0 o outs v, run h b pre = some (o0, outs) ∧
      Spec.Resume.PolyResumed (Poly1305.seen h.endian (macKey key iv)) (Spec.Aead.authenticated ads.flatten (ciphertext d key iv (bodies ts).flatten))
        (if d2 then (bodies us).flatten else Aead.crypted key iv (bodies ts).flatten.length (bodies us).flatten) v ∧
      run h b (pre ++ ([.init key iv] ++ ads.map .aad ++ ts.map (.text d) ++ cs1 ++ us.map (.text d2) ++ cs2))
      = some (o, outs ++ (List.zipWith (fun t r => .bytes (Spec.Aead.placed r t) r.length) ts (Aead.pieces key iv 0 (bodies ts)) ++
          cs1.map (Spec.Aead.ending (tagOn h key iv ads.flatten (ciphertext d key iv (bodies ts).flatten))) ++
          List.zipWith (fun t r => .bytes (Spec.Aead.placed r t) r.length) us (Aead.pieces key iv (bodies ts).flatten.length (bodies us)) ++
          cs2.map (Spec.Aead.ending (Spec.leBytes 16 (v % 2 ^ 128))))) := by
  obtain ⟨o, outs, e, hb⟩ := run_base h (backendLawful h b) (L h) rfl pre hp
  obtain ⟨o0, e0, h0⟩ := init_st h (backendLawful h b) (L h) o hb key iv
  obtain ⟨o1, e1, h1⟩ := aads_st h (L h) key iv ads ha o0 _ _ _ _ h0
  obtain ⟨o2, e2, h2⟩ := texts_st' h (backendLawful h b) (L h) d false key iv ts ht o1 _ _ _ h1
  have hfl : (false || !ts.isEmpty) = true := by cases ts with | nil => exact absurd rfl hne | cons _ _ => rfl
  rw [hfl] at h2
  obtain ⟨o3, e3, f3, g3, c3, a3, d3, r3, n3⟩ := finalize_resumed h b key iv o2 _ _ _ h2
  have et : ([] ++ ads.flatten ++ (if ts = [] then [] else gap false (0 + ads.flatten.length)) ++
      (if d = true then (bodies ts).flatten else crypted key iv 0 (bodies ts).flatten)) ++
      Aead.trailer (0 + ads.flatten.length) (0 + (bodies ts).flatten.length)
      = Spec.Aead.authenticated ads.flatten (ciphertext d key iv (bodies ts).flatten) := by
    unfold ciphertext Aead.trailer Spec.Aead.authenticated gap
    rw [if_neg hne, ← crypt_eq]
    have hl : (if d = true then (bodies ts).flatten else crypted key iv 0 (bodies ts).flatten).length = (bodies ts).flatten.length := by
      cases d <;> simp [crypted_length]
    rw [hl]
    simp only [Bool.false_eq_true, if_false, zeros_eq, List.nil_append, Nat.zero_add, List.append_assoc, Spec.Aead.pad16, hl]
    rfl
  rw [et] at r3 n3
  rw [Nat.zero_add] at d3 c3
  obtain ⟨o4, e4, f4, r4⟩ := texts_resumed h b d2 key iv _ _ o3 _ _ f3 g3 c3 a3 d3 r3 us hu
  obtain ⟨v, hv, ev⟩ := Poly1305.resumed_value h _ _ _ _ r4
  refine ⟨o, o4, outs, v, e, hv, ?_⟩
  have ei : runCalls (exec h (b.impl h)) o [.init key iv] = some (o0, []) := by simp [runCalls, exec, e0]
  have q1 : runCalls (exec h (b.impl h)) o2 cs1 = some (o3, cs1.map (Spec.Aead.ending (tagOn h key iv ads.flatten (ciphertext d key iv (bodies ts).flatten)))) := by
    have q := ends_final h (b.impl h) rfl o3 f3 _ (tagOn_length h key iv ads.flatten (ciphertext d key iv (bodies ts).flatten)) (fun dst n hn => by
      rw [← F_tagOn]; exact Mac.digest_written (L h) _ _ _ dst n n3 hn) cs1 hc1
    cases cs1 with
    | nil => exact absurd rfl hc1'
    | cons c cs =>
      rw [← q]
      simp only [runCalls]
      rw [end_pre h (b.impl h) o2 o3 e3 f3 c (hc1 c List.mem_cons_self).2]
  have q2 : runCalls (exec h (b.impl h)) o4 cs2 = some (o4, cs2.map (Spec.Aead.ending (Spec.leBytes 16 (v % 2 ^ 128)))) :=
    ends_final h (b.impl h) rfl o4 f4 _ (by simp [Spec.leBytes]) (fun dst n hn => by
      rw [← ev]
      have t := Poly1305.digest_wf_eq h 16 (by omega) o4.impl.mac r4.wf dst n hn
      rw [List.take_of_length_le (by simp [Spec.leBytes])] at t
      exact t) cs2 hc2
  unfold run
  rw [runCalls_append, e]
  simp only [Option.bind_some]
  rw [runCalls_append, runCalls_append, runCalls_append, runCalls_append, runCalls_append, ei]
  simp only [Option.bind_some, Option.map_some, e1, e2, q1, e4, q2, List.nil_append, List.append_nil, List.append_assoc]

end AeadApie
end Milo
