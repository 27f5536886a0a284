import Verif.Proof.Aead
/- The values in terms of RFC 8439; sequences of calls on the class. -/
namespace Milo.Aead
open Memory ChaCha Cipher

theorem stream_S (key iv : List Byte) (i : Nat) : stream (S key iv) i = Spec.ChaCha.keyByte (Spec.padTo 32 key) 0 (Spec.padTo 12 iv) i := by
  have hl := padTo_length 12 iv
  have e : Spec.padTo 16 (civ iv) = civ iv := by
    unfold Spec.padTo; exact List.take_left' (by simp [civ, hl])
  unfold S
  rw [stream_init, e]
  unfold civ
  rw [List.drop_left' (by simp), List.take_left' (by simp)]
  rfl

theorem crypted_eq (key iv : List Byte) (e : Nat) (text : List Byte) :
    crypted key iv e text = Spec.ChaCha.cryptFrom (Spec.padTo 32 key) 1 (Spec.padTo 12 iv) e text := by
  unfold crypted streamed Spec.ChaCha.cryptFrom
  have : (fun i b => b ^^^ stream (S key iv) (64 + e + i)) = fun i b => b ^^^ Spec.ChaCha.keyByte (Spec.padTo 32 key) 1 (Spec.padTo 12 iv) (e + i) := by
    funext i b
    rw [stream_S]
    unfold Spec.ChaCha.keyByte
    rw [show (64 + e + i) % 64 = (e + i) % 64 by omega, show (64 + e + i) / 64 = 1 + (e + i) / 64 by omega, BitVec.ofNat_add]
    generalize BitVec.ofNat 32 ((e + i) / 64) = c
    have e0 : (0 : BitVec 32) + (BitVec.ofNat 32 1 + c) = 1 + c := BitVec.zero_add _
    rw [e0]
  rw [this]

theorem core_length (s : List W32) (hs : s.length = 16) : (Spec.ChaCha.core s).length = 64 := by
  have hl : (keyW s).length = 16 := by rw [keyW_length, hs]
  show ((keyW s).flatMap fun w => Spec.leBytes 4 w.toNat).length = 64
  rw [List.length_flatMap]
  have : (keyW s).map (fun w => (Spec.leBytes 4 w.toNat).length) = List.replicate 16 4 := by
    rw [← hl]
    exact List.eq_replicate_iff.mpr ⟨by simp, by simp [Spec.leBytes]⟩
  rw [this]; rfl

theorem block_length (key : List Byte) (c : BitVec 32) (nonce : List Byte) (hk : key.length = 32) (hn : nonce.length = 12) :
    (Spec.ChaCha.block key c nonce).length = 64 := by
  apply core_length
  unfold Spec.ChaCha.state
  rw [words_eq 8 key hk, words_eq 3 nonce hn]
  have h1 := ofImage_length .little 4 8 key
  have h2 := ofImage_length .little 4 3 nonce
  simp only [List.length_append, List.length_cons, List.length_nil, h1, h2]

theorem key32_eq (key iv : List Byte) : Spec.padTo 32 (macKey key iv) = Spec.Aead.oneTimeKey (Spec.padTo 32 key) (Spec.padTo 12 iv) := by
  have e : Spec.padTo 32 (macKey key iv) = (macKey key iv).take 32 := by
    unfold Spec.padTo
    rw [List.take_append_of_le_length (by rw [macKey_length]; omega)]
  rw [e]
  unfold Spec.Aead.oneTimeKey
  apply List.ext_getElem?
  intro i
  by_cases hi : i < 32
  · rw [List.getElem?_take_of_lt hi, List.getElem?_take_of_lt hi]
    unfold macKey streamed
    rw [List.getElem?_mapIdx, List.getElem?_eq_getElem (by simp; omega)]
    simp only [List.getElem_replicate, Option.map_some, Nat.zero_add, stream_S]
    unfold Spec.ChaCha.keyByte
    rw [Nat.div_eq_of_lt (by omega), Nat.mod_eq_of_lt (by omega), List.getD_eq_getElem?_getD]
    have hl := block_length (Spec.padTo 32 key) 0 (Spec.padTo 12 iv) (padTo_length _ _) (padTo_length _ _)
    have e0 : (0 : BitVec 32) + BitVec.ofNat 32 0 = 0 := rfl
    rw [e0, List.getElem?_eq_getElem (by omega), Option.getD_some, BitVec.zero_xor]
  · rw [List.getElem?_eq_none (by simp; omega), List.getElem?_eq_none (by simp; omega)]

theorem zeros_eq (x : List Byte) : zeros x.length = Spec.Aead.pad16 x := rfl

/-- The results for texts one after the other, `e` bytes of data having gone before. -/
def pieces (key iv : List Byte) : (e : Nat) → List (List Byte) → List (List Byte)
  | _, [] => []
  | e, t :: ts => crypted key iv e t :: pieces key iv (e + t.length) ts

theorem pieces_length (key iv : List Byte) (e : Nat) (ts : List (List Byte)) : (pieces key iv e ts).map List.length = ts.map List.length := by
  induction ts generalizing e with
  | nil => rfl
  | cons t ts ih => simp only [pieces, List.map_cons, ih, crypted_length]

theorem crypted_append (key iv : List Byte) (e : Nat) (a b : List Byte) :
    crypted key iv e (a ++ b) = crypted key iv e a ++ crypted key iv (e + a.length) b := by
  unfold crypted streamed
  have : (fun i x => x ^^^ stream (S key iv) (64 + e + (i + a.length))) = fun i x => x ^^^ stream (S key iv) (64 + (e + a.length) + i) := by
    funext i x
    rw [show 64 + e + (i + a.length) = 64 + (e + a.length) + i by omega]
  rw [List.mapIdx_append, this]

theorem pieces_flatten (key iv : List Byte) (e : Nat) (ts : List (List Byte)) : (pieces key iv e ts).flatten = crypted key iv e ts.flatten := by
  induction ts generalizing e with
  | nil => simp [pieces, crypted, streamed]
  | cons t ts ih => simp only [pieces, List.flatten_cons, ih, crypted_append]

theorem pieces_spec (key iv : List Byte) (ts : List (List Byte)) :
    Spec.Aead.Pieces (Spec.padTo 32 key) (Spec.padTo 12 iv) ts (pieces key iv 0 ts) :=
  ⟨pieces_length _ _ _ _, by rw [pieces_flatten, crypted_eq]; rfl⟩

variable (h : Host) {B : ChaCha.Backend} (LB : ChaCha.LawfulBackend B) {M : MacImpl} {F : List Byte → List Byte → List Byte} (L : LawfulMac M F)

theorem aads_holds (key iv : List Byte) (ads : List (List Byte)) (ha : ∀ x ∈ ads, x.length < 2 ^ 64) (o : Obj M) (m : List Byte) (a e : Nat)
    (hh : Holds B L key iv o m a e) :
    ∃ o', runCalls (exec h B) o (ads.map .aad) = some (o', []) ∧ Holds B L key iv o' (m ++ ads.flatten) (a + ads.flatten.length) e := by
  induction ads generalizing o m a with
  | nil => exact ⟨o, rfl, by simpa using hh⟩
  | cons x ads ih =>
    obtain ⟨o1, e1, h1⟩ := aad_holds L key iv o m a e hh x (ha x List.mem_cons_self)
    obtain ⟨o2, e2, h2⟩ := ih (fun y hy => ha y (List.mem_cons_of_mem _ hy)) o1 _ _ h1
    refine ⟨o2, by simp [runCalls, exec, e1, e2], ?_⟩
    simpa [List.append_assoc, Nat.add_assoc] using h2

/-- The call for a text. -/
def textCall (d : Bool) (s : Area) : Call := if d then .decrypt s else .encrypt s

theorem span_text_length (s : Area) (hs : s.Ok) : (Spec.Aead.text (.ptr s)).length = s.n := by
  have := hs.1.2.1
  simp [Spec.Aead.text]; omega

include LB in
theorem text_holds (d : Bool) (key iv : List Byte) (s : Area) (hs : s.Ok) (o : Obj M) (m : List Byte) (a e : Nat) (hh : Holds B L key iv o m a e) :
    ∃ o', exec h B o (textCall d s) = some (o', [(Spec.Aead.placed (crypted key iv e (Spec.Aead.text (.ptr s))) (.ptr s), s.n)]) ∧
      Holds B L key iv o' (m ++ if d then Spec.Aead.text (.ptr s) else crypted key iv e (Spec.Aead.text (.ptr s))) a (e + s.n) := by
  cases d
  · obtain ⟨o', e1, h1⟩ := encrypt_holds h LB L key iv o m a e hh s.mem s.src s.n s.dst hs.1 hs.2
    exact ⟨o', by simp [textCall, exec, e1, Spec.Aead.placed, Spec.Aead.text], h1⟩
  · obtain ⟨o', e1, h1⟩ := decrypt_holds h LB L key iv o m a e hh s.mem s.src s.n s.dst hs.1 hs.2
    exact ⟨o', by simp [textCall, exec, e1, Spec.Aead.placed, Spec.Aead.text], h1⟩

/-- Requests by pointer. -/
abbrev ptrs (ss : List Area) : List (List Byte) := ss.map fun s => Spec.Aead.text (.ptr s)

include LB in
theorem texts_holds (d : Bool) (key iv : List Byte) (ss : List Area) (hs : ∀ s ∈ ss, s.Ok) (o : Obj M) (m : List Byte) (a e : Nat)
    (hh : Holds B L key iv o m a e) :
    ∃ o', runCalls (exec h B) o (ss.map (textCall d)) = some (o', List.zipWith (fun s r => (Spec.Aead.placed r (.ptr s), r.length)) ss (pieces key iv e (ptrs ss))) ∧
      Holds B L key iv o' (m ++ if d then (ptrs ss).flatten else crypted key iv e (ptrs ss).flatten) a (e + (ptrs ss).flatten.length) := by
  induction ss generalizing o m e with
  | nil => refine ⟨o, rfl, ?_⟩; cases d <;> simpa [crypted, streamed] using hh
  | cons s ss ih =>
    have hl := span_text_length s (hs s List.mem_cons_self)
    obtain ⟨o1, e1, h1⟩ := text_holds h LB L d key iv s (hs s List.mem_cons_self) o m a e hh
    obtain ⟨o2, e2, h2⟩ := ih (fun y hy => hs y (List.mem_cons_of_mem _ hy)) o1 _ _ h1
    refine ⟨o2, ?_, ?_⟩
    · simp only [List.map_cons, runCalls, e1, e2, Option.bind_eq_bind, Option.bind_some, pieces, List.zipWith_cons_cons, crypted_length, hl]; rfl
    · rw [show e + (ptrs (s :: ss)).flatten.length = e + s.n + (ptrs ss).flatten.length by simp [ptrs, hl]; omega]
      have : (ptrs (s :: ss)).flatten = Spec.Aead.text (.ptr s) ++ (ptrs ss).flatten := by simp [ptrs]
      rw [this, crypted_append, hl]
      cases d <;> simpa [List.append_assoc] using h2

theorem digests_done (hds : M.digestSize = 16) (key iv : List Byte) (o : Obj M) (m : List Byte) (hd : Done L key iv o m) (ds : List (List Byte × Nat))
    (hdd : ∀ d ∈ ds, min d.2 16 ≤ d.1.length) :
    runCalls (exec h B) o (ds.map fun d => .digest d.1 d.2) = some (o, ds.map fun d => Spec.written (F (macKey key iv) m) d.1 d.2) := by
  induction ds with
  | nil => rfl
  | cons d ds ih =>
    have e := digest_done L key iv o m hd d.1 d.2 (by rw [hds]; exact hdd d List.mem_cons_self)
    simp [runCalls, exec, e, ih (fun y hy => hdd y (List.mem_cons_of_mem _ hy))]

/-- What the mac has been given at the end of: associated data, `aadover` (if `over`), data (`ct` being the ciphertext), `finalize`. -/
def transcript (over : Bool) (ad ct : List Byte) : List Byte :=
  ad ++ (if over then Spec.Aead.pad16 ad else []) ++ ct ++ Spec.Aead.pad16 ct ++ Spec.leBytes 8 ad.length ++ Spec.leBytes 8 ct.length

theorem transcript_spec (ad ct : List Byte) : transcript true ad ct = Spec.Aead.authenticated ad ct := rfl

theorem transcript_aligned (ad ct : List Byte) (ha : ad.length % 16 = 0) : transcript false ad ct = Spec.Aead.authenticated ad ct := by
  unfold transcript Spec.Aead.authenticated Spec.Aead.pad16
  simp [ha]

include LB in
/-- The whole sequence from an object that may be initialised. -/
theorem session_eq (hds : M.digestSize = 16) (d over : Bool) (key iv : List Byte) (o : Obj M) (ho : Base B L o) (ads : List (List Byte))
    (ha : ∀ x ∈ ads, x.length < 2 ^ 64) (ss : List Area) (hs : ∀ s ∈ ss, s.Ok) (ds : List (List Byte × Nat)) (hdd : ∀ d ∈ ds, min d.2 16 ≤ d.1.length) :
    ∃ o', runCalls (exec h B) o ([.init key iv] ++ ads.map .aad ++ (if over then [.aadover] else []) ++ ss.map (textCall d) ++ [.finalize] ++ ds.map fun d => .digest d.1 d.2)
      = some (o', List.zipWith (fun s r => (Spec.Aead.placed r (.ptr s), r.length)) ss (pieces key iv 0 (ptrs ss)) ++
          ds.map fun x => Spec.written (F (macKey key iv) (transcript over ads.flatten (if d then (ptrs ss).flatten else crypted key iv 0 (ptrs ss).flatten))) x.1 x.2) := by
  obtain ⟨o0, e0, h0⟩ := init_holds h LB L o ho key iv
  obtain ⟨o1, e1, h1⟩ := aads_holds h L key iv ads ha o0 _ _ _ h0
  have : ∃ o2, runCalls (exec h B) o1 (if over then [.aadover] else []) = some (o2, []) ∧
      Holds B L key iv o2 (ads.flatten ++ if over then Spec.Aead.pad16 ads.flatten else []) ads.flatten.length 0 := by
    cases over
    · exact ⟨o1, rfl, by simpa using h1⟩
    · obtain ⟨o2, e2, h2⟩ := aadover_holds L key iv o1 _ _ _ h1
      rw [Nat.zero_add, List.nil_append] at h2
      exact ⟨o2, by simp [runCalls, exec, e2], h2⟩
  obtain ⟨o2, e2, h2⟩ := this
  obtain ⟨o3, e3, h3⟩ := texts_holds h LB L d key iv ss hs o2 _ _ _ h2
  obtain ⟨o4, e4, h4, -⟩ := finalize_holds h L key iv o3 _ _ _ h3
  refine ⟨o4, ?_⟩
  have hl : (0 + (ptrs ss).flatten.length) = (if d then (ptrs ss).flatten else crypted key iv 0 (ptrs ss).flatten).length := by
    cases d <;> simp only [Bool.false_eq_true, if_true, if_false, crypted_length] <;> omega
  have et : (ads.flatten ++ (if over then Spec.Aead.pad16 ads.flatten else []) ++ (if d then (ptrs ss).flatten else crypted key iv 0 (ptrs ss).flatten) ++
      trailer ads.flatten.length (0 + (ptrs ss).flatten.length)) = transcript over ads.flatten (if d then (ptrs ss).flatten else crypted key iv 0 (ptrs ss).flatten) := by
    rw [hl]
    unfold trailer transcript
    rw [zeros_eq]
    simp only [List.append_assoc]
  rw [et] at h4
  have e5 := digests_done h (B := B) L hds key iv o4 _ h4 ds hdd
  have ei : runCalls (exec h B) o [.init key iv] = some (o0, []) := by simp [runCalls, exec, e0]
  have ef : runCalls (exec h B) o3 [.finalize] = some (o4, []) := by simp [runCalls, exec, e4]
  rw [runCalls_append, runCalls_append, runCalls_append, runCalls_append, runCalls_append, ei]
  simp only [Option.bind_some, Option.map_some, e1, e2, e3, ef, e5, List.nil_append, List.append_nil]

end Milo.Aead
