import Verif.Proof.AeadUse
/-
Property theorems C35-C41, C52, the AEAD part of C34 and C49.

`Aead.run h b calls` is a default-constructed object of the class `aead::chacha_20_poly_1305` on host `h` with cipher backend `b` and a sequence of calls;
`AeadApie.run` the same for the wrapper `apie`. `sealPtr`, `sealC`, `sealValue`, `openPtr`, `openC`, `openValue` are the one-shot `encrypt` and `decrypt`
functions. `none` would be undefined behaviour. `Begun pre`: allowed calls, the first of which, if any, is `initialize` (the counters and flags of a
default-constructed object are indeterminate until then). The specification is RFC 8439 section 2.8 (Spec/Aead.lean).

On big-endian hosts the mac is wrong (C24); theorems about the RFC tag are for little-endian hosts, theorems that do not mention it are for all.
-/
namespace Milo.Props
open Milo

/-- A session on the class: `initialize`, `aad` for each of `ads`, `aadover` (if `over`), `encrypt` (if `d`: `decrypt`) for each of `ss`, `finalize`, and `digest`
for each of `ds`. -/
def aeadCalls (over d : Bool) (key iv : List Byte) (ads : List (List Byte)) (ss : List Area) (ds : List (List Byte × Nat)) : List Aead.Call :=
  [.init key iv] ++ ads.map .aad ++ (if over then [.aadover] else []) ++ ss.map (fun s => if d then .decrypt s else .encrypt s) ++ [.finalize] ++
    ds.map fun d => .digest d.1 d.2

/-- A session on `apie`: `initialize`, `aad` for each of `ads`, `encrypt` (if `d`: `decrypt`) for each of `ts`, then `aad` for each of `late`, then the calls `cs`. -/
def apieCalls (d : Bool) (key iv : List Byte) (ads : List (List Byte)) (ts : List TextReq) (late : List (List Byte)) (cs : List AeadApie.Call) :
    List AeadApie.Call := [.init key iv] ++ ads.map .aad ++ ts.map (.text d) ++ late.map .aad ++ cs

/-- The texts put together. -/
def allText (ts : List TextReq) : List Byte := (ts.map Spec.Aead.text).flatten

/-- The ciphertext of a session: the texts if they are being decrypted, otherwise their encryption. -/
def cipherOf (d : Bool) (key nonce text : List Byte) : List Byte := if d then text else Spec.Aead.crypt key nonce text

/-- Outputs of text calls: each result where the caller wants it, and its size. -/
def textOuts (ts : List TextReq) (rs : List (List Byte)) : List AeadApie.Out := List.zipWith (fun t r => .bytes (Spec.Aead.placed r t) r.length) ts rs

theorem padTo_id (n : Nat) (x : List Byte) (hx : x.length = n) : Spec.padTo n x = x := by
  unfold Spec.padTo; exact List.take_left' hx

theorem macOn_little (h : Host) (hh : h.endian = .little) (key nonce ad ct : List Byte) :
    Spec.Aead.macOn h.endian key nonce (Spec.Aead.authenticated ad ct) = Spec.Aead.tag key nonce ad ct := by rw [hh]; rfl

theorem ends_one {c : AeadApie.Call} (h1 : c.Ok) (h2 : Spec.Aead.Ends c) : ∀ x ∈ [c], AeadApie.Call.Ok x ∧ Spec.Aead.Ends x := by
  intro x hx
  rw [List.mem_singleton] at hx
  exact hx ▸ ⟨h1, h2⟩

theorem smalls : ∀ x ∈ ([] : List (List Byte)), x.length < 2 ^ 64 := by simp

/-- The general form, for every host, and keys and nonces of any length (padded with zeros or cut). -/
theorem aead_class (h : Host) (b : CipherBackend) (pre : List Aead.Call) (hp : Aead.Begun pre) (over d : Bool) (key iv : List Byte) (ads : List (List Byte))
    (ha : ∀ x ∈ ads, x.length < 2 ^ 64) (ss : List Area) (hs : ∀ s ∈ ss, s.Ok) (ds : List (List Byte × Nat)) (hd : ∀ d ∈ ds, min d.2 16 ≤ d.1.length) :
    ∃ o outs rs, Aead.run h b (pre ++ aeadCalls over d key iv ads ss ds)
        = some (o, outs ++ (List.zipWith (fun s r => (Spec.Aead.placed r (.ptr s), r.length)) ss rs ++
            ds.map fun x => Spec.written (Spec.Aead.macOn h.endian (Spec.padTo 32 key) (Spec.padTo 12 iv)
              (Aead.transcript over ads.flatten (cipherOf d (Spec.padTo 32 key) (Spec.padTo 12 iv) (allText (ss.map .ptr))))) x.1 x.2)) ∧
      Spec.Aead.Pieces (Spec.padTo 32 key) (Spec.padTo 12 iv) ((ss.map .ptr).map Spec.Aead.text) rs := by
  obtain ⟨o, outs, e⟩ := Aead.session h b pre hp d over key iv ads ha ss hs ds hd
  have ep : Aead.ptrs ss = (ss.map .ptr).map Spec.Aead.text := by simp [Aead.ptrs]
  refine ⟨o, outs, Aead.pieces key iv 0 (Aead.ptrs ss), ?_, ?_⟩
  · rw [AeadApie.crypt_eq, ep] at e
    rw [ep]
    exact e
  · rw [ep]; exact Aead.pieces_spec key iv _

theorem aead_apie (h : Host) (b : CipherBackend) (pre : List AeadApie.Call) (hp : AeadApie.Begun pre) (d : Bool) (key iv : List Byte) (ads : List (List Byte))
    (ha : ∀ x ∈ ads, x.length < 2 ^ 64) (ts : List TextReq) (ht : ∀ t ∈ ts, t.Ok) (late : List (List Byte)) (hl : ∀ x ∈ late, x.length < 2 ^ 64)
    (cs : List AeadApie.Call) (hc : ∀ c ∈ cs, c.Ok ∧ Spec.Aead.Ends c) :
    ∃ o outs rs, AeadApie.run h b (pre ++ apieCalls d key iv ads ts late cs)
        = some (o, outs ++ (textOuts ts rs ++ cs.map (Spec.Aead.ending (Spec.Aead.macOn h.endian (Spec.padTo 32 key) (Spec.padTo 12 iv)
            (AeadApie.lateTranscript (!ts.isEmpty) ads.flatten (cipherOf d (Spec.padTo 32 key) (Spec.padTo 12 iv) (allText ts)) late.flatten))))) ∧
      Spec.Aead.Pieces (Spec.padTo 32 key) (Spec.padTo 12 iv) (ts.map Spec.Aead.text) rs := by
  obtain ⟨-, o, outs, -, e⟩ := AeadApie.session h b pre hp d key iv ads ha ts ht late hl cs hc
  exact ⟨o, outs, Aead.pieces key iv 0 (AeadApie.bodies ts), e, Aead.pieces_spec key iv _⟩

/-- On a new object. -/
theorem aead_apie_new (h : Host) (b : CipherBackend) (d : Bool) (key iv : List Byte) (ads : List (List Byte))
    (ha : ∀ x ∈ ads, x.length < 2 ^ 64) (ts : List TextReq) (ht : ∀ t ∈ ts, t.Ok) (late : List (List Byte)) (hl : ∀ x ∈ late, x.length < 2 ^ 64)
    (cs : List AeadApie.Call) (hc : ∀ c ∈ cs, c.Ok ∧ Spec.Aead.Ends c) :
    ∃ o rs, AeadApie.run h b (apieCalls d key iv ads ts late cs)
        = some (o, textOuts ts rs ++ cs.map (Spec.Aead.ending (Spec.Aead.macOn h.endian (Spec.padTo 32 key) (Spec.padTo 12 iv)
            (AeadApie.lateTranscript (!ts.isEmpty) ads.flatten (cipherOf d (Spec.padTo 32 key) (Spec.padTo 12 iv) (allText ts)) late.flatten)))) ∧
      Spec.Aead.Pieces (Spec.padTo 32 key) (Spec.padTo 12 iv) (ts.map Spec.Aead.text) rs := by
  obtain ⟨o0, o, outs, e0, e⟩ := AeadApie.session h b [] ⟨by simp, by simp⟩ d key iv ads ha ts ht late hl cs hc
  have : outs = [] := by
    have e1 : AeadApie.run h b [] = some (_, []) := rfl
    rw [e1] at e0
    exact ((Prod.mk.inj (Option.some.inj e0)).2).symm
  subst this
  exact ⟨o, Aead.pieces key iv 0 (AeadApie.bodies ts), e, Aead.pieces_spec key iv _⟩

/-- Lists with the same lengths and the same concatenation are the same. -/
theorem pieces_unique {l1 l2 : List (List Byte)} (h1 : l1.map List.length = l2.map List.length) (h2 : l1.flatten = l2.flatten) : l1 = l2 := by
  induction l1 generalizing l2 with
  | nil => cases l2 with
    | nil => rfl
    | cons => simp at h1
  | cons x l1 ih => cases l2 with
    | nil => simp at h1
    | cons y l2 =>
      simp only [List.map_cons, List.cons.injEq, List.flatten_cons] at h1 h2
      obtain ⟨e1, e2⟩ := List.append_inj h2 h1.1
      rw [e1, ih h1.2 e2]

/-! ## C35 -/

/-- C35: after any use of the object, with every backend: `initialize`, `aad…`, `aadover`, `encrypt…` (or `decrypt…`), `finalize`, `digest…` puts at the
destinations, and only there, pieces which together are the RFC 8439 encryption (decryption) of the texts, and the digests are the RFC 8439 tag of the
associated data and the ciphertext, or its first bytes. -/
theorem C35_aead_class (h : Host) (hh : h.endian = .little) (b : CipherBackend) (pre : List Aead.Call) (hp : Aead.Begun pre) (d : Bool) (key : List Byte)
    (hk : key.length = 32) (nonce : List Byte) (hn : nonce.length = 12) (ads : List (List Byte)) (ha : ∀ x ∈ ads, x.length < 2 ^ 64) (ss : List Area)
    (hs : ∀ s ∈ ss, s.Ok) (ds : List (List Byte × Nat)) (hd : ∀ d ∈ ds, min d.2 16 ≤ d.1.length) :
    ∃ o outs rs, Aead.run h b (pre ++ aeadCalls true d key nonce ads ss ds)
        = some (o, outs ++ (List.zipWith (fun s r => (Spec.Aead.placed r (.ptr s), r.length)) ss rs ++
            ds.map fun x => Spec.written (Spec.Aead.tag key nonce ads.flatten (cipherOf d key nonce (allText (ss.map .ptr)))) x.1 x.2)) ∧
      rs.map List.length = ss.map (fun s => (Spec.Aead.text (.ptr s)).length) ∧ rs.flatten = Spec.Aead.crypt key nonce (allText (ss.map .ptr)) := by
  obtain ⟨o, outs, rs, e, p⟩ := aead_class h b pre hp true d key nonce ads ha ss hs ds hd
  rw [padTo_id 32 key hk, padTo_id 12 nonce hn] at e p
  rw [Aead.transcript_spec, macOn_little h hh] at e
  exact ⟨o, outs, rs, e, by rw [p.1, List.map_map, List.map_map]; rfl, p.2⟩

/-- C35 for `apie`, with at least one `encrypt` or `decrypt` call (which closes the associated data; none: C40). -/
theorem C35_aead_apie (h : Host) (hh : h.endian = .little) (b : CipherBackend) (pre : List AeadApie.Call) (hp : AeadApie.Begun pre) (d : Bool) (key : List Byte)
    (hk : key.length = 32) (nonce : List Byte) (hn : nonce.length = 12) (ads : List (List Byte)) (ha : ∀ x ∈ ads, x.length < 2 ^ 64) (ts : List TextReq)
    (ht : ∀ t ∈ ts, t.Ok) (hne : ts ≠ []) (cs : List AeadApie.Call) (hc : ∀ c ∈ cs, c.Ok ∧ Spec.Aead.Ends c) :
    ∃ o outs rs, AeadApie.run h b (pre ++ apieCalls d key nonce ads ts [] cs)
        = some (o, outs ++ (textOuts ts rs ++ cs.map (Spec.Aead.ending (Spec.Aead.tag key nonce ads.flatten (cipherOf d key nonce (allText ts)))))) ∧
      rs.map List.length = ts.map (fun t => (Spec.Aead.text t).length) ∧ rs.flatten = Spec.Aead.crypt key nonce (allText ts) := by
  obtain ⟨o, outs, rs, e, p⟩ := aead_apie h b pre hp d key nonce ads ha ts ht [] smalls cs hc
  rw [padTo_id 32 key hk, padTo_id 12 nonce hn] at e p
  have : (!ts.isEmpty) = true := by cases ts <;> simp_all
  rw [this, List.flatten_nil, AeadApie.late_nil, macOn_little h hh] at e
  exact ⟨o, outs, rs, e, by rw [p.1, List.map_map]; rfl, p.2⟩

/-- C35 for the one-shot functions. -/
theorem C35_aead_oneshot (h : Host) (hh : h.endian = .little) (b : CipherBackend) (key : List Byte) (hk : key.length = 32) (nonce : List Byte)
    (hn : nonce.length = 12) (ad : List Byte) (ha : ad.length < 2 ^ 64) :
    (∀ s : Area, s.Ok → ∀ dig : List Byte, 16 ≤ dig.length → AeadApie.sealPtr h b key nonce ad s dig
      = some (Spec.Aead.placed (Spec.Aead.crypt key nonce (Spec.Aead.text (.ptr s))) (.ptr s),
          Spec.Aead.tag key nonce ad (Spec.Aead.crypt key nonce (Spec.Aead.text (.ptr s))) ++ dig.drop 16, s.n, 16)) ∧
    (∀ (x : List Byte) (tgt dig : Container), (TextReq.cont x tgt).Ok → ∃ c dc, AeadApie.sealC h b key nonce ad x tgt dig = some (c, dc.1, x.length, dc.2) ∧
      c.data = Spec.Aead.placed (Spec.Aead.crypt key nonce x) (.cont x tgt) ∧ dc = Spec.contained (Spec.Aead.tag key nonce ad (Spec.Aead.crypt key nonce x)) dig 16) ∧
    (∀ x : List Byte, x.length < 2 ^ 64 → AeadApie.sealValue h b key nonce ad x
      = some (⟨true, Spec.Aead.crypt key nonce x⟩, ⟨false, Spec.Aead.tag key nonce ad (Spec.Aead.crypt key nonce x)⟩)) := by
  have et : ∀ ct, AeadApie.tagOn h key nonce ad ct = Spec.Aead.tag key nonce ad ct := fun ct => by
    unfold AeadApie.tagOn; rw [padTo_id 32 key hk, padTo_id 12 nonce hn, macOn_little h hh]
  have ec : ∀ t, Aead.crypted key nonce 0 t = Spec.Aead.crypt key nonce t := fun t => by
    rw [AeadApie.crypt_eq, padTo_id 32 key hk, padTo_id 12 nonce hn]
  refine ⟨fun s hs dig hd => ?_, fun x tgt dig hok => ?_, fun x hx => ?_⟩
  · rw [AeadApie.sealPtr_eq h b key nonce ad ha s hs dig hd, et, ec]
  · obtain ⟨c, e, e1, -⟩ := AeadApie.sealC_eq h b key nonce ad ha x tgt dig hok
    rw [et, ec] at e
    rw [ec] at e1
    exact ⟨c, _, e, e1, rfl⟩
  · rw [AeadApie.sealValue_eq h b key nonce ad ha x hx, et, ec]

/-- Some requests: in place, between areas of one memory, to a fixed container, one container. -/
def egTexts : List TextReq := [.ptr ⟨[9, 1, 2, 9], 1, 2, 1⟩, .ptr ⟨[1, 2, 3, 9, 9, 9], 0, 3, 3⟩, .cont [4, 5] ⟨false, [0, 0, 0]⟩, .self ⟨true, [8]⟩]

theorem egTexts_ok : ∀ t ∈ egTexts, t.Ok := by
  intro t ht
  simp only [egTexts, List.mem_cons, List.not_mem_nil, or_false] at ht
  rcases ht with rfl | rfl | rfl | rfl <;> simp [TextReq.Ok, Area.Ok, Cipher.Fits]

/-- Hypotheses of C35 met: the class, used before; two spans, one of them in place. -/
example : ∃ o outs rs, Aead.run ⟨.little, false, none⟩ .portable ([.init [1] [2], .finalize, .aad [3]] ++
      aeadCalls true false (List.replicate 32 1) (List.replicate 12 2) [[1, 2], [3]] [⟨[9, 1, 2, 9], 1, 2, 1⟩, ⟨[1, 2, 3, 9, 9, 9], 0, 3, 3⟩] [(List.replicate 20 7, 99)])
        = some (o, outs ++ (List.zipWith (fun s r => (Spec.Aead.placed r (.ptr s), r.length)) [⟨[9, 1, 2, 9], 1, 2, 1⟩, ⟨[1, 2, 3, 9, 9, 9], 0, 3, 3⟩] rs ++
            [Spec.written (Spec.Aead.tag (List.replicate 32 1) (List.replicate 12 2) [1, 2, 3] (Spec.Aead.crypt (List.replicate 32 1) (List.replicate 12 2) [1, 2, 1, 2, 3])) (List.replicate 20 7) 99])) ∧
      rs.map List.length = [2, 3] ∧ rs.flatten = Spec.Aead.crypt (List.replicate 32 1) (List.replicate 12 2) [1, 2, 1, 2, 3] :=
  C35_aead_class ⟨.little, false, none⟩ rfl .portable [.init [1] [2], .finalize, .aad [3]] ⟨by simp [Aead.Call.Ok], by simp⟩ false (List.replicate 32 1) (by simp)
    (List.replicate 12 2) (by simp) [[1, 2], [3]] (by simp) [⟨[9, 1, 2, 9], 1, 2, 1⟩, ⟨[1, 2, 3, 9, 9, 9], 0, 3, 3⟩] (by simp [Area.Ok, Cipher.Fits])
    [(List.replicate 20 7, 99)] (by simp)

/-- Hypotheses of C35 met: `apie`, used before, every kind of request. -/
example : ∃ o outs rs, AeadApie.run ⟨.little, true, none⟩ .portable ([.init [1] [2], .verify [5]] ++
      apieCalls true (List.replicate 32 1) (List.replicate 12 2) [[1, 2], [3]] egTexts [] [.digestC ⟨true, []⟩ 16, .verify [1]])
        = some (o, outs ++ (textOuts egTexts rs ++ [.digestC ⟨true, []⟩ 16, .verify [1]].map (Spec.Aead.ending (Spec.Aead.tag (List.replicate 32 1)
            (List.replicate 12 2) [1, 2, 3] [1, 2, 1, 2, 3, 4, 5, 8])))) ∧
      rs.map List.length = [2, 3, 2, 1] ∧ rs.flatten = Spec.Aead.crypt (List.replicate 32 1) (List.replicate 12 2) [1, 2, 1, 2, 3, 4, 5, 8] :=
  C35_aead_apie ⟨.little, true, none⟩ rfl .portable [.init [1] [2], .verify [5]] ⟨by simp [AeadApie.Call.Ok], by simp⟩ true (List.replicate 32 1) (by simp)
    (List.replicate 12 2) (by simp) [[1, 2], [3]] (by simp) egTexts egTexts_ok (by simp [egTexts]) _ (by simp [AeadApie.Call.Ok, Spec.Aead.Ends])

/-- Hypotheses of C35 met: by value. -/
example : AeadApie.sealValue ⟨.little, false, none⟩ .portable (List.replicate 32 1) (List.replicate 12 2) [3] [4, 5]
    = some (⟨true, Spec.Aead.crypt (List.replicate 32 1) (List.replicate 12 2) [4, 5]⟩,
      ⟨false, Spec.Aead.tag (List.replicate 32 1) (List.replicate 12 2) [3] (Spec.Aead.crypt (List.replicate 32 1) (List.replicate 12 2) [4, 5])⟩) :=
  (C35_aead_oneshot ⟨.little, false, none⟩ rfl .portable (List.replicate 32 1) (by simp) (List.replicate 12 2) (by simp) [3] (by simp)).2.2 [4, 5] (by simp)

/-- Keys and nonces of other lengths are not refused: they are padded with zeros or cut (every host). -/
theorem C35_aead_any_length (h : Host) (b : CipherBackend) (key iv ad : List Byte) (ha : ad.length < 2 ^ 64) (x : List Byte) (hx : x.length < 2 ^ 64) :
    AeadApie.sealValue h b key iv ad x = AeadApie.sealValue h b (Spec.padTo 32 key) (Spec.padTo 12 iv) ad x := by
  rw [AeadApie.sealValue_eq h b _ _ ad ha x hx, AeadApie.sealValue_eq h b _ _ ad ha x hx]
  unfold AeadApie.tagOn
  rw [AeadApie.crypt_eq, AeadApie.crypt_eq, padTo_id 32 (Spec.padTo 32 key) (by simp [Spec.padTo]), padTo_id 12 (Spec.padTo 12 iv) (by simp [Spec.padTo])]

/-- The big-endian finding (C24): there the ciphertext is right and the tag is not. -/
theorem C35_aead_big_endian_wrong (b : CipherBackend) :
    ∃ c t, AeadApie.sealValue ⟨.big, false, none⟩ b (List.replicate 32 1) (List.replicate 12 2) [3] [4] = some (c, t) ∧
      c.data = Spec.Aead.crypt (List.replicate 32 1) (List.replicate 12 2) [4] ∧
      t.data ≠ Spec.Aead.tag (List.replicate 32 1) (List.replicate 12 2) [3] (Spec.Aead.crypt (List.replicate 32 1) (List.replicate 12 2) [4]) := by
  refine ⟨_, _, AeadApie.sealValue_eq ⟨.big, false, none⟩ b (List.replicate 32 1) (List.replicate 12 2) [3] (by simp) [4] (by simp), ?_, ?_⟩
  · rw [AeadApie.crypt_eq]; rfl
  · simp only
    rw [AeadApie.crypt_eq]
    decide +kernel

/-! ## C36 -/

theorem crypt_invol (key nonce t : List Byte) : Spec.Aead.crypt key nonce (Spec.Aead.crypt key nonce t) = t := by
  unfold Spec.Aead.crypt Spec.ChaCha.crypt Spec.ChaCha.cryptFrom
  apply List.ext_getElem?
  intro i
  rw [List.getElem?_mapIdx, List.getElem?_mapIdx, Option.map_map]
  have : ((fun b => b ^^^ Spec.ChaCha.keyByte key 1 nonce (0 + i)) ∘ fun b => b ^^^ Spec.ChaCha.keyByte key 1 nonce (0 + i)) = id := by
    funext b; simp [BitVec.xor_assoc]
  rw [this, Option.map_id, id]

theorem crypted_length' (key nonce t : List Byte) : (Spec.Aead.crypt key nonce t).length = t.length := by
  simp [Spec.Aead.crypt, Spec.ChaCha.crypt, Spec.ChaCha.cryptFrom]

/-- C36, sessions: what was encrypted in one session, split and passed in any way, is decrypted in another, split and passed in any other way, after any use of
either object, with any two backends on hosts of one byte order, keys and nonces of any length: the plaintext comes back and the tag of the first session
verifies, whole, in the second. Both sessions must have a text call, or neither, or the associated data is a multiple of 16 bytes (see C40). -/
theorem C36_open_after_seal (h1 h2 : Host) (hh : h1.endian = h2.endian) (b1 b2 : CipherBackend) (pre1 pre2 : List AeadApie.Call) (hp1 : AeadApie.Begun pre1)
    (hp2 : AeadApie.Begun pre2) (key iv : List Byte) (ads1 ads2 : List (List Byte)) (ha1 : ∀ x ∈ ads1, x.length < 2 ^ 64) (ha2 : ∀ x ∈ ads2, x.length < 2 ^ 64)
    (ha : ads1.flatten = ads2.flatten) (ts1 : List TextReq) (ht1 : ∀ t ∈ ts1, t.Ok) :
    ∃ o1 outs1 rs1 tag, AeadApie.run h1 b1 (pre1 ++ apieCalls false key iv ads1 ts1 [] [.digestC ⟨true, []⟩ 16]) = some (o1, outs1 ++ (textOuts ts1 rs1 ++ [.bytes tag 16])) ∧
      rs1.map List.length = ts1.map (fun t => (Spec.Aead.text t).length) ∧ tag.length = 16 ∧
      ∀ ts2 : List TextReq, (∀ t ∈ ts2, t.Ok) → allText ts2 = rs1.flatten → (ts1.isEmpty = ts2.isEmpty ∨ ads1.flatten.length % 16 = 0) →
        ∃ o2 outs2 rs2, AeadApie.run h2 b2 (pre2 ++ apieCalls true key iv ads2 ts2 [] [.verify tag]) = some (o2, outs2 ++ (textOuts ts2 rs2 ++ [.error .none])) ∧
          rs2.map List.length = ts2.map (fun t => (Spec.Aead.text t).length) ∧ rs2.flatten = allText ts1 := by
  obtain ⟨o1, outs1, rs1, e1, p1⟩ := aead_apie h1 b1 pre1 hp1 false key iv ads1 ha1 ts1 ht1 [] smalls [.digestC ⟨true, []⟩ 16]
    (ends_one (by simp [AeadApie.Call.Ok]) (by simp [Spec.Aead.Ends]))
  have hml : ∀ e k n m, (Spec.Aead.macOn e k n m).length = 16 := fun e k n m => by simp [Spec.Aead.macOn, Spec.Poly1305.mac, Spec.leBytes]
  refine ⟨o1, outs1, rs1, Spec.Aead.macOn h1.endian (Spec.padTo 32 key) (Spec.padTo 12 iv)
    (AeadApie.lateTranscript (!ts1.isEmpty) ads1.flatten (cipherOf false (Spec.padTo 32 key) (Spec.padTo 12 iv) (allText ts1)) []), ?_, by rw [p1.1, List.map_map]; rfl, hml _ _ _ _, fun ts2 ht2 hx hside => ?_⟩
  · rw [e1]
    simp only [List.map_cons, List.map_nil, Spec.Aead.ending, Spec.contained, if_true, hml, Nat.min_self, List.flatten_nil]
    rw [List.take_of_length_le (Nat.le_of_eq (hml _ _ _ _))]
  · obtain ⟨o2, outs2, rs2, e2, p2⟩ := aead_apie h2 b2 pre2 hp2 true key iv ads2 ha2 ts2 ht2 [] smalls [.verify _] (ends_one trivial trivial)
    refine ⟨o2, outs2, rs2, ?_, by rw [p2.1, List.map_map]; rfl, ?_⟩
    · rw [e2]
      simp only [List.map_cons, List.map_nil, Spec.Aead.ending]
      rw [if_pos]
      have ec : cipherOf true (Spec.padTo 32 key) (Spec.padTo 12 iv) (allText ts2) = cipherOf false (Spec.padTo 32 key) (Spec.padTo 12 iv) (allText ts1) := by
        simp only [cipherOf, if_true, Bool.false_eq_true, if_false]
        rw [hx]; exact p1.2
      rw [ec, hh, ← ha]
      congr 1
      rcases hside with hs | hs
      · rw [hs]; rfl
      · have : Spec.Aead.pad16 ads1.flatten = [] := by unfold Spec.Aead.pad16; rw [hs]; rfl
        unfold AeadApie.lateTranscript
        rw [this]; simp
    · have e3 : rs2.flatten = Spec.Aead.crypt (Spec.padTo 32 key) (Spec.padTo 12 iv) (allText ts2) := p2.2
      have e4 : rs1.flatten = Spec.Aead.crypt (Spec.padTo 32 key) (Spec.padTo 12 iv) (allText ts1) := p1.2
      rw [e3, hx, e4, crypt_invol]

/-- C36, one-shot functions: the ciphertext and tag of any of the three `encrypt` functions, given to any of the three `decrypt` functions. -/
theorem C36_open_after_seal_oneshot (h1 h2 : Host) (hh : h1.endian = h2.endian) (b1 b2 : CipherBackend) (hasError : Bool) (key iv ad : List Byte)
    (ha : ad.length < 2 ^ 64) (x : List Byte) (hx : x.length < 2 ^ 64) :
    ∃ ct tag, ct.length = x.length ∧ tag.length = 16 ∧
      AeadApie.sealValue h1 b1 key iv ad x = some (⟨true, ct⟩, ⟨false, tag⟩) ∧
      (∀ s : Area, s.Ok → Spec.Aead.text (.ptr s) = x → ∀ dig : List Byte, 16 ≤ dig.length →
        AeadApie.sealPtr h1 b1 key iv ad s dig = some (Spec.Aead.placed ct (.ptr s), tag ++ dig.drop 16, s.n, 16)) ∧
      (∀ tgt dig : Container, (TextReq.cont x tgt).Ok → ∃ c, AeadApie.sealC h1 b1 key iv ad x tgt dig
        = some (c, (Spec.contained tag dig 16).1, x.length, (Spec.contained tag dig 16).2) ∧ c.data = Spec.Aead.placed ct (.cont x tgt)) ∧
      AeadApie.openValue h2 b2 hasError key iv ad ct tag = some (.returned (x, .none)) ∧
      (∀ s : Area, s.Ok → Spec.Aead.text (.ptr s) = ct → AeadApie.openPtr h2 b2 hasError key iv ad s tag
        = some (Spec.Aead.placed x (.ptr s), .returned (s.n, .none))) ∧
      (∀ tgt : Container, (TextReq.cont ct tgt).Ok → ∃ c, AeadApie.openC h2 b2 hasError key iv ad ct tag tgt = some (c, .returned (ct.length, .none)) ∧
        c.data = Spec.Aead.placed x (.cont ct tgt)) := by
  have hi : Aead.crypted key iv 0 (Aead.crypted key iv 0 x) = x := by rw [AeadApie.crypt_eq, AeadApie.crypt_eq, crypt_invol]
  have hl := Aead.crypted_length key iv 0 x
  have ht : ∀ ct, AeadApie.tagOn h2 key iv ad ct = AeadApie.tagOn h1 key iv ad ct := fun ct => by unfold AeadApie.tagOn; rw [hh]
  have hrep : ∀ {α : Type} (v : α), Spec.Aead.reported hasError true v = .returned (v, .none) := fun v => by cases hasError <;> rfl
  refine ⟨Aead.crypted key iv 0 x, AeadApie.tagOn h1 key iv ad (Aead.crypted key iv 0 x), hl, AeadApie.tagOn_length _ _ _ _ _,
    AeadApie.sealValue_eq h1 b1 key iv ad ha x hx, fun s hs hsx dig hd => ?_, fun tgt dig hok => ?_, ?_, fun s hs hsx => ?_, fun tgt hok => ?_⟩
  · rw [AeadApie.sealPtr_eq h1 b1 key iv ad ha s hs dig hd, hsx]
  · obtain ⟨c, e, e', -⟩ := AeadApie.sealC_eq h1 b1 key iv ad ha x tgt dig hok
    exact ⟨c, e, e'⟩
  · rw [AeadApie.openValue_eq h2 b2 hasError key iv ad ha _ _ (by omega), ht, decide_eq_true rfl, hrep, hi]
  · rw [AeadApie.openPtr_eq h2 b2 hasError key iv ad ha s hs, hsx, ht, decide_eq_true rfl, hrep, hi]; rfl
  · obtain ⟨c, e, e'⟩ := AeadApie.openC_eq h2 b2 hasError key iv ad ha _ (AeadApie.tagOn h1 key iv ad (Aead.crypted key iv 0 x)) tgt hok
    rw [ht, decide_eq_true rfl, hrep] at e
    rw [hi] at e'
    exact ⟨c, e, e'⟩

/-- Hypotheses of C36 met: encrypted in four pieces, decrypted in one. -/
example : ∃ o1 outs1 rs1 tag, AeadApie.run ⟨.little, false, none⟩ .portable ([.init [] []] ++ apieCalls false [1] [2] [[3], [4, 5]] egTexts [] [.digestC ⟨true, []⟩ 16])
        = some (o1, outs1 ++ (textOuts egTexts rs1 ++ [.bytes tag 16])) ∧
      ∃ o2 outs2 rs2, AeadApie.run ⟨.little, true, none⟩ .portable ([] ++ apieCalls true [1] [2] [[3, 4, 5]] [.self ⟨true, rs1.flatten⟩] [] [.verify tag])
        = some (o2, outs2 ++ (textOuts [.self ⟨true, rs1.flatten⟩] rs2 ++ [.error .none])) ∧ rs2.flatten = [1, 2, 1, 2, 3, 4, 5, 8] := by
  obtain ⟨o1, outs1, rs1, tag, e1, hl, -, h2⟩ := C36_open_after_seal ⟨.little, false, none⟩ ⟨.little, true, none⟩ rfl .portable .portable [.init [] []] []
    ⟨by simp [AeadApie.Call.Ok], by simp⟩ ⟨by simp, by simp⟩ [1] [2] [[3], [4, 5]] [[3, 4, 5]] (by simp) (by simp) rfl egTexts egTexts_ok
  have hlen : rs1.flatten.length = 8 := by
    rw [List.length_flatten, hl]; rfl
  obtain ⟨o2, outs2, rs2, e2, -, e3⟩ := h2 [.self ⟨true, rs1.flatten⟩] (by simp [TextReq.Ok, hlen]) (by simp [allText, Spec.Aead.text]) (.inl rfl)
  exact ⟨o1, outs1, rs1, tag, e1, o2, outs2, rs2, e2, e3⟩

/-- Hypotheses of C36 met: pointers, in place, throwing overload. -/
example : ∃ ct tag, AeadApie.sealValue ⟨.little, false, none⟩ .portable [1] [2] [3] [4, 5] = some (⟨true, ct⟩, ⟨false, tag⟩) ∧
    AeadApie.openPtr ⟨.little, false, none⟩ .portable false [1] [2] [3] ⟨ct, 0, 2, 0⟩ tag = some ([4, 5], .returned (2, .none)) := by
  obtain ⟨ct, tag, hl, -, e1, -, -, -, e2, -⟩ := C36_open_after_seal_oneshot ⟨.little, false, none⟩ ⟨.little, false, none⟩ rfl .portable .portable false [1] [2] [3]
    (by simp) [4, 5] (by simp)
  have hl2 : ct.length = 2 := hl
  have := e2 ⟨ct, 0, 2, 0⟩ ⟨⟨.inl rfl, by simp [hl2], by simp [hl2]⟩, by simp⟩ (by simp [Spec.Aead.text, List.take_of_length_le (Nat.le_of_eq hl2)])
  refine ⟨ct, tag, e1, ?_⟩
  rw [this]
  simp [Spec.Aead.placed, List.drop_of_length_le (Nat.le_of_eq hl2)]

/-! ## C37 -/

/-- C37: after decryption the verification succeeds exactly if the tag given is, bit for bit and in its length, the RFC 8439 tag of the associated data and the
ciphertext; both forms of `verify`. -/
theorem C37_verify_exact (h : Host) (hh : h.endian = .little) (b : CipherBackend) (pre : List AeadApie.Call) (hp : AeadApie.Begun pre) (key : List Byte)
    (hk : key.length = 32) (nonce : List Byte) (hn : nonce.length = 12) (ads : List (List Byte)) (ha : ∀ x ∈ ads, x.length < 2 ^ 64) (ts : List TextReq)
    (ht : ∀ t ∈ ts, t.Ok) (hne : ts ≠ []) (tag : List Byte) :
    ∃ o outs rs e t, AeadApie.run h b (pre ++ apieCalls true key nonce ads ts [] [.verify tag, .verifyThrow tag])
        = some (o, outs ++ (textOuts ts rs ++ [.error e, .ended t])) ∧
      (e = .none ↔ tag = Spec.Aead.tag key nonce ads.flatten (allText ts)) ∧ (e ≠ .none → e = .aeadVerify) ∧
      (t = .returned () ↔ tag = Spec.Aead.tag key nonce ads.flatten (allText ts)) ∧ (t ≠ .returned () → t = .thrown .aeadVerify) := by
  obtain ⟨o, outs, rs, e, -⟩ := C35_aead_apie h hh b pre hp true key hk nonce hn ads ha ts ht hne [.verify tag, .verifyThrow tag]
    (by simp [AeadApie.Call.Ok, Spec.Aead.Ends])
  refine ⟨o, outs, rs, _, _, e, ?_⟩
  simp only [cipherOf, if_true]
  by_cases hx : tag = Spec.Aead.tag key nonce ads.flatten (allText ts) <;> simp [hx]

/-- C37 for the one-shot `decrypt` with an error argument: pointers, containers, by value. -/
theorem C37_verify_exact_oneshot (h : Host) (hh : h.endian = .little) (b : CipherBackend) (key : List Byte) (hk : key.length = 32) (nonce : List Byte)
    (hn : nonce.length = 12) (ad : List Byte) (ha : ad.length < 2 ^ 64) (tag : List Byte) :
    (∀ s : Area, s.Ok → ∃ mem e, AeadApie.openPtr h b true key nonce ad s tag = some (mem, .returned (s.n, e)) ∧
      (e = .none ↔ tag = Spec.Aead.tag key nonce ad (Spec.Aead.text (.ptr s)))) ∧
    (∀ (x : List Byte) (tgt : Container), (TextReq.cont x tgt).Ok → ∃ c e, AeadApie.openC h b true key nonce ad x tag tgt = some (c, .returned (x.length, e)) ∧
      (e = .none ↔ tag = Spec.Aead.tag key nonce ad x)) ∧
    (∀ x : List Byte, x.length < 2 ^ 64 → ∃ text e, AeadApie.openValue h b true key nonce ad x tag = some (.returned (text, e)) ∧
      (e = .none ↔ tag = Spec.Aead.tag key nonce ad x)) := by
  have et : ∀ ct, AeadApie.tagOn h key nonce ad ct = Spec.Aead.tag key nonce ad ct := fun ct => by
    unfold AeadApie.tagOn; rw [padTo_id 32 key hk, padTo_id 12 nonce hn, macOn_little h hh]
  have hv : ∀ ct, (if decide (tag = Spec.Aead.tag key nonce ad ct) = true then Error.none else .aeadVerify) = .none ↔ tag = Spec.Aead.tag key nonce ad ct := fun ct => by
    by_cases hx : tag = Spec.Aead.tag key nonce ad ct <;> simp [hx]
  refine ⟨fun s hs => ?_, fun x tgt hok => ?_, fun x hx => ?_⟩
  · refine ⟨Spec.Aead.placed (Aead.crypted key nonce 0 (Spec.Aead.text (.ptr s))) (.ptr s), _, ?_, hv _⟩
    · rw [AeadApie.openPtr_eq h b true key nonce ad ha s hs tag, et]; rfl
  · obtain ⟨c, e, -⟩ := AeadApie.openC_eq h b true key nonce ad ha x tag tgt hok
    exact ⟨c, _, by rw [e, et]; rfl, hv _⟩
  · refine ⟨Aead.crypted key nonce 0 x, _, ?_, hv _⟩
    · rw [AeadApie.openValue_eq h b true key nonce ad ha x tag hx, et]; rfl

/-- Hypotheses of C37 met; a prefix of the tag and a longer tag are refused. -/
example : ∃ text e, AeadApie.openValue ⟨.little, false, none⟩ .portable true (List.replicate 32 1) (List.replicate 12 2) [3] [4]
      ((Spec.Aead.tag (List.replicate 32 1) (List.replicate 12 2) [3] [4]).take 15) = some (.returned (text, e)) ∧ e ≠ .none := by
  obtain ⟨text, e, e1, e2⟩ := (C37_verify_exact_oneshot ⟨.little, false, none⟩ rfl .portable (List.replicate 32 1) (by simp) (List.replicate 12 2) (by simp) [3]
    (by simp) ((Spec.Aead.tag (List.replicate 32 1) (List.replicate 12 2) [3] [4]).take 15)).2.2 [4] (by simp)
  refine ⟨text, e, e1, fun he => ?_⟩
  have := congrArg List.length (e2.mp he)
  simp [Spec.Aead.tag, Spec.Poly1305.mac, Spec.leBytes] at this

/-! ## C38 -/

/-- C38, the part that holds: one-shot `decrypt` reports as documented (`Spec.Aead.reported`) if it takes an error argument; without one, if it returns by value
or writes to a resizable container. Missing (and false, see below): pointers, and fixed containers, without an error argument. The members `verify` report as
documented: C37. -/
theorem C38_reported_partial (h : Host) (hh : h.endian = .little) (b : CipherBackend) (hasError : Bool) (key : List Byte) (hk : key.length = 32) (nonce : List Byte)
    (hn : nonce.length = 12) (ad : List Byte) (ha : ad.length < 2 ^ 64) (tag : List Byte) :
    (hasError = true → ∀ s : Area, s.Ok → ∃ mem, AeadApie.openPtr h b hasError key nonce ad s tag
      = some (mem, Spec.Aead.reported hasError (tag = Spec.Aead.tag key nonce ad (Spec.Aead.text (.ptr s))) s.n)) ∧
    (∀ (x : List Byte) (tgt : Container), (hasError = true ∨ tgt.dynamic = true) → (TextReq.cont x tgt).Ok →
      ∃ c, AeadApie.openC h b hasError key nonce ad x tag tgt = some (c, Spec.Aead.reported hasError (tag = Spec.Aead.tag key nonce ad x) x.length)) ∧
    (∀ x : List Byte, x.length < 2 ^ 64 → ∃ text, AeadApie.openValue h b hasError key nonce ad x tag
      = some (Spec.Aead.reported hasError (tag = Spec.Aead.tag key nonce ad x) text)) := by
  have et : ∀ ct, AeadApie.tagOn h key nonce ad ct = Spec.Aead.tag key nonce ad ct := fun ct => by
    unfold AeadApie.tagOn; rw [padTo_id 32 key hk, padTo_id 12 nonce hn, macOn_little h hh]
  refine ⟨fun he s hs => ?_, fun x tgt hor hok => ?_, fun x hx => ?_⟩
  · subst he
    exact ⟨Spec.Aead.placed (Aead.crypted key nonce 0 (Spec.Aead.text (.ptr s))) (.ptr s), by rw [AeadApie.openPtr_eq h b true key nonce ad ha s hs tag, et]; rfl⟩
  · obtain ⟨c, e, -⟩ := AeadApie.openC_eq h b hasError key nonce ad ha x tag tgt hok
    refine ⟨c, ?_⟩
    rw [e, et]
    rcases hor with hor | hor
    · subst hor; rfl
    · simp only [hor, Bool.not_true, Bool.and_false]
      cases hasError <;> cases decide (tag = Spec.Aead.tag key nonce ad x) <;> rfl
  · exact ⟨Aead.crypted key nonce 0 x, by rw [AeadApie.openValue_eq h b hasError key nonce ad ha x tag hx, et]⟩

/-- Finding: `decrypt` with pointers and without an error argument ends the process on every wrong tag, where it is documented to throw (the `noexcept`
specification is inverted). Little-endian hosts. -/
theorem C38_pointer_decrypt_terminates (h : Host) (hh : h.endian = .little) (b : CipherBackend) (key : List Byte) (hk : key.length = 32) (nonce : List Byte)
    (hn : nonce.length = 12) (ad : List Byte) (ha : ad.length < 2 ^ 64) (s : Area) (hs : s.Ok) (tag : List Byte)
    (hw : tag ≠ Spec.Aead.tag key nonce ad (Spec.Aead.text (.ptr s))) :
    ∃ mem, AeadApie.openPtr h b false key nonce ad s tag = some (mem, .terminated) := by
  have et : AeadApie.tagOn h key nonce ad (Spec.Aead.text (.ptr s)) = Spec.Aead.tag key nonce ad (Spec.Aead.text (.ptr s)) := by
    unfold AeadApie.tagOn; rw [padTo_id 32 key hk, padTo_id 12 nonce hn, macOn_little h hh]
  exact ⟨_, by rw [AeadApie.openPtr_eq h b false key nonce ad ha s hs tag, et, decide_eq_false hw]; rfl⟩

/-- Finding: the same with a fixed container. -/
theorem C38_fixed_container_decrypt_terminates (h : Host) (hh : h.endian = .little) (b : CipherBackend) (key : List Byte) (hk : key.length = 32) (nonce : List Byte)
    (hn : nonce.length = 12) (ad : List Byte) (ha : ad.length < 2 ^ 64) (x : List Byte) (tgt : Container) (hok : (TextReq.cont x tgt).Ok)
    (hf : tgt.dynamic = false) (tag : List Byte) (hw : tag ≠ Spec.Aead.tag key nonce ad x) :
    ∃ c, AeadApie.openC h b false key nonce ad x tag tgt = some (c, .terminated) := by
  have et : AeadApie.tagOn h key nonce ad x = Spec.Aead.tag key nonce ad x := by
    unfold AeadApie.tagOn; rw [padTo_id 32 key hk, padTo_id 12 nonce hn, macOn_little h hh]
  obtain ⟨c, e, -⟩ := AeadApie.openC_eq h b false key nonce ad ha x tag tgt hok
  exact ⟨c, by rw [e, et, decide_eq_false hw, hf]; rfl⟩

/-- The hypotheses are met: an empty tag is wrong. -/
example : ∃ mem, AeadApie.openPtr ⟨.little, false, none⟩ .portable false (List.replicate 32 1) (List.replicate 12 2) [3] ⟨[4, 5], 0, 2, 0⟩ [] = some (mem, .terminated) :=
  C38_pointer_decrypt_terminates ⟨.little, false, none⟩ rfl .portable (List.replicate 32 1) (by simp) (List.replicate 12 2) (by simp) [3] (by simp) ⟨[4, 5], 0, 2, 0⟩
    (by simp [Area.Ok, Cipher.Fits]) [] (fun e => by have := congrArg List.length e; simp [Spec.Aead.tag, Spec.Poly1305.mac, Spec.leBytes] at this)

example : ∃ c, AeadApie.openC ⟨.little, false, none⟩ .portable false (List.replicate 32 1) (List.replicate 12 2) [3] [4, 5] [] ⟨false, [0, 0]⟩ = some (c, .terminated) :=
  C38_fixed_container_decrypt_terminates ⟨.little, false, none⟩ rfl .portable (List.replicate 32 1) (by simp) (List.replicate 12 2) (by simp) [3] (by simp) [4, 5]
    ⟨false, [0, 0]⟩ (by simp [TextReq.Ok]) rfl [] (fun e => by have := congrArg List.length e; simp [Spec.Aead.tag, Spec.Poly1305.mac, Spec.leBytes] at this)

example : ∃ text, AeadApie.openValue ⟨.little, false, none⟩ .portable false (List.replicate 32 1) (List.replicate 12 2) [3] [4, 5] [6]
    = some (Spec.Aead.reported false (([6] : List Byte) = Spec.Aead.tag (List.replicate 32 1) (List.replicate 12 2) [3] [4, 5]) text) :=
  (C38_reported_partial ⟨.little, false, none⟩ rfl .portable false (List.replicate 32 1) (by simp) (List.replicate 12 2) (by simp) [3] (by simp) [6]).2.2 [4, 5] (by simp)

/-! ## C39 -/

/-- C39, the part that holds: the throwing by-value `decrypt` returns a text only if the tag is right, and then the plaintext; a wrong tag gives an exception and
nothing else. Missing (and false, see below): all forms with an output argument or an error argument. -/
theorem C39_by_value_partial (h : Host) (hh : h.endian = .little) (b : CipherBackend) (key : List Byte) (hk : key.length = 32) (nonce : List Byte)
    (hn : nonce.length = 12) (ad : List Byte) (ha : ad.length < 2 ^ 64) (x : List Byte) (hx : x.length < 2 ^ 64) (tag : List Byte) :
    AeadApie.openValue h b false key nonce ad x tag
      = some (if tag = Spec.Aead.tag key nonce ad x then .returned (Spec.Aead.crypt key nonce x, .none) else .thrown .aeadVerify) := by
  rw [AeadApie.openValue_eq h b false key nonce ad ha x tag hx, AeadApie.crypt_eq]
  unfold AeadApie.tagOn
  rw [padTo_id 32 key hk, padTo_id 12 nonce hn, macOn_little h hh]
  by_cases ht : tag = Spec.Aead.tag key nonce ad x <;> simp [Spec.Aead.reported, ht]

/-- Finding: with an output argument or an error argument the whole decrypted text is released whatever the tag is. -/
theorem C39_plaintext_released (h : Host) (b : CipherBackend) (key : List Byte) (hk : key.length = 32) (nonce : List Byte) (hn : nonce.length = 12)
    (ad : List Byte) (ha : ad.length < 2 ^ 64) (tag : List Byte) :
    (∀ hasError : Bool, ∀ s : Area, s.Ok → ∃ r, AeadApie.openPtr h b hasError key nonce ad s tag
      = some (Spec.Aead.placed (Spec.Aead.crypt key nonce (Spec.Aead.text (.ptr s))) (.ptr s), r)) ∧
    (∀ hasError : Bool, ∀ (x : List Byte) (tgt : Container), (TextReq.cont x tgt).Ok → ∃ c r, AeadApie.openC h b hasError key nonce ad x tag tgt = some (c, r) ∧
      c.data = Spec.Aead.placed (Spec.Aead.crypt key nonce x) (.cont x tgt)) ∧
    (∀ x : List Byte, x.length < 2 ^ 64 → ∃ e, AeadApie.openValue h b true key nonce ad x tag = some (.returned (Spec.Aead.crypt key nonce x, e))) := by
  have ec : ∀ t, Aead.crypted key nonce 0 t = Spec.Aead.crypt key nonce t := fun t => by
    rw [AeadApie.crypt_eq, padTo_id 32 key hk, padTo_id 12 nonce hn]
  refine ⟨fun hasError s hs => ?_, fun hasError x tgt hok => ?_, fun x hx => ?_⟩
  · exact ⟨_, by rw [AeadApie.openPtr_eq h b hasError key nonce ad ha s hs tag, ec]⟩
  · obtain ⟨c, e, e'⟩ := AeadApie.openC_eq h b hasError key nonce ad ha x tag tgt hok
    exact ⟨c, _, e, by rw [e', ec]⟩
  · exact ⟨_, by rw [AeadApie.openValue_eq h b true key nonce ad ha x tag hx, ec]; rfl⟩

/-- Finding, concretely: a forgery with an empty tag is reported, and the memory holds the decrypted bytes. -/
example : AeadApie.openPtr ⟨.little, false, none⟩ .portable true (List.replicate 32 1) (List.replicate 12 2) [3] ⟨[4, 5], 0, 2, 0⟩ []
    = some (Spec.Aead.crypt (List.replicate 32 1) (List.replicate 12 2) [4, 5], .returned (2, .aeadVerify)) := by
  have e := AeadApie.openPtr_eq ⟨.little, false, none⟩ .portable true (List.replicate 32 1) (List.replicate 12 2) [3] (by simp) ⟨[4, 5], 0, 2, 0⟩
    (by simp [Area.Ok, Cipher.Fits]) []
  have hw : ¬([] = AeadApie.tagOn ⟨.little, false, none⟩ (List.replicate 32 1) (List.replicate 12 2) [3] (Spec.Aead.text (.ptr ⟨[4, 5], 0, 2, 0⟩))) := fun e => by
    have := congrArg List.length e; rw [AeadApie.tagOn_length] at this; simp at this
  rw [e, decide_eq_false hw, AeadApie.crypt_eq, padTo_id 32 _ (by simp), padTo_id 12 _ (by simp)]
  simp [Spec.Aead.placed, Spec.Aead.text, Spec.Aead.reported, AeadApie.leave]

example : AeadApie.openValue ⟨.little, false, none⟩ .portable false (List.replicate 32 1) (List.replicate 12 2) [3] [4] [] = some (.thrown .aeadVerify) := by
  rw [C39_by_value_partial ⟨.little, false, none⟩ rfl .portable (List.replicate 32 1) (by simp) (List.replicate 12 2) (by simp) [3] (by simp) [4] (by simp) [],
    if_neg (fun e => by have := congrArg List.length e; simp [Spec.Aead.tag, Spec.Poly1305.mac, Spec.leBytes] at this)]

/-! ## C40 -/

/-- C40, the part that holds: without a text, the RFC 8439 tag results if the associated data is a multiple of 16 bytes. Missing (and false, see below): other
lengths. -/
theorem C40_aad_only_partial (h : Host) (hh : h.endian = .little) (b : CipherBackend) (pre : List AeadApie.Call) (hp : AeadApie.Begun pre) (key : List Byte)
    (hk : key.length = 32) (nonce : List Byte) (hn : nonce.length = 12) (ads : List (List Byte)) (ha : ∀ x ∈ ads, x.length < 2 ^ 64)
    (h16 : ads.flatten.length % 16 = 0) (cs : List AeadApie.Call) (hc : ∀ c ∈ cs, c.Ok ∧ Spec.Aead.Ends c) :
    ∃ o outs, AeadApie.run h b (pre ++ apieCalls false key nonce ads [] [] cs)
        = some (o, outs ++ cs.map (Spec.Aead.ending (Spec.Aead.tag key nonce ads.flatten []))) := by
  obtain ⟨o, outs, rs, e, -⟩ := aead_apie h b pre hp false key nonce ads ha [] (by simp) [] smalls cs hc
  rw [padTo_id 32 key hk, padTo_id 12 nonce hn] at e
  have : cipherOf false key nonce (allText []) = [] := by simp [cipherOf, allText, Spec.Aead.crypt, Spec.ChaCha.crypt, Spec.ChaCha.cryptFrom]
  rw [this] at e
  simp only [List.isEmpty_nil, Bool.not_true, List.flatten_nil] at e
  rw [AeadApie.late_none _ h16, macOn_little h hh] at e
  exact ⟨o, outs, by rw [e]; simp [textOuts]⟩

/-- What results without a text: the mac of the associated data without its padding and the two lengths. -/
theorem C40_aad_only_actual (h : Host) (hh : h.endian = .little) (b : CipherBackend) (pre : List AeadApie.Call) (hp : AeadApie.Begun pre) (key : List Byte)
    (hk : key.length = 32) (nonce : List Byte) (hn : nonce.length = 12) (ads : List (List Byte)) (ha : ∀ x ∈ ads, x.length < 2 ^ 64)
    (cs : List AeadApie.Call) (hc : ∀ c ∈ cs, c.Ok ∧ Spec.Aead.Ends c) :
    ∃ o outs, AeadApie.run h b (pre ++ apieCalls false key nonce ads [] [] cs)
        = some (o, outs ++ cs.map (Spec.Aead.ending (Spec.Poly1305.mac (Spec.Aead.oneTimeKey key nonce)
            (ads.flatten ++ Spec.leBytes 8 ads.flatten.length ++ Spec.leBytes 8 0)))) := by
  obtain ⟨o, outs, rs, e, -⟩ := aead_apie h b pre hp false key nonce ads ha [] (by simp) [] smalls cs hc
  rw [padTo_id 32 key hk, padTo_id 12 nonce hn] at e
  have : cipherOf false key nonce (allText []) = [] := by simp [cipherOf, allText, Spec.Aead.crypt, Spec.ChaCha.crypt, Spec.ChaCha.cryptFrom]
  rw [this] at e
  refine ⟨o, outs, ?_⟩
  rw [e, hh]
  simp [textOuts, AeadApie.lateTranscript, Spec.Aead.trailer, Spec.Aead.macOn]

/-- Finding: one byte of associated data and no text gives a wrong tag. -/
theorem C40_aad_only_wrong (b : CipherBackend) :
    ∃ o t, AeadApie.run ⟨.little, false, none⟩ b (apieCalls false (List.replicate 32 1) (List.replicate 12 2) [[3]] [] [] [.digestC ⟨true, []⟩ 16])
        = some (o, [.bytes t 16]) ∧ t ≠ Spec.Aead.tag (List.replicate 32 1) (List.replicate 12 2) [3] [] := by
  obtain ⟨o, rs, e, -⟩ := aead_apie_new ⟨.little, false, none⟩ b false (List.replicate 32 1) (List.replicate 12 2) [[3]] (by simp) [] (by simp) [] smalls
    [.digestC ⟨true, []⟩ 16] (by simp [AeadApie.Call.Ok, Spec.Aead.Ends])
  exact ⟨o, _, e, by decide +kernel⟩

/-- With an empty `encrypt` call the RFC 8439 tag of any associated data results. -/
theorem C40_aad_and_empty_text (h : Host) (hh : h.endian = .little) (b : CipherBackend) (pre : List AeadApie.Call) (hp : AeadApie.Begun pre) (key : List Byte)
    (hk : key.length = 32) (nonce : List Byte) (hn : nonce.length = 12) (ads : List (List Byte)) (ha : ∀ x ∈ ads, x.length < 2 ^ 64)
    (cs : List AeadApie.Call) (hc : ∀ c ∈ cs, c.Ok ∧ Spec.Aead.Ends c) :
    ∃ o outs, AeadApie.run h b (pre ++ apieCalls false key nonce ads [.ptr ⟨[], 0, 0, 0⟩] [] cs)
        = some (o, outs ++ (.bytes [] 0 :: cs.map (Spec.Aead.ending (Spec.Aead.tag key nonce ads.flatten [])))) := by
  obtain ⟨o, outs, rs, e, p, -⟩ := C35_aead_apie h hh b pre hp false key hk nonce hn ads ha [.ptr ⟨[], 0, 0, 0⟩] (by simp [TextReq.Ok, Area.Ok, Cipher.Fits]) (by simp) cs hc
  have : cipherOf false key nonce (allText [.ptr ⟨[], 0, 0, 0⟩]) = [] := by
    simp [cipherOf, allText, Spec.Aead.text, Spec.Aead.crypt, Spec.ChaCha.crypt, Spec.ChaCha.cryptFrom]
  rw [this] at e
  have hr : rs = [[]] := by
    have hl : rs.map List.length = [0] := p
    cases rs with
    | nil => simp at hl
    | cons r rs => simp only [List.map_cons, List.cons.injEq, List.length_eq_zero_iff, List.map_eq_nil_iff] at hl; rw [hl.1, hl.2]
  exact ⟨o, outs, by rw [e, hr]; rfl⟩

/-- Hypotheses of C40 met: 16 bytes of associated data in two pieces; an empty text. -/
example : ∃ o outs, AeadApie.run ⟨.little, false, none⟩ .portable ([] ++ apieCalls false (List.replicate 32 1) (List.replicate 12 2) [List.replicate 9 3, List.replicate 7 4]
      [] [] [.verify [5]]) = some (o, outs ++ [.verify [5]].map (Spec.Aead.ending (Spec.Aead.tag (List.replicate 32 1) (List.replicate 12 2)
        [List.replicate 9 3, List.replicate 7 4].flatten []))) :=
  C40_aad_only_partial ⟨.little, false, none⟩ rfl .portable [] ⟨by simp, by simp⟩ (List.replicate 32 1) (by simp) (List.replicate 12 2) (by simp)
    [List.replicate 9 3, List.replicate 7 4] (by simp) (by simp) [.verify [5]] (ends_one trivial trivial)

example : ∃ o outs, AeadApie.run ⟨.little, false, none⟩ .portable ([] ++ apieCalls false (List.replicate 32 1) (List.replicate 12 2) [[3]]
      [.ptr ⟨[], 0, 0, 0⟩] [] [.verify [5]]) = some (o, outs ++ (.bytes [] 0 :: [.verify [5]].map (Spec.Aead.ending (Spec.Aead.tag (List.replicate 32 1) (List.replicate 12 2)
        [[3]].flatten [])))) :=
  C40_aad_and_empty_text ⟨.little, false, none⟩ rfl .portable [] ⟨by simp, by simp⟩ (List.replicate 32 1) (by simp) (List.replicate 12 2) (by simp)
    [[3]] (by simp) [.verify [5]] (ends_one trivial trivial)

/-! ## C41 -/

/-- C41, the part that holds: associated data given before the text, in any number of calls and on an object with any history, is authenticated as associated
data, exactly: the tag is the RFC 8439 tag of all of it. Missing (and false, see below): `aad` after the text has begun. -/
theorem C41_aad_first_partial (h : Host) (hh : h.endian = .little) (b : CipherBackend) (pre : List AeadApie.Call) (hp : AeadApie.Begun pre) (d : Bool) (key : List Byte)
    (hk : key.length = 32) (nonce : List Byte) (hn : nonce.length = 12) (ads : List (List Byte)) (ha : ∀ x ∈ ads, x.length < 2 ^ 64) (ts : List TextReq)
    (ht : ∀ t ∈ ts, t.Ok) (hne : ts ≠ []) (tag : List Byte) :
    ∃ o outs rs, AeadApie.run h b (pre ++ apieCalls d key nonce ads ts [] [.verify tag])
        = some (o, outs ++ (textOuts ts rs ++
          [.error (if tag = Spec.Aead.tag key nonce ads.flatten (cipherOf d key nonce (allText ts)) then .none else .aeadVerify)])) := by
  obtain ⟨o, outs, rs, e, -⟩ := C35_aead_apie h hh b pre hp d key hk nonce hn ads ha ts ht hne [.verify tag] (ends_one trivial trivial)
  exact ⟨o, outs, rs, e⟩

/-- What results when `aad` is called after the text: the late associated data is authenticated after the ciphertext (and before its padding), with only its
length counted as associated data. -/
theorem C41_late_aad_actual (h : Host) (hh : h.endian = .little) (b : CipherBackend) (pre : List AeadApie.Call) (hp : AeadApie.Begun pre) (d : Bool) (key : List Byte)
    (hk : key.length = 32) (nonce : List Byte) (hn : nonce.length = 12) (ads : List (List Byte)) (ha : ∀ x ∈ ads, x.length < 2 ^ 64) (ts : List TextReq)
    (ht : ∀ t ∈ ts, t.Ok) (hne : ts ≠ []) (late : List (List Byte)) (hl : ∀ x ∈ late, x.length < 2 ^ 64) (cs : List AeadApie.Call)
    (hc : ∀ c ∈ cs, c.Ok ∧ Spec.Aead.Ends c) :
    ∃ o outs rs, AeadApie.run h b (pre ++ apieCalls d key nonce ads ts late cs)
        = some (o, outs ++ (textOuts ts rs ++ cs.map (Spec.Aead.ending (Spec.Poly1305.mac (Spec.Aead.oneTimeKey key nonce)
            (ads.flatten ++ Spec.Aead.pad16 ads.flatten ++ cipherOf d key nonce (allText ts) ++ late.flatten ++
              Spec.Aead.trailer (ads.flatten ++ late.flatten).length (cipherOf d key nonce (allText ts)).length))))) := by
  obtain ⟨o, outs, rs, e, p⟩ := aead_apie h b pre hp d key nonce ads ha ts ht late hl cs hc
  rw [padTo_id 32 key hk, padTo_id 12 nonce hn, hh] at e
  have : (!ts.isEmpty) = true := by cases ts <;> simp_all
  rw [this] at e
  exact ⟨o, outs, rs, e⟩

/-- Finding: late associated data can pass for ciphertext. If all parts are multiples of 16 bytes and the late data is as long as the ciphertext, the tag of
the session is the RFC 8439 tag of another message: associated data followed by the ciphertext as associated data, and the late data as ciphertext. So the
verification of that other message, which was never sealed, succeeds. -/
theorem C41_late_aad_confused (h : Host) (hh : h.endian = .little) (b : CipherBackend) (key : List Byte) (hk : key.length = 32) (nonce : List Byte)
    (hn : nonce.length = 12) (ad x late : List Byte) (h1 : ad.length < 2 ^ 64) (h2 : x.length < 2 ^ 64) (h3 : late.length < 2 ^ 64) (h4 : ad.length % 16 = 0)
    (h5 : x.length % 16 = 0) (h6 : late.length = x.length) :
    ∃ o outs tag, AeadApie.run h b (apieCalls false key nonce [ad] [.self ⟨true, x⟩] [late] [.digestC ⟨true, []⟩ 16]) = some (o, outs ++ [.bytes tag 16]) ∧
      tag = Spec.Aead.tag key nonce (ad ++ Spec.Aead.crypt key nonce x) late := by
  obtain ⟨o, rs, e, -⟩ := aead_apie_new h b false key nonce [ad] (by simpa using h1) [.self ⟨true, x⟩] (by simpa [TextReq.Ok] using h2) [late] (by simpa using h3)
    [.digestC ⟨true, []⟩ 16] (by simp [AeadApie.Call.Ok, Spec.Aead.Ends])
  rw [padTo_id 32 key hk, padTo_id 12 nonce hn, hh] at e
  have hcl := crypted_length' key nonce x
  have et : AeadApie.lateTranscript (![TextReq.self ⟨true, x⟩].isEmpty) [ad].flatten (cipherOf false key nonce (allText [.self ⟨true, x⟩])) [late].flatten
      = Spec.Aead.authenticated (ad ++ Spec.Aead.crypt key nonce x) late := by
    have e1 : cipherOf false key nonce (allText [.self ⟨true, x⟩]) = Spec.Aead.crypt key nonce x := by simp [cipherOf, allText, Spec.Aead.text]
    have e2 : Spec.Aead.pad16 ad = [] := by unfold Spec.Aead.pad16; rw [h4]; rfl
    have e3 : Spec.Aead.pad16 (ad ++ Spec.Aead.crypt key nonce x) = [] := by
      unfold Spec.Aead.pad16
      rw [List.length_append, hcl, show (ad.length + x.length) % 16 = 0 by omega]; rfl
    have e4 : Spec.Aead.pad16 late = [] := by unfold Spec.Aead.pad16; rw [h6, h5]; rfl
    unfold AeadApie.lateTranscript Spec.Aead.authenticated Spec.Aead.trailer
    rw [e1, e3, e4, hcl, h5]
    simp [e2, hcl, h6]
  rw [et] at e
  refine ⟨o, textOuts [.self ⟨true, x⟩] rs, _, ?_, rfl⟩
  rw [e]
  have hml : ∀ k m, (Spec.Poly1305.mac k m).length = 16 := fun k m => by simp [Spec.Poly1305.mac, Spec.leBytes]
  simp only [List.map_cons, List.map_nil, Spec.Aead.ending, Spec.contained, if_true, Spec.Aead.macOn, Spec.Aead.tag, hml, Nat.min_self]
  rw [List.take_of_length_le (Nat.le_of_eq (hml _ _))]

/-- Finding, concretely: late associated data is not rejected and not authenticated as associated data. -/
theorem C41_late_aad_wrong (b : CipherBackend) :
    ∃ o c t, AeadApie.run ⟨.little, false, none⟩ b (apieCalls false (List.replicate 32 1) (List.replicate 12 2) [] [.self ⟨true, [4]⟩] [[3]] [.digestC ⟨true, []⟩ 16])
        = some (o, [.bytes c 1, .bytes t 16]) ∧ c = Spec.Aead.crypt (List.replicate 32 1) (List.replicate 12 2) [4] ∧
      t ≠ Spec.Aead.tag (List.replicate 32 1) (List.replicate 12 2) [3] c := by
  obtain ⟨o, rs, e, p⟩ := aead_apie_new ⟨.little, false, none⟩ b false (List.replicate 32 1) (List.replicate 12 2) [] (by simp) [.self ⟨true, [4]⟩]
    (by simp [TextReq.Ok]) [[3]] (by simp) [.digestC ⟨true, []⟩ 16] (by simp [AeadApie.Call.Ok, Spec.Aead.Ends])
  rw [padTo_id 32 _ (by simp), padTo_id 12 _ (by simp)] at e p
  have hr : rs = [Spec.Aead.crypt (List.replicate 32 1) (List.replicate 12 2) [4]] := by
    obtain ⟨p1, p2⟩ := p
    have hl : rs.map List.length = [1] := p1
    cases rs with
    | nil => simp at hl
    | cons r rs =>
      simp only [List.map_cons, List.cons.injEq, List.map_eq_nil_iff] at hl
      rw [hl.2] at p2 ⊢
      simpa [Spec.Aead.text] using p2
  rw [hr] at e
  refine ⟨o, Spec.Aead.crypt (List.replicate 32 1) (List.replicate 12 2) [4], _, e, rfl, ?_⟩
  decide +kernel

/-- The hypotheses are met. -/
example : ∃ o outs tag, AeadApie.run ⟨.little, false, none⟩ .portable (apieCalls false (List.replicate 32 1) (List.replicate 12 2) [List.replicate 16 1]
      [.self ⟨true, List.replicate 32 2⟩] [List.replicate 32 3] [.digestC ⟨true, []⟩ 16]) = some (o, outs ++ [.bytes tag 16]) ∧
      tag = Spec.Aead.tag (List.replicate 32 1) (List.replicate 12 2) (List.replicate 16 1 ++ Spec.Aead.crypt (List.replicate 32 1) (List.replicate 12 2) (List.replicate 32 2))
        (List.replicate 32 3) :=
  C41_late_aad_confused ⟨.little, false, none⟩ rfl .portable (List.replicate 32 1) (by simp) (List.replicate 12 2) (by simp) _ _ _ (by simp) (by simp) (by simp)
    (by simp) (by simp) (by simp)

example : ∃ o outs rs, AeadApie.run ⟨.little, false, none⟩ .portable ([.init [] [], .aad [1], .text true (.self ⟨true, [2]⟩)] ++
      apieCalls true (List.replicate 32 1) (List.replicate 12 2) [[1], [], [2]] egTexts [] [.verify [1]])
        = some (o, outs ++ (textOuts egTexts rs ++
          [.error (if [1] = Spec.Aead.tag (List.replicate 32 1) (List.replicate 12 2) [1, 2] (cipherOf true (List.replicate 32 1) (List.replicate 12 2) (allText egTexts))
            then .none else .aeadVerify)])) :=
  C41_aad_first_partial ⟨.little, false, none⟩ rfl .portable [.init [] [], .aad [1], .text true (.self ⟨true, [2]⟩)] ⟨by simp [AeadApie.Call.Ok, TextReq.Ok], by simp⟩ true
    (List.replicate 32 1) (by simp) (List.replicate 12 2) (by simp) [[1], [], [2]] (by simp) egTexts egTexts_ok (by simp [egTexts]) [1]

/-! ## C52 -/

/-- C52, the part that holds: on the class, `aadover` may be left out (as the reference's pointer example does) if the associated data is a multiple of 16 bytes.
Missing (and false, see below): other lengths. -/
theorem C52_without_aadover_partial (h : Host) (hh : h.endian = .little) (b : CipherBackend) (pre : List Aead.Call) (hp : Aead.Begun pre) (d : Bool) (key : List Byte)
    (hk : key.length = 32) (nonce : List Byte) (hn : nonce.length = 12) (ads : List (List Byte)) (ha : ∀ x ∈ ads, x.length < 2 ^ 64)
    (h16 : ads.flatten.length % 16 = 0) (ss : List Area) (hs : ∀ s ∈ ss, s.Ok) (ds : List (List Byte × Nat)) (hd : ∀ d ∈ ds, min d.2 16 ≤ d.1.length) :
    ∃ o outs rs, Aead.run h b (pre ++ aeadCalls false d key nonce ads ss ds)
        = some (o, outs ++ (List.zipWith (fun s r => (Spec.Aead.placed r (.ptr s), r.length)) ss rs ++
            ds.map fun x => Spec.written (Spec.Aead.tag key nonce ads.flatten (cipherOf d key nonce (allText (ss.map .ptr)))) x.1 x.2)) ∧
      rs.map List.length = ss.map (fun s => (Spec.Aead.text (.ptr s)).length) ∧ rs.flatten = Spec.Aead.crypt key nonce (allText (ss.map .ptr)) := by
  obtain ⟨o, outs, rs, e, p⟩ := aead_class h b pre hp false d key nonce ads ha ss hs ds hd
  rw [padTo_id 32 key hk, padTo_id 12 nonce hn] at e p
  rw [Aead.transcript_aligned _ _ h16, macOn_little h hh] at e
  exact ⟨o, outs, rs, e, by rw [p.1, List.map_map, List.map_map]; rfl, p.2⟩

/-- Finding: with one byte of associated data the documented sequence gives a wrong tag. -/
theorem C52_without_aadover_wrong (b : CipherBackend) :
    ∃ o c t, Aead.run ⟨.little, false, none⟩ b (aeadCalls false false (List.replicate 32 1) (List.replicate 12 2) [[3]] [⟨[4], 0, 1, 0⟩] [(List.replicate 16 0, 16)])
        = some (o, [(c, 1), (t, 16)]) ∧ c = Spec.Aead.crypt (List.replicate 32 1) (List.replicate 12 2) [4] ∧
      t ≠ Spec.Aead.tag (List.replicate 32 1) (List.replicate 12 2) [3] c := by
  obtain ⟨o, e⟩ := Aead.session_eq ⟨.little, false, none⟩ (backendLawful ⟨.little, false, none⟩ b) (Aead.L ⟨.little, false, none⟩) rfl false false (List.replicate 32 1)
    (List.replicate 12 2) (Aead.fresh (Aead.poly ⟨.little, false, none⟩)) (Aead.fresh_base (backendLawful ⟨.little, false, none⟩ b) (Aead.L ⟨.little, false, none⟩)) [[3]] (by simp)
    [⟨[4], 0, 1, 0⟩] (by simp [Area.Ok, Cipher.Fits]) [(List.replicate 16 0, 16)] (by simp)
  have ec : Aead.crypted (List.replicate 32 1) (List.replicate 12 2) 0 [4] = Spec.Aead.crypt (List.replicate 32 1) (List.replicate 12 2) [4] := by
    rw [AeadApie.crypt_eq, padTo_id 32 _ (by simp), padTo_id 12 _ (by simp)]
  simp only [Aead.polyF] at e
  refine ⟨o, Aead.crypted (List.replicate 32 1) (List.replicate 12 2) 0 [4], _, e, ec, ?_⟩
  rw [ec]
  simp only [Bool.false_eq_true, if_false]
  have : Aead.crypted (List.replicate 32 1) (List.replicate 12 2) 0 (Aead.ptrs [⟨[4], 0, 1, 0⟩]).flatten = Spec.Aead.crypt (List.replicate 32 1) (List.replicate 12 2) [4] := ec
  rw [this]
  decide +kernel

/-- Hypotheses of C52 met. -/
example : ∃ o outs rs, Aead.run ⟨.little, false, none⟩ .portable ([] ++ aeadCalls false true (List.replicate 32 1) (List.replicate 12 2) [List.replicate 16 3] [⟨[4], 0, 1, 0⟩] [])
        = some (o, outs ++ (List.zipWith (fun s r => (Spec.Aead.placed r (.ptr s), r.length)) [⟨[4], 0, 1, 0⟩] rs ++ [])) ∧
      rs.map List.length = [1] ∧ rs.flatten = Spec.Aead.crypt (List.replicate 32 1) (List.replicate 12 2) [4] :=
  C52_without_aadover_partial ⟨.little, false, none⟩ rfl .portable [] ⟨by simp, by simp⟩ true (List.replicate 32 1) (by simp) (List.replicate 12 2) (by simp)
    [List.replicate 16 3] (by simp) (by simp) [⟨[4], 0, 1, 0⟩] (by simp [Area.Ok, Cipher.Fits]) [] (by simp)

/-! ## C34 -/

/-- C34 for AEAD: two sessions on the same texts have the same results and the same tag, however the texts are passed: in place, between areas or containers.
(`encrypt`, `decrypt`, `apie` in full; every host, keys and nonces of any length.) -/
theorem C34_aead_in_place (h : Host) (b : CipherBackend) (d : Bool) (key iv : List Byte) (ads : List (List Byte)) (ha : ∀ x ∈ ads, x.length < 2 ^ 64)
    (ts1 ts2 : List TextReq) (ht1 : ∀ t ∈ ts1, t.Ok) (ht2 : ∀ t ∈ ts2, t.Ok) (he : ts1.map Spec.Aead.text = ts2.map Spec.Aead.text) (dst : List Byte) (hd : 16 ≤ dst.length) :
    ∃ o1 o2 rs tag, AeadApie.run h b (apieCalls d key iv ads ts1 [] [.digest dst 16]) = some (o1, textOuts ts1 rs ++ [tag]) ∧
      AeadApie.run h b (apieCalls d key iv ads ts2 [] [.digest dst 16]) = some (o2, textOuts ts2 rs ++ [tag]) ∧
      rs.map List.length = ts1.map (fun t => (Spec.Aead.text t).length) := by
  have hc := ends_one (c := .digest dst 16) (by simpa [AeadApie.Call.Ok] using hd) trivial
  obtain ⟨o1, rs1, e1, p1⟩ := aead_apie_new h b d key iv ads ha ts1 ht1 [] smalls [.digest dst 16] hc
  obtain ⟨o2, rs2, e2, p2⟩ := aead_apie_new h b d key iv ads ha ts2 ht2 [] smalls [.digest dst 16] hc
  have er : rs1 = rs2 := pieces_unique (by rw [p1.1, p2.1, he]) (by rw [p1.2, p2.2, he])
  have ei : ts1.isEmpty = ts2.isEmpty := by
    have := congrArg List.isEmpty he
    simpa using this
  refine ⟨o1, o2, rs1, _, e1, ?_, by rw [p1.1, List.map_map]; rfl⟩
  rw [e2, er, ei]
  unfold allText
  rw [he]; rfl

/-! ## C53 -/

/-- C53: with texts of at most `2^38 - 64` bytes in total (the limit of RFC 8439 2.8), each byte is xored with the block whose counter is `1 + i / 64`: the counter
does not wrap, so block 0, from which the one-time key is taken, is never used for text, and no two blocks of text share a counter. Every host, backend, any
split over calls, after any use of the object. Missing: nothing refuses longer texts (`C53_limit_wrong`). -/
theorem C53_limit_partial (h : Host) (b : CipherBackend) (pre : List AeadApie.Call) (hp : AeadApie.Begun pre) (d : Bool) (key : List Byte)
    (hk : key.length = 32) (nonce : List Byte) (hn : nonce.length = 12) (ads : List (List Byte)) (ha : ∀ x ∈ ads, x.length < 2 ^ 64) (ts : List TextReq)
    (ht : ∀ t ∈ ts, t.Ok) (hlim : (allText ts).length ≤ 2 ^ 38 - 64) :
    ∃ o outs rs, AeadApie.run h b (pre ++ apieCalls d key nonce ads ts [] []) = some (o, outs ++ textOuts ts rs) ∧
      ∀ i x, (allText ts)[i]? = some x → ∃ c : BitVec 32, c.toNat = 1 + i / 64 ∧ rs.flatten[i]? = some (x ^^^ (Spec.ChaCha.block key c nonce).getD (i % 64) 0) := by
  obtain ⟨o, outs, rs, e, p⟩ := aead_apie h b pre hp d key nonce ads ha ts ht [] smalls [] (by simp)
  rw [padTo_id 32 key hk, padTo_id 12 nonce hn] at p
  refine ⟨o, outs, rs, by simpa using e, fun i x hx => ?_⟩
  have e2 : rs.flatten = Spec.Aead.crypt key nonce (allText ts) := p.2
  have hi : i < (allText ts).length := (List.getElem?_eq_some_iff.1 hx).1
  refine ⟨1 + BitVec.ofNat 32 (i / 64), ?_, ?_⟩
  · rw [BitVec.toNat_add, BitVec.toNat_ofNat]
    have : i / 64 < 2 ^ 32 - 1 := by omega
    rw [show (1 : BitVec 32).toNat = 1 from rfl]
    omega
  · rw [e2]
    unfold Spec.Aead.crypt Spec.ChaCha.crypt Spec.ChaCha.cryptFrom Spec.ChaCha.keyByte
    rw [List.getElem?_mapIdx, hx, Nat.zero_add]
    rfl

/-- C53 fails for longer texts: nothing is refused, and the 32 bytes of text after the first `2^38 - 64` are xored with the one-time key itself. Whoever knows
those bytes of text reads the key of the mac off the ciphertext. -/
theorem C53_limit_wrong (h : Host) (b : CipherBackend) (pre : List AeadApie.Call) (hp : AeadApie.Begun pre) (d : Bool) (key : List Byte)
    (hk : key.length = 32) (nonce : List Byte) (hn : nonce.length = 12) (ads : List (List Byte)) (ha : ∀ x ∈ ads, x.length < 2 ^ 64) (ts : List TextReq)
    (ht : ∀ t ∈ ts, t.Ok) :
    ∃ o outs rs, AeadApie.run h b (pre ++ apieCalls d key nonce ads ts [] []) = some (o, outs ++ textOuts ts rs) ∧
      ∀ i < 32, rs.flatten[2 ^ 38 - 64 + i]? = (allText ts)[2 ^ 38 - 64 + i]?.map (· ^^^ (Spec.Aead.oneTimeKey key nonce).getD i 0) := by
  obtain ⟨o, outs, rs, e, p⟩ := aead_apie h b pre hp d key nonce ads ha ts ht [] smalls [] (by simp)
  rw [padTo_id 32 key hk, padTo_id 12 nonce hn] at p
  refine ⟨o, outs, rs, by simpa using e, fun i hi => ?_⟩
  have e2 : rs.flatten = Spec.Aead.crypt key nonce (allText ts) := p.2
  rw [e2]
  unfold Spec.Aead.crypt Spec.ChaCha.crypt Spec.ChaCha.cryptFrom Spec.ChaCha.keyByte
  have h1 : (0 + (2 ^ 38 - 64 + i)) / 64 = 2 ^ 32 - 1 := by omega
  have h2 : (0 + (2 ^ 38 - 64 + i)) % 64 = i := by omega
  rw [List.getElem?_mapIdx, h1, h2]
  have h3 : (1 : BitVec 32) + BitVec.ofNat 32 (2 ^ 32 - 1) = 0 := by decide
  have h4 : (Spec.Aead.oneTimeKey key nonce).getD i 0 = (Spec.ChaCha.block key 0 nonce).getD i 0 := by
    unfold Spec.Aead.oneTimeKey
    rw [List.getD_eq_getElem?_getD, List.getD_eq_getElem?_getD, List.getElem?_take_of_lt hi]
  rw [h3, h4]

/-- Hypotheses of C53 met: a text of `2^38` bytes or more, all zero. -/
example (n : Nat) (h1 : 2 ^ 38 ≤ n) (h2 : n < 2 ^ 64) : ∃ o outs rs, AeadApie.run ⟨.little, false, none⟩ .portable ([] ++ apieCalls false (List.replicate 32 1) (List.replicate 12 2) [[3]]
      [.cont (List.replicate n 0#8) ⟨true, []⟩] [] []) = some (o, outs ++ textOuts [.cont (List.replicate n 0#8) ⟨true, []⟩] rs) ∧
    rs.flatten[2 ^ 38 - 64]? = some ((0#8) ^^^ (Spec.Aead.oneTimeKey (List.replicate 32 1) (List.replicate 12 2)).getD 0 0) := by
  obtain ⟨o, outs, rs, e, p⟩ := C53_limit_wrong ⟨.little, false, none⟩ .portable [] ⟨by simp, by simp⟩ false (List.replicate 32 1) (by simp) (List.replicate 12 2) (by simp)
    [[3]] (by simp) [.cont (List.replicate n 0#8) ⟨true, []⟩] (by
      intro t ht
      rw [List.mem_singleton] at ht
      subst ht
      exact ⟨by simp, by rw [List.length_replicate]; exact h2⟩)
  refine ⟨o, outs, rs, e, ?_⟩
  have h0 := p 0 (by decide)
  rw [Nat.add_zero] at h0
  rw [h0]
  have : allText [.cont (List.replicate n 0#8) ⟨true, []⟩] = List.replicate n 0#8 := by
    simp only [allText, List.map_cons, List.map_nil, Spec.Aead.text, List.flatten_cons, List.flatten_nil, List.append_nil]
  rw [this, List.getElem?_replicate_of_lt (by omega), Option.map_some]

end Milo.Props
