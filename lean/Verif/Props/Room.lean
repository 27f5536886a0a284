import Verif.Proof.CodecRoom
import Verif.Proof.CipherRoom
import Verif.Props.Codec
import Verif.Props.Aead
import Verif.Props.Cipher
/-
Property theorems C54 (output containers of fixed size) and C55 (size returned with a decoding error).
-/
namespace Milo.Props
open Spec.Codec

/-! ## C54 -/

private theorem bind_some_left {α β : Type} {x : Option α} {f : α → Option β} {b : β} (h : x.bind f = some b) : ∃ a, x = some a ∧ f a = some b := by
  cases x with
  | none => cases h
  | some a => exact ⟨a, rfl, h⟩

private theorem wr1_lt {α : Type} {buf out : List α} {i : Nat} {x : α} (h : wr1 buf i x = some out) : i < buf.length ∧ out.length = buf.length := by
  unfold wr1 at h
  split at h
  · next hi => cases h; exact ⟨hi, by simp⟩
  · cases h

private theorem xorMem_room (h : Host) (dst src : Nat) (key : List Byte) (n : Nat) : ∀ (i : Nat) (mem out : List Byte),
    Memory.forM' (fun i mem => do
      let s ← advance mem src
      let x ← Memory.load h false (p := 1) 1 s i
      let y ← Memory.load h false (p := 1) 1 key i
      at_ mem dst fun d => Memory.stor h (v := 1) (p := 1) d i (x ^^^ y)) n i mem = some out →
    out.length = mem.length ∧ (n ≠ 0 → dst + i + n ≤ mem.length) := by
  induction n with
  | zero => intro i mem out e; cases e; exact ⟨rfl, fun h => absurd rfl h⟩
  | succ n ih =>
    intro i mem out e
    simp only [Memory.forM', Option.bind_eq_bind] at e
    obtain ⟨mem', e1, e2⟩ := bind_some_left e
    obtain ⟨s, -, e1⟩ := bind_some_left e1
    obtain ⟨x, -, e1⟩ := bind_some_left e1
    obtain ⟨y, -, e1⟩ := bind_some_left e1
    unfold at_ at e1
    split at e1
    · next hd =>
      simp only [Option.bind_eq_bind] at e1
      obtain ⟨o, e3, e4⟩ := bind_some_left e1
      cases e4
      unfold Memory.stor at e3
      rw [if_pos rfl] at e3
      obtain ⟨h1, h2⟩ := wr1_lt e3
      rw [List.length_drop] at h1 h2
      have hm : (mem.take dst ++ o).length = mem.length := by rw [List.length_append, List.length_take, h2]; omega
      obtain ⟨h3, h4⟩ := ih (i + 1) _ _ e2
      refine ⟨by rw [h3, hm], fun _ => ?_⟩
      rw [hm] at h4
      by_cases hn : n = 0
      · subst hn; omega
      · have := h4 hn; omega
    · cases e1

private theorem rest_room (h : Host) (b : CipherBackend) (buf : List Byte) (st : List W32) (mem : List Byte) (dst src n : Nat)
    (r : ChaCha.Prod) (e : ChaCha.prodRest h (b.impl h) buf st mem dst src n = some r) : n ≠ 0 → dst + n ≤ mem.length := by
  have hr : 1 ≤ (b.impl h).ratio := (backendLawful h b).pos
  unfold ChaCha.prodRest at e
  simp only [Option.bind_eq_bind] at e
  obtain ⟨⟨st1, m1⟩, e1, e2⟩ := bind_some_left e
  intro h0
  have hd := Nat.div_add_mod n (64 * (b.impl h).ratio)
  have h1 : m1.length = mem.length ∧ (n / (64 * (b.impl h).ratio) ≠ 0 → dst + 64 * (b.impl h).ratio * (n / (64 * (b.impl h).ratio)) ≤ mem.length) := by
    unfold ChaCha.fullBlocks at e1
    split at e1
    · next hf =>
      simp only [Option.bind_eq_bind] at e1
      obtain ⟨x, e3, e4⟩ := bind_some_left e1
      obtain ⟨y, -, e4⟩ := bind_some_left e4
      cases e4
      exact ChaCha.backend_room h b _ _ _ _ _ _ e3
    · next hf => cases e1; exact ⟨rfl, fun h => absurd h hf⟩
  unfold ChaCha.lastBytes at e2
  split at e2
  · next hl =>
    simp only [Option.bind_eq_bind] at e2
    obtain ⟨x, -, e2⟩ := bind_some_left e2
    obtain ⟨y, -, e2⟩ := bind_some_left e2
    obtain ⟨z, e2, -⟩ := bind_some_left e2
    have := (xorMem_room h _ _ x.2 _ 0 m1 z e2).2 hl
    rw [Nat.mul_comm (n / _)] at this
    omega
  · next hl =>
    have hl : n % (64 * (b.impl h).ratio) = 0 := by omega
    rw [hl, Nat.add_zero] at hd
    by_cases hf : n / (64 * (b.impl h).ratio) = 0
    · rw [hf] at hd; omega
    · have := h1.2 hf; omega

private theorem prod_room (h : Host) (b : CipherBackend) (buf : List Byte) (fill : Nat) (st : List W32) (mem : List Byte) (dst src n : Nat)
    (h0 : n ≠ 0) (r : ChaCha.Prod) (e : ChaCha.prodXor h (b.impl h) buf fill st mem dst src n = some r) : dst + n ≤ mem.length := by
  unfold ChaCha.prodXor at e
  simp only at e
  split at e
  · split at e
    · cases e
    · simp only [Option.bind_eq_bind] at e
      obtain ⟨k, -, e⟩ := bind_some_left e
      obtain ⟨m, e1, e⟩ := bind_some_left e
      obtain ⟨h1, h2⟩ := xorMem_room h dst src k _ 0 mem m e1
      split at e
      · have := h2 (by omega); omega
      · have := rest_room h b buf st m _ _ _ r e
        rw [h1] at this
        by_cases h3 : n - min (64 * (b.impl h).ratio - fill) n = 0
        · have := h2 (by omega); omega
        · have := this h3; omega
  · exact rest_room h b buf st mem dst src n r e h0

private theorem cipher_none (h : Host) (b : CipherBackend) (o : ChaCha.Obj) (x : List Byte) (d : List Byte) (h1 : d.length < x.length) :
    ChaCha.encrypt h (b.impl h) o (x ++ d) 0 x.length x.length = none ∧ ChaCha.decrypt h (b.impl h) o (x ++ d) 0 x.length x.length = none := by
  have hp : ChaCha.prodXor h (b.impl h) o.buffer o.bufferSize o.state (x ++ d) x.length 0 x.length = none := by
    cases e : ChaCha.prodXor h (b.impl h) o.buffer o.bufferSize o.state (x ++ d) x.length 0 x.length with
    | none => rfl
    | some r =>
      have := prod_room h b _ _ _ _ _ _ _ (by omega) r e
      rw [List.length_append] at this
      omega
  unfold ChaCha.encrypt ChaCha.decrypt
  rw [hp]
  exact ⟨rfl, rfl⟩

/-- C54 fails for ciphers: a container of fixed size that is shorter than the text is written past its end (undefined behaviour), whatever the state of the
object, the backend and the length of the text. -/
theorem C54_cipher_overrun_wrong (h : Host) (b : CipherBackend) (o : ChaCha.Obj) (x d : List Byte) (h1 : d.length < x.length) :
    Cipher.encryptC h (b.impl h) o x ⟨false, d⟩ = none ∧ Cipher.decryptC h (b.impl h) o x ⟨false, d⟩ = none := by
  unfold Cipher.encryptC Cipher.decryptC Container.resize
  simp only [Bool.false_eq_true, if_false, Option.bind_eq_bind]
  rw [(cipher_none h b o x d h1).1, (cipher_none h b o x d h1).2]
  exact ⟨rfl, rfl⟩

/-- C54 fails for AEAD likewise, and there the one-shot `encrypt` and `decrypt` too. -/
theorem C54_aead_overrun_wrong (h : Host) (b : CipherBackend) (o : AeadApie.Obj (Aead.poly h)) (key iv ad x d tag : List Byte) (dig : Container)
    (hasError : Bool) (h1 : d.length < x.length) :
    AeadApie.encryptC h (b.impl h) o x ⟨false, d⟩ = none ∧ AeadApie.decryptC h (b.impl h) o x ⟨false, d⟩ = none ∧
      AeadApie.sealC h b key iv ad x ⟨false, d⟩ dig = none ∧ AeadApie.openC h b hasError key iv ad x tag ⟨false, d⟩ = none := by
  have he : ∀ o : AeadApie.Obj (Aead.poly h), AeadApie.encryptC h (b.impl h) o x ⟨false, d⟩ = none := by
    intro o
    unfold AeadApie.encryptC AeadApie.encrypt Aead.encrypt Container.resize
    simp only [Bool.false_eq_true, if_false, Option.bind_eq_bind]
    cases AeadApie.doFinalizeAad o with
    | none => rfl
    | some o => simp only [Option.bind_some]; rw [(cipher_none h b _ x d h1).1]; rfl
  have hd : ∀ o : AeadApie.Obj (Aead.poly h), AeadApie.decryptC h (b.impl h) o x ⟨false, d⟩ = none := by
    intro o
    unfold AeadApie.decryptC AeadApie.decrypt Aead.decrypt Container.resize
    simp only [Bool.false_eq_true, if_false, Option.bind_eq_bind]
    cases AeadApie.doFinalizeAad o with
    | none => rfl
    | some o =>
      simp only [Option.bind_some, (cipher_none h b _ x d h1).2, Option.bind_none, Option.bind_fun_none]
  refine ⟨he o, hd o, ?_, ?_⟩
  · unfold AeadApie.sealC
    simp only [he, Option.bind_eq_bind, Option.bind_none, Option.bind_fun_none]
  · unfold AeadApie.openC
    simp only [hd, Option.bind_eq_bind, Option.bind_none, Option.bind_fun_none]

/-- Hypotheses met: 1000 bytes into 999 bytes, with the AVX2 backend (whole blocks, then a rest), by an initialised object; with room for one more byte
the same call is answered. -/
example (key iv : List Byte) :
    Cipher.run ⟨.little, false, none⟩ ((CipherBackend.avx2 fun i _ => BitVec.ofNat 32 i).impl ⟨.little, false, none⟩)
      [.init key iv, .encryptC (List.replicate 1000 7) ⟨false, List.replicate 999 0⟩] = none ∧
    ∃ o, Cipher.run ⟨.little, false, none⟩ ((CipherBackend.avx2 fun i _ => BitVec.ofNat 32 i).impl ⟨.little, false, none⟩)
      [.init key iv, .encryptC (List.replicate 1000 7) ⟨false, List.replicate 1000 0⟩] = some o := by
  constructor
  · have he := fun o => (C54_cipher_overrun_wrong ⟨.little, false, none⟩ (.avx2 fun i _ => BitVec.ofNat 32 i) o (List.replicate 1000 7) (List.replicate 999 0)
      (by rw [List.length_replicate, List.length_replicate]; omega)).1
    simp only [Cipher.run, runCalls, Cipher.exec, he, Option.bind_eq_bind, Option.bind_none, Option.bind_fun_none]
  · obtain ⟨o, outs, e, -⟩ := Cipher.run_eq ⟨.little, false, none⟩ (backendLawful ⟨.little, false, none⟩ (.avx2 fun i _ => BitVec.ofNat 32 i)) [] (by simp) key iv
      [.encryptC (List.replicate 1000 7) ⟨false, List.replicate 1000 0⟩] (by
        intro c hc
        rw [List.mem_singleton] at hc
        subst hc
        exact ⟨fun _ => by simp only [List.length_replicate]; omega, trivial⟩)
    exact ⟨_, e⟩

private theorem b16_encode_room (x : List Byte) : ∀ (i : Nat) (out o : List Byte), Base16.encodeLoop x i out = some o → o.length = out.length ∧ (x ≠ [] → i + 2 * x.length ≤ out.length) := by
  induction x with
  | nil => intro i out o e; cases e; exact ⟨rfl, fun h => absurd rfl h⟩
  | cons b x ih =>
    intro i out o e
    simp only [Base16.encodeLoop, Option.bind_eq_bind] at e
    obtain ⟨o1, e1, e⟩ := bind_some_left e
    obtain ⟨o2, e2, e⟩ := bind_some_left e
    obtain ⟨h1, h2⟩ := wr1_lt e1
    obtain ⟨h3, h4⟩ := wr1_lt e2
    obtain ⟨h5, h6⟩ := ih _ _ _ e
    refine ⟨by omega, fun _ => ?_⟩
    rw [List.length_cons]
    by_cases hx : x = []
    · subst hx; simp only [List.length_nil]; omega
    · have := h6 hx; omega

private theorem b64_encode_room (src : List Byte) (k : Nat) : ∀ (fr i : Nat) (out o : List Byte), Base64.encodeLoop src k fr i out = some o →
    o.length = out.length ∧ (k ≠ 0 → i + 4 * k ≤ out.length) := by
  induction k with
  | zero => intro fr i out o e; cases e; exact ⟨rfl, fun h => absurd rfl h⟩
  | succ k ih =>
    intro fr i out o e
    simp only [Base64.encodeLoop, Option.bind_eq_bind] at e
    obtain ⟨_, _, e⟩ := bind_some_left e
    obtain ⟨_, _, e⟩ := bind_some_left e
    obtain ⟨_, _, e⟩ := bind_some_left e
    obtain ⟨o1, e1, e⟩ := bind_some_left e
    obtain ⟨o2, e2, e⟩ := bind_some_left e
    obtain ⟨o3, e3, e⟩ := bind_some_left e
    obtain ⟨o4, e4, e⟩ := bind_some_left e
    have := wr1_lt e1
    have := wr1_lt e2
    have := wr1_lt e3
    have := wr1_lt e4
    obtain ⟨h5, h6⟩ := ih _ _ _ _ e
    refine ⟨by omega, fun _ => ?_⟩
    by_cases hx : k = 0
    · subst hx; omega
    · have := h6 hx; omega

private theorem b16_decode_room (sg : Bool) (src : List Byte) (ret to_ : Nat) (k : Nat) : ∀ (i fr : Nat) (out : List Byte) (d : Base16.Decoded),
    ((src.drop fr).take (2 * k)).all (Base16.lax sg) = true → Base16.decodeLoop sg src ret to_ k i fr out = some d → k ≠ 0 → to_ + i + k ≤ out.length := by
  induction k with
  | zero => intro i fr out d _ _ h; exact absurd rfl h
  | succ k ih =>
    intro i fr out d hl e _
    simp only [Base16.decodeLoop, Option.bind_eq_bind] at e
    obtain ⟨c0, e0, e⟩ := bind_some_left e
    obtain ⟨c1, e1, e⟩ := bind_some_left e
    have f1 : fr + 1 < src.length := by
      unfold rd1 at e1; exact (List.getElem?_eq_some_iff.mp e1).1
    have htake : (src.drop fr).take (2 * (k + 1)) = src[fr + 0] :: src[fr + 1] :: (src.drop (fr + 2)).take (2 * k) := by
      rw [List.drop_eq_getElem_cons (show fr < src.length by omega), List.drop_eq_getElem_cons (show fr + 1 < src.length by omega)]
      rfl
    rw [rd1_lt _ _ (by omega)] at e0
    rw [rd1_lt _ _ f1] at e1
    cases e0; cases e1
    rw [htake] at hl
    simp only [List.all_cons, Bool.and_eq_true] at hl
    simp only [Base16.sameInt_lax, hl.1, hl.2.1, Bool.not_true, Bool.or_self, Bool.false_eq_true, if_false] at e
    obtain ⟨o1, e1, e⟩ := bind_some_left e
    obtain ⟨h1, h2⟩ := wr1_lt e1
    by_cases hk : k = 0
    · subst hk; omega
    · have := ih _ _ _ _ hl.2.2 e hk
      omega

private theorem none_of {α : Type} {x : Option α} (h : ∀ a, x = some a → False) : x = none := by
  cases x with
  | none => rfl
  | some a => exact (h a rfl).elim

/-- C54 fails for the codecs: encoding into a container of fixed size shorter than the text it is to hold writes past its end, and so does decoding a
well-formed text into a container too short for its bytes. -/
theorem C54_codec_overrun_wrong (sg : Bool) (x d : List Byte) :
    (d.length < (hexEncode x).length → Codec.encode (Codec.base16 sg) x ⟨false, d⟩ = none) ∧
    (d.length < (b64Encode x).length → Codec.encode (Codec.base64 sg) x ⟨false, d⟩ = none) ∧
    (∀ txt, hexDecode txt = some x → d.length < x.length → Codec.decode (Codec.base16 sg) txt ⟨false, d⟩ = none) ∧
    (∀ txt, b64Decode txt = some x → d.length < x.length → Codec.decode (Codec.base64 sg) txt ⟨false, d⟩ = none) := by
  refine ⟨fun h => ?_, fun h => ?_, fun txt ht h => ?_, fun txt ht h => ?_⟩
  · rw [Base16.hexEncode_length] at h
    have : Base16.encode x d = none := none_of fun o e => by
      simp only [Base16.encode, Option.bind_eq_bind] at e
      obtain ⟨o, e, -⟩ := bind_some_left e
      have := (b16_encode_room x 0 d o e).2 (by rintro rfl; simp at h)
      omega
    simp only [Codec.encode, Codec.base16, Container.resize, Bool.false_eq_true, if_false, this, Option.bind_eq_bind, Option.bind_none]
  · rw [Base64.b64Encode_length] at h
    have : Base64.encode x d = none := none_of fun o e => by
      simp only [Base64.encode, Option.bind_eq_bind] at e
      obtain ⟨o1, e1, e⟩ := bind_some_left e
      obtain ⟨h1, h2⟩ := b64_encode_room x _ _ _ _ _ e1
      split at e
      · obtain ⟨_, _, e⟩ := bind_some_left e
        obtain ⟨_, _, e⟩ := bind_some_left e
        obtain ⟨o2, e2, e⟩ := bind_some_left e
        obtain ⟨o3, e3, e⟩ := bind_some_left e
        obtain ⟨o4, e4, e⟩ := bind_some_left e
        obtain ⟨o5, e5, e⟩ := bind_some_left e
        have := wr1_lt e2
        have := wr1_lt e3
        have := wr1_lt e4
        have := wr1_lt e5
        omega
      · next hx =>
        have hx : x.length % 3 = 0 := by omega
        have := h2 (by omega)
        omega
    simp only [Codec.encode, Codec.base64, Container.resize, Bool.false_eq_true, if_false, this, Option.bind_eq_bind, Option.bind_none]
  · have hl := Base16.hexDecode_length ht
    have hall : txt.all (Base16.lax sg) = true := by
      have := Base16.hexDecode_isSome txt
      rw [ht] at this
      simp only [Option.isSome_some, Bool.true_eq, Bool.and_eq_true, List.all_eq_true] at this
      rw [List.all_eq_true]
      intro c hc
      unfold Base16.lax
      rw [this.2 c hc]; rfl
    have : Base16.decode sg txt d = none := none_of fun o e => by
      have h1 : txt.length >>> 1 = x.length := by rw [Nat.shiftRight_eq_div_pow]; omega
      have h2 : txt.length &&& 1 = 0 := by rw [Nat.and_one_is_mod]; omega
      unfold Base16.decode at e
      simp only [h1, h2, ne_eq, not_true_eq_false, if_false, Nat.sub_zero] at e
      have := b16_decode_room sg txt _ 0 x.length 0 0 d o (by rw [List.drop_zero, List.take_of_length_le (by omega)]; exact hall) e (by omega)
      omega
    simp only [Codec.decode, Codec.base16, Container.resize, Bool.false_eq_true, if_false, this, Option.bind_eq_bind, Option.bind_none]
  · have : Base64.decode sg txt d = none := none_of fun o e => by
      have := Base64.decode_room sg txt d o (Base64.b64Decode_length ht) e
      rw [Base64.laxDecode_valid sg _ _ ht] at this
      exact absurd h (Nat.not_lt.mpr this)
    simp only [Codec.decode, Codec.base64, Container.resize, Bool.false_eq_true, if_false, this, Option.bind_eq_bind, Option.bind_none]

/-- Hypotheses met: two bytes into a three-byte array, and back into a one-byte array. -/
example : Codec.encode (Codec.base16 true) [1, 2] ⟨false, [0, 0, 0]⟩ = none ∧ Codec.encode (Codec.base64 true) [1, 2] ⟨false, [0, 0, 0]⟩ = none ∧
    Codec.decode (Codec.base16 true) (hexEncode [1, 2]) ⟨false, [0]⟩ = none ∧ Codec.decode (Codec.base64 true) (b64Encode [1, 2]) ⟨false, [0]⟩ = none :=
  ⟨(C54_codec_overrun_wrong true [1, 2] [0, 0, 0]).1 (by decide), (C54_codec_overrun_wrong true [1, 2] [0, 0, 0]).2.1 (by decide),
    (C54_codec_overrun_wrong true [1, 2] [0]).2.2.1 _ (by decide) (by decide), (C54_codec_overrun_wrong true [1, 2] [0]).2.2.2 _ (by decide) (by decide)⟩

/-- C54 where the container has room, for the codecs: the result is its beginning and the rest is unchanged; the size returned is that of the result.
Missing: containers without room, where the claim is false (the `C54_…_wrong` theorems). -/
theorem C54_codec_room_partial (sg : Bool) (x d : List Byte) :
    ((hexEncode x).length ≤ d.length → Codec.encode (Codec.base16 sg) x ⟨false, d⟩ = some (⟨false, hexEncode x ++ d.drop (hexEncode x).length⟩, (hexEncode x).length)) ∧
    ((b64Encode x).length ≤ d.length → Codec.encode (Codec.base64 sg) x ⟨false, d⟩ = some (⟨false, b64Encode x ++ d.drop (b64Encode x).length⟩, (b64Encode x).length)) ∧
    (x.length ≤ d.length → ∀ txt, (hexDecode txt = some x → Codec.decode (Codec.base16 sg) txt ⟨false, d⟩ = some (⟨false, x ++ d.drop x.length⟩, x.length, .none)) ∧
      (b64Decode txt = some x → Codec.decode (Codec.base64 sg) txt ⟨false, d⟩ = some (⟨false, x ++ d.drop x.length⟩, x.length, .none))) := by
  refine ⟨fun h => ?_, fun h => ?_, fun h txt => ⟨fun ht => ?_, fun ht => ?_⟩⟩
  · rw [Base16.hexEncode_length] at h ⊢
    simp only [Codec.encode, Codec.base16, Container.resize, Bool.false_eq_true, if_false, Base16.encode_eq x d h, Option.bind_eq_bind, Option.bind_some, pure, Container.withData]
  · rw [Base64.b64Encode_length] at h ⊢
    simp only [Codec.encode, Codec.base64, Container.resize, Bool.false_eq_true, if_false, Base64.encode_eq x d h, Option.bind_eq_bind, Option.bind_some, pure, Container.withData]
  · simp only [Codec.decode, Codec.base16, Container.resize, Bool.false_eq_true, if_false, Base16.decode_valid sg txt d x ht h, Option.bind_eq_bind, Option.bind_some, pure, Container.withData]
  · simp only [Codec.decode, Codec.base64, Container.resize, Bool.false_eq_true, if_false, C08_base64_wellformed_accepted sg txt d x ht h, Option.bind_eq_bind, Option.bind_some, pure, Container.withData]

/-- Hypotheses met. -/
example : Codec.encode (Codec.base16 true) [1, 0xf2] ⟨false, [9, 9, 9, 9, 9]⟩ = some (⟨false, [0x30, 0x31, 0x66, 0x32, 9]⟩, 4) :=
  (C54_codec_room_partial true [1, 0xf2] [9, 9, 9, 9, 9]).1 (by decide)

/-- C54 where the container has room, for ciphers: the beginning is the result and the rest is unchanged. (For AEAD: `C35_aead_oneshot`.)
Missing: containers without room, where the claim is false. -/
theorem C54_cipher_room_partial (h : Host) (b : CipherBackend) (key iv x d : List Byte) (hd : x.length ≤ d.length) :
    ∃ o, Cipher.run h (b.impl h) [.init key iv, .encryptC x ⟨false, d⟩] = some (o, [(Spec.chacha key iv 0 x ++ d.drop x.length, x.length)]) := by
  obtain ⟨o, outs, e, e1⟩ := Cipher.run_eq h (backendLawful h b) [] (by simp) key iv [.encryptC x ⟨false, d⟩] (by
    intro c hc
    rw [List.mem_singleton] at hc
    subst hc
    exact ⟨fun _ => hd, trivial⟩)
  simp only [Cipher.run, runCalls, Option.map_some, Option.some.injEq] at e1
  subst e1
  refine ⟨o, ?_⟩
  rw [List.nil_append, List.nil_append] at e
  rw [e]
  simp only [Spec.cipherOuts, Spec.cipherPlaced, Spec.cipherText, chacha_length, Bool.false_eq_true, if_false]

/-- Hypotheses met. -/
example : ∃ o, Cipher.run ⟨.little, false, none⟩ (CipherBackend.impl ⟨.little, false, none⟩ .portable) [.init [1] [2], .encryptC [1, 2] ⟨false, [7, 8, 9]⟩]
    = some (o, [(Spec.chacha [1] [2] 0 [1, 2] ++ [9], 2)]) :=
  C54_cipher_room_partial ⟨.little, false, none⟩ .portable [1] [2] [1, 2] [7, 8, 9] (by decide)

/-! ## C55 -/

private theorem laxDecode_bad (sg : Bool) (p r q : List Byte) (hp : b64Decode p = some r) (hnp : pad ∉ p) (hq : q ≠ []) (hb : Base64.laxDecode sg q = ([], false)) :
    Base64.laxDecode sg (p ++ q) = (r, false) := by
  induction p using Base64.groups generalizing r with
  | nil => simp [b64Decode] at hp; subst hp; exact hb
  | one c0 c1 c2 c3 =>
    have hv := Base64.laxDecode_valid sg _ _ hp
    simp only [List.mem_cons, List.not_mem_nil, or_false, not_or] at hnp
    simp only [List.cons_append, List.nil_append]
    rw [Base64.laxDecode_cons _ _ _ _ _ _ hq, hb]
    simp only [Base64.laxDecode, Ne.symm hnp.2.2.1, Ne.symm hnp.2.2.2, if_false] at hv
    cases h0 : Base64.lax sg c0 <;> cases h1 : Base64.lax sg c1 <;> cases h2 : Base64.lax sg c2 <;> cases h3 : Base64.lax sg c3 <;> simp [h0, h1, h2, h3] at hv ⊢
    exact hv
  | more c0 c1 c2 c3 rest hr ih =>
    have hv := Base64.laxDecode_valid sg _ _ hp
    have hrest : ∃ r', b64Decode rest = some r' := by
      match rest, hr with
      | d :: rest, _ =>
        simp only [b64Decode, Option.bind_eq_bind, Option.bind_eq_some_iff, Option.some.injEq] at hp
        obtain ⟨_, _, _, _, _, _, _, _, r', hr', -⟩ := hp
        exact ⟨r', hr'⟩
    obtain ⟨r', hr'⟩ := hrest
    have hi := ih r' hr' (fun h => hnp (by simp [h]))
    simp only [List.cons_append]
    rw [Base64.laxDecode_cons _ _ _ _ _ _ (by simp [hr]), hi]
    rw [Base64.laxDecode_cons _ _ _ _ _ _ hr, Base64.laxDecode_valid sg _ _ hr'] at hv
    split at hv
    · next hl => rw [if_pos hl]; simp only [Prod.mk.injEq, and_true] at hv; rw [hv]
    · simp at hv
  | other l hl => rcases hl with ⟨_, rfl⟩ | ⟨_, _, rfl⟩ | ⟨_, _, _, rfl⟩ <;> simp [b64Decode] at hp

/-- C55 for Base64: a text of a length that is no multiple of four is rejected with size 0 and nothing written; otherwise, with `p` the groups before the first bad
group, the error comes with the number of bytes `p` spells, and these are written.
Missing: Base16 (false: `C55_base16_error_size_wrong`), and characters with the top bit set on targets with signed `char` (accepted: `C08_base64_accepts_garbage`). -/
theorem C55_base64_error_size_partial (sg : Bool) (out : List Byte) :
    (∀ txt, txt.length % 4 ≠ 0 → Base64.decode sg txt out = some ⟨out, 0, .codecBase64Decode⟩) ∧
    (∀ p r c0 c1 c2 c3 rest, b64Decode p = some r → pad ∉ p → (if rest = [] then b64Decode [c0, c1, c2, c3] = none else ∃ c ∈ [c0, c1, c2, c3], sextetValue c = none) →
      (sg = false ∨ ∀ c ∈ [c0, c1, c2, c3], c.toNat < 128) → rest.length % 4 = 0 → r.length ≤ out.length →
      Base64.decode sg (p ++ [c0, c1, c2, c3] ++ rest) out = some ⟨r ++ out.drop r.length, r.length, .codecBase64Decode⟩) := by
  refine ⟨fun txt h => Base64.decode_badLength sg txt out h, fun p r c0 c1 c2 c3 rest hp hnp hbad h7 hrl ho => ?_⟩
  have hb : Base64.laxDecode sg ([c0, c1, c2, c3] ++ rest) = ([], false) := by
    by_cases hr : rest = []
    · subst hr
      rw [if_pos rfl] at hbad
      have hs := fun h => Base64.laxDecode_strict sg [c0, c1, c2, c3] h7 h
      rw [hbad] at hs
      simp only [List.append_nil]
      simp only [Base64.laxDecode] at hs ⊢
      repeat' split
      all_goals first | rfl | (exfalso; simp_all)
    · rw [if_neg hr] at hbad
      simp only [List.cons_append, List.nil_append]
      rw [Base64.laxDecode_cons _ _ _ _ _ _ hr, if_neg]
      intro hl
      simp only [Bool.and_eq_true] at hl
      obtain ⟨c, hc, hv⟩ := hbad
      have hlc : Base64.lax sg c = false := by
        rw [Base64.lax_strict (by rcases h7 with h | h; exact .inl h; exact .inr (h c hc)), hv]; rfl
      simp only [List.mem_cons, List.not_mem_nil, or_false] at hc
      rcases hc with rfl | rfl | rfl | rfl <;> simp_all
  have he := laxDecode_bad sg p r ([c0, c1, c2, c3] ++ rest) hp hnp (by simp) hb
  have := Base64.decode_eq sg (p ++ ([c0, c1, c2, c3] ++ rest)) out (by have := Base64.b64Decode_length hp; simp; omega) (by rw [he]; exact ho)
  rw [he] at this
  rw [List.append_assoc, this]
  rfl

/-- Hypotheses met: "QUJD" then a group with '!', then another. -/
example : Base64.decode true ([0x51, 0x55, 0x4a, 0x44] ++ [0x51, 0x21, 0x51, 0x51] ++ [0x51, 0x51, 0x51, 0x51]) [9, 9, 9, 9]
    = some ⟨[0x41, 0x42, 0x43, 9], 3, .codecBase64Decode⟩ :=
  (C55_base64_error_size_partial true [9, 9, 9, 9]).2 [0x51, 0x55, 0x4a, 0x44] [0x41, 0x42, 0x43] 0x51 0x21 0x51 0x51 [0x51, 0x51, 0x51, 0x51] (by decide) (by decide)
    (by rw [if_neg (by simp)]; exact ⟨0x21, by simp, by decide⟩) (.inr (by decide)) rfl (by decide)

private theorem b16_bad (sg : Bool) (ret to_ : Nat) (txt spre spost opre omid opost : List Byte) (c0 c1 : Byte) (r : List Byte) (i : Nat)
    (hb : (Base16.lax sg c0 && Base16.lax sg c1) = false) (hr : hexDecode txt = some r) (ho : omid.length = r.length) (hi : to_ + i = opre.length) (k : Nat) (hk : r.length < k) :
    Base16.decodeLoop sg (spre ++ txt ++ (c0 :: c1 :: spost)) ret to_ k i spre.length (opre ++ omid ++ opost)
      = some ⟨opre ++ r ++ opost, spre.length + txt.length, .codecBase16Decode⟩ := by
  induction txt using hexDecode.induct generalizing spre opre omid r i k with
  | case1 =>
    simp [hexDecode] at hr; subst hr; simp at ho; subst ho
    obtain ⟨k, rfl⟩ : ∃ k', k = k' + 1 := ⟨k - 1, by simp at hk; omega⟩
    have e0 : rd1 (spre ++ [] ++ (c0 :: c1 :: spost)) (spre.length + 0) = some c0 := by simp [rd1]
    have e1 : rd1 (spre ++ [] ++ (c0 :: c1 :: spost)) (spre.length + 1) = some c1 := by simp [rd1]
    simp only [Base16.decodeLoop, e0, e1, Option.bind_eq_bind, Option.bind_some, Base16.sameInt_lax]
    have : (!Base16.lax sg c0 || !Base16.lax sg c1) = true := by
      cases h0 : Base16.lax sg c0 <;> cases h1 : Base16.lax sg c1 <;> simp_all
    rw [if_pos this]
    simp
  | case2 => simp [hexDecode] at hr
  | case3 d0 d1 rest ih =>
    simp only [hexDecode, Option.bind_eq_bind, Option.bind_eq_some_iff, Option.some.injEq] at hr
    obtain ⟨h, hh, l, hl, r', hr', rfl⟩ := hr
    match omid, ho with
    | o :: omid, ho =>
      obtain ⟨k, rfl⟩ : ∃ k', k = k' + 1 := ⟨k - 1, by simp at hk; omega⟩
      have e0 : rd1 (spre ++ d0 :: d1 :: rest ++ (c0 :: c1 :: spost)) (spre.length + 0) = some d0 := by simp [rd1]
      have e1 : rd1 (spre ++ d0 :: d1 :: rest ++ (c0 :: c1 :: spost)) (spre.length + 1) = some d1 := by simp [rd1]
      simp only [Base16.decodeLoop, e0, e1, Option.bind_eq_bind, Option.bind_some, Base16.sameInt_lax]
      have l0 : Base16.lax sg d0 = true := by simp [Base16.lax, hh]
      have l1 : Base16.lax sg d1 = true := by simp [Base16.lax, hl]
      simp only [l0, l1, Bool.not_true, Bool.or_self, Bool.false_eq_true, if_false]
      rw [show opre ++ o :: omid ++ opost = opre ++ o :: (omid ++ opost) by simp, wr1_append' _ _ _ _ _ hi]
      simp only [Option.bind_some]
      rw [Base16.pair_val hh hl]
      have := ih (spre ++ [d0, d1]) (opre ++ [BitVec.ofNat 8 (16 * h + l)]) omid r' (i + 1) hr' (by simpa using ho) (by simp; omega) k (by simp at hk; omega)
      simp only [List.length_append, List.length_cons, List.length_nil, List.append_assoc, List.cons_append, List.nil_append] at this ⊢
      rw [this]
      congr 2
      omega

/-- C55 is false for Base16: with `p` the pairs before the first bad pair and `r` their bytes, the size returned is the number of characters of `p`, twice the number
of bytes written. -/
theorem C55_base16_error_size_wrong (sg : Bool) (p r : List Byte) (c0 c1 : Byte) (rest out : List Byte) (hp : hexDecode p = some r)
    (hbad : hexValue c0 = none ∨ hexValue c1 = none) (h7 : sg = false ∨ (c0.toNat < 128 ∧ c1.toNat < 128)) (hr : rest.length % 2 = 0) (ho : r.length ≤ out.length) :
    Base16.decode sg (p ++ c0 :: c1 :: rest) out = some ⟨r ++ out.drop r.length, 2 * r.length, .codecBase16Decode⟩ := by
  have hl := Base16.hexDecode_length hp
  have hb : (Base16.lax sg c0 && Base16.lax sg c1) = false := by
    unfold Base16.lax
    rcases h7 with rfl | ⟨h0, h1⟩
    · rcases hbad with h | h <;> simp [h]
    · have h0 : ¬ 128 ≤ c0.toNat := by omega
      have h1 : ¬ 128 ≤ c1.toNat := by omega
      rcases hbad with h | h <;> simp [h, h0, h1]
  have hlen : (p ++ c0 :: c1 :: rest).length = 2 * (r.length + 1 + rest.length / 2) := by simp; omega
  have h1 : (p ++ c0 :: c1 :: rest).length >>> 1 = r.length + 1 + rest.length / 2 := by rw [Nat.shiftRight_eq_div_pow, hlen]; omega
  have h2 : (p ++ c0 :: c1 :: rest).length &&& 1 = 0 := by rw [Nat.and_one_is_mod, hlen]; omega
  unfold Base16.decode
  simp only [h1, h2]
  have := b16_bad sg (r.length + 1 + rest.length / 2) 0 p [] rest [] (out.take r.length) (out.drop r.length) c0 c1 r 0 hb hp (by simp; omega) (by simp)
    (r.length + 1 + rest.length / 2) (by omega)
  simpa [hl] using this

/-- Hypotheses met, and the size returned exceeds even `decode_size` ("aaaa!!": 4 against 3). -/
example : Base16.decode true ([0x61, 0x61, 0x61, 0x61] ++ 0x21 :: 0x21 :: []) [9, 9, 9] = some ⟨[0xaa, 0xaa, 9], 4, .codecBase16Decode⟩ ∧ Base16.decodeSize 6 = 3 :=
  ⟨C55_base16_error_size_wrong true [0x61, 0x61, 0x61, 0x61] [0xaa, 0xaa] 0x21 0x21 [] [9, 9, 9] (by decide) (.inl (by decide)) (.inr (by decide)) rfl (by decide), by decide⟩

end Milo.Props
