import Verif.Proof.Cipher
/-
Property theorems C29-C34 (ChaCha20), and the cipher part of C49.

`Cipher.run h B calls` is a default-constructed `chacha_20` object with backend `B` and a sequence of calls (`initialize`, `encrypt`, `decrypt` on memory or
on containers), with everything they output; `none` would be undefined behaviour. `cipherText c` is the text call `c` works on, `cipherResult c out` the
result in what it outputs.
-/
namespace Milo.Props
open Milo Spec Cipher

/-- Any use of the object `pre`, then `initialize(key, iv)`, then calls `cs`. -/
def ciphering (pre : List Cipher.Call) (key iv : List Byte) (cs : List Cipher.Call) : List Cipher.Call := pre ++ .init key iv :: cs

/-- The calls on a text: allowed, and none of them `initialize`. -/
def Texts (cs : List Cipher.Call) : Prop := ∀ c ∈ cs, c.Ok ∧ ∀ key iv, c ≠ .init key iv

theorem Texts.notInit {cs : List Cipher.Call} (h : Texts cs) : ∀ c ∈ cs, c.Ok ∧ NotInit c := fun c hc => by
  obtain ⟨h1, h2⟩ := h c hc
  refine ⟨h1, ?_⟩
  cases c <;> first | trivial | exact absurd rfl (h2 _ _)

/-- The results of calls `cs` in their outputs, put together. -/
def cipherResults (cs : List Cipher.Call) (outs : List Cipher.Out) : List Byte := (List.zipWith cipherResult cs outs).flatten

theorem chacha_length (key iv : List Byte) (pos : Nat) (t : List Byte) : (chacha key iv pos t).length = t.length := by
  simp [chacha, ChaCha.cryptFrom]

theorem cryptFrom_append (key : List Byte) (c : BitVec 32) (n : List Byte) (pos : Nat) (a b : List Byte) :
    ChaCha.cryptFrom key c n pos (a ++ b) = ChaCha.cryptFrom key c n pos a ++ ChaCha.cryptFrom key c n (pos + a.length) b := by
  unfold ChaCha.cryptFrom
  have : (fun i x => x ^^^ ChaCha.keyByte key c n (pos + (i + a.length))) = fun i x => x ^^^ ChaCha.keyByte key c n (pos + a.length + i) := by
    funext i x
    rw [Nat.add_assoc, Nat.add_comm i]
  rw [List.mapIdx_append, this]

theorem result_placed (c : Cipher.Call) (hc : c.Ok) (hn : NotInit c) (r : List Byte) (hr : r.length = (cipherText c).length) :
    cipherResult c (cipherPlaced r c, r.length) = r := by
  cases c with
  | init => exact hn.elim
  | encrypt mem src n dst =>
    obtain ⟨-, h1, h2⟩ := hc
    simp only [cipherText, List.length_take, List.length_drop] at hr
    simp only [cipherResult, cipherPlaced]
    rw [List.append_assoc, List.drop_left' (by simp; omega), List.take_left' (by omega)]
  | decrypt mem src n dst =>
    obtain ⟨-, h1, h2⟩ := hc
    simp only [cipherText, List.length_take, List.length_drop] at hr
    simp only [cipherResult, cipherPlaced]
    rw [List.append_assoc, List.drop_left' (by simp; omega), List.take_left' (by omega)]
  | encryptC x tgt => simp only [cipherResult, cipherPlaced]; split <;> simp
  | decryptC x tgt => simp only [cipherResult, cipherPlaced]; split <;> simp
  | encryptSelf c => simp [cipherResult, cipherPlaced]
  | decryptSelf c => simp [cipherResult, cipherPlaced]

theorem outs_results (key iv : List Byte) (cs : List Cipher.Call) (hc : ∀ c ∈ cs, c.Ok ∧ NotInit c) (pos : Nat) :
    cipherResults cs (cipherOuts key iv pos cs) = chacha key iv pos (cs.map cipherText).flatten ∧ (cipherOuts key iv pos cs).length = cs.length ∧
      (cipherOuts key iv pos cs).map (·.2) = cs.map fun c => (cipherText c).length := by
  induction cs generalizing pos with
  | nil => exact ⟨rfl, rfl, rfl⟩
  | cons c cs ih =>
    obtain ⟨hc1, hc2⟩ := hc c List.mem_cons_self
    obtain ⟨i1, i2, i3⟩ := ih (fun c h => hc c (List.mem_cons_of_mem _ h)) (pos + (chacha key iv pos (cipherText c)).length)
    have hl := chacha_length key iv pos (cipherText c)
    refine ⟨?_, by simp [cipherOuts, i2], by simp only [cipherOuts, List.map_cons, i3]; rw [hl]⟩
    unfold cipherResults at i1 ⊢
    simp only [cipherOuts, List.zipWith_cons_cons, List.flatten_cons, i1, List.map_cons]
    rw [result_placed c hc1 hc2 _ hl, hl]
    exact (cryptFrom_append _ _ _ _ _ _).symm

/-! ## C29 -/

/-- C29: after any use of the object, on any host and with any backend: every call puts at its destination, and only there, its text xored with the next
bytes of the key stream (`Spec.cipherOuts`), and the results together are the RFC 8439 encryption of the texts together. -/
theorem C29_chacha20 (h : Host) (b : CipherBackend) (pre : List Cipher.Call) (hp : ∀ c ∈ pre, c.Ok) (key : List Byte) (hk : key.length = 32)
    (counter : BitVec 32) (nonce : List Byte) (hn : nonce.length = 12) (cs : List Cipher.Call) (hc : Texts cs) :
    ∃ o outs new, Cipher.run h (b.impl h) (ciphering pre key (leBytes 4 counter.toNat ++ nonce) cs) = some (o, outs ++ new) ∧
      new = cipherOuts key (leBytes 4 counter.toNat ++ nonce) 0 cs ∧ new.length = cs.length ∧
      cipherResults cs new = ChaCha.crypt key counter nonce (cs.map cipherText).flatten := by
  obtain ⟨o, outs, e, -⟩ := Cipher.run_eq h (backendLawful h b) pre hp key (leBytes 4 counter.toNat ++ nonce) cs hc.notInit
  obtain ⟨h1, h2, -⟩ := outs_results key (leBytes 4 counter.toNat ++ nonce) cs hc.notInit 0
  refine ⟨o, outs, _, e, rfl, h2, ?_⟩
  rw [h1]
  have hl : (leBytes 4 counter.toNat).length = 4 := by rw [Memory.spec_leBytes]; simp
  have e1 : padTo 32 key = key := by unfold padTo; exact List.take_left' hk
  have e2 : padTo 16 (leBytes 4 counter.toNat ++ nonce) = leBytes 4 counter.toNat ++ nonce := by
    unfold padTo; exact List.take_left' (by simp [hl, hn])
  unfold chacha ChaCha.crypt
  rw [e1, e2, List.take_left' hl, List.drop_left' hl]
  congr 1
  rw [Memory.spec_leNat, Memory.spec_leBytes]
  apply BitVec.eq_of_toNat_eq
  have := counter.isLt
  rw [BitVec.toNat_ofNat]
  have e3 : (Memory.ofBytes .little 4 (Memory.toBytes .little (n := 4) counter)) = counter := Memory.ofBytes_toBytes .little (n := 4) counter
  have e4 := congrArg BitVec.toNat e3
  simp only [Memory.ofBytes, Memory.toBytes, BitVec.toNat_ofNat] at e4
  exact e4

/-- Some calls: 70 bytes in place, 3 bytes between buffers, containers. -/
def egCalls : List Cipher.Call :=
  [.encrypt (List.replicate 80 3) 5 70 5, .encrypt [1, 2, 3, 9, 9, 9] 0 3 3, .encryptC [4, 5] ⟨false, [0, 0, 0]⟩, .decryptSelf ⟨true, [8]⟩]

theorem egCalls_texts : Texts egCalls := by
  intro c hc
  simp only [egCalls, List.mem_cons, List.not_mem_nil, or_false] at hc
  rcases hc with rfl | rfl | rfl | rfl <;> simp [Cipher.Call.Ok, Fits]

/-- Hypotheses of C29 met: a used object, calls of every kind; counter at its maximum. -/
example : ∃ o outs new, Cipher.run ⟨.big, true, none⟩ (CipherBackend.impl ⟨.big, true, none⟩ .portable)
    (ciphering [.encrypt [1, 2] 0 2 0, .init [] [], .decryptSelf ⟨true, [7]⟩] (List.replicate 32 1) (leBytes 4 (0xffffffff#32).toNat ++ List.replicate 12 2)
      egCalls) = some (o, outs ++ new) ∧
    new = cipherOuts (List.replicate 32 1) (leBytes 4 (0xffffffff#32).toNat ++ List.replicate 12 2) 0 egCalls ∧ new.length = 4 ∧
      cipherResults egCalls new = ChaCha.crypt (List.replicate 32 1) 0xffffffff (List.replicate 12 2) (List.replicate 70 3 ++ [1, 2, 3, 4, 5, 8]) := by
  have := C29_chacha20 ⟨.big, true, none⟩ .portable [.encrypt [1, 2] 0 2 0, .init [] [], .decryptSelf ⟨true, [7]⟩] (by simp [Cipher.Call.Ok, Fits])
    (List.replicate 32 1) (by simp) 0xffffffff (List.replicate 12 2) (by simp) egCalls egCalls_texts
  have e : (egCalls.map cipherText).flatten = List.replicate 70 3 ++ [1, 2, 3, 4, 5, 8] := by decide
  rwa [e] at this

/-- C29, the free functions: an object made from key and iv, and one call. -/
theorem C29_oneshot (h : Host) (b : CipherBackend) (key : List Byte) (hk : key.length = 32) (counter : BitVec 32) (nonce : List Byte) (hn : nonce.length = 12)
    (c : Cipher.Call) (hc : Texts [c]) :
    ∃ out, Cipher.oneshot h (b.impl h) key (leBytes 4 counter.toNat ++ nonce) c = some [out] ∧
      cipherResult c out = ChaCha.crypt key counter nonce (cipherText c) ∧ out.2 = (cipherText c).length := by
  obtain ⟨o, outs, e, hp⟩ := Cipher.run_eq h (backendLawful h b) [] (by simp) key (leBytes 4 counter.toNat ++ nonce) [c] hc.notInit
  obtain ⟨o', outs', new, e', hnew, hl, hr⟩ := C29_chacha20 h b [] (by simp) key hk counter nonce hn [c] hc
  obtain ⟨-, -, hs⟩ := outs_results key (leBytes 4 counter.toNat ++ nonce) [c] hc.notInit 0
  rw [← hnew] at hs
  match new, hl, hr, hs with
  | [out], _, hr, hs =>
    have hr : cipherResult c out ++ [] = ChaCha.crypt key counter nonce (cipherText c ++ []) := hr
    have hs : [out.2] = [(cipherText c).length] := hs
    rw [List.append_nil, List.append_nil] at hr
    refine ⟨out, ?_, hr, List.cons.inj hs |>.1⟩
    have e1 : outs = [] := by
      have : runCalls (Cipher.exec h (b.impl h)) ChaCha.fresh [] = some (ChaCha.fresh, []) := rfl
      simpa [Cipher.run, this] using hp.symm
    have e2 : outs ++ cipherOuts key (leBytes 4 counter.toNat ++ nonce) 0 [c] = [out] := by rw [e1, ← hnew]; rfl
    rw [e2] at e
    unfold Cipher.run at e
    rw [List.nil_append, runCalls] at e
    obtain ⟨⟨o1, x1⟩, h1, e⟩ := Option.bind_eq_some_iff.mp e
    obtain ⟨⟨o2, x2⟩, h2, e⟩ := Option.bind_eq_some_iff.mp e
    obtain ⟨o3, h3, h1⟩ := Option.bind_eq_some_iff.mp (show (ChaCha.init h ChaCha.fresh key (leBytes 4 counter.toNat ++ nonce)).bind _ = _ from h1)
    cases h1
    rw [runCalls] at h2
    obtain ⟨⟨o4, x4⟩, h4, h2⟩ := Option.bind_eq_some_iff.mp h2
    cases h2
    have e := congrArg (Option.map (·.2)) e
    have e : some (x4 ++ []) = some [out] := e
    rw [List.append_nil] at e
    unfold Cipher.oneshot
    rw [h3]
    show (Cipher.exec h (b.impl h) o1 c).bind _ = _
    rw [h4]
    exact e

/-! ## C30 -/

/-- C30: the results depend on the key, the iv and the texts put together only: not on how the text is split over calls, how the calls pass it, encryption or
decryption, earlier use, host, or backend. -/
theorem C30_split_independent (key iv : List Byte) (h1 h2 : Host) (b1 b2 : CipherBackend) (pre1 pre2 : List Cipher.Call) (hp1 : ∀ c ∈ pre1, c.Ok)
    (hp2 : ∀ c ∈ pre2, c.Ok) (cs1 cs2 : List Cipher.Call) (hc1 : Texts cs1) (hc2 : Texts cs2)
    (ht : (cs1.map cipherText).flatten = (cs2.map cipherText).flatten) :
    ∃ o1 o2 outs1 outs2 new1 new2, Cipher.run h1 (b1.impl h1) (ciphering pre1 key iv cs1) = some (o1, outs1 ++ new1) ∧
      Cipher.run h2 (b2.impl h2) (ciphering pre2 key iv cs2) = some (o2, outs2 ++ new2) ∧
      new1.length = cs1.length ∧ new2.length = cs2.length ∧ cipherResults cs1 new1 = cipherResults cs2 new2 := by
  obtain ⟨o1, outs1, e1, -⟩ := Cipher.run_eq h1 (backendLawful h1 b1) pre1 hp1 key iv cs1 hc1.notInit
  obtain ⟨o2, outs2, e2, -⟩ := Cipher.run_eq h2 (backendLawful h2 b2) pre2 hp2 key iv cs2 hc2.notInit
  obtain ⟨r1, l1, -⟩ := outs_results key iv cs1 hc1.notInit 0
  obtain ⟨r2, l2, -⟩ := outs_results key iv cs2 hc2.notInit 0
  exact ⟨o1, o2, outs1, outs2, _, _, e1, e2, l1, l2, by rw [r1, r2, ht]⟩

/-- Hypotheses of C30 met: one call for 76 bytes, and the calls above. -/
example : ∃ o1 o2 outs1 outs2 new1 new2,
    Cipher.run ⟨.little, false, none⟩ (CipherBackend.impl ⟨.little, false, none⟩ .portable)
      (ciphering [] [1] [2] [.encryptSelf ⟨true, List.replicate 70 3 ++ [1, 2, 3, 4, 5, 8]⟩]) = some (o1, outs1 ++ new1) ∧
    Cipher.run ⟨.little, false, none⟩ (CipherBackend.impl ⟨.little, false, none⟩ (.avx2 fun i j => BitVec.ofNat 32 (i + j))) (ciphering [] [1] [2] egCalls) = some (o2, outs2 ++ new2) ∧
      new1.length = 1 ∧ new2.length = 4 ∧ cipherResults [.encryptSelf ⟨true, List.replicate 70 3 ++ [1, 2, 3, 4, 5, 8]⟩] new1 = cipherResults egCalls new2 :=
  C30_split_independent [1] [2] ⟨.little, false, none⟩ ⟨.little, false, none⟩ .portable (.avx2 _) [] [] (by simp) (by simp) _ _ (by simp [Texts, Cipher.Call.Ok])
    egCalls_texts (by decide)

/-! ## C31 -/

theorem chacha_invol (key iv : List Byte) (pos : Nat) (t : List Byte) : chacha key iv pos (chacha key iv pos t) = t := by
  unfold chacha ChaCha.cryptFrom
  apply List.ext_getElem?
  intro i
  simp only [List.getElem?_mapIdx]
  cases t[i]? with
  | none => rfl
  | some b => simp [BitVec.xor_assoc]

/-- C31: decrypting, in any pieces, what was encrypted in any pieces restores the text; the sizes returned are the sizes of the texts. -/
theorem C31_roundtrip (key iv : List Byte) (h1 h2 : Host) (b1 b2 : CipherBackend) (pre1 pre2 : List Cipher.Call) (hp1 : ∀ c ∈ pre1, c.Ok)
    (hp2 : ∀ c ∈ pre2, c.Ok) (enc : List Cipher.Call) (henc : Texts enc) :
    ∃ o1 outs1 new1, Cipher.run h1 (b1.impl h1) (ciphering pre1 key iv enc) = some (o1, outs1 ++ new1) ∧ new1.map (·.2) = enc.map (fun c => (cipherText c).length) ∧
    ∀ (dec : List Cipher.Call), Texts dec → (dec.map cipherText).flatten = cipherResults enc new1 →
      ∃ o2 outs2 new2, Cipher.run h2 (b2.impl h2) (ciphering pre2 key iv dec) = some (o2, outs2 ++ new2) ∧
        cipherResults dec new2 = (enc.map cipherText).flatten ∧ new2.map (·.2) = dec.map (fun c => (cipherText c).length) := by
  obtain ⟨o1, outs1, e1, -⟩ := Cipher.run_eq h1 (backendLawful h1 b1) pre1 hp1 key iv enc henc.notInit
  obtain ⟨r1, l1, s1⟩ := outs_results key iv enc henc.notInit 0
  refine ⟨o1, outs1, _, e1, s1, fun dec hdec ht => ?_⟩
  obtain ⟨o2, outs2, e2, -⟩ := Cipher.run_eq h2 (backendLawful h2 b2) pre2 hp2 key iv dec hdec.notInit
  obtain ⟨r2, l2, s2⟩ := outs_results key iv dec hdec.notInit 0
  exact ⟨o2, outs2, _, e2, by rw [r2, ht, r1, chacha_invol], s2⟩

/-- Hypotheses of C31 met, with the decryption in one piece. -/
example : ∃ o1 outs1 new1, Cipher.run ⟨.little, false, none⟩ (CipherBackend.impl ⟨.little, false, none⟩ .portable) (ciphering [] [1] [2] [.encryptC [1, 2] ⟨true, []⟩, .encryptSelf ⟨true, [3]⟩]) = some (o1, outs1 ++ new1) ∧
    new1.map (·.2) = [2, 1] ∧ ∃ o2 outs2 new2, Cipher.run ⟨.little, false, none⟩ (CipherBackend.impl ⟨.little, false, none⟩ (.ssse3 fun _ _ => 7))
      (ciphering [] [1] [2] [.decryptC (cipherResults [.encryptC [1, 2] ⟨true, []⟩, .encryptSelf ⟨true, [3]⟩] new1) ⟨true, []⟩]) = some (o2, outs2 ++ new2) ∧
      cipherResults [.decryptC (cipherResults [.encryptC [1, 2] ⟨true, []⟩, .encryptSelf ⟨true, [3]⟩] new1) ⟨true, []⟩] new2 = [1, 2, 3] := by
  obtain ⟨o1, outs1, new1, e, s, hd⟩ := C31_roundtrip [1] [2] ⟨.little, false, none⟩ ⟨.little, false, none⟩ .portable (.ssse3 fun _ _ => 7) [] [] (by simp) (by simp)
    [.encryptC [1, 2] ⟨true, []⟩, .encryptSelf ⟨true, [3]⟩] (by simp [Texts, Cipher.Call.Ok])
  obtain ⟨o2, outs2, new2, e2, r2, -⟩ := hd [.decryptC (cipherResults [.encryptC [1, 2] ⟨true, []⟩, .encryptSelf ⟨true, [3]⟩] new1) ⟨true, []⟩]
    (by simp [Texts, Cipher.Call.Ok]) (by simp [cipherText])
  exact ⟨o1, outs1, new1, e, s, o2, outs2, new2, e2, r2⟩

/-! ## C32 -/

/-- C32: byte `i` of the results is byte `i` of the texts xored with byte `i mod 64` of the RFC 8439 block for counter `counter + i / 64` modulo `2^32`. -/
theorem C32_counter (h : Host) (b : CipherBackend) (pre : List Cipher.Call) (hp : ∀ c ∈ pre, c.Ok) (key : List Byte) (hk : key.length = 32)
    (counter : BitVec 32) (nonce : List Byte) (hn : nonce.length = 12) (cs : List Cipher.Call) (hc : Texts cs) :
    ∃ o outs new, Cipher.run h (b.impl h) (ciphering pre key (leBytes 4 counter.toNat ++ nonce) cs) = some (o, outs ++ new) ∧ new.length = cs.length ∧
      ∀ i, (cipherResults cs new)[i]? = (cs.map cipherText).flatten[i]?.map fun x =>
        x ^^^ (ChaCha.block key (BitVec.ofNat 32 ((counter.toNat + i / 64) % 2 ^ 32)) nonce).getD (i % 64) 0 := by
  obtain ⟨o, outs, new, e, -, hl, hr⟩ := C29_chacha20 h b pre hp key hk counter nonce hn cs hc
  refine ⟨o, outs, new, e, hl, fun i => ?_⟩
  rw [hr]
  unfold ChaCha.crypt ChaCha.cryptFrom ChaCha.keyByte
  rw [List.getElem?_mapIdx, Nat.zero_add]
  have : counter + BitVec.ofNat 32 (i / 64) = BitVec.ofNat 32 ((counter.toNat + i / 64) % 2 ^ 32) := by
    apply BitVec.eq_of_toNat_eq
    simp [BitVec.toNat_add]
  rw [this]

/-- C32: the key stream repeats after `2^32` blocks, and the calls report nothing: bytes that far apart are xored with the same byte. Two blocks use the
same counter only if they are a multiple of `2^32` blocks apart. -/
theorem C32_wrap (h : Host) (b : CipherBackend) (pre : List Cipher.Call) (hp : ∀ c ∈ pre, c.Ok) (key : List Byte) (hk : key.length = 32)
    (counter : BitVec 32) (nonce : List Byte) (hn : nonce.length = 12) (cs : List Cipher.Call) (hc : Texts cs) :
    (∃ o outs new, Cipher.run h (b.impl h) (ciphering pre key (leBytes 4 counter.toNat ++ nonce) cs) = some (o, outs ++ new) ∧ new.length = cs.length ∧
      ∀ i x y, (cs.map cipherText).flatten[i]? = some x → (cs.map cipherText).flatten[i + 64 * 2 ^ 32]? = some y →
        ∃ k, (cipherResults cs new)[i]? = some (x ^^^ k) ∧ (cipherResults cs new)[i + 64 * 2 ^ 32]? = some (y ^^^ k)) ∧
    ∀ m n : Nat, BitVec.ofNat 32 ((counter.toNat + m) % 2 ^ 32) = BitVec.ofNat 32 ((counter.toNat + n) % 2 ^ 32) ↔ m % 2 ^ 32 = n % 2 ^ 32 := by
  constructor
  · obtain ⟨o, outs, new, e, hl, hr⟩ := C32_counter h b pre hp key hk counter nonce hn cs hc
    refine ⟨o, outs, new, e, hl, fun i x y hx hy => ⟨(ChaCha.block key (BitVec.ofNat 32 ((counter.toNat + i / 64) % 2 ^ 32)) nonce).getD (i % 64) 0, ?_, ?_⟩⟩
    · rw [hr, hx]; rfl
    · rw [hr, hy]
      have h1 : (i + 64 * 2 ^ 32) % 64 = i % 64 := by omega
      have h2 : (counter.toNat + (i + 64 * 2 ^ 32) / 64) % 2 ^ 32 = (counter.toNat + i / 64) % 2 ^ 32 := by omega
      rw [h1, h2]; rfl
  · intro m n
    have hc := counter.isLt
    constructor
    · intro he
      have := congrArg BitVec.toNat he
      simp only [BitVec.toNat_ofNat] at this
      omega
    · intro he
      congr 1; omega

/-- Hypotheses of C32 met by a long message: the positions needed exist. -/
example (x : List Byte) (hx : x.length = 64 * 2 ^ 32 + 7) : ∃ y, ([Cipher.Call.encryptC x ⟨true, []⟩].map cipherText).flatten[3 + 64 * 2 ^ 32]? = some y := by
  exact ⟨x[3 + 64 * 2 ^ 32]'(by omega), by simp [cipherText]⟩

/-! ## C33 -/

/-- C33: keys and ivs of every length are accepted, and act as if cut or zero padded to 32 and 16 bytes. -/
theorem C33_key_iv_lengths (h : Host) (b : CipherBackend) (pre : List Cipher.Call) (hp : ∀ c ∈ pre, c.Ok) (key iv : List Byte) (cs : List Cipher.Call) (hc : Texts cs) :
    ∃ outs, (Cipher.run h (b.impl h) (ciphering pre key iv cs)).map (·.2) = some outs ∧
      (Cipher.run h (b.impl h) (ciphering pre (padTo 32 key) (padTo 16 iv) cs)).map (·.2) = some outs := by
  have idem : ∀ n l, padTo n (padTo n l) = padTo n l := fun n l => by
    conv => lhs; unfold padTo
    exact List.take_left' (ChaCha.padTo_length n l)
  have : ∀ pos cs, cipherOuts (padTo 32 key) (padTo 16 iv) pos cs = cipherOuts key iv pos cs := by
    intro pos cs
    induction cs generalizing pos with
    | nil => rfl
    | cons c cs ih => simp only [cipherOuts, chacha, idem, ih]
  obtain ⟨o1, outs1, e1, p1⟩ := Cipher.run_eq h (backendLawful h b) pre hp key iv cs hc.notInit
  obtain ⟨o2, outs2, e2, p2⟩ := Cipher.run_eq h (backendLawful h b) pre hp (padTo 32 key) (padTo 16 iv) cs hc.notInit
  rw [p1] at p2
  rw [this, ← Option.some.inj p2] at e2
  exact ⟨_, congrArg (Option.map (·.2)) e1, congrArg (Option.map (·.2)) e2⟩

example : ∃ outs, (Cipher.run ⟨.little, false, none⟩ (CipherBackend.impl ⟨.little, false, none⟩ .portable) (ciphering [] [1, 2] (List.replicate 20 9) [.encryptSelf ⟨true, [3]⟩])).map (·.2) = some outs ∧
      (Cipher.run ⟨.little, false, none⟩ (CipherBackend.impl ⟨.little, false, none⟩ .portable) (ciphering [] ([1, 2] ++ List.replicate 30 0) (List.replicate 16 9) [.encryptSelf ⟨true, [3]⟩])).map (·.2) = some outs :=
  C33_key_iv_lengths ⟨.little, false, none⟩ .portable [] (by simp) [1, 2] (List.replicate 20 9) _ (by simp [Texts, Cipher.Call.Ok])

/-! ## C34, cipher part -/

/-- A text passed in place: `before ++ text ++ after` is the memory, source and destination point at the text. -/
def inPlace (p : List Byte × List Byte × List Byte) : Cipher.Call := .encrypt (p.1 ++ p.2.1 ++ p.2.2) p.1.length p.2.1.length p.1.length

/-- The same text, encrypted to a separate buffer after the text. -/
def outOfPlace (p : List Byte × List Byte × List Byte) (dst : List Byte) : Cipher.Call :=
  .encrypt (p.1 ++ p.2.1 ++ p.2.2 ++ dst) p.1.length p.2.1.length (p.1 ++ p.2.1 ++ p.2.2).length

/-- C34 (cipher): with the output over the input, a sequence of calls gives what it gives with separate output buffers; nothing around the text changes. -/
theorem C34_cipher_in_place (h : Host) (b : CipherBackend) (pre : List Cipher.Call) (hp : ∀ c ∈ pre, c.Ok) (key iv : List Byte)
    (ps : List ((List Byte × List Byte × List Byte) × List Byte)) (hps : ∀ p ∈ ps, p.2.length = p.1.2.1.length) :
    ∃ o1 o2 outs rs, Cipher.run h (b.impl h) (ciphering pre key iv (ps.map fun p => inPlace p.1))
        = some (o1, outs ++ List.zipWith (fun p r => (p.1.1 ++ r ++ p.1.2.2, r.length)) ps rs) ∧
      Cipher.run h (b.impl h) (ciphering pre key iv (ps.map fun p => outOfPlace p.1 p.2))
        = some (o2, outs ++ List.zipWith (fun p r => (p.1.1 ++ p.1.2.1 ++ p.1.2.2 ++ r, r.length)) ps rs) ∧ rs.length = ps.length := by
  have hin : Texts (ps.map fun p => inPlace p.1) := by
    intro c hc
    obtain ⟨p, -, rfl⟩ := List.mem_map.mp hc
    exact ⟨⟨.inl rfl, by simp, by simp⟩, fun _ _ => by simp [inPlace]⟩
  have hout : Texts (ps.map fun p => outOfPlace p.1 p.2) := by
    intro c hc
    obtain ⟨p, hp, rfl⟩ := List.mem_map.mp hc
    have := hps p hp
    exact ⟨⟨.inr (.inl (by simp)), by simp, by simp; omega⟩, fun _ _ => by simp [outOfPlace]⟩
  obtain ⟨o1, outs1, e1, p1⟩ := Cipher.run_eq h (backendLawful h b) pre hp key iv _ hin.notInit
  obtain ⟨o2, outs2, e2, p2⟩ := Cipher.run_eq h (backendLawful h b) pre hp key iv _ hout.notInit
  rw [p1] at p2
  rw [← Option.some.inj p2] at e2
  have key1 : ∀ pos, ∃ rs : List (List Byte), rs.length = ps.length ∧
      cipherOuts key iv pos (ps.map fun p => inPlace p.1) = List.zipWith (fun p r => (p.1.1 ++ r ++ p.1.2.2, r.length)) ps rs ∧
      cipherOuts key iv pos (ps.map fun p => outOfPlace p.1 p.2) = List.zipWith (fun p r => (p.1.1 ++ p.1.2.1 ++ p.1.2.2 ++ r, r.length)) ps rs := by
    clear e1 e2 p1 p2 hin hout
    induction ps with
    | nil => intro pos; exact ⟨[], rfl, rfl, rfl⟩
    | cons p ps ih =>
      intro pos
      have hp := hps p List.mem_cons_self
      obtain ⟨⟨x, t, y⟩, dst⟩ := p
      simp only at hp
      obtain ⟨rs, h1, h2, h3⟩ := ih (fun p h => hps p (List.mem_cons_of_mem _ h)) (pos + (chacha key iv pos t).length)
      have t1 : cipherText (inPlace (x, t, y)) = t := by simp [cipherText, inPlace]
      have t2 : cipherText (outOfPlace (x, t, y) dst) = t := by simp [cipherText, outOfPlace]
      have hl := chacha_length key iv pos t
      refine ⟨chacha key iv pos t :: rs, by simp [h1], ?_, ?_⟩
      · simp only [List.map_cons, cipherOuts, t1, h2, List.zipWith_cons_cons]
        congr 2
        simp only [inPlace, cipherPlaced]
        rw [List.append_assoc x t y, List.take_left' rfl, Memory.drop_left_add _ _ _ _ rfl, List.drop_left' rfl]
      · simp only [List.map_cons, cipherOuts, t2, h3, List.zipWith_cons_cons]
        congr 2
        simp only [outOfPlace, cipherPlaced]
        rw [List.take_left' rfl, Memory.drop_left_add _ _ _ _ rfl, List.drop_of_length_le (by omega), List.append_nil]
  obtain ⟨rs, h1, h2, h3⟩ := key1 0
  exact ⟨o1, o2, outs1, rs, by rw [← h2]; exact e1, by rw [← h3]; exact e2, h1⟩

example : ∃ o1 o2 outs rs, Cipher.run ⟨.little, false, none⟩ (CipherBackend.impl ⟨.little, false, none⟩ .portable) (ciphering [] [1] [2] [inPlace ([9], List.replicate 100 3, [8]), inPlace ([], [4], [])])
        = some (o1, outs ++ List.zipWith (fun (p : (List Byte × List Byte × List Byte) × List Byte) (r : List Byte) => (p.1.1 ++ r ++ p.1.2.2, r.length))
          [(([9], List.replicate 100 3, [8]), List.replicate 100 0), (([], [4], []), [0])] rs) ∧
      Cipher.run ⟨.little, false, none⟩ (CipherBackend.impl ⟨.little, false, none⟩ .portable) (ciphering [] [1] [2] [outOfPlace ([9], List.replicate 100 3, [8]) (List.replicate 100 0), outOfPlace ([], [4], []) [0]])
        = some (o2, outs ++ List.zipWith (fun (p : (List Byte × List Byte × List Byte) × List Byte) (r : List Byte) => (p.1.1 ++ p.1.2.1 ++ p.1.2.2 ++ r, r.length))
          [(([9], List.replicate 100 3, [8]), List.replicate 100 0), (([], [4], []), [0])] rs) ∧ rs.length = 2 :=
  C34_cipher_in_place ⟨.little, false, none⟩ .portable [] (by simp) [1] [2] [(([9], List.replicate 100 3, [8]), List.replicate 100 0), (([], [4], []), [0])] (by simp)

end Milo.Props
