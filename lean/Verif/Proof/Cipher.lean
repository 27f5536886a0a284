import Verif.Proof.ChaChaAsmLawful
import Verif.Proof.MacAlg
import Verif.Proof.HashApie
import Verif.Spec.Cipher
/- The ChaCha object and call sequences. -/
namespace Milo

theorem backendLawful (h : Host) (b : CipherBackend) : ChaCha.LawfulBackend (b.impl h) := by
  cases b with
  | portable => exact ChaCha.sw_lawful h
  | ssse3 junk => exact ChaCha.Asm.ssse3_lawful junk
  | avx2 junk => exact ChaCha.Asm.avx2_lawful junk

namespace ChaCha
open Memory

/-- An object that has used `pos` bytes of the key stream starting at state `st0`. -/
def Rep (B : Backend) (st0 : List W32) (o : Obj) (pos : Nat) : Prop := StreamRep B st0 o.state o.buffer o.bufferSize pos

theorem fresh_rep {B : Backend} (L : LawfulBackend B) : Rep B (List.replicate 16 0) fresh 0 := by
  have := L.pos
  exact ⟨List.length_replicate, List.length_replicate, by show 0 < _; omega, 0, (ctr_zero _ (by show 12 < (List.replicate 16 _).length; rw [List.length_replicate]; omega)).symm, .inl ⟨rfl, rfl⟩⟩

theorem encrypt_eq (h : Host) {B : Backend} (L : LawfulBackend B) (st0 : List W32) (o : Obj) (pos : Nat) (hr : Rep B st0 o pos) (mem : List Byte)
    (src n dst : Nat) (hf : Cipher.Fits mem src n dst) :
    ∃ o', encrypt h B o mem src n dst = some (o', xored mem dst src (fun j => stream st0 (pos + j)) n, n) ∧ Rep B st0 o' (pos + n) := by
  obtain ⟨ho, hs, hd⟩ := hf
  obtain ⟨r, e, hm, hrep⟩ := prodXor_eq h L o.buffer o.bufferSize st0 o.state pos mem dst src n hr ho hs hd
  refine ⟨⟨r.st, r.buf, r.fill⟩, ?_, hrep⟩
  unfold encrypt
  rw [e]
  simp only [Option.bind_eq_bind, Option.bind_some, hm]; rfl

theorem decrypt_eq_encrypt (h : Host) (B : Backend) (o : Obj) (mem : List Byte) (src n dst : Nat) :
    decrypt h B o mem src n dst = encrypt h B o mem src n dst := rfl

/-! ### initialize -/

/-- The state `initialize` sets up. -/
def initState (key iv : List Byte) : List W32 :=
  Spec.ChaCha.state (Spec.padTo 32 key) (BitVec.ofNat 32 (Spec.leNat ((Spec.padTo 16 iv).take 4))) ((Spec.padTo 16 iv).drop 4)

theorem words_eq (n : Nat) (bs : List Byte) (hl : bs.length = n * 4) : Spec.ChaCha.words bs = ofImage .little 4 n bs := by
  induction n generalizing bs with
  | zero => have : bs = [] := List.length_eq_zero_iff.mp (by omega)
            subst this; simp [Spec.ChaCha.words, chunks_nil, ofImage]
  | succ n ih =>
    have h1 : (bs.take 4).length = 4 := by simp; omega
    have h2 := ih (bs.drop 4) (by simp; omega)
    unfold Spec.ChaCha.words at h2 ⊢
    conv => lhs; rw [← List.take_append_drop 4 bs]
    rw [chunks_cons 4 (by omega) _ _ h1, List.map_cons, h2]
    simp only [ofImage, ofBytes, spec_leNat]

theorem padTo_length (n : Nat) (l : List Byte) : (Spec.padTo n l).length = n := by simp [Spec.padTo]

theorem initWords_eq (h : Host) (st : List W32) (off n : Nat) (src : List Byte) (hl : off + n ≤ st.length) :
    initWords h st off n src = some (st.take off ++ ofImage .little 4 n (Spec.padTo (n * 4) src) ++ st.drop (off + n)) := by
  unfold initWords
  rw [rdN_some _ _ _ hl]
  simp only [Option.bind_eq_bind, Option.bind_some]
  have e := initLe_eq h (p := 4) (q := 1) (.inr (.inr (.inl rfl))) (by omega) ((st.drop off).take n) src
  have hln : ((st.drop off).take n).length = n := by simp; omega
  rw [hln, image_bytes', fit_padTo] at e
  rw [e]
  simp only [Option.bind_some]
  have hw := ofImage_length .little 4 n (Spec.padTo (n * 4) src)
  generalize ofImage .little 4 n (Spec.padTo (n * 4) src) = w at hw ⊢
  rw [wrN_some _ _ _ (by rw [hw]; exact hl), hw]

theorem init_eq (h : Host) (o : Obj) (key iv : List Byte) (ho : o.state.length = 16) : init h o key iv = some ⟨initState key iv, o.buffer, 0⟩ := by
  obtain ⟨a0, a1, a2, a3, a4, a5, a6, a7, a8, a9, a10, a11, a12, a13, a14, a15, hs⟩ := list16 o.state ho
  unfold init
  rw [hs]
  simp only [wr1, List.length_cons, List.length_nil, Nat.zero_add, Nat.reduceAdd, Nat.reduceLT, if_true, Option.bind_eq_bind, Option.bind_some,
    List.set_cons_zero, List.set_cons_succ]
  rw [initWords_eq h _ 4 8 key (by simp)]
  simp only [Option.bind_some]
  have hk := ofImage_length .little 4 8 (Spec.padTo (8 * 4) key)
  have hek : Spec.ChaCha.words (Spec.padTo 32 key) = ofImage .little 4 8 (Spec.padTo (8 * 4) key) := words_eq 8 _ (by rw [padTo_length])
  generalize ofImage .little 4 8 (Spec.padTo (8 * 4) key) = kw at hk hek ⊢
  obtain ⟨k0, k1, k2, k3, k4, k5, k6, k7, rfl⟩ := list8 kw hk
  rw [initWords_eq h _ 12 4 iv (by simp)]
  simp only [Option.bind_some]
  have hl := padTo_length 16 iv
  show some _ = some _
  congr 2
  unfold initState Spec.ChaCha.state
  rw [hek, words_eq 3 ((Spec.padTo 16 iv).drop 4) (by simp [padTo_length])]
  simp only [ofImage, ofBytes, spec_leNat]
  rfl

theorem initState_length (key iv : List Byte) : (initState key iv).length = 16 := by
  unfold initState Spec.ChaCha.state
  rw [words_eq 8 _ (by rw [padTo_length]), words_eq 3 _ (by simp [padTo_length])]
  have h1 := ofImage_length .little 4 8 (Spec.padTo 32 key)
  have h2 := ofImage_length .little 4 3 ((Spec.padTo 16 iv).drop 4)
  generalize ofImage .little 4 8 (Spec.padTo 32 key) = a at h1 ⊢
  generalize ofImage .little 4 3 ((Spec.padTo 16 iv).drop 4) = b at h2 ⊢
  simp only [List.length_append, List.length_cons, List.length_nil, h1, h2]

theorem ctr_state (k : List Byte) (c : W32) (nn : List Byte) (n : Nat) (hk : k.length = 32) :
    ctr (Spec.ChaCha.state k c nn) n = Spec.ChaCha.state k (c + BitVec.ofNat 32 n) nn := by
  unfold ctr Spec.ChaCha.state
  rw [words_eq 8 k hk]
  have hl := ofImage_length .little 4 8 k
  generalize ofImage .little 4 8 k = kw at hl ⊢
  obtain ⟨k0, k1, k2, k3, k4, k5, k6, k7, rfl⟩ := list8 kw hl
  rfl

/-- The stream of an initialised object is the one of the RFC. -/
theorem stream_init (key iv : List Byte) (i : Nat) : stream (initState key iv) i =
    Spec.ChaCha.keyByte (Spec.padTo 32 key) (BitVec.ofNat 32 (Spec.leNat ((Spec.padTo 16 iv).take 4))) ((Spec.padTo 16 iv).drop 4) i := by
  unfold stream initState
  rw [ctr_state _ _ _ _ (padTo_length _ _)]
  rfl

theorem init_rep (h : Host) {B : Backend} (L : LawfulBackend B) (st0 : List W32) (o : Obj) (pos : Nat) (hr : Rep B st0 o pos) (key iv : List Byte) :
    ∃ o', init h o key iv = some o' ∧ Rep B (initState key iv) o' 0 := by
  obtain ⟨hst, hb, hf, g, hs, -⟩ := hr
  have := L.pos
  refine ⟨_, init_eq h o key iv (by rw [hs, ctr_length, hst]), initState_length _ _, hb, by show 0 < _; omega, 0, ?_, .inl ⟨rfl, rfl⟩⟩
  exact (ctr_zero _ (by rw [initState_length]; omega)).symm

end ChaCha

namespace Cipher
open Memory ChaCha

/-- Text xored with the stream of a state. -/
def streamed (st0 : List W32) (pos : Nat) (text : List Byte) : List Byte := text.mapIdx fun i b => b ^^^ stream st0 (pos + i)

theorem streamed_length (st0 : List W32) (pos : Nat) (text : List Byte) : (streamed st0 pos text).length = text.length := by simp [streamed]

theorem streamed_init (key iv : List Byte) (pos : Nat) (text : List Byte) : streamed (initState key iv) pos text = Spec.chacha key iv pos text := by
  have : (fun i b => b ^^^ stream (initState key iv) (pos + i)) = fun i b => b ^^^ Spec.ChaCha.keyByte (Spec.padTo 32 key)
      (BitVec.ofNat 32 (Spec.leNat ((Spec.padTo 16 iv).take 4))) ((Spec.padTo 16 iv).drop 4) (pos + i) := by
    funext i b
    rw [stream_init]
  unfold streamed Spec.chacha Spec.ChaCha.cryptFrom
  rw [this]

theorem xored_streamed (st0 : List W32) (pos : Nat) (mem : List Byte) (dst src n : Nat) (hs : src + n ≤ mem.length) :
    xored mem dst src (fun j => stream st0 (pos + j)) n = mem.take dst ++ streamed st0 pos ((mem.drop src).take n) ++ mem.drop (dst + n) := by
  unfold xored streamed
  congr 2
  apply List.ext_getElem?
  intro i
  simp only [List.getElem?_map, List.getElem?_mapIdx]
  by_cases hi : i < n
  · rw [List.getElem?_range hi, List.getElem?_take_of_lt hi, List.getElem?_drop, List.getElem?_eq_getElem (by omega)]
    simp [List.getD_eq_getElem?_getD, List.getElem?_eq_getElem (show src + i < mem.length by omega)]
  · rw [List.getElem?_eq_none (by simp; omega), List.getElem?_eq_none (by simp; omega)]
    rfl

/-- Calls other than `initialize`. -/
def NotInit : Call → Prop
  | .init _ _ => False
  | _ => True

theorem encryptC_eq (h : Host) {B : Backend} (L : LawfulBackend B) (st0 : List W32) (o : ChaCha.Obj) (pos : Nat) (hr : ChaCha.Rep B st0 o pos) (x : List Byte)
    (tgt : Container) (hok : tgt.dynamic = false → x.length ≤ tgt.data.length) :
    ∃ o' tgt', encryptC h B o x tgt = some (o', tgt', x.length) ∧ ChaCha.Rep B st0 o' (pos + x.length) ∧
      tgt'.data = if tgt.dynamic then streamed st0 pos x else streamed st0 pos x ++ tgt.data.drop x.length := by
  unfold encryptC
  have hl : x.length ≤ ((tgt.resize x.length).1).data.length := by
    unfold Container.resize; cases hd : tgt.dynamic
    · simpa using hok hd
    · simp; omega
  obtain ⟨o', e, hr'⟩ := encrypt_eq h L st0 o pos hr (x ++ (tgt.resize x.length).1.data) 0 x.length x.length ⟨.inr (.inl (by omega)), by simp, by simp; omega⟩
  simp only [e, Option.bind_eq_bind, Option.bind_some]
  refine ⟨o', _, rfl, hr', ?_⟩
  rw [xored_streamed _ _ _ _ _ _ (by simp), List.drop_zero, List.take_left' rfl, List.append_assoc, List.drop_left' rfl, drop_left_add _ _ _ _ rfl]
  have hsl := streamed_length st0 pos x
  unfold Container.resize Container.withData
  cases hd : tgt.dynamic
  · simp [hd]
  · simp [hd, hsl]

theorem encryptSelf_eq (h : Host) {B : Backend} (L : LawfulBackend B) (st0 : List W32) (o : ChaCha.Obj) (pos : Nat) (hr : ChaCha.Rep B st0 o pos) (c : Container) :
    ∃ o' c', encryptSelf h B o c = some (o', c', c.data.length) ∧ ChaCha.Rep B st0 o' (pos + c.data.length) ∧ c'.data = streamed st0 pos c.data := by
  unfold encryptSelf
  have hl : (c.resize c.data.length).1 = c := by
    unfold Container.resize; cases hd : c.dynamic
    · simp
    · simp [← hd]
  rw [hl]
  obtain ⟨o', e, hr'⟩ := encrypt_eq h L st0 o pos hr c.data 0 c.data.length 0 ⟨.inl rfl, by simp, by simp⟩
  simp only [e, Option.bind_eq_bind, Option.bind_some]
  refine ⟨o', _, rfl, hr', ?_⟩
  rw [xored_streamed _ _ _ _ _ _ (by simp)]
  have hsl := streamed_length st0 pos c.data
  unfold Container.resize Container.withData
  cases hd : c.dynamic
  · simp
  · simp [List.take_of_length_le (Nat.le_of_eq hsl), hsl]

theorem exec_eq (h : Host) {B : Backend} (L : LawfulBackend B) (st0 : List W32) (o : ChaCha.Obj) (pos : Nat) (hr : ChaCha.Rep B st0 o pos) (c : Call)
    (hc : c.Ok) (hn : NotInit c) : ∃ o', exec h B o c
      = some (o', [(Spec.cipherPlaced (streamed st0 pos (Spec.cipherText c)) c, (Spec.cipherText c).length)]) ∧
      ChaCha.Rep B st0 o' (pos + (Spec.cipherText c).length) := by
  have hp : ∀ (mem : List Byte) (src n dst : Nat), Fits mem src n dst → ((mem.drop src).take n).length = n := fun mem src n dst hf => by
    simp; have := hf.2.1; omega
  cases c with
  | init => exact hn.elim
  | encrypt mem src n dst =>
    obtain ⟨o', e, hr'⟩ := encrypt_eq h L st0 o pos hr mem src n dst hc
    simp only [Spec.cipherText, Spec.cipherPlaced, hp _ _ _ _ hc]
    refine ⟨o', ?_, hr'⟩
    simp only [exec, e, Option.bind_eq_bind, Option.bind_some]
    rw [xored_streamed _ _ _ _ _ _ hc.2.1]; rfl
  | decrypt mem src n dst =>
    obtain ⟨o', e, hr'⟩ := encrypt_eq h L st0 o pos hr mem src n dst hc
    rw [← decrypt_eq_encrypt] at e
    simp only [Spec.cipherText, Spec.cipherPlaced, hp _ _ _ _ hc]
    refine ⟨o', ?_, hr'⟩
    simp only [exec, e, Option.bind_eq_bind, Option.bind_some]
    rw [xored_streamed _ _ _ _ _ _ hc.2.1]; rfl
  | encryptC x tgt =>
    obtain ⟨o', tgt', e, hr', ht⟩ := encryptC_eq h L st0 o pos hr x tgt hc
    refine ⟨o', ?_, hr'⟩
    simp only [exec, e, Option.bind_eq_bind, Option.bind_some, Spec.cipherText, Spec.cipherPlaced, ht, streamed_length]; rfl
  | decryptC x tgt =>
    obtain ⟨o', tgt', e, hr', ht⟩ := encryptC_eq h L st0 o pos hr x tgt hc
    refine ⟨o', ?_, hr'⟩
    have e' : decryptC h B o x tgt = _ := e
    simp only [exec, e', Option.bind_eq_bind, Option.bind_some, Spec.cipherText, Spec.cipherPlaced, ht, streamed_length]; rfl
  | encryptSelf c =>
    obtain ⟨o', c', e, hr', ht⟩ := encryptSelf_eq h L st0 o pos hr c
    refine ⟨o', ?_, hr'⟩
    simp only [exec, e, Option.bind_eq_bind, Option.bind_some, Spec.cipherText, Spec.cipherPlaced, ht]; rfl
  | decryptSelf c =>
    obtain ⟨o', c', e, hr', ht⟩ := encryptSelf_eq h L st0 o pos hr c
    refine ⟨o', ?_, hr'⟩
    have e' : decryptSelf h B o c = _ := e
    simp only [exec, e', Option.bind_eq_bind, Option.bind_some, Spec.cipherText, Spec.cipherPlaced, ht]; rfl

/-- Any use is defined. -/
theorem exec_wf (h : Host) {B : Backend} (L : LawfulBackend B) (o : ChaCha.Obj) (c : Call) (ho : ∃ st0 pos, ChaCha.Rep B st0 o pos) (hc : c.Ok) :
    ∃ o' out, exec h B o c = some (o', out) ∧ ∃ st0 pos, ChaCha.Rep B st0 o' pos := by
  obtain ⟨st0, pos, hr⟩ := ho
  cases c with
  | init key iv =>
    obtain ⟨o', e, hr'⟩ := init_rep h L st0 o pos hr key iv
    exact ⟨o', [], by simp [exec, e], _, _, hr'⟩
  | _ =>
    obtain ⟨o', e, hr'⟩ := exec_eq h L st0 o pos hr _ hc trivial
    exact ⟨o', _, e, _, _, hr'⟩

theorem run_wf (h : Host) {B : Backend} (L : LawfulBackend B) (cs : List Call) (hc : ∀ c ∈ cs, c.Ok) :
    ∃ o outs, run h B cs = some (o, outs) ∧ ∃ st0 pos, ChaCha.Rep B st0 o pos :=
  runCalls_inv _ _ Call.Ok (exec_wf h L) cs hc _ ⟨_, _, fresh_rep L⟩

theorem runCalls_eq (h : Host) {B : Backend} (L : LawfulBackend B) (key iv : List Byte) (cs : List Call) (o : ChaCha.Obj) (pos : Nat)
    (hr : ChaCha.Rep B (initState key iv) o pos) (hc : ∀ c ∈ cs, c.Ok ∧ NotInit c) :
    ∃ o', runCalls (exec h B) o cs = some (o', Spec.cipherOuts key iv pos cs) ∧ ChaCha.Rep B (initState key iv) o' (pos + (cs.map Spec.cipherText).flatten.length) := by
  induction cs generalizing o pos with
  | nil => exact ⟨o, rfl, hr⟩
  | cons c cs ih =>
    obtain ⟨hc1, hc2⟩ := hc c List.mem_cons_self
    obtain ⟨o1, e1, r1⟩ := exec_eq h L _ o pos hr c hc1 hc2
    obtain ⟨o2, e2, r2⟩ := ih o1 _ r1 (fun c h => hc c (List.mem_cons_of_mem _ h))
    refine ⟨o2, ?_, by simpa [Nat.add_assoc] using r2⟩
    simp only [runCalls, e1, e2, Option.bind_eq_bind, Option.bind_some, Spec.cipherOuts, streamed_init]
    have hl : (Spec.chacha key iv pos (Spec.cipherText c)).length = (Spec.cipherText c).length := by rw [← streamed_init, streamed_length]
    rw [hl]; rfl

/-- After any history, `initialize` and a sequence of other calls output what the specification says. -/
theorem run_eq (h : Host) {B : Backend} (L : LawfulBackend B) (pre : List Call) (hp : ∀ c ∈ pre, c.Ok) (key iv : List Byte) (cs : List Call)
    (hc : ∀ c ∈ cs, c.Ok ∧ NotInit c) :
    ∃ o outs, run h B (pre ++ .init key iv :: cs) = some (o, outs ++ Spec.cipherOuts key iv 0 cs) ∧ (run h B pre).map (·.2) = some outs := by
  obtain ⟨o1, outs, e1, st0, pos, r1⟩ := run_wf h L pre hp
  obtain ⟨o2, e2, r2⟩ := init_rep h L st0 o1 pos r1 key iv
  obtain ⟨o3, e3, r3⟩ := runCalls_eq h L key iv cs o2 0 r2 hc
  refine ⟨o3, outs, ?_, by rw [e1]; rfl⟩
  unfold run at e1 ⊢
  rw [runCalls_append, e1]
  simp only [Option.bind_some, runCalls, exec, e2, e3, Option.bind_eq_bind, Option.pure_def, List.nil_append, Option.map_some]

end Cipher
end Milo
