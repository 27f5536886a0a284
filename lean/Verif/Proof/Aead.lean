import Verif.Proof.Cipher
import Verif.Proof.MacLawful
import Verif.Model.Aead
import Verif.Spec.Aead
/- The ChaCha20-Poly1305 object: what it has fed to cipher and mac after any calls. -/
namespace Milo.Aead
open Memory ChaCha Cipher

/-- The iv given to the cipher. -/
def civ (iv : List Byte) : List Byte := List.replicate 4 0 ++ Spec.padTo 12 iv

/-- The state of the cipher after `initialize`. -/
def S (key iv : List Byte) : List W32 := initState key (civ iv)

/-- The mac key: the first 64 bytes of the key stream. -/
def macKey (key iv : List Byte) : List Byte := streamed (S key iv) 0 (List.replicate 64 0#8)

/-- The zero bytes added after `n` bytes. -/
def zeros (n : Nat) : List Byte := List.replicate ((16 - n % 16) % 16) 0#8

theorem civ_eq (h : Host) (iv : List Byte) :
    (at_ (List.replicate 16 0#8) 4 fun p => Memory.init h (p := 1) (q := 1) p iv) = some (civ iv) := by
  rw [at_eq _ _ _ (by simp), Memory.init_eq h (by omega) (by omega)]
  simp only [List.drop_replicate, List.length_replicate, List.take_replicate]
  simp only [Option.map_some, image_bytes', Nat.reduceSub, Nat.reduceMul, fit_padTo]
  unfold civ
  congr 2
  exact ofImage_bytes' _ _ _ (padTo_length _ _)

variable (h : Host) {B : ChaCha.Backend} (LB : ChaCha.LawfulBackend B) {M : MacImpl} {F : List Byte → List Byte → List Byte} (L : LawfulMac M F)

/-- An object that `initialize` may be called on. -/
def Base (B : ChaCha.Backend) (L : LawfulMac M F) (o : Obj M) : Prop := (∃ st0 pos, ChaCha.Rep B st0 o.cipher pos) ∧ L.Wf o.mac

/-- An object that has been initialised at some time. -/
def Wf (B : ChaCha.Backend) (L : LawfulMac M F) (o : Obj M) : Prop := Base B L o ∧ o.aadSize ≠ none ∧ o.eddSize ≠ none

/-- What the object has done since `initialize(key, iv)`: given `m` to the mac, counted `a` bytes of associated data and `e` bytes of data. -/
structure Holds (B : ChaCha.Backend) (L : LawfulMac M F) (key iv : List Byte) (o : Obj M) (m : List Byte) (a e : Nat) : Prop where
  cipher : ChaCha.Rep B (S key iv) o.cipher (64 + e)
  mac : L.Rep o.mac (macKey key iv) m
  aad : o.aadSize = some (BitVec.ofNat 64 a)
  edd : o.eddSize = some (BitVec.ofNat 64 e)

/-- The same after `finalize`. -/
def Done (L : LawfulMac M F) (key iv : List Byte) (o : Obj M) (m : List Byte) : Prop := L.Fin o.mac (macKey key iv) m

theorem Holds.wf {key iv : List Byte} {o : Obj M} {m : List Byte} {a e : Nat} (hh : Holds B L key iv o m a e) : Wf B L o :=
  ⟨⟨⟨_, _, hh.cipher⟩, L.rep_wf _ _ _ hh.mac⟩, by simp [hh.aad], by simp [hh.edd]⟩

include LB in
theorem fresh_base : Base B L (fresh M) := ⟨⟨_, _, fresh_rep LB⟩, L.fresh⟩

theorem macKey_length (key iv : List Byte) : (macKey key iv).length = 64 := by
  unfold macKey; rw [streamed_length, List.length_replicate]

include LB in
theorem init_holds (o : Obj M) (ho : Base B L o) (key iv : List Byte) : ∃ o', init h B o key iv = some o' ∧ Holds B L key iv o' [] 0 0 := by
  obtain ⟨⟨st0, pos, hr⟩, hm⟩ := ho
  obtain ⟨c1, e1, r1⟩ := init_rep h LB st0 o.cipher pos hr key (civ iv)
  obtain ⟨c2, e2, r2⟩ := encrypt_eq h LB _ c1 0 r1 (List.replicate 64 0#8) 0 64 0 ⟨.inl rfl, by simp, by simp⟩
  have ek : xored (List.replicate 64 0#8) 0 0 (fun j => stream (initState key (civ iv)) (0 + j)) 64 = macKey key iv := by
    have hz : (List.replicate 64 0#8).length = 64 := List.length_replicate
    unfold macKey
    generalize List.replicate 64 0#8 = z at hz ⊢
    rw [xored_streamed _ _ _ _ _ _ (by omega), List.drop_zero, List.drop_of_length_le (by omega), List.take_zero, List.take_of_length_le (by omega),
      List.nil_append, List.append_nil]
    rfl
  rw [ek] at e2
  obtain ⟨m, em, rm⟩ := L.init o.mac (macKey key iv) hm (by rw [macKey_length]; omega)
  refine ⟨⟨c2, m, some 0, some 0⟩, ?_, ⟨r2, rm, rfl, rfl⟩⟩
  unfold init
  rw [civ_eq]
  simp only [Option.bind_eq_bind, Option.bind_some, e1, e2, em]; rfl

theorem aad_holds (key iv : List Byte) (o : Obj M) (m : List Byte) (a e : Nat) (hh : Holds B L key iv o m a e) (x : List Byte) (hx : x.length < 2 ^ 64) :
    ∃ o', aad o x = some o' ∧ Holds B L key iv o' (m ++ x) (a + x.length) e := by
  obtain ⟨m', em, rm⟩ := L.update o.mac _ m x hh.mac hx
  refine ⟨{ o with mac := m', aadSize := some (BitVec.ofNat 64 a + BitVec.ofNat 64 x.length) }, ?_, ⟨hh.cipher, rm, ?_, hh.edd⟩⟩
  · simp only [aad, em, hh.aad, Option.bind_eq_bind, Option.bind_some, Option.pure_def]
  · simp only [BitVec.ofNat_add]

theorem pad_eq (n : Nat) : (16 - (BitVec.ofNat 64 n).toNat % 16) &&& 15 = (16 - n % 16) % 16 := by
  rw [BitVec.toNat_ofNat, show (15 : Nat) = 2 ^ 4 - 1 by rfl, Nat.and_two_pow_sub_one_eq_mod]
  omega

theorem updatePad_eq (o : Obj M) (m k : List Byte) (hm : L.Rep o.mac k m) (n : Nat) :
    ∃ m', updatePad o (BitVec.ofNat 64 n) = some { o with mac := m' } ∧ L.Rep m' k (m ++ zeros n) := by
  obtain ⟨m', em, rm⟩ := L.update o.mac k m (zeros n) hm (by simp [zeros]; omega)
  refine ⟨m', ?_, rm⟩
  unfold updatePad
  rw [pad_eq, rdN_some _ _ _ (by simp; omega)]
  simp only [Option.bind_eq_bind, Option.bind_some, List.drop_zero, List.take_replicate]
  rw [Nat.min_eq_left (by omega)]
  unfold zeros at em
  rw [em]; rfl

theorem aadover_holds (key iv : List Byte) (o : Obj M) (m : List Byte) (a e : Nat) (hh : Holds B L key iv o m a e) :
    ∃ o', aadover o = some o' ∧ Holds B L key iv o' (m ++ zeros a) a e := by
  obtain ⟨m', em, rm⟩ := updatePad_eq L o m _ hh.mac a
  refine ⟨{ o with mac := m' }, ?_, ⟨hh.cipher, rm, hh.aad, hh.edd⟩⟩
  unfold aadover
  have e1 := hh.aad
  simp only [e1, Option.bind_eq_bind, Option.bind_some, em]

/-- Text number `pos` on in the data, xored with the key stream. -/
def crypted (key iv : List Byte) (e : Nat) (text : List Byte) : List Byte := streamed (S key iv) (64 + e) text

theorem crypted_length (key iv : List Byte) (e : Nat) (text : List Byte) : (crypted key iv e text).length = text.length := streamed_length _ _ _

include LB in
theorem encrypt_holds (key iv : List Byte) (o : Obj M) (m : List Byte) (a e : Nat) (hh : Holds B L key iv o m a e) (mem : List Byte) (src n dst : Nat)
    (hf : Fits mem src n dst) (hn : n < 2 ^ 64) :
    ∃ o', encrypt h B o mem src n dst = some (o', mem.take dst ++ crypted key iv e ((mem.drop src).take n) ++ mem.drop (dst + n), n) ∧
      Holds B L key iv o' (m ++ crypted key iv e ((mem.drop src).take n)) a (e + n) := by
  obtain ⟨c, ec, rc⟩ := encrypt_eq h LB _ o.cipher _ hh.cipher mem src n dst hf
  rw [xored_streamed _ _ _ _ _ _ hf.2.1] at ec
  have hl : (streamed (S key iv) (64 + e) ((mem.drop src).take n)).length = n := by rw [streamed_length]; simp; have := hf.2.1; omega
  obtain ⟨m', em, rm⟩ := L.update o.mac _ m (crypted key iv e ((mem.drop src).take n)) hh.mac (by rw [crypted, hl]; exact hn)
  refine ⟨{ o with cipher := c, mac := m', eddSize := some (BitVec.ofNat 64 e + BitVec.ofNat 64 n) }, ?_, ⟨?_, rm, hh.aad, by simp only [BitVec.ofNat_add]⟩⟩
  · unfold encrypt
    unfold crypted at em ⊢
    generalize streamed (S key iv) (64 + e) ((mem.drop src).take n) = t at hl ec em ⊢
    have hd := hf.2.2
    rw [ec]
    simp only [Option.bind_eq_bind, Option.bind_some]
    rw [rdN_some _ _ _ (by simp; omega)]
    simp only [Option.bind_some]
    rw [List.append_assoc, List.drop_left' (by simp; omega), List.take_left' hl, em, hh.edd]; rfl
  · rw [← Nat.add_assoc]; exact rc

include LB in
theorem decrypt_holds (key iv : List Byte) (o : Obj M) (m : List Byte) (a e : Nat) (hh : Holds B L key iv o m a e) (mem : List Byte) (src n dst : Nat)
    (hf : Fits mem src n dst) (hn : n < 2 ^ 64) :
    ∃ o', decrypt h B o mem src n dst = some (o', mem.take dst ++ crypted key iv e ((mem.drop src).take n) ++ mem.drop (dst + n), n) ∧
      Holds B L key iv o' (m ++ (mem.drop src).take n) a (e + n) := by
  obtain ⟨c, ec, rc⟩ := encrypt_eq h LB _ o.cipher _ hh.cipher mem src n dst hf
  rw [xored_streamed _ _ _ _ _ _ hf.2.1, ← decrypt_eq_encrypt] at ec
  obtain ⟨m', em, rm⟩ := L.update o.mac _ m ((mem.drop src).take n) hh.mac (by simp; omega)
  refine ⟨{ o with cipher := c, mac := m', eddSize := some (BitVec.ofNat 64 e + BitVec.ofNat 64 n) }, ?_, ⟨?_, rm, hh.aad, by simp only [BitVec.ofNat_add]⟩⟩
  · unfold decrypt
    rw [rdN_some _ _ _ hf.2.1]
    simp only [Option.bind_eq_bind, Option.bind_some, em, ec, hh.edd, crypted]; rfl
  · rw [← Nat.add_assoc]; exact rc

theorem lengths_eq (a e : Nat) : lengths h (BitVec.ofNat 64 a) (BitVec.ofNat 64 e) = some (Spec.leBytes 8 a ++ Spec.leBytes 8 e) := by
  have hs : ∀ (b : List Byte) (i : Nat) (x : W64), 8 * i + 8 ≤ b.length →
      storLe h (v := 8) (p := 1) b i x = some (b.take (8 * i) ++ toLE 8 x.toNat ++ b.drop (8 * i + 8)) := fun b i x hl => by
    rw [storLe_eq h ⟨by omega, by omega, .inl ⟨8, by omega⟩⟩ (by simp [Swappable]), image_bytes']
    have hb : (toBytes .little (n := 8) x).length = 8 := by simp
    rw [wrN_some _ _ _ (by rw [hb]; omega)]
    simp only [Option.map_some]
    rw [ofImage_bytes' _ _ _ (by simp; omega), hb, Nat.mul_comm i 8]; rfl
  have hm : ∀ n, toLE 8 (BitVec.ofNat 64 n).toNat = Spec.leBytes 8 n := fun n => by
    rw [spec_leBytes, BitVec.toNat_ofNat]; exact toLE_mod 8 n
  unfold lengths
  rw [hs _ _ _ (by rw [List.length_replicate]; omega)]
  simp only [Option.bind_eq_bind, Option.bind_some]
  have hl : ∀ n, (toLE 8 n).length = 8 := fun n => by simp
  rw [hs _ _ _ (by simp), hm, hm]
  have hl' : (Spec.leBytes 8 a).length = 8 := by simp [Spec.leBytes]
  generalize Spec.leBytes 8 a = x at hl' ⊢
  simp only [Nat.mul_zero, List.take_zero, List.nil_append, Nat.mul_one, Nat.zero_add]
  rw [List.take_left' hl', List.drop_of_length_le (by simp [hl']), List.append_nil]

/-- What `finalize` gives to the mac after `e` bytes of data. -/
def trailer (a e : Nat) : List Byte := zeros e ++ (Spec.leBytes 8 a ++ Spec.leBytes 8 e)

theorem finalize_holds (key iv : List Byte) (o : Obj M) (m : List Byte) (a e : Nat) (hh : Holds B L key iv o m a e) :
    ∃ o', finalize h o = some o' ∧ Done L key iv o' (m ++ trailer a e) ∧ Wf B L o' := by
  obtain ⟨m1, e1, r1⟩ := updatePad_eq L o m _ hh.mac e
  have hl : ∀ n, (Spec.leBytes 8 n).length = 8 := fun n => by simp [Spec.leBytes]
  obtain ⟨m2, e2, r2⟩ := L.update m1 _ _ (Spec.leBytes 8 a ++ Spec.leBytes 8 e) r1 (by simp [hl])
  obtain ⟨m3, e3, r3⟩ := L.finalize m2 _ _ r2
  refine ⟨{ o with mac := m3 }, ?_, by simpa [trailer, Done, List.append_assoc] using r3, ⟨⟨_, _, hh.cipher⟩, L.fin_wf _ _ _ r3⟩, by simp [hh.aad], by simp [hh.edd]⟩
  simp only [finalize, hh.aad, hh.edd, Option.bind_eq_bind, Option.bind_some, e1, lengths_eq, e2, e3]; rfl

theorem digest_done (key iv : List Byte) (o : Obj M) (m : List Byte) (hd : Done L key iv o m) (dst : List Byte) (n : Nat) (hn : min n M.digestSize ≤ dst.length) :
    digest o dst n = some (Spec.written (F (macKey key iv) m) dst n) := Mac.digest_written L _ _ _ _ _ hd hn

/-! ### Any use after the first `initialize` is defined -/

theorem updatePad_wf (o : Obj M) (ho : Wf B L o) (n : W64) : ∃ o', updatePad o n = some o' ∧ Wf B L o' := by
  obtain ⟨⟨hc, hm⟩, ha, he⟩ := ho
  obtain ⟨m', em, wm⟩ := L.update_wf o.mac ((List.replicate 16 0#8).take ((16 - n.toNat % 16) &&& 15)) hm
  refine ⟨{ o with mac := m' }, ?_, ⟨hc, wm⟩, ha, he⟩
  unfold updatePad
  have : (16 - n.toNat % 16) &&& 15 ≤ 15 := Nat.and_le_right
  rw [rdN_some _ _ _ (by simp; omega)]
  simp only [Option.bind_eq_bind, Option.bind_some, List.drop_zero, em]; rfl

include LB in
theorem encrypt_wf (o : Obj M) (ho : Wf B L o) (mem : List Byte) (src n dst : Nat) (hf : Fits mem src n dst) :
    ∃ o' mem', encrypt h B o mem src n dst = some (o', mem', n) ∧ Wf B L o' ∧ mem'.length = mem.length := by
  obtain ⟨⟨⟨st0, pos, hc⟩, hm⟩, ha, he⟩ := ho
  obtain ⟨ed, hed⟩ := Option.ne_none_iff_exists'.mp he
  obtain ⟨c, ec, rc⟩ := encrypt_eq h LB _ o.cipher _ hc mem src n dst hf
  rw [xored_streamed _ _ _ _ _ _ hf.2.1] at ec
  have hl : (streamed st0 pos ((mem.drop src).take n)).length = n := by rw [streamed_length]; simp; have := hf.2.1; omega
  have hd := hf.2.2
  generalize streamed st0 pos ((mem.drop src).take n) = t at hl ec
  obtain ⟨m', em, wm⟩ := L.update_wf o.mac t hm
  refine ⟨{ o with cipher := c, mac := m', eddSize := some (ed + BitVec.ofNat 64 n) },
    mem.take dst ++ t ++ mem.drop (dst + n), ?_, ⟨⟨⟨_, _, rc⟩, wm⟩, ha, by simp⟩, ?_⟩
  · unfold encrypt
    rw [ec]
    simp only [Option.bind_eq_bind, Option.bind_some]
    rw [rdN_some _ _ _ (by simp; omega)]
    simp only [Option.bind_some]
    rw [List.append_assoc, List.drop_left' (by simp; omega), List.take_left' hl, em, hed]; rfl
  · simp [hl]; omega

include LB in
theorem decrypt_wf (o : Obj M) (ho : Wf B L o) (mem : List Byte) (src n dst : Nat) (hf : Fits mem src n dst) :
    ∃ o' mem', decrypt h B o mem src n dst = some (o', mem', n) ∧ Wf B L o' ∧ mem'.length = mem.length := by
  obtain ⟨⟨⟨st0, pos, hc⟩, hm⟩, ha, he⟩ := ho
  obtain ⟨ed, hed⟩ := Option.ne_none_iff_exists'.mp he
  obtain ⟨c, ec, rc⟩ := encrypt_eq h LB _ o.cipher _ hc mem src n dst hf
  rw [xored_streamed _ _ _ _ _ _ hf.2.1, ← decrypt_eq_encrypt] at ec
  have hl : (streamed st0 pos ((mem.drop src).take n)).length = n := by rw [streamed_length]; simp; have := hf.2.1; omega
  have hd := hf.2.2
  obtain ⟨m', em, wm⟩ := L.update_wf o.mac ((mem.drop src).take n) hm
  refine ⟨{ o with cipher := c, mac := m', eddSize := some (ed + BitVec.ofNat 64 n) },
    mem.take dst ++ streamed st0 pos ((mem.drop src).take n) ++ mem.drop (dst + n), ?_, ⟨⟨⟨_, _, rc⟩, wm⟩, ha, by simp⟩, ?_⟩
  · unfold decrypt
    rw [rdN_some _ _ _ hf.2.1]
    simp only [Option.bind_eq_bind, Option.bind_some, em, ec, hed]; rfl
  · simp [hl]; omega

theorem finalize_wf (o : Obj M) (ho : Wf B L o) : ∃ o', finalize h o = some o' ∧ Wf B L o' := by
  obtain ⟨a, ha⟩ := Option.ne_none_iff_exists'.mp ho.2.1
  obtain ⟨e, he⟩ := Option.ne_none_iff_exists'.mp ho.2.2
  obtain ⟨o1, e1, w1⟩ := updatePad_wf L o ho e
  obtain ⟨m2, e2, w2⟩ := L.update_wf o1.mac (Spec.leBytes 8 a.toNat ++ Spec.leBytes 8 e.toNat) w1.1.2
  obtain ⟨m3, e3, w3⟩ := L.finalize_wf m2 w2
  refine ⟨{ o1 with mac := m3 }, ?_, ⟨w1.1.1, w3⟩, w1.2.1, w1.2.2⟩
  have el := lengths_eq h a.toNat e.toNat
  rw [BitVec.ofNat_toNat, BitVec.ofNat_toNat, BitVec.setWidth_eq, BitVec.setWidth_eq] at el
  simp only [finalize, ha, he, Option.bind_eq_bind, Option.bind_some, e1, el, e2, e3]; rfl

include LB in
theorem exec_wf (hds : M.digestSize = 16) (o : Obj M) (c : Call) (ho : Wf B L o) (hc : c.Ok) : ∃ o' out, exec h B o c = some (o', out) ∧ Wf B L o' := by
  cases c with
  | init key iv =>
    obtain ⟨o', e, hh⟩ := init_holds h LB L o ho.1 key iv
    exact ⟨o', [], by simp [exec, e], hh.wf⟩
  | aad x =>
    obtain ⟨a, ha⟩ := Option.ne_none_iff_exists'.mp ho.2.1
    obtain ⟨m', em, wm⟩ := L.update_wf o.mac x ho.1.2
    exact ⟨{ o with mac := m', aadSize := some (a + BitVec.ofNat 64 x.length) }, [], by simp [exec, aad, em, ha], ⟨ho.1.1, wm⟩, by simp, ho.2.2⟩
  | aadover =>
    obtain ⟨a, ha⟩ := Option.ne_none_iff_exists'.mp ho.2.1
    obtain ⟨o1, e1, w1⟩ := updatePad_wf L o ho a
    exact ⟨o1, [], by simp [exec, aadover, ha, e1], w1⟩
  | encrypt s =>
    obtain ⟨o', mem', e, w, -⟩ := encrypt_wf h LB L o ho s.mem s.src s.n s.dst hc.1
    exact ⟨o', _, by simp [exec, e]; rfl, w⟩
  | decrypt s =>
    obtain ⟨o', mem', e, w, -⟩ := decrypt_wf h LB L o ho s.mem s.src s.n s.dst hc.1
    exact ⟨o', _, by simp [exec, e]; rfl, w⟩
  | finalize =>
    obtain ⟨o', e, w⟩ := finalize_wf h L o ho
    exact ⟨o', [], by simp [exec, e], w⟩
  | digest dst n =>
    obtain ⟨out, e, -⟩ := L.digest_wf o.mac dst n ho.1.2 (by rw [hds]; exact hc)
    exact ⟨o, [(out, min n M.digestSize)], by simp [exec, digest, e], ho⟩

/-- Calls that start with `initialize`, or none. -/
def Begun (pre : List Call) : Prop := (∀ c ∈ pre, c.Ok) ∧ ∀ c, pre.head? = some c → ∃ key iv, c = .init key iv

include LB in
theorem run_base (hds : M.digestSize = 16) (pre : List Call) (hp : Begun pre) : ∃ o outs, runCalls (exec h B) (fresh M) pre = some (o, outs) ∧ Base B L o := by
  obtain ⟨hok, hh⟩ := hp
  cases pre with
  | nil => exact ⟨_, _, rfl, fresh_base LB L⟩
  | cons c cs =>
    obtain ⟨key, iv, rfl⟩ := hh c rfl
    obtain ⟨o1, e1, h1⟩ := init_holds h LB L (fresh M) (fresh_base LB L) key iv
    obtain ⟨o2, outs, e2, w2⟩ := runCalls_inv _ (Wf B L) Call.Ok (exec_wf h LB L hds) cs (fun c h => hok c (List.mem_cons_of_mem _ h)) o1 h1.wf
    exact ⟨o2, outs, by simp [runCalls, exec, e1, e2], w2.1⟩

end Milo.Aead
