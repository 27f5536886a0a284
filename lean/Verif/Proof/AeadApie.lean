import Verif.Proof.AeadSpec
/- The aead wrapper. -/
namespace Milo.AeadApie
open Memory ChaCha Cipher Aead

theorem matchC_bytes (h : Host) (a b : List Byte) : matchC h (p := 1) (q := 1) a b = some (decide (a = b), min a.length b.length) := by
  unfold matchC
  rw [matchPtr_eq h (by omega) (by omega) _ _ _ (by omega) (by omega)]
  simp only [Option.bind_eq_bind, Option.bind_some, image_bytes', Nat.mul_one]
  show some _ = some _
  congr 2
  by_cases hl : a.length = b.length
  · rw [hl, Nat.min_self, List.take_of_length_le (Nat.le_of_eq hl), List.take_length]; simp
  · have : a ≠ b := fun e => hl (by rw [e])
    simp [hl, this]

variable (h : Host) {B : ChaCha.Backend} (LB : ChaCha.LawfulBackend B) {M : MacImpl} {F : List Byte → List Byte → List Byte} (L : LawfulMac M F)

/-- An object that has been initialised at some time. -/
def Wf (B : ChaCha.Backend) (L : LawfulMac M F) (o : Obj M) : Prop := Aead.Wf B L o.impl ∧ o.finalizedAad ≠ none ∧ o.finalized ≠ none

/-- Not finalized; `f`: associated data is finished. -/
structure St (B : ChaCha.Backend) (L : LawfulMac M F) (key iv : List Byte) (o : Obj M) (m : List Byte) (a e : Nat) (f : Bool) : Prop where
  holds : Holds B L key iv o.impl m a e
  over : o.finalizedAad = some f
  fin : o.finalized = some false

/-- The mac has been, or will at finalization have been, given `m`. -/
def Ready (B : ChaCha.Backend) (L : LawfulMac M F) (key iv : List Byte) (o : Obj M) (m : List Byte) : Prop :=
  (∃ m0 a e f, St B L key iv o m0 a e f ∧ m = m0 ++ trailer a e) ∨ (Done L key iv o.impl m ∧ o.finalized = some true)

include LB in
theorem init_st (o : Obj M) (ho : Base B L o.impl) (key iv : List Byte) : ∃ o', initialise h B o key iv = some o' ∧ St B L key iv o' [] 0 0 false := by
  obtain ⟨i, e, hh⟩ := init_holds h LB L o.impl ho key iv
  exact ⟨⟨i, some false, some false⟩, by simp [initialise, e], ⟨hh, rfl, rfl⟩⟩

theorem aad_st (key iv : List Byte) (o : Obj M) (m : List Byte) (a e : Nat) (f : Bool) (hs : St B L key iv o m a e f) (x : List Byte) (hx : x.length < 2 ^ 64) :
    ∃ o', aad o x = some o' ∧ St B L key iv o' (m ++ x) (a + x.length) e f := by
  obtain ⟨i, ei, hi⟩ := aad_holds L key iv o.impl m a e hs.holds x hx
  exact ⟨{ o with impl := i }, by simp [aad, ei], ⟨hi, hs.over, hs.fin⟩⟩

/-- The bytes `do_finalize_aad` adds. -/
def gap (f : Bool) (a : Nat) : List Byte := if f then [] else zeros a

theorem doFinalizeAad_st (key iv : List Byte) (o : Obj M) (m : List Byte) (a e : Nat) (f : Bool) (hs : St B L key iv o m a e f) :
    ∃ o', doFinalizeAad o = some o' ∧ St B L key iv o' (m ++ gap f a) a e true := by
  unfold doFinalizeAad gap
  rw [hs.over]
  cases f
  · obtain ⟨i, ei, hi⟩ := aadover_holds L key iv o.impl m a e hs.holds
    exact ⟨{ o with impl := i, finalizedAad := some true }, by simp [ei], ⟨hi, rfl, hs.fin⟩⟩
  · exact ⟨o, rfl, by simpa using hs⟩

include LB in
theorem ptr_st (d : Bool) (key iv : List Byte) (o : Obj M) (m : List Byte) (a e : Nat) (f : Bool) (hs : St B L key iv o m a e f)
    (mem : List Byte) (src n dst : Nat) (hf : Fits mem src n dst) (hn : n < 2 ^ 64) :
    ∃ o', (if d then decrypt h B o mem src n dst else encrypt h B o mem src n dst)
        = some (o', mem.take dst ++ crypted key iv e ((mem.drop src).take n) ++ mem.drop (dst + n), n) ∧
      St B L key iv o' (m ++ gap f a ++ if d then (mem.drop src).take n else crypted key iv e ((mem.drop src).take n)) a (e + n) true := by
  obtain ⟨o1, e1, h1⟩ := doFinalizeAad_st L key iv o m a e f hs
  cases d
  · obtain ⟨i, ei, hi⟩ := encrypt_holds h LB L key iv o1.impl _ a e h1.holds mem src n dst hf hn
    exact ⟨{ o1 with impl := i }, by simp [encrypt, e1, ei], ⟨hi, h1.over, h1.fin⟩⟩
  · obtain ⟨i, ei, hi⟩ := decrypt_holds h LB L key iv o1.impl _ a e h1.holds mem src n dst hf hn
    exact ⟨{ o1 with impl := i }, by simp [decrypt, e1, ei], ⟨hi, h1.over, h1.fin⟩⟩

theorem resize_self (c : Container) : (c.resize c.data.length).1 = c := by
  unfold Container.resize; cases hd : c.dynamic
  · simp
  · simp [← hd]

include LB in
theorem cont_st (d : Bool) (key iv : List Byte) (o : Obj M) (m : List Byte) (a e : Nat) (f : Bool) (hs : St B L key iv o m a e f)
    (x : List Byte) (tgt : Container) (hok : (TextReq.cont x tgt).Ok) :
    ∃ o' c', (if d then decryptC h B o x tgt else encryptC h B o x tgt) = some (o', c', x.length) ∧
      c'.data = Spec.Aead.placed (crypted key iv e x) (.cont x tgt) ∧ c'.dynamic = tgt.dynamic ∧
      St B L key iv o' (m ++ gap f a ++ if d then x else crypted key iv e x) a (e + x.length) true := by
  have hl : x.length ≤ ((tgt.resize x.length).1).data.length := by
    unfold Container.resize; cases hd : tgt.dynamic
    · simpa using hok.1 hd
    · simp; omega
  obtain ⟨o', eo, so⟩ := ptr_st h LB L d key iv o m a e f hs (x ++ (tgt.resize x.length).1.data) 0 x.length x.length
    ⟨.inr (.inl (by omega)), by simp, by simp; omega⟩ hok.2
  rw [List.drop_zero, List.take_left' rfl] at eo so
  refine ⟨o', (((tgt.resize x.length).1.withData (crypted key iv e x ++ ((tgt.resize x.length).1.data).drop x.length)).resize x.length).1, ?_, ?_, ?_, so⟩
  · cases d
    · simp only [Bool.false_eq_true, if_false] at eo ⊢
      unfold encryptC
      simp only [eo, Option.bind_eq_bind, Option.bind_some]
      rw [List.append_assoc, List.drop_left' rfl, drop_left_add _ _ _ _ rfl]; rfl
    · simp only [if_true] at eo ⊢
      unfold decryptC
      simp only [eo, Option.bind_eq_bind, Option.bind_some]
      rw [List.append_assoc, List.drop_left' rfl, drop_left_add _ _ _ _ rfl]; rfl
  · have hsl := crypted_length key iv e x
    unfold Container.resize Container.withData Spec.Aead.placed
    cases hd : tgt.dynamic
    · simp [hd, hsl]
    · simp [hd, hsl]
  · unfold Container.resize Container.withData
    cases hd : tgt.dynamic <;> simp [hd]

include LB in
theorem self_st (d : Bool) (key iv : List Byte) (o : Obj M) (m : List Byte) (a e : Nat) (f : Bool) (hs : St B L key iv o m a e f)
    (c : Container) (hok : (TextReq.self c).Ok) :
    ∃ o' c', (if d then decryptSelf h B o c else encryptSelf h B o c) = some (o', c', c.data.length) ∧
      c'.data = crypted key iv e c.data ∧
      St B L key iv o' (m ++ gap f a ++ if d then c.data else crypted key iv e c.data) a (e + c.data.length) true := by
  obtain ⟨o', eo, so⟩ := ptr_st h LB L d key iv o m a e f hs c.data 0 c.data.length 0 ⟨.inl rfl, by simp, by simp⟩ hok
  rw [List.drop_zero, List.take_of_length_le (Nat.le_refl _)] at eo so
  rw [List.take_zero, List.nil_append, Nat.zero_add, List.drop_length, List.append_nil] at eo
  have hsl := crypted_length key iv e c.data
  refine ⟨o', ((c.withData (crypted key iv e c.data)).resize c.data.length).1, ?_, ?_, so⟩
  · cases d
    · simp only [Bool.false_eq_true, if_false] at eo ⊢
      unfold encryptSelf
      simp only [resize_self, eo, Option.bind_eq_bind, Option.bind_some]; rfl
    · simp only [if_true] at eo ⊢
      unfold decryptSelf
      simp only [resize_self, eo, Option.bind_eq_bind, Option.bind_some]; rfl
  · have := resize_self (c.withData (crypted key iv e c.data))
    have hw : (c.withData (crypted key iv e c.data)).data.length = c.data.length := hsl
    rw [hw] at this
    rw [this]; rfl

include LB in
theorem text_st (d : Bool) (key iv : List Byte) (o : Obj M) (m : List Byte) (a e : Nat) (f : Bool) (hs : St B L key iv o m a e f)
    (t : TextReq) (ht : t.Ok) :
    ∃ o', text h B d o t = some (o', Spec.Aead.placed (crypted key iv e (Spec.Aead.text t)) t, (Spec.Aead.text t).length) ∧
      St B L key iv o' (m ++ gap f a ++ if d then Spec.Aead.text t else crypted key iv e (Spec.Aead.text t)) a (e + (Spec.Aead.text t).length) true := by
  cases t with
  | ptr s =>
    rw [span_text_length s ht]
    exact ptr_st h LB L d key iv o m a e f hs s.mem s.src s.n s.dst ht.1 ht.2
  | cont x tgt =>
    obtain ⟨o', c', e1, e2, -, h1⟩ := cont_st h LB L d key iv o m a e f hs x tgt ht
    refine ⟨o', ?_, h1⟩
    cases d
    all_goals
      simp only [Bool.false_eq_true, if_false, if_true] at e1
      simp only [text, Bool.false_eq_true, if_false, if_true, e1, Option.bind_eq_bind, Option.bind_some, e2, Spec.Aead.text]; rfl
  | self c =>
    obtain ⟨o', c', e1, e2, h1⟩ := self_st h LB L d key iv o m a e f hs c ht
    refine ⟨o', ?_, h1⟩
    cases d
    all_goals
      simp only [Bool.false_eq_true, if_false, if_true] at e1
      simp only [text, Bool.false_eq_true, if_false, if_true, e1, Option.bind_eq_bind, Option.bind_some, e2, Spec.Aead.text, Spec.Aead.placed]; rfl

/-! ### The end -/

theorem doFinalize_ready (key iv : List Byte) (o : Obj M) (m : List Byte) (ho : Ready B L key iv o m) :
    ∃ o', doFinalize h o = some o' ∧ o'.finalized = some true ∧ Done L key iv o'.impl m := by
  rcases ho with ⟨m0, a, e, f, hs, rfl⟩ | ⟨hd, hf⟩
  · obtain ⟨i, ei, hi, -⟩ := finalize_holds h L key iv o.impl m0 a e hs.holds
    exact ⟨{ o with impl := i, finalized := some true }, by simp [doFinalize, hs.fin, ei], rfl, hi⟩
  · exact ⟨o, by simp [doFinalize, hf], hf, hd⟩

theorem digest_ready (key iv : List Byte) (o : Obj M) (m : List Byte) (ho : Ready B L key iv o m) (dst : List Byte) (n : Nat)
    (hn : min n M.digestSize ≤ dst.length) :
    ∃ o', digest h o dst n = some (o', Spec.written (F (macKey key iv) m) dst n) ∧ Ready B L key iv o' m := by
  obtain ⟨o', e, hf, hd⟩ := doFinalize_ready h L key iv o m ho
  exact ⟨o', by simp [digest, e, digest_done L key iv _ m hd dst n hn], .inr ⟨hd, hf⟩⟩

theorem digestC_ready (key iv : List Byte) (o : Obj M) (m : List Byte) (ho : Ready B L key iv o m) (c : Container) (n : Nat) :
    ∃ o', digestC h o c n = some (o', Spec.contained (F (macKey key iv) m) c n) ∧ Ready B L key iv o' m := by
  obtain ⟨o1, e1, hf, hd⟩ := doFinalize_ready h L key iv o m ho
  have h1 := HashApie.resize_fits c (min n M.digestSize)
  have h2 := HashApie.resize_le c (min n M.digestSize)
  obtain ⟨o2, e2, w2⟩ := digest_ready h L key iv o1 m (.inr ⟨hd, hf⟩) (c.resize (min n M.digestSize)).1.data (c.resize (min n M.digestSize)).2 (by omega)
  refine ⟨o2, ?_, w2⟩
  simp only [digestC, e1, e2, Option.bind_eq_bind, Option.bind_some, Option.pure_def]
  congr 2
  generalize macKey key iv = k
  have hl := L.length k m
  unfold Spec.contained Spec.written
  rw [hl]
  by_cases hd : c.dynamic
  · simp only [Container.resize, hd, if_true, Container.withData]
    rw [List.drop_of_length_le (by simp; omega), List.append_nil, Mac.take_min L, Nat.min_assoc, Nat.min_self]
  · have hdf : c.dynamic = false := by simpa using hd
    simp only [Container.resize, Container.withData, hdf, Bool.false_eq_true, if_false]
    have e : (F k m).take (min (min n M.digestSize) c.data.length) = (F k m).take (min n c.data.length) := by
      rw [show min (min n M.digestSize) c.data.length = min (min n c.data.length) M.digestSize by omega, Mac.take_min L]
    rw [e, show min (min (min n M.digestSize) c.data.length) M.digestSize = min (min n c.data.length) M.digestSize by omega]

theorem digestStatic_ready (key iv : List Byte) (o : Obj M) (m : List Byte) (ho : Ready B L key iv o m) :
    ∃ o', digestStatic h o (List.replicate M.digestSize 0) = some (o', ⟨false, F (macKey key iv) m⟩) ∧ Ready B L key iv o' m := by
  obtain ⟨o', e, hr⟩ := digestC_ready h L key iv o m ho ⟨false, List.replicate M.digestSize 0⟩ M.digestSize
  refine ⟨o', ?_, hr⟩
  have hl := L.length (macKey key iv) m
  simp only [digestStatic, List.length_replicate, e, Option.bind_eq_bind, Option.bind_some, Spec.contained, Spec.written, Bool.false_eq_true, if_false,
    Nat.min_self, hl, List.drop_replicate, Nat.sub_self, List.replicate_zero, List.append_nil]
  rw [List.take_of_length_le (by omega)]; rfl

/-- The error for a comparison. -/
def verdict (t tag : List Byte) : Error := if tag = t then .none else .aeadVerify

theorem verify_ready (key iv : List Byte) (o : Obj M) (m : List Byte) (ho : Ready B L key iv o m) (tag : List Byte) :
    ∃ o', verify h o tag = some (o', verdict (F (macKey key iv) m) tag) ∧ Ready B L key iv o' m := by
  obtain ⟨o', e, hr⟩ := digestStatic_ready h L key iv o m ho
  refine ⟨o', ?_, hr⟩
  simp only [verify, e, Option.bind_eq_bind, Option.bind_some, matchC_bytes, verdict, decide_eq_true_eq, @eq_comm _ tag]; rfl

theorem verifyThrow_ready (key iv : List Byte) (o : Obj M) (m : List Byte) (ho : Ready B L key iv o m) (tag : List Byte) :
    ∃ o', verifyThrow h o tag = some (o', if tag = F (macKey key iv) m then .returned () else .thrown .aeadVerify) ∧ Ready B L key iv o' m := by
  obtain ⟨o', e, hr⟩ := verify_ready h L key iv o m ho tag
  refine ⟨o', ?_, hr⟩
  simp only [verifyThrow, e, Option.bind_eq_bind, Option.bind_some, verdict]
  by_cases ht : tag = F (macKey key iv) m <;> simp [ht]

/-! ### Sequences -/

include LB in
theorem base_default : Base B L (constructDefault M).impl := fresh_base LB L

theorem doFinalizeAad_wf (o : Obj M) (ho : Wf B L o) : ∃ o', doFinalizeAad o = some o' ∧ Wf B L o' := by
  obtain ⟨hw, ha, hf⟩ := ho
  unfold doFinalizeAad
  cases e : o.finalizedAad with
  | none => exact absurd e ha
  | some b =>
    cases b
    · obtain ⟨a, hs⟩ := Option.ne_none_iff_exists'.mp hw.2.1
      obtain ⟨i, ei, wi⟩ := updatePad_wf L o.impl hw a
      exact ⟨{ o with impl := i, finalizedAad := some true }, by simp [aadover, hs, ei], wi, by simp, hf⟩
    · exact ⟨o, rfl, hw, ha, hf⟩

theorem doFinalize_wf (o : Obj M) (ho : Wf B L o) : ∃ o', doFinalize h o = some o' ∧ Wf B L o' := by
  obtain ⟨hw, ha, hf⟩ := ho
  unfold doFinalize
  cases e : o.finalized with
  | none => exact absurd e hf
  | some b =>
    cases b
    · obtain ⟨i, ei, wi⟩ := finalize_wf h L o.impl hw
      exact ⟨{ o with impl := i, finalized := some true }, by simp [ei], wi, ha, by simp⟩
    · exact ⟨o, rfl, hw, ha, hf⟩

theorem digest_wf (o : Obj M) (ho : Wf B L o) (dst : List Byte) (n : Nat) (hn : min n M.digestSize ≤ dst.length) :
    ∃ o' out, digest h o dst n = some (o', out, min n M.digestSize) ∧ Wf B L o' ∧ out.length = dst.length := by
  obtain ⟨o', e, w⟩ := doFinalize_wf h L o ho
  obtain ⟨out, ed, hl⟩ := L.digest_wf o'.impl.mac dst n w.1.1.2 hn
  exact ⟨o', out, by simp [digest, e, Aead.digest, ed], w, hl⟩

theorem digestC_wf (o : Obj M) (ho : Wf B L o) (c : Container) (n : Nat) : ∃ o' out, digestC h o c n = some (o', out) ∧ Wf B L o' := by
  obtain ⟨o1, e1, w1⟩ := doFinalize_wf h L o ho
  have h1 := HashApie.resize_fits c (min n M.digestSize)
  obtain ⟨o2, out, e2, w2, -⟩ := digest_wf h L o1 w1 (c.resize (min n M.digestSize)).1.data (c.resize (min n M.digestSize)).2 (by omega)
  refine ⟨o2, ((c.resize (min n M.digestSize)).1.withData out, min (c.resize (min n M.digestSize)).2 M.digestSize), ?_, w2⟩
  simp only [digestC, e1, e2, Option.bind_eq_bind, Option.bind_some]; rfl

theorem verify_wf (o : Obj M) (ho : Wf B L o) (tag : List Byte) : ∃ o' e, verify h o tag = some (o', e) ∧ Wf B L o' := by
  obtain ⟨o1, ⟨c, k⟩, e1, w1⟩ := digestC_wf h L o ho ⟨false, List.replicate M.digestSize 0⟩ M.digestSize
  refine ⟨o1, if decide (c.data = tag) = true then .none else .aeadVerify, ?_, w1⟩
  · simp only [verify, digestStatic, List.length_replicate, e1, Option.bind_eq_bind, Option.bind_some, Option.pure_def, matchC_bytes]

include LB in
theorem ptr_wf (d : Bool) (o : Obj M) (ho : Wf B L o) (mem : List Byte) (src n dst : Nat) (hf : Fits mem src n dst) :
    ∃ o' mem', (if d then decrypt h B o mem src n dst else encrypt h B o mem src n dst) = some (o', mem', n) ∧ Wf B L o' := by
  obtain ⟨o1, e1, w1, wa, wf⟩ := doFinalizeAad_wf L o ho
  cases d
  · obtain ⟨i, mem', ei, wi, -⟩ := encrypt_wf h LB L o1.impl w1 mem src n dst hf
    exact ⟨{ o1 with impl := i }, mem', by simp [encrypt, e1, ei], wi, wa, wf⟩
  · obtain ⟨i, mem', ei, wi, -⟩ := decrypt_wf h LB L o1.impl w1 mem src n dst hf
    exact ⟨{ o1 with impl := i }, mem', by simp [decrypt, e1, ei], wi, wa, wf⟩

include LB in
theorem text_wf (d : Bool) (o : Obj M) (ho : Wf B L o) (t : TextReq) (ht : t.Ok) : ∃ o' out, text h B d o t = some (o', out) ∧ Wf B L o' := by
  cases t with
  | ptr s =>
    obtain ⟨o', mem', e, w⟩ := ptr_wf h LB L d o ho s.mem s.src s.n s.dst ht.1
    exact ⟨o', _, e, w⟩
  | cont x tgt =>
    have hl : x.length ≤ ((tgt.resize x.length).1).data.length := by
      unfold Container.resize; cases hd : tgt.dynamic
      · simpa using ht.1 hd
      · simp; omega
    obtain ⟨o', mem', e, w⟩ := ptr_wf h LB L d o ho (x ++ (tgt.resize x.length).1.data) 0 x.length x.length
      ⟨.inr (.inl (by omega)), by simp, by simp; omega⟩
    refine ⟨o', ((((tgt.resize x.length).1.withData (mem'.drop x.length)).resize x.length).1.data, x.length), ?_, w⟩
    cases d
    all_goals
      simp only [Bool.false_eq_true, if_false, if_true] at e
      simp only [text, decryptC, encryptC, e, Bool.false_eq_true, if_false, if_true, Option.bind_eq_bind, Option.bind_some]; rfl
  | self c =>
    obtain ⟨o', mem', e, w⟩ := ptr_wf h LB L d o ho c.data 0 c.data.length 0 ⟨.inl rfl, by simp, by simp⟩
    refine ⟨o', (((c.withData mem').resize c.data.length).1.data, c.data.length), ?_, w⟩
    cases d
    all_goals
      simp only [Bool.false_eq_true, if_false, if_true] at e
      simp only [text, decryptSelf, encryptSelf, resize_self, e, Bool.false_eq_true, if_false, if_true, Option.bind_eq_bind, Option.bind_some]; rfl

include LB in
theorem exec_wf (hds : M.digestSize = 16) (o : Obj M) (c : Call) (ho : Wf B L o) (hc : c.Ok) : ∃ o' out, exec h B o c = some (o', out) ∧ Wf B L o' := by
  cases c with
  | init key iv =>
    obtain ⟨o', e, hh⟩ := init_st h LB L o ho.1.1 key iv
    exact ⟨o', [], by simp [exec, e], hh.holds.wf, by simp [hh.over], by simp [hh.fin]⟩
  | aad x =>
    obtain ⟨i, out, e, w⟩ := Aead.exec_wf h LB L hds o.impl (.aad x) ho.1 hc
    cases ei : Aead.aad o.impl x with
    | none => simp [Aead.exec, ei] at e
    | some j =>
      simp [Aead.exec, ei] at e
      exact ⟨{ o with impl := j }, [], by simp [exec, aad, ei], by rw [e.1]; exact w, ho.2.1, ho.2.2⟩
  | text d t =>
    obtain ⟨o', ⟨c, n⟩, e, w⟩ := text_wf h LB L d o ho t hc
    exact ⟨o', _, by simp [exec, e]; rfl, w⟩
  | digest dst n =>
    obtain ⟨o', out, e, w, -⟩ := digest_wf h L o ho dst n (by rw [hds]; exact hc)
    exact ⟨o', _, by simp [exec, e]; rfl, w⟩
  | digestC c n =>
    obtain ⟨o', out, e, w⟩ := digestC_wf h L o ho c n
    exact ⟨o', _, by simp [exec, e]; rfl, w⟩
  | verify tag =>
    obtain ⟨o', er, e, w⟩ := verify_wf h L o ho tag
    exact ⟨o', _, by simp [exec, e]; rfl, w⟩
  | verifyThrow tag =>
    obtain ⟨o', er, e, w⟩ := verify_wf h L o ho tag
    by_cases hr : er = .none
    · exact ⟨o', [.ended (.returned ())], by simp [exec, verifyThrow, e, hr], w⟩
    · exact ⟨o', [.ended (.thrown er)], by simp [exec, verifyThrow, e, hr], w⟩

/-- Calls that start with `initialize`, or none. -/
def Begun (pre : List Call) : Prop := (∀ c ∈ pre, c.Ok) ∧ ∀ c, pre.head? = some c → ∃ key iv, c = .init key iv

include LB in
theorem run_base (hds : M.digestSize = 16) (pre : List Call) (hp : Begun pre) :
    ∃ o outs, runCalls (exec h B) (constructDefault M) pre = some (o, outs) ∧ Base B L o.impl := by
  obtain ⟨hok, hh⟩ := hp
  cases pre with
  | nil => exact ⟨_, _, rfl, base_default LB L⟩
  | cons c cs =>
    obtain ⟨key, iv, rfl⟩ := hh c rfl
    obtain ⟨o1, e1, h1⟩ := init_st h LB L (constructDefault M) (base_default LB L) key iv
    obtain ⟨o2, outs, e2, w2⟩ := runCalls_inv _ (Wf B L) Call.Ok (exec_wf h LB L hds) cs (fun c h => hok c (List.mem_cons_of_mem _ h)) o1
      ⟨h1.holds.wf, by simp [h1.over], by simp [h1.fin]⟩
    exact ⟨o2, outs, by simp [runCalls, exec, e1, e2], w2.1.1⟩

theorem aads_st (key iv : List Byte) (ads : List (List Byte)) (ha : ∀ x ∈ ads, x.length < 2 ^ 64) (o : Obj M) (m : List Byte) (a e : Nat) (f : Bool)
    (hs : St B L key iv o m a e f) :
    ∃ o', runCalls (exec h B) o (ads.map .aad) = some (o', []) ∧ St B L key iv o' (m ++ ads.flatten) (a + ads.flatten.length) e f := by
  induction ads generalizing o m a with
  | nil => exact ⟨o, rfl, by simpa using hs⟩
  | cons x ads ih =>
    obtain ⟨o1, e1, h1⟩ := aad_st L key iv o m a e f hs x (ha x List.mem_cons_self)
    obtain ⟨o2, e2, h2⟩ := ih (fun y hy => ha y (List.mem_cons_of_mem _ hy)) o1 _ _ h1
    refine ⟨o2, by simp [runCalls, exec, e1, e2], ?_⟩
    simpa [List.append_assoc, Nat.add_assoc] using h2

/-- The texts of requests. -/
abbrev bodies (ts : List TextReq) : List (List Byte) := ts.map Spec.Aead.text

include LB in
theorem texts_st (d : Bool) (key iv : List Byte) (ts : List TextReq) (ht : ∀ t ∈ ts, t.Ok) (o : Obj M) (m : List Byte) (a e : Nat)
    (hs : St B L key iv o m a e true) :
    ∃ o', runCalls (exec h B) o (ts.map (.text d)) = some (o', List.zipWith (fun t r => .bytes (Spec.Aead.placed r t) r.length) ts (pieces key iv e (bodies ts))) ∧
      St B L key iv o' (m ++ if d then (bodies ts).flatten else crypted key iv e (bodies ts).flatten) a (e + (bodies ts).flatten.length) true := by
  induction ts generalizing o m e with
  | nil => refine ⟨o, rfl, ?_⟩; cases d <;> simpa [crypted, streamed] using hs
  | cons t ts ih =>
    obtain ⟨o1, e1, h1⟩ := text_st h LB L d key iv o m a e true hs t (ht t List.mem_cons_self)
    rw [gap, if_pos rfl, List.append_nil] at h1
    obtain ⟨o2, e2, h2⟩ := ih (fun y hy => ht y (List.mem_cons_of_mem _ hy)) o1 _ _ h1
    refine ⟨o2, ?_, ?_⟩
    · simp only [List.map_cons, runCalls, exec, e1, e2, Option.bind_eq_bind, Option.bind_some, pieces, List.zipWith_cons_cons, crypted_length, Option.pure_def]; rfl
    · rw [show e + (bodies (t :: ts)).flatten.length = e + (Spec.Aead.text t).length + (bodies ts).flatten.length by simp [bodies]; omega]
      have : (bodies (t :: ts)).flatten = Spec.Aead.text t ++ (bodies ts).flatten := by simp [bodies]
      rw [this, crypted_append]
      cases d <;> simpa [List.append_assoc] using h2

include LB in
/-- The first text call also closes the associated data. -/
theorem texts_st' (d f : Bool) (key iv : List Byte) (ts : List TextReq) (ht : ∀ t ∈ ts, t.Ok) (o : Obj M) (m : List Byte) (a e : Nat)
    (hs : St B L key iv o m a e f) :
    ∃ o', runCalls (exec h B) o (ts.map (.text d)) = some (o', List.zipWith (fun t r => .bytes (Spec.Aead.placed r t) r.length) ts (pieces key iv e (bodies ts))) ∧
      St B L key iv o' (m ++ (if ts = [] then [] else gap f a) ++ if d then (bodies ts).flatten else crypted key iv e (bodies ts).flatten) a
        (e + (bodies ts).flatten.length) (f || !ts.isEmpty) := by
  cases ts with
  | nil => refine ⟨o, rfl, ?_⟩; cases d <;> simpa [crypted, streamed] using hs
  | cons t ts =>
    obtain ⟨o1, e1, h1⟩ := text_st h LB L d key iv o m a e f hs t (ht t List.mem_cons_self)
    obtain ⟨o2, e2, h2⟩ := texts_st h LB L d key iv ts (fun y hy => ht y (List.mem_cons_of_mem _ hy)) o1 _ _ _ h1
    refine ⟨o2, ?_, ?_⟩
    · simp only [List.map_cons, runCalls, exec, e1, e2, Option.bind_eq_bind, Option.bind_some, pieces, List.zipWith_cons_cons, crypted_length, Option.pure_def]; rfl
    · rw [show e + (bodies (t :: ts)).flatten.length = e + (Spec.Aead.text t).length + (bodies ts).flatten.length by simp [bodies]; omega]
      have : (bodies (t :: ts)).flatten = Spec.Aead.text t ++ (bodies ts).flatten := by simp [bodies]
      rw [this, crypted_append]
      cases d <;> simpa [List.append_assoc] using h2

theorem ends_ready (hds : M.digestSize = 16) (key iv : List Byte) (o : Obj M) (m : List Byte) (ho : Ready B L key iv o m) (cs : List Call)
    (hc : ∀ c ∈ cs, c.Ok ∧ Spec.Aead.Ends c) :
    ∃ o', runCalls (exec h B) o cs = some (o', cs.map (Spec.Aead.ending (F (macKey key iv) m))) := by
  induction cs generalizing o with
  | nil => exact ⟨o, rfl⟩
  | cons c cs ih =>
    obtain ⟨hok, he⟩ := hc c List.mem_cons_self
    have h1 : ∃ o', exec h B o c = some (o', [Spec.Aead.ending (F (macKey key iv) m) c]) ∧ Ready B L key iv o' m := by
      cases c with
      | init => exact he.elim
      | aad => exact he.elim
      | text => exact he.elim
      | digest dst n =>
        obtain ⟨o', e, r⟩ := digest_ready h L key iv o m ho dst n (by rw [hds]; exact hok)
        exact ⟨o', by simp [exec, e, Spec.Aead.ending], r⟩
      | digestC c n =>
        obtain ⟨o', e, r⟩ := digestC_ready h L key iv o m ho c n
        exact ⟨o', by simp [exec, e, Spec.Aead.ending], r⟩
      | verify tag =>
        obtain ⟨o', e, r⟩ := verify_ready h L key iv o m ho tag
        exact ⟨o', by simp [exec, e, Spec.Aead.ending, verdict], r⟩
      | verifyThrow tag =>
        obtain ⟨o', e, r⟩ := verifyThrow_ready h L key iv o m ho tag
        exact ⟨o', by simp [exec, e, Spec.Aead.ending], r⟩
    obtain ⟨o1, e1, r1⟩ := h1
    obtain ⟨o2, e2⟩ := ih o1 r1 (fun c h => hc c (List.mem_cons_of_mem _ h))
    exact ⟨o2, by simp [runCalls, e1, e2]⟩

end Milo.AeadApie
