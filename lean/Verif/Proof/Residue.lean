import Verif.Model.Residue
import Verif.Proof.AeadUse
import Verif.Proof.Pbkdf2
/- What local arrays hold at the end. -/
namespace Milo
open Memory

theorem Aead.initLeft_fst (h : Host) (B : ChaCha.Backend) {M : MacImpl} (o : Aead.Obj M) (key iv : List Byte) :
    (Aead.initLeft h B o key iv).map (·.1) = Aead.init h B o key iv := by
  unfold Aead.initLeft Aead.init
  simp only [Option.bind_eq_bind, Option.map_bind, Function.comp_def, Option.pure_def, Option.map_some]

theorem Pbkdf2.expandLeft_fst (h : Host) (M : MacImpl) (junk : Nat → Byte) (m : Mem) (o : Pbkdf2.Obj M) (dst : List Byte) (c : W32) :
    (Pbkdf2.expandLeft h M junk m o dst c).map (·.1) = Pbkdf2.expand h M junk m o dst c := by
  unfold Pbkdf2.expandLeft Pbkdf2.expand
  simp only [Option.bind_eq_bind, Option.map_bind, Function.comp_def, Option.pure_def, Option.map_some]

theorem ChaCha.swTransformLeft_fst (h : Host) (n : Nat) (st : List W32) (mem : List Byte) (dst src : Nat) :
    (ChaCha.swTransformLeft h n st mem dst src).map (·.1) = (ChaCha.sw h).transform n st mem dst src := by
  unfold ChaCha.swTransformLeft ChaCha.sw
  simp only [Option.bind_eq_bind, Option.map_bind, Function.comp_def, Option.pure_def, Option.map_some]

theorem Aead.initLeft_eq (h : Host) {B : ChaCha.Backend} (LB : ChaCha.LawfulBackend B) {M : MacImpl} {F : List Byte → List Byte → List Byte} (L : LawfulMac M F)
    (o : Obj M) (ho : Base B L o) (key iv : List Byte) : ∃ o', initLeft h B o key iv = some (o', macKey key iv) := by
  obtain ⟨⟨st0, pos, hr⟩, hm⟩ := ho
  obtain ⟨c1, e1, r1⟩ := ChaCha.init_rep h LB st0 o.cipher pos hr key (civ iv)
  obtain ⟨c2, e2, r2⟩ := ChaCha.encrypt_eq h LB _ c1 0 r1 (List.replicate 64 0#8) 0 64 0 ⟨.inl rfl, by simp, by simp⟩
  have ek : xored (List.replicate 64 0#8) 0 0 (fun j => ChaCha.stream (ChaCha.initState key (civ iv)) (0 + j)) 64 = macKey key iv := by
    have hz : (List.replicate 64 0#8).length = 64 := List.length_replicate
    unfold macKey
    generalize List.replicate 64 0#8 = z at hz ⊢
    rw [Cipher.xored_streamed _ _ _ _ _ _ (by omega), List.drop_zero, List.drop_of_length_le (by omega), List.take_zero, List.take_of_length_le (by omega),
      List.nil_append, List.append_nil]
    rfl
  rw [ek] at e2
  obtain ⟨m, em, rm⟩ := L.init o.mac (macKey key iv) hm (by rw [macKey_length]; omega)
  refine ⟨⟨c2, m, some 0, some 0⟩, ?_⟩
  unfold initLeft
  rw [civ_eq]
  simp only [Option.bind_eq_bind, Option.bind_some, e1, e2, em]; rfl

theorem Aead.macKey_take (key iv : List Byte) : (macKey key iv).take 32 = Spec.Aead.oneTimeKey (Spec.padTo 32 key) (Spec.padTo 12 iv) := by
  rw [← key32_eq]
  unfold Spec.padTo
  rw [List.take_append_of_le_length (by rw [macKey_length]; omega)]

theorem Pbkdf2.expandLeft_eq (h : Host) (junk : Nat → Byte) {M : MacImpl} {F : List Byte → List Byte → List Byte} (L : LawfulMac M F)
    (hL : M.digestSize < 2 ^ 64) (m : Mem) (o : Obj M) (dst : List Byte) (c : W32) (p s : List Byte) (w : L.Wf o.prf)
    (hp : o.ikm.bytes m = some p) (hpl : p.length < 2 ^ 64) (hs : o.salt.bytes m = some s) (hsl : s.length < 2 ^ 64) (hd : M.digestSize ≤ dst.length) :
    ∃ o' b0, expandLeft h M junk m o dst c = some ((o', T F p s o.iterations c ++ dst.drop M.digestSize), b0, T F p s o.iterations c) := by
  have hb : (Spec.beBytes 4 c.toNat).length = 4 := by rw [spec_beBytes]; simp
  have hj : (uninit junk M.digestSize).length = M.digestSize := by simp [uninit]
  obtain ⟨s1, e1, r1⟩ := L.init o.prf p w hpl
  obtain ⟨s2, e2, r2⟩ := L.update s1 _ _ s r1 hsl
  obtain ⟨s3, e3, r3⟩ := L.update s2 _ _ (Spec.beBytes 4 c.toNat) r2 (by omega)
  obtain ⟨s4, e4, f4⟩ := L.finalize s3 _ _ r3
  have e5 := Hkdf.digest_all L s4 _ _ (uninit junk M.digestSize) f4 (by omega)
  rw [List.drop_of_length_le (by omega), List.append_nil, List.nil_append] at e5
  have hu := U_length L p s c.toNat 0
  obtain ⟨s5, e6, w5⟩ := iterate_eq h L hL m o.ikm p hp hpl s c.toNat (o.iterations.toNat - 1) 0 0 s4 (L.fin_wf _ _ _ f4)
  refine ⟨{ o with prf := s5 }, Spec.pbkdf2U F p s c.toNat (0 + (o.iterations.toNat - 1)), ?_⟩
  unfold expandLeft
  rw [stor_ctr]
  simp only [hp, hs, e1, e2, e3, e4, e5, Option.bind_eq_bind, Option.bind_some]
  rw [show F p (s ++ Spec.beBytes 4 c.toNat) = Spec.pbkdf2U F p s c.toNat 0 from rfl, copy_bytes h _ _ _ (by omega) (by omega)]
  simp only [Option.bind_some]
  rw [List.take_of_length_le (by omega), List.drop_of_length_le (by omega), List.append_nil]
  rw [show forM' (iterate h M m o.ikm) (o.iterations.toNat - 1) 0 (s4, Spec.pbkdf2U F p s c.toNat 0, Spec.pbkdf2U F p s c.toNat 0) = _ from e6]
  have ht := T_length' L p s c.toNat (o.iterations.toNat - 1)
  simp only [Option.bind_some, Nat.zero_add]
  rw [copy_bytes h _ _ _ (by omega) hd, List.take_of_length_le (by omega)]
  rfl

theorem ChaCha.transformBlocks_base (h : Host) (dst src n i : Nat) (st : List W32) (mem : List Byte) (hs : st.length = 16) (r : List W32 × List Byte)
    (e : forM' (ChaCha.transformBlock h dst src) n i (st, mem) = some r) : r.1 = ChaCha.ctr st n := by
  induction n generalizing i st mem with
  | zero =>
    simp only [forM', Option.some.injEq] at e
    rw [← e, ChaCha.ctr_zero _ (by omega)]
  | succ n ih =>
    simp only [forM', Option.bind_eq_bind, Option.bind_eq_some_iff] at e
    obtain ⟨s, e1, e2⟩ := e
    simp only [transformBlock, Option.bind_eq_bind, Option.bind_eq_some_iff, bump_eq st 1 (by omega), Option.bind_some, Option.pure_def, Option.some.injEq] at e1
    obtain ⟨_, _, mem', _, _, rfl, rfl⟩ := e1
    rw [ih _ _ _ (by rw [ctr_length, hs]) e2, ctr_ctr _ _ _ (by omega), Nat.add_comm]

theorem ChaCha.swTransformLeft_eq (h : Host) (n : Nat) (st : List W32) (mem : List Byte) (dst src : Nat) (hs : st.length = 16) (r : Nat × List Byte)
    (e : (ChaCha.sw h).transform n st mem dst src = some r) : ChaCha.swTransformLeft h n st mem dst src = some (r, ChaCha.ctr st n) := by
  have h1 := swTransformLeft_fst h n st mem dst src
  rw [e] at h1
  obtain ⟨x, ex, rfl⟩ := Option.map_eq_some_iff.1 h1
  rw [ex]
  have : x.2 = ctr st n := by
    simp only [swTransformLeft, Option.bind_eq_bind, Option.bind_eq_some_iff] at ex
    obtain ⟨b, eb, s, e2, e3⟩ := ex
    have : copyState st = some st := by
      unfold copyState
      rw [rdN_some _ _ _ (by omega), List.drop_zero, List.take_of_length_le (by omega)]
    rw [this] at eb
    cases eb
    simp only [Option.pure_def, Option.some.injEq] at e3
    rw [← e3]
    exact transformBlocks_base h dst src n 0 st mem hs s e2
  rw [← this]

end Milo
