import Verif.Proof.MacLawful
import Verif.Model.Hmac
import Verif.Spec.Mac
/- HMAC over a lawful hash is lawful. -/
namespace Milo.Hmac
open Memory

theorem padStep_eq (B i : Nat) (p q r : List Byte) (x y : Byte) (hp : p.length = i) (hq : q.length = B - 1) (hB : 0 < B) :
    padStep B i (p ++ x :: (q ++ y :: r)) = some (p ++ (x ^^^ 0x5C#8) :: (q ++ (y ^^^ 0x36#8) :: r)) := by
  unfold padStep
  rw [rd1_append p _ x i hp.symm]
  simp only [Option.bind_eq_bind, Option.bind_some]
  rw [wr1_append' p _ x _ i hp.symm]
  simp only [Option.bind_some]
  have e : ∀ a b : Byte, p ++ a :: (q ++ b :: r) = (p ++ a :: q) ++ b :: r := by intros; simp
  rw [e, rd1_append _ r y (i + B) (by simp; omega)]
  simp only [Option.bind_some]
  rw [wr1_append' _ r y _ (i + B) (by simp; omega)]
  rw [e]

theorem padLoop_eq (B : Nat) (a b done1 done2 : List Byte) (hab : a.length = b.length) (h1 : done1.length + a.length = B)
    (h2 : done2.length = done1.length) :
    forM' (padStep B) a.length done1.length (done1 ++ a ++ (done2 ++ b))
      = some (done1 ++ a.map (· ^^^ 0x5C#8) ++ (done2 ++ b.map (· ^^^ 0x36#8))) := by
  induction a generalizing b done1 done2 with
  | nil =>
    cases b with
    | nil => simp [forM']
    | cons _ _ => simp at hab
  | cons x a ih =>
    cases b with
    | nil => simp at hab
    | cons y b =>
      simp only [List.length_cons, forM', Option.bind_eq_bind]
      have e := padStep_eq B done1.length done1 (a ++ done2) b x y rfl (by simp at h1 ⊢; omega) (by simp at h1; omega)
      have e1 : done1 ++ x :: a ++ (done2 ++ y :: b) = done1 ++ x :: (a ++ done2 ++ y :: b) := by simp
      rw [e1, e, Option.bind_some]
      have := ih b (done1 ++ [x ^^^ 0x5C#8]) (done2 ++ [y ^^^ 0x36#8]) (by simpa using hab) (by simp at h1 ⊢; omega) (by simp [h2])
      simp only [List.length_append, List.length_singleton] at this
      have e2 : done1 ++ (x ^^^ 0x5C#8) :: (a ++ done2 ++ (y ^^^ 0x36#8) :: b)
          = done1 ++ [x ^^^ 0x5C#8] ++ a ++ (done2 ++ [y ^^^ 0x36#8] ++ b) := by simp
      rw [e2, this]
      simp

variable (h : Host) {H : HashImpl} {F : List Byte → List Byte} (L : Lawful H F)

/-- Filling both halves of the buffer. -/
theorem fill_eq (B : Nat) (key rest1 rest2 : List Byte) (hk : key.length ≤ B) (h1 : key.length + rest1.length = B) (h2 : key.length + rest2.length = B) :
    ((at_ (key ++ rest1 ++ (key ++ rest2)) key.length fun p => set h (p := 1) p 0 (B - key.length)).bind fun buf =>
      (at_ buf (B + key.length) fun p => set h (p := 1) p 0 (B - key.length)).bind fun buf => forM' (padStep B) B 0 buf)
    = some ((key ++ List.replicate (B - key.length) 0).map (· ^^^ 0x5C#8) ++ (key ++ List.replicate (B - key.length) 0).map (· ^^^ 0x36#8)) := by
  rw [at_eq _ _ _ (by simp)]
  rw [set_bytes h _ 0 _ (by simp; omega)]
  simp only [Option.map_some, Option.bind_some]
  have e1 : List.take key.length (key ++ rest1 ++ (key ++ rest2)) = key := by
    rw [List.append_assoc, List.take_left' rfl]
  have e2 : (List.drop key.length (key ++ rest1 ++ (key ++ rest2))).drop (B - key.length) = key ++ rest2 := by
    rw [List.append_assoc, List.drop_left' rfl, List.drop_left' (by omega)]
  rw [e1, e2]
  have hz : (List.replicate (B - key.length) (0 : Byte)).length = B - key.length := by simp
  generalize hzz : List.replicate (B - key.length) (0 : Byte) = z at hz
  rw [at_eq _ _ _ (by simp; omega)]
  rw [set_bytes h _ 0 _ (by simp; omega), hzz]
  simp only [Option.map_some, Option.bind_some]
  have e3 : List.take (B + key.length) (key ++ (z ++ (key ++ rest2))) = key ++ z ++ key := by
    rw [← List.append_assoc, ← List.append_assoc, List.take_left' (by simp; omega)]
  have e4 : (List.drop (B + key.length) (key ++ (z ++ (key ++ rest2)))).drop (B - key.length) = [] := by
    rw [List.drop_drop]; apply List.drop_of_length_le; simp; omega
  rw [e3, e4]
  have := padLoop_eq B (key ++ z) (key ++ z) [] [] rfl (by simp; omega) rfl
  simp only [List.length_nil, List.nil_append] at this
  have hl : (key ++ z).length = B := by simp; omega
  rw [hl] at this
  have e5 : key ++ z ++ key ++ (z ++ []) = key ++ z ++ (key ++ z) := by simp
  rw [e5, this]

/-- The two padded keys. -/
def okey (B : Nat) (F : List Byte → List Byte) (k : List Byte) : List Byte := (Spec.hmacKey B F k).map (· ^^^ 0x5C#8)
def ikey (B : Nat) (F : List Byte → List Byte) (k : List Byte) : List Byte := (Spec.hmacKey B F k).map (· ^^^ 0x36#8)

theorem hmacKey_length (B : Nat) (k : List Byte) (hF : ∀ m, (F m).length ≤ B) : (Spec.hmacKey B F k).length = B := by
  unfold Spec.hmacKey
  by_cases hk : k.length > B
  · have := hF k
    simp [hk]; omega
  · simp [hk]; omega

/-- Every object. -/
def Wf (L : Lawful H F) (o : Obj H) : Prop := L.Wf o.hash ∧ o.buffer.length = 2 * H.blockSize
/-- Keyed with `k`, fed `m`. -/
def Rep (L : Lawful H F) (o : Obj H) (k m : List Byte) : Prop :=
  L.Rep o.hash (ikey H.blockSize F k ++ m) ∧ o.buffer.length = 2 * H.blockSize ∧ o.buffer.take H.blockSize = okey H.blockSize F k
def Fin (L : Lawful H F) (o : Obj H) (k m : List Byte) : Prop :=
  L.Fin o.hash (okey H.blockSize F k ++ F (ikey H.blockSize F k ++ m)) ∧ o.buffer.length = 2 * H.blockSize

theorem longKey_eq (hD : H.digestSize ≤ H.blockSize) (o : Obj H) (k : List Byte) (ho : Wf L o) (hk : k.length < 2 ^ 64) :
    ∃ s r1 r2, longKey h H o k = some (⟨s, F k ++ r1 ++ (F k ++ r2)⟩, (F k).length) ∧ L.Wf s ∧
      (F k).length + r1.length = H.blockSize ∧ (F k).length + r2.length = H.blockSize := by
  obtain ⟨w, hb⟩ := ho
  obtain ⟨s1, e1, r1⟩ := L.update _ [] k (L.init _ w) hk
  obtain ⟨s2, e2, f2⟩ := L.finalize s1 _ r1
  have hl := L.length k
  have e3 := L.digest s2 _ o.buffer H.digestSize f2 (by omega)
  simp only [List.nil_append, Nat.min_self] at e3
  rw [List.take_of_length_le (by omega)] at e3
  unfold longKey
  simp only [e1, e2, e3, Option.bind_eq_bind, Option.bind_some, Option.pure_def]
  rw [at_eq _ _ _ (by simp; omega), copy_bytes h _ _ _ (by simp; omega) (by simp; omega)]
  simp only [Option.map_some, Option.bind_some]
  refine ⟨s2, (o.buffer.drop H.digestSize).take (H.blockSize - H.digestSize),
    (o.buffer.drop H.digestSize).drop H.blockSize, ?_, L.fin_wf _ _ f2, by simp; omega, by simp; omega⟩
  rw [hl]
  congr 3
  rw [List.take_left' hl]
  have e4 : List.take H.blockSize (F k ++ List.drop H.digestSize o.buffer) = F k ++ (o.buffer.drop H.digestSize).take (H.blockSize - H.digestSize) := by
    rw [List.take_append, List.take_of_length_le (by omega), hl]
  have e5 : List.drop H.digestSize (List.drop H.blockSize (F k ++ List.drop H.digestSize o.buffer)) = (o.buffer.drop H.digestSize).drop H.blockSize := by
    rw [List.drop_drop, show H.blockSize + H.digestSize = H.digestSize + H.blockSize by omega, drop_left_add _ _ _ _ hl]
  rw [e4, e5]

theorem shortKey_eq (o : Obj H) (k : List Byte) (ho : Wf L o) (hk : k.length ≤ H.blockSize) :
    ∃ s r1 r2, shortKey h H o k = some (⟨s, k ++ r1 ++ (k ++ r2)⟩, k.length) ∧ L.Wf s ∧
      k.length + r1.length = H.blockSize ∧ k.length + r2.length = H.blockSize := by
  obtain ⟨w, hb⟩ := ho
  unfold shortKey
  rw [copy_bytes h _ _ _ (by omega) (by omega)]
  simp only [Option.bind_eq_bind, Option.bind_some, Option.pure_def]
  rw [at_eq _ _ _ (by simp; omega), copy_bytes h _ _ _ (by omega) (by simp; omega)]
  simp only [Option.map_some, Option.bind_some]
  refine ⟨o.hash, (o.buffer.drop k.length).take (H.blockSize - k.length),
    (o.buffer.drop k.length).drop H.blockSize, ?_, w, by simp; omega, by simp; omega⟩
  congr 3
  rw [List.take_of_length_le (Nat.le_refl k.length)]
  have e4 : List.take H.blockSize (k ++ List.drop k.length o.buffer) = k ++ (o.buffer.drop k.length).take (H.blockSize - k.length) := by
    rw [List.take_append, List.take_of_length_le (by omega)]
  have e5 : List.drop k.length (List.drop H.blockSize (k ++ List.drop k.length o.buffer)) = (o.buffer.drop k.length).drop H.blockSize := by
    rw [List.drop_drop, show H.blockSize + k.length = k.length + H.blockSize by omega, drop_left_add _ _ _ _ rfl]
  rw [e4, e5]

theorem init_eq (hD : H.digestSize ≤ H.blockSize) (hB : H.blockSize < 2 ^ 63) (o : Obj H) (k : List Byte) (ho : Wf L o) (hk : k.length < 2 ^ 64) :
    ∃ o', init h H o k = some o' ∧ Rep L o' k [] := by
  have key : ∃ s r1 r2 kk, (if k.length > H.blockSize then longKey h H o k else shortKey h H o k)
        = some (⟨s, kk ++ r1 ++ (kk ++ r2)⟩, kk.length) ∧ L.Wf s ∧
      kk.length + r1.length = H.blockSize ∧ kk.length + r2.length = H.blockSize ∧
      kk ++ List.replicate (H.blockSize - kk.length) 0 = Spec.hmacKey H.blockSize F k := by
    by_cases hc : k.length > H.blockSize
    · obtain ⟨s, r1, r2, e, w, h1, h2⟩ := longKey_eq h L hD o k ho hk
      exact ⟨s, r1, r2, F k, by rw [if_pos hc, e], w, h1, h2, by simp [Spec.hmacKey, hc]⟩
    · obtain ⟨s, r1, r2, e, w, h1, h2⟩ := shortKey_eq h L o k ho (by omega)
      exact ⟨s, r1, r2, k, by rw [if_neg hc, e], w, h1, h2, by simp [Spec.hmacKey, hc]⟩
  obtain ⟨s, r1, r2, kk, e, w, h1, h2, hkk⟩ := key
  have hlen : (Spec.hmacKey H.blockSize F k).length = H.blockSize := hmacKey_length _ _ (fun m => by rw [L.length]; exact hD)
  have hfill := fill_eq h H.blockSize kk r1 r2 (by omega) h1 h2
  rw [hkk] at hfill
  obtain ⟨s', eu, ru⟩ := L.update _ [] (ikey H.blockSize F k) (L.init _ w) (by simp [ikey, hlen]; omega)
  refine ⟨⟨s', okey H.blockSize F k ++ ikey H.blockSize F k⟩, ?_, ?_, ?_, ?_⟩
  · unfold init
    have e' : putKey h H o k = _ := e
    rw [e', Option.bind_eq_bind, Option.bind_some]
    show (if kk.length > H.blockSize then none else _) = _
    rw [if_neg (by omega)]
    show Option.bind _ _ = _
    cases ha : (at_ (kk ++ r1 ++ (kk ++ r2)) kk.length fun p => set h (p := 1) p 0 (H.blockSize - kk.length)) with
    | none => rw [ha] at hfill; simp at hfill
    | some b1 =>
      rw [ha] at hfill
      simp only [Option.bind_some] at hfill ⊢
      cases hb : (at_ b1 (H.blockSize + kk.length) fun p => set h (p := 1) p 0 (H.blockSize - kk.length)) with
      | none => rw [hb] at hfill; simp at hfill
      | some b2 =>
        rw [hb] at hfill
        simp only [Option.bind_some, Option.bind_eq_bind] at hfill ⊢
        rw [hfill]
        simp only [Option.bind_some]
        have hr : rdN ((Spec.hmacKey H.blockSize F k).map (· ^^^ 0x5C#8) ++ (Spec.hmacKey H.blockSize F k).map (· ^^^ 0x36#8)) H.blockSize H.blockSize
            = some (ikey H.blockSize F k) := by
          rw [rdN_some _ _ _ (by simp [hlen]), List.drop_left' (by simp [hlen]), List.take_of_length_le (by simp [hlen])]; rfl
        rw [hr]
        simp only [Option.bind_some, eu, Option.pure_def]
        rfl
  · simpa using ru
  · simp [okey, ikey, hlen]; omega
  · exact List.take_left' (by simp [okey, hlen])

theorem finalize_wf (hD : H.digestSize ≤ H.blockSize) (o : Obj H) (ho : Wf L o) : ∃ o', finalize H o = some o' ∧ Wf L o' := by
  obtain ⟨w, hb⟩ := ho
  obtain ⟨s1, e1, w1⟩ := L.finalize_wf o.hash w
  obtain ⟨p, e2, hp⟩ := L.digest_wf s1 (o.buffer.drop H.blockSize) H.digestSize w1 (by simp; omega)
  have w2 := L.rep_wf _ _ (L.init s1 w1)
  obtain ⟨s3, e3, w3⟩ := L.update_wf (H.init s1) ((o.buffer.take H.blockSize ++ p).take (H.blockSize + H.digestSize)) w2
  obtain ⟨s4, e4, w4⟩ := L.finalize_wf s3 w3
  refine ⟨⟨s4, o.buffer.take H.blockSize ++ p⟩, ?_, w4, by simp at hp; simp [hp]; omega⟩
  unfold finalize
  simp only [e1, Option.bind_eq_bind, Option.bind_some, Option.pure_def]
  rw [at_eq _ _ _ (by omega)]
  simp only [e2, Option.bind_some, Option.map_some]
  rw [rdN_some _ _ _ (by simp [hp]; omega)]
  simp only [Option.bind_some, List.drop_zero, e3, e4]

theorem finalize_eq (hD : H.digestSize ≤ H.blockSize) (hB : H.blockSize < 2 ^ 63) (o : Obj H) (k m : List Byte) (ho : Rep L o k m) :
    ∃ o', finalize H o = some o' ∧ Fin L o' k m := by
  obtain ⟨r, hb, ht⟩ := ho
  obtain ⟨s1, e1, f1⟩ := L.finalize o.hash _ r
  have w1 := L.fin_wf _ _ f1
  have hl := L.length (ikey H.blockSize F k ++ m)
  have e2 := L.digest s1 _ (o.buffer.drop H.blockSize) H.digestSize f1 (by simp; omega)
  rw [Nat.min_self, List.take_of_length_le (by omega)] at e2
  have hok : (okey H.blockSize F k).length = H.blockSize := by rw [← ht]; simp; omega
  obtain ⟨s3, e3, r3⟩ := L.update _ [] (okey H.blockSize F k ++ F (ikey H.blockSize F k ++ m)) (L.init s1 w1) (by simp [hok, hl]; omega)
  obtain ⟨s4, e4, f4⟩ := L.finalize s3 _ r3
  refine ⟨⟨s4, okey H.blockSize F k ++ (F (ikey H.blockSize F k ++ m) ++ (o.buffer.drop H.blockSize).drop H.digestSize)⟩, ?_, f4, by simp [hok, hl]; omega⟩
  unfold finalize
  simp only [e1, Option.bind_eq_bind, Option.bind_some, Option.pure_def]
  rw [at_eq _ _ _ (by omega)]
  simp only [e2, Option.bind_some, Option.map_some]
  rw [rdN_some _ _ _ (by simp [hl]; omega)]
  simp only [Option.bind_some, List.drop_zero, ht]
  have : (okey H.blockSize F k ++ (F (ikey H.blockSize F k ++ m) ++ (o.buffer.drop H.blockSize).drop H.digestSize)).take (H.blockSize + H.digestSize)
      = okey H.blockSize F k ++ F (ikey H.blockSize F k ++ m) := by
    rw [← List.append_assoc, List.take_left' (by simp [hok, hl])]
  rw [this, e3]
  simp only [Option.bind_some, e4]

/-- HMAC over a lawful hash computes RFC 2104. -/
def lawful (ds : Nat) (hds : ds ≤ H.digestSize) (hD : H.digestSize ≤ H.blockSize) (hB : H.blockSize < 2 ^ 63) :
    LawfulMac (impl h H ds) (fun k m => (Spec.hmac H.blockSize F k m).take ds) where
  Wf := Wf L
  Rep := Rep L
  Fin := Fin L
  fresh := ⟨L.fresh, List.length_replicate⟩
  rep_wf := fun o k m r => ⟨L.rep_wf _ _ r.1, r.2.1⟩
  fin_wf := fun o k m r => ⟨L.fin_wf _ _ r.1, r.2⟩
  init := fun o k w hk => init_eq h L hD hB o k w hk
  update_wf := fun o x w => by
    obtain ⟨s, e, w'⟩ := L.update_wf o.hash x w.1
    exact ⟨{ o with hash := s }, by simp [impl, update, e], w', w.2⟩
  update := fun o k m x r hx => by
    obtain ⟨s, e, r'⟩ := L.update o.hash _ x r.1 hx
    exact ⟨{ o with hash := s }, by simp [impl, update, e], by simpa [List.append_assoc] using r', r.2⟩
  finalize_wf := fun o w => finalize_wf L hD o w
  finalize := fun o k m r => finalize_eq L hD hB o k m r
  digest_wf := fun o dst n w hn => by
    have hn' : min n ds ≤ dst.length := hn
    obtain ⟨out, e, hl⟩ := L.digest_wf o.hash dst (min n ds) w.1 (by omega)
    refine ⟨out, ?_, hl⟩
    show digest H ds o dst n = _
    unfold digest
    rw [e]
    show some (out, min (min n ds) H.digestSize) = some (out, min n ds)
    rw [show min (min n ds) H.digestSize = min n ds by omega]
  digest := fun o k m dst n f hn => by
    have hn' : min n ds ≤ dst.length := hn
    show digest H ds o dst n = some (((Spec.hmac H.blockSize F k m).take ds).take (min n ds) ++ dst.drop (min n ds), min n ds)
    unfold digest
    rw [L.digest o.hash _ dst (min n ds) f.1 (by omega)]
    rw [show min (min n ds) H.digestSize = min n ds by omega, List.take_take, show min (min n ds) ds = min n ds by omega]
    rfl
  length := fun k m => by
    simp only [List.length_take, Spec.hmac, L.length]
    show min ds H.digestSize = ds
    omega

end Milo.Hmac
