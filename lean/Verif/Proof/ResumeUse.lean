import Verif.Proof.Resume
import Verif.Proof.HashApie
import Verif.Proof.MacAlg
/- Calls in any order on hash and mac objects: simulation by the machines of Spec.Resume. -/
namespace Milo
open Memory Spec.Resume

theorem follows_congr {H : HashImpl} {M : Machine} {F G : List Byte → List Byte} (h : F = G) (L : Lawful H F) (W : Follows H M L) :
    ∃ L' : Lawful H G, Nonempty (Follows H M L') := by
  subst h; exact ⟨L, ⟨W⟩⟩

theorem shaFollows (h : Host) (a : ShaAlg) (ds : Nat) (hds : ds ≤ a.size) :
    ∃ L : Lawful (a.impl h ds) (fun m => (shaSpec a m).take ds), Nonempty (Follows (a.impl h ds) (sha a) L) := by
  cases a with
  | sha_1_160 => exact ⟨_, ⟨Sha1.follows h (Sha1.blocks_ok h) ds 20 hds (by omega)⟩⟩
  | sha_2_224 =>
    have W := Sha256.follows h 224 (Sha256.blocks_ok h) ds 28 hds (by omega) (.inl rfl) rfl
    rw [Sha256.iv224_eq] at W
    refine follows_congr ?_ _ W
    funext m
    simp only [Sha256.F, shaSpec, Spec.Sha.sha224, Sha256.iv224_eq]
    exact (take_take_min _ _ _ hds).symm
  | sha_2_256 =>
    have W := Sha256.follows h 256 (Sha256.blocks_ok h) ds 32 hds (by omega) (.inr rfl) rfl
    rw [Sha256.iv256_eq] at W
    refine follows_congr ?_ _ W
    funext m
    simp only [Sha256.F, shaSpec, Spec.Sha.sha256, Sha256.iv256_eq]; rfl
  | sha_2_384 =>
    have W := Sha512.follows h 384 (Sha512.blocksSw_ok h) ds 48 hds (by omega) (.inr (.inr (.inl rfl))) rfl
    rw [Sha512.iv384_eq] at W
    refine follows_congr ?_ _ W
    funext m
    simp only [Sha512.F, shaSpec, Spec.Sha.sha384, Sha512.iv384_eq]
    exact (take_take_min _ _ _ hds).symm
  | sha_2_512 =>
    have W := Sha512.follows h 512 (Sha512.blocksSw_ok h) ds 64 hds (by omega) (.inr (.inr (.inr rfl))) rfl
    rw [Sha512.iv512_eq] at W
    refine follows_congr ?_ _ W
    funext m
    simp only [Sha512.F, shaSpec, Spec.Sha.sha512, Sha512.iv512_eq]; rfl
  | sha_2_512_224 =>
    have W := Sha512.follows h 224 (Sha512.blocksSw_ok h) ds 28 hds (by omega) (.inl rfl) rfl
    rw [Sha512.iv224_eq] at W
    refine follows_congr ?_ _ W
    funext m
    simp only [Sha512.F, shaSpec, Spec.Sha.sha512_224, Sha512.iv224_eq]
    exact (take_take_min _ _ _ hds).symm
  | sha_2_512_256 =>
    have W := Sha512.follows h 256 (Sha512.blocksSw_ok h) ds 32 hds (by omega) (.inr (.inl rfl)) rfl
    rw [Sha512.iv256_eq] at W
    refine follows_congr ?_ _ W
    funext m
    simp only [Sha512.F, shaSpec, Spec.Sha.sha512_256, Sha512.iv256_eq]
    exact (take_take_min _ _ _ hds).symm

/-- The mac class `K` does what the machine `M` does. -/
structure FollowsMac (K : MacImpl) (M : Machine) where
  Sim : K.σ → M.S → Prop
  fresh : Sim K.fresh M.fresh
  init : ∀ o s key, Sim o s → key.length < 2 ^ 64 → ∃ o', K.init o key = some o' ∧ Sim o' (M.start key)
  update : ∀ o s x, Sim o s → x.length < 2 ^ 64 → ∃ o', K.update o x = some o' ∧ Sim o' (M.feed s x)
  finalize : ∀ o s, Sim o s → ∃ o', K.finalize o = some o' ∧ Sim o' (M.close s)
  digest : ∀ o s dst n, Sim o s → min n K.digestSize ≤ dst.length → K.digest o dst n = some (Spec.written ((M.out s).take K.digestSize) dst n)
  length : ∀ o s, Sim o s → ((M.out s).take K.digestSize).length = K.digestSize

/-! ### The classes -/

/-- Spans are shorter than `2^64`. -/
def Hash.Call.Short : Hash.Call → Prop
  | .update x => x.length < 2 ^ 64
  | _ => True

def HashApie.Call.Short : HashApie.Call → Prop
  | .update x => x.length < 2 ^ 64
  | _ => True

def Mac.Call.Short : Mac.Call → Prop
  | .update x => x.length < 2 ^ 64
  | _ => True

def MacApie.Call.Short : MacApie.Call → Prop
  | .update x => x.length < 2 ^ 64
  | _ => True

theorem hashCalls_sim {H : HashImpl} {M : Machine} {F : List Byte → List Byte} {K : Lawful H F} (L : Follows H M K) (cs : List Hash.Call) (hc : ∀ c ∈ cs, c.Ok H.digestSize ∧ c.Short) (o : H.σ) (s : M.S)
    (w : L.Sim o s) : ∃ o', runCalls (Hash.exec H) o cs = some (o', M.hashCalls H.digestSize s cs) := by
  induction cs generalizing o s with
  | nil => exact ⟨o, rfl⟩
  | cons c cs ih =>
    have ih := ih (fun c h => hc c (List.mem_cons_of_mem _ h))
    have hc := hc c List.mem_cons_self
    cases c with
    | init =>
      obtain ⟨o', e⟩ := ih _ _ (L.init o (L.wf _ _ w))
      exact ⟨o', by simp [runCalls, Hash.exec, e, Machine.hashCalls]⟩
    | update x =>
      obtain ⟨o1, e1, w1⟩ := L.update o s x w hc.2
      obtain ⟨o', e⟩ := ih _ _ w1
      exact ⟨o', by simp [runCalls, Hash.exec, e1, e, Machine.hashCalls]⟩
    | finalize =>
      obtain ⟨o1, e1, w1⟩ := L.finalize o s w
      obtain ⟨o', e⟩ := ih _ _ w1
      exact ⟨o', by simp [runCalls, Hash.exec, e1, e, Machine.hashCalls]⟩
    | digest dst n =>
      have e1 := L.digest o s dst n w hc.1
      obtain ⟨o', e⟩ := ih _ _ w
      exact ⟨o', by simp [runCalls, Hash.exec, e1, e, Machine.hashCalls]⟩

theorem macCalls_sim {K : MacImpl} {M : Machine} (L : FollowsMac K M) (cs : List Mac.Call) (hc : ∀ c ∈ cs, c.Ok K.digestSize ∧ c.Short) (o : K.σ) (s : M.S)
    (w : L.Sim o s) : ∃ o', runCalls (Mac.exec K) o cs = some (o', M.macCalls K.digestSize s cs) := by
  induction cs generalizing o s with
  | nil => exact ⟨o, rfl⟩
  | cons c cs ih =>
    have ih := ih (fun c h => hc c (List.mem_cons_of_mem _ h))
    have hc := hc c List.mem_cons_self
    cases c with
    | init key =>
      obtain ⟨o1, e1, w1⟩ := L.init o s key w hc.1
      obtain ⟨o', e⟩ := ih _ _ w1
      exact ⟨o', by simp [runCalls, Mac.exec, e1, e, Machine.macCalls]⟩
    | update x =>
      obtain ⟨o1, e1, w1⟩ := L.update o s x w hc.2
      obtain ⟨o', e⟩ := ih _ _ w1
      exact ⟨o', by simp [runCalls, Mac.exec, e1, e, Machine.macCalls]⟩
    | finalize =>
      obtain ⟨o1, e1, w1⟩ := L.finalize o s w
      obtain ⟨o', e⟩ := ih _ _ w1
      exact ⟨o', by simp [runCalls, Mac.exec, e1, e, Machine.macCalls]⟩
    | digest dst n =>
      have e1 := L.digest o s dst n w hc.1
      obtain ⟨o', e⟩ := ih _ _ w
      exact ⟨o', by simp [runCalls, Mac.exec, e1, e, Machine.macCalls]⟩

/-! ### The wrappers -/

/-- A digest into a container of a value of `D` bytes, by way of a resized one. -/
theorem contained_resize (full : List Byte) (D : Nat) (hl : full.length = D) (c : Container) (n : Nat) :
    ((c.resize (min n D)).1.withData (Spec.written full (c.resize (min n D)).1.data (c.resize (min n D)).2).1,
      (Spec.written full (c.resize (min n D)).1.data (c.resize (min n D)).2).2) = Spec.contained full c n := by
  have tm : ∀ k, full.take (min k D) = full.take k := fun k => by
    rw [← hl, ← List.take_take, List.take_of_length_le (Nat.le_refl full.length)]
  unfold Spec.contained Spec.written
  rw [hl]
  by_cases hd : c.dynamic
  · simp only [Container.resize, hd, if_true, Container.withData]
    rw [List.drop_of_length_le (by simp; omega), List.append_nil, tm, Nat.min_assoc, Nat.min_self]
  · have hdf : c.dynamic = false := by simpa using hd
    simp only [Container.resize, Container.withData, hdf, Bool.false_eq_true, if_false]
    have e : full.take (min (min n D) c.data.length) = full.take (min n c.data.length) := by
      rw [show min (min n D) c.data.length = min (min n c.data.length) D by omega, tm]
    rw [e, show min (min (min n D) c.data.length) D = min (min n c.data.length) D by omega]

theorem hashFinal_sim {H : HashImpl} {M : Machine} {F : List Byte → List Byte} {K : Lawful H F} (L : Follows H M K) (o : HashApie.Obj H) (s : M.S) (w : L.Sim o.impl s) :
    ∃ i, HashApie.doFinalize H o = some ⟨i, true⟩ ∧ L.Sim i (M.closed s o.finalized) := by
  unfold HashApie.doFinalize Machine.closed
  obtain ⟨i, d⟩ := o
  cases d with
  | true => exact ⟨i, rfl, w⟩
  | false =>
    obtain ⟨o1, e1, w1⟩ := L.finalize _ s w
    exact ⟨o1, by simp [e1], w1⟩

theorem hashApie_sim {H : HashImpl} {M : Machine} {F : List Byte → List Byte} {K : Lawful H F} (L : Follows H M K) (cs : List HashApie.Call) (hc : ∀ c ∈ cs, c.Ok H.digestSize ∧ c.Short)
    (o : HashApie.Obj H) (s : M.S) (w : L.Sim o.impl s) :
    ∃ o', runCalls (HashApie.exec H) o cs = some (o', M.hashApie H.digestSize s o.finalized cs) := by
  induction cs generalizing o s with
  | nil => exact ⟨o, rfl⟩
  | cons c cs ih =>
    have ih := ih (fun c h => hc c (List.mem_cons_of_mem _ h))
    have hc := hc c List.mem_cons_self
    cases c with
    | init =>
      obtain ⟨o', e⟩ := ih (HashApie.initialise H o) _ (L.init o.impl (L.wf _ _ w))
      refine ⟨o', ?_⟩
      simp only [runCalls, HashApie.exec, e, Machine.hashApie, Option.bind_eq_bind, Option.bind_some, Option.pure_def, List.nil_append]
      rfl
    | update x =>
      obtain ⟨o1, e1, w1⟩ := L.update o.impl s x w hc.2
      obtain ⟨o', e⟩ := ih { o with impl := o1 } _ w1
      refine ⟨o', ?_⟩
      simp only [runCalls, HashApie.exec, HashApie.update, e1, e, Machine.hashApie, Option.bind_eq_bind, Option.bind_some, Option.pure_def, List.nil_append]
    | digest dst n =>
      obtain ⟨i, e1, w1⟩ := hashFinal_sim L o s w
      have e2 := L.digest i _ dst n w1 hc.1
      obtain ⟨o', e⟩ := ih ⟨i, true⟩ _ w1
      refine ⟨o', ?_⟩
      simp only [runCalls, HashApie.exec, HashApie.digest, e1, e2, e, Machine.hashApie, Option.bind_eq_bind, Option.bind_some, Option.pure_def,
        List.singleton_append]
    | digestC c n =>
      obtain ⟨i, e1, w1⟩ := hashFinal_sim L o s w
      obtain ⟨o', e⟩ := ih ⟨i, true⟩ _ w1
      refine ⟨o', ?_⟩
      have h1 := HashApie.resize_fits c (min n H.digestSize)
      have e2 := L.digest i _ (c.resize (min n H.digestSize)).1.data (c.resize (min n H.digestSize)).2 w1 (by omega)
      have e3 := contained_resize _ _ (L.length i _ w1) c n
      have e4 : HashApie.digestC H o c n = some (⟨i, true⟩, Spec.contained ((M.out (M.closed s o.finalized)).take H.digestSize) c n) := by
        have e5 : HashApie.doFinalize H ⟨i, true⟩ = some ⟨i, true⟩ := rfl
        simp only [HashApie.digestC, e1, HashApie.digest, e5, e2, Option.bind_eq_bind, Option.bind_some, Option.pure_def]
        rw [e3]
      simp only [runCalls, HashApie.exec, e4, e, Machine.hashApie, Option.bind_eq_bind, Option.bind_some, Option.pure_def,
        List.singleton_append, Spec.extracted]

theorem macFinal_sim {K : MacImpl} {M : Machine} (L : FollowsMac K M) (i : K.σ) (d : Bool) (s : M.S) (w : L.Sim i s) :
    ∃ i', MacApie.doFinalize K ⟨i, some d⟩ = some ⟨i', some true⟩ ∧ L.Sim i' (M.closed s d) := by
  unfold MacApie.doFinalize Machine.closed
  cases d with
  | true => exact ⟨i, rfl, w⟩
  | false =>
    obtain ⟨o1, e1, w1⟩ := L.finalize _ s w
    exact ⟨o1, by simp [e1], w1⟩

theorem macApie_sim {K : MacImpl} {M : Machine} (L : FollowsMac K M) (cs : List MacApie.Call) (hc : ∀ c ∈ cs, c.Ok K.digestSize ∧ c.Short)
    (i : K.σ) (d : Bool) (s : M.S) (w : L.Sim i s) :
    ∃ o', runCalls (MacApie.exec K) ⟨i, some d⟩ cs = some (o', M.macApie K.digestSize s d cs) := by
  induction cs generalizing i d s with
  | nil => exact ⟨_, rfl⟩
  | cons c cs ih =>
    have ih := ih (fun c h => hc c (List.mem_cons_of_mem _ h))
    have hc := hc c List.mem_cons_self
    cases c with
    | init key =>
      obtain ⟨o1, e1, w1⟩ := L.init i s key w hc.1
      obtain ⟨o', e⟩ := ih o1 false _ w1
      refine ⟨o', ?_⟩
      simp only [runCalls, MacApie.exec, MacApie.initialise, e1, e, Machine.macApie, Option.bind_eq_bind, Option.bind_some, Option.pure_def, List.nil_append]
    | update x =>
      obtain ⟨o1, e1, w1⟩ := L.update i s x w hc.2
      obtain ⟨o', e⟩ := ih o1 d _ w1
      refine ⟨o', ?_⟩
      simp only [runCalls, MacApie.exec, MacApie.update, e1, e, Machine.macApie, Option.bind_eq_bind, Option.bind_some, Option.pure_def, List.nil_append]
    | digest dst n =>
      obtain ⟨i', e1, w1⟩ := macFinal_sim L i d s w
      have e2 := L.digest i' _ dst n w1 hc.1
      obtain ⟨o', e⟩ := ih i' true _ w1
      refine ⟨o', ?_⟩
      simp only [runCalls, MacApie.exec, MacApie.digest, e1, e2, e, Machine.macApie, Option.bind_eq_bind, Option.bind_some, Option.pure_def,
        List.singleton_append]
    | digestC c n =>
      obtain ⟨i', e1, w1⟩ := macFinal_sim L i d s w
      obtain ⟨o', e⟩ := ih i' true _ w1
      refine ⟨o', ?_⟩
      have h1 := HashApie.resize_fits c (min n K.digestSize)
      have e2 := L.digest i' _ (c.resize (min n K.digestSize)).1.data (c.resize (min n K.digestSize)).2 w1 (by omega)
      have e3 := contained_resize _ _ (L.length i' _ w1) c n
      have e4 : MacApie.digestC K ⟨i, some d⟩ c n = some (⟨i', some true⟩, Spec.contained ((M.out (M.closed s d)).take K.digestSize) c n) := by
        have e5 : MacApie.doFinalize K ⟨i', some true⟩ = some ⟨i', some true⟩ := rfl
        simp only [MacApie.digestC, e1, MacApie.digest, e5, e2, Option.bind_eq_bind, Option.bind_some, Option.pure_def]
        rw [e3]
      simp only [runCalls, MacApie.exec, e4, e, Machine.macApie, Option.bind_eq_bind, Option.bind_some, Option.pure_def,
        List.singleton_append, Spec.extracted]

/-! ### HMAC -/

/-- A class following a machine, as a lawful hash that remembers the state of the machine. -/
def Follows.lawful {H : HashImpl} {M : Machine} {F : List Byte → List Byte} {L : Lawful H F} (W : Follows H M L) : Lawful H F where
  Wf := L.Wf
  Rep := fun o m => L.Rep o m ∧ W.Sim o (M.feed (M.start []) m)
  Fin := fun o m => L.Fin o m ∧ W.Sim o (M.close (M.feed (M.start []) m))
  block_pos := L.block_pos
  fresh := L.fresh
  rep_wf := fun o m r => L.rep_wf o m r.1
  fin_wf := fun o m r => L.fin_wf o m r.1
  init := fun o w => ⟨L.init o w, by rw [W.feed_nil]; exact W.init o w⟩
  update_wf := L.update_wf
  update := fun o m x r hx => by
    obtain ⟨o1, e1, r1⟩ := L.update o m x r.1 hx
    obtain ⟨o2, e2, r2⟩ := W.update o _ x r.2 hx
    rw [e1] at e2
    cases e2
    exact ⟨o1, e1, r1, by rw [← W.feed_feed]; exact r2⟩
  finalize_wf := L.finalize_wf
  finalize := fun o m r => by
    obtain ⟨o1, e1, r1⟩ := L.finalize o m r.1
    obtain ⟨o2, e2, r2⟩ := W.finalize o _ r.2
    rw [e1] at e2
    cases e2
    exact ⟨o1, e1, r1, r2⟩
  digest_wf := L.digest_wf
  digest := fun o m dst n f hn => L.digest o m dst n f.1 hn
  length := L.length

/-- HMAC over a class that follows a machine. -/
def hmacFollows (h : Host) {H : HashImpl} {F : List Byte → List Byte} {L : Lawful H F} {M : Machine} (W : Follows H M L)
    (ds : Nat) (hds : ds ≤ H.digestSize) (hD : H.digestSize ≤ H.blockSize) (hB : H.blockSize < 2 ^ 63) :
    FollowsMac (Hmac.impl h H ds) (Spec.Resume.hmac M H.blockSize H.digestSize F) where
  Sim := fun o s => W.Sim o.hash s.1 ∧ o.buffer.length = 2 * H.blockSize ∧ o.buffer.take H.blockSize = s.2
  fresh := ⟨W.fresh, List.length_replicate, by simp [Hmac.impl, Spec.Resume.hmac]; omega⟩
  init := fun o s key w hk => by
    obtain ⟨o', e, r, hl, ht⟩ := Hmac.init_eq h W.lawful hD hB o key ⟨W.wf _ _ w.1, w.2.1⟩ hk
    refine ⟨o', e, ?_, hl, ht⟩
    have := r.2
    rw [List.append_nil] at this
    exact this
  update := fun o s x w hx => by
    obtain ⟨i, e, w'⟩ := W.update o.hash s.1 x w.1 hx
    exact ⟨{ o with hash := i }, by simp [Hmac.impl, Hmac.update, e], w', w.2⟩
  finalize := fun o s w => by
    obtain ⟨w, hb, ht⟩ := w
    obtain ⟨s1, e1, f1⟩ := W.finalize o.hash _ w
    have hl := W.length s1 _ f1
    have e2 := W.digest s1 _ (o.buffer.drop H.blockSize) H.digestSize f1 (by simp; omega)
    rw [Spec.written, List.take_of_length_le (by omega), hl, Nat.min_self] at e2
    generalize hd : (M.out (M.close s.1)).take H.digestSize = d at hl e2
    have hok : s.2.length = H.blockSize := by rw [← ht]; simp; omega
    obtain ⟨s3, e3, r3⟩ := W.update _ _ (s.2 ++ d) (W.init s1 (W.wf _ _ f1)) (by simp [hok, hl]; omega)
    obtain ⟨s4, e4, f4⟩ := W.finalize s3 _ r3
    refine ⟨⟨s4, s.2 ++ (d ++ (o.buffer.drop H.blockSize).drop H.digestSize)⟩, ?_, ?_, by simp [hok, hl]; omega, List.take_left' hok⟩
    · show Hmac.finalize H o = _
      unfold Hmac.finalize
      simp only [e1, Option.bind_eq_bind, Option.bind_some, Option.pure_def]
      rw [at_eq _ _ _ (by omega)]
      simp only [e2, Option.bind_some, Option.map_some]
      rw [rdN_some _ _ _ (by simp [hl]; omega)]
      simp only [Option.bind_some, List.drop_zero, ht]
      have : (s.2 ++ (d ++ (o.buffer.drop H.blockSize).drop H.digestSize)).take (H.blockSize + H.digestSize) = s.2 ++ d := by
        rw [← List.append_assoc, List.take_left' (by simp [hok, hl])]
      rw [this, e3]
      simp only [Option.bind_some, e4]
      rfl
    · show W.Sim s4 (M.close (M.feed (M.start []) (s.2 ++ (M.out (M.close s.1)).take H.digestSize)))
      rw [hd]; exact f4
  digest := fun o s dst n w hn => by
    have hn' : min n ds ≤ dst.length := hn
    have hl := W.length o.hash _ w.1
    have e := W.digest o.hash _ dst (min n ds) w.1 (by omega)
    show H.digest o.hash dst (min n ds) = some (Spec.written (((M.out s.1).take H.digestSize).take ds) dst n)
    rw [e]
    generalize (M.out s.1).take H.digestSize = full at hl
    rw [written_take full dst n ds (by omega), Spec.written, hl, show min (min n ds) H.digestSize = min n ds by omega]
  length := fun o s w => by
    have hl := W.length o.hash _ w.1
    show (((M.out s.1).take H.digestSize).take ds).length = ds
    rw [List.length_take, hl]
    omega

theorem hmacShaFollows (h : Host) (a : ShaAlg) (hs ds : Nat) (hhs : hs ≤ a.size) (hds : ds ≤ hs) :
    Nonempty (FollowsMac (MacAlg.impl h ds (.hmac a hs)) (hmacSha a hs)) := by
  obtain ⟨L, ⟨W⟩⟩ := shaFollows h a hs hhs
  have hb := shaBlock_le a
  have := hmacFollows h W ds (by rw [shaDigestSize]; exact hds) (by rw [shaDigestSize, shaBlockSize]; omega) (by rw [shaBlockSize]; omega)
  rw [shaBlockSize, shaDigestSize] at this
  exact ⟨this⟩

end Milo
