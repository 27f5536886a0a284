import Verif.Proof.ResumeUse
/- The machines of Spec.Resume compute FIPS 180-4 and RFC 2104 when used in the documented order. -/
namespace Milo
open Memory Spec.Resume

theorem steps_value (n : Nat) (compress : List (BitVec (8 * n)) → List Byte → List (BitVec (8 * n))) (B L : Nat) (hL : L < B) (iv : List (BitVec (8 * n))) (size : Nat)
    (m : List Byte) : (steps n compress B L iv size).out ((steps n compress B L iv size).close ((steps n compress B L iv size).feed ((steps n compress B L iv size).start []) m))
      = (Spec.Sha.output (Spec.Sha.iterate compress B L iv m)).take size := by
  show (Spec.Sha.output ((Spec.chunks B (([] ++ m).drop (([] ++ m).length / B * B) ++ padding B L (0 + m.length))).foldl compress
    ((Spec.chunks B (([] ++ m).take (([] ++ m).length / B * B))).foldl compress iv))).take size = _
  rw [List.nil_append, Nat.zero_add]
  have hle := Nat.div_mul_le_self m.length B
  have hl : (m.take (m.length / B * B)).length % B = 0 := by rw [List.length_take, Nat.min_eq_left hle, Nat.mul_mod_left]
  rw [← List.foldl_append, ← chunks_append B (by omega) _ _ hl, ← List.append_assoc, List.take_append_drop]
  unfold Spec.Sha.iterate Spec.Sha.pad padding
  simp only [List.append_assoc]

theorem sha_value (a : ShaAlg) (m : List Byte) : (sha a).out ((sha a).close ((sha a).feed ((sha a).start []) m)) = shaSpec a m := by
  have hl := shaSpec_length a m
  cases a
  case sha_2_224 => exact steps_value 4 (Spec.Sha.Sha2.compress Spec.Sha.p32) 64 8 (by omega) Spec.Sha.iv224 28 m
  case sha_2_384 => exact steps_value 8 (Spec.Sha.Sha2.compress Spec.Sha.p64) 128 16 (by omega) Spec.Sha.iv384 48 m
  case sha_2_512_224 => exact steps_value 8 (Spec.Sha.Sha2.compress Spec.Sha.p64) 128 16 (by omega) (Spec.Sha.ivT "SHA-512/224") 28 m
  case sha_2_512_256 => exact steps_value 8 (Spec.Sha.Sha2.compress Spec.Sha.p64) 128 16 (by omega) (Spec.Sha.ivT "SHA-512/256") 32 m
  case sha_1_160 =>
    refine (steps_value 4 Spec.Sha.Sha1.compress 64 8 (by omega) Spec.Sha.Sha1.iv 20 m).trans ?_
    exact List.take_of_length_le (Nat.le_of_eq hl)
  case sha_2_256 =>
    refine (steps_value 4 (Spec.Sha.Sha2.compress Spec.Sha.p32) 64 8 (by omega) Spec.Sha.iv256 32 m).trans ?_
    exact List.take_of_length_le (Nat.le_of_eq hl)
  case sha_2_512 =>
    refine (steps_value 8 (Spec.Sha.Sha2.compress Spec.Sha.p64) 128 16 (by omega) Spec.Sha.iv512 64 m).trans ?_
    exact List.take_of_length_le (Nat.le_of_eq hl)

theorem sha_feed_nil (a : ShaAlg) (s : (sha a).S) : s = (sha a).start [] → (sha a).feed s [] = s := by
  intro e; subst e
  cases a <;> exact feed_nil _ _ _ (by simp [sha, steps])

theorem sha_feed_feed (a : ShaAlg) (s : (sha a).S) (x y : List Byte) : (sha a).feed ((sha a).feed s x) y = (sha a).feed s (x ++ y) := by
  cases a <;> exact feed_feed _ _ (by omega) s x y

/-- Bytes that do not complete a block are only held. -/
theorem feed_held {σ : Type} (compress : σ → List Byte → σ) (B : Nat) (s : State σ) (x : List Byte) (h : s.held.length + x.length < B) :
    (feed compress B s x).chain = s.chain := by
  unfold feed
  rw [List.length_append, Nat.div_eq_of_lt h]
  simp [chunks_nil]

theorem close_feed_held {σ : Type} (compress : σ → List Byte → σ) (B L : Nat) (hB : 0 < B) (iv : σ) (m : List Byte) :
    (close compress B L (feed compress B ⟨iv, 0, []⟩ m)).held.length = m.length % B := by
  show (([] ++ m).drop (([] ++ m).length / B * B)).length = _
  rw [List.nil_append, List.length_drop, Nat.mod_eq_sub_div_mul]

theorem steps_short (n : Nat) (compress : List (BitVec (8 * n)) → List Byte → List (BitVec (8 * n))) (B L : Nat) (hB : 0 < B) (iv : List (BitVec (8 * n)))
    (size : Nat) (m y : List Byte) (h : m.length % B + y.length < B) :
    (steps n compress B L iv size).out ((steps n compress B L iv size).feed ((steps n compress B L iv size).close
      ((steps n compress B L iv size).feed ((steps n compress B L iv size).start []) m)) y)
    = (steps n compress B L iv size).out ((steps n compress B L iv size).close ((steps n compress B L iv size).feed ((steps n compress B L iv size).start []) m)) := by
  show (Spec.Sha.output (feed compress B (close compress B L (feed compress B ⟨iv, 0, []⟩ m)) y).chain).take size
    = (Spec.Sha.output (close compress B L (feed compress B ⟨iv, 0, []⟩ m)).chain).take size
  rw [feed_held _ _ _ _ (by rw [close_feed_held _ _ _ hB]; exact h)]

theorem resumed_short (a : ShaAlg) (m y : List Byte) (h : m.length % shaBlock a + y.length < shaBlock a) : resumed a m y = shaSpec a m := by
  rw [← sha_value]
  cases a <;> exact steps_short _ _ _ _ (by omega) _ _ m y h

theorem hashApie_promised (a : ShaAlg) (ds : Nat) (cs : List HashApie.Call) :
    (∀ m, Documented false cs → (sha a).hashApie ds ((sha a).feed ((sha a).start []) m) false cs = promised (shaSpec a) ds m cs) ∧
    (∀ m, Documented true cs → (sha a).hashApie ds ((sha a).close ((sha a).feed ((sha a).start []) m)) true cs = promised (shaSpec a) ds m cs) := by
  induction cs with
  | nil => exact ⟨fun _ _ => rfl, fun _ _ => rfl⟩
  | cons c cs ih =>
    obtain ⟨ih1, ih2⟩ := ih
    have h0 := ih1 []
    rw [sha_feed_nil a _ rfl] at h0
    cases c with
    | init => exact ⟨fun m h => h0 h, fun m h => h0 h⟩
    | update x =>
      refine ⟨fun m h => ?_, fun m h => absurd h.1 (by simp)⟩
      show (sha a).hashApie ds ((sha a).feed _ x) false cs = _
      rw [sha_feed_feed, ih1 (m ++ x) h.2]; rfl
    | digest dst n =>
      refine ⟨fun m h => ?_, fun m h => ?_⟩
      · show Spec.written _ dst n :: (sha a).hashApie ds ((sha a).close _) true cs = _
        rw [ih2 m h]
        show Spec.written (((sha a).out ((sha a).close _)).take ds) dst n :: _ = _
        rw [sha_value]; rfl
      · show Spec.written _ dst n :: (sha a).hashApie ds ((sha a).close _) true cs = _
        rw [ih2 m h]
        show Spec.written (((sha a).out ((sha a).close _)).take ds) dst n :: _ = _
        rw [sha_value]; rfl
    | digestC c n =>
      refine ⟨fun m h => ?_, fun m h => ?_⟩
      · show Spec.extracted _ (.cont c n) :: (sha a).hashApie ds ((sha a).close _) true cs = _
        rw [ih2 m h]
        show Spec.extracted (((sha a).out ((sha a).close _)).take ds) _ :: _ = _
        rw [sha_value]; rfl
      · show Spec.extracted _ (.cont c n) :: (sha a).hashApie ds ((sha a).close _) true cs = _
        rw [ih2 m h]
        show Spec.extracted (((sha a).out ((sha a).close _)).take ds) _ :: _ = _
        rw [sha_value]; rfl

end Milo

namespace Milo
open Memory Spec.Resume

/-- A lawful mac used in the documented order. -/
theorem macApie_promised {M : MacImpl} {F : List Byte → List Byte → List Byte} (L : LawfulMac M F) (cs : List MacApie.Call)
    (hc : ∀ c ∈ cs, c.Ok M.digestSize ∧ c.Short) :
    (∀ i k m, L.Rep i k m → DocumentedMac false cs →
      ∃ o', runCalls (MacApie.exec M) ⟨i, some false⟩ cs = some (o', promisedMac F M.digestSize k m cs)) ∧
    (∀ i k m, L.Fin i k m → DocumentedMac true cs →
      ∃ o', runCalls (MacApie.exec M) ⟨i, some true⟩ cs = some (o', promisedMac F M.digestSize k m cs)) := by
  induction cs with
  | nil => exact ⟨fun _ _ _ _ _ => ⟨_, rfl⟩, fun _ _ _ _ _ => ⟨_, rfl⟩⟩
  | cons c cs ih =>
    obtain ⟨ih1, ih2⟩ := ih (fun c h => hc c (List.mem_cons_of_mem _ h))
    have hc := hc c List.mem_cons_self
    have hF : ∀ k m, (F k m).take M.digestSize = F k m := fun k m => List.take_of_length_le (Nat.le_of_eq (L.length k m))
    cases c with
    | init key =>
      have key1 : ∀ i (b : Bool), L.Wf i → DocumentedMac false cs → ∃ o', runCalls (MacApie.exec M) ⟨i, some b⟩ (.init key :: cs)
          = some (o', promisedMac F M.digestSize key [] cs) := fun i b w h => by
        obtain ⟨o1, e1, r1⟩ := L.init i key w hc.1
        obtain ⟨o', e⟩ := ih1 o1 key [] r1 h
        exact ⟨o', by simp only [runCalls, MacApie.exec, MacApie.initialise, e1, e, Option.bind_eq_bind, Option.bind_some, Option.pure_def, List.nil_append]⟩
      exact ⟨fun i k m r h => key1 i false (L.rep_wf _ _ _ r) h, fun i k m f h => key1 i true (L.fin_wf _ _ _ f) h⟩
    | update x =>
      refine ⟨fun i k m r h => ?_, fun i k m f h => absurd h.1 (by simp)⟩
      obtain ⟨o1, e1, r1⟩ := L.update i k m x r hc.2
      obtain ⟨o', e⟩ := ih1 o1 k _ r1 h.2
      exact ⟨o', by simp only [runCalls, MacApie.exec, MacApie.update, e1, e, promisedMac, Option.bind_eq_bind, Option.bind_some, Option.pure_def, List.nil_append]⟩
    | digest dst n =>
      have key2 : ∀ i k m (b : Bool) i', MacApie.doFinalize M ⟨i, some b⟩ = some ⟨i', some true⟩ → L.Fin i' k m → DocumentedMac true cs →
          ∃ o', runCalls (MacApie.exec M) ⟨i, some b⟩ (.digest dst n :: cs) = some (o', promisedMac F M.digestSize k m (.digest dst n :: cs)) := by
        intro i k m b i' e1 f h
        have e2 := Mac.digest_written L i' k m dst n f hc.1
        obtain ⟨o', e⟩ := ih2 i' k m f h
        refine ⟨o', ?_⟩
        simp only [runCalls, MacApie.exec, MacApie.digest, e1, e2, e, promisedMac, hF, Spec.extracted, Option.bind_eq_bind, Option.bind_some, Option.pure_def, List.singleton_append]
      refine ⟨fun i k m r h => ?_, fun i k m f h => key2 i k m true i rfl f h⟩
      obtain ⟨i', e1, f1⟩ := L.finalize i k m r
      exact key2 i k m false i' (by simp [MacApie.doFinalize, e1]) f1 h
    | digestC c n =>
      have key2 : ∀ i k m (b : Bool) i', MacApie.doFinalize M ⟨i, some b⟩ = some ⟨i', some true⟩ → L.Fin i' k m → DocumentedMac true cs →
          ∃ o', runCalls (MacApie.exec M) ⟨i, some b⟩ (.digestC c n :: cs) = some (o', promisedMac F M.digestSize k m (.digestC c n :: cs)) := by
        intro i k m b i' e1 f h
        have h1 := HashApie.resize_fits c (min n M.digestSize)
        have e2 := Mac.digest_written L i' k m (c.resize (min n M.digestSize)).1.data (c.resize (min n M.digestSize)).2 f (by omega)
        have e3 := contained_resize _ _ (L.length k m) c n
        have e5 : MacApie.doFinalize M ⟨i', some true⟩ = some ⟨i', some true⟩ := rfl
        obtain ⟨o', e⟩ := ih2 i' k m f h
        refine ⟨o', ?_⟩
        have e4 : MacApie.digestC M ⟨i, some b⟩ c n = some (⟨i', some true⟩, Spec.contained (F k m) c n) := by
          simp only [MacApie.digestC, e1, MacApie.digest, e5, e2, Option.bind_eq_bind, Option.bind_some, Option.pure_def]
          rw [e3]
        simp only [runCalls, MacApie.exec, e4, e, promisedMac, hF, Spec.extracted, Option.bind_eq_bind, Option.bind_some, Option.pure_def, List.singleton_append]
      refine ⟨fun i k m r h => ?_, fun i k m f h => key2 i k m true i rfl f h⟩
      obtain ⟨i', e1, f1⟩ := L.finalize i k m r
      exact key2 i k m false i' (by simp [MacApie.doFinalize, e1]) f1 h

end Milo

namespace Milo
open Memory Spec.Resume

theorem promisedMac_take (F : List Byte → List Byte → List Byte) (ds : Nat) (cs : List MacApie.Call) (k m : List Byte) :
    promisedMac (fun k m => (F k m).take ds) ds k m cs = promisedMac F ds k m cs := by
  induction cs generalizing k m with
  | nil => rfl
  | cons c cs ih => cases c <;> simp only [promisedMac, ih, List.take_take, Nat.min_self]

theorem hashApie_append (M : Machine) (ds : Nat) (pre : List HashApie.Call) (s : M.S) (done : Bool) :
    ∃ outs s' done', ∀ cs, M.hashApie ds s done (pre ++ cs) = outs ++ M.hashApie ds s' done' cs := by
  induction pre generalizing s done with
  | nil => exact ⟨[], s, done, fun _ => rfl⟩
  | cons c pre ih =>
    cases c with
    | init => obtain ⟨o, s', d', e⟩ := ih (M.start []) false; exact ⟨o, s', d', e⟩
    | update x => obtain ⟨o, s', d', e⟩ := ih (M.feed s x) done; exact ⟨o, s', d', e⟩
    | digest dst n =>
      obtain ⟨o, s', d', e⟩ := ih (M.closed s done) true
      exact ⟨_ :: o, s', d', fun cs => congrArg (List.cons _) (e cs)⟩
    | digestC c n =>
      obtain ⟨o, s', d', e⟩ := ih (M.closed s done) true
      exact ⟨_ :: o, s', d', fun cs => congrArg (List.cons _) (e cs)⟩

theorem hashApie_updates (a : ShaAlg) (ds : Nat) (xs : List (List Byte)) (s : (sha a).S) (w : List Byte) (done : Bool) (cs : List HashApie.Call) :
    (sha a).hashApie ds ((sha a).feed s w) done (xs.map .update ++ cs) = (sha a).hashApie ds ((sha a).feed s (w ++ xs.flatten)) done cs := by
  induction xs generalizing w with
  | nil => simp
  | cons x xs ih =>
    show (sha a).hashApie ds ((sha a).feed ((sha a).feed s w) x) done (xs.map .update ++ cs) = _
    rw [sha_feed_feed, ih, List.flatten_cons, List.append_assoc]

theorem sha_feed_closed (a : ShaAlg) (m : List Byte) : (sha a).feed ((sha a).close ((sha a).feed ((sha a).start []) m)) [] = (sha a).close ((sha a).feed ((sha a).start []) m) := by
  have key : ∀ (n : Nat) (compress : List (BitVec (8 * n)) → List Byte → List (BitVec (8 * n))) (B L : Nat) (iv : List (BitVec (8 * n))), 0 < B →
      feed compress B (close compress B L (feed compress B ⟨iv, 0, []⟩ m)) [] = close compress B L (feed compress B ⟨iv, 0, []⟩ m) :=
    fun n compress B L iv hB => feed_nil _ _ _ (by rw [close_feed_held _ _ _ hB]; exact Nat.mod_lt _ hB)
  cases a
  case sha_1_160 => exact key 4 Spec.Sha.Sha1.compress 64 8 _ (by omega)
  case sha_2_224 => exact key 4 (Spec.Sha.Sha2.compress Spec.Sha.p32) 64 8 _ (by omega)
  case sha_2_256 => exact key 4 (Spec.Sha.Sha2.compress Spec.Sha.p32) 64 8 _ (by omega)
  all_goals exact key 8 (Spec.Sha.Sha2.compress Spec.Sha.p64) 128 16 _ (by omega)

theorem hashApie_req (M : Machine) (ds : Nat) (s : M.S) (done : Bool) (r : DigestReq) (cs : List HashApie.Call) :
    M.hashApie ds s done (HashApie.ofReq r :: cs) = Spec.extracted ((M.out (M.closed s done)).take ds) r :: M.hashApie ds (M.closed s done) true cs := by
  cases r <;> rfl

theorem hashApie_resuming (a : ShaAlg) (ds : Nat) (pre : List HashApie.Call) (xs ys : List (List Byte)) (d1 d2 : DigestReq) (s : (sha a).S) (done : Bool) :
    ∃ outs, (sha a).hashApie ds s done (pre ++ [.init] ++ xs.map .update ++ [HashApie.ofReq d1] ++ ys.map .update ++ [HashApie.ofReq d2])
      = outs ++ [Spec.extracted ((shaSpec a xs.flatten).take ds) d1, Spec.extracted ((resumed a xs.flatten ys.flatten).take ds) d2] := by
  obtain ⟨outs, s', d', e⟩ := hashApie_append (sha a) ds pre s done
  refine ⟨outs, ?_⟩
  simp only [List.append_assoc]
  rw [e]
  congr 1
  show (sha a).hashApie ds ((sha a).start []) false (xs.map .update ++ _) = _
  have u1 := hashApie_updates a ds xs ((sha a).start []) [] false
  rw [sha_feed_nil a _ rfl] at u1
  have u2 := hashApie_updates a ds ys ((sha a).close ((sha a).feed ((sha a).start []) xs.flatten)) [] true
  rw [sha_feed_closed] at u2
  rw [u1, List.nil_append, List.singleton_append, hashApie_req]
  show Spec.extracted (((sha a).out ((sha a).close ((sha a).feed ((sha a).start []) xs.flatten))).take ds) d1 ::
    (sha a).hashApie ds ((sha a).close ((sha a).feed ((sha a).start []) xs.flatten)) true _ = _
  rw [sha_value, u2, List.nil_append, hashApie_req]
  rfl

theorem shaSize_lt (a : ShaAlg) : a.size < shaBlock a := by cases a <;> decide

theorem hmac_start_feed (a : ShaAlg) (hs : Nat) (key : List Byte) : (hmacSha a hs).feed ((hmacSha a hs).start key) [] = (hmacSha a hs).start key := by
  show ((sha a).feed ((sha a).feed ((sha a).start []) _) [], _) = _
  rw [sha_feed_feed, List.append_nil]; rfl

theorem hmac_feed_feed (a : ShaAlg) (hs : Nat) (s : (hmacSha a hs).S) (x y : List Byte) :
    (hmacSha a hs).feed ((hmacSha a hs).feed s x) y = (hmacSha a hs).feed s (x ++ y) := by
  show ((sha a).feed ((sha a).feed s.1 x) y, s.2) = _
  rw [sha_feed_feed]; rfl

theorem hmac_close (a : ShaAlg) (hs : Nat) (key m : List Byte) : (hmacSha a hs).close ((hmacSha a hs).feed ((hmacSha a hs).start key) m)
    = ((sha a).close ((sha a).feed ((sha a).start []) ((Spec.hmacKey (shaBlock a) (fun m => (shaSpec a m).take hs) key).map (· ^^^ 0x5c)
      ++ (shaSpec a ((Spec.hmacKey (shaBlock a) (fun m => (shaSpec a m).take hs) key).map (· ^^^ 0x36) ++ m)).take hs)),
      (Spec.hmacKey (shaBlock a) (fun m => (shaSpec a m).take hs) key).map (· ^^^ 0x5c)) := by
  show ((sha a).close ((sha a).feed ((sha a).start []) (_ ++ ((sha a).out ((sha a).close ((sha a).feed ((sha a).feed ((sha a).start [])
    ((Spec.hmacKey (shaBlock a) (fun m => (shaSpec a m).take hs) key).map (· ^^^ 0x36))) m))).take hs)), _) = _
  rw [sha_feed_feed, sha_value]; rfl

theorem hmac_value (a : ShaAlg) (hs : Nat) (key m : List Byte) :
    (hmacSha a hs).out ((hmacSha a hs).close ((hmacSha a hs).feed ((hmacSha a hs).start key) m)) = Spec.hmac (shaBlock a) (fun m => (shaSpec a m).take hs) key m := by
  rw [hmac_close]
  show ((sha a).out ((sha a).close _)).take hs = _
  rw [sha_value]; rfl

theorem hmac_resumed (a : ShaAlg) (hs : Nat) (key m y : List Byte) :
    (hmacSha a hs).out ((hmacSha a hs).feed ((hmacSha a hs).close ((hmacSha a hs).feed ((hmacSha a hs).start key) m)) y) = resumedHmac a hs key m y := by
  rw [hmac_close]; rfl

theorem hmac_closed_feed (a : ShaAlg) (hs : Nat) (key m : List Byte) :
    (hmacSha a hs).feed ((hmacSha a hs).close ((hmacSha a hs).feed ((hmacSha a hs).start key) m)) []
      = (hmacSha a hs).close ((hmacSha a hs).feed ((hmacSha a hs).start key) m) := by
  rw [hmac_close]
  show ((sha a).feed _ [], _) = _
  rw [sha_feed_closed]

/-- What does not complete a block of the outer hash is ignored. -/
theorem resumedHmac_short (a : ShaAlg) (hs : Nat) (hhs : hs ≤ a.size) (key m y : List Byte) (h : hs + y.length < shaBlock a) :
    resumedHmac a hs key m y = Spec.hmac (shaBlock a) (fun m => (shaSpec a m).take hs) key m := by
  have hb := shaBlock_le a
  unfold resumedHmac
  rw [resumed_short]
  · rfl
  · have hk : (Spec.hmacKey (shaBlock a) (fun m => (shaSpec a m).take hs) key).length = shaBlock a := by
      unfold Spec.hmacKey
      by_cases hc : key.length > shaBlock a
      · have := shaSpec_length a key
        simp [hc, this]; omega
      · simp [hc]; omega
    rw [List.length_append, List.length_map, hk, List.length_take, shaSpec_length, Nat.min_eq_left hhs, Nat.add_mod_left, Nat.mod_eq_of_lt (by omega)]
    exact h

theorem macApie_append (M : Machine) (ds : Nat) (pre : List MacApie.Call) (s : M.S) (done : Bool) :
    ∃ outs s' done', ∀ cs, M.macApie ds s done (pre ++ cs) = outs ++ M.macApie ds s' done' cs := by
  induction pre generalizing s done with
  | nil => exact ⟨[], s, done, fun _ => rfl⟩
  | cons c pre ih =>
    cases c with
    | init k => obtain ⟨o, s', d', e⟩ := ih (M.start k) false; exact ⟨o, s', d', e⟩
    | update x => obtain ⟨o, s', d', e⟩ := ih (M.feed s x) done; exact ⟨o, s', d', e⟩
    | digest dst n =>
      obtain ⟨o, s', d', e⟩ := ih (M.closed s done) true
      exact ⟨_ :: o, s', d', fun cs => congrArg (List.cons _) (e cs)⟩
    | digestC c n =>
      obtain ⟨o, s', d', e⟩ := ih (M.closed s done) true
      exact ⟨_ :: o, s', d', fun cs => congrArg (List.cons _) (e cs)⟩

theorem macApie_updates (M : Machine) (hM : ∀ s x y, M.feed (M.feed s x) y = M.feed s (x ++ y)) (ds : Nat) (xs : List (List Byte)) (s : M.S) (w : List Byte) (done : Bool)
    (cs : List MacApie.Call) : M.macApie ds (M.feed s w) done (xs.map .update ++ cs) = M.macApie ds (M.feed s (w ++ xs.flatten)) done cs := by
  induction xs generalizing w with
  | nil => simp
  | cons x xs ih =>
    show M.macApie ds (M.feed (M.feed s w) x) done (xs.map .update ++ cs) = _
    rw [hM, ih, List.flatten_cons, List.append_assoc]

theorem macApie_req (M : Machine) (ds : Nat) (s : M.S) (done : Bool) (r : DigestReq) (cs : List MacApie.Call) :
    M.macApie ds s done (MacApie.ofReq r :: cs) = Spec.extracted ((M.out (M.closed s done)).take ds) r :: M.macApie ds (M.closed s done) true cs := by
  cases r <;> rfl

theorem macApie_two (M : Machine) (hM : ∀ s x y, M.feed (M.feed s x) y = M.feed s (x ++ y)) (ds : Nat) (key : List Byte) (hk : M.feed (M.start key) [] = M.start key)
    (xs ys : List (List Byte)) (d1 d2 : DigestReq)
    (hc : M.feed (M.close (M.feed (M.start key) xs.flatten)) [] = M.close (M.feed (M.start key) xs.flatten)) :
    M.macApie ds (M.start key) false (xs.map .update ++ (MacApie.ofReq d1 :: (ys.map .update ++ [MacApie.ofReq d2])))
      = [Spec.extracted ((M.out (M.close (M.feed (M.start key) xs.flatten))).take ds) d1,
          Spec.extracted ((M.out (M.feed (M.close (M.feed (M.start key) xs.flatten)) ys.flatten)).take ds) d2] := by
  have u1 := macApie_updates M hM ds xs (M.start key) [] false
  rw [hk] at u1
  have u2 := macApie_updates M hM ds ys (M.close (M.feed (M.start key) xs.flatten)) [] true
  rw [hc] at u2
  rw [u1, List.nil_append, macApie_req]
  simp only [Machine.closed, Bool.false_eq_true, if_false]
  rw [u2, List.nil_append, macApie_req]
  simp only [Machine.closed, if_true, Machine.macApie]

theorem macApie_resuming (a : ShaAlg) (hs ds : Nat) (pre : List MacApie.Call) (key : List Byte) (xs ys : List (List Byte)) (d1 d2 : DigestReq)
    (s : (hmacSha a hs).S) (done : Bool) :
    ∃ outs, (hmacSha a hs).macApie ds s done (pre ++ [.init key] ++ xs.map .update ++ [MacApie.ofReq d1] ++ ys.map .update ++ [MacApie.ofReq d2])
      = outs ++ [Spec.extracted ((Spec.hmac (shaBlock a) (fun m => (shaSpec a m).take hs) key xs.flatten).take ds) d1,
          Spec.extracted ((resumedHmac a hs key xs.flatten ys.flatten).take ds) d2] := by
  obtain ⟨outs, s', d', e⟩ := macApie_append (hmacSha a hs) ds pre s done
  refine ⟨outs, ?_⟩
  have h := macApie_two (hmacSha a hs) (hmac_feed_feed a hs) ds key (hmac_start_feed a hs key) xs ys d1 d2 (hmac_closed_feed a hs key _)
  rw [hmac_value, hmac_resumed] at h
  rw [← h]
  simp only [List.append_assoc]
  rw [e]
  rfl

end Milo
