import Verif.Proof.ResumeSpec
import Verif.Proof.ResumeZero
/-
Property theorems C78: data given after a digest was taken.

Expected: every digest covers all data given since the last `initialize`, also when a digest was already taken in between (or the call is refused). The manual asks for
`initialize` before reuse, but nothing enforces that. The claim is true of call sequences in the documented order and false of others: data that does not complete a block is ignored, other data
continues from the chaining value which was the digest. The `_exact` theorems say what is answered to calls in every order.
-/
namespace Milo.Props
open Milo Spec.Resume

/-- The full claim for a hash: whatever the order of the calls, all digests are those of everything given since `initialize` or construction. -/
def HashCoversAll (h : Host) (a : ShaAlg) (ds : Nat) : Prop :=
  ∀ (u : Bool) (cs : List HashApie.Call), (∀ c ∈ cs, c.Ok ds ∧ c.Short) →
    (HashApie.run (a.impl h ds) u cs).map (·.2) = some (promised (shaSpec a) ds [] cs)

/-- The same for a mac constructed with a key. -/
def MacCoversAll (h : Host) (a : MacAlg) (ds : Nat) : Prop :=
  ∀ (key : List Byte), key.length < 2 ^ 64 → ∀ (cs : List MacApie.Call), (∀ c ∈ cs, c.Ok ds ∧ c.Short) →
    (MacApie.run (a.impl h ds) key cs).map (·.2) = some (promisedMac (Spec.macOn h.endian a) ds key [] cs)

/-! ## What happens, for calls in any order -/

/-- C78: a hash object answers any calls in any order as the steps of FIPS 180-4 do, where finalizing keeps the incomplete block and goes on from the digest. -/
theorem C78_hash_exact (h : Host) (a : ShaAlg) (ds : Nat) (hds : ds ≤ a.size) (u : Bool) (cs : List HashApie.Call) (hc : ∀ c ∈ cs, c.Ok ds ∧ c.Short) :
    (HashApie.run (a.impl h ds) u cs).map (·.2) = some ((sha a).hashApie ds ((sha a).start []) false cs) := by
  obtain ⟨L, ⟨W⟩⟩ := shaFollows h a ds hds
  have e := shaDigestSize h a ds
  obtain ⟨o, r⟩ := hashApie_sim W cs (by rw [e]; exact hc) (HashApie.construct (a.impl h ds) u) _ (W.init _ L.fresh)
  rw [e] at r
  unfold HashApie.run
  rw [r]
  rfl

/-- C78: the same for the hash class without the wrapper, from construction on, `finalize` and `digest` being separate calls in any order. -/
theorem C78_hash_class_exact (h : Host) (a : ShaAlg) (ds : Nat) (hds : ds ≤ a.size) (cs : List Hash.Call) (hc : ∀ c ∈ cs, c.Ok ds ∧ c.Short) :
    (Hash.run (a.impl h ds) cs).map (·.2) = some ((sha a).hashCalls ds (sha a).fresh cs) := by
  obtain ⟨L, ⟨W⟩⟩ := shaFollows h a ds hds
  have e := shaDigestSize h a ds
  obtain ⟨o, r⟩ := hashCalls_sim W cs (by rw [e]; exact hc) _ _ W.fresh
  rw [e] at r
  unfold Hash.run
  rw [r]
  rfl

/-- C78: an HMAC object answers any calls in any order as the steps of RFC 2104 do, where data after a digest goes to the outer hash. -/
theorem C78_hmac_exact (h : Host) (a : ShaAlg) (hs ds : Nat) (hhs : hs ≤ a.size) (hds : ds ≤ hs) (key : List Byte) (hk : key.length < 2 ^ 64)
    (cs : List MacApie.Call) (hc : ∀ c ∈ cs, c.Ok ds ∧ c.Short) :
    (MacApie.run (MacAlg.impl h ds (.hmac a hs)) key cs).map (·.2) = some ((hmacSha a hs).macApie ds ((hmacSha a hs).start key) false cs) := by
  obtain ⟨W⟩ := hmacShaFollows h a hs ds hhs hds
  have e := macDigestSize h (.hmac a hs) ds
  obtain ⟨i, e1, w⟩ := W.init _ _ key W.fresh hk
  obtain ⟨o, r⟩ := macApie_sim W cs (by rw [e]; exact hc) i false _ w
  rw [e] at r
  simp only [MacApie.run, MacApie.construct, MacApie.initialise, MacApie.constructDefault, e1, r, Option.bind_eq_bind, Option.bind_some, Option.pure_def, Option.map_some]

/-- C78: the same for the HMAC class without the wrapper. -/
theorem C78_hmac_class_exact (h : Host) (a : ShaAlg) (hs ds : Nat) (hhs : hs ≤ a.size) (hds : ds ≤ hs) (cs : List Mac.Call) (hc : ∀ c ∈ cs, c.Ok ds ∧ c.Short) :
    (Mac.run (MacAlg.impl h ds (.hmac a hs)) cs).map (·.2) = some ((hmacSha a hs).macCalls ds (hmacSha a hs).fresh cs) := by
  obtain ⟨W⟩ := hmacShaFollows h a hs ds hhs hds
  have e := macDigestSize h (.hmac a hs) ds
  obtain ⟨o, r⟩ := macCalls_sim W cs (by rw [e]; exact hc) _ _ W.fresh
  rw [e] at r
  unfold Mac.run
  rw [r]
  rfl

/-! ## The documented order -/

/-- C78 for hashes, in the documented order: digests may be taken and `initialize` called at any time, but no data follows a digest. Missing: other orders, for which the claim is false. -/
theorem C78_hash_documented_partial (h : Host) (a : ShaAlg) (ds : Nat) (hds : ds ≤ a.size) (u : Bool) (cs : List HashApie.Call) (hc : ∀ c ∈ cs, c.Ok ds ∧ c.Short)
    (hd : Documented false cs) : (HashApie.run (a.impl h ds) u cs).map (·.2) = some (promised (shaSpec a) ds [] cs) := by
  rw [C78_hash_exact h a ds hds u cs hc, ← (hashApie_promised a ds cs).1 [] hd, sha_feed_nil a _ rfl]

/-- C78 for macs (HMAC and Poly1305), in the documented order. Missing: other orders, for which the claim is false. -/
theorem C78_mac_documented_partial (h : Host) (a : MacAlg) (ha : a.Ok) (ds : Nat) (hds : ds ≤ a.size) (key : List Byte) (hk : key.length < 2 ^ 64)
    (cs : List MacApie.Call) (hc : ∀ c ∈ cs, c.Ok ds ∧ c.Short) (hd : DocumentedMac false cs) :
    (MacApie.run (a.impl h ds) key cs).map (·.2) = some (promisedMac (Spec.macOn h.endian a) ds key [] cs) := by
  obtain ⟨L⟩ := macLawful h a ha ds hds
  have e := macDigestSize h a ds
  obtain ⟨i, e1, r1⟩ := L.init _ key L.fresh hk
  obtain ⟨o, r⟩ := (macApie_promised L cs (by rw [e]; exact hc)).1 i key [] r1 hd
  rw [e] at r
  simp only [MacApie.run, MacApie.construct, MacApie.initialise, MacApie.constructDefault, e1, r, Option.bind_eq_bind, Option.bind_some, Option.pure_def, Option.map_some]
  rw [promisedMac_take]

example : (HashApie.run (ShaAlg.impl ⟨.big, false, none⟩ 20 .sha_2_256) true
    [.update [1], .digest (List.replicate 20 0) 20, .digestC ⟨true, []⟩ 9, .init, .update [2], .update [3], .digest (List.replicate 20 0) 4]).map (·.2)
    = some [Spec.written ((Spec.Sha.sha256 [1]).take 20) (List.replicate 20 0) 20, Spec.extracted ((Spec.Sha.sha256 [1]).take 20) (.cont ⟨true, []⟩ 9),
        Spec.written ((Spec.Sha.sha256 [2, 3]).take 20) (List.replicate 20 0) 4] :=
  C78_hash_documented_partial ⟨.big, false, none⟩ .sha_2_256 20 (by decide) true _
    (by simp [HashApie.Call.Ok, HashApie.Call.Short]) (by simp [Documented])

example : (MacApie.run (MacAlg.impl ⟨.little, true, none⟩ 16 .poly_1305) (List.replicate 32 7)
    [.update [1], .digest (List.replicate 16 0) 16, .init [5], .digestC ⟨true, []⟩ 9]).map (·.2)
    = some [Spec.written ((Spec.macOn .little .poly_1305 (List.replicate 32 7) [1]).take 16) (List.replicate 16 0) 16,
        Spec.extracted ((Spec.macOn .little .poly_1305 [5] []).take 16) (.cont ⟨true, []⟩ 9)] :=
  C78_mac_documented_partial ⟨.little, true, none⟩ .poly_1305 trivial 16 (by decide) _ (by simp) _
    (by simp [MacApie.Call.Ok, MacApie.Call.Short]) (by simp [DocumentedMac])

/-! ## Data after a digest -/

/-- The calls: any `pre`, `initialize`, `xs`, a digest, `ys`, a digest. -/
def resuming (pre : List HashApie.Call) (xs ys : List (List Byte)) (d1 d2 : DigestReq) : List HashApie.Call :=
  pre ++ [.init] ++ xs.map .update ++ [HashApie.ofReq d1] ++ ys.map .update ++ [HashApie.ofReq d2]

/-- C78: after a message `xs` and its digest, more data `ys` yields a value following from the digest of `xs`: `resumed`, not the digest of `xs ++ ys`. -/
theorem C78_hash_resumed (h : Host) (a : ShaAlg) (ds : Nat) (hds : ds ≤ a.size) (u : Bool) (pre : List HashApie.Call) (hpre : ∀ c ∈ pre, c.Ok ds ∧ c.Short)
    (xs ys : List (List Byte)) (hx : ∀ x ∈ xs, x.length < 2 ^ 64) (hy : ∀ y ∈ ys, y.length < 2 ^ 64) (d1 d2 : DigestReq) (h1 : d1.Ok ds) (h2 : d2.Ok ds) :
    ∃ outs, (HashApie.run (a.impl h ds) u (resuming pre xs ys d1 d2)).map (·.2)
      = some (outs ++ [Spec.extracted ((shaSpec a xs.flatten).take ds) d1, Spec.extracted ((resumed a xs.flatten ys.flatten).take ds) d2]) := by
  obtain ⟨outs, e⟩ := hashApie_resuming a ds pre xs ys d1 d2 ((sha a).start []) false
  refine ⟨outs, (C78_hash_exact h a ds hds u _ ?_).trans (congrArg some e)⟩
  intro c hc
  simp only [resuming, List.mem_append, List.mem_map, List.mem_singleton] at hc
  rcases hc with ((((hc | hc) | hc) | hc) | hc) | hc
  · exact hpre c hc
  · subst hc; exact ⟨trivial, trivial⟩
  · obtain ⟨x, hm, e⟩ := hc
    subst e; exact ⟨trivial, hx x hm⟩
  · subst hc; cases d1 <;> exact ⟨h1, trivial⟩
  · obtain ⟨x, hm, e⟩ := hc
    subst e; exact ⟨trivial, hy x hm⟩
  · subst hc; cases d2 <;> exact ⟨h2, trivial⟩

/-- C78: data that does not complete a block of the hash (at most 63 or 127 bytes) is ignored: the digest is that of `xs` alone. -/
theorem C78_hash_ignored (h : Host) (a : ShaAlg) (ds : Nat) (hds : ds ≤ a.size) (u : Bool) (pre : List HashApie.Call) (hpre : ∀ c ∈ pre, c.Ok ds ∧ c.Short)
    (xs ys : List (List Byte)) (hx : ∀ x ∈ xs, x.length < 2 ^ 64) (d1 d2 : DigestReq) (h1 : d1.Ok ds) (h2 : d2.Ok ds)
    (hs : xs.flatten.length % shaBlock a + ys.flatten.length < shaBlock a) :
    ∃ outs, (HashApie.run (a.impl h ds) u (resuming pre xs ys d1 d2)).map (·.2)
      = some (outs ++ [Spec.extracted ((shaSpec a xs.flatten).take ds) d1, Spec.extracted ((shaSpec a xs.flatten).take ds) d2]) := by
  have hy : ∀ y ∈ ys, y.length < 2 ^ 64 := fun y hy => by
    have h1 := List.Sublist.length_le (List.sublist_flatten_of_mem hy)
    have h2 := shaBlock_le a
    omega
  obtain ⟨outs, e⟩ := C78_hash_resumed h a ds hds u pre hpre xs ys hx hy d1 d2 h1 h2
  rw [resumed_short a _ _ hs] at e
  exact ⟨outs, e⟩

/-- Hypotheses met: 100 bytes, a digest, 27 bytes, a digest. -/
example : ∃ outs, (HashApie.run (ShaAlg.impl ⟨.little, false, none⟩ 64 .sha_2_512) true
    (resuming [] [List.replicate 100 1] [[1, 2], List.replicate 25 3] (.cont ⟨true, []⟩ 64) (.cont ⟨true, []⟩ 64))).map (·.2)
      = some (outs ++ [Spec.extracted ((shaSpec .sha_2_512 [List.replicate 100 1].flatten).take 64) (.cont ⟨true, []⟩ 64),
          Spec.extracted ((shaSpec .sha_2_512 [List.replicate 100 1].flatten).take 64) (.cont ⟨true, []⟩ 64)]) :=
  C78_hash_ignored ⟨.little, false, none⟩ .sha_2_512 64 (by decide) true [] (by simp) _ _ (by simp) _ _ trivial trivial (by decide)

/-- The other case: 60 bytes, a digest, a block. What comes out is one compression of the last 60 bytes and the first 4 new ones from the digest, which is not even complete. -/
example : resumed .sha_2_256 (List.replicate 60 1) (List.replicate 64 2)
    = Spec.Sha.output (Spec.Sha.Sha2.compress Spec.Sha.p32 ((Spec.Sha.iterate (Spec.Sha.Sha2.compress Spec.Sha.p32) 64 8 Spec.Sha.iv256 (List.replicate 60 1)))
        (List.replicate 60 1 ++ List.replicate 4 2)) := by decide +kernel

/-- C78 is false for every hash, on every host: after a digest of nothing, a zero byte is ignored. -/
theorem C78_hash_false (h : Host) (a : ShaAlg) : ¬HashCoversAll h a a.size := by
  intro hf
  have e := hf true [.digestC ⟨true, []⟩ a.size, .update [0], .digestC ⟨true, []⟩ a.size] (by simp [HashApie.Call.Ok, HashApie.Call.Short])
  rw [C78_hash_exact h a a.size (Nat.le_refl _) true _ (by simp [HashApie.Call.Ok, HashApie.Call.Short])] at e
  have e' := Option.some.inj e
  simp only [Machine.hashApie, Machine.closed, promised, List.nil_append, List.cons.injEq, and_true, Bool.false_eq_true, if_false, if_true] at e'
  have e2 := e'.2
  have hr := resumed_short a [] [0] (by cases a <;> decide)
  unfold resumed at hr
  rw [sha_feed_nil a _ rfl] at hr
  rw [hr, shaSpec_take, shaSpec_take] at e2
  have e3 := congrArg Prod.fst e2
  simp only [Spec.extracted, Spec.contained, if_true] at e3
  rw [shaSpec_take, shaSpec_take] at e3
  exact shaSpec_zero a e3

/-! ## HMAC -/

/-- The calls: any `pre`, `initialize` with `key`, `xs`, a digest, `ys`, a digest. -/
def macResuming (pre : List MacApie.Call) (key : List Byte) (xs ys : List (List Byte)) (d1 d2 : DigestReq) : List MacApie.Call :=
  pre ++ [.init key] ++ xs.map .update ++ [MacApie.ofReq d1] ++ ys.map .update ++ [MacApie.ofReq d2]

/-- C78: for HMAC, more data after the digest of `xs` does not even reach the keyed inner hash: it resumes the outer one. -/
theorem C78_hmac_resumed (h : Host) (a : ShaAlg) (hs ds : Nat) (hhs : hs ≤ a.size) (hds : ds ≤ hs) (key0 : List Byte) (hk0 : key0.length < 2 ^ 64)
    (pre : List MacApie.Call) (hpre : ∀ c ∈ pre, c.Ok ds ∧ c.Short) (key : List Byte) (hk : key.length < 2 ^ 64)
    (xs ys : List (List Byte)) (hx : ∀ x ∈ xs, x.length < 2 ^ 64) (hy : ∀ y ∈ ys, y.length < 2 ^ 64) (d1 d2 : DigestReq) (h1 : d1.Ok ds) (h2 : d2.Ok ds) :
    ∃ outs, (MacApie.run (MacAlg.impl h ds (.hmac a hs)) key0 (macResuming pre key xs ys d1 d2)).map (·.2)
      = some (outs ++ [Spec.extracted ((Spec.macSpec (.hmac a hs) key xs.flatten).take ds) d1,
          Spec.extracted ((resumedHmac a hs key xs.flatten ys.flatten).take ds) d2]) := by
  obtain ⟨outs, e⟩ := macApie_resuming a hs ds pre key xs ys d1 d2 ((hmacSha a hs).start key0) false
  refine ⟨outs, (C78_hmac_exact h a hs ds hhs hds key0 hk0 _ ?_).trans (congrArg some e)⟩
  intro c hc
  simp only [macResuming, List.mem_append, List.mem_map, List.mem_singleton] at hc
  rcases hc with ((((hc | hc) | hc) | hc) | hc) | hc
  · exact hpre c hc
  · subst hc; exact ⟨hk, trivial⟩
  · obtain ⟨x, hm, e⟩ := hc
    subst e; exact ⟨trivial, hx x hm⟩
  · subst hc; cases d1 <;> exact ⟨h1, trivial⟩
  · obtain ⟨x, hm, e⟩ := hc
    subst e; exact ⟨trivial, hy x hm⟩
  · subst hc; cases d2 <;> exact ⟨h2, trivial⟩

/-- C78: for HMAC, data after a digest is ignored as long as it does not fill the outer block behind the inner digest (at most 43, 31, 35, 79, ... bytes by hash),
whatever the length of the message was. -/
theorem C78_hmac_ignored (h : Host) (a : ShaAlg) (hs ds : Nat) (hhs : hs ≤ a.size) (hds : ds ≤ hs) (key0 : List Byte) (hk0 : key0.length < 2 ^ 64)
    (pre : List MacApie.Call) (hpre : ∀ c ∈ pre, c.Ok ds ∧ c.Short) (key : List Byte) (hk : key.length < 2 ^ 64)
    (xs ys : List (List Byte)) (hx : ∀ x ∈ xs, x.length < 2 ^ 64) (d1 d2 : DigestReq) (h1 : d1.Ok ds) (h2 : d2.Ok ds)
    (hl : hs + ys.flatten.length < shaBlock a) :
    ∃ outs, (MacApie.run (MacAlg.impl h ds (.hmac a hs)) key0 (macResuming pre key xs ys d1 d2)).map (·.2)
      = some (outs ++ [Spec.extracted ((Spec.macSpec (.hmac a hs) key xs.flatten).take ds) d1,
          Spec.extracted ((Spec.macSpec (.hmac a hs) key xs.flatten).take ds) d2]) := by
  have hy : ∀ y ∈ ys, y.length < 2 ^ 64 := fun y hy => by
    have h1 := List.Sublist.length_le (List.sublist_flatten_of_mem hy)
    have h2 := shaBlock_le a
    omega
  obtain ⟨outs, e⟩ := C78_hmac_resumed h a hs ds hhs hds key0 hk0 pre hpre key hk xs ys hx hy d1 d2 h1 h2
  rw [resumedHmac_short a hs hhs _ _ _ hl] at e
  exact ⟨outs, e⟩

/-- Hypotheses met: a 64-byte message and its tag, 31 bytes more, the same tag. -/
example : ∃ outs, (MacApie.run (MacAlg.impl ⟨.big, false, none⟩ 32 (.hmac .sha_2_256 32)) [1, 2]
    (macResuming [.update [3]] [4] [List.replicate 64 5] [List.replicate 31 6] (.cont ⟨true, []⟩ 32) (.cont ⟨true, []⟩ 32))).map (·.2)
      = some (outs ++ [Spec.extracted ((Spec.macSpec (.hmac .sha_2_256 32) [4] [List.replicate 64 5].flatten).take 32) (.cont ⟨true, []⟩ 32),
          Spec.extracted ((Spec.macSpec (.hmac .sha_2_256 32) [4] [List.replicate 64 5].flatten).take 32) (.cont ⟨true, []⟩ 32)]) :=
  C78_hmac_ignored ⟨.big, false, none⟩ .sha_2_256 32 32 (by decide) (by decide) _ (by simp) _ (by simp [MacApie.Call.Ok, MacApie.Call.Short]) _ (by simp) _ _ (by simp)
    _ _ trivial trivial (by decide)

/-- C78 is false for HMAC over every hash, on every host: with the empty key, a zero byte after the digest of nothing is ignored. -/
theorem C78_hmac_false (h : Host) (a : ShaAlg) : ¬MacCoversAll h (.hmac a a.size) a.size := by
  intro hf
  have e := hf [] (by simp) [.digestC ⟨true, []⟩ a.size, .update [0], .digestC ⟨true, []⟩ a.size] (by simp [MacApie.Call.Ok, MacApie.Call.Short])
  rw [C78_hmac_exact h a a.size a.size (Nat.le_refl _) (Nat.le_refl _) [] (by simp) _ (by simp [MacApie.Call.Ok, MacApie.Call.Short])] at e
  have e' := Option.some.inj e
  simp only [Machine.macApie, Machine.closed, promisedMac, List.nil_append, List.cons.injEq, and_true, Bool.false_eq_true, if_false, if_true] at e'
  have hr := hmac_resumed a a.size [] [] [0]
  rw [hmac_start_feed, resumedHmac_short a a.size (Nat.le_refl _) _ _ _ (by cases a <;> decide)] at hr
  have e2 := e'.2
  rw [hr] at e2
  have e3 := congrArg Prod.fst e2
  have hs : (fun m => (shaSpec a m).take a.size) = shaSpec a := funext (shaSpec_take a)
  simp only [Spec.extracted, Spec.contained, if_true, Spec.macOn, Spec.macSpec, hs, Spec.hmac, shaSpec_take] at e3
  exact hmac_zero a e3

end Milo.Props
