import Verif.Proof.Alloc
import Verif.Props.Codec
import Verif.Props.Hash
import Verif.Props.Mac
import Verif.Props.Kdf
import Verif.Props.Cipher
import Verif.Props.Aead
import Verif.Props.Room
/-
Property theorems C68: running out of memory while a container is to receive a result. Every call comes with a flag: is there memory if the container has to grow?
The specification is Spec/Alloc.lean.
-/
namespace Milo.Props
open Milo Spec.Alloc Milo.Alloc

/-! ## Histories -/

/-- C68, hash: an object behaves as if each `digest` that ran out of memory had been a `digest` of no bytes; that call is reported, its container is unchanged, and
the process goes on. `HashApie.run` is the object when there is always memory (C14-C19). -/
theorem C68_hash_history (h : Host) (a : ShaAlg) (ds : Nat) (hds : ds ≤ a.size) (u : Bool) (as : List (Bool × HashApie.Call)) (hok : ∀ c ∈ as, c.2.Ok ds) :
    ∃ o outs, HashApie.run (a.impl h ds) u (effective (hashRules ds) as) = some (o, outs) ∧ OfHash.run (a.impl h ds) u as = some (o, outcomes (hashRules ds) as outs) ∧
      .terminated ∉ outcomes (hashRules ds) as outs := by
  obtain ⟨L⟩ := shaLawful h a ds hds
  have e := shaDigestSize h a ds
  have F := OfHash.fair L
  rw [e] at F
  obtain ⟨o, outs, e1, e2, -⟩ := history F as (HashApie.construct (a.impl h ds) u) (L.rep_wf _ _ (L.init _ L.fresh)) hok
  exact ⟨o, outs, e1, e2, outcomes_alive as outs⟩

/-- C68, MACs. -/
theorem C68_mac_history (h : Host) (a : MacAlg) (ha : a.Ok) (ds : Nat) (hds : ds ≤ a.size) (key : List Byte) (hk : key.length < 2 ^ 64)
    (as : List (Bool × MacApie.Call)) (hok : ∀ c ∈ as, c.2.Ok ds) :
    ∃ o outs, MacApie.run (a.impl h ds) key (effective (macRules ds) as) = some (o, outs) ∧ OfMac.run (a.impl h ds) key as = some (o, outcomes (macRules ds) as outs) ∧
      .terminated ∉ outcomes (macRules ds) as outs := by
  obtain ⟨L⟩ := macLawful h a ha ds hds
  have e := macDigestSize h a ds
  have F := OfMac.fair L
  rw [e] at F
  obtain ⟨o0, e0, r0, f0⟩ := MacApie.init_rep L (MacApie.constructDefault _) key L.fresh hk
  obtain ⟨o, outs, e1, e2, -⟩ := history F as o0 ⟨L.rep_wf _ _ _ r0, by simp [f0]⟩ hok
  exact ⟨o, outs, by simp [MacApie.run, MacApie.construct, e0, e1], by simp [OfMac.run, MacApie.construct, e0, e2], outcomes_alive as outs⟩

/-- C68, HKDF: a `derive` that runs out of memory might as well not have been called. -/
theorem C68_hkdf_history (h : Host) (a : ShaAlg) (sizes : Nat → Nat) (m : Mem) (hm : Kdf.MemOk sizes m) (as : List (Bool × Kdf.Call Hkdf.Args))
    (hok : ∀ c ∈ as, Kdf.Call.Ok (hkdfClass h a a.size) sizes c.2) :
    ∃ o outs, Kdf.run (hkdfClass h a a.size) m (effective (kdfRules Hkdf.Args) as) = some (o, outs) ∧
      OfKdf.run (hkdfClass h a a.size) m as = some (o, outcomes (kdfRules Hkdf.Args) as outs) ∧ .terminated ∉ outcomes (kdfRules Hkdf.Args) as outs := by
  obtain ⟨M⟩ := hmacDefault h a
  have hb := size_bounds a
  have hd := macDigestSize h (.hmac a a.size) a.size
  have L := Hkdf.lawful h M (by rw [hd]; omega) (by rw [hd]; omega)
  obtain ⟨o, outs, e1, e2, -⟩ := history (OfKdf.fair L sizes) as (_, m) ⟨L.fresh sizes, hm⟩ hok
  exact ⟨o, outs, e1, e2, outcomes_alive (R := kdfRules Hkdf.Args) as outs⟩

/-- C68, PBKDF2. -/
theorem C68_pbkdf2_history (h : Host) (junk : Nat → Byte) (a : ShaAlg) (sizes : Nat → Nat) (m : Mem) (hm : Kdf.MemOk sizes m) (as : List (Bool × Kdf.Call Pbkdf2.Args))
    (hok : ∀ c ∈ as, Kdf.Call.Ok (pbkdf2Class h junk a a.size) sizes c.2) :
    ∃ o outs, Kdf.run (pbkdf2Class h junk a a.size) m (effective (kdfRules Pbkdf2.Args) as) = some (o, outs) ∧
      OfKdf.run (pbkdf2Class h junk a a.size) m as = some (o, outcomes (kdfRules Pbkdf2.Args) as outs) ∧ .terminated ∉ outcomes (kdfRules Pbkdf2.Args) as outs := by
  obtain ⟨M⟩ := hmacDefault h a
  have hb := size_bounds a
  have hd := macDigestSize h (.hmac a a.size) a.size
  have L := Pbkdf2.lawful h junk M (by rw [hd]; omega) (by rw [hd]; omega)
  obtain ⟨o, outs, e1, e2, -⟩ := history (OfKdf.fair L sizes) as (_, m) ⟨L.fresh sizes, hm⟩ hok
  exact ⟨o, outs, e1, e2, outcomes_alive (R := kdfRules Pbkdf2.Args) as outs⟩

/-- C68, ciphers: a call that runs out of memory might as well not have been made. -/
theorem C68_cipher_history (h : Host) (b : CipherBackend) (as : List (Bool × Cipher.Call)) (hok : ∀ c ∈ as, c.2.Ok) :
    ∃ o outs, Cipher.run h (b.impl h) (effective cipherRules as) = some (o, outs) ∧ OfCipher.run h (b.impl h) as = some (o, outcomes cipherRules as outs) ∧
      .terminated ∉ outcomes cipherRules as outs := by
  obtain ⟨o, outs, e1, e2, -⟩ := history (OfCipher.fair h (backendLawful h b)) as ChaCha.fresh ⟨_, _, ChaCha.fresh_rep (backendLawful h b)⟩ hok
  exact ⟨o, outs, e1, e2, outcomes_alive as outs⟩

/-- C68, AEAD. -/
theorem C68_aead_history (h : Host) (b : CipherBackend) (key iv : List Byte) (as : List (Bool × AeadApie.Call)) (hok : ∀ c ∈ as, c.2.Ok) :
    ∃ o outs, AeadApie.runWith h b key iv (effective aeadRules as) = some (o, outs) ∧ OfAead.runWith h b key iv as = some (o, outcomes aeadRules as outs) ∧
      .terminated ∉ outcomes aeadRules as outs := by
  have LB := backendLawful h b
  have L := Poly1305.lawful h 16 (by omega)
  obtain ⟨o0, e0, s0⟩ := AeadApie.init_st h LB L (AeadApie.constructDefault _) (AeadApie.base_default LB L) key iv
  obtain ⟨o, outs, e1, e2, -⟩ := history (OfAead.fair h LB L rfl) as o0 ⟨s0.holds.wf, by simp [s0.over], by simp [s0.fin]⟩ hok
  exact ⟨o, outs, by simp [AeadApie.runWith, AeadApie.construct, e0, e1], by simp [OfAead.runWith, AeadApie.construct, e0, e2], outcomes_alive as outs⟩

/-! ## Trying again -/

/-- The effective calls of digest attempts. -/
private def tried (ds : Nat) (d : Bool × DigestReq) : DigestReq := match d.2 with
  | .ptr dst n => .ptr dst n
  | .cont c n => if (if d.1 then none else grows c (min n ds)).isSome then .ptr [] 0 else .cont c n

private theorem tried_hash (ds : Nat) (dg : List (Bool × DigestReq)) :
    effective (hashRules ds) (dg.map fun d => (d.1, HashApie.ofReq d.2)) = (dg.map (tried ds)).map HashApie.ofReq := by
  induction dg with
  | nil => rfl
  | cons d dg ih =>
    rw [List.map_cons, effective_cons, ih]
    obtain ⟨mem, r⟩ := d
    cases r with
    | ptr dst n => simp [tried, HashApie.ofReq, starved, hashRules]
    | cont c n =>
      have e1 : starved (hashRules ds) (mem, HashApie.ofReq (.cont c n)) = (if mem then none else grows c (min n ds)) := rfl
      have e2 : tried ds (mem, .cont c n) = if (if mem then none else grows c (min n ds)).isSome then .ptr [] 0 else .cont c n := rfl
      rw [List.map_cons, List.map_cons, e1, e2]
      cases (if mem then none else grows c (min n ds)) <;> rfl

private theorem tried_mac (ds : Nat) (dg : List (Bool × DigestReq)) :
    effective (macRules ds) (dg.map fun d => (d.1, MacApie.ofReq d.2)) = (dg.map (tried ds)).map MacApie.ofReq := by
  induction dg with
  | nil => rfl
  | cons d dg ih =>
    rw [List.map_cons, effective_cons, ih]
    obtain ⟨mem, r⟩ := d
    cases r with
    | ptr dst n => simp [tried, MacApie.ofReq, starved, macRules]
    | cont c n =>
      have e1 : starved (macRules ds) (mem, MacApie.ofReq (.cont c n)) = (if mem then none else grows c (min n ds)) := rfl
      have e2 : tried ds (mem, .cont c n) = if (if mem then none else grows c (min n ds)).isSome then .ptr [] 0 else .cont c n := rfl
      rw [List.map_cons, List.map_cons, e1, e2]
      cases (if mem then none else grows c (min n ds)) <;> rfl

private theorem tried_ok (ds : Nat) (dg : List (Bool × DigestReq)) (hdg : ∀ d ∈ dg, d.2.Ok ds) : ∀ d ∈ dg.map (tried ds), d.Ok ds := by
  intro d hd
  obtain ⟨⟨mem, r⟩, hr, rfl⟩ := List.mem_map.mp hd
  have := hdg _ hr
  cases r with
  | ptr dst n => exact this
  | cont c n =>
    have e2 : tried ds (mem, .cont c n) = if (if mem then none else grows c (min n ds)).isSome then .ptr [] 0 else .cont c n := rfl
    rw [e2]
    cases (if mem then none else grows c (min n ds)) with
    | none => exact this
    | some content => simp [DigestReq.Ok]

private theorem attempts_hash (ds : Nat) (full : List Byte) (hf : full.length = ds) (dg : List (Bool × DigestReq)) :
    outcomes (hashRules ds) (dg.map fun d => (d.1, HashApie.ofReq d.2)) ((dg.map (tried ds)).map (Spec.extracted full)) = dg.map fun d => attempted full d.1 d.2 := by
  induction dg with
  | nil => rfl
  | cons d dg ih =>
    obtain ⟨mem, r⟩ := d
    cases r with
    | ptr dst n => simpa [outcomes, starved, hashRules, HashApie.ofReq, tried, attempted] using ih
    | cont c n =>
      have e1 : starved (hashRules ds) (mem, HashApie.ofReq (.cont c n)) = (if mem then none else grows c (min n ds)) := rfl
      have e2 : tried ds (mem, .cont c n) = if (if mem then none else grows c (min n ds)).isSome then .ptr [] 0 else .cont c n := rfl
      have e3 : attempted full mem (.cont c n) = match (if mem then none else grows c (min n ds)) with
        | some content => .outOfMemory content
        | none => .answered (Spec.extracted full (.cont c n)) := by rw [← hf]; rfl
      simp only [List.map_cons, outcomes, e1, e2, e3]
      cases (if mem then none else grows c (min n ds)) with
      | none => exact congrArg (_ :: ·) ih
      | some content => exact congrArg (_ :: ·) ih

private theorem count_hash (ds : Nat) (dg : List (Bool × DigestReq)) :
    ((effective (hashRules ds) (dg.map fun d => (d.1, HashApie.ofReq d.2))).map (hashRules ds).results).sum = dg.length := by
  rw [tried_hash]
  induction dg with
  | nil => rfl
  | cons d dg ih =>
    simp only [List.map_cons, List.sum_cons, List.length_cons, ih]
    cases tried ds d <;> simp [HashApie.ofReq, hashRules, Nat.add_comm]

private theorem attempts_mac (ds : Nat) (full : List Byte) (hf : full.length = ds) (dg : List (Bool × DigestReq)) :
    outcomes (macRules ds) (dg.map fun d => (d.1, MacApie.ofReq d.2)) ((dg.map (tried ds)).map (Spec.extracted full)) = dg.map fun d => attempted full d.1 d.2 := by
  induction dg with
  | nil => rfl
  | cons d dg ih =>
    obtain ⟨mem, r⟩ := d
    cases r with
    | ptr dst n => simpa [outcomes, starved, macRules, MacApie.ofReq, tried, attempted] using ih
    | cont c n =>
      have e1 : starved (macRules ds) (mem, MacApie.ofReq (.cont c n)) = (if mem then none else grows c (min n ds)) := rfl
      have e2 : tried ds (mem, .cont c n) = if (if mem then none else grows c (min n ds)).isSome then .ptr [] 0 else .cont c n := rfl
      have e3 : attempted full mem (.cont c n) = match (if mem then none else grows c (min n ds)) with
        | some content => .outOfMemory content
        | none => .answered (Spec.extracted full (.cont c n)) := by rw [← hf]; rfl
      simp only [List.map_cons, outcomes, e1, e2, e3]
      cases (if mem then none else grows c (min n ds)) with
      | none => exact congrArg (_ :: ·) ih
      | some content => exact congrArg (_ :: ·) ih

private theorem count_mac (ds : Nat) (dg : List (Bool × DigestReq)) :
    ((effective (macRules ds) (dg.map fun d => (d.1, MacApie.ofReq d.2))).map (macRules ds).results).sum = dg.length := by
  rw [tried_mac]
  induction dg with
  | nil => rfl
  | cons d dg ih =>
    simp only [List.map_cons, List.sum_cons, List.length_cons, ih]
    cases tried ds d <;> simp [MacApie.ofReq, macRules, Nat.add_comm]

private theorem quiet_hash (ds : Nat) (us : List (Bool × List Byte)) :
    effective (hashRules ds) (us.map fun x => (x.1, .update x.2)) = (us.map (·.2)).map .update := by
  induction us with
  | nil => rfl
  | cons u us ih => rw [List.map_cons, effective_cons, ih]; simp [starved, hashRules]

private theorem quiet_mac (ds : Nat) (us : List (Bool × List Byte)) :
    effective (macRules ds) (us.map fun x => (x.1, .update x.2)) = (us.map (·.2)).map .update := by
  induction us with
  | nil => rfl
  | cons u us ih => rw [List.map_cons, effective_cons, ih]; simp [starved, macRules]

/-- C68, hash: whatever ran out of memory before (`pre`, up to construction or `initialize`), and however often `digest` runs out of memory after the message: each
attempt gives a prefix of the digest of the message, or reports and leaves the container as it was. -/
theorem C68_hash_retry (h : Host) (a : ShaAlg) (ds : Nat) (hds : ds ≤ a.size) (u : Bool) (pre : List (Bool × HashApie.Call)) (hpre : ∀ c ∈ pre, c.2.Ok ds)
    (hi : pre = [] ∨ pre.getLast?.map (·.2) = some .init) (us : List (Bool × List Byte)) (hx : ∀ x ∈ us, x.2.length < 2 ^ 64)
    (dg : List (Bool × DigestReq)) (hdg : ∀ d ∈ dg, d.2.Ok ds) :
    ∃ o outs, OfHash.run (a.impl h ds) u (pre ++ us.map (fun x => (x.1, .update x.2)) ++ dg.map fun d => (d.1, HashApie.ofReq d.2))
      = some (o, outs ++ dg.map fun d => attempted ((shaSpec a (us.map (·.2)).flatten).take ds) d.1 d.2) ∧ .terminated ∉ outs := by
  obtain ⟨L⟩ := shaLawful h a ds hds
  have e := shaDigestSize h a ds
  have F := OfHash.fair L
  rw [e] at F
  have hfull := L.length (us.map (·.2)).flatten
  rw [e] at hfull
  have hok1 : ∀ c ∈ pre ++ us.map (fun x => (x.1, HashApie.Call.update x.2)), c.2.Ok ds := by
    intro c hc
    rcases List.mem_append.mp hc with h1 | h1
    · exact hpre c h1
    · obtain ⟨x, -, rfl⟩ := List.mem_map.mp h1; trivial
  have hok2 : ∀ c ∈ dg.map (fun d => (d.1, HashApie.ofReq d.2)), c.2.Ok ds := by
    intro c hc
    obtain ⟨d, hd, rfl⟩ := List.mem_map.mp hc
    have := hdg d hd
    obtain ⟨mem, r⟩ := d
    cases r <;> exact this
  have hi' : effective (hashRules ds) pre = [] ∨ (effective (hashRules ds) pre).getLast? = some .init := by
    rcases hi with rfl | hi
    · exact .inl rfl
    · right
      obtain ⟨⟨m, c⟩, hl, hc⟩ := Option.map_eq_some_iff.mp hi
      obtain ⟨pre', rfl⟩ := List.getLast?_eq_some_iff.mp hl
      simp only at hc
      subst hc
      rw [effective_append, effective_cons]
      simp [starved, hashRules, effective]
  obtain ⟨o, outs, er⟩ := C18_apie_digest h a ds hds u (effective (hashRules ds) pre) (effective_ok F pre hpre) hi' (us.map (·.2))
    (fun x hx' => by obtain ⟨y, hy, rfl⟩ := List.mem_map.mp hx'; exact hx y hy) (dg.map (tried ds)) (tried_ok ds dg hdg)
  have := history_tail F _ _ (HashApie.construct (a.impl h ds) u) o (L.rep_wf _ _ (L.init _ L.fresh)) hok1 hok2 outs
    ((dg.map (tried ds)).map (Spec.extracted ((shaSpec a (us.map (·.2)).flatten).take ds))) (by rw [count_hash]; simp)
    (by rw [effective_append, quiet_hash, tried_hash]; exact er)
  rw [attempts_hash ds _ hfull] at this
  exact ⟨o, _, this, outcomes_alive _ _⟩

/-- C68, MACs: the same, after construction with a key and any calls `pre` (of which some ran out of memory), and `initialize` with `key`. -/
theorem C68_mac_retry (h : Host) (a : MacAlg) (ha : a.Ok) (ds : Nat) (hds : ds ≤ a.size) (key' : List Byte) (hk' : key'.length < 2 ^ 64)
    (pre : List (Bool × MacApie.Call)) (hpre : ∀ c ∈ pre, c.2.Ok ds) (b : Bool) (key : List Byte) (hk : key.length < 2 ^ 64)
    (us : List (Bool × List Byte)) (hx : ∀ x ∈ us, x.2.length < 2 ^ 64) (dg : List (Bool × DigestReq)) (hdg : ∀ d ∈ dg, d.2.Ok ds) :
    ∃ o outs, OfMac.run (a.impl h ds) key' (pre ++ [(b, .init key)] ++ us.map (fun x => (x.1, .update x.2)) ++ dg.map fun d => (d.1, MacApie.ofReq d.2))
      = some (o, outs ++ dg.map fun d => attempted ((Spec.macOn h.endian a key (us.map (·.2)).flatten).take ds) d.1 d.2) ∧ .terminated ∉ outs := by
  obtain ⟨L⟩ := macLawful h a ha ds hds
  have e := macDigestSize h a ds
  have F := OfMac.fair L
  rw [e] at F
  have hfull := L.length key (us.map (·.2)).flatten
  rw [e] at hfull
  have hok1 : ∀ c ∈ pre ++ [(b, MacApie.Call.init key)] ++ us.map (fun x => (x.1, MacApie.Call.update x.2)), c.2.Ok ds := by
    intro c hc
    rcases List.mem_append.mp hc with h1 | h1
    · rcases List.mem_append.mp h1 with h2 | h2
      · exact hpre c h2
      · rw [List.mem_singleton] at h2; subst h2; exact hk
    · obtain ⟨x, -, rfl⟩ := List.mem_map.mp h1; trivial
  have hok2 : ∀ c ∈ dg.map (fun d => (d.1, MacApie.ofReq d.2)), c.2.Ok ds := by
    intro c hc
    obtain ⟨d, hd, rfl⟩ := List.mem_map.mp hc
    have := hdg d hd
    obtain ⟨mem, r⟩ := d
    cases r <;> exact this
  obtain ⟨outs, hr⟩ := C23_reuse h a ha ds hds key' hk' (effective (macRules ds) pre) (effective_ok F pre hpre)
  obtain ⟨o, er⟩ := hr key hk (us.map (·.2)) (fun x hx' => by obtain ⟨y, hy, rfl⟩ := List.mem_map.mp hx'; exact hx y hy) (dg.map (tried ds)) (tried_ok ds dg hdg)
  obtain ⟨o0, e0, r0, f0⟩ := MacApie.init_rep L (MacApie.constructDefault _) key' L.fresh hk'
  simp only [MacApie.run, MacApie.construct, e0, Option.bind_eq_bind, Option.bind_some] at er
  have := history_tail F _ _ o0 o ⟨L.rep_wf _ _ _ r0, by simp [f0]⟩ hok1 hok2 outs
    ((dg.map (tried ds)).map (Spec.extracted ((Spec.macOn h.endian a key (us.map (·.2)).flatten).take ds))) (by rw [count_mac]; simp)
    (by
      rw [effective_append, effective_append, quiet_mac, tried_mac]
      have : effective (macRules ds) [(b, MacApie.Call.init key)] = [.init key] := by simp [effective, starved, macRules]
      rw [this]; exact er)
  rw [attempts_mac ds _ hfull] at this
  exact ⟨o, _, by simp only [OfMac.run, MacApie.construct, e0, Option.bind_eq_bind, Option.bind_some]; exact this, outcomes_alive _ _⟩

/-! ## Key derivation and ciphers -/

/-- The requests that did not run out of memory. -/
private def kept : List (Bool × DigestReq) → List DigestReq
  | [] => []
  | r :: rs => match refused r with
    | some _ => kept rs
    | none => r.2 :: kept rs

private theorem starved_derive (A : Type) (r : Bool × DigestReq) : starved (kdfRules A) (r.1, .derive r.2) = refused r := by
  obtain ⟨mem, r⟩ := r
  cases r with
  | ptr dst n => cases mem <;> rfl
  | cont c n => rfl

private theorem kept_eq (A : Type) (rs : List (Bool × DigestReq)) : effective (kdfRules A) (rs.map fun r => (r.1, .derive r.2)) = (kept rs).map .derive := by
  induction rs with
  | nil => rfl
  | cons r rs ih =>
    rw [List.map_cons, effective_cons, ih, starved_derive, kept]
    cases refused r <;> rfl

private theorem kept_streamed (A : Type) (rs : List (Bool × DigestReq)) : ∀ stream : List Byte,
    outcomes (kdfRules A) (rs.map fun r => (r.1, .derive r.2)) (Spec.streamed stream (kept rs)) = streamed stream rs := by
  induction rs with
  | nil => intro s; rfl
  | cons r rs ih =>
    intro s
    simp only [List.map_cons, outcomes, starved_derive, kept, streamed]
    cases refused r with
    | none => exact congrArg (_ :: ·) (ih _)
    | some content => exact congrArg (_ :: ·) (ih _)

private theorem kept_count (A : Type) (rs : List (Bool × DigestReq)) (stream : List Byte) :
    (Spec.streamed stream (kept rs)).length = ((effective (kdfRules A) (rs.map fun r => (r.1, .derive r.2))).map (kdfRules A).results).sum := by
  rw [kept_eq]
  generalize kept rs = l
  induction l generalizing stream with
  | nil => rfl
  | cons r l ih =>
    simp only [Spec.streamed, List.length_cons, List.map_cons, List.sum_cons, ih (stream.drop (Spec.asked r))]
    show _ = 1 + _
    omega

private theorem kept_asked (rs : List (Bool × DigestReq)) : Spec.totalAsked (kept rs) ≤ Spec.totalAsked (rs.map (·.2)) := by
  unfold Spec.totalAsked
  induction rs with
  | nil => simp [kept]
  | cons r rs ih =>
    simp only [kept]
    cases refused r with
    | none => simp only [List.map_cons, List.sum_cons]; omega
    | some content => simp only [List.map_cons, List.sum_cons]; omega

private theorem kept_mem (rs : List (Bool × DigestReq)) (P : DigestReq → Prop) (h : ∀ r ∈ rs, P r.2) : ∀ r ∈ kept rs, P r := by
  induction rs with
  | nil => simp [kept]
  | cons r rs ih =>
    have ih := ih (fun x hx => h x (List.mem_cons_of_mem _ hx))
    simp only [kept]
    cases refused r with
    | none =>
      intro x hx
      rcases List.mem_cons.mp hx with rfl | hx
      · exact h r List.mem_cons_self
      · exact ih x hx
    | some content => exact ih

private theorem kdf_retry {h : Host} {K : KdfImpl} {stream : Mem → K.Args → List Byte} {retained : K.Args → List Nat} (L : LawfulKdf h K stream retained)
    (sizes : Nat → Nat) (m : Mem) (hm : Kdf.MemOk sizes m) (pre : List (Bool × Kdf.Call K.Args)) (hpre : ∀ c ∈ pre, Kdf.Call.Ok K sizes c.2) (b : Bool)
    (a : K.Args) (ha : Kdf.Call.Ok K sizes (.init a)) (rs : List (Bool × DigestReq)) (hrs : ∀ r ∈ rs, Kdf.Call.Ok K sizes (.derive r.2))
    (ht : Spec.totalAsked (rs.map (·.2)) ≤ (stream (Kdf.memAfter m (effective (kdfRules K.Args) pre)) a).length) :
    ∃ st outs, OfKdf.run K m (pre ++ [(b, .init a)] ++ rs.map fun r => (r.1, .derive r.2))
      = some (st, outs ++ streamed (stream (Kdf.memAfter m (effective (kdfRules K.Args) pre)) a) rs) ∧ .terminated ∉ outs := by
  have F := OfKdf.fair L sizes
  obtain ⟨outs, hr⟩ := Kdf.run_derives L sizes m hm (effective (kdfRules K.Args) pre) (effective_ok F pre hpre)
  obtain ⟨st, e⟩ := hr a ha (kept rs) (kept_mem rs (fun r => Kdf.Call.Ok K sizes (.derive r)) hrs) (Nat.le_trans (kept_asked rs) ht)
  have := history_tail F (pre ++ [(b, .init a)]) (rs.map fun r => (r.1, .derive r.2)) (K.fresh, m) st ⟨L.fresh sizes, hm⟩
    (by
      intro c hc
      rcases List.mem_append.mp hc with h2 | h2
      · exact hpre c h2
      · rw [List.mem_singleton] at h2; subst h2; exact ha)
    (by
      intro c hc
      obtain ⟨r, hr, rfl⟩ := List.mem_map.mp hc
      exact hrs r hr)
    outs _ (kept_count K.Args rs _)
    (by
      rw [effective_append, kept_eq]
      have : effective (kdfRules K.Args) [(b, .init a)] = [.init a] := by simp [effective, starved, kdfRules]
      rw [this]; exact e)
  rw [kept_streamed] at this
  exact ⟨st, _, this, outcomes_alive _ _⟩

/-- C68, HKDF: the `derive` calls that do not run out of memory receive consecutive bytes, as if the others had not been made. -/
theorem C68_hkdf (h : Host) (a : ShaAlg) (sizes : Nat → Nat) (m : Mem) (hm : Kdf.MemOk sizes m) (pre : List (Bool × Kdf.Call Hkdf.Args))
    (hpre : ∀ c ∈ pre, Kdf.Call.Ok (hkdfClass h a a.size) sizes c.2) (b : Bool) (ikm salt info : Span)
    (hs : ∀ s ∈ [ikm, salt, info], s.size ≤ sizes s.buf ∧ s.size < 2 ^ 64) (rs : List (Bool × DigestReq))
    (hrs : ∀ r ∈ rs, Kdf.Call.Ok (hkdfClass h a a.size) sizes (.derive r.2)) (ht : Spec.totalAsked (rs.map (·.2)) ≤ 255 * a.size) :
    ∃ st outs, OfKdf.run (hkdfClass h a a.size) m (pre ++ [(b, .init ⟨ikm, salt, info⟩)] ++ rs.map fun r => (r.1, .derive r.2))
      = some (st, outs ++ streamed (Spec.hkdf (hmacSpec a) (bytesOf (Kdf.memAfter m (effective (kdfRules _) pre)) ikm)
          (bytesOf (Kdf.memAfter m (effective (kdfRules _) pre)) salt) (bytesOf (Kdf.memAfter m (effective (kdfRules _) pre)) info)) rs) ∧ .terminated ∉ outs := by
  obtain ⟨M⟩ := hmacDefault h a
  have hb := size_bounds a
  have hd := macDigestSize h (.hmac a a.size) a.size
  have L := Hkdf.lawful h M (by rw [hd]; omega) (by rw [hd]; omega)
  exact kdf_retry L sizes m hm pre hpre b ⟨ikm, salt, info⟩ hs rs hrs (Nat.le_trans ht (Nat.le_of_eq
    (hkdf_length (hmacSpec a) a.size (fun k m => hmacSpec_length a k m) _ _ _).symm))

/-- C68, PBKDF2. -/
theorem C68_pbkdf2 (h : Host) (junk : Nat → Byte) (a : ShaAlg) (sizes : Nat → Nat) (m : Mem) (hm : Kdf.MemOk sizes m) (pre : List (Bool × Kdf.Call Pbkdf2.Args))
    (hpre : ∀ c ∈ pre, Kdf.Call.Ok (pbkdf2Class h junk a a.size) sizes c.2) (b : Bool) (ikm salt : Span) (it : W32)
    (hs : ∀ s ∈ [ikm, salt], s.size ≤ sizes s.buf ∧ s.size < 2 ^ 64) (rs : List (Bool × DigestReq))
    (hrs : ∀ r ∈ rs, Kdf.Call.Ok (pbkdf2Class h junk a a.size) sizes (.derive r.2)) (ht : Spec.totalAsked (rs.map (·.2)) ≤ (2 ^ 32 - 1) * a.size) :
    ∃ st outs, OfKdf.run (pbkdf2Class h junk a a.size) m (pre ++ [(b, .init ⟨ikm, salt, it⟩)] ++ rs.map fun r => (r.1, .derive r.2))
      = some (st, outs ++ streamed (Spec.pbkdf2 (hmacSpec a) (bytesOf (Kdf.memAfter m (effective (kdfRules _) pre)) ikm)
          (bytesOf (Kdf.memAfter m (effective (kdfRules _) pre)) salt) (max it.toNat 1)) rs) ∧ .terminated ∉ outs := by
  obtain ⟨M⟩ := hmacDefault h a
  have hb := size_bounds a
  have hd := macDigestSize h (.hmac a a.size) a.size
  have L := Pbkdf2.lawful h junk M (by rw [hd]; omega) (by rw [hd]; omega)
  exact kdf_retry L sizes m hm pre hpre b ⟨ikm, salt, it⟩ hs rs hrs (Nat.le_trans ht (Nat.le_of_eq
    (pbkdf2_length (hmacSpec a) a.size (fun k m => hmacSpec_length a k m) _ _ _ (by omega)).symm))

private theorem ciphered_eq (key iv : List Byte) (as : List (Bool × Cipher.Call)) (hn : ∀ a ∈ as, ∀ k i, a.2 ≠ .init k i) : ∀ pos,
    outcomes cipherRules as (Spec.cipherOuts key iv pos (effective cipherRules as)) = ciphered key iv pos as ∧
    (Spec.cipherOuts key iv pos (effective cipherRules as)).length = ((effective cipherRules as).map cipherRules.results).sum := by
  induction as with
  | nil => intro pos; exact ⟨rfl, rfl⟩
  | cons a as ih =>
    intro pos
    have ih := ih (fun x hx => hn x (List.mem_cons_of_mem _ hx))
    have h1 : cipherRules.results a.2 = 1 := by
      have := hn a List.mem_cons_self
      obtain ⟨mem, c⟩ := a
      cases c with
      | init k i => exact absurd rfl (this k i)
      | _ => rfl
    rw [effective_cons]
    simp only [outcomes, ciphered]
    cases starved cipherRules a with
    | none =>
      have := ih (pos + (Spec.chacha key iv pos (Spec.cipherText a.2)).length)
      simp only [Option.isSome_none, Bool.false_eq_true, if_false, List.singleton_append, Spec.cipherOuts, h1, List.map_cons, List.sum_cons, List.length_cons]
      exact ⟨congrArg (_ :: ·) this.1, by rw [this.2]; omega⟩
    | some content =>
      have := ih pos
      exact ⟨congrArg (_ :: ·) this.1, this.2⟩

/-- C68, ciphers: the calls that do not run out of memory use consecutive bytes of the key stream (C29: `Spec.chacha` is ChaCha20), as if the others had not been
made. -/
theorem C68_cipher (h : Host) (b : CipherBackend) (pre : List (Bool × Cipher.Call)) (hpre : ∀ c ∈ pre, c.2.Ok) (mem : Bool) (key iv : List Byte)
    (as : List (Bool × Cipher.Call)) (hok : ∀ a ∈ as, a.2.Ok ∧ ∀ k i, a.2 ≠ .init k i) :
    ∃ o outs, OfCipher.run h (b.impl h) (pre ++ [(mem, .init key iv)] ++ as) = some (o, outs ++ ciphered key iv 0 as) ∧ .terminated ∉ outs := by
  have L := backendLawful h b
  have F := OfCipher.fair h L
  obtain ⟨ec, el⟩ := ciphered_eq key iv as (fun a ha => (hok a ha).2) 0
  have hT : Texts (effective cipherRules as) := by
    intro c hc
    refine ⟨effective_ok F as (fun a ha => (hok a ha).1) c hc, ?_⟩
    simp only [effective, List.mem_flatMap] at hc
    obtain ⟨a, ha, hc⟩ := hc
    cases hs : starved cipherRules a with
    | none => simp only [hs, Option.isSome_none, Bool.false_eq_true, if_false, List.mem_singleton] at hc; subst hc; exact (hok a ha).2
    | some content =>
      simp only [hs, Option.isSome_some, if_true] at hc
      exact absurd hc (by simp [cipherRules])
  obtain ⟨o, outs, e, -⟩ := Cipher.run_eq h L (effective cipherRules pre) (effective_ok F pre hpre) key iv (effective cipherRules as) hT.notInit
  have := history_tail F (pre ++ [(mem, .init key iv)]) as ChaCha.fresh o ⟨_, _, ChaCha.fresh_rep L⟩
    (by
      intro c hc
      rcases List.mem_append.mp hc with h2 | h2
      · exact hpre c h2
      · rw [List.mem_singleton] at h2; subst h2; trivial)
    (fun a ha => (hok a ha).1) outs _ el
    (by
      rw [effective_append]
      have : effective cipherRules [(mem, .init key iv)] = [.init key iv] := by simp [effective, starved, cipherRules]
      rw [this, List.append_assoc]; exact e)
  rw [ec] at this
  exact ⟨o, _, this, outcomes_alive _ _⟩

/-! ## AEAD -/

private theorem starved_dir (d : Bool) (t : Bool × TextReq) : starved aeadRules (t.1, .text d t.2) = starved aeadRules (t.1, .text false t.2) := by
  obtain ⟨mem, t⟩ := t
  cases t <;> rfl

private theorem made_eq (d : Bool) (ts : List (Bool × TextReq)) : effective aeadRules (ts.map fun t => (t.1, .text d t.2)) = (madeTexts ts).map (.text d) := by
  induction ts with
  | nil => rfl
  | cons t ts ih =>
    rw [List.map_cons, effective_cons, ih, starved_dir, madeTexts]
    cases starved aeadRules (t.1, .text false t.2) <;> rfl

private theorem made_mem (ts : List (Bool × TextReq)) (P : TextReq → Prop) (h : ∀ t ∈ ts, P t.2) : ∀ t ∈ madeTexts ts, P t := by
  induction ts with
  | nil => simp [madeTexts]
  | cons t ts ih =>
    have ih := ih (fun x hx => h x (List.mem_cons_of_mem _ hx))
    simp only [madeTexts]
    cases starved aeadRules (t.1, .text false t.2) with
    | none =>
      intro x hx
      rcases List.mem_cons.mp hx with rfl | hx
      · exact h t List.mem_cons_self
      · exact ih x hx
    | some content => exact ih

private theorem quiet_aad (ads : List (Bool × List Byte)) : effective aeadRules (ads.map fun x => (x.1, .aad x.2)) = (ads.map (·.2)).map .aad := by
  induction ads with
  | nil => rfl
  | cons u us ih => rw [List.map_cons, effective_cons, ih]; simp [starved, aeadRules]

private theorem ends_effective (cs : List (Bool × AeadApie.Call)) (hc : ∀ c ∈ cs, c.2.Ok ∧ Spec.Aead.Ends c.2) :
    (∀ c ∈ effective aeadRules cs, c.Ok ∧ Spec.Aead.Ends c) ∧ ((effective aeadRules cs).map aeadRules.results).sum = (effective aeadRules cs).length := by
  induction cs with
  | nil => exact ⟨by simp [effective], rfl⟩
  | cons c cs ih =>
    obtain ⟨i1, i2⟩ := ih (fun x hx => hc x (List.mem_cons_of_mem _ hx))
    have h0 := hc c List.mem_cons_self
    rw [effective_cons]
    obtain ⟨mem, c⟩ := c
    cases hs : starved aeadRules (mem, c) with
    | none =>
      simp only [Option.isSome_none, Bool.false_eq_true, if_false, List.singleton_append, List.map_cons, List.sum_cons, List.length_cons, i2]
      refine ⟨fun x hx => ?_, ?_⟩
      · rcases List.mem_cons.mp hx with rfl | hx
        · exact h0
        · exact i1 x hx
      · cases c <;> first | exact (show False from h0.2).elim | simp [aeadRules, Nat.add_comm]
    | some content =>
      cases c with
      | digestC c n =>
        simp only [Option.isSome_some, if_true, aeadRules, List.singleton_append, List.map_cons, List.sum_cons, List.length_cons]
        refine ⟨fun x hx => ?_, ?_⟩
        · rcases List.mem_cons.mp hx with rfl | hx
          · exact ⟨by simp [AeadApie.Call.Ok], trivial⟩
          · exact i1 x hx
        · have := i2
          simp only [aeadRules] at this
          omega
      | text d t => exact absurd h0.2 (by simp [Spec.Aead.Ends])
      | _ => simp [starved, aeadRules] at hs

/-- C68, AEAD: `encrypt` and `decrypt` calls that run out of memory might as well not have been made: the texts of the others are encrypted and authenticated
(with a tag over these texts and the associated data); a `digest` that runs out of memory reports that, and any later one gives the right tag. At least one of the
calls for texts must not have run out of memory (none: C40). -/
theorem C68_aead (h : Host) (hh : h.endian = .little) (b : CipherBackend) (key' iv' : List Byte) (pre : List (Bool × AeadApie.Call)) (hpre : ∀ c ∈ pre, c.2.Ok)
    (mem d : Bool) (key : List Byte) (hk : key.length = 32) (nonce : List Byte) (hn : nonce.length = 12) (ads : List (Bool × List Byte))
    (ha : ∀ x ∈ ads, x.2.length < 2 ^ 64) (ts : List (Bool × TextReq)) (ht : ∀ t ∈ ts, t.2.Ok) (hne : madeTexts ts ≠ [])
    (cs : List (Bool × AeadApie.Call)) (hc : ∀ c ∈ cs, c.2.Ok ∧ Spec.Aead.Ends c.2) :
    ∃ o outs rs, OfAead.runWith h b key' iv' (pre ++ [(mem, .init key nonce)] ++ ads.map (fun x => (x.1, .aad x.2)) ++ ts.map (fun t => (t.1, .text d t.2)) ++ cs)
        = some (o, outs ++ outcomes aeadRules (ts.map fun t => (t.1, .text d t.2)) (textOuts (madeTexts ts) rs) ++
            outcomes aeadRules cs ((effective aeadRules cs).map (Spec.Aead.ending
              (Spec.Aead.tag key nonce (ads.map (·.2)).flatten (cipherOf d key nonce (allText (madeTexts ts))))))) ∧
      rs.map List.length = (madeTexts ts).map (fun t => (Spec.Aead.text t).length) ∧ rs.flatten = Spec.Aead.crypt key nonce (allText (madeTexts ts)) ∧
      .terminated ∉ outs := by
  have LB := backendLawful h b
  have L := Poly1305.lawful h 16 (by omega)
  have F := OfAead.fair h LB L rfl
  obtain ⟨he1, he2⟩ := ends_effective cs hc
  obtain ⟨o, outs, rs, e, p⟩ := C35_aead_apie h hh b (.init key' iv' :: effective aeadRules pre)
    ⟨by
      intro c hc
      rcases List.mem_cons.mp hc with rfl | hc
      · trivial
      · exact effective_ok F pre hpre c hc, by intro c hc; exact ⟨key', iv', (Option.some.inj hc).symm⟩⟩ d key hk nonce hn (ads.map (·.2))
    (fun x hx' => by obtain ⟨y, hy, rfl⟩ := List.mem_map.mp hx'; exact ha y hy) (madeTexts ts) (made_mem ts _ ht) hne (effective aeadRules cs) he1
  obtain ⟨o0, e0, s0⟩ := AeadApie.init_st h LB L (AeadApie.constructDefault _) (AeadApie.base_default LB L) key' iv'
  have hlen : (textOuts (madeTexts ts) rs).length = (madeTexts ts).length := by
    have := congrArg List.length p.1
    simp only [List.length_map] at this
    simp [textOuts, this]
  have hsum : ((effective aeadRules (ts.map fun t => (t.1, AeadApie.Call.text d t.2))).map aeadRules.results).sum = (madeTexts ts).length := by
    rw [made_eq]
    generalize madeTexts ts = l
    induction l with
    | nil => rfl
    | cons t l ih => simp only [List.map_cons, List.sum_cons, List.length_cons, ih]; show 1 + _ = _; omega
  simp only [AeadApie.run, List.cons_append, runCalls, AeadApie.exec, e0, Option.bind_eq_bind, Option.bind_some, Option.pure_def, List.nil_append] at e
  obtain ⟨r, hr, hre⟩ := Option.bind_eq_some_iff.mp e
  simp only [Option.some.injEq, Prod.mk.injEq] at hre
  have := history_tail F (pre ++ [(mem, .init key nonce)] ++ ads.map (fun x => (x.1, .aad x.2))) (ts.map (fun t => (t.1, .text d t.2)) ++ cs) o0 o
    ⟨s0.holds.wf, by simp [s0.over], by simp [s0.fin]⟩
    (by
      intro c hc
      rcases List.mem_append.mp hc with h1 | h1
      · rcases List.mem_append.mp h1 with h2 | h2
        · exact hpre c h2
        · rw [List.mem_singleton] at h2; subst h2; trivial
      · obtain ⟨x, hx, rfl⟩ := List.mem_map.mp h1; exact ha x hx)
    (by
      intro c h1
      rcases List.mem_append.mp h1 with h2 | h2
      · obtain ⟨x, hx, rfl⟩ := List.mem_map.mp h2; exact ht x hx
      · exact (hc c h2).1)
    outs (textOuts (madeTexts ts) rs ++ (effective aeadRules cs).map (Spec.Aead.ending
              (Spec.Aead.tag key nonce (ads.map (·.2)).flatten (cipherOf d key nonce (allText (madeTexts ts))))))
    (by rw [effective_append, List.map_append, List.sum_append, hsum, he2, List.length_append, hlen, List.length_map])
    (by
      rw [effective_append, effective_append, effective_append, quiet_aad, made_eq]
      have : effective aeadRules [(mem, .init key nonce)] = [.init key nonce] := by simp [effective, starved, aeadRules]
      rw [this]
      obtain ⟨r1, r2⟩ := r
      simp only at hre
      rw [← hre.1, ← hre.2]
      simpa [apieCalls] using hr)
  have split : ∀ ks : List AeadApie.Out, outcomes aeadRules (ts.map (fun t => (t.1, AeadApie.Call.text d t.2)) ++ cs) (textOuts (madeTexts ts) rs ++ ks)
      = outcomes aeadRules (ts.map fun t => (t.1, .text d t.2)) (textOuts (madeTexts ts) rs) ++ outcomes aeadRules cs ks := fun ks => by
    rw [outcomes_append, outcomes_prefix _ _ _ (hlen.trans hsum.symm), hsum, ← hlen, List.drop_left]
  rw [split, ← List.append_assoc, ← List.append_assoc] at this
  exact ⟨o, _, rs, by simp only [OfAead.runWith, AeadApie.construct, e0, Option.bind_eq_bind, Option.bind_some]; exact this, p.1, p.2, outcomes_alive _ _⟩

/-! ## The free functions -/

/-- The container has to grow, and there is no memory. -/
def NoRoom (mem : Bool) (c : Container) (n : Nat) : Prop := mem = false ∧ c.dynamic = true ∧ c.data.length < n

private theorem noRoom_iff (mem : Bool) (c : Container) (n : Nat) :
    (NoRoom mem c n → (if mem then none else grows c n) = some c.data) ∧ (¬ NoRoom mem c n → (if mem then none else grows c n) = none) := by
  unfold NoRoom grows
  cases mem
  · simp only [Bool.false_eq_true, if_false, true_and]
    exact ⟨fun h => if_pos h, fun h => if_neg h⟩
  · simp

/-- C68, hash: the container is unchanged, or receives the digest (C49). -/
theorem C68_hash_oneshot (h : Host) (a : ShaAlg) (ds : Nat) (hds : ds ≤ a.size) (u mem : Bool) (m : List Byte) (hm : m.length < 2 ^ 64) (c : Container) (n : Nat) :
    (NoRoom mem c (min n ds) → OfHash.oneshotC (a.impl h ds) u mem m c n = some (c, .badAlloc)) ∧
    (¬ NoRoom mem c (min n ds) → OfHash.oneshotC (a.impl h ds) u mem m c n
      = some ((Spec.contained ((shaSpec a m).take ds) c n).1, .returned (Spec.contained ((shaSpec a m).take ds) c n).2)) := by
  obtain ⟨L⟩ := shaLawful h a ds hds
  have e := shaDigestSize h a ds
  obtain ⟨n1, n2⟩ := noRoom_iff mem c (min n ds)
  obtain ⟨i, eu, ru⟩ := L.update (HashApie.construct (a.impl h ds) u).impl [] m (L.init _ L.fresh) hm
  have eu' : HashApie.update (a.impl h ds) (HashApie.construct (a.impl h ds) u) m = some { HashApie.construct (a.impl h ds) u with impl := i } := by
    simp [HashApie.update, eu]
  obtain ⟨o1, e1, -, -⟩ := HashApie.doFinalize_wf L { HashApie.construct (a.impl h ds) u with impl := i } (L.rep_wf _ _ ru)
  refine ⟨fun hn => ?_, fun hn => ?_⟩
  · have hs := n1 hn
    rw [← e] at hs
    simp only [OfHash.oneshotC, eu', OfHash.digestC, e1, Option.bind_eq_bind, Option.bind_some]
    rw [(withRoom_dry _ _ _ _ _ _ hs).1]
    simp [hn.2.1, Fate.leave]
  · have hs := n2 hn
    rw [← e] at hs
    have hc := (C18_oneshot h a ds hds u m hm).2.1 c n
    simp only [HashApie.oneshotC, eu', HashApie.digestC, e1, Option.bind_eq_bind, Option.bind_some] at hc
    simp only [OfHash.oneshotC, eu', OfHash.digestC, e1, Option.bind_eq_bind, Option.bind_some]
    rw [withRoom_fed _ _ _ _ _ hs]
    cases hd : HashApie.digest (a.impl h ds) o1 (c.resize (min n (a.impl h ds).digestSize)).1.data (c.resize (min n (a.impl h ds).digestSize)).2 with
    | none => simp [hd] at hc
    | some r =>
      simp only [hd, Option.bind_some, Option.pure_def, Option.some.injEq] at hc ⊢
      rw [← hc]; rfl

/-- C68, MACs. -/
theorem C68_mac_oneshot (h : Host) (a : MacAlg) (ha : a.Ok) (ds : Nat) (hds : ds ≤ a.size) (mem : Bool) (key m : List Byte) (hk : key.length < 2 ^ 64) (hm : m.length < 2 ^ 64)
    (c : Container) (n : Nat) :
    (NoRoom mem c (min n ds) → OfMac.oneshotC (a.impl h ds) mem key m c n = some (c, .badAlloc)) ∧
    (¬ NoRoom mem c (min n ds) → OfMac.oneshotC (a.impl h ds) mem key m c n
      = some ((Spec.contained ((Spec.macOn h.endian a key m).take ds) c n).1, .returned (Spec.contained ((Spec.macOn h.endian a key m).take ds) c n).2)) := by
  obtain ⟨L⟩ := macLawful h a ha ds hds
  have e := macDigestSize h a ds
  obtain ⟨n1, n2⟩ := noRoom_iff mem c (min n ds)
  obtain ⟨o0, e0, r0, f0⟩ := MacApie.init_rep L (MacApie.constructDefault _) key L.fresh hk
  obtain ⟨i, eu, ru⟩ := L.update o0.impl key [] m r0 hm
  have eu' : MacApie.update (a.impl h ds) o0 m = some { o0 with impl := i } := by simp [MacApie.update, eu]
  obtain ⟨o1, e1, -⟩ := MacApie.doFinalize_good L { o0 with impl := i } ⟨L.rep_wf _ _ _ ru, by simp [f0]⟩
  refine ⟨fun hn => ?_, fun hn => ?_⟩
  · have hs := n1 hn
    rw [← e] at hs
    simp only [OfMac.oneshotC, MacApie.construct, e0, eu', OfMac.digestC, e1, Option.bind_eq_bind, Option.bind_some]
    rw [(withRoom_dry _ _ _ _ _ _ hs).1]
    simp [hn.2.1, Fate.leave]
  · have hs := n2 hn
    rw [← e] at hs
    have hc := (MacApie.oneshots L key m hk hm).2.1 c n
    simp only [MacApie.oneshotC, MacApie.construct, e0, eu', MacApie.digestC, e1, Option.bind_eq_bind, Option.bind_some] at hc
    simp only [OfMac.oneshotC, MacApie.construct, e0, eu', OfMac.digestC, e1, Option.bind_eq_bind, Option.bind_some]
    rw [withRoom_fed _ _ _ _ _ hs]
    cases hd : MacApie.digest (a.impl h ds) o1 (c.resize (min n (a.impl h ds).digestSize)).1.data (c.resize (min n (a.impl h ds).digestSize)).2 with
    | none => simp [hd] at hc
    | some r =>
      simp only [hd, Option.bind_some, Option.pure_def, Option.some.injEq] at hc ⊢
      rw [← hc]; rfl

private theorem kdf_oneshot {h : Host} {K : KdfImpl} {stream : Mem → K.Args → List Byte} {retained : K.Args → List Nat} (L : LawfulKdf h K stream retained)
    (sizes : Nat → Nat) (m : Mem) (hm : Kdf.MemOk sizes m) (a : K.Args) (ha : Kdf.Call.Ok K sizes (.init a)) (mem : Bool) (c : Container) (n : Nat) :
    (NoRoom mem c n → OfKdf.oneshotC K mem m a c n = some (c, .badAlloc)) ∧
    (¬ NoRoom mem c n → Spec.asked (.cont c n) ≤ (stream m a).length → ∃ c' k, OfKdf.oneshotC K mem m a c n = some (c', .returned k) ∧
      (c'.data, k) = Spec.received ((stream m a).take (Spec.asked (.cont c n))) (.cont c n)) := by
  obtain ⟨n1, n2⟩ := noRoom_iff mem c n
  obtain ⟨o, e, r⟩ := L.init sizes m _ a (L.fresh sizes) hm ha
  refine ⟨fun hn => ?_, fun hn hl => ?_⟩
  · simp only [OfKdf.oneshotC, e, OfKdf.deriveC, Option.bind_eq_bind, Option.bind_some]
    rw [(withRoom_dry _ _ _ _ _ _ (n1 hn)).1]
    simp [hn.2.1, Fate.leave]
  · have hc := (Kdf.oneshots L sizes m hm a ha).2.1 c n hl
    simp only [Kdf.oneshotC, Kdf.deriveReq, e, Option.bind_eq_bind, Option.bind_some] at hc
    simp only [OfKdf.oneshotC, e, OfKdf.deriveC, Option.bind_eq_bind, Option.bind_some]
    rw [withRoom_fed _ _ _ _ _ (n2 hn)]
    cases hd : K.derive o m (c.resize n).1.data (c.resize n).2 with
    | none => simp [hd] at hc
    | some q =>
      simp only [hd, Option.bind_some, Option.pure_def, Option.some.injEq] at hc ⊢
      exact ⟨_, _, rfl, hc⟩

/-- C68, HKDF. -/
theorem C68_hkdf_oneshot (h : Host) (a : ShaAlg) (sizes : Nat → Nat) (m : Mem) (hm : Kdf.MemOk sizes m) (ikm salt info : Span)
    (hs : ∀ s ∈ [ikm, salt, info], s.size ≤ sizes s.buf ∧ s.size < 2 ^ 64) (mem : Bool) (c : Container) (n : Nat) :
    (NoRoom mem c n → OfKdf.oneshotC (hkdfClass h a a.size) mem m ⟨ikm, salt, info⟩ c n = some (c, .badAlloc)) ∧
    (¬ NoRoom mem c n → Spec.asked (.cont c n) ≤ 255 * a.size → ∃ c' k, OfKdf.oneshotC (hkdfClass h a a.size) mem m ⟨ikm, salt, info⟩ c n = some (c', .returned k) ∧
      (c'.data, k) = Spec.received ((Spec.hkdf (hmacSpec a) (bytesOf m ikm) (bytesOf m salt) (bytesOf m info)).take (Spec.asked (.cont c n))) (.cont c n)) := by
  obtain ⟨M⟩ := hmacDefault h a
  have hb := size_bounds a
  have hd := macDigestSize h (.hmac a a.size) a.size
  have L := Hkdf.lawful h M (by rw [hd]; omega) (by rw [hd]; omega)
  obtain ⟨h1, h2⟩ := kdf_oneshot L sizes m hm ⟨ikm, salt, info⟩ hs mem c n
  exact ⟨h1, fun hn hl => h2 hn (Nat.le_trans hl (Nat.le_of_eq (hkdf_length (hmacSpec a) a.size (hmacSpec_length a) _ _ _).symm))⟩

/-- C68, PBKDF2. -/
theorem C68_pbkdf2_oneshot (h : Host) (junk : Nat → Byte) (a : ShaAlg) (sizes : Nat → Nat) (m : Mem) (hm : Kdf.MemOk sizes m) (ikm salt : Span) (it : W32)
    (hs : ∀ s ∈ [ikm, salt], s.size ≤ sizes s.buf ∧ s.size < 2 ^ 64) (mem : Bool) (c : Container) (n : Nat) :
    (NoRoom mem c n → OfKdf.oneshotC (pbkdf2Class h junk a a.size) mem m ⟨ikm, salt, it⟩ c n = some (c, .badAlloc)) ∧
    (¬ NoRoom mem c n → Spec.asked (.cont c n) ≤ (2 ^ 32 - 1) * a.size →
      ∃ c' k, OfKdf.oneshotC (pbkdf2Class h junk a a.size) mem m ⟨ikm, salt, it⟩ c n = some (c', .returned k) ∧
      (c'.data, k) = Spec.received ((Spec.pbkdf2 (hmacSpec a) (bytesOf m ikm) (bytesOf m salt) (max it.toNat 1)).take (Spec.asked (.cont c n))) (.cont c n)) := by
  obtain ⟨M⟩ := hmacDefault h a
  have hb := size_bounds a
  have hd := macDigestSize h (.hmac a a.size) a.size
  have L := Pbkdf2.lawful h junk M (by rw [hd]; omega) (by rw [hd]; omega)
  obtain ⟨h1, h2⟩ := kdf_oneshot L sizes m hm ⟨ikm, salt, it⟩ hs mem c n
  exact ⟨h1, fun hn hl => h2 hn (Nat.le_trans hl (Nat.le_of_eq (pbkdf2_length (hmacSpec a) a.size (hmacSpec_length a) _ _ _ (by simp only; omega)).symm))⟩

/-- C68, AEAD, `encrypt`: no memory for the ciphertext: nothing has changed. No memory for the tag: the ciphertext is there, the tag is not. Otherwise as C35. -/
theorem C68_aead_encrypt_oneshot (h : Host) (b : CipherBackend) (mem mem' : Bool) (key iv ad : List Byte) (ha : ad.length < 2 ^ 64) (x : List Byte) (tgt dig : Container)
    (hx : (TextReq.cont x tgt).Ok) :
    (NoRoom mem tgt x.length → OfAead.sealC h b mem mem' key iv ad x tgt dig = some (tgt, dig, .badAlloc)) ∧
    (¬ NoRoom mem tgt x.length → ∃ c d n k, AeadApie.sealC h b key iv ad x tgt dig = some (c, d, n, k) ∧
      (NoRoom mem' dig 16 → OfAead.sealC h b mem mem' key iv ad x tgt dig = some (c, dig, .badAlloc)) ∧
      (¬ NoRoom mem' dig 16 → OfAead.sealC h b mem mem' key iv ad x tgt dig = some (c, d, .returned (n, k)))) := by
  have LB := backendLawful h b
  have L := Poly1305.lawful h 16 (by omega)
  obtain ⟨o0, e0, s0⟩ := AeadApie.init_st h LB L (AeadApie.constructDefault _) (AeadApie.base_default LB L) key iv
  obtain ⟨o1, out1, e1, w1⟩ := AeadApie.exec_wf h LB L rfl o0 (.aad ad) ⟨s0.holds.wf, by simp [s0.over], by simp [s0.fin]⟩ ha
  have e1' : AeadApie.aad o0 ad = some o1 := by
    cases ea : AeadApie.aad o0 ad with
    | none => simp [AeadApie.exec, ea] at e1
    | some o => simp [AeadApie.exec, ea] at e1; rw [e1.1]
  obtain ⟨n1, n2⟩ := noRoom_iff mem tgt x.length
  obtain ⟨m1, m2⟩ := noRoom_iff mem' dig 16
  refine ⟨fun hn => ?_, fun hn => ?_⟩
  · simp only [OfAead.sealC, AeadApie.construct, e0, e1', OfAead.encryptC, Option.bind_eq_bind, Option.bind_some]
    rw [(withRoom_dry _ _ _ _ _ _ (n1 hn)).1]
    simp [hn.2.1, Fate.leave]
  · have ec := OfAead.cont_fed h LB L false o1 w1 mem x tgt hx.1 (n2 hn)
    simp only [Bool.false_eq_true, if_false] at ec
    obtain ⟨o2, out2, e2, w2⟩ := AeadApie.exec_wf h LB L rfl o1 (.text false (.cont x tgt)) w1 hx
    cases et : AeadApie.encryptC h (b.impl h) o1 x tgt with
    | none => simp [AeadApie.exec, AeadApie.text, et] at e2
    | some r =>
      simp only [AeadApie.exec, AeadApie.text, et, Bool.false_eq_true, if_false, Option.bind_eq_bind, Option.bind_some, Option.pure_def, Option.some.injEq, Prod.mk.injEq] at e2
      rw [et] at ec
      simp only [Option.map_some] at ec
      rw [← e2.1] at w2
      obtain ⟨o3, out3, e3, w3⟩ := AeadApie.digestC_wf h L r.1 w2 dig 16
      refine ⟨r.2.1, out3.1, r.2.2, out3.2, ?_, fun hd => ?_, fun hd => ?_⟩
      · simp only [AeadApie.sealC, AeadApie.construct, e0, e1', et, e3, Option.bind_eq_bind, Option.bind_some, Option.pure_def]
      · obtain ⟨o4, e4, -⟩ := AeadApie.doFinalize_wf h L r.1 w2
        have hs : (if mem' then none else grows dig (min 16 (Aead.poly h).digestSize)) = some dig.data := m1 hd
        simp only [OfAead.sealC, AeadApie.construct, e0, e1', ec, OfAead.digestC, e4, Option.bind_eq_bind, Option.bind_some, Option.pure_def]
        rw [(withRoom_dry _ _ _ _ _ _ hs).1]
        simp [hd.2.1, Fate.leave]
      · have hs : (if mem' then none else grows dig (min 16 (Aead.poly h).digestSize)) = none := m2 hd
        have ed := OfAead.digestC_fed h r.1 mem' dig 16 hs
        rw [e3] at ed
        simp only [Option.map_some] at ed
        simp only [OfAead.sealC, AeadApie.construct, e0, e1', ec, ed, Option.bind_eq_bind, Option.bind_some, Option.pure_def, Fate.leave]

/-- C68, AEAD, `decrypt`: no memory for the plaintext: it has not changed, with or without an error argument, and the process goes on. Otherwise as C37-C39. -/
theorem C68_aead_decrypt_oneshot (h : Host) (b : CipherBackend) (mem hasError : Bool) (key iv ad : List Byte) (ha : ad.length < 2 ^ 64) (x tag : List Byte)
    (tgt : Container) (hx : (TextReq.cont x tgt).Ok) :
    (NoRoom mem tgt x.length → OfAead.openC h b mem hasError key iv ad x tag tgt = some (tgt, .badAlloc)) ∧
    (¬ NoRoom mem tgt x.length → OfAead.openC h b mem hasError key iv ad x tag tgt
      = (AeadApie.openC h b hasError key iv ad x tag tgt).map fun r => (r.1, .returned r.2)) := by
  have LB := backendLawful h b
  have L := Poly1305.lawful h 16 (by omega)
  obtain ⟨o0, e0, s0⟩ := AeadApie.init_st h LB L (AeadApie.constructDefault _) (AeadApie.base_default LB L) key iv
  obtain ⟨o1, out1, e1, w1⟩ := AeadApie.exec_wf h LB L rfl o0 (.aad ad) ⟨s0.holds.wf, by simp [s0.over], by simp [s0.fin]⟩ ha
  have e1' : AeadApie.aad o0 ad = some o1 := by
    cases ea : AeadApie.aad o0 ad with
    | none => simp [AeadApie.exec, ea] at e1
    | some o => simp [AeadApie.exec, ea] at e1; rw [e1.1]
  obtain ⟨n1, n2⟩ := noRoom_iff mem tgt x.length
  refine ⟨fun hn => ?_, fun hn => ?_⟩
  · simp only [OfAead.openC, AeadApie.construct, e0, e1', OfAead.decryptC, Option.bind_eq_bind, Option.bind_some]
    rw [(withRoom_dry _ _ _ _ _ _ (n1 hn)).1]
    simp [hn.2.1, Fate.leave]
  · have ec := OfAead.cont_fed h LB L true o1 w1 mem x tgt hx.1 (n2 hn)
    simp only [if_true] at ec
    simp only [OfAead.openC, AeadApie.openC, AeadApie.construct, e0, e1', ec, Option.bind_eq_bind, Option.bind_some, Option.pure_def]
    cases AeadApie.decryptC h (b.impl h) o1 x tgt with
    | none => rfl
    | some r =>
      simp only [Option.map_some, Option.bind_some]
      cases AeadApie.verifyAny h hasError r.1 tag <;> rfl

/-! ## Codecs -/

private theorem room_after (mem : Bool) (c : Container) (n k : Nat) (d : List Byte) (hk : c.dynamic = true → d.length = (c.resize n).1.data.length ∧ k ≤ n) :
    (if mem then none else grows ((c.resize n).1.withData d) k) = none := by
  cases mem
  · simp only [Bool.false_eq_true, if_false, grows]
    rw [if_neg]
    rintro ⟨h1, h2⟩
    have e1 : c.dynamic = true := by
      simp only [Container.withData, Container.resize] at h1
      split at h1 <;> simp_all
    obtain ⟨h3, h4⟩ := hk e1
    simp only [Container.withData] at h2
    rw [h3] at h2
    simp only [Container.resize, e1, if_true, List.length_append, List.length_take, List.length_replicate] at h2
    omega
  · rfl

private theorem codec_encode (C : Codec.Impl) (mem mem' : Bool) (x : List Byte) (tgt : Container)
    (hC : ∀ out, C.encodeSize x ≤ out.length → ∃ d n, C.encode x out = some (d, n) ∧ d.length = out.length ∧ n ≤ C.encodeSize x) :
    (NoRoom mem tgt (C.encodeSize x) → OfCodec.encode C mem mem' x tgt = some (tgt, .badAlloc)) ∧
    (¬ NoRoom mem tgt (C.encodeSize x) → OfCodec.encode C mem mem' x tgt = (Codec.encode C x tgt).map fun r => (r.1, .returned r.2)) := by
  obtain ⟨n1, n2⟩ := noRoom_iff mem tgt (C.encodeSize x)
  refine ⟨fun hn => ?_, fun hn => ?_⟩
  · simp only [OfCodec.encode]
    rw [(withRoom_dry _ _ _ _ _ _ (n1 hn)).1]; rfl
  · simp only [OfCodec.encode, Codec.encode]
    rw [withRoom_fed _ _ _ _ _ (n2 hn)]
    cases e : C.encode x (tgt.resize (C.encodeSize x)).1.data with
    | none => rfl
    | some r =>
      obtain ⟨d, n⟩ := r
      simp only [Option.bind_eq_bind, Option.bind_some, Option.pure_def, Option.map_some]
      rw [withRoom_fed]
      · rfl
      · refine room_after mem' tgt _ n d fun hd => ?_
        obtain ⟨d', n', e', h1, h2⟩ := hC (tgt.resize (C.encodeSize x)).1.data (resize_holds _ _ (by simp [hd]))
        rw [e] at e'
        simp only [Option.some.injEq, Prod.mk.injEq] at e'
        rw [e'.1, e'.2]
        exact ⟨h1, h2⟩

/-- C68, `encode` of both codecs: the container is unchanged, or the encoding is what it is with memory (C01, C06, C10). The second `resize` never needs memory
(`mem'` is arbitrary). -/
theorem C68_codec_encode (sg mem mem' : Bool) (x : List Byte) (tgt : Container) :
    (x.length < 2 ^ 63 →
      (NoRoom mem tgt (2 * x.length) → OfCodec.encode (Codec.base16 sg) mem mem' x tgt = some (tgt, .badAlloc)) ∧
      (¬ NoRoom mem tgt (2 * x.length) → OfCodec.encode (Codec.base16 sg) mem mem' x tgt = (Codec.encode (Codec.base16 sg) x tgt).map fun r => (r.1, .returned r.2))) ∧
    (x.length < 2 ^ 62 →
      (NoRoom mem tgt ((x.length + 2) / 3 * 4) → OfCodec.encode (Codec.base64 sg) mem mem' x tgt = some (tgt, .badAlloc)) ∧
      (¬ NoRoom mem tgt ((x.length + 2) / 3 * 4) → OfCodec.encode (Codec.base64 sg) mem mem' x tgt
        = (Codec.encode (Codec.base64 sg) x tgt).map fun r => (r.1, .returned r.2))) := by
  refine ⟨fun hx => ?_, fun hx => ?_⟩
  · have hs : (Codec.base16 sg).encodeSize x = 2 * x.length := (C05_base16_encode_size x.length (by omega)).1 hx
    rw [← hs]
    refine codec_encode _ mem mem' x tgt fun out ho => ?_
    rw [hs] at ho ⊢
    refine ⟨_, _, (C01_base16_encode_exact x out ho).1, ?_, Nat.le_refl _⟩
    simp only [List.length_append, List.length_drop, (C01_base16_encode_exact x out ho).2.1]
    omega
  · have hs : (Codec.base64 sg).encodeSize x = (x.length + 2) / 3 * 4 := Base64.encodeSize_eq x.length hx
    rw [← hs]
    refine codec_encode _ mem mem' x tgt fun out ho => ?_
    obtain ⟨o, e, h1, -⟩ := C05_base64_encode_in_bounds x out hx ho
    exact ⟨o, _, e, h1, Nat.le_refl _⟩

private theorem codec_decode (C : Codec.Impl) (mem mem' : Bool) (x : List Byte) (tgt : Container)
    (hC : ∀ out, C.decodeSize x ≤ out.length → ∃ d, C.decode x out = some d ∧ d.out.length = out.length ∧ d.size ≤ C.decodeSize x) :
    (NoRoom mem tgt (C.decodeSize x) → OfCodec.decode C mem mem' x tgt = some (tgt, .badAlloc)) ∧
    (¬ NoRoom mem tgt (C.decodeSize x) → OfCodec.decode C mem mem' x tgt = (Codec.decode C x tgt).map fun r => (r.1, .returned r.2)) := by
  obtain ⟨n1, n2⟩ := noRoom_iff mem tgt (C.decodeSize x)
  refine ⟨fun hn => ?_, fun hn => ?_⟩
  · simp only [OfCodec.decode]
    rw [(withRoom_dry _ _ _ _ _ _ (n1 hn)).1]; rfl
  · simp only [OfCodec.decode, Codec.decode]
    rw [withRoom_fed _ _ _ _ _ (n2 hn)]
    cases e : C.decode x (tgt.resize (C.decodeSize x)).1.data with
    | none => rfl
    | some d =>
      simp only [Option.bind_eq_bind, Option.bind_some, Option.pure_def, Option.map_some]
      rw [withRoom_fed]
      · rfl
      · refine room_after mem' tgt _ d.size d.out fun hd => ?_
        obtain ⟨d', e', h1, h2⟩ := hC (tgt.resize (C.decodeSize x)).1.data (resize_holds _ _ (by simp [hd]))
        rw [e] at e'
        rw [Option.some.inj e']
        exact ⟨h1, h2⟩

/-- For `decode` without an error argument it is enough that accepted texts keep to the announced size. -/
private theorem codec_decode_throw (C : Codec.Impl) (mem mem' : Bool) (x : List Byte) (tgt : Container)
    (hC : ∀ out, C.decodeSize x ≤ out.length → ∃ d, C.decode x out = some d ∧ d.out.length = out.length ∧ (d.err = .none → d.size ≤ C.decodeSize x)) :
    (NoRoom mem tgt (C.decodeSize x) → OfCodec.decodeThrow C mem mem' x tgt = some (tgt, .badAlloc)) ∧
    (¬ NoRoom mem tgt (C.decodeSize x) → OfCodec.decodeThrow C mem mem' x tgt = (Codec.decodeThrow C x tgt).map fun r => (r.1, .returned r.2)) := by
  obtain ⟨n1, n2⟩ := noRoom_iff mem tgt (C.decodeSize x)
  refine ⟨fun hn => ?_, fun hn => ?_⟩
  · simp only [OfCodec.decodeThrow, resize_room, n1 hn]; rfl
  · simp only [OfCodec.decodeThrow, Codec.decodeThrow, Codec.decodePtrThrow, resize_room, n2 hn]
    cases e : C.decode x (tgt.resize (C.decodeSize x)).1.data with
    | none => simp [e]
    | some d =>
      by_cases he : d.err = .none
      · have hr : (if mem' then none else grows ((tgt.resize (C.decodeSize x)).1.withData d.out) d.size) = none := by
          refine room_after mem' tgt _ d.size d.out fun hd => ?_
          obtain ⟨d', e', h1, h2⟩ := hC (tgt.resize (C.decodeSize x)).1.data (resize_holds _ _ (by simp [hd]))
          rw [e] at e'
          rw [Option.some.inj e'] at he ⊢
          exact ⟨h1, h2 he⟩
        simp [e, he, hr]
      · simp [e, he]

/-- C68, Base64 `decode` of any text, with and without an error argument. -/
theorem C68_base64_decode (sg mem mem' : Bool) (txt : List Byte) (ht : txt.length < 2 ^ 62) (tgt : Container) :
    (NoRoom mem tgt (Base64.decodeSize txt) → OfCodec.decode (Codec.base64 sg) mem mem' txt tgt = some (tgt, .badAlloc) ∧
      OfCodec.decodeThrow (Codec.base64 sg) mem mem' txt tgt = some (tgt, .badAlloc)) ∧
    (¬ NoRoom mem tgt (Base64.decodeSize txt) →
      OfCodec.decode (Codec.base64 sg) mem mem' txt tgt = (Codec.decode (Codec.base64 sg) txt tgt).map (fun r => (r.1, .returned r.2)) ∧
      OfCodec.decodeThrow (Codec.base64 sg) mem mem' txt tgt = (Codec.decodeThrow (Codec.base64 sg) txt tgt).map (fun r => (r.1, .returned r.2))) := by
  have h1 := codec_decode (Codec.base64 sg) mem mem' txt tgt fun out ho => by
    obtain ⟨d, e, l, -, s, -⟩ := C05_base64_decode_in_bounds sg txt out ht ho
    exact ⟨d, e, l, s⟩
  have h2 := codec_decode_throw (Codec.base64 sg) mem mem' txt tgt fun out ho => by
    obtain ⟨d, e, l, -, s, -⟩ := C05_base64_decode_in_bounds sg txt out ht ho
    exact ⟨d, e, l, fun _ => s⟩
  exact ⟨fun hn => ⟨h1.1 hn, h2.1 hn⟩, fun hn => ⟨h1.2 hn, h2.2 hn⟩⟩

/-- C68, Base16 `decode`: any text without an error argument; with one, texts the decoder accepts. Missing: `decode` of malformed texts with an error argument, which
may change the container and then run out of memory (`C68_base16_decode_grows_wrong`). -/
theorem C68_base16_decode_partial (sg mem mem' : Bool) (txt : List Byte) (tgt : Container) :
    (NoRoom mem tgt (Base16.decodeSize txt.length) → OfCodec.decode (Codec.base16 sg) mem mem' txt tgt = some (tgt, .badAlloc) ∧
      OfCodec.decodeThrow (Codec.base16 sg) mem mem' txt tgt = some (tgt, .badAlloc)) ∧
    (¬ NoRoom mem tgt (Base16.decodeSize txt.length) →
      OfCodec.decodeThrow (Codec.base16 sg) mem mem' txt tgt = (Codec.decodeThrow (Codec.base16 sg) txt tgt).map (fun r => (r.1, .returned r.2)) ∧
      ((∃ c n, Codec.decode (Codec.base16 sg) txt tgt = some (c, n, .none)) →
        OfCodec.decode (Codec.base16 sg) mem mem' txt tgt = (Codec.decode (Codec.base16 sg) txt tgt).map (fun r => (r.1, .returned r.2)))) := by
  have h2 := codec_decode_throw (Codec.base16 sg) mem mem' txt tgt fun out ho => by
    obtain ⟨d, e, l, -, s⟩ := C05_base16_decode_in_bounds sg txt out ho
    exact ⟨d, e, l, fun h => Nat.le_of_eq (s h)⟩
  obtain ⟨n1, n2⟩ := noRoom_iff mem tgt (Base16.decodeSize txt.length)
  refine ⟨fun hn => ⟨?_, h2.1 hn⟩, fun hn => ⟨h2.2 hn, ?_⟩⟩
  · simp only [OfCodec.decode, Codec.base16]
    rw [(withRoom_dry _ _ _ _ _ _ (n1 hn)).1]; rfl
  · rintro ⟨c, n, hc⟩
    simp only [OfCodec.decode, Codec.decode, Codec.base16] at hc ⊢
    rw [withRoom_fed _ _ _ _ _ (n2 hn)]
    cases e : Base16.decode sg txt (tgt.resize (Base16.decodeSize txt.length)).1.data with
    | none => rfl
    | some d =>
      simp only [e, Option.bind_eq_bind, Option.bind_some, Option.pure_def, Option.map_some, Option.some.injEq, Prod.mk.injEq] at hc ⊢
      rw [withRoom_fed]
      · simp
      · refine room_after mem' tgt _ d.size d.out fun hd => ?_
        obtain ⟨d', e', h1, -, h3⟩ := C05_base16_decode_in_bounds sg txt (tgt.resize (Base16.decodeSize txt.length)).1.data (resize_holds _ _ (by simp [hd]))
        rw [e] at e'
        rw [Option.some.inj e'] at hc ⊢
        exact ⟨h1, Nat.le_of_eq (h3 hc.2.2)⟩

/-- C68 is false for Base16 `decode` with an error argument: when more than half of the text precedes the first bad pair, the container, already cut to the announced
size and written to, is to grow to the size C55 is about; without memory the call throws `std::bad_alloc` although the container was large enough to begin with, and the
container has lost its content. -/
theorem C68_base16_decode_grows_wrong (sg : Bool) (p r : List Byte) (c0 c1 : Byte) (rest : List Byte) (hp : Spec.Codec.hexDecode p = some r)
    (hbad : Spec.Codec.hexValue c0 = none ∨ Spec.Codec.hexValue c1 = none) (h7 : sg = false ∨ (c0.toNat < 128 ∧ c1.toNat < 128)) (hr : rest.length % 2 = 0)
    (hlong : rest.length + 2 < p.length) (old : List Byte) (hroom : p.length + 2 + rest.length ≤ old.length) :
    OfCodec.decode (Codec.base16 sg) true false (p ++ c0 :: c1 :: rest) ⟨true, old⟩
      = some (⟨true, r ++ (old.take ((p.length + 2 + rest.length) / 2)).drop r.length⟩, .badAlloc) := by
  have hl := Base16.hexDecode_length hp
  have hds : Base16.decodeSize (p ++ c0 :: c1 :: rest).length = (p.length + 2 + rest.length) / 2 := by
    unfold Base16.decodeSize
    rw [Nat.and_one_is_mod, Nat.shiftRight_eq_div_pow]
    simp only [List.length_append, List.length_cons]
    omega
  have ho : r.length ≤ (old.take ((p.length + 2 + rest.length) / 2)).length := by simp; omega
  have e := C55_base16_error_size_wrong sg p r c0 c1 rest (old.take ((p.length + 2 + rest.length) / 2)) hp hbad h7 hr ho
  simp only [OfCodec.decode, Codec.base16, hds]
  rw [withRoom_fed _ _ _ _ _ (by simp)]
  have hrep : List.replicate ((p.length + 2 + rest.length) / 2 - old.length) (0#8) = [] := by
    rw [List.replicate_eq_nil_iff]; omega
  simp only [Container.resize, if_true, hrep, List.append_nil, e, Option.bind_eq_bind, Option.bind_some, Container.withData]
  rw [(withRoom_dry _ _ _ _ _ _ (show (if false then none else grows _ _) = some _ by
    simp only [Bool.false_eq_true, if_false, grows]
    rw [if_pos ⟨trivial, by simp; omega⟩])).1]
  rfl

/-- "616263" and a bad pair into eight bytes; "zz" into a string of seven without memory; "4142" into one byte without memory. -/
example :
    OfCodec.decode (Codec.base16 true) true false [0x36, 0x31, 0x36, 0x32, 0x36, 0x33, 0x7a, 0x7a] ⟨true, [1, 2, 3, 4, 5, 6, 7, 8]⟩
      = some (⟨true, [0x61, 0x62, 0x63, 4]⟩, .badAlloc) ∧
    OfCodec.decode (Codec.base16 true) false false [0x7a, 0x7a] ⟨true, [1, 2, 3, 4, 5, 6, 7]⟩ = some (⟨true, []⟩, .returned (0, .codecBase16Decode)) ∧
    OfCodec.decode (Codec.base16 true) false true [0x34, 0x31, 0x34, 0x32] ⟨true, [1]⟩ = some (⟨true, [1]⟩, .badAlloc) ∧
    OfCodec.decodeThrow (Codec.base16 true) false true [0x7a, 0x7a] ⟨true, [9]⟩ = some (⟨true, [9]⟩, .returned (.thrown .codecBase16Decode)) :=
  ⟨C68_base16_decode_grows_wrong true [0x36, 0x31, 0x36, 0x32, 0x36, 0x33] [0x61, 0x62, 0x63] 0x7a 0x7a [] (by decide) (.inl (by decide)) (.inr (by decide)) rfl (by decide)
    [1, 2, 3, 4, 5, 6, 7, 8] (by decide), by decide +kernel, by decide +kernel, by decide +kernel⟩

/-! ## Cases -/

/-- Two attempts without memory between an old message and the digest of "ab" split in two. -/
example : ∃ o outs, OfHash.run (ShaAlg.impl ⟨.little, false, none⟩ 32 .sha_2_256) true
    ([(true, .update [1]), (false, .digestC ⟨true, []⟩ 32), (true, .init)] ++ [(true, [0x61]), (true, [0x62])].map (fun x => (x.1, .update x.2)) ++
      [(false, DigestReq.cont ⟨true, [5]⟩ 32), (false, .cont ⟨true, [5]⟩ 1), (true, .cont ⟨true, [5]⟩ 4)].map fun d => (d.1, HashApie.ofReq d.2))
    = some (o, outs ++ [.outOfMemory [5], .answered ([0xfb], 1), .answered ([0xfb, 0x8e, 0x20, 0xfc], 4)]) ∧ .terminated ∉ outs := by
  obtain ⟨o, outs, e, ht⟩ := C68_hash_retry ⟨.little, false, none⟩ .sha_2_256 32 (by decide) true [(true, .update [1]), (false, .digestC ⟨true, []⟩ 32), (true, .init)]
    (by simp [HashApie.Call.Ok]) (.inr rfl) [(true, [0x61]), (true, [0x62])] (by simp)
    [(false, .cont ⟨true, [5]⟩ 32), (false, .cont ⟨true, [5]⟩ 1), (true, .cont ⟨true, [5]⟩ 4)] (by simp [DigestReq.Ok])
  refine ⟨o, outs, ?_, ht⟩
  rw [e]
  have : ([(false, DigestReq.cont ⟨true, [5]⟩ 32), (false, .cont ⟨true, [5]⟩ 1), (true, .cont ⟨true, [5]⟩ 4)].map fun d =>
      attempted ((shaSpec .sha_2_256 ([(true, [0x61]), (true, [0x62])].map (·.2)).flatten).take 32) d.1 d.2)
      = [.outOfMemory [5], .answered ([0xfb], 1), .answered ([0xfb, 0x8e, 0x20, 0xfc], 4)] := by decide +kernel
  rw [this]

set_option maxRecDepth 100000 in
/-- What the rule `lost` of `hashRules` means: a `digest` that ran out of memory has ended the message. Whoever goes on with "bc" afterwards gets the digest of "a",
not of "abc", and is not told. -/
theorem C68_hash_starved_digest_ends :
    ∃ o, OfHash.run (ShaAlg.impl ⟨.little, false, none⟩ 32 .sha_2_256) false
      [(true, .update [0x61]), (false, .digestC ⟨true, []⟩ 32), (true, .update [0x62, 0x63]), (true, .digestC ⟨true, []⟩ 32)]
        = some (o, [.outOfMemory [], .answered (Spec.Sha.sha256 [0x61], 32)]) ∧ Spec.Sha.sha256 [0x61] ≠ Spec.Sha.sha256 [0x61, 0x62, 0x63] := by
  have e : (OfHash.run (ShaAlg.impl ⟨.little, false, none⟩ 32 .sha_2_256) false
      [(true, .update [0x61]), (false, .digestC ⟨true, []⟩ 32), (true, .update [0x62, 0x63]), (true, .digestC ⟨true, []⟩ 32)]).map (·.2)
      = some [.outOfMemory [], .answered (Spec.Sha.sha256 [0x61], 32)] := by decide +kernel
  cases hr : OfHash.run (ShaAlg.impl ⟨.little, false, none⟩ 32 .sha_2_256) false
      [(true, .update [0x61]), (false, .digestC ⟨true, []⟩ 32), (true, .update [0x62, 0x63]), (true, .digestC ⟨true, []⟩ 32)] with
  | none => rw [hr] at e; exact absurd e (by simp)
  | some r =>
    rw [hr] at e
    simp only [Option.map_some, Option.some.injEq] at e
    exact ⟨r.1, by rw [← e], by decide +kernel⟩

/-- A cipher: one call of three runs out of memory; the third goes on where the first ended. -/
example : ∃ o outs, OfCipher.run ⟨.little, false, none⟩ (CipherBackend.impl ⟨.little, false, none⟩ .portable)
    ([(false, .encryptSelf ⟨true, [1]⟩)] ++ [(true, .init [1] [2])] ++
      [(true, .encryptC [1, 2, 3] ⟨true, []⟩), (false, .encryptC [4, 5] ⟨true, [9]⟩), (false, .encryptC [6] ⟨true, [9]⟩)])
    = some (o, outs ++ [.answered (Spec.chacha [1] [2] 0 [1, 2, 3], 3), .outOfMemory [9], .answered (Spec.chacha [1] [2] 3 [6], 1)]) ∧ .terminated ∉ outs := by
  obtain ⟨o, outs, e, ht⟩ := C68_cipher ⟨.little, false, none⟩ .portable [(false, .encryptSelf ⟨true, [1]⟩)] (by simp [Cipher.Call.Ok]) true [1] [2]
    [(true, .encryptC [1, 2, 3] ⟨true, []⟩), (false, .encryptC [4, 5] ⟨true, [9]⟩), (false, .encryptC [6] ⟨true, [9]⟩)] (by simp [Cipher.Call.Ok])
  refine ⟨o, outs, ?_, ht⟩
  rw [e]
  have : ciphered [1] [2] 0 [(true, .encryptC [1, 2, 3] ⟨true, []⟩), (false, .encryptC [4, 5] ⟨true, [9]⟩), (false, .encryptC [6] ⟨true, [9]⟩)]
      = [.answered (Spec.chacha [1] [2] 0 [1, 2, 3], 3), .outOfMemory [9], .answered (Spec.chacha [1] [2] 3 [6], 1)] := by decide +kernel
  rw [this]

/-- HKDF: the second of three requests runs out of memory. -/
example : ∃ st outs, OfKdf.run (hkdfClass ⟨.big, false, none⟩ .sha_2_256 32) (fun _ => List.replicate 8 1)
    ([(true, .init ⟨⟨0, 1⟩, ⟨1, 0⟩, ⟨2, 8⟩⟩), (false, .derive (.cont ⟨true, []⟩ 5)), (true, .poke 0 (List.replicate 8 7))] ++ [(true, .init ⟨⟨0, 8⟩, ⟨1, 8⟩, ⟨2, 3⟩⟩)] ++
      [(false, DigestReq.ptr [0, 0] 2), (false, .cont ⟨true, [1]⟩ 100), (true, .cont ⟨true, [1]⟩ 60)].map fun r => (r.1, .derive r.2))
    = some (st, outs ++ streamed (Spec.hkdf (hmacSpec .sha_2_256) (List.replicate 8 7) (List.replicate 8 1) (List.replicate 3 1))
        [(false, DigestReq.ptr [0, 0] 2), (false, .cont ⟨true, [1]⟩ 100), (true, .cont ⟨true, [1]⟩ 60)]) ∧ .terminated ∉ outs :=
  C68_hkdf ⟨.big, false, none⟩ .sha_2_256 (fun _ => 8) (fun _ => List.replicate 8 1) (fun b => by simp)
    [(true, .init ⟨⟨0, 1⟩, ⟨1, 0⟩, ⟨2, 8⟩⟩), (false, .derive (.cont ⟨true, []⟩ 5)), (true, .poke 0 (List.replicate 8 7))]
    (by simp [Kdf.Call.Ok, hkdfClass, Hkdf.impl]) true ⟨0, 8⟩ ⟨1, 8⟩ ⟨2, 3⟩ (by simp)
    [(false, DigestReq.ptr [0, 0] 2), (false, .cont ⟨true, [1]⟩ 100), (true, .cont ⟨true, [1]⟩ 60)] (by simp [Kdf.Call.Ok]) (by decide)

set_option maxRecDepth 100000 in
/-- AEAD: a text and a tag run out of memory; the tag is that of the other text. -/
example : ∃ o outs rs, OfAead.runWith ⟨.little, false, none⟩ .portable [1] [2] ([(false, .digestC ⟨true, []⟩ 16)] ++ [(true, .init (List.replicate 32 1) (List.replicate 12 2))] ++
      [(true, [7, 7])].map (fun x => (x.1, .aad x.2)) ++
      [(false, .cont [1, 2, 3] ⟨true, [9]⟩), (true, .cont [4, 5] ⟨true, [9]⟩)].map (fun t => (t.1, .text false t.2)) ++
      [(false, .digestC ⟨true, [8]⟩ 16), (true, .digestC ⟨true, [8]⟩ 16)])
    = some (o, outs ++ [.outOfMemory [9], .answered (.bytes rs 2)] ++ [.outOfMemory [8],
        .answered (.bytes (Spec.Aead.tag (List.replicate 32 1) (List.replicate 12 2) [7, 7] (Spec.Aead.crypt (List.replicate 32 1) (List.replicate 12 2) [4, 5])) 16)]) ∧
      rs = Spec.Aead.crypt (List.replicate 32 1) (List.replicate 12 2) [4, 5] := by
  have made : madeTexts [(false, .cont [1, 2, 3] ⟨true, [9]⟩), (true, .cont [4, 5] ⟨true, [9]⟩)] = [.cont [4, 5] ⟨true, [9]⟩] := rfl
  obtain ⟨o, outs, rs, e, hl, hf, -⟩ := C68_aead ⟨.little, false, none⟩ rfl .portable [1] [2] [(false, .digestC ⟨true, []⟩ 16)] (by simp [AeadApie.Call.Ok]) true false
    (List.replicate 32 1) (by simp) (List.replicate 12 2) (by simp) [(true, [7, 7])] (by simp)
    [(false, .cont [1, 2, 3] ⟨true, [9]⟩), (true, .cont [4, 5] ⟨true, [9]⟩)] (by simp [TextReq.Ok]) (by rw [made]; simp)
    [(false, .digestC ⟨true, [8]⟩ 16), (true, .digestC ⟨true, [8]⟩ 16)] (by simp [AeadApie.Call.Ok, Spec.Aead.Ends])
  rw [made] at e hl hf
  match rs, hl with
  | [], hl => exact absurd hl (by simp)
  | _ :: _ :: _, hl => exact absurd hl (by simp)
  | [r], _ =>
    have hr : r = Spec.Aead.crypt (List.replicate 32 1) (List.replicate 12 2) [4, 5] := by simpa [allText, Spec.Aead.text] using hf
    refine ⟨o, outs, r, ?_, hr⟩
    rw [e, hr]
    have e1 : outcomes aeadRules ([(false, TextReq.cont [1, 2, 3] ⟨true, [9]⟩), (true, .cont [4, 5] ⟨true, [9]⟩)].map (fun t => (t.1, .text false t.2)))
        (textOuts [.cont [4, 5] ⟨true, [9]⟩] [Spec.Aead.crypt (List.replicate 32 1) (List.replicate 12 2) [4, 5]])
        = [.outOfMemory [9], .answered (.bytes (Spec.Aead.crypt (List.replicate 32 1) (List.replicate 12 2) [4, 5]) 2)] := by decide +kernel
    rw [e1]
    have e2 : outcomes aeadRules [(false, .digestC ⟨true, [8]⟩ 16), (true, .digestC ⟨true, [8]⟩ 16)]
        ((effective aeadRules [(false, .digestC ⟨true, [8]⟩ 16), (true, .digestC ⟨true, [8]⟩ 16)]).map (Spec.Aead.ending
          (Spec.Aead.tag (List.replicate 32 1) (List.replicate 12 2) ([(true, [(7 : Byte), 7])].map (·.2)).flatten
            (cipherOf false (List.replicate 32 1) (List.replicate 12 2) (allText [.cont [4, 5] ⟨true, [9]⟩])))))
        = [.outOfMemory [8], .answered (.bytes (Spec.Aead.tag (List.replicate 32 1) (List.replicate 12 2) [7, 7]
            (Spec.Aead.crypt (List.replicate 32 1) (List.replicate 12 2) [4, 5])) 16)] := by decide +kernel
    rw [e2]

end Milo.Props
