import Verif.Proof.ShaAlg
import Verif.Proof.Output
/-
Property theorems C14-C19 (hash functions), and the hash part of C49 (output containers).

`Hash.run H calls` is a default-constructed object of class `H` and a sequence of calls to its public member functions, with everything
the digest calls output; `none` would be undefined behaviour. `HashApie.run` is the same for the `apie` wrapper. `Host` ranges over
little/big endian, constant evaluation / run time.
-/
namespace Milo.Props
open Milo

/-- A sequence of calls computing digests of the concatenation of `xs`, after arbitrary earlier use `pre` of the object. -/
def hashing (pre : List Hash.Call) (xs : List (List Byte)) (ds : List (List Byte × Nat)) : List Hash.Call :=
  pre ++ [.init] ++ xs.map .update ++ [.finalize] ++ ds.map fun d => .digest d.1 d.2

/-- The statement of C14-C16 for one type: after any history, `initialize`, the updates `xs`, `finalize`, each of the digest calls
(several are allowed) writes the first bytes of `spec` of the concatenation and leaves the rest of its buffer unchanged.
`ds` is the `digest_size` option (at most the algorithm's size). -/
def ComputesHash (a : ShaAlg) (spec : List Byte → List Byte) : Prop :=
  ∀ (h : Host) (ds : Nat), ds ≤ a.size → ∀ (pre : List Hash.Call), (∀ c ∈ pre, c.Ok ds) →
    ∀ (xs : List (List Byte)), (∀ x ∈ xs, x.length < 2 ^ 64) →
    ∀ (dg : List (List Byte × Nat)), (∀ d ∈ dg, min d.2 ds ≤ d.1.length) →
    ∃ o outs, Hash.run (a.impl h ds) (hashing pre xs dg)
      = some (o, outs ++ dg.map fun d => Spec.written ((spec xs.flatten).take ds) d.1 d.2)

theorem computes (a : ShaAlg) : ComputesHash a (shaSpec a) := by
  intro h ds hds pre hpre xs hx dg hdg
  obtain ⟨L⟩ := shaLawful h a ds hds
  have e := shaDigestSize h a ds
  exact Hash.run_eq L pre (by rw [e]; exact hpre) xs hx dg (by rw [e]; exact hdg)

/-- C14: the `sha_1_160` class computes FIPS 180-4 SHA-1. -/
theorem C14_sha1 : ComputesHash .sha_1_160 Spec.Sha.sha1 := computes .sha_1_160

/-- C15: `sha_2_224` and `sha_2_256`. -/
theorem C15_sha224 : ComputesHash .sha_2_224 Spec.Sha.sha224 := computes .sha_2_224
theorem C15_sha256 : ComputesHash .sha_2_256 Spec.Sha.sha256 := computes .sha_2_256

/-- C16: the four 64-bit variants (the standard's 128-bit length field included). -/
theorem C16_sha384 : ComputesHash .sha_2_384 Spec.Sha.sha384 := computes .sha_2_384
theorem C16_sha512 : ComputesHash .sha_2_512 Spec.Sha.sha512 := computes .sha_2_512
theorem C16_sha512_224 : ComputesHash .sha_2_512_224 Spec.Sha.sha512_224 := computes .sha_2_512_224
theorem C16_sha512_256 : ComputesHash .sha_2_512_256 Spec.Sha.sha512_256 := computes .sha_2_512_256

/-- Hypotheses of C14-C16 met: a misused object, reinitialised, a message in three pieces, two digest calls. -/
example : ∃ o outs, Hash.run (ShaAlg.impl ⟨.big, false, none⟩ 28 .sha_2_256)
    (hashing [.finalize, .update [1], .digest (List.replicate 28 7) 100] [[0x61], [], [0x62, 0x63]]
      [(List.replicate 40 9, 28), (List.replicate 4 9, 4)])
    = some (o, outs ++ [Spec.written ((Spec.Sha.sha256 [0x61, 0x62, 0x63]).take 28) (List.replicate 40 9) 28,
        Spec.written ((Spec.Sha.sha256 [0x61, 0x62, 0x63]).take 28) (List.replicate 4 9) 4]) :=
  C15_sha256 ⟨.big, false, none⟩ 28 (by decide) _ (by simp [Hash.Call.Ok]) _ (by simp) _ (by simp)

/-! Known-answer tests (not proofs): the model run on "abc" and the published digests. -/
set_option maxRecDepth 100000 in
example : HashApie.oneshot (ShaAlg.impl ⟨.little, false, none⟩ 32 .sha_2_256) true [0x61, 0x62, 0x63] (List.replicate 32 0) 32
    = some (Spec.beBytes 32 0xba7816bf8f01cfea414140de5dae2223b00361a396177a9cb410ff61f20015ad, 32) := by decide +kernel
set_option maxRecDepth 100000 in
example : HashApie.oneshot (ShaAlg.impl ⟨.big, true, none⟩ 20 .sha_1_160) true [0x61, 0x62, 0x63] (List.replicate 20 0) 20
    = some (Spec.beBytes 20 0xa9993e364706816aba3e25717850c26c9cd0d89d, 20) := by decide +kernel
set_option maxRecDepth 100000 in
example : HashApie.oneshot (ShaAlg.impl ⟨.little, false, none⟩ 28 .sha_2_512_224) true [0x61, 0x62, 0x63] (List.replicate 28 0) 28
    = some (Spec.beBytes 28 0x4634270f707b6a54daae7530460842e20e37ed265ceee9a43e8924aa, 28) := by decide +kernel

/-! The same with the SHA instructions. -/
set_option maxRecDepth 100000 in
example : HashApie.oneshot (ShaAlg.impl ⟨.little, false, some fun i j => BitVec.ofNat 32 (i + j)⟩ 32 .sha_2_256) true [0x61, 0x62, 0x63] (List.replicate 32 0) 32
    = some (Spec.beBytes 32 0xba7816bf8f01cfea414140de5dae2223b00361a396177a9cb410ff61f20015ad, 32) := by decide +kernel
set_option maxRecDepth 100000 in
example : HashApie.oneshot (ShaAlg.impl ⟨.little, false, some fun i j => BitVec.ofNat 32 (i + j)⟩ 20 .sha_1_160) true [0x61, 0x62, 0x63] (List.replicate 20 0) 20
    = some (Spec.beBytes 20 0xa9993e364706816aba3e25717850c26c9cd0d89d, 20) := by decide +kernel

/-! ## C17 -/

/-- C17: for each hash type, any two ways of splitting the same message give the same outputs, also through the `apie` wrapper, after any
earlier use. -/
theorem C17_split_independent (h : Host) (a : ShaAlg) (ds : Nat) (hds : ds ≤ a.size) (pre : List Hash.Call) (hpre : ∀ c ∈ pre, c.Ok ds)
    (xs ys : List (List Byte)) (hx : ∀ x ∈ xs, x.length < 2 ^ 64) (hy : ∀ y ∈ ys, y.length < 2 ^ 64) (hxy : xs.flatten = ys.flatten)
    (dg : List (List Byte × Nat)) (hdg : ∀ d ∈ dg, min d.2 ds ≤ d.1.length) :
    (Hash.run (a.impl h ds) (hashing pre xs dg)).map (·.2) = (Hash.run (a.impl h ds) (hashing pre ys dg)).map (·.2) ∧
    (Hash.run (a.impl h ds) (hashing pre xs dg)).isSome := by
  obtain ⟨L⟩ := shaLawful h a ds hds
  have e := shaDigestSize h a ds
  obtain ⟨o0, outs, e0, w0⟩ := Hash.run_wf L pre (by rw [e]; exact hpre)
  have key : ∀ zs : List (List Byte), (∀ z ∈ zs, z.length < 2 ^ 64) → ∃ o, Hash.run (a.impl h ds) (hashing pre zs dg)
      = some (o, outs ++ dg.map fun d => Spec.written ((shaSpec a zs.flatten).take ds) d.1 d.2) := by
    intro zs hz
    obtain ⟨o, outs', e'⟩ := Hash.run_eq L pre (by rw [e]; exact hpre) zs hz dg (by rw [e]; exact hdg)
    refine ⟨o, ?_⟩
    have e'' := e'
    unfold Hash.run at e0 e''
    rw [List.append_assoc, List.append_assoc, List.append_assoc, runCalls_append, e0] at e''
    simp only [Option.bind_some] at e''
    cases hr : runCalls (Hash.exec (a.impl h ds)) o0 ([Hash.Call.init] ++ (zs.map .update ++ ([Hash.Call.finalize] ++
        dg.map fun d => .digest d.1 d.2))) with
    | none => rw [hr] at e''; simp at e''
    | some r =>
      rw [hr] at e''
      simp only [Option.map_some, Option.some.injEq, Prod.mk.injEq] at e''
      have hlen : r.2.length = dg.length := by
        obtain ⟨o1, e1, r1⟩ := Hash.updates L _ [] (L.init o0 w0) zs hz
        obtain ⟨o2, e2, f2⟩ := L.finalize o1 _ r1
        have e3 := Hash.digests L o2 _ f2 dg (by rw [e]; exact hdg)
        have ei : runCalls (Hash.exec (a.impl h ds)) o0 [.init] = some ((a.impl h ds).init o0, []) := rfl
        have ef : runCalls (Hash.exec (a.impl h ds)) o1 [.finalize] = some (o2, []) := by simp [runCalls, Hash.exec, e2]
        rw [runCalls_append, ei, Option.bind_some, runCalls_append, e1, Option.bind_some, runCalls_append, ef, Option.bind_some, e3] at hr
        simp only [Option.map_some, Option.some.injEq] at hr
        rw [← hr]; simp
      have houts : outs' = outs := (List.append_inj_left' e''.2 (by simp [hlen])).symm
      rw [houts] at e'
      exact e'
  obtain ⟨o1, e1⟩ := key xs hx
  obtain ⟨o2, e2⟩ := key ys hy
  rw [e1, e2, hxy]
  exact ⟨rfl, rfl⟩

example : (Hash.run (ShaAlg.impl ⟨.little, true, none⟩ 64 .sha_2_512) (hashing [] [[1, 2], [], [3]] [(List.replicate 64 0, 64)])).map (·.2)
    = (Hash.run (ShaAlg.impl ⟨.little, true, none⟩ 64 .sha_2_512) (hashing [] [[1], [2, 3]] [(List.replicate 64 0, 64)])).map (·.2) :=
  (C17_split_independent _ _ _ (by decide) [] (by simp) _ _ (by simp) (by simp) (by simp) _ (by simp)).1

/-! ## C18 -/

/-- C18, `apie` wrapper: after construction, or after any calls followed by `initialize`, feeding `xs` and extracting any number of digests
of any sizes into buffers or containers yields prefixes of one and the same digest, that of `xs` alone (nothing of `pre` is left). `u` is the
indeterminate value of the flag member before construction. -/
theorem C18_apie_digest (h : Host) (a : ShaAlg) (ds : Nat) (hds : ds ≤ a.size) (u : Bool) (pre : List HashApie.Call)
    (hpre : ∀ c ∈ pre, c.Ok ds) (hi : pre = [] ∨ pre.getLast? = some .init)
    (xs : List (List Byte)) (hx : ∀ x ∈ xs, x.length < 2 ^ 64) (dg : List DigestReq) (hdg : ∀ d ∈ dg, d.Ok ds) :
    ∃ o outs, HashApie.run (a.impl h ds) u (pre ++ xs.map .update ++ dg.map HashApie.ofReq)
      = some (o, outs ++ dg.map (Spec.extracted ((shaSpec a xs.flatten).take ds))) := by
  obtain ⟨L⟩ := shaLawful h a ds hds
  have e := shaDigestSize h a ds
  exact HashApie.run_eq L u pre (by rw [e]; exact hpre) hi xs hx dg (by rw [e]; exact hdg)

/-- C18, class interface: repeated `digest` calls after one `finalize` agree and are prefixes of the full digest (this is also part of
C14-C16); the returned size is `min n digest_size`. -/
theorem C18_repeat_truncate (h : Host) (a : ShaAlg) (ds : Nat) (hds : ds ≤ a.size) (pre : List Hash.Call) (hpre : ∀ c ∈ pre, c.Ok ds)
    (xs : List (List Byte)) (hx : ∀ x ∈ xs, x.length < 2 ^ 64) (n : Nat) :
    ∃ o outs full, full.length = ds ∧ Hash.run (a.impl h ds) (hashing pre xs [(List.replicate ds 0, ds), (List.replicate n 0, n), (List.replicate n 0, n)])
      = some (o, outs ++ [(full, ds), (full.take n ++ List.replicate (n - ds) 0, min n ds), (full.take n ++ List.replicate (n - ds) 0, min n ds)]) := by
  obtain ⟨L⟩ := shaLawful h a ds hds
  have hl := L.length xs.flatten
  rw [shaDigestSize] at hl
  obtain ⟨o, outs, e⟩ := computes a h ds hds pre hpre xs hx [(List.replicate ds 0, ds), (List.replicate n 0, n), (List.replicate n 0, n)]
    (by simp)
  refine ⟨o, outs, _, hl, ?_⟩
  rw [e]
  have h1 : Spec.written ((shaSpec a xs.flatten).take ds) (List.replicate ds 0) ds = ((shaSpec a xs.flatten).take ds, ds) := by
    simp only [Spec.written, hl, Nat.min_self, List.drop_replicate, Nat.sub_self, List.replicate_zero, List.append_nil]
    rw [List.take_of_length_le (by omega)]
  have h2 : Spec.written ((shaSpec a xs.flatten).take ds) (List.replicate n 0) n
      = (((shaSpec a xs.flatten).take ds).take n ++ List.replicate (n - ds) 0, min n ds) := by
    simp only [Spec.written, hl, List.drop_replicate]
    rw [show n - min n ds = n - ds by omega]
  simp only [List.map_cons, List.map_nil, h1, h2]

example : ∃ o outs, HashApie.run (ShaAlg.impl ⟨.big, false, none⟩ 32 .sha_2_256) true
    ([.update [5], .digest (List.replicate 32 0) 32, .update [6], .init] ++ [[0x61], [0x62]].map .update ++
      [DigestReq.cont ⟨true, [1]⟩ 7, .cont ⟨false, List.replicate 5 0xff⟩ 7, .ptr (List.replicate 50 1) 64].map HashApie.ofReq)
    = some (o, outs ++ [DigestReq.cont ⟨true, [1]⟩ 7, .cont ⟨false, List.replicate 5 0xff⟩ 7, .ptr (List.replicate 50 1) 64].map
      (Spec.extracted ((Spec.Sha.sha256 [0x61, 0x62]).take 32))) :=
  C18_apie_digest ⟨.big, false, none⟩ .sha_2_256 32 (by decide) true _ (by simp [HashApie.Call.Ok]) (.inr rfl) _ (by simp) _
    (by simp [DigestReq.Ok])

/-- C18, one-line functions: pointer, container and by-value overloads. -/
theorem C18_oneshot (h : Host) (a : ShaAlg) (ds : Nat) (hds : ds ≤ a.size) (u : Bool) (m : List Byte) (hm : m.length < 2 ^ 64) :
    (∀ dst n, min n ds ≤ dst.length →
      HashApie.oneshot (a.impl h ds) u m dst n = some (Spec.written ((shaSpec a m).take ds) dst n)) ∧
    (∀ c n, HashApie.oneshotC (a.impl h ds) u m c n = some (Spec.contained ((shaSpec a m).take ds) c n)) ∧
    (∀ n, HashApie.oneshotDynamic (a.impl h ds) u m n = some ⟨true, ((shaSpec a m).take ds).take n⟩) ∧
    (∀ k, k ≤ ds → HashApie.oneshotStatic (a.impl h ds) u m (List.replicate k 0) = some ⟨false, ((shaSpec a m).take ds).take k⟩) := by
  obtain ⟨L⟩ := shaLawful h a ds hds
  have e := shaDigestSize h a ds
  have hl := L.length m
  rw [e] at hl
  obtain ⟨i, eu, ru⟩ := L.update ((a.impl h ds).init (a.impl h ds).fresh) [] m (L.init _ L.fresh) hm
  have hu : HashApie.update (a.impl h ds) (HashApie.construct (a.impl h ds) u) m = some ⟨i, false⟩ := by
    simp [HashApie.update, HashApie.construct, HashApie.initialise, eu]
  have hh : HashApie.Holds L ⟨i, false⟩ m := .inl ⟨rfl, by simpa using ru⟩
  refine ⟨?_, ?_, ?_, ?_⟩
  · intro dst n hn
    obtain ⟨o', ed, -⟩ := HashApie.digest_holds L ⟨i, false⟩ m hh dst n (by rw [e]; exact hn)
    simp [HashApie.oneshot, hu, ed]
  · intro c n
    obtain ⟨o', ed, -⟩ := HashApie.digestC_holds L ⟨i, false⟩ m hh c n
    simp [HashApie.oneshotC, hu, ed]
  · intro n
    obtain ⟨o', ed, -⟩ := HashApie.digestC_holds L ⟨i, false⟩ m hh ⟨true, []⟩ n
    simp [HashApie.oneshotDynamic, HashApie.digestDynamic, hu, ed, Spec.contained]
  · intro k hk
    obtain ⟨o', ed, -⟩ := HashApie.digestC_holds L ⟨i, false⟩ m hh ⟨false, List.replicate k 0⟩ k
    simp only [HashApie.oneshotStatic, HashApie.digestStatic, hu, ed, Spec.contained, Spec.written, Option.bind_eq_bind, Option.bind_some,
      Option.pure_def, List.length_replicate, Nat.min_self, List.drop_replicate, hl, Bool.false_eq_true, if_false]
    rw [show k - min k ds = 0 by omega]; simp

/-! ## C19 -/

/-- C19: no sequence of calls in any order (also updating or finalizing an already finalized object) has undefined behaviour, i.e. touches
memory outside the object's buffer, the input or the digest buffer, provided the digest buffers have room for what is asked for. Inputs may have
any length. -/
theorem C19_hash_memory_safe (h : Host) (a : ShaAlg) (ds : Nat) (hds : ds ≤ a.size) (cs : List Hash.Call) (hc : ∀ c ∈ cs, c.Ok ds) :
    (Hash.run (a.impl h ds) cs).isSome := by
  obtain ⟨L⟩ := shaLawful h a ds hds
  obtain ⟨o, outs, e, -⟩ := Hash.run_wf L cs (by rw [shaDigestSize]; exact hc)
  rw [e]; rfl

theorem C19_apie_memory_safe (h : Host) (a : ShaAlg) (ds : Nat) (hds : ds ≤ a.size) (u : Bool) (cs : List HashApie.Call)
    (hc : ∀ c ∈ cs, c.Ok ds) : (HashApie.run (a.impl h ds) u cs).isSome := by
  obtain ⟨L⟩ := shaLawful h a ds hds
  obtain ⟨o, outs, e, -⟩ := HashApie.run_wf L u cs (by rw [shaDigestSize]; exact hc)
  rw [e]; rfl

/-- C19: fewer bytes than one block are held back, whatever was called before. -/
theorem C19_sha1_held_back (h : Host) (ds : Nat) (hds : ds ≤ 20) (cs : List Hash.Call) (hc : ∀ c ∈ cs, c.Ok ds) :
    ∃ (o : Sha1.Obj) (outs : List Hash.Out), Hash.run (Sha1.impl h (Sha1.blocksSw h) ds) cs = some (o, outs) ∧ o.bufferSize < 64 := by
  obtain ⟨o, outs, e, w⟩ := Hash.run_wf (Sha1.lawful h (Sha1.blocksSw_ok h) ds hds) cs hc
  exact ⟨o, outs, e, w.size⟩

theorem C19_sha256_held_back (h : Host) (bits ds : Nat) (hb : bits = 224 ∨ bits = 256) (hds : ds ≤ 32) (cs : List Hash.Call)
    (hc : ∀ c ∈ cs, c.Ok ds) :
    ∃ (o : Sha256.Obj) (outs : List Hash.Out), Hash.run (Sha256.impl h (Sha256.blocksSw h) bits ds) cs = some (o, outs) ∧ o.bufferSize < 64 := by
  obtain ⟨o, outs, e, w⟩ := Hash.run_wf (Sha256.lawful h (Sha256.blocksSw_ok h) bits ds hb hds) cs hc
  exact ⟨o, outs, e, w.size⟩

theorem C19_sha512_held_back (h : Host) (bits ds : Nat) (hb : bits = 224 ∨ bits = 256 ∨ bits = 384 ∨ bits = 512) (hds : ds ≤ 64)
    (cs : List Hash.Call) (hc : ∀ c ∈ cs, c.Ok ds) :
    ∃ (o : Sha512.Obj) (outs : List Hash.Out), Hash.run (Sha512.impl h (Sha512.blocksSw h) bits ds) cs = some (o, outs) ∧ o.bufferSize < 128 := by
  obtain ⟨o, outs, e, w⟩ := Hash.run_wf (Sha512.lawful h (Sha512.blocksSw_ok h) bits ds hb hds) cs hc
  exact ⟨o, outs, e, w.size⟩

example : (Hash.run (ShaAlg.impl ⟨.little, false, none⟩ 20 .sha_1_160)
    [.update (List.replicate 100 1), .finalize, .finalize, .update (List.replicate 63 2), .digest [1, 2] 2, .init]).isSome :=
  C19_hash_memory_safe _ _ 20 (by decide) _ (by simp [Hash.Call.Ok])

/-! ## C49, hash part -/

/-- C49 (hash): a resizable container ends with exactly the number of bytes returned, whatever it held before; a fixed one keeps its size, gets at
most its size, and keeps its content beyond the bytes written. -/
theorem C49_hash_containers (h : Host) (a : ShaAlg) (ds : Nat) (hds : ds ≤ a.size) (u : Bool) (m : List Byte) (hm : m.length < 2 ^ 64)
    (c : Container) (n : Nat) :
    ∃ c' k, HashApie.oneshotC (a.impl h ds) u m c n = some (c', k) ∧ c'.dynamic = c.dynamic ∧ c'.data.take k = ((shaSpec a m).take ds).take k ∧
      (c.dynamic = true → k = min n ds ∧ c'.data.length = k) ∧
      (c.dynamic = false → k = min (min n c.data.length) ds ∧ c'.data.length = c.data.length ∧ c'.data.drop k = c.data.drop k) := by
  obtain ⟨L⟩ := shaLawful h a ds hds
  have hl := L.length m
  rw [shaDigestSize] at hl
  refine ⟨(Spec.contained ((shaSpec a m).take ds) c n).1, (Spec.contained ((shaSpec a m).take ds) c n).2,
    (C18_oneshot h a ds hds u m hm).2.1 c n, ?_⟩
  generalize (shaSpec a m).take ds = full at hl ⊢
  exact contained_facts full ds hl c n

end Milo.Props
