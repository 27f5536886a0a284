import Verif.Proof.Hkdf
import Verif.Proof.Pbkdf2
import Verif.Proof.MacAlg
/-
Property theorems C25-C28, C50 (key derivation), and the kdf part of C49.

`Kdf.run K m calls` is a default-constructed object of class `K` (or the `apie` wrapper, which only forwards), the caller's buffers `m`, and a sequence
of calls: `initialize` with ranges of those buffers, the caller overwriting one of its buffers (`poke`), `derive` into a buffer or a container. It yields
everything the derive calls output; `none` would be undefined behaviour.
-/
namespace Milo.Props
open Milo

/-- RFC 2104 over FIPS 180-4. -/
def hmacSpec (a : ShaAlg) : List Byte → List Byte → List Byte := Spec.hmac (shaBlock a) (shaSpec a)

/-- The bytes of a range of the caller's memory. -/
def bytesOf (m : Mem) (s : Span) : List Byte := (m s.buf).take s.size

/-- `hkdf<hmac<H>>`, with `digest_size<ds>` given to the hmac. -/
def hkdfClass (h : Host) (a : ShaAlg) (ds : Nat) : KdfImpl := Hkdf.impl h (MacAlg.impl h ds (.hmac a a.size))
/-- `pbkdf_2<hmac<H>>`, with `digest_size<ds>` given to the hmac. -/
def pbkdf2Class (h : Host) (junk : Nat → Byte) (a : ShaAlg) (ds : Nat) : KdfImpl := Pbkdf2.impl h (MacAlg.impl h ds (.hmac a a.size)) junk

theorem hmacSpec_length (a : ShaAlg) (k m : List Byte) : (hmacSpec a k m).length = a.size := shaSpec_length a _

theorem hmacOption (h : Host) (a : ShaAlg) (ds : Nat) (hds : ds ≤ a.size) :
    Nonempty (LawfulMac (MacAlg.impl h ds (.hmac a a.size)) fun k m => (hmacSpec a k m).take ds) := by
  have := macLawful h (.hmac a a.size) (Nat.le_refl _) ds hds
  have e : (fun m => (shaSpec a m).take a.size) = shaSpec a := funext (shaSpec_take a)
  simp only [Spec.macOn, Spec.macSpec, e] at this
  exact this

theorem hmacDefault (h : Host) (a : ShaAlg) : Nonempty (LawfulMac (MacAlg.impl h a.size (.hmac a a.size)) (hmacSpec a)) := by
  have := hmacOption h a a.size (Nat.le_refl _)
  have e : (fun k m => (hmacSpec a k m).take a.size) = hmacSpec a := by
    funext k m; exact List.take_of_length_le (Nat.le_of_eq (hmacSpec_length a k m))
  rwa [e] at this

theorem size_bounds (a : ShaAlg) : 0 < a.size ∧ a.size ≤ 64 := by cases a <;> decide

theorem hkdf_length (F : List Byte → List Byte → List Byte) (n : Nat) (hF : ∀ k m, (F k m).length = n) (ikm salt info : List Byte) :
    (Spec.hkdf F ikm salt info).length = 255 * n := by
  unfold Spec.hkdf
  generalize 255 = N
  rw [List.length_flatten, List.map_map]
  have : (List.length ∘ fun i => Spec.hkdfT F (F salt ikm) info (i + 1)) = fun _ => n := funext fun i => hF _ _
  rw [this]
  simp [List.map_const']

theorem pbkdf2T_length (F : List Byte → List Byte → List Byte) (n : Nat) (hF : ∀ k m, (F k m).length = n) (p s : List Byte) (i c : Nat) :
    (Spec.pbkdf2T F p s i (c + 1)).length = n := by
  have hU : ∀ j, (Spec.pbkdf2U F p s i j).length = n := fun j => by cases j <;> exact hF _ _
  induction c with
  | zero => exact hU 0
  | succ c ih => simp [Spec.pbkdf2T, ih, hU]

theorem pbkdf2_length (F : List Byte → List Byte → List Byte) (n : Nat) (hF : ∀ k m, (F k m).length = n) (p s : List Byte) (c : Nat) (hc : 0 < c) :
    (Spec.pbkdf2 F p s c).length = (2 ^ 32 - 1) * n := by
  obtain ⟨c, rfl⟩ : ∃ d, c = d + 1 := ⟨c - 1, by omega⟩
  unfold Spec.pbkdf2
  generalize 2 ^ 32 - 1 = N
  rw [List.length_flatten, List.map_map]
  have : (List.length ∘ fun i => Spec.pbkdf2T F p s (i + 1) (c + 1)) = fun _ => n := funext fun i => pbkdf2T_length F n hF _ _ _ _
  rw [this]
  simp [List.map_const']

/-! ## C25 -/

/-- C25: HKDF is RFC 5869. After any use `pre` of the object, `initialize` and any requests of at most 255 hash lengths in total, the requests
receive consecutive bytes of `T(1) | T(2) | …`; the inputs are those in the caller's memory at `initialize`. (`outs`: what `pre` output, whatever
follows.) -/
theorem C25_hkdf (h : Host) (a : ShaAlg) (sizes : Nat → Nat) (m : Mem) (hm : Kdf.MemOk sizes m)
    (pre : List (Kdf.Call Hkdf.Args)) (hpre : ∀ c ∈ pre, Kdf.Call.Ok (hkdfClass h a a.size) sizes c) :
    ∃ outs, ∀ (ikm salt info : Span), (∀ s ∈ [ikm, salt, info], s.size ≤ sizes s.buf ∧ s.size < 2 ^ 64) →
      ∀ (rs : List DigestReq), (∀ r ∈ rs, Kdf.Call.Ok (hkdfClass h a a.size) sizes (.derive r)) → Spec.totalAsked rs ≤ 255 * a.size →
      ∃ st, Kdf.run (hkdfClass h a a.size) m (pre ++ [.init ⟨ikm, salt, info⟩] ++ rs.map .derive)
        = some (st, outs ++ Spec.streamed (Spec.hkdf (hmacSpec a) (bytesOf (Kdf.memAfter m pre) ikm) (bytesOf (Kdf.memAfter m pre) salt)
            (bytesOf (Kdf.memAfter m pre) info)) rs) := by
  obtain ⟨M⟩ := hmacDefault h a
  have hb := size_bounds a
  have hd := macDigestSize h (.hmac a a.size) a.size
  obtain ⟨outs, hr⟩ := Kdf.run_derives (Hkdf.lawful h M (by rw [hd]; omega) (by rw [hd]; omega)) sizes m hm pre hpre
  refine ⟨outs, fun ikm salt info ha rs hrs ht => ?_⟩
  exact hr ⟨ikm, salt, info⟩ ha rs hrs (Nat.le_trans ht (Nat.le_of_eq
    (hkdf_length (hmacSpec a) a.size (hmacSpec_length a) _ _ _).symm))

/-- C25, hmac used with a `digest_size` option: `HashLen` is then that size. -/
theorem C25_hkdf_truncated_hmac (h : Host) (a : ShaAlg) (ds : Nat) (h0 : 0 < ds) (hds : ds ≤ a.size) (sizes : Nat → Nat) (m : Mem) (hm : Kdf.MemOk sizes m)
    (ikm salt info : Span) (hs : ∀ s ∈ [ikm, salt, info], s.size ≤ sizes s.buf ∧ s.size < 2 ^ 64) (dst : List Byte) (n : Nat) (hn : n ≤ dst.length)
    (hl : n ≤ 255 * ds) :
    Kdf.oneshot (hkdfClass h a ds) m ⟨ikm, salt, info⟩ dst n
      = some ((Spec.hkdf (fun k m => (hmacSpec a k m).take ds) (bytesOf m ikm) (bytesOf m salt) (bytesOf m info)).take n ++ dst.drop n, n) := by
  obtain ⟨M⟩ := hmacOption h a ds hds
  have hb := size_bounds a
  have hd := macDigestSize h (.hmac a a.size) ds
  have hlen := hkdf_length (fun k m => (hmacSpec a k m).take ds) ds (fun k m => by simp [hmacSpec_length]; omega)
  have := (Kdf.oneshots (Hkdf.lawful h M (by rw [hd]; omega) (by rw [hd]; omega)) sizes m hm ⟨ikm, salt, info⟩ hs).1 dst n hn
    (by rw [show (Hkdf.stream _ m ⟨ikm, salt, info⟩).length = _ from hlen _ _ _]; exact hl)
  refine Eq.trans this ?_
  have hlen' := hlen (bytesOf m ikm) (bytesOf m salt) (bytesOf m info)
  show some (Spec.received ((Spec.hkdf (fun k m => (hmacSpec a k m).take ds) (bytesOf m ikm) (bytesOf m salt) (bytesOf m info)).take n) (.ptr dst n)) = _
  simp only [Spec.received, List.length_take, hlen', Nat.min_eq_left hl]

/-- C25: no salt (an empty one) counts as `HashLen` zero bytes. -/
theorem C25_empty_salt (a : ShaAlg) (ikm info : List Byte) :
    Spec.hkdf (hmacSpec a) ikm [] info = Spec.hkdf (hmacSpec a) ikm (List.replicate a.size 0) info := by
  have hb := shaBlock_le a
  have e : Spec.hmacKey (shaBlock a) (shaSpec a) [] = Spec.hmacKey (shaBlock a) (shaSpec a) (List.replicate a.size 0) := by
    unfold Spec.hmacKey
    rw [if_neg (by simp), if_neg (by simp; omega)]
    simp only [List.nil_append, List.length_nil, Nat.sub_zero, List.length_replicate, List.replicate_append_replicate]
    congr 1; omega
  unfold Spec.hkdf hmacSpec Spec.hmac
  rw [e]

/-- The caller's memory in the examples: the first 48 bytes of three buffers of 64 bytes. -/
def exMem : Mem := fun b => List.replicate 64 (BitVec.ofNat 8 (b + 1))

/-- Hypotheses of C25 met: a used object whose old buffers were overwritten, three requests crossing block boundaries. -/
example : ∃ outs st, Kdf.run (hkdfClass ⟨.big, false, none⟩ .sha_2_256 32) exMem
    ([.init ⟨⟨0, 22⟩, ⟨1, 0⟩, ⟨2, 10⟩⟩, .derive (.ptr (List.replicate 5 0) 5), .poke 0 (List.replicate 64 7)] ++ [.init ⟨⟨0, 22⟩, ⟨1, 13⟩, ⟨2, 10⟩⟩] ++
      [DigestReq.ptr (List.replicate 50 0) 42, .cont ⟨true, [1]⟩ 100, .cont ⟨false, [1, 2, 3]⟩ 8].map .derive)
    = some (st, outs ++ Spec.streamed (Spec.hkdf (Spec.hmac 64 Spec.Sha.sha256) (List.replicate 22 7) (List.replicate 13 2) (List.replicate 10 3))
        [DigestReq.ptr (List.replicate 50 0) 42, .cont ⟨true, [1]⟩ 100, .cont ⟨false, [1, 2, 3]⟩ 8]) := by
  obtain ⟨outs, hr⟩ := C25_hkdf ⟨.big, false, none⟩ .sha_2_256 (fun _ => 64) exMem (fun b => by simp [exMem])
    [.init ⟨⟨0, 22⟩, ⟨1, 0⟩, ⟨2, 10⟩⟩, .derive (.ptr (List.replicate 5 0) 5), .poke 0 (List.replicate 64 7)]
    (by simp [Kdf.Call.Ok, hkdfClass, Hkdf.impl])
  obtain ⟨st, e⟩ := hr ⟨0, 22⟩ ⟨1, 13⟩ ⟨2, 10⟩ (by simp) [DigestReq.ptr (List.replicate 50 0) 42, .cont ⟨true, [1]⟩ 100, .cont ⟨false, [1, 2, 3]⟩ 8]
    (by simp [Kdf.Call.Ok]) (by simp [Spec.totalAsked, Spec.asked]; decide)
  exact ⟨outs, st, e⟩

/-! Known-answer test (not a proof): RFC 5869 test case 3 (SHA-256, empty salt and info), first 8 bytes. -/
set_option maxRecDepth 100000 in
example : Kdf.oneshot (hkdfClass ⟨.little, false, none⟩ .sha_2_256 32) (fun _ => List.replicate 22 0x0b) ⟨⟨0, 22⟩, ⟨1, 0⟩, ⟨2, 0⟩⟩ (List.replicate 8 0) 8
    = some ([0x8d, 0xa4, 0xe7, 0x75, 0xa5, 0x63, 0xc1, 0x8f], 8) := by decide +kernel

/-! ## C28 -/

/-- C28: PBKDF2 is RFC 8018 with an iteration count of at least one, for requests of at most `2^32 - 1` blocks in total. The content `junk` of
uninitialised locals does not matter. -/
theorem C28_pbkdf2 (h : Host) (junk : Nat → Byte) (a : ShaAlg) (sizes : Nat → Nat) (m : Mem) (hm : Kdf.MemOk sizes m)
    (pre : List (Kdf.Call Pbkdf2.Args)) (hpre : ∀ c ∈ pre, Kdf.Call.Ok (pbkdf2Class h junk a a.size) sizes c) :
    ∃ outs, ∀ (ikm salt : Span) (iterations : W32), (∀ s ∈ [ikm, salt], s.size ≤ sizes s.buf ∧ s.size < 2 ^ 64) →
      ∀ (rs : List DigestReq), (∀ r ∈ rs, Kdf.Call.Ok (pbkdf2Class h junk a a.size) sizes (.derive r)) → Spec.totalAsked rs ≤ (2 ^ 32 - 1) * a.size →
      ∃ st, Kdf.run (pbkdf2Class h junk a a.size) m (pre ++ [.init ⟨ikm, salt, iterations⟩] ++ rs.map .derive)
        = some (st, outs ++ Spec.streamed (Spec.pbkdf2 (hmacSpec a) (bytesOf (Kdf.memAfter m pre) ikm) (bytesOf (Kdf.memAfter m pre) salt)
            (max iterations.toNat 1)) rs) := by
  obtain ⟨M⟩ := hmacDefault h a
  have hb := size_bounds a
  have hd := macDigestSize h (.hmac a a.size) a.size
  obtain ⟨outs, hr⟩ := Kdf.run_derives (Pbkdf2.lawful h junk M (by rw [hd]; omega) (by rw [hd]; omega)) sizes m hm pre hpre
  refine ⟨outs, fun ikm salt it ha rs hrs ht => ?_⟩
  exact hr ⟨ikm, salt, it⟩ ha rs hrs (Nat.le_trans ht (Nat.le_of_eq
    (pbkdf2_length (hmacSpec a) a.size (hmacSpec_length a) _ _ _ (by simp only; omega)).symm))

/-- C28, hmac used with a `digest_size` option. -/
theorem C28_pbkdf2_truncated_hmac (h : Host) (junk : Nat → Byte) (a : ShaAlg) (ds : Nat) (h0 : 0 < ds) (hds : ds ≤ a.size) (sizes : Nat → Nat) (m : Mem)
    (hm : Kdf.MemOk sizes m) (ikm salt : Span) (it : W32) (hs : ∀ s ∈ [ikm, salt], s.size ≤ sizes s.buf ∧ s.size < 2 ^ 64) (dst : List Byte) (n : Nat)
    (hn : n ≤ dst.length) (hl : n ≤ (2 ^ 32 - 1) * ds) :
    Kdf.oneshot (pbkdf2Class h junk a ds) m ⟨ikm, salt, it⟩ dst n
      = some ((Spec.pbkdf2 (fun k m => (hmacSpec a k m).take ds) (bytesOf m ikm) (bytesOf m salt) (max it.toNat 1)).take n ++ dst.drop n, n) := by
  obtain ⟨M⟩ := hmacOption h a ds hds
  have hb := size_bounds a
  have hd := macDigestSize h (.hmac a a.size) ds
  have hlen := pbkdf2_length (fun k m => (hmacSpec a k m).take ds) ds (fun k m => by simp [hmacSpec_length]; omega) (bytesOf m ikm) (bytesOf m salt)
    (max it.toNat 1) (by omega)
  have := (Kdf.oneshots (Pbkdf2.lawful h junk M (by rw [hd]; omega) (by rw [hd]; omega)) sizes m hm ⟨ikm, salt, it⟩ hs).1 dst n hn
    (by rw [show (Pbkdf2.stream _ m ⟨ikm, salt, it⟩).length = _ from hlen]; exact hl)
  refine Eq.trans this ?_
  show some (Spec.received ((Spec.pbkdf2 (fun k m => (hmacSpec a k m).take ds) (bytesOf m ikm) (bytesOf m salt) (max it.toNat 1)).take n) (.ptr dst n)) = _
  simp only [Spec.received, List.length_take, hlen, Nat.min_eq_left hl]

/-- Hypotheses of C28 met: iteration count zero, requests crossing blocks. -/
example : ∃ outs st, Kdf.run (pbkdf2Class ⟨.little, false, none⟩ (fun i => BitVec.ofNat 8 (i * 17 + 3)) .sha_1_160 20) exMem
    ([.init ⟨⟨0, 1⟩, ⟨1, 2⟩, 5⟩, .derive (.ptr (List.replicate 5 0) 5)] ++ [.init ⟨⟨0, 64⟩, ⟨1, 4⟩, 0⟩] ++
      [DigestReq.ptr (List.replicate 25 0) 25, .cont ⟨true, [1]⟩ 100].map .derive)
    = some (st, outs ++ Spec.streamed (Spec.pbkdf2 (Spec.hmac 64 Spec.Sha.sha1) (List.replicate 64 1) (List.replicate 4 2) 1)
        [DigestReq.ptr (List.replicate 25 0) 25, .cont ⟨true, [1]⟩ 100]) := by
  obtain ⟨outs, hr⟩ := C28_pbkdf2 ⟨.little, false, none⟩ (fun i => BitVec.ofNat 8 (i * 17 + 3)) .sha_1_160 (fun _ => 64) exMem (fun b => by simp [exMem])
    [.init ⟨⟨0, 1⟩, ⟨1, 2⟩, 5⟩, .derive (.ptr (List.replicate 5 0) 5)] (by simp [Kdf.Call.Ok, pbkdf2Class, Pbkdf2.impl])
  obtain ⟨st, e⟩ := hr ⟨0, 64⟩ ⟨1, 4⟩ 0 (by simp) [DigestReq.ptr (List.replicate 25 0) 25, .cont ⟨true, [1]⟩ 100]
    (by simp [Kdf.Call.Ok]) (by simp [Spec.totalAsked, Spec.asked]; decide)
  exact ⟨outs, st, e⟩

/-! Known-answer test (not a proof): RFC 6070 test case 2 (SHA-1, two iterations). -/
set_option maxRecDepth 100000 in
example : Kdf.oneshot (pbkdf2Class ⟨.little, false, none⟩ (fun _ => 0x55) .sha_1_160 20)
    (fun b => (if b = 0 then "password" else "salt").toList.map fun c => BitVec.ofNat 8 c.toNat) ⟨⟨0, 8⟩, ⟨1, 4⟩, 2⟩ (List.replicate 20 0) 20
    = some (Spec.beBytes 20 0xea6c014dc72d6f8ccd1ed92ace1d41f0d8de8957, 20) := by decide +kernel

/-! ## C26 -/

/-- The key bytes of a sequence of outputs: of each, as many as the size returned. -/
def delivered (outs : List (List Byte × Nat)) : List Byte := (outs.map fun o => o.1.take o.2).flatten

/-- What requests receive from a stream, put together, is the beginning of the stream. -/
theorem delivered_streamed (s : List Byte) (rs : List DigestReq) (h : Spec.totalAsked rs ≤ s.length) :
    delivered (Spec.streamed s rs) = s.take (Spec.totalAsked rs) := by
  induction rs generalizing s with
  | nil => simp [delivered, Spec.streamed, Spec.totalAsked]
  | cons r rs ih =>
    simp only [Spec.totalAsked, List.map_cons, List.sum_cons] at h
    have hr : ∀ key r, ((Spec.received key r).1.take (Spec.received key r).2) = key := by
      intro key r
      cases r <;> simp only [Spec.received] <;> exact List.take_left' rfl
    have := ih (s.drop (Spec.asked r)) (by simp [Spec.totalAsked]; omega)
    simp only [delivered, Spec.streamed, List.map_cons, List.flatten_cons, hr] at this ⊢
    rw [this]
    simp only [Spec.totalAsked, List.map_cons, List.sum_cons]
    rw [List.take_add]

/-- C26 (HKDF): the bytes delivered depend only on how many are asked for in total, not on how the requests are cut: they are those of a single
request for all of them. -/
theorem C26_hkdf (h : Host) (a : ShaAlg) (sizes : Nat → Nat) (m : Mem) (hm : Kdf.MemOk sizes m) (ikm salt info : Span)
    (hs : ∀ s ∈ [ikm, salt, info], s.size ≤ sizes s.buf ∧ s.size < 2 ^ 64) (rs : List DigestReq)
    (hrs : ∀ r ∈ rs, Kdf.Call.Ok (hkdfClass h a a.size) sizes (.derive r)) (ht : Spec.totalAsked rs ≤ 255 * a.size)
    (dst : List Byte) (hdst : Spec.totalAsked rs ≤ dst.length) :
    ∃ st outs key, Kdf.run (hkdfClass h a a.size) m (.init ⟨ikm, salt, info⟩ :: rs.map .derive) = some (st, outs) ∧
      Kdf.oneshot (hkdfClass h a a.size) m ⟨ikm, salt, info⟩ dst (Spec.totalAsked rs) = some (key ++ dst.drop (Spec.totalAsked rs), Spec.totalAsked rs) ∧
      key.length = Spec.totalAsked rs ∧ delivered outs = key := by
  obtain ⟨M⟩ := hmacDefault h a
  have hb := size_bounds a
  have hd := macDigestSize h (.hmac a a.size) a.size
  have hlen : (Spec.hkdf (hmacSpec a) (bytesOf m ikm) (bytesOf m salt) (bytesOf m info)).length = _ :=
    hkdf_length (hmacSpec a) a.size (hmacSpec_length a) _ _ _
  obtain ⟨st, e⟩ := Kdf.run_fresh_derives (Hkdf.lawful h M (by rw [hd]; omega) (by rw [hd]; omega)) sizes m hm ⟨ikm, salt, info⟩ hs rs hrs
    (Nat.le_trans ht (Nat.le_of_eq hlen.symm))
  have e2 := (Kdf.oneshots (Hkdf.lawful h M (by rw [hd]; omega) (by rw [hd]; omega)) sizes m hm ⟨ikm, salt, info⟩ hs).1 dst (Spec.totalAsked rs) hdst
    (Nat.le_trans ht (Nat.le_of_eq hlen.symm))
  have hl2 : ((Spec.hkdf (hmacSpec a) (bytesOf m ikm) (bytesOf m salt) (bytesOf m info)).take (Spec.totalAsked rs)).length = Spec.totalAsked rs := by
    rw [List.length_take, hlen]; omega
  refine ⟨st, _, _, e, Eq.trans e2 ?_, hl2, delivered_streamed _ rs (Nat.le_trans ht (Nat.le_of_eq hlen.symm))⟩
  show some (Spec.received ((Spec.hkdf (hmacSpec a) (bytesOf m ikm) (bytesOf m salt) (bytesOf m info)).take (Spec.totalAsked rs))
    (.ptr dst (Spec.totalAsked rs))) = _
  simp only [Spec.received, hl2]

/-- C26 (PBKDF2). -/
theorem C26_pbkdf2 (h : Host) (junk : Nat → Byte) (a : ShaAlg) (sizes : Nat → Nat) (m : Mem) (hm : Kdf.MemOk sizes m) (ikm salt : Span) (it : W32)
    (hs : ∀ s ∈ [ikm, salt], s.size ≤ sizes s.buf ∧ s.size < 2 ^ 64) (rs : List DigestReq)
    (hrs : ∀ r ∈ rs, Kdf.Call.Ok (pbkdf2Class h junk a a.size) sizes (.derive r)) (ht : Spec.totalAsked rs ≤ (2 ^ 32 - 1) * a.size)
    (dst : List Byte) (hdst : Spec.totalAsked rs ≤ dst.length) :
    ∃ st outs key, Kdf.run (pbkdf2Class h junk a a.size) m (.init ⟨ikm, salt, it⟩ :: rs.map .derive) = some (st, outs) ∧
      Kdf.oneshot (pbkdf2Class h junk a a.size) m ⟨ikm, salt, it⟩ dst (Spec.totalAsked rs)
        = some (key ++ dst.drop (Spec.totalAsked rs), Spec.totalAsked rs) ∧
      key.length = Spec.totalAsked rs ∧ delivered outs = key := by
  obtain ⟨M⟩ := hmacDefault h a
  have hb := size_bounds a
  have hd := macDigestSize h (.hmac a a.size) a.size
  have hlen : (Spec.pbkdf2 (hmacSpec a) (bytesOf m ikm) (bytesOf m salt) (max it.toNat 1)).length = _ :=
    pbkdf2_length (hmacSpec a) a.size (hmacSpec_length a) _ _ _ (by omega)
  obtain ⟨st, e⟩ := Kdf.run_fresh_derives (Pbkdf2.lawful h junk M (by rw [hd]; omega) (by rw [hd]; omega)) sizes m hm ⟨ikm, salt, it⟩ hs rs hrs
    (Nat.le_trans ht (Nat.le_of_eq hlen.symm))
  have e2 := (Kdf.oneshots (Pbkdf2.lawful h junk M (by rw [hd]; omega) (by rw [hd]; omega)) sizes m hm ⟨ikm, salt, it⟩ hs).1 dst (Spec.totalAsked rs) hdst
    (Nat.le_trans ht (Nat.le_of_eq hlen.symm))
  have hl2 : ((Spec.pbkdf2 (hmacSpec a) (bytesOf m ikm) (bytesOf m salt) (max it.toNat 1)).take (Spec.totalAsked rs)).length = Spec.totalAsked rs := by
    rw [List.length_take, hlen]; omega
  refine ⟨st, _, _, e, Eq.trans e2 ?_, hl2, delivered_streamed _ rs (Nat.le_trans ht (Nat.le_of_eq hlen.symm))⟩
  show some (Spec.received ((Spec.pbkdf2 (hmacSpec a) (bytesOf m ikm) (bytesOf m salt) (max it.toNat 1)).take (Spec.totalAsked rs))
    (.ptr dst (Spec.totalAsked rs))) = _
  simp only [Spec.received, hl2]

/-- Hypotheses of C26 met: four requests of 42, 0, 100 and 3 bytes. -/
example : ∃ st outs key, Kdf.run (hkdfClass ⟨.little, false, none⟩ .sha_2_512 64) exMem (.init ⟨⟨0, 22⟩, ⟨1, 13⟩, ⟨2, 10⟩⟩ ::
      [DigestReq.ptr (List.replicate 50 0) 42, .ptr [] 0, .cont ⟨true, [1]⟩ 100, .cont ⟨false, [1, 2, 3]⟩ 8].map .derive) = some (st, outs) ∧
      Kdf.oneshot (hkdfClass ⟨.little, false, none⟩ .sha_2_512 64) exMem ⟨⟨0, 22⟩, ⟨1, 13⟩, ⟨2, 10⟩⟩ (List.replicate 145 0) 145 = some (key ++ [], 145) ∧
      key.length = 145 ∧ delivered outs = key :=
  C26_hkdf ⟨.little, false, none⟩ .sha_2_512 (fun _ => 64) exMem (fun b => by simp [exMem]) _ _ _ (by simp)
    [DigestReq.ptr (List.replicate 50 0) 42, .ptr [] 0, .cont ⟨true, [1]⟩ 100, .cont ⟨false, [1, 2, 3]⟩ 8] (by simp [Kdf.Call.Ok]) (by decide)
    (List.replicate 145 0) (by rw [List.length_replicate]; decide)

/-! ## C27 -/

/-- C27 as far as it holds: within 255 hash lengths in total, the requests receive `T(1) | T(2) | …`, each block made with its own counter value.
What is missing: requests beyond the limit are not refused, see `C27_hkdf_repeats`. -/
theorem C27_hkdf_partial (h : Host) (a : ShaAlg) (sizes : Nat → Nat) (m : Mem) (hm : Kdf.MemOk sizes m) (ikm salt info : Span)
    (hs : ∀ s ∈ [ikm, salt, info], s.size ≤ sizes s.buf ∧ s.size < 2 ^ 64) (rs : List DigestReq)
    (hrs : ∀ r ∈ rs, Kdf.Call.Ok (hkdfClass h a a.size) sizes (.derive r)) (ht : Spec.totalAsked rs ≤ 255 * a.size) :
    ∃ st, Kdf.run (hkdfClass h a a.size) m (.init ⟨ikm, salt, info⟩ :: rs.map .derive)
      = some (st, Spec.streamed (Spec.hkdf (hmacSpec a) (bytesOf m ikm) (bytesOf m salt) (bytesOf m info)) rs) := by
  obtain ⟨M⟩ := hmacDefault h a
  have hb := size_bounds a
  have hd := macDigestSize h (.hmac a a.size) a.size
  have hlen : (Spec.hkdf (hmacSpec a) (bytesOf m ikm) (bytesOf m salt) (bytesOf m info)).length = _ :=
    hkdf_length (hmacSpec a) a.size (hmacSpec_length a) _ _ _
  exact Kdf.run_fresh_derives (Hkdf.lawful h M (by rw [hd]; omega) (by rw [hd]; omega)) sizes m hm ⟨ikm, salt, info⟩ hs rs hrs
    (Nat.le_trans ht (Nat.le_of_eq hlen.symm))

/-- C27 fails of the code: for every hash and all inputs, deriving the permitted 255 blocks and then two more succeeds, and the last block delivered is
the first one delivered (the counter byte wraps). -/
theorem C27_hkdf_repeats (h : Host) (a : ShaAlg) (sizes : Nat → Nat) (m : Mem) (hm : Kdf.MemOk sizes m) (ikm salt info : Span)
    (hs : ∀ s ∈ [ikm, salt, info], s.size ≤ sizes s.buf ∧ s.size < 2 ^ 64) (dst1 dst2 : List Byte)
    (h1 : 255 * a.size ≤ dst1.length) (h2 : 2 * a.size ≤ dst2.length) :
    ∃ st out1 out2, Kdf.run (hkdfClass h a a.size) m [.init ⟨ikm, salt, info⟩, .derive (.ptr dst1 (255 * a.size)), .derive (.ptr dst2 (2 * a.size))]
        = some (st, [(out1, 255 * a.size), (out2, 2 * a.size)]) ∧
      (out2.drop a.size).take a.size = out1.take a.size := by
  obtain ⟨M⟩ := hmacDefault h a
  have hb := size_bounds a
  have hd : (MacAlg.impl h a.size (.hmac a a.size)).digestSize = a.size := macDigestSize h (.hmac a a.size) a.size
  have := Hkdf.repeats h M (by rw [hd]; omega) (by rw [hd]; omega) sizes m hm ⟨ikm, salt, info⟩ hs dst1 dst2 (by rw [hd]; exact h1) (by rw [hd]; exact h2)
  rw [hd] at this
  exact this

/-! ## C50 -/

/-- C50 (HKDF): after `initialize`, overwriting any of the caller's buffers but the one holding `info` changes no derived byte. -/
theorem C50_hkdf (h : Host) (a : ShaAlg) (sizes : Nat → Nat) (m : Mem) (hm : Kdf.MemOk sizes m) (ikm salt info : Span)
    (hs : ∀ s ∈ [ikm, salt, info], s.size ≤ sizes s.buf ∧ s.size < 2 ^ 64) (cs : List (Kdf.Call Hkdf.Args))
    (hc : ∀ c ∈ cs, Kdf.Call.Ok (hkdfClass h a a.size) sizes c)
    (hl : ∀ c ∈ cs, (∃ r, c = .derive r) ∨ ∃ b content, c = .poke b content ∧ (h.consteval = true ∨ b ≠ info.buf))
    (ht : Spec.totalAsked (Kdf.reqs cs) ≤ 255 * a.size) :
    ∃ st, Kdf.run (hkdfClass h a a.size) m (.init ⟨ikm, salt, info⟩ :: cs)
      = some (st, Spec.streamed (Spec.hkdf (hmacSpec a) (bytesOf m ikm) (bytesOf m salt) (bytesOf m info)) (Kdf.reqs cs)) := by
  obtain ⟨M⟩ := hmacDefault h a
  have hb := size_bounds a
  have hd := macDigestSize h (.hmac a a.size) a.size
  have hlen : (Spec.hkdf (hmacSpec a) (bytesOf m ikm) (bytesOf m salt) (bytesOf m info)).length = _ :=
    hkdf_length (hmacSpec a) a.size (hmacSpec_length a) _ _ _
  refine Kdf.run_fresh (Hkdf.lawful h M (by rw [hd]; omega) (by rw [hd]; omega)) sizes m hm ⟨ikm, salt, info⟩ hs cs hc (fun c hcc => ?_)
    (Nat.le_trans ht (Nat.le_of_eq hlen.symm))
  rcases hl c hcc with ⟨r, rfl⟩ | ⟨b, content, rfl, hx⟩
  · trivial
  · exact hx.imp_right fun hx hmem => hx (List.mem_singleton.mp hmem)

/-- C50 (PBKDF2): the buffers of the input key and of the salt are retained, no other. -/
theorem C50_pbkdf2 (h : Host) (junk : Nat → Byte) (a : ShaAlg) (sizes : Nat → Nat) (m : Mem) (hm : Kdf.MemOk sizes m) (ikm salt : Span) (it : W32)
    (hs : ∀ s ∈ [ikm, salt], s.size ≤ sizes s.buf ∧ s.size < 2 ^ 64) (cs : List (Kdf.Call Pbkdf2.Args))
    (hc : ∀ c ∈ cs, Kdf.Call.Ok (pbkdf2Class h junk a a.size) sizes c)
    (hl : ∀ c ∈ cs, (∃ r, c = .derive r) ∨ ∃ b content, c = .poke b content ∧ (h.consteval = true ∨ (b ≠ ikm.buf ∧ b ≠ salt.buf)))
    (ht : Spec.totalAsked (Kdf.reqs cs) ≤ (2 ^ 32 - 1) * a.size) :
    ∃ st, Kdf.run (pbkdf2Class h junk a a.size) m (.init ⟨ikm, salt, it⟩ :: cs)
      = some (st, Spec.streamed (Spec.pbkdf2 (hmacSpec a) (bytesOf m ikm) (bytesOf m salt) (max it.toNat 1)) (Kdf.reqs cs)) := by
  obtain ⟨M⟩ := hmacDefault h a
  have hb := size_bounds a
  have hd := macDigestSize h (.hmac a a.size) a.size
  have hlen : (Spec.pbkdf2 (hmacSpec a) (bytesOf m ikm) (bytesOf m salt) (max it.toNat 1)).length = _ :=
    pbkdf2_length (hmacSpec a) a.size (hmacSpec_length a) _ _ _ (by omega)
  refine Kdf.run_fresh (Pbkdf2.lawful h junk M (by rw [hd]; omega) (by rw [hd]; omega)) sizes m hm ⟨ikm, salt, it⟩ hs cs hc (fun c hcc => ?_)
    (Nat.le_trans ht (Nat.le_of_eq hlen.symm))
  rcases hl c hcc with ⟨r, rfl⟩ | ⟨b, content, rfl, hx⟩
  · trivial
  · refine hx.imp_right fun hx hmem => ?_
    rcases List.mem_cons.mp hmem with h1 | h1
    · exact hx.1 h1
    · exact hx.2 (List.mem_singleton.mp h1)

/-- Hypotheses of C50 met: input key and salt are overwritten right after `initialize`, and again between two requests. -/
example : ∃ st, Kdf.run (hkdfClass ⟨.little, false, none⟩ .sha_2_256 32) exMem (.init ⟨⟨0, 22⟩, ⟨1, 13⟩, ⟨2, 10⟩⟩ ::
      [.poke 0 (List.replicate 64 9), .derive (.cont ⟨true, []⟩ 40), .poke 1 (List.replicate 64 9), .derive (.ptr (List.replicate 50 0) 42)])
    = some (st, Spec.streamed (Spec.hkdf (Spec.hmac 64 Spec.Sha.sha256) (List.replicate 22 1) (List.replicate 13 2) (List.replicate 10 3))
        [.cont ⟨true, []⟩ 40, .ptr (List.replicate 50 0) 42]) :=
  C50_hkdf ⟨.little, false, none⟩ .sha_2_256 (fun _ => 64) exMem (fun b => by simp [exMem]) _ _ _ (by simp) _
    (List.forall_mem_cons.mpr ⟨List.length_replicate, List.forall_mem_cons.mpr ⟨trivial, List.forall_mem_cons.mpr ⟨List.length_replicate,
      List.forall_mem_cons.mpr ⟨show 42 ≤ (List.replicate 50 (0 : Byte)).length by simp, fun _ hx => absurd hx List.not_mem_nil⟩⟩⟩⟩)
    (List.forall_mem_cons.mpr ⟨.inr ⟨_, _, rfl, .inr (by decide)⟩, List.forall_mem_cons.mpr ⟨.inl ⟨_, rfl⟩, List.forall_mem_cons.mpr
      ⟨.inr ⟨_, _, rfl, .inr (by decide)⟩, List.forall_mem_cons.mpr ⟨.inl ⟨_, rfl⟩, fun _ hx => absurd hx List.not_mem_nil⟩⟩⟩⟩) (by decide)

/-! ## Memory safety, containers -/

/-- C25, C28: no sequence of well-formed calls (however many bytes are derived) has undefined behaviour. -/
theorem C25_hkdf_safe (h : Host) (a : ShaAlg) (sizes : Nat → Nat) (m : Mem) (hm : Kdf.MemOk sizes m) (cs : List (Kdf.Call Hkdf.Args))
    (hc : ∀ c ∈ cs, Kdf.Call.Ok (hkdfClass h a a.size) sizes c) : ∃ r, Kdf.run (hkdfClass h a a.size) m cs = some r := by
  obtain ⟨M⟩ := hmacDefault h a
  have hb := size_bounds a
  have hd := macDigestSize h (.hmac a a.size) a.size
  have L := Hkdf.lawful h M (by rw [hd]; omega) (by rw [hd]; omega)
  obtain ⟨s', outs, e, -⟩ := Kdf.runCalls_wf L sizes (_, m) cs ⟨L.fresh sizes, hm⟩ hc
  exact ⟨_, e⟩

theorem C28_pbkdf2_safe (h : Host) (junk : Nat → Byte) (a : ShaAlg) (sizes : Nat → Nat) (m : Mem) (hm : Kdf.MemOk sizes m)
    (cs : List (Kdf.Call Pbkdf2.Args)) (hc : ∀ c ∈ cs, Kdf.Call.Ok (pbkdf2Class h junk a a.size) sizes c) :
    ∃ r, Kdf.run (pbkdf2Class h junk a a.size) m cs = some r := by
  obtain ⟨M⟩ := hmacDefault h a
  have hb := size_bounds a
  have hd := macDigestSize h (.hmac a a.size) a.size
  have L := Pbkdf2.lawful h junk M (by rw [hd]; omega) (by rw [hd]; omega)
  obtain ⟨s', outs, e, -⟩ := Kdf.runCalls_wf L sizes (_, m) cs ⟨L.fresh sizes, hm⟩ hc
  exact ⟨_, e⟩

/-- C49 (HKDF): the overloads taking or returning a container. A container of fixed size receives at most its size and keeps the rest; a dynamic one is
exactly the key. -/
theorem C49_hkdf_containers (h : Host) (a : ShaAlg) (sizes : Nat → Nat) (m : Mem) (hm : Kdf.MemOk sizes m) (ikm salt info : Span)
    (hs : ∀ s ∈ [ikm, salt, info], s.size ≤ sizes s.buf ∧ s.size < 2 ^ 64) (okm : List Byte)
    (hokm : okm = Spec.hkdf (hmacSpec a) (bytesOf m ikm) (bytesOf m salt) (bytesOf m info)) :
    (∀ (old : List Byte) (n : Nat), n ≤ 255 * a.size →
      Kdf.oneshotC (hkdfClass h a a.size) m ⟨ikm, salt, info⟩ ⟨true, old⟩ n = some (okm.take n, n)) ∧
    (∀ (old : List Byte) (n : Nat), min n old.length ≤ 255 * a.size → Kdf.oneshotC (hkdfClass h a a.size) m ⟨ikm, salt, info⟩ ⟨false, old⟩ n
      = some (okm.take (min n old.length) ++ old.drop (min n old.length), min n old.length)) ∧
    (∀ n, n ≤ 255 * a.size → Kdf.oneshotDynamic (hkdfClass h a a.size) m ⟨ikm, salt, info⟩ n = some ⟨true, okm.take n⟩) ∧
    (∀ old : List Byte, old.length ≤ 255 * a.size →
      Kdf.oneshotStatic (hkdfClass h a a.size) m ⟨ikm, salt, info⟩ old = some ⟨false, okm.take old.length⟩) := by
  subst hokm
  obtain ⟨M⟩ := hmacDefault h a
  have hb := size_bounds a
  have hd := macDigestSize h (.hmac a a.size) a.size
  have hlen : (Spec.hkdf (hmacSpec a) (bytesOf m ikm) (bytesOf m salt) (bytesOf m info)).length = _ :=
    hkdf_length (hmacSpec a) a.size (hmacSpec_length a) _ _ _
  obtain ⟨-, h2, h3, h4⟩ := Kdf.oneshots (Hkdf.lawful h M (by rw [hd]; omega) (by rw [hd]; omega)) sizes m hm ⟨ikm, salt, info⟩ hs
  refine ⟨fun old n hn => Eq.trans (h2 ⟨true, old⟩ n (Nat.le_trans hn (Nat.le_of_eq hlen.symm))) ?_,
    fun old n hn => Eq.trans (h2 ⟨false, old⟩ n (Nat.le_trans hn (Nat.le_of_eq hlen.symm))) ?_,
    fun n hn => h3 n (Nat.le_trans hn (Nat.le_of_eq hlen.symm)), fun old hn => h4 old (Nat.le_trans hn (Nat.le_of_eq hlen.symm))⟩
  · show some (Spec.received ((Spec.hkdf (hmacSpec a) (bytesOf m ikm) (bytesOf m salt) (bytesOf m info)).take n) (.cont ⟨true, old⟩ n)) = _
    simp only [Spec.received, List.length_take, hlen, Nat.min_eq_left hn, if_true, List.append_nil]
  · show some (Spec.received ((Spec.hkdf (hmacSpec a) (bytesOf m ikm) (bytesOf m salt) (bytesOf m info)).take (min n old.length))
      (.cont ⟨false, old⟩ n)) = _
    simp only [Spec.received, List.length_take, hlen, Nat.min_eq_left hn, Bool.false_eq_true, if_false]

/-- C49 (PBKDF2), likewise. -/
theorem C49_pbkdf2_containers (h : Host) (junk : Nat → Byte) (a : ShaAlg) (sizes : Nat → Nat) (m : Mem) (hm : Kdf.MemOk sizes m) (ikm salt : Span) (it : W32)
    (hs : ∀ s ∈ [ikm, salt], s.size ≤ sizes s.buf ∧ s.size < 2 ^ 64) (okm : List Byte)
    (hokm : okm = Spec.pbkdf2 (hmacSpec a) (bytesOf m ikm) (bytesOf m salt) (max it.toNat 1)) :
    (∀ (old : List Byte) (n : Nat), n ≤ (2 ^ 32 - 1) * a.size →
      Kdf.oneshotC (pbkdf2Class h junk a a.size) m ⟨ikm, salt, it⟩ ⟨true, old⟩ n = some (okm.take n, n)) ∧
    (∀ (old : List Byte) (n : Nat), min n old.length ≤ (2 ^ 32 - 1) * a.size → Kdf.oneshotC (pbkdf2Class h junk a a.size) m ⟨ikm, salt, it⟩ ⟨false, old⟩ n
      = some (okm.take (min n old.length) ++ old.drop (min n old.length), min n old.length)) ∧
    (∀ n, n ≤ (2 ^ 32 - 1) * a.size → Kdf.oneshotDynamic (pbkdf2Class h junk a a.size) m ⟨ikm, salt, it⟩ n = some ⟨true, okm.take n⟩) ∧
    (∀ old : List Byte, old.length ≤ (2 ^ 32 - 1) * a.size →
      Kdf.oneshotStatic (pbkdf2Class h junk a a.size) m ⟨ikm, salt, it⟩ old = some ⟨false, okm.take old.length⟩) := by
  rw [hokm]
  obtain ⟨M⟩ := hmacDefault h a
  have hb := size_bounds a
  have hd := macDigestSize h (.hmac a a.size) a.size
  have hlen : (Spec.pbkdf2 (hmacSpec a) (bytesOf m ikm) (bytesOf m salt) (max it.toNat 1)).length = _ :=
    pbkdf2_length (hmacSpec a) a.size (hmacSpec_length a) _ _ _ (by omega)
  obtain ⟨-, h2, h3, h4⟩ := Kdf.oneshots (Pbkdf2.lawful h junk M (by rw [hd]; omega) (by rw [hd]; omega)) sizes m hm ⟨ikm, salt, it⟩ hs
  refine ⟨fun old n hn => Eq.trans (h2 ⟨true, old⟩ n (Nat.le_trans hn (Nat.le_of_eq hlen.symm))) ?_,
    fun old n hn => Eq.trans (h2 ⟨false, old⟩ n (Nat.le_trans hn (Nat.le_of_eq hlen.symm))) ?_,
    fun n hn => h3 n (Nat.le_trans hn (Nat.le_of_eq hlen.symm)), fun old hn => h4 old (Nat.le_trans hn (Nat.le_of_eq hlen.symm))⟩
  · show some (Spec.received ((Spec.pbkdf2 (hmacSpec a) (bytesOf m ikm) (bytesOf m salt) (max it.toNat 1)).take n) (.cont ⟨true, old⟩ n)) = _
    simp only [Spec.received, List.length_take, hlen, Nat.min_eq_left hn, if_true, List.append_nil]
  · show some (Spec.received ((Spec.pbkdf2 (hmacSpec a) (bytesOf m ikm) (bytesOf m salt) (max it.toNat 1)).take (min n old.length))
      (.cont ⟨false, old⟩ n)) = _
    simp only [Spec.received, List.length_take, hlen, Nat.min_eq_left hn, Bool.false_eq_true, if_false]

end Milo.Props
