import Verif.Proof.ForgeryCount
import Verif.Spec.Forgery
import Verif.Props.Mac
import Verif.Props.Aead
/-
Property theorems C69: who does not know the key cannot guess tags. Poly1305 is a polynomial over a field with `2^130 - 5` elements (its primality is proved in
Proof/Prime1305.lean); two messages have tags that fit together only if the secret `r` is a root of one of a few polynomials.
-/
namespace Milo.Props
open Milo Spec.Forgery

/-! ## Keys as a host reads them -/

private theorem swap_cons (a b : List Byte) (ha : a.length = 4) : Spec.swapWords (a ++ b) = a.reverse ++ Spec.swapWords b := by
  unfold Spec.swapWords
  rw [Memory.chunks_cons 4 (by omega) a b ha]; rfl

private theorem swap_facts (k : Nat) : ∀ l : List Byte, l.length = 4 * k → (Spec.swapWords l).length = l.length ∧ Spec.swapWords (Spec.swapWords l) = l := by
  induction k with
  | zero =>
    intro l hl
    have : l = [] := List.length_eq_zero_iff.mp (by omega)
    subst this
    simp [Spec.swapWords, Memory.chunks_nil]
  | succ k ih =>
    intro l hl
    have h1 : (l.take 4).length = 4 := by simp; omega
    obtain ⟨i1, i2⟩ := ih (l.drop 4) (by simp; omega)
    have e : l = l.take 4 ++ l.drop 4 := (List.take_append_drop 4 l).symm
    constructor
    · conv_lhs => rw [e]
      rw [swap_cons _ _ h1, List.length_append, i1, List.length_reverse, ← List.length_append, List.take_append_drop]
    · conv_lhs => rw [e]
      rw [swap_cons _ _ h1, swap_cons _ _ (by simpa using h1), i2, List.reverse_reverse, List.take_append_drop]

/-- The key as Poly1305 reads it (C24). -/
def asRead (e : Endian) (key : List Byte) : List Byte := match e with | .little => key | .big => Spec.swapWords key

theorem asRead_facts (e : Endian) (key : List Byte) (h : key.length = 32) : (asRead e key).length = 32 ∧ asRead e (asRead e key) = key := by
  cases e
  · exact ⟨h, rfl⟩
  · have := swap_facts 8 key (by omega)
    exact ⟨by show (Spec.swapWords key).length = 32; omega, this.2⟩

theorem asRead_ncard (e : Endian) (Q : List Byte → Prop) : (keys fun k => Q (asRead e k)).ncard = (keys Q).ncard := by
  have : (keys fun k => Q (asRead e k)) = asRead e '' keys Q := by
    ext k
    constructor
    · rintro ⟨hl, hq⟩
      obtain ⟨h1, h2⟩ := asRead_facts e k hl
      exact ⟨asRead e k, ⟨h1, hq⟩, h2⟩
    · rintro ⟨k', ⟨hl, hq⟩, rfl⟩
      obtain ⟨h1, h2⟩ := asRead_facts e k' hl
      exact ⟨h1, by simp only [h2]; exact hq⟩
  rw [this, Set.ncard_image_of_injOn]
  intro x hx y hy h
  rw [← (asRead_facts e x hx.1).2, h, (asRead_facts e y hy.1).2]

private theorem rare (e : Endian) (n : Nat) (hn : n ≤ 16) (m m' : List Byte) (hne : m ≠ m') (t t' : List Byte) (ht : t.length = n) :
    (keys fun k => (Spec.Poly1305.mac (asRead e k) m).take n = t).ncard = 2 ^ 128 * 256 ^ (16 - n) ∧
    Rare (fun k => (Spec.Poly1305.mac (asRead e k) m).take n = t) (fun k => (Spec.Poly1305.mac (asRead e k) m').take n = t')
      (2 ^ (131 - 8 * n) * max (blocks m.length) (blocks m'.length)) := by
  have h1 : (keys fun k => (Spec.Poly1305.mac (asRead e k) m).take n = t).ncard = 2 ^ 128 * 256 ^ (16 - n) := by
    rw [asRead_ncard e fun k => (Spec.Poly1305.mac k m).take n = t]
    exact Forgery.count_one n hn m t ht
  refine ⟨h1, ?_⟩
  unfold Rare
  rw [h1, asRead_ncard e fun k => (Spec.Poly1305.mac k m).take n = t ∧ (Spec.Poly1305.mac k m').take n = t']
  have h2 := Forgery.count_two n hn m m' t t' hne ht
  refine Nat.le_trans (Nat.mul_le_mul_right _ h2) (Nat.le_of_eq ?_)
  unfold blocks
  have : (2 : ℕ) ^ 128 = 2 ^ 22 * 2 ^ 106 := by norm_num
  rw [this]; ring

/-! ## C69 -/

/-- The tag of `m` through the API: the first `n` bytes. -/
def tagged (h : Host) (n : Nat) (key m : List Byte) : Option Container := MacApie.oneshotStatic (MacAlg.impl h n .poly_1305) key m (List.replicate n 0)

/-- C69, Poly1305: of all keys, the same number gives `m` any given tag of `n` bytes; and of those, at most the fraction `2^(131 - 8n) * blocks / 2^106` gives another
message `m'` a given tag `t'`. With tags of 16 bytes, that is `8 * blocks / 2^106`. On every host. -/
theorem C69_poly1305_forgery (h : Host) (n : Nat) (hn : n ≤ 16) (m m' : List Byte) (hm : m.length < 2 ^ 64) (hm' : m'.length < 2 ^ 64) (hne : m ≠ m')
    (t t' : List Byte) (ht : t.length = n) :
    (keys fun key => tagged h n key m = some ⟨false, t⟩).ncard = 2 ^ 128 * 256 ^ (16 - n) ∧
    Rare (fun key => tagged h n key m = some ⟨false, t⟩) (fun key => tagged h n key m' = some ⟨false, t'⟩)
      (2 ^ (131 - 8 * n) * max (blocks m.length) (blocks m'.length)) := by
  have e : ∀ x : List Byte, x.length < 2 ^ 64 → ∀ u key, key.length = 32 → (tagged h n key x = some ⟨false, u⟩ ↔ (Spec.Poly1305.mac (asRead h.endian key) x).take n = u) := by
    intro x hx u key hk
    have := (C23_oneshot h .poly_1305 trivial n hn key x (by omega) hx).2.2.2 n (Nat.le_refl n)
    unfold tagged
    rw [this]
    have e1 : Spec.padTo 32 key = key := padTo_id 32 key hk
    have e2 : Spec.macOn h.endian .poly_1305 key x = Spec.Poly1305.mac (asRead h.endian key) x := by
      simp only [Spec.macOn, e1]; cases h.endian <;> rfl
    rw [e2]
    simp [List.take_take]
  have s1 : (keys fun key => tagged h n key m = some ⟨false, t⟩) = keys fun k => (Spec.Poly1305.mac (asRead h.endian k) m).take n = t := by
    ext k; exact and_congr_right fun hk => e m hm t k hk
  have s2 : (keys fun key => tagged h n key m = some ⟨false, t⟩ ∧ tagged h n key m' = some ⟨false, t'⟩)
      = keys fun k => (Spec.Poly1305.mac (asRead h.endian k) m).take n = t ∧ (Spec.Poly1305.mac (asRead h.endian k) m').take n = t' := by
    ext k; exact and_congr_right fun hk => and_congr (e m hm t k hk) (e m' hm' t' k hk)
  have := rare h.endian n hn m m' hne t t' ht
  unfold Rare at *
  rw [s1, s2]
  exact this

example : Rare (fun key => tagged ⟨.big, false, none⟩ 16 key [1, 2, 3] = some ⟨false, List.replicate 16 7⟩)
    (fun key => tagged ⟨.big, false, none⟩ 16 key (List.replicate 33 9) = some ⟨false, List.replicate 16 8⟩) (8 * 3) :=
  (C69_poly1305_forgery ⟨.big, false, none⟩ 16 (by omega) [1, 2, 3] (List.replicate 33 9) (by simp) (by simp) (by decide) (List.replicate 16 7) (List.replicate 16 8) (by simp)).2

/-! ### AEAD -/

private theorem leBytes8_inj (x y : Nat) (hx : x < 2 ^ 64) (hy : y < 2 ^ 64) (h : Spec.leBytes 8 x = Spec.leBytes 8 y) : x = y := by
  have := congrArg Memory.leNat h
  rw [Memory.spec_leBytes, Memory.spec_leBytes, Memory.leNat_toLE, Memory.leNat_toLE, show (256 : ℕ) ^ 8 = 2 ^ 64 by norm_num, Nat.mod_eq_of_lt hx, Nat.mod_eq_of_lt hy] at this
  exact this

private theorem authenticated_length (a c : List Byte) : (Spec.Aead.authenticated a c).length = 16 * (blocks a.length + blocks c.length + 1) := by
  simp only [Spec.Aead.authenticated, Spec.Aead.pad16, List.length_append, List.length_replicate, Spec.leBytes, List.length_map, List.length_range, blocks]
  omega

/-- C69: what is authenticated determines associated data and ciphertext. -/
theorem C69_authenticated_injective (a c a' c' : List Byte) (ha : a.length < 2 ^ 64) (hc : c.length < 2 ^ 64) (ha' : a'.length < 2 ^ 64) (hc' : c'.length < 2 ^ 64)
    (h : Spec.Aead.authenticated a c = Spec.Aead.authenticated a' c') : a = a' ∧ c = c' := by
  unfold Spec.Aead.authenticated at h
  obtain ⟨h, l2⟩ := List.append_inj' h (by simp [Spec.leBytes])
  obtain ⟨h, l1⟩ := List.append_inj' h (by simp [Spec.leBytes])
  have e1 := leBytes8_inj _ _ ha ha' l1
  have e2 := leBytes8_inj _ _ hc hc' l2
  obtain ⟨h, -⟩ := List.append_inj' h (by simp [Spec.Aead.pad16, e2])
  obtain ⟨h, hcc⟩ := List.append_inj' h e2
  exact ⟨(List.append_inj h e1).1, hcc⟩

/-- Beside C69_authenticated_injective: moving a byte from the associated data to the ciphertext changes what is authenticated. -/
example : Spec.Aead.authenticated [1, 2] [3] ≠ Spec.Aead.authenticated [1] [2, 3] := fun h => by
  have := C69_authenticated_injective [1, 2] [3] [1] [2, 3] (by decide) (by decide) (by decide) (by decide) h
  simp at this

/-- The one-time keys under which `m` has the tag `t`. -/
private def fits (e : Endian) (m t : List Byte) : Set (List Byte) := keys fun k => Spec.Poly1305.mac (asRead e k) m = t

private theorem take16 (k m : List Byte) : (Spec.Poly1305.mac k m).take 16 = Spec.Poly1305.mac k m :=
  List.take_of_length_le (by simp [Spec.Poly1305.mac, Spec.leBytes])

private theorem fits_card (e : Endian) (m t : List Byte) (ht : t.length = 16) : (fits e m t).ncard = 2 ^ 128 := by
  obtain ⟨c1, -⟩ := rare e 16 (Nat.le_refl _) m (0 :: m) (fun h => by have := congrArg List.length h; simp at this) t t ht
  simp only [take16] at c1
  unfold fits
  rw [c1]; norm_num

private theorem fits_both (e : Endian) (ad ct ad' ct' : List Byte) (ha : ad.length < 2 ^ 64) (hc : ct.length < 2 ^ 64) (ha' : ad'.length < 2 ^ 64)
    (hc' : ct'.length < 2 ^ 64) (hne : ¬ (ad' = ad ∧ ct' = ct)) (t t' : List Byte) (ht : t.length = 16) :
    (fits e (Spec.Aead.authenticated ad ct) t ∩ fits e (Spec.Aead.authenticated ad' ct') t').ncard
      ≤ 8 * (max (blocks ad.length + blocks ct.length) (blocks ad'.length + blocks ct'.length) + 1) * 2 ^ 22 := by
  have hne' : Spec.Aead.authenticated ad ct ≠ Spec.Aead.authenticated ad' ct' := fun h =>
    hne (by have := C69_authenticated_injective ad ct ad' ct' ha hc ha' hc' h; exact ⟨this.1.symm, this.2.symm⟩)
  obtain ⟨c1, c2⟩ := rare e 16 (Nat.le_refl _) _ _ hne' t t' ht
  simp only [take16] at c1 c2
  unfold Rare at c2
  rw [c1, authenticated_length, authenticated_length] at c2
  have e1 : ∀ n, blocks (16 * n) = n := fun n => by unfold blocks; omega
  rw [e1, e1] at c2
  have e2 : max (blocks ad.length + blocks ct.length + 1) (blocks ad'.length + blocks ct'.length + 1)
      = max (blocks ad.length + blocks ct.length) (blocks ad'.length + blocks ct'.length) + 1 := by omega
  rw [e2] at c2
  have e3 : fits e (Spec.Aead.authenticated ad ct) t ∩ fits e (Spec.Aead.authenticated ad' ct') t'
      = keys fun k => Spec.Poly1305.mac (asRead e k) (Spec.Aead.authenticated ad ct) = t ∧ Spec.Poly1305.mac (asRead e k) (Spec.Aead.authenticated ad' ct') = t' := by
    ext k; constructor
    · exact fun h => ⟨h.1.1, h.1.2, h.2.2⟩
    · exact fun h => ⟨⟨h.1, h.2.1⟩, h.1, h.2.2⟩
  rw [e3]
  refine Nat.le_of_mul_le_mul_right (Nat.le_trans c2 (Nat.le_of_eq ?_)) (show 0 < 2 ^ 106 by norm_num)
  norm_num
  ring

private theorem sealed_fits {h : Host} {b : CipherBackend} {key nonce ad x ct t : List Byte} (ha : ad.length < 2 ^ 64) (hx : x.length < 2 ^ 64)
    (hs : AeadApie.sealValue h b key nonce ad x = some (⟨true, ct⟩, ⟨false, t⟩)) :
    Spec.Aead.oneTimeKey (Spec.padTo 32 key) (Spec.padTo 12 nonce) ∈ fits h.endian (Spec.Aead.authenticated ad ct) t := by
  have hl : (Spec.Aead.oneTimeKey (Spec.padTo 32 key) (Spec.padTo 12 nonce)).length = 32 := by
    have := Aead.block_length (Spec.padTo 32 key) 0 (Spec.padTo 12 nonce) (by simp [Spec.padTo]) (by simp [Spec.padTo])
    simp only [Spec.Aead.oneTimeKey, List.length_take, this]; rfl
  rw [AeadApie.sealValue_eq h b key nonce ad ha x hx] at hs
  simp only [Option.some.injEq, Prod.mk.injEq, Container.mk.injEq, true_and] at hs
  obtain ⟨s1, s2⟩ := hs
  refine ⟨hl, ?_⟩
  rw [s1, AeadApie.tagOn] at s2
  rw [← s2]
  cases h.endian <;> rfl

private theorem opened_fits {h : Host} {b : CipherBackend} {hasError : Bool} {key nonce ad ct t text : List Byte} (ha : ad.length < 2 ^ 64) (hc : ct.length < 2 ^ 64)
    (ho : AeadApie.openValue h b hasError key nonce ad ct t = some (.returned (text, .none))) :
    Spec.Aead.oneTimeKey (Spec.padTo 32 key) (Spec.padTo 12 nonce) ∈ fits h.endian (Spec.Aead.authenticated ad ct) t := by
  have hl : (Spec.Aead.oneTimeKey (Spec.padTo 32 key) (Spec.padTo 12 nonce)).length = 32 := by
    have := Aead.block_length (Spec.padTo 32 key) 0 (Spec.padTo 12 nonce) (by simp [Spec.padTo]) (by simp [Spec.padTo])
    simp only [Spec.Aead.oneTimeKey, List.length_take, this]; rfl
  rw [AeadApie.openValue_eq h b hasError key nonce ad ha ct t hc] at ho
  refine ⟨hl, ?_⟩
  have hv : t = AeadApie.tagOn h key nonce ad ct := by
    by_cases hv : t = AeadApie.tagOn h key nonce ad ct
    · exact hv
    · cases hasError <;> simp [Spec.Aead.reported, hv] at ho
  rw [hv, AeadApie.tagOn]
  cases h.endian <;> rfl

/-- C69, AEAD: an attacker has seen `ad`, the ciphertext `ct` and its tag `t`, and submits other data `ad'`, `ct'` with a tag `t'` of his choice under the same nonce.
What he has seen fits `2^128` one-time keys; at most `8 * blocks * 2^22` of them, a set `K` fixed before the key is chosen, make `decrypt` accept. -/
theorem C69_aead_forgery (e : Endian) (ad ct ad' ct' : List Byte) (ha : ad.length < 2 ^ 64) (hc : ct.length < 2 ^ 64) (ha' : ad'.length < 2 ^ 64)
    (hc' : ct'.length < 2 ^ 64) (hne : ¬ (ad' = ad ∧ ct' = ct)) (t t' : List Byte) (ht : t.length = 16) :
    ∃ S K : Set (List Byte), S.ncard = 2 ^ 128 ∧ K ⊆ S ∧ K.ncard ≤ 8 * (max (blocks ad.length + blocks ct.length) (blocks ad'.length + blocks ct'.length) + 1) * 2 ^ 22 ∧
      ∀ (h h' : Host) (b b' : CipherBackend) (key nonce x : List Byte), h.endian = e → h'.endian = e → x.length < 2 ^ 64 →
        AeadApie.sealValue h b key nonce ad x = some (⟨true, ct⟩, ⟨false, t⟩) →
        Spec.Aead.oneTimeKey (Spec.padTo 32 key) (Spec.padTo 12 nonce) ∈ S ∧
        ∀ (hasError : Bool) (text : List Byte), AeadApie.openValue h' b' hasError key nonce ad' ct' t' = some (.returned (text, .none)) →
          Spec.Aead.oneTimeKey (Spec.padTo 32 key) (Spec.padTo 12 nonce) ∈ K :=
  ⟨fits e (Spec.Aead.authenticated ad ct) t, _, fits_card e _ t ht, Set.inter_subset_left, fits_both e ad ct ad' ct' ha hc ha' hc' hne t t' ht,
    fun _ _ _ _ _ _ _ he he' hx hs => ⟨he ▸ sealed_fits ha hx hs, fun _ _ ho => ⟨he ▸ sealed_fits ha hx hs, he' ▸ opened_fits ha' hc' ho⟩⟩⟩

/-- What an attacker submits: associated data, ciphertext, tag. -/
abbrev Attempt := List Byte × List Byte × List Byte

/-- C69, AEAD, any number of attempts (all that a rejection tells is that it was one, so the next attempt is known in advance): the keys under which one of them is accepted
are no more than the sum of the bounds. A pair already seen with another tag is never accepted. -/
theorem C69_aead_attempts (e : Endian) (ad ct : List Byte) (ha : ad.length < 2 ^ 64) (hc : ct.length < 2 ^ 64) (t : List Byte) (ht : t.length = 16) (attempts : List Attempt)
    (hat : ∀ a ∈ attempts, a.1.length < 2 ^ 64 ∧ a.2.1.length < 2 ^ 64 ∧ a ≠ (ad, ct, t)) :
    ∃ S K : Set (List Byte), S.ncard = 2 ^ 128 ∧ K ⊆ S ∧
      K.ncard ≤ (attempts.map fun a => 8 * (max (blocks ad.length + blocks ct.length) (blocks a.1.length + blocks a.2.1.length) + 1) * 2 ^ 22).sum ∧
      ∀ (h h' : Host) (b b' : CipherBackend) (key nonce x : List Byte), h.endian = e → h'.endian = e → x.length < 2 ^ 64 →
        AeadApie.sealValue h b key nonce ad x = some (⟨true, ct⟩, ⟨false, t⟩) →
        Spec.Aead.oneTimeKey (Spec.padTo 32 key) (Spec.padTo 12 nonce) ∈ S ∧
        ∀ a ∈ attempts, ∀ (hasError : Bool) (text : List Byte), AeadApie.openValue h' b' hasError key nonce a.1 a.2.1 a.2.2 = some (.returned (text, .none)) →
          Spec.Aead.oneTimeKey (Spec.padTo 32 key) (Spec.padTo 12 nonce) ∈ K := by
  refine ⟨fits e (Spec.Aead.authenticated ad ct) t,
    {k | ∃ a ∈ attempts, k ∈ fits e (Spec.Aead.authenticated ad ct) t ∩ fits e (Spec.Aead.authenticated a.1 a.2.1) a.2.2}, fits_card e _ t ht, fun k ⟨_, _, hk⟩ => hk.1, ?_,
    fun h h' b b' key nonce x he he' hx hs => ⟨he ▸ sealed_fits ha hx hs, fun a hm _ _ ho =>
      ⟨a, hm, he ▸ sealed_fits ha hx hs, he' ▸ opened_fits (hat a hm).1 (hat a hm).2.1 ho⟩⟩⟩
  have fin : (fits e (Spec.Aead.authenticated ad ct) t).Finite := Set.finite_of_ncard_pos (by rw [fits_card e _ t ht]; norm_num)
  induction attempts with
  | nil => simp
  | cons a l ih =>
    have := ih fun b hb => hat b (List.mem_cons_of_mem _ hb)
    obtain ⟨h1, h2, h3⟩ := hat a List.mem_cons_self
    have hb : (fits e (Spec.Aead.authenticated ad ct) t ∩ fits e (Spec.Aead.authenticated a.1 a.2.1) a.2.2).ncard
        ≤ 8 * (max (blocks ad.length + blocks ct.length) (blocks a.1.length + blocks a.2.1.length) + 1) * 2 ^ 22 := by
      by_cases hp : a.1 = ad ∧ a.2.1 = ct
      · have : fits e (Spec.Aead.authenticated ad ct) t ∩ fits e (Spec.Aead.authenticated a.1 a.2.1) a.2.2 = ∅ := by
          ext k
          simp only [Set.mem_inter_iff, Set.mem_empty_iff_false, iff_false]
          rintro ⟨⟨-, k1⟩, ⟨-, k2⟩⟩
          rw [hp.1, hp.2] at k2
          exact h3 (by rw [← hp.1, ← hp.2, ← k1, k2])
        rw [this]; simp
      · exact fits_both e ad ct a.1 a.2.1 ha hc h1 h2 hp t a.2.2 ht
    have hs : {k | ∃ b ∈ a :: l, k ∈ fits e (Spec.Aead.authenticated ad ct) t ∩ fits e (Spec.Aead.authenticated b.1 b.2.1) b.2.2}
        = (fits e (Spec.Aead.authenticated ad ct) t ∩ fits e (Spec.Aead.authenticated a.1 a.2.1) a.2.2)
          ∪ {k | ∃ b ∈ l, k ∈ fits e (Spec.Aead.authenticated ad ct) t ∩ fits e (Spec.Aead.authenticated b.1 b.2.1) b.2.2} := by
      ext k; simp only [List.mem_cons, exists_eq_or_imp, Set.mem_setOf_eq, Set.mem_union]
    rw [hs, List.map_cons, List.sum_cons]
    exact Nat.le_trans (Set.ncard_union_le _ _) (Nat.add_le_add hb this)

/-- Beside C69_aead_attempts: of a message of five bytes, the attacker submits the ciphertext extended, the associated data removed, and the same pair with another tag. -/
example (junk : Nat → X86.Vec) (key nonce : List Byte) : ∃ ct t, t.length = 16 ∧ AeadApie.sealValue ⟨.little, true, none⟩ (.ssse3 junk) key nonce [7] [1, 2, 3, 4, 5] = some (⟨true, ct⟩, ⟨false, t⟩) ∧
    ∃ K : Set (List Byte), K.ncard ≤ 3 * (8 * 3 * 2 ^ 22) ∧
      ((∃ a ∈ [([7], ct ++ [0], t), ([], ct, t), ([7], ct, (1 : Byte) :: t)], ∃ text, AeadApie.openValue ⟨.little, true, none⟩ .portable true key nonce a.1 a.2.1 a.2.2 = some (.returned (text, .none))) →
        Spec.Aead.oneTimeKey (Spec.padTo 32 key) (Spec.padTo 12 nonce) ∈ K) := by
  have es := AeadApie.sealValue_eq ⟨.little, true, none⟩ (.ssse3 junk) key nonce [7] (by decide) [1, 2, 3, 4, 5] (by decide)
  generalize hct : Aead.crypted key nonce 0 [1, 2, 3, 4, 5] = ct at es
  generalize htt : AeadApie.tagOn ⟨.little, true, none⟩ key nonce [7] ct = t at es
  have hl : ct.length = 5 := by rw [← hct]; exact Aead.crypted_length key nonce 0 _
  have htl : t.length = 16 := by rw [← htt]; simp [AeadApie.tagOn, Spec.Aead.macOn, Spec.Poly1305.mac, Spec.leBytes]
  refine ⟨ct, t, htl, es, ?_⟩
  obtain ⟨S, K, -, -, hk, hall⟩ := C69_aead_attempts .little [7] ct (by decide) (by omega) t htl [([7], ct ++ [0], t), ([], ct, t), ([7], ct, 1 :: t)] (by simp; omega)
  refine ⟨K, Nat.le_trans hk (by simp [hl, blocks]), ?_⟩
  rintro ⟨a, hm, text, ho⟩
  exact (hall _ _ _ _ key nonce _ rfl rfl (by decide) es).2 a hm true text ho

end Milo.Props
