import Verif.Spec.Collision
import Verif.Proof.ShaAlg
import Verif.Proof.Soak
/- Collisions of iterated hash functions and HMAC. -/
namespace Milo.Collision
open Spec Spec.Sha Spec.Collision Milo.Memory

theorem hash_eq (a : ShaAlg) (m : Bytes) : shaSpec a m = (chain a).hash m := by cases a <;> rfl

theorem beBytes_inj (n x y : Nat) (hx : x < 256 ^ n) (hy : y < 256 ^ n) (h : beBytes n x = beBytes n y) : x = y := by
  rw [spec_beBytes, spec_beBytes] at h
  have := congrArg Milo.Memory.leNat (List.reverse_inj.mp h)
  rwa [leNat_toLE, leNat_toLE, Nat.mod_eq_of_lt hx, Nat.mod_eq_of_lt hy] at this

theorem beBytes_length (n x : Nat) : (beBytes n x).length = n := by simp [beBytes]

variable {σ : Type} (compress : σ → Bytes → σ)

theorem same_number : ∀ (bs bs' : List Bytes) (s s' : σ), bs.length = bs'.length → bs.foldl compress s = bs'.foldl compress s' →
    (s = s' ∧ bs = bs') ∨ ∃ p ∈ inputs compress s bs, ∃ q ∈ inputs compress s' bs', p ≠ q ∧ compress p.1 p.2 = compress q.1 q.2 := by
  intro bs
  induction bs with
  | nil =>
    intro bs' s s' hl h
    cases bs' with
    | nil => exact .inl ⟨h, rfl⟩
    | cons => simp at hl
  | cons b bs ih =>
    intro bs' s s' hl h
    cases bs' with
    | nil => simp at hl
    | cons b' bs' =>
      rcases ih bs' (compress s b) (compress s' b') (by simpa using hl) h with ⟨e, rfl⟩ | ⟨p, hp, q, hq, hn, he⟩
      · by_cases hd : (s, b) = (s', b')
        · obtain ⟨rfl, rfl⟩ := Prod.mk.inj hd
          exact .inl ⟨rfl, rfl⟩
        · exact .inr ⟨(s, b), .head _, (s', b'), .head _, hd, e⟩
      · exact .inr ⟨p, .tail _ hp, q, .tail _ hq, hn, he⟩

theorem inputs_append (s : σ) (bs cs : List Bytes) : inputs compress s (bs ++ cs) = inputs compress s bs ++ inputs compress (bs.foldl compress s) cs := by
  induction bs generalizing s with
  | nil => rfl
  | cons b bs ih => simp only [List.cons_append, inputs, ih, List.foldl_cons]

/-- The padded message is blocks and a last one that ends with the length. -/
theorem pad_last (B len : Nat) (hB : 0 < B) (hl : len ≤ B) (m : Bytes) :
    ∃ init last x : Bytes, pad B len m = init ++ last ∧ init.length % B = 0 ∧ last.length = B ∧ last = x ++ beBytes len (8 * m.length) := by
  unfold pad
  simp only
  generalize hu : (m.length + 1 + len) % B = used
  have hub : used < B := hu ▸ Nat.mod_lt _ hB
  generalize hz : (B - used) % B = zeros
  have hL : (m ++ [0x80#8] ++ List.replicate zeros 0#8 ++ beBytes len (8 * m.length)).length = m.length + 1 + len + zeros := by
    simp only [List.length_append, List.length_cons, List.length_nil, List.length_replicate, beBytes_length]; omega
  have hmod : (m.length + 1 + len + zeros) % B = 0 := by
    rw [Nat.add_mod, hu, ← hz, Nat.mod_mod]
    rcases Nat.eq_zero_or_pos used with h | h
    · subst h; simp
    · rw [Nat.mod_eq_of_lt (a := B - used) (by omega), show used + (B - used) = B by omega, Nat.mod_self]
  have hge : B ≤ m.length + 1 + len + zeros := by
    have := Nat.div_add_mod (m.length + 1 + len + zeros) B
    rw [hmod] at this
    rcases Nat.eq_zero_or_pos ((m.length + 1 + len + zeros) / B) with h | h
    · rw [h] at this; omega
    · have := Nat.le_mul_of_pos_right B h; omega
  have hbl := beBytes_length len (8 * m.length)
  generalize beBytes len (8 * m.length) = f at *
  generalize hP : m ++ [0x80#8] ++ List.replicate zeros 0#8 = P at *
  rw [List.length_append, hbl] at hL
  refine ⟨(P ++ f).take ((P ++ f).length - B), (P ++ f).drop ((P ++ f).length - B), P.drop (P.length + f.length - B), (List.take_append_drop _ _).symm, ?_, ?_, ?_⟩
  · rw [List.length_take, List.length_append, hbl, Nat.min_eq_left (by omega), hL]
    obtain ⟨q, hq⟩ : ∃ q, m.length + 1 + len + zeros = B * q := ⟨_, (by have := Nat.div_add_mod (m.length + 1 + len + zeros) B; rw [hmod] at this; exact this.symm)⟩
    rw [hq, show B * q - B = B * (q - 1) by rw [Nat.mul_sub, Nat.mul_one]]
    exact Nat.mul_mod_right _ _
  · rw [List.length_drop, List.length_append]; omega
  · rw [List.length_append, List.drop_append, show P.length + f.length - B - P.length = 0 by omega, List.drop_zero]

theorem pad_inj (B len : Nat) (m m' : Bytes) (hl : m.length = m'.length) (h : pad B len m = pad B len m') : m = m' := by
  have e : ∀ x : Bytes, (pad B len x).take x.length = x := by
    intro x
    unfold pad
    simp only [List.append_assoc]
    exact List.take_left' rfl
  rw [← e m, ← e m', h, hl]

theorem chunks_flatten {α} (B : Nat) (hB : 0 < B) : ∀ (n : Nat) (l : List α), l.length ≤ n → (chunks B l).flatten = l := by
  intro n
  induction n with
  | zero =>
    intro l hl
    have : l = [] := List.length_eq_zero_iff.mp (by omega)
    subst this; rw [chunks_nil]; rfl
  | succ n ih =>
    intro l hl
    by_cases h0 : l = []
    · subst h0; rw [chunks_nil]; rfl
    · have := List.length_pos_iff.mpr h0
      rw [chunks]
      rw [dif_neg (by simp [h0]; omega), List.flatten_cons, ih _ (by simp; omega), List.take_append_drop]

theorem chain_facts (a : ShaAlg) : 0 < (chain a).block ∧ (chain a).len ≤ (chain a).block := by cases a <;> decide

/-- Merkle-Damgård. -/
theorem broken (a : ShaAlg) (n : Nat) (m m' : Bytes) (hm : fits a m) (hm' : fits a m') (h : (shaSpec a m).take n = (shaSpec a m').take n) : m = m' ∨ Broken a n m m' := by
  rw [hash_eq, hash_eq] at h
  obtain ⟨hB, hl⟩ := chain_facts a
  unfold fits at hm hm'
  unfold Broken Collides CollidesAtEnd Chain.steps
  unfold Chain.hash iterate at h
  generalize chain a = C at *
  obtain ⟨i, l, x, e, hi, hll, hx⟩ := pad_last C.block C.len hB hl m
  obtain ⟨i', l', x', e', hi', hll', hx'⟩ := pad_last C.block C.len hB hl m'
  have ch : ∀ i l : Bytes, i.length % C.block = 0 → l.length = C.block → chunks C.block (i ++ l) = chunks C.block i ++ [l] := by
    intro i l h1 h2
    rw [chunks_append _ hB _ _ h1]
    have := chunks_cons C.block hB l [] h2
    rw [List.append_nil, chunks_nil] at this
    rw [this]
  have c1 := ch i l hi hll
  have c2 := ch i' l' hi' hll'
  by_cases hlen : m.length = m'.length
  · by_cases hf : (chunks C.block (pad C.block C.len m)).foldl C.compress C.iv = (chunks C.block (pad C.block C.len m')).foldl C.compress C.iv
    · have hpl : (pad C.block C.len m).length = (pad C.block C.len m').length := by
        unfold pad; simp only [List.length_append, List.length_replicate, beBytes_length, hlen]
      have hcl : (chunks C.block (pad C.block C.len m)).length = (chunks C.block (pad C.block C.len m')).length := by
        have hmod : (pad C.block C.len m).length % C.block = 0 := by rw [e, List.length_append, hll]; simp [hi]
        obtain ⟨k, hk⟩ : ∃ k, (pad C.block C.len m).length = k * C.block :=
          ⟨(pad C.block C.len m).length / C.block, by have := Nat.div_add_mod (pad C.block C.len m).length C.block; rw [hmod, Nat.mul_comm] at this; omega⟩
        rw [chunks_length C.block hB _ k hk, chunks_length C.block hB _ k (by omega)]
      rcases same_number C.compress _ _ C.iv C.iv hcl hf with ⟨-, hc⟩ | hc
      · left
        refine pad_inj C.block C.len m m' hlen ?_
        rw [← chunks_flatten C.block hB _ (pad C.block C.len m) (Nat.le_refl _), hc, chunks_flatten C.block hB _ _ (Nat.le_refl _)]
      · exact .inr (.inl hc)
    · right; right
      rw [e, c1, List.foldl_append] at hf h
      rw [e', c2, List.foldl_append] at hf h
      refine ⟨((chunks C.block i).foldl C.compress C.iv, l), ((chunks C.block i').foldl C.compress C.iv, l'), ?_, ?_, ?_, ?_⟩
      · rw [e, c1, inputs_append]; simp [inputs]
      · rw [e', c2, inputs_append]; simp [inputs]
      · intro hd
        obtain ⟨h1, h2⟩ := Prod.mk.inj hd
        apply hf
        simp only [List.foldl_cons, List.foldl_nil, h1, h2]
      · simpa only [List.foldl_cons, List.foldl_nil] using h
  · right; right
    rw [e, c1, e', c2, List.foldl_append, List.foldl_append] at h
    refine ⟨((chunks C.block i).foldl C.compress C.iv, l), ((chunks C.block i').foldl C.compress C.iv, l'), ?_, ?_, ?_, ?_⟩
    · rw [e, c1, inputs_append]; simp [inputs]
    · rw [e', c2, inputs_append]; simp [inputs]
    · intro hd
      have h2 := (Prod.mk.inj hd).2
      rw [hx, hx'] at h2
      have h3 := (List.append_inj' h2 (by rw [beBytes_length, beBytes_length])).2
      have := beBytes_inj _ _ _ hm hm' h3
      omega
    · simpa only [List.foldl_cons, List.foldl_nil] using h

theorem output_inj {n : Nat} (hn : 0 < n) : ∀ (H H' : List (BitVec (8 * n))), H.length = H'.length → output (n := n) H = output (n := n) H' → H = H' := by
  intro H
  induction H with
  | nil => intro H' hl _; exact (List.length_eq_zero_iff.mp hl.symm).symm
  | cons w H ih =>
    intro H' hl h
    cases H' with
    | nil => simp at hl
    | cons w' H' =>
      unfold output at h
      simp only [List.flatMap_cons] at h
      obtain ⟨h1, h2⟩ := List.append_inj h (by rw [beBytes_length, beBytes_length])
      have hp : (2 : Nat) ^ (8 * n) = 256 ^ n := by rw [Nat.pow_mul]
      have := beBytes_inj n _ _ (by rw [← hp]; exact w.isLt) (by rw [← hp]; exact w'.isLt) h1
      rw [BitVec.eq_of_toNat_eq this, ih H' (by simpa using hl) h2]

theorem last_mem {α} {l : List α} {x : α} (h : l.getLast? = some x) : x ∈ l := List.mem_of_getLast? h

theorem full_inj {n : Nat} (hn : 0 < n) (A B : List (BitVec (8 * n))) (N : Nat) (hA : A.length * n = N) (hB : B.length * n = N)
    (h : (output (n := n) A).take N = (output (n := n) B).take N) : A = B := by
  have hl : ∀ X : List (BitVec (8 * n)), (output (n := n) X).length = X.length * n := by
    intro X
    unfold output
    rw [List.length_flatMap, show (fun w : BitVec (8 * n) => (beBytes n w.toNat).length) = fun _ => n from funext fun _ => beBytes_length _ _]
    simp [List.map_const']
  rw [List.take_of_length_le (by rw [hl]; omega), List.take_of_length_le (by rw [hl]; omega)] at h
  exact output_inj hn A B (Nat.eq_of_mul_eq_mul_right hn (by omega)) h

/-- The functions that keep all of the last result. -/
theorem broken_full (a : ShaAlg) (ha : a = .sha_1_160 ∨ a = .sha_2_256 ∨ a = .sha_2_512) (m m' : Bytes) (h : Broken a a.size m m') : Collides (chain a) m m' := by
  rcases h with h | ⟨p, q, hp, hq, hn, he⟩
  · exact h
  refine ⟨p, last_mem hp, q, last_mem hq, hn, ?_⟩
  rcases ha with rfl | rfl | rfl
  · exact full_inj (n := 4) (by decide) (Sha1.compress p.1 p.2) (Sha1.compress q.1 q.2) 20 rfl rfl he
  · exact full_inj (n := 4) (by decide) (Sha2.compress p32 p.1 p.2) (Sha2.compress p32 q.1 q.2) 32 rfl rfl he
  · exact full_inj (n := 8) (by decide) (Sha2.compress p64 p.1 p.2) (Sha2.compress p64 q.1 q.2) 64 rfl rfl he

/-! HMAC -/

theorem block_size (a : ShaAlg) : a.size ≤ shaBlock a := by cases a <;> decide

theorem hmacKey_length (a : ShaAlg) (k : Bytes) : (hmacKey (shaBlock a) (shaSpec a) k).length = shaBlock a := by
  have := block_size a
  unfold hmacKey
  split
  · simp [shaSpec_length]; omega
  · simp; omega

theorem xor_inj (c : BitVec 8) {k k' : Bytes} (h : k.map (· ^^^ c) = k'.map (· ^^^ c)) : k = k' := by
  have := congrArg (List.map (· ^^^ c)) h
  simpa only [List.map_map, Function.comp_def, BitVec.xor_assoc, BitVec.xor_self, BitVec.xor_zero, List.map_id'] using this

theorem hmac_eq (a : ShaAlg) (k m : Bytes) : hmac (shaBlock a) (shaSpec a) k m = shaSpec a (outer a k m) := rfl

theorem fits_outer (a : ShaAlg) (k m : Bytes) : fits a (outer a k m) := by
  unfold fits outer
  rw [List.length_append, List.length_map, hmacKey_length, shaSpec_length]
  cases a <;> decide

theorem keys_equivalent (a : ShaAlg) (k k' : Bytes) (hk : fits a k) (hk' : fits a k') (h : hmacKey (shaBlock a) (shaSpec a) k = hmacKey (shaBlock a) (shaSpec a) k') :
    Equivalent a k k' ∨ k.length > shaBlock a ∧ k'.length > shaBlock a ∧ Broken a a.size k k' := by
  unfold hmacKey at h
  simp only at h
  unfold Equivalent padded
  by_cases h1 : k.length > shaBlock a
  · rw [if_pos h1] at h
    by_cases h2 : k'.length > shaBlock a
    · rw [if_pos h2] at h
      have := (List.append_inj h (by rw [shaSpec_length, shaSpec_length])).1
      rcases broken a a.size k k' hk hk' (by rw [this]) with e | e
      · exact .inl (.inl e)
      · exact .inr ⟨h1, h2, e⟩
    · rw [if_neg h2] at h
      exact .inl (.inr (.inr (.inl ⟨h1, by omega, h⟩)))
  · rw [if_neg h1] at h
    by_cases h2 : k'.length > shaBlock a
    · rw [if_pos h2] at h
      exact .inl (.inr (.inr (.inr ⟨by omega, h2, h⟩)))
    · rw [if_neg h2] at h
      exact .inl (.inr (.inl ⟨by omega, by omega, h⟩))

/-- The keys listed are equal for HMAC. -/
theorem equivalent_keys (a : ShaAlg) (k k' : Bytes) (h : Equivalent a k k') : hmacKey (shaBlock a) (shaSpec a) k = hmacKey (shaBlock a) (shaSpec a) k' := by
  unfold hmacKey
  simp only
  unfold Equivalent padded at h
  rcases h with rfl | ⟨h1, h2, h3⟩ | ⟨h1, h2, h3⟩ | ⟨h1, h2, h3⟩
  · rfl
  · rw [if_neg (by omega), if_neg (by omega)]; exact h3
  · rw [if_pos h1, if_neg (by omega)]; exact h3
  · rw [if_neg (by omega), if_pos h2]; exact h3

theorem hmac_broken (a : ShaAlg) (n : Nat) (k m k' m' : Bytes) (hk : fits a k) (hk' : fits a k') (hm : fitsHmac a m) (hm' : fitsHmac a m')
    (h : (hmac (shaBlock a) (shaSpec a) k m).take n = (hmac (shaBlock a) (shaSpec a) k' m').take n) :
    Equivalent a k k' ∧ m = m' ∨ HmacBroken a n k m k' m' := by
  unfold HmacBroken
  rw [hmac_eq, hmac_eq] at h
  rcases broken a n _ _ (fits_outer a k m) (fits_outer a k' m') h with e | e
  · obtain ⟨e1, e2⟩ := List.append_inj e (by rw [List.length_map, List.length_map, hmacKey_length, hmacKey_length])
    have hi : ∀ k m, fitsHmac a m → fits a (inner a k m) := by
      intro k m h
      unfold fits inner
      rw [List.length_append, List.length_map, hmacKey_length]
      exact h
    rcases broken a a.size _ _ (hi k m hm) (hi k' m' hm') (by rw [e2]) with e3 | e3
    · have e4 := (List.append_inj e3 (by rw [List.length_map, List.length_map, hmacKey_length, hmacKey_length])).2
      rcases keys_equivalent a k k' hk hk' (xor_inj _ e1) with e5 | e5
      · exact .inl ⟨e5, e4⟩
      · exact .inr (.inr (.inr e5))
    · exact .inr (.inr (.inl e3))
  · exact .inr (.inl e)

/-- Keys as long as a digest. -/
theorem equivalent_size (a : ShaAlg) (k k' : Bytes) (hk : k.length = a.size) (hk' : k'.length = a.size) (h : Equivalent a k k') : k = k' := by
  have := block_size a
  rcases h with h | ⟨-, -, h⟩ | ⟨h, -⟩ | ⟨-, h, -⟩
  · exact h
  · exact (List.append_inj h (by rw [hk, hk'])).1
  · omega
  · omega

end Milo.Collision
