import Verif.Model.SelfTest
import Verif.Spec.SelfTest
import Verif.Proof.Hkdf
import Verif.Proof.Pbkdf2
import Verif.Proof.Memory
import Verif.Proof.HashApie
import Verif.Proof.MacLawful
import Verif.Proof.KdfLawful
import Verif.Proof.Cipher
/- The loops of the self-tests. -/
namespace Milo.SelfTest
open Memory
open Spec (inputAt)

/-- `x` goes on with a state satisfying `Q` if `P`, and otherwise stops with "false". -/
def Ends {σ : Type} (x : Option (Option σ)) (P : Prop) (Q : σ → Prop) : Prop := (P ∧ ∃ s, x = some (some s) ∧ Q s) ∨ (¬ P ∧ x = some none)

theorem Ends.congr {σ : Type} {x : Option (Option σ)} {P P' : Prop} {Q Q' : σ → Prop} (h : Ends x P Q) (hp : P ↔ P') (hq : ∀ s, Q s → Q' s) : Ends x P' Q' := by
  rcases h with ⟨p, s, e, q⟩ | ⟨p, e⟩
  · exact .inl ⟨hp.1 p, s, e, hq s q⟩
  · exact .inr ⟨fun p' => p (hp.2 p'), e⟩

/-- The end of a differential test. -/
theorem Ends.result {σ : Type} {x : Option (Option σ)} {P : Prop} {Q : σ → Prop} (h : Ends x P Q) :
    ∃ r, (x.bind fun r => some r.isSome) = some r ∧ (r = true ↔ P) := by
  rcases h with ⟨p, s, e, q⟩ | ⟨p, e⟩
  · exact ⟨true, by rw [e]; rfl, by simp [p]⟩
  · exact ⟨false, by rw [e]; rfl, by simp [p]⟩

theorem loop_ends {σ : Type} (round : Nat → σ → Option (Option σ)) (Inv : Nat → σ → Prop) (P : Nat → Prop) (N : Nat)
    (hr : ∀ i s, i < N → Inv i s → Ends (round i s) (P i) (Inv (i + 1))) :
    ∀ (n i : Nat) (s : σ), i + n = N → Inv i s → Ends (loop round n i s) (∀ k, i ≤ k → k < N → P k) (Inv N) := by
  intro n
  induction n with
  | zero =>
    intro i s hi hs
    exact .inl ⟨fun k h1 h2 => by omega, s, rfl, by rw [← hi]; exact hs⟩
  | succ n ih =>
    intro i s hi hs
    unfold loop
    rcases hr i s (by omega) hs with ⟨p, s', e, q⟩ | ⟨p, e⟩
    · rw [e]
      simp only
      refine (ih (i + 1) s' (by omega) q).congr ⟨fun h k h1 h2 => ?_, fun h k h1 h2 => h k (by omega) h2⟩ fun s h => h
      by_cases hk : k = i
      · subst hk; exact p
      · exact h k (by omega) h2
    · rw [e]
      exact .inr ⟨fun h => p (h i (Nat.le_refl _) (by omega)), rfl⟩

/-- The sizes in round `n` of the `while` loop. -/
def sizeA (g n : Nat) : Nat := 1 + g * ((n + 1) / 2)
def sizeB (g n : Nat) : Nat := 1 + g * (n / 2)

theorem sizes_ends {σ : Type} (limit g : Nat) (hg : 0 < g) (body : σ → Nat → Nat → Option (Option σ)) (Inv : Nat → σ → Prop) (P : Nat → Prop)
    (hb : ∀ n s, sizeB g n ≤ limit + g → Inv n s → Ends (body s (sizeA g n) (sizeB g n)) (P n) (Inv (n + 1))) :
    ∀ (m n : Nat) (s : σ), 2 * (limit + g) + 2 ≤ n + m → Inv n s →
      Ends (sizes limit g hg body s (sizeA g n) (sizeB g n)) (∀ k, n ≤ k → sizeB g k ≤ limit + g → P k) fun s => ∃ k, Inv k s := by
  intro m
  induction m with
  | zero =>
    intro n s hn hs
    have h1 : limit + g < sizeB g n := by
      unfold sizeB
      have : n / 2 ≤ g * (n / 2) := Nat.le_mul_of_pos_left _ hg
      omega
    have h2 : sizeB g n ≤ sizeA g n := Nat.add_le_add_left (Nat.mul_le_mul_left _ (by omega)) _
    unfold sizes
    rw [if_neg (by omega)]
    refine .inl ⟨fun k hk h => ?_, s, rfl, n, hs⟩
    have : sizeB g n ≤ sizeB g k := Nat.add_le_add_left (Nat.mul_le_mul_left _ (by omega)) _
    omega
  | succ m ih =>
    intro n s hn hs
    have h2 : sizeB g n ≤ sizeA g n := Nat.add_le_add_left (Nat.mul_le_mul_left _ (by omega)) _
    unfold sizes
    by_cases hc : sizeB g n ≤ limit + g
    · rw [if_pos (.inr hc)]
      have ha : sizeB g n + g = sizeA g (n + 1) := by
        unfold sizeA sizeB
        rw [show (n + 1 + 1) / 2 = n / 2 + 1 by omega, Nat.mul_add, Nat.mul_one]; omega
      have hb' : sizeA g n = sizeB g (n + 1) := rfl
      rcases hb n s hc hs with ⟨p, s', e, q⟩ | ⟨p, e⟩
      · rw [e]
        simp only
        rw [ha, hb']
        refine (ih (n + 1) s' (by omega) q).congr ⟨fun h k h1 h2 => ?_, fun h k h1 h2 => h k (by omega) h2⟩ fun s h => h
        by_cases hk : k = n
        · subst hk; exact p
        · exact h k (by omega) h2
      · rw [e]
        exact .inr ⟨fun h => p (h n (Nat.le_refl _) hc), rfl⟩
    · rw [if_neg (by omega)]
      refine .inl ⟨fun k hk h => ?_, s, rfl, n, hs⟩
      have : sizeB g n ≤ sizeB g k := Nat.add_le_add_left (Nat.mul_le_mul_left _ (by omega)) _
      omega

/-- From the beginning: `1` and `1`. -/
theorem sizes_start {σ : Type} (limit g : Nat) (hg : 0 < g) (body : σ → Nat → Nat → Option (Option σ)) (Inv : Nat → σ → Prop) (P : Nat → Prop)
    (hb : ∀ n s, sizeB g n ≤ limit + g → Inv n s → Ends (body s (sizeA g n) (sizeB g n)) (P n) (Inv (n + 1))) (s : σ) (hs : Inv 0 s) :
    Ends (sizes limit g hg body s 1 1) (∀ k, 1 + g * (k / 2) ≤ limit + g → P k) fun s => ∃ k, Inv k s := by
  have := sizes_ends limit g hg body Inv P hb (2 * (limit + g) + 2) 0 s (by omega) hs
  exact this.congr ⟨fun h k hk => h k (Nat.zero_le _) hk, fun h k _ hk => h k hk⟩ fun s h => h

theorem pieces_eq {σ : Type} (step : σ → (offs n : Nat) → Option σ) (total size : Nat) (hs : 0 < size) (Inv : Nat → σ → Prop)
    (h : ∀ s offs n, offs + n ≤ total → Inv offs s → ∃ s', step s offs n = some s' ∧ Inv (offs + n) s') (s : σ) (h0 : Inv 0 s) :
    ∃ s', pieces step total size s = some s' ∧ Inv total s' := by
  have key : ∀ (n : Nat) (i offs : Nat) (s : σ), offs + n * size ≤ total → Inv offs s →
      ∃ s', forM' (fun _ (so : σ × Nat) => do
        let s ← step so.1 so.2 size
        pure (s, so.2 + size)) n i (s, offs) = some (s', offs + n * size) ∧ Inv (offs + n * size) s' := by
    intro n
    induction n with
    | zero => intro i offs s _ hi; exact ⟨s, by simp [forM'], by simpa using hi⟩
    | succ n ih =>
      intro i offs s hle hi
      rw [Nat.succ_mul] at hle
      obtain ⟨s1, e1, i1⟩ := h s offs size (by omega) hi
      obtain ⟨s2, e2, i2⟩ := ih (i + 1) (offs + size) s1 (by omega) i1
      refine ⟨s2, ?_, ?_⟩
      · simp only [forM', e1, Option.bind_eq_bind, Option.bind_some, Option.pure_def]
        rw [show offs + (n + 1) * size = offs + size + n * size by rw [Nat.succ_mul]; omega]
        exact e2
      · rw [show offs + (n + 1) * size = offs + size + n * size by rw [Nat.succ_mul]; omega]
        exact i2
  have hd : total / size * size ≤ total := Nat.div_mul_le_self _ _
  obtain ⟨s1, e1, i1⟩ := key (total / size) 0 0 s (by omega) h0
  rw [Nat.zero_add] at e1 i1
  unfold pieces
  rw [if_neg (by omega), e1]
  simp only [Option.bind_eq_bind, Option.bind_some]
  by_cases hc : total / size * size < total
  · rw [if_pos hc]
    obtain ⟨s2, e2, i2⟩ := h s1 (total / size * size) (total - total / size * size) (by omega) i1
    rw [show total / size * size + (total - total / size * size) = total by omega] at i2
    exact ⟨s2, e2, i2⟩
  · rw [if_neg hc]
    rw [show total / size * size = total by omega] at i1
    exact ⟨s1, rfl, i1⟩

theorem sizeA_pos (g n : Nat) : 0 < sizeA g n := by unfold sizeA; omega
theorem sizeB_pos (g n : Nat) : 0 < sizeB g n := by unfold sizeB; omega

theorem take_add_piece {α : Type} (l : List α) (offs n : Nat) : l.take offs ++ (l.drop offs).take n = l.take (offs + n) := (List.take_add ..).symm

/-! ### Hashes -/

section
variable {H : HashImpl} {F : List Byte → List Byte} (L : Lawful H F)

theorem hashFeed_eq (o : HashApie.Obj H) (ho : L.Wf o.impl) (input : List Byte) (hi : input.length < 2 ^ 64) (size : Nat) (hs : 0 < size) :
    ∃ o', hashFeed H o input size = some o' ∧ HashApie.Holds L o' input := by
  obtain ⟨o', e, hr, hf⟩ := pieces_eq (fun (o : HashApie.Obj H) offs n => do
      let x ← rdN input offs n
      HashApie.update H o x) input.length size hs (fun offs o => L.Rep o.impl (input.take offs) ∧ o.finalized = false) (by
    intro o offs n hle ⟨hr, hf⟩
    obtain ⟨i, e, r⟩ := L.update o.impl _ ((input.drop offs).take n) hr (by simp; omega)
    refine ⟨⟨i, o.finalized⟩, ?_, ?_, hf⟩
    · unfold rdN
      rw [if_pos hle]
      simp [HashApie.update, e]
    · rw [take_add_piece] at r; exact r) (HashApie.initialise H o) ⟨L.init _ ho, rfl⟩
  rw [List.take_length] at hr
  exact ⟨o', e, .inl ⟨hf, hr⟩⟩

theorem hashDigest_eq (o : HashApie.Obj H) (m : List Byte) (ho : HashApie.Holds L o m) :
    ∃ o' , HashApie.digestStatic H o (List.replicate H.digestSize 0) = some (o', ⟨false, F m⟩) ∧ L.Wf o'.impl := by
  obtain ⟨o', e, w⟩ := HashApie.digestC_holds L o m ho ⟨false, List.replicate H.digestSize 0⟩ H.digestSize
  refine ⟨o', ?_, ?_⟩
  · have hl := L.length m
    simp only [HashApie.digestStatic, e, Spec.contained, Spec.written, Option.bind_eq_bind, Option.bind_some, List.length_replicate, Nat.min_self,
      List.drop_replicate, hl, Bool.false_eq_true, if_false, Option.pure_def, Nat.sub_self]
    rw [List.take_of_length_le (by omega)]; simp
  · rcases w with ⟨-, w⟩ | ⟨-, w⟩
    · exact L.rep_wf _ _ w
    · exact L.fin_wf _ _ w

end

theorem hashBody_ends {H0 H1 : HashImpl} {F0 F1 : List Byte → List Byte} (L0 : Lawful H0 F0) (L1 : Lawful H1 F1) (input : List Byte) (hi : input.length < 2 ^ 64)
    (o : HashApie.Obj H0 × HashApie.Obj H1) (ho : L0.Wf o.1.impl ∧ L1.Wf o.2.impl) (a b : Nat) (ha : 0 < a) (hb : 0 < b) :
    Ends (hashBody H0 H1 input o a b) (F0 input = F1 input) fun o => L0.Wf o.1.impl ∧ L1.Wf o.2.impl := by
  obtain ⟨o0, e0, h0⟩ := hashFeed_eq L0 o.1 ho.1 input hi a ha
  obtain ⟨o1, e1, h1⟩ := hashFeed_eq L1 o.2 ho.2 input hi b hb
  obtain ⟨p0, d0, w0⟩ := hashDigest_eq L0 o0 input h0
  obtain ⟨p1, d1, w1⟩ := hashDigest_eq L1 o1 input h1
  have e : hashBody H0 H1 input o a b = if F0 input ≠ F1 input then some none else some (some (p0, p1)) := by
    unfold hashBody
    simp only [e0, e1, d0, d1, Option.bind_eq_bind, Option.bind_some, Option.pure_def]
  rw [e]
  by_cases hc : F0 input = F1 input
  · rw [if_neg (by simpa using hc)]
    exact .inl ⟨hc, _, rfl, w0, w1⟩
  · rw [if_pos hc]
    exact .inr ⟨hc, rfl⟩

theorem inputAt_zero (size : Nat) : inputAt size 0 = List.replicate size 0 := by
  unfold Spec.inputAt
  refine List.ext_getElem (by simp) fun k h1 h2 => by simp

theorem inputAt_length (size i : Nat) : (inputAt size i).length = size := by simp [Spec.inputAt]

theorem inputAt_succ (size i : Nat) (hi : i < size) : wr1 (inputAt size i) i (BitVec.ofNat 8 i) = some (inputAt size (i + 1)) := by
  unfold wr1
  rw [if_pos (by rw [inputAt_length]; exact hi)]
  refine congrArg some (List.ext_getElem (by simp [Spec.inputAt]) fun k h1 h2 => ?_)
  simp only [Spec.inputAt, List.getElem_set, List.getElem_map, List.getElem_range]
  by_cases hk : i = k
  · subst hk; simp
  · rw [if_neg hk]
    by_cases h : k < i
    · rw [if_pos h, if_pos (by omega)]
    · rw [if_neg h, if_neg (by omega)]

theorem hashDifferential_eq {H0 H1 : HashImpl} {F0 F1 : List Byte → List Byte} (L0 : Lawful H0 F0) (L1 : Lawful H1 F1) (u0 u1 : Bool) :
    ∃ r, hashDifferential H0 H1 u0 u1 = some r ∧ (r = true ↔ ∀ i, i < 512 → F0 (inputAt 512 i) = F1 (inputAt 512 i)) := by
  have hr : ∀ i s, i < 512 → ((L0.Wf s.1.1.impl ∧ L1.Wf s.1.2.impl) ∧ s.2 = inputAt 512 i) →
      Ends (hashRound H0 H1 i s) (F0 (inputAt 512 i) = F1 (inputAt 512 i)) fun s => (L0.Wf s.1.1.impl ∧ L1.Wf s.1.2.impl) ∧ s.2 = inputAt 512 (i + 1) := by
    intro i s hi ⟨hw, hs⟩
    have hl : s.2.length < 2 ^ 64 := by rw [hs, inputAt_length]; omega
    have := sizes_start 512 3 (by omega) (hashBody H0 H1 s.2) (fun _ o => L0.Wf o.1.impl ∧ L1.Wf o.2.impl) (fun _ => F0 s.2 = F1 s.2)
      (fun n o _ ho => hashBody_ends L0 L1 s.2 hl o ho _ _ (sizeA_pos _ _) (sizeB_pos _ _)) s.1 hw
    rcases this with ⟨p, o, e, k, q⟩ | ⟨p, e⟩
    · have e2 : hashRound H0 H1 i s = some (some (o, inputAt 512 (i + 1))) := by
        unfold hashRound
        rw [e]
        simp only [hs]
        rw [inputAt_succ 512 i hi]
        rfl
      have p0 := p 0 (by omega)
      rw [hs] at p0
      exact .inl ⟨p0, (o, inputAt 512 (i + 1)), e2, q, rfl⟩
    · refine .inr ⟨fun h => p fun _ _ => ?_, ?_⟩
      · rw [hs]; exact h
      · unfold hashRound
        rw [e]
  have := loop_ends (hashRound H0 H1) _ _ 512 hr 512 0 ((HashApie.construct H0 u0, HashApie.construct H1 u1), List.replicate 512 0) (by omega)
    ⟨⟨L0.rep_wf _ _ (L0.init _ L0.fresh), L1.rep_wf _ _ (L1.init _ L1.fresh)⟩, (inputAt_zero 512).symm⟩
  obtain ⟨r, e, h⟩ := this.result
  exact ⟨r, e, h.trans ⟨fun h i hi => h i (Nat.zero_le _) hi, fun h i _ hi => h i hi⟩⟩

/-! ### Macs -/

section
variable {M : MacImpl} {F : List Byte → List Byte → List Byte} (L : LawfulMac M F)

theorem macFeed_eq (o : MacApie.Obj M) (ho : L.Wf o.impl) (input : List Byte) (hi : input.length < 2 ^ 64) (ks size : Nat) (hs : 0 < size) :
    ∃ o', macFeed M o input ks size = some o' ∧ MacApie.Holds L o' (input.take (min ks input.length)) input := by
  have hk : min ks input.length ≤ input.length := Nat.min_le_right _ _
  obtain ⟨o1, e1, r1, f1⟩ := MacApie.init_rep L o (input.take (min ks input.length)) ho (by simp; omega)
  obtain ⟨o', e, hr, hf⟩ := pieces_eq (fun (o : MacApie.Obj M) offs n => do
      let x ← rdN input offs n
      MacApie.update M o x) input.length size hs
      (fun offs o => L.Rep o.impl (input.take (min ks input.length)) (input.take offs) ∧ o.finalized = some false) (by
    intro o offs n hle ⟨hr, hf⟩
    obtain ⟨i, e, r⟩ := L.update o.impl _ _ ((input.drop offs).take n) hr (by simp; omega)
    refine ⟨⟨i, o.finalized⟩, ?_, ?_, hf⟩
    · unfold rdN
      rw [if_pos hle]
      simp [MacApie.update, e]
    · rw [take_add_piece] at r; exact r) o1 ⟨by simpa using r1, f1⟩
  rw [List.take_length] at hr
  refine ⟨o', ?_, .inl ⟨hf, hr⟩⟩
  unfold macFeed rdN
  rw [if_pos (by omega)]
  simp only [List.drop_zero, Option.bind_eq_bind, Option.bind_some, e1]
  exact e

theorem macDigest_eq (o : MacApie.Obj M) (k m : List Byte) (ho : MacApie.Holds L o k m) :
    ∃ o', MacApie.digestStatic M o (List.replicate M.digestSize 0) = some (o', ⟨false, F k m⟩) ∧ L.Wf o'.impl := by
  obtain ⟨o', e, w⟩ := MacApie.digestC_holds L o k m ho ⟨false, List.replicate M.digestSize 0⟩ M.digestSize
  refine ⟨o', ?_, ?_⟩
  · have hl := L.length k m
    simp only [MacApie.digestStatic, e, Spec.contained, Spec.written, Option.bind_eq_bind, Option.bind_some, List.length_replicate, Nat.min_self,
      List.drop_replicate, hl, Bool.false_eq_true, if_false, Option.pure_def, Nat.sub_self]
    rw [List.take_of_length_le (by omega)]; simp
  · rcases w with ⟨-, w⟩ | ⟨-, w⟩
    · exact L.rep_wf _ _ _ w
    · exact L.fin_wf _ _ _ w

end

section
variable {M0 M1 : MacImpl} {F0 F1 : List Byte → List Byte → List Byte} (L0 : LawfulMac M0 F0) (L1 : LawfulMac M1 F1)

/-- Before round `n` of the `while` loop. -/
def MacInv (n : Nat) (s : (MacApie.Obj M0 × Nat) × (MacApie.Obj M1 × Nat)) : Prop :=
  (L0.Wf s.1.1.impl ∧ s.1.2 = 3 * n) ∧ (L1.Wf s.2.1.impl ∧ s.2.2 = 3 * n)

theorem macBody_ends (input : List Byte) (hi : input.length < 2 ^ 64) (n : Nat)
    (s : (MacApie.Obj M0 × Nat) × (MacApie.Obj M1 × Nat)) (hs : MacInv L0 L1 n s) (a b : Nat) (ha : 0 < a) (hb : 0 < b) :
    Ends (macBody M0 M1 input s a b) (F0 (input.take (min (3 * n) input.length)) input = F1 (input.take (min (3 * n) input.length)) input) (MacInv L0 L1 (n + 1)) := by
  obtain ⟨⟨w0, k0⟩, w1, k1⟩ := hs
  obtain ⟨o0, e0, h0⟩ := macFeed_eq L0 s.1.1 w0 input hi s.1.2 a ha
  obtain ⟨o1, e1, h1⟩ := macFeed_eq L1 s.2.1 w1 input hi s.2.2 b hb
  rw [k0] at h0
  rw [k1] at h1
  obtain ⟨p0, d0, w0⟩ := macDigest_eq L0 o0 _ input h0
  obtain ⟨p1, d1, w1⟩ := macDigest_eq L1 o1 _ input h1
  have e : macBody M0 M1 input s a b = if F0 (input.take (min (3 * n) input.length)) input ≠ F1 (input.take (min (3 * n) input.length)) input then some none
      else some (some ((p0, s.1.2 + 3), (p1, s.2.2 + 3))) := by
    unfold macBody
    simp only [e0, e1, d0, d1, Option.bind_eq_bind, Option.bind_some, Option.pure_def]
  rw [e]
  by_cases hc : F0 (input.take (min (3 * n) input.length)) input = F1 (input.take (min (3 * n) input.length)) input
  · rw [if_neg (by simpa using hc)]
    exact .inl ⟨hc, _, rfl, ⟨w0, by simp only [k0]; omega⟩, w1, by simp only [k1]; omega⟩
  · rw [if_pos hc]
    exact .inr ⟨hc, rfl⟩

include L0 L1 in
theorem macDifferential_eq :
    ∃ r, macDifferential M0 M1 = some r ∧ (r = true ↔ ∀ i, i < 512 → ∀ k, 1 + 3 * (k / 2) ≤ 515 →
      F0 ((inputAt 512 i).take (min (3 * k) 512)) (inputAt 512 i) = F1 ((inputAt 512 i).take (min (3 * k) 512)) (inputAt 512 i)) := by
  have hr : ∀ i s, i < 512 → ((L0.Wf s.1.1.impl ∧ L1.Wf s.1.2.impl) ∧ s.2 = inputAt 512 i) →
      Ends (macRound M0 M1 i s) (∀ k, 1 + 3 * (k / 2) ≤ 515 →
      F0 ((inputAt 512 i).take (min (3 * k) 512)) (inputAt 512 i) = F1 ((inputAt 512 i).take (min (3 * k) 512)) (inputAt 512 i))
      fun s => (L0.Wf s.1.1.impl ∧ L1.Wf s.1.2.impl) ∧ s.2 = inputAt 512 (i + 1) := by
    intro i s hi ⟨hw, hs⟩
    have hl0 : s.2.length = 512 := by rw [hs, inputAt_length]
    have hl : s.2.length < 2 ^ 64 := by omega
    have := sizes_start 512 3 (by omega) (macBody M0 M1 s.2) (MacInv L0 L1)
      (fun k => F0 (s.2.take (min (3 * k) s.2.length)) s.2 = F1 (s.2.take (min (3 * k) s.2.length)) s.2)
      (fun n o _ ho => macBody_ends L0 L1 s.2 hl n o ho _ _ (sizeA_pos _ _) (sizeB_pos _ _)) ((s.1.1, 0), (s.1.2, 0)) ⟨⟨hw.1, rfl⟩, hw.2, rfl⟩
    rw [hl0] at this
    rcases this with ⟨p, o, e, k, q⟩ | ⟨p, e⟩
    · have e2 : macRound M0 M1 i s = some (some ((o.1.1, o.2.1), inputAt 512 (i + 1))) := by
        unfold macRound
        rw [e]
        simp only [hs]
        rw [inputAt_succ 512 i hi]
        rfl
      rw [hs] at p
      exact .inl ⟨p, ((o.1.1, o.2.1), inputAt 512 (i + 1)), e2, ⟨q.1.1, q.2.1⟩, rfl⟩
    · rw [hs] at p
      refine .inr ⟨p, ?_⟩
      unfold macRound
      rw [e]
  have := loop_ends (macRound M0 M1) _ _ 512 hr 512 0 ((MacApie.constructDefault M0, MacApie.constructDefault M1), List.replicate 512 0) (by omega)
    ⟨⟨L0.fresh, L1.fresh⟩, (inputAt_zero 512).symm⟩
  obtain ⟨r, e, h⟩ := this.result
  exact ⟨r, e, h.trans ⟨fun h i hi => h i (Nat.zero_le _) hi, fun h i _ hi => h i hi⟩⟩

end

/-! ### Key derivation -/

section
variable {h h1 : Host} {K0 K1 : KdfImpl} {S0 : Mem → K0.Args → List Byte} {S1 : Mem → K1.Args → List Byte}
  {R0 : K0.Args → List Nat} {R1 : K1.Args → List Nat} (L0 : LawfulKdf h K0 S0 R0) (L1 : LawfulKdf h1 K1 S1 R1)

/-- The caller's memory in round `i`: buffer 0 is the input. -/
def memAt (n i : Nat) : Mem := fun b => if b = 0 then inputAt n i else []
def memSizes (n : Nat) : Nat → Nat := fun b => if b = 0 then n else 0

theorem memAt_ok (n i : Nat) : Kdf.MemOk (memSizes n) (memAt n i) := by
  intro b
  unfold memAt memSizes
  split
  · exact inputAt_length n i
  · rfl

structure KdfInv (n i : Nat) (s : KdfState K0 K1) : Prop where
  wf0 : L0.Wf (memSizes n) s.o0
  wf1 : L1.Wf (memSizes n) s.o1
  mem : s.mem = memAt n i
  len0 : s.key0.length = n
  len1 : s.key1.length = n

theorem kdfBody_ends (n i j : Nat) (hj : j < n) (s : KdfState K0 K1) (hs : KdfInv L0 L1 n i s) (a0 : K0.Args) (a1 : K1.Args)
    (ha0 : ∀ s ∈ K0.spans a0, s.size ≤ memSizes n s.buf ∧ s.size < 2 ^ 64) (ha1 : ∀ s ∈ K1.spans a1, s.size ≤ memSizes n s.buf ∧ s.size < 2 ^ 64)
    (hl0 : n - 1 ≤ (S0 (memAt n i) a0).length) (hl1 : n - 1 ≤ (S1 (memAt n i) a1).length) :
    Ends (kdfBody h K0 K1 a0 a1 j s) ((S0 (memAt n i) a0).take j = (S1 (memAt n i) a1).take j) (KdfInv L0 L1 n i) := by
  obtain ⟨w0, w1, hm, k0, k1⟩ := hs
  have hok := memAt_ok n i
  obtain ⟨p0, e0, r0⟩ := L0.init _ (memAt n i) s.o0 a0 w0 hok ha0
  obtain ⟨p1, e1, r1⟩ := L1.init _ (memAt n i) s.o1 a1 w1 hok ha1
  obtain ⟨q0, d0, t0⟩ := L0.derive _ a0 _ p0 _ s.key0 j r0 hok (by omega) (by omega)
  obtain ⟨q1, d1, t1⟩ := L1.derive _ a1 _ p1 _ s.key1 j r1 hok (by omega) (by omega)
  have len0 : ((S0 (memAt n i) a0).take j ++ s.key0.drop j).length = n := by simp; omega
  have len1 : ((S1 (memAt n i) a1).take j ++ s.key1.drop j).length = n := by simp; omega
  have eq := equal_eq h (p := 1) (q := 1) (by omega) (by omega) ((S0 (memAt n i) a0).take j ++ s.key0.drop j) ((S1 (memAt n i) a1).take j ++ s.key1.drop j) j
    (by rw [len0]; omega) (by rw [len1]; omega)
  rw [image_bytes', image_bytes', List.take_left' (by simp; omega), List.take_left' (by simp; omega)] at eq
  have e : kdfBody h K0 K1 a0 a1 j s = if (S0 (memAt n i) a0).take j = (S1 (memAt n i) a1).take j then
      some (some ⟨q0, q1, memAt n i, (S0 (memAt n i) a0).take j ++ s.key0.drop j, (S1 (memAt n i) a1).take j ++ s.key1.drop j⟩) else some none := by
    unfold kdfBody
    simp only [hm, e0, e1, Kdf.deriveReq, d0, d1, eq, Option.bind_eq_bind, Option.bind_some, Option.pure_def, decide_eq_true_eq]
  rw [e]
  by_cases hc : (S0 (memAt n i) a0).take j = (S1 (memAt n i) a1).take j
  · rw [if_pos hc]
    exact .inl ⟨hc, _, rfl, L0.rep_wf _ _ _ _ _ t0, L1.rep_wf _ _ _ _ _ t1, rfl, len0, len1⟩
  · rw [if_neg hc]
    exact .inr ⟨hc, rfl⟩

include L0 L1 in
theorem kdfDifferential_eq (n : Nat) (hn : 0 < n) (args0 : Nat → K0.Args) (args1 : Nat → K1.Args)
    (ha0 : ∀ i, ∀ s ∈ K0.spans (args0 i), s.size ≤ memSizes n s.buf ∧ s.size < 2 ^ 64) (ha1 : ∀ i, ∀ s ∈ K1.spans (args1 i), s.size ≤ memSizes n s.buf ∧ s.size < 2 ^ 64)
    (hl0 : ∀ i, n - 1 ≤ (S0 (memAt n i) (args0 i)).length) (hl1 : ∀ i, n - 1 ≤ (S1 (memAt n i) (args1 i)).length) :
    ∃ r, kdfDifferential h K0 K1 args0 args1 n = some r ∧
      (r = true ↔ ∀ i, i < n → (S0 (memAt n i) (args0 i)).take (n - 1) = (S1 (memAt n i) (args1 i)).take (n - 1)) := by
  have hr : ∀ i s, i < n → KdfInv L0 L1 n i s →
      Ends (kdfRound h K0 K1 args0 args1 n i s) ((S0 (memAt n i) (args0 i)).take (n - 1) = (S1 (memAt n i) (args1 i)).take (n - 1)) (KdfInv L0 L1 n (i + 1)) := by
    intro i s hi hs
    have := loop_ends (kdfBody h K0 K1 (args0 i) (args1 i)) (fun _ => KdfInv L0 L1 n i)
      (fun j => (S0 (memAt n i) (args0 i)).take j = (S1 (memAt n i) (args1 i)).take j) n
      (fun j s hj hs => kdfBody_ends L0 L1 n i j hj s hs _ _ (ha0 i) (ha1 i) (hl0 i) (hl1 i)) n 0 s (by omega) hs
    have hp : (∀ k, 0 ≤ k → k < n → (S0 (memAt n i) (args0 i)).take k = (S1 (memAt n i) (args1 i)).take k) ↔
        (S0 (memAt n i) (args0 i)).take (n - 1) = (S1 (memAt n i) (args1 i)).take (n - 1) := by
      refine ⟨fun h => h _ (Nat.zero_le _) (by omega), fun h k _ hk => ?_⟩
      have := congrArg (List.take k) h
      rwa [List.take_take, List.take_take, Nat.min_eq_left (by omega)] at this
    rcases this.congr hp fun _ h => h with ⟨p, t, e, q⟩ | ⟨p, e⟩
    · refine .inl ⟨p, { t with mem := memAt n (i + 1) }, ?_, q.wf0, q.wf1, rfl, q.len0, q.len1⟩
      unfold kdfRound
      rw [e]
      simp only [q.mem]
      have h0 : memAt n i 0 = inputAt n i := by simp [memAt]
      rw [h0, inputAt_succ n i hi]
      have : (fun b => if b = 0 then inputAt n (i + 1) else memAt n i b) = memAt n (i + 1) := by
        funext b
        unfold memAt
        by_cases hb : b = 0
        · simp [hb]
        · simp [hb]
      simp only [Option.bind_eq_bind, Option.bind_some, Option.pure_def, this]
    · refine .inr ⟨p, ?_⟩
      unfold kdfRound
      rw [e]
  have := loop_ends (kdfRound h K0 K1 args0 args1 n) _ _ n hr n 0
    ⟨K0.fresh, K1.fresh, fun b => if b = 0 then List.replicate n 0 else [], List.replicate n 0, List.replicate n 0⟩ (by omega)
    ⟨L0.fresh _, L1.fresh _, by funext b; simp only [memAt, inputAt_zero], by simp, by simp⟩
  obtain ⟨r, e, h⟩ := this.result
  exact ⟨r, e, h.trans ⟨fun h i hi => h i (Nat.zero_le _) hi, fun h i _ hi => h i hi⟩⟩

end

/-! ### Ciphers -/

theorem equalC_eq (h : Host) (a b : List Byte) : equalC h (p := 1) (q := 1) a b = some (decide (a = b)) := by
  unfold equalC
  by_cases hl : a.length = b.length
  · simp only [hl, if_true]
    rw [equal_eq h (by omega) (by omega) _ _ _ (by omega) (by omega)]
    simp only [image_bytes', Nat.mul_one]
    rw [List.take_of_length_le (Nat.le_of_eq hl), List.take_length]
  · have : a ≠ b := fun e => hl (by rw [e])
    simp [hl, this]

section
open ChaCha Cipher

theorem streamed_piece (st : List W32) (src : List Byte) (offs n : Nat) :
    streamed st offs ((src.drop offs).take n) = ((streamed st 0 src).drop offs).take n := by
  unfold streamed
  apply List.ext_getElem?
  intro i
  simp only [List.getElem?_mapIdx, List.getElem?_take, List.getElem?_drop, Nat.zero_add]
  split
  · rfl
  · rfl

theorem streamed_invol (st : List W32) (pos : Nat) (x : List Byte) : streamed st pos (streamed st pos x) = x := by
  unfold streamed
  apply List.ext_getElem?
  intro i
  simp only [List.getElem?_mapIdx, Option.map_map]
  cases x[i]? with
  | none => rfl
  | some b => simp [BitVec.xor_assoc]

theorem cipherEnc_eq (h : Host) {B : Backend} (L : LawfulBackend B) (st0 : List W32) (pos : Nat) (o : Obj) (hr : ChaCha.Rep B st0 o pos) (key iv src dst : List Byte)
    (hl : dst.length = src.length) (size : Nat) (hs : 0 < size) :
    ∃ o', cipherEnc h B key iv o size src dst = some (o', streamed (initState key iv) 0 src) ∧ ∃ st pos, ChaCha.Rep B st o' pos := by
  obtain ⟨o1, e1, r1⟩ := init_rep h L st0 o pos hr key iv
  have hst : (streamed (initState key iv) 0 src).length = src.length := streamed_length _ _ _
  obtain ⟨⟨o2, mem⟩, e2, r2, m2⟩ := pieces_eq (fun (s : Obj × List Byte) offs n => do
      let (o, mem, _) ← ChaCha.encrypt h B s.1 s.2 offs n (src.length + offs)
      pure (o, mem)) src.length size hs
    (fun offs (s : Obj × List Byte) => ChaCha.Rep B (initState key iv) s.1 offs ∧ s.2 = src ++ ((streamed (initState key iv) 0 src).take offs ++ dst.drop offs)) (by
      rintro ⟨o, mem⟩ offs n hle ⟨hr, hm⟩
      simp only at hr hm
      have hlen : mem.length = src.length + src.length := by rw [hm]; simp [hst, hl]; omega
      obtain ⟨o', e, r⟩ := encrypt_eq h L (initState key iv) o offs hr mem offs n (src.length + offs) ⟨by omega, by omega, by omega⟩
      refine ⟨(o', xored mem (src.length + offs) offs (fun j => stream (initState key iv) (offs + j)) n), by simp only [e, Option.bind_eq_bind, Option.bind_some, Option.pure_def], r, ?_⟩
      simp only
      rw [xored_streamed _ _ _ _ _ _ (by omega)]
      have a1 : mem.take (src.length + offs) = src ++ (streamed (initState key iv) 0 src).take offs := by
        rw [hm, List.take_append, List.take_of_length_le (by omega), Nat.add_sub_cancel_left, List.take_left' (by simp [hst]; omega)]
      have a2 : (mem.drop offs).take n = (src.drop offs).take n := by
        rw [hm, List.drop_append, List.take_append, Nat.sub_eq_zero_of_le (by omega : offs ≤ src.length), List.drop_zero,
          Nat.sub_eq_zero_of_le (by simp; omega), List.take_zero, List.append_nil]
      have a3 : mem.drop (src.length + offs + n) = dst.drop (offs + n) := by
        rw [hm, Nat.add_assoc, List.drop_append, List.drop_of_length_le (by omega), List.nil_append, Nat.add_sub_cancel_left, List.drop_append,
          List.drop_of_length_le (by rw [List.length_take]; omega), List.nil_append, List.drop_drop]
        congr 1
        simp [hst]; omega
      rw [a1, a2, a3, streamed_piece, List.append_assoc src, take_add_piece, List.append_assoc])
    (o1, src ++ dst) ⟨r1, by simp⟩
  refine ⟨o2, ?_, _, _, r2⟩
  unfold cipherEnc
  simp only [e1, Option.bind_eq_bind, Option.bind_some]
  simp only [Option.bind_eq_bind] at e2
  rw [e2]
  simp only at m2
  simp only [Option.bind_some, Option.pure_def]
  rw [m2, List.drop_left, List.drop_of_length_le (by omega), List.append_nil, List.take_of_length_le (by omega)]

theorem cipherDec_eq_enc (h : Host) (B : Backend) (key iv : List Byte) (o : Obj) (size : Nat) (src dst : List Byte) :
    cipherDec h B key iv o size src dst = cipherEnc h B key iv o size src dst := (rfl)

structure CipherInv (B0 B1 : Backend) (s : CipherState) : Prop where
  o0 : ∃ st pos, ChaCha.Rep B0 st s.o0 pos
  o1 : ∃ st pos, ChaCha.Rep B1 st s.o1 pos
  key : s.key.length = 32
  iv : s.iv.length = 16
  data : s.data.length = 4096
  enc0 : s.enc0.length = 4096
  enc1 : s.enc1.length = 4096
  dec0 : s.dec0.length = 4096
  dec1 : s.dec1.length = 4096

theorem cipherBody_ends (h0 h1 : Host) {B0 B1 : Backend} (L0 : LawfulBackend B0) (L1 : LawfulBackend B1) (s : CipherState) (hs : CipherInv B0 B1 s) (a b : Nat)
    (ha : 0 < a) (hb : 0 < b) : Ends (cipherBody h0 h1 B0 B1 s a b) True (CipherInv B0 B1) := by
  obtain ⟨⟨st0, p0, r0⟩, ⟨st1, p1, r1⟩, hk, hiv, hd, he0, he1, hd0, hd1⟩ := hs
  obtain ⟨o0, e0, st0', p0', r0'⟩ := cipherEnc_eq h0 L0 st0 p0 s.o0 r0 s.key s.iv s.data s.enc0 (by omega) a ha
  obtain ⟨o1, e1, st1', p1', r1'⟩ := cipherEnc_eq h1 L1 st1 p1 s.o1 r1 s.key s.iv s.data s.enc1 (by omega) b hb
  have hl := streamed_length (initState s.key s.iv) 0 s.data
  obtain ⟨q0, f0, t0⟩ := cipherEnc_eq h0 L0 st0' p0' o0 r0' s.key s.iv (streamed (initState s.key s.iv) 0 s.data) s.dec0 (by omega) a ha
  obtain ⟨q1, f1, t1⟩ := cipherEnc_eq h1 L1 st1' p1' o1 r1' s.key s.iv (streamed (initState s.key s.iv) 0 s.data) s.dec1 (by omega) b hb
  rw [streamed_invol] at f0 f1
  refine .inl ⟨trivial, { s with o0 := q0, o1 := q1, enc0 := streamed (initState s.key s.iv) 0 s.data, enc1 := streamed (initState s.key s.iv) 0 s.data, dec0 := s.data, dec1 := s.data }, ?_, ?_⟩
  · unfold cipherBody
    simp only [e0, e1, f0, f1, cipherDec_eq_enc, equalC_eq, Option.bind_eq_bind, Option.bind_some, decide_true, if_true, Option.pure_def]
  · exact ⟨t0, t1, hk, hiv, hd, by simp only; omega, by simp only; omega, by simp only; omega, by simp only; omega⟩

theorem cipherDifferential_eq (h0 h1 : Host) {B0 B1 : Backend} (L0 : LawfulBackend B0) (L1 : LawfulBackend B1) : cipherDifferential h0 h1 B0 B1 = some true := by
  have hr : ∀ i s, i < 4096 → CipherInv B0 B1 s → Ends (cipherRound h0 h1 B0 B1 i s) True (CipherInv B0 B1) := by
    intro i s hi hs
    have := sizes_start 4096 (1 + i) (by omega) (cipherBody h0 h1 B0 B1) (fun _ => CipherInv B0 B1) (fun _ => True)
      (fun n o _ ho => cipherBody_ends h0 h1 L0 L1 o ho _ _ (sizeA_pos _ _) (sizeB_pos _ _)) s hs
    rcases this with ⟨-, t, e, k, q⟩ | ⟨p, -⟩
    · obtain ⟨q0, q1, hk, hiv, hd, he0, he1, hd0, hd1⟩ := q
      refine .inl ⟨trivial, { t with key := t.key.set (i % 32) (BitVec.ofNat 8 i), iv := t.iv.set (i % 16) (BitVec.ofNat 8 i), data := t.data.set i (BitVec.ofNat 8 i) }, ?_,
        ⟨q0, q1, by simp [hk], by simp [hiv], by simp [hd], he0, he1, hd0, hd1⟩⟩
      unfold cipherRound
      rw [e]
      simp only [wr1]
      rw [if_pos (by rw [hk]; exact Nat.mod_lt _ (by omega)), if_pos (by rw [hiv]; exact Nat.mod_lt _ (by omega)), if_pos (by omega)]
      rfl
    · exact absurd (fun _ _ => trivial) p
  have hz : (List.replicate 4096 (0 : Byte)).length = 4096 := List.length_replicate
  unfold cipherDifferential
  simp only
  generalize List.replicate 4096 (0 : Byte) = z at hz
  have := loop_ends (cipherRound h0 h1 B0 B1) (fun _ => CipherInv B0 B1) (fun _ => True) 4096 hr 4096 0
    ⟨ChaCha.fresh, ChaCha.fresh, List.replicate 32 0, List.replicate 16 0, z, z, z, z, z⟩ (by omega)
    ⟨⟨_, _, fresh_rep L0⟩, ⟨_, _, fresh_rep L1⟩, List.length_replicate, List.length_replicate, hz, hz, hz, hz, hz⟩
  rcases this with ⟨-, t, e, -⟩ | ⟨p, -⟩
  · rw [e]; rfl
  · exact absurd (fun _ _ _ => trivial) p

end

end Milo.SelfTest
