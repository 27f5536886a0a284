import Verif.Model.Mixed
import Verif.Proof.Cipher
import Verif.Proof.MacAlg
/- Objects carried from one host to another. -/
namespace Milo
open Memory

/-- A reading of the objects of a family that does not depend on the circumstances: `out` gives what a call outputs, where it is specified. -/
structure Family.Reading {ι C O : Type} (P : Family ι C O) (A : Type) where
  R : ∀ i, P.S i → A → Prop
  Good : ι → Prop
  Ok : C → Prop
  next : A → C → A
  out : A → C → Option (List O)
  law : ∀ i o a c, Good i → Ok c → R i o a → ∃ o' outs, P.exec i o c = some (o', outs) ∧ R i o' (next a c) ∧ ∀ l, out a c = some l → outs = l
  carried : ∀ i j o a, Good i → Good j → R i o a → R j (P.carry i j o) a

namespace Family.Reading
variable {ι C O A : Type} {P : Family ι C O} (Q : P.Reading A)

def final (a : A) (cs : List C) : A := cs.foldl Q.next a

def outs : A → List C → Option (List O)
  | _, [] => some []
  | a, c :: cs => do
    let x ← Q.out a c
    let y ← outs (Q.next a c) cs
    pure (x ++ y)

theorem outs_append (a : A) (cs ds : List C) (x y : List O) (h1 : Q.outs a cs = some x) (h2 : Q.outs (Q.final a cs) ds = some y) :
    Q.outs a (cs ++ ds) = some (x ++ y) := by
  induction cs generalizing a x with
  | nil => simp only [outs] at h1; cases h1; exact h2
  | cons c cs ih =>
    simp only [outs, List.cons_append, Option.bind_eq_bind] at h1 ⊢
    cases ho : Q.out a c with
    | none => rw [ho] at h1; simp at h1
    | some u =>
      rw [ho] at h1
      simp only [Option.bind_some] at h1 ⊢
      cases hr : Q.outs (Q.next a c) cs with
      | none => rw [hr] at h1; simp at h1
      | some v =>
        rw [hr] at h1
        simp only [Option.bind_some, Option.pure_def, Option.some.injEq] at h1
        rw [ih _ v hr h2]
        simp [← h1]

theorem run_eq (cs : List (ι × C)) (hc : ∀ c ∈ cs, Q.Good c.1 ∧ Q.Ok c.2) (o : Σ i, P.S i) (a : A) (hg : Q.Good o.1) (hr : Q.R o.1 o.2 a) :
    ∃ o' outs, P.run o cs = some (o', outs) ∧ Q.Good o'.1 ∧ Q.R o'.1 o'.2 (Q.final a (cs.map (·.2))) ∧
      ∀ l, Q.outs a (cs.map (·.2)) = some l → outs = l := by
  induction cs generalizing o a with
  | nil => exact ⟨o, [], rfl, hg, hr, fun l h => by simp only [outs, List.map_nil] at h; cases h; rfl⟩
  | cons c cs ih =>
    obtain ⟨h1, h2⟩ := hc c List.mem_cons_self
    obtain ⟨o1, u1, e1, r1, l1⟩ := Q.law c.1 _ a c.2 h1 h2 (Q.carried o.1 c.1 o.2 a hg h1 hr)
    obtain ⟨o2, u2, e2, g2, r2, l2⟩ := ih (fun c h => hc c (List.mem_cons_of_mem _ h)) ⟨c.1, o1⟩ _ h1 r1
    refine ⟨o2, u1 ++ u2, ?_, g2, r2, ?_⟩
    · unfold Family.run at e2 ⊢
      simp only [runCalls, Family.step, e1, e2, Option.bind_eq_bind, Option.bind_some, Option.pure_def]
    · intro l hl
      simp only [outs, List.map_cons, Option.bind_eq_bind] at hl
      cases ho : Q.out a c.2 with
      | none => rw [ho] at hl; simp at hl
      | some x =>
        rw [ho] at hl
        simp only [Option.bind_some] at hl
        cases hq : Q.outs (Q.next a c.2) (cs.map (·.2)) with
        | none => rw [hq] at hl; simp at hl
        | some y =>
          rw [hq] at hl
          simp only [Option.bind_some, Option.pure_def, Option.some.injEq] at hl
          rw [l1 x ho, l2 y hq, hl]

/-- Calls of which the last ones have a specified output from any state. -/
theorem run_after (pre post : List C) (cs : List (ι × C)) (he : cs.map (·.2) = pre ++ post) (hc : ∀ c ∈ cs, Q.Good c.1 ∧ Q.Ok c.2) (o : Σ i, P.S i) (a : A)
    (hg : Q.Good o.1) (hr : Q.R o.1 o.2 a) (l : List O) (hl : Q.outs (Q.final a pre) post = some l) :
    ∃ o' outs, P.run o cs = some (o', outs ++ l) ∧ Q.R o'.1 o'.2 (Q.final a (pre ++ post)) := by
  obtain ⟨cs1, cs2, rfl, rfl, rfl⟩ := List.map_eq_append_iff.mp he
  obtain ⟨o1, u1, e1, g1, r1, -⟩ := Q.run_eq cs1 (fun c h => hc c (by simp [h])) o a hg hr
  obtain ⟨o2, u2, e2, g2, r2, l2⟩ := Q.run_eq cs2 (fun c h => hc c (by simp [h])) o1 _ g1 r1
  refine ⟨o2, u1, ?_, by unfold final at *; rw [List.foldl_append]; exact r2⟩
  unfold Family.run at *
  rw [runCalls_append, e1, Option.bind_some, e2, ← l2 l hl]; rfl

end Family.Reading

/-! ### hash objects -/

/-- What an object has been fed since `initialize`, and whether it has been finalized; `none`: misused. -/
abbrev HashHas := Option (List Byte × Bool)

def hashNext : HashHas → Hash.Call → HashHas
  | _, .init => some ([], false)
  | some (m, false), .update x => if x.length < 2 ^ 64 then some (m ++ x, false) else none
  | _, .update _ => none
  | some (m, false), .finalize => some (m, true)
  | _, .finalize => none
  | a, .digest _ _ => a

def hashOut (F : List Byte → List Byte) : HashHas → Hash.Call → Option (List Hash.Out)
  | some (m, true), .digest dst n => some [Spec.written (F m) dst n]
  | _, .digest _ _ => none
  | _, _ => some []

def hashR {H : HashImpl} {F : List Byte → List Byte} (L : Lawful H F) (o : H.σ) : HashHas → Prop
  | none => L.Wf o
  | some (m, false) => L.Rep o m
  | some (m, true) => L.Fin o m

theorem hashR_wf {H : HashImpl} {F : List Byte → List Byte} (L : Lawful H F) (o : H.σ) (a : HashHas) (h : hashR L o a) : L.Wf o := by
  match a, h with
  | none, h => exact h
  | some (m, false), h => exact L.rep_wf _ _ h
  | some (m, true), h => exact L.fin_wf _ _ h

theorem hash_law {H : HashImpl} {F : List Byte → List Byte} (L : Lawful H F) (o : H.σ) (a : HashHas) (c : Hash.Call) (hc : c.Ok H.digestSize)
    (hr : hashR L o a) : ∃ o' outs, Hash.exec H o c = some (o', outs) ∧ hashR L o' (hashNext a c) ∧ ∀ l, hashOut F a c = some l → outs = l := by
  have hw := hashR_wf L o a hr
  have wf : ∀ c : Hash.Call, c.Ok H.digestSize → ∃ o' out, Hash.exec H o c = some (o', out) ∧ L.Wf o' := fun c hc => Hash.exec_wf L o c hw hc
  cases c with
  | init => exact ⟨_, _, rfl, L.init o hw, fun l h => by cases a with | none => cases h; rfl | some p => obtain ⟨m, b⟩ := p; cases b <;> (cases h; rfl)⟩
  | update x =>
    have hout : ∀ l, hashOut F a (.update x) = some l → [] = l := fun l h => by
      cases a with | none => cases h; rfl | some p => obtain ⟨m, b⟩ := p; cases b <;> (cases h; rfl)
    have gen : hashNext a (.update x) = none → ∃ o' outs, Hash.exec H o (.update x) = some (o', outs) ∧ hashR L o' (hashNext a (.update x)) ∧
        ∀ l, hashOut F a (.update x) = some l → outs = l := fun hn => by
      obtain ⟨o', e, w⟩ := L.update_wf o x hw
      exact ⟨o', [], by simp [Hash.exec, e], by rw [hn]; exact w, hout⟩
    match a, hr with
    | none, hr => exact gen rfl
    | some (m, true), hr => exact gen rfl
    | some (m, false), hr =>
      by_cases hx : x.length < 2 ^ 64
      · obtain ⟨o', e, r⟩ := L.update o m x hr hx
        exact ⟨o', [], by simp [Hash.exec, e], by simp only [hashNext, if_pos hx]; exact r, hout⟩
      · exact gen (by simp only [hashNext, if_neg hx])
  | finalize =>
    have hout : ∀ l, hashOut F a .finalize = some l → [] = l := fun l h => by
      cases a with | none => cases h; rfl | some p => obtain ⟨m, b⟩ := p; cases b <;> (cases h; rfl)
    have gen : hashNext a .finalize = none → ∃ o' outs, Hash.exec H o .finalize = some (o', outs) ∧ hashR L o' (hashNext a .finalize) ∧
        ∀ l, hashOut F a .finalize = some l → outs = l := fun hn => by
      obtain ⟨o', e, w⟩ := L.finalize_wf o hw
      exact ⟨o', [], by simp [Hash.exec, e], by rw [hn]; exact w, hout⟩
    match a, hr with
    | none, hr => exact gen rfl
    | some (m, true), hr => exact gen rfl
    | some (m, false), hr =>
      obtain ⟨o', e, r⟩ := L.finalize o m hr
      exact ⟨o', [], by simp [Hash.exec, e], r, hout⟩
  | digest dst n =>
    obtain ⟨out, e, -⟩ := L.digest_wf o dst n hw hc
    refine ⟨o, _, by simp only [Hash.exec, e, Option.bind_eq_bind, Option.bind_some, Option.pure_def]; rfl, ?_, ?_⟩
    · match a, hr with
      | none, hr => exact hr
      | some (m, true), hr => exact hr
      | some (m, false), hr => exact hr
    · match a, hr with
      | none, hr => intro l h; cases h
      | some (m, false), hr => intro l h; cases h
      | some (m, true), hr =>
        intro l h
        simp only [hashOut, Option.some.injEq] at h
        rw [← h]
        rw [L.digest o m dst n hr hc, HashApie.take_min L] at e
        simp only [Option.some.injEq] at e
        rw [← e, Spec.written, L.length]

theorem Sha1.laws (ds : Nat) (hd : ds ≤ 20) (G : List Byte → List Byte) (e : Sha1.F ds = G) :
    ∃ L : ∀ h, Lawful (Sha1.impl h (Sha1.blocks h) ds) G, ∀ h1 h2 (o : Sha1.Obj), ((L h1).Wf o → (L h2).Wf o) ∧
      ∀ m, ((L h1).Rep o m → (L h2).Rep o m) ∧ ((L h1).Fin o m → (L h2).Fin o m) := by
  subst e
  exact ⟨fun h => Sha1.lawful h (Sha1.blocks_ok h) ds hd, fun _ _ o => ⟨fun (w : Sha1.Wf o) => w, fun m => ⟨fun (w : Sha1.Rep o m) => w, fun (w : Sha1.Fin o m) => w⟩⟩⟩

theorem Sha256.laws (bits ds : Nat) (hb : bits = 224 ∨ bits = 256) (hd : ds ≤ 32) (G : List Byte → List Byte) (e : Sha256.F bits ds = G) :
    ∃ L : ∀ h, Lawful (Sha256.impl h (Sha256.blocks h) bits ds) G, ∀ h1 h2 (o : Sha256.Obj), ((L h1).Wf o → (L h2).Wf o) ∧
      ∀ m, ((L h1).Rep o m → (L h2).Rep o m) ∧ ((L h1).Fin o m → (L h2).Fin o m) := by
  subst e
  exact ⟨fun h => Sha256.lawful h (Sha256.blocks_ok h) bits ds hb hd, fun _ _ o => ⟨fun (w : Sha256.Wf o) => w, fun m => ⟨fun (w : Sha256.Rep bits o m) => w, fun (w : Sha256.Fin bits o m) => w⟩⟩⟩

theorem Sha512.laws (bits ds : Nat) (hb : bits = 224 ∨ bits = 256 ∨ bits = 384 ∨ bits = 512) (hd : ds ≤ 64) (G : List Byte → List Byte) (e : Sha512.F bits ds = G) :
    ∃ L : ∀ h, Lawful (Sha512.impl h (Sha512.blocksSw h) bits ds) G, ∀ h1 h2 (o : Sha512.Obj), ((L h1).Wf o → (L h2).Wf o) ∧
      ∀ m, ((L h1).Rep o m → (L h2).Rep o m) ∧ ((L h1).Fin o m → (L h2).Fin o m) := by
  subst e
  exact ⟨fun h => Sha512.lawful h (Sha512.blocksSw_ok h) bits ds hb hd, fun _ _ o => ⟨fun (w : Sha512.Wf o) => w, fun m => ⟨fun (w : Sha512.Rep bits o m) => w, fun (w : Sha512.Fin bits o m) => w⟩⟩⟩

/-- Laws for every host that speak of the members alone. -/
theorem sha_laws (a : ShaAlg) (ds : Nat) (hds : ds ≤ a.size) :
    ∃ L : ∀ h, Lawful (a.impl h ds) (fun m => (shaSpec a m).take ds), ∀ h1 h2 o, ((L h1).Wf o → (L h2).Wf (a.carry h1 h2 ds o)) ∧
      ∀ m, ((L h1).Rep o m → (L h2).Rep (a.carry h1 h2 ds o) m) ∧ ((L h1).Fin o m → (L h2).Fin (a.carry h1 h2 ds o) m) := by
  cases a with
  | sha_1_160 => exact Sha1.laws ds hds _ rfl
  | sha_2_224 =>
    refine Sha256.laws 224 ds (.inl rfl) (by simp [ShaAlg.size] at hds; omega) _ ?_
    funext m
    simp only [Sha256.F, shaSpec, Spec.Sha.sha224, Sha256.iv224_eq]
    exact (take_take_min _ _ _ hds).symm
  | sha_2_256 =>
    refine Sha256.laws 256 ds (.inr rfl) (by simp [ShaAlg.size] at hds; omega) _ ?_
    funext m
    simp only [Sha256.F, shaSpec, Spec.Sha.sha256, Sha256.iv256_eq]
    rfl
  | sha_2_384 =>
    refine Sha512.laws 384 ds (.inr (.inr (.inl rfl))) (by simp [ShaAlg.size] at hds; omega) _ ?_
    funext m
    simp only [Sha512.F, shaSpec, Spec.Sha.sha384, Sha512.iv384_eq]
    exact (take_take_min _ _ _ hds).symm
  | sha_2_512 =>
    refine Sha512.laws 512 ds (.inr (.inr (.inr rfl))) (by simp [ShaAlg.size] at hds; omega) _ ?_
    funext m
    simp only [Sha512.F, shaSpec, Spec.Sha.sha512, Sha512.iv512_eq]
    rfl
  | sha_2_512_224 =>
    refine Sha512.laws 224 ds (.inl rfl) (by simp [ShaAlg.size] at hds; omega) _ ?_
    funext m
    simp only [Sha512.F, shaSpec, Spec.Sha.sha512_224, Sha512.iv224_eq]
    exact (take_take_min _ _ _ hds).symm
  | sha_2_512_256 =>
    refine Sha512.laws 256 ds (.inr (.inl rfl)) (by simp [ShaAlg.size] at hds; omega) _ ?_
    funext m
    simp only [Sha512.F, shaSpec, Spec.Sha.sha512_256, Sha512.iv256_eq]
    exact (take_take_min _ _ _ hds).symm

/-! ### mac objects -/

theorem Hmac.lawful_block (h : Host) {H : HashImpl} {F : List Byte → List Byte} (L : Lawful H F) (B ds : Nat) (hB : H.blockSize = B) (hds : ds ≤ H.digestSize)
    (hD : H.digestSize ≤ B) (hB' : B < 2 ^ 63) :
    ∃ M : LawfulMac (Hmac.impl h H ds) (fun k m => (Spec.hmac B F k m).take ds), M.Wf = Hmac.Wf L ∧ M.Rep = Hmac.Rep L ∧ M.Fin = Hmac.Fin L := by
  subst hB
  exact ⟨Hmac.lawful h L ds hds hD hB', rfl, rfl, rfl⟩

theorem Poly1305.lawful_spec (h : Host) (ds : Nat) (hds : ds ≤ 16) :
    ∃ M : LawfulMac (Poly1305.impl h ds) (fun k m => (Spec.macOn h.endian .poly_1305 k m).take ds),
      M.Wf = Poly1305.Wf ∧ M.Rep = Poly1305.Rep h ∧ M.Fin = Poly1305.Fin h := by
  rw [← polyF_eq]
  exact ⟨Poly1305.lawful h ds hds, rfl, rfl, rfl⟩

theorem Poly1305.comp_host (h1 h2 : Host) : Poly1305.comp h1 = Poly1305.comp h2 := by
  have hl : ∀ (src : List Byte) (i : Nat), loadLe h1 false 4 (p := 1) src i = loadLe h2 false 4 (p := 1) src i := by
    intro src i
    rw [loadLe_eq h1 _ ⟨by omega, by omega, .inl ⟨4, by omega⟩⟩ (by simp [Swappable]), loadLe_eq h2 _ ⟨by omega, by omega, .inl ⟨4, by omega⟩⟩ (by simp [Swappable]),
      image_bytes', image_bytes']
  have ha : ∀ add a src, Poly1305.addStep h1 add a src = Poly1305.addStep h2 add a src := by
    intro add a src
    unfold Poly1305.addStep
    simp only [hl]
  funext k add st blk
  unfold Poly1305.comp Poly1305.stepAcc
  rw [ha]

theorem Hmac.carry_laws {H1 H2 : HashImpl} {F : List Byte → List Byte} (L1 : Lawful H1 F) (L2 : Lawful H2 F) (B : Nat) (b1 : H1.blockSize = B) (b2 : H2.blockSize = B)
    (f : H1.σ → H2.σ) (hf : ∀ o, (L1.Wf o → L2.Wf (f o)) ∧ ∀ m, (L1.Rep o m → L2.Rep (f o) m) ∧ (L1.Fin o m → L2.Fin (f o) m)) (o : Hmac.Obj H1) :
    (Hmac.Wf L1 o → Hmac.Wf L2 ⟨f o.hash, o.buffer⟩) ∧
      ∀ k m, (Hmac.Rep L1 o k m → Hmac.Rep L2 ⟨f o.hash, o.buffer⟩ k m) ∧ (Hmac.Fin L1 o k m → Hmac.Fin L2 ⟨f o.hash, o.buffer⟩ k m) := by
  unfold Hmac.Wf Hmac.Rep Hmac.Fin
  rw [b1, b2]
  obtain ⟨c1, c2⟩ := hf o.hash
  exact ⟨fun w => ⟨c1 w.1, w.2⟩, fun k m => ⟨fun w => ⟨(c2 _).1 w.1, w.2⟩, fun w => ⟨(c2 _).2 w.1, w.2⟩⟩⟩

theorem mac_laws (a : MacAlg) (ha : a.Ok) (ds : Nat) (hds : ds ≤ a.size) :
    ∃ L : ∀ h, LawfulMac (a.impl h ds) (fun k m => (Spec.macOn h.endian a k m).take ds), ∀ h1 h2 o, h1.endian = h2.endian →
      ((L h1).Wf o → (L h2).Wf (a.carry h1 h2 ds o)) ∧
      ∀ k m, ((L h1).Rep o k m → (L h2).Rep (a.carry h1 h2 ds o) k m) ∧ ((L h1).Fin o k m → (L h2).Fin (a.carry h1 h2 ds o) k m) := by
  cases a with
  | hmac a hs =>
    obtain ⟨L, hL⟩ := sha_laws a hs ha
    have hb := shaBlock_le a
    have ha' : hs ≤ a.size := ha
    have H := fun h => Hmac.lawful_block h (L h) (shaBlock a) ds (shaBlockSize h a hs) (by rw [shaDigestSize]; exact hds) (by rw [shaDigestSize]; omega) (by omega)
    refine ⟨fun h => (H h).choose, fun h1 h2 o _ => ?_⟩
    obtain ⟨w1, r1, f1⟩ := (H h1).choose_spec
    obtain ⟨w2, r2, f2⟩ := (H h2).choose_spec
    rw [w1, w2, r1, r2, f1, f2]
    exact Hmac.carry_laws (L h1) (L h2) (shaBlock a) (shaBlockSize h1 a hs) (shaBlockSize h2 a hs) (a.carry h1 h2 hs) (hL h1 h2) o
  | poly_1305 =>
    have H := fun h => Poly1305.lawful_spec h ds hds
    refine ⟨fun h => (H h).choose, fun h1 h2 o he => ?_⟩
    obtain ⟨w1, r1, f1⟩ := (H h1).choose_spec
    obtain ⟨w2, r2, f2⟩ := (H h2).choose_spec
    rw [w1, w2, r1, r2, f1, f2]
    refine ⟨fun w => w, fun k m => ⟨fun w => ?_, fun w => ?_⟩⟩
    · exact ⟨w.wf, he ▸ w.kr, he ▸ w.ks, Poly1305.comp_host h1 h2 ▸ w.soaked⟩
    · exact ⟨w.wf, he ▸ w.tag⟩

/-- The key, what has been fed since `initialize`, and whether it has been finalized. -/
abbrev MacHas := Option (List Byte × List Byte × Bool)

def macNext : MacHas → Mac.Call → MacHas
  | _, .init k => some (k, [], false)
  | some (k, m, false), .update x => if x.length < 2 ^ 64 then some (k, m ++ x, false) else none
  | _, .update _ => none
  | some (k, m, false), .finalize => some (k, m, true)
  | _, .finalize => none
  | a, .digest _ _ => a

def macOut (F : List Byte → List Byte → List Byte) : MacHas → Mac.Call → Option (List Mac.Out)
  | some (k, m, true), .digest dst n => some [Spec.written (F k m) dst n]
  | _, .digest _ _ => none
  | _, _ => some []

def macR {H : MacImpl} {F : List Byte → List Byte → List Byte} (L : LawfulMac H F) (o : H.σ) : MacHas → Prop
  | none => L.Wf o
  | some (k, m, false) => L.Rep o k m
  | some (k, m, true) => L.Fin o k m

theorem macR_wf {H : MacImpl} {F : List Byte → List Byte → List Byte} (L : LawfulMac H F) (o : H.σ) (a : MacHas) (h : macR L o a) : L.Wf o := by
  match a, h with
  | none, h => exact h
  | some (k, m, false), h => exact L.rep_wf _ _ _ h
  | some (k, m, true), h => exact L.fin_wf _ _ _ h

theorem mac_law {H : MacImpl} {F : List Byte → List Byte → List Byte} (L : LawfulMac H F) (o : H.σ) (a : MacHas) (c : Mac.Call) (hc : c.Ok H.digestSize)
    (hr : macR L o a) : ∃ o' outs, Mac.exec H o c = some (o', outs) ∧ macR L o' (macNext a c) ∧ ∀ l, macOut F a c = some l → outs = l := by
  have hw := macR_wf L o a hr
  cases c with
  | init k =>
    obtain ⟨o', e, r⟩ := L.init o k hw hc
    exact ⟨o', [], by simp [Mac.exec, e], r, fun l h => by cases a with | none => cases h; rfl | some p => obtain ⟨k, m, b⟩ := p; cases b <;> (cases h; rfl)⟩
  | update x =>
    have hout : ∀ l, macOut F a (.update x) = some l → [] = l := fun l h => by
      cases a with | none => cases h; rfl | some p => obtain ⟨k, m, b⟩ := p; cases b <;> (cases h; rfl)
    have gen : macNext a (.update x) = none → ∃ o' outs, Mac.exec H o (.update x) = some (o', outs) ∧ macR L o' (macNext a (.update x)) ∧
        ∀ l, macOut F a (.update x) = some l → outs = l := fun hn => by
      obtain ⟨o', e, w⟩ := L.update_wf o x hw
      exact ⟨o', [], by simp [Mac.exec, e], by rw [hn]; exact w, hout⟩
    match a, hr with
    | none, hr => exact gen rfl
    | some (k, m, true), hr => exact gen rfl
    | some (k, m, false), hr =>
      by_cases hx : x.length < 2 ^ 64
      · obtain ⟨o', e, r⟩ := L.update o k m x hr hx
        exact ⟨o', [], by simp [Mac.exec, e], by simp only [macNext, if_pos hx]; exact r, hout⟩
      · exact gen (by simp only [macNext, if_neg hx])
  | finalize =>
    have hout : ∀ l, macOut F a .finalize = some l → [] = l := fun l h => by
      cases a with | none => cases h; rfl | some p => obtain ⟨k, m, b⟩ := p; cases b <;> (cases h; rfl)
    have gen : macNext a .finalize = none → ∃ o' outs, Mac.exec H o .finalize = some (o', outs) ∧ macR L o' (macNext a .finalize) ∧
        ∀ l, macOut F a .finalize = some l → outs = l := fun hn => by
      obtain ⟨o', e, w⟩ := L.finalize_wf o hw
      exact ⟨o', [], by simp [Mac.exec, e], by rw [hn]; exact w, hout⟩
    match a, hr with
    | none, hr => exact gen rfl
    | some (k, m, true), hr => exact gen rfl
    | some (k, m, false), hr =>
      obtain ⟨o', e, r⟩ := L.finalize o k m hr
      exact ⟨o', [], by simp [Mac.exec, e], r, hout⟩
  | digest dst n =>
    obtain ⟨out, e, -⟩ := L.digest_wf o dst n hw hc
    refine ⟨o, _, by simp only [Mac.exec, e, Option.bind_eq_bind, Option.bind_some, Option.pure_def]; rfl, ?_, ?_⟩
    · match a, hr with
      | none, hr => exact hr
      | some (k, m, true), hr => exact hr
      | some (k, m, false), hr => exact hr
    · match a, hr with
      | none, hr => intro l h; cases h
      | some (k, m, false), hr => intro l h; cases h
      | some (k, m, true), hr =>
        intro l h
        simp only [macOut, Option.some.injEq] at h
        rw [← h]
        rw [Mac.digest_written L o k m dst n hr hc] at e
        simp only [Option.some.injEq] at e
        rw [← e]

/-! ### apie objects -/

/-- What an `apie` object has been fed since construction or `initialize`, and whether a digest has been taken. -/
def hashApieNext : HashHas → HashApie.Call → HashHas
  | _, .init => some ([], false)
  | some (m, false), .update x => if x.length < 2 ^ 64 then some (m ++ x, false) else none
  | _, .update _ => none
  | some (m, _), .digest _ _ => some (m, true)
  | some (m, _), .digestC _ _ => some (m, true)
  | none, _ => none

def hashApieOut (F : List Byte → List Byte) : HashHas → HashApie.Call → Option (List HashApie.Out)
  | some (m, _), .digest dst n => some [Spec.written (F m) dst n]
  | some (m, _), .digestC c n => some [((Spec.contained (F m) c n).1.data, (Spec.contained (F m) c n).2)]
  | none, .digest _ _ => none
  | none, .digestC _ _ => none
  | _, _ => some []

def hashApieR {H : HashImpl} {F : List Byte → List Byte} (L : Lawful H F) (o : HashApie.Obj H) : HashHas → Prop
  | none => L.Wf o.impl
  | some (m, b) => o.finalized = b ∧ if b then L.Fin o.impl m else L.Rep o.impl m

theorem hashApieR_wf {H : HashImpl} {F : List Byte → List Byte} (L : Lawful H F) (o : HashApie.Obj H) (a : HashHas) (h : hashApieR L o a) : L.Wf o.impl := by
  match a, h with
  | none, h => exact h
  | some (m, false), h => exact L.rep_wf _ _ h.2
  | some (m, true), h => exact L.fin_wf _ _ h.2

theorem hashApieR_holds {H : HashImpl} {F : List Byte → List Byte} (L : Lawful H F) (o : HashApie.Obj H) (m : List Byte) (b : Bool)
    (h : hashApieR L o (some (m, b))) : HashApie.Holds L o m := by
  cases b with
  | false => exact .inl ⟨h.1, h.2⟩
  | true => exact .inr ⟨h.1, h.2⟩

theorem hashApie_digest {H : HashImpl} {F : List Byte → List Byte} (L : Lawful H F) (o : HashApie.Obj H) (m : List Byte) (ho : HashApie.Holds L o m)
    (dst : List Byte) (n : Nat) (hn : min n H.digestSize ≤ dst.length) :
    ∃ o', HashApie.digest H o dst n = some (o', Spec.written (F m) dst n) ∧ hashApieR L o' (some (m, true)) := by
  obtain ⟨o', e, hf, f⟩ := HashApie.doFinalize_holds L o m ho
  have ed := L.digest o'.impl m dst n f hn
  rw [HashApie.take_min L] at ed
  exact ⟨o', by simp [HashApie.digest, e, ed, Spec.written, L.length], hf, f⟩

theorem hashApie_digestC {H : HashImpl} {F : List Byte → List Byte} (L : Lawful H F) (o : HashApie.Obj H) (m : List Byte) (ho : HashApie.Holds L o m)
    (c : Container) (n : Nat) : ∃ o', HashApie.digestC H o c n = some (o', Spec.contained (F m) c n) ∧ hashApieR L o' (some (m, true)) := by
  obtain ⟨o2, e2, -⟩ := HashApie.digestC_holds L o m ho c n
  refine ⟨o2, e2, ?_⟩
  obtain ⟨o1, e1, hf, f1⟩ := HashApie.doFinalize_holds L o m ho
  have h1 := HashApie.resize_fits c (min n H.digestSize)
  obtain ⟨o3, e3, r3⟩ := hashApie_digest L o1 m (.inr ⟨hf, f1⟩) (c.resize (min n H.digestSize)).1.data (c.resize (min n H.digestSize)).2 (by omega)
  simp only [HashApie.digestC, e1, e3, Option.bind_eq_bind, Option.bind_some, Option.pure_def, Option.some.injEq, Prod.mk.injEq] at e2
  rw [← e2.1]; exact r3

theorem hashApie_law {H : HashImpl} {F : List Byte → List Byte} (L : Lawful H F) (o : HashApie.Obj H) (a : HashHas) (c : HashApie.Call)
    (hc : c.Ok H.digestSize) (hr : hashApieR L o a) :
    ∃ o' outs, HashApie.exec H o c = some (o', outs) ∧ hashApieR L o' (hashApieNext a c) ∧ ∀ l, hashApieOut F a c = some l → outs = l := by
  have hw := hashApieR_wf L o a hr
  cases c with
  | init => exact ⟨_, _, rfl, ⟨rfl, L.init _ hw⟩, fun l h => by cases a with | none => cases h; rfl | some p => cases h; rfl⟩
  | update x =>
    have hout : ∀ l, hashApieOut F a (.update x) = some l → [] = l := fun l h => by
      cases a with | none => cases h; rfl | some p => cases h; rfl
    have gen : hashApieNext a (.update x) = none → ∃ o' outs, HashApie.exec H o (.update x) = some (o', outs) ∧
        hashApieR L o' (hashApieNext a (.update x)) ∧ ∀ l, hashApieOut F a (.update x) = some l → outs = l := fun hn => by
      obtain ⟨i, e, w⟩ := L.update_wf o.impl x hw
      exact ⟨{ o with impl := i }, [], by simp [HashApie.exec, HashApie.update, e], by rw [hn]; exact w, hout⟩
    match a, hr with
    | none, hr => exact gen rfl
    | some (m, true), hr => exact gen rfl
    | some (m, false), hr =>
      by_cases hx : x.length < 2 ^ 64
      · obtain ⟨i, e, r⟩ := L.update o.impl m x hr.2 hx
        exact ⟨{ o with impl := i }, [], by simp [HashApie.exec, HashApie.update, e], by simp only [hashApieNext, if_pos hx]; exact ⟨hr.1, r⟩, hout⟩
      · exact gen (by simp only [hashApieNext, if_neg hx])
  | digest dst n =>
    match a, hr with
    | none, hr =>
      obtain ⟨o', out, e, w⟩ := HashApie.digest_wf L o hw dst n hc
      exact ⟨o', [out], by simp [HashApie.exec, e], w, fun l h => by cases h⟩
    | some (m, b), hr =>
      obtain ⟨o', e, r⟩ := hashApie_digest L o m (hashApieR_holds L o m b hr) dst n hc
      exact ⟨o', _, by simp only [HashApie.exec, e, Option.bind_eq_bind, Option.bind_some, Option.pure_def]; rfl, r, fun l h => by cases h; rfl⟩
  | digestC c n =>
    match a, hr with
    | none, hr =>
      obtain ⟨o', out, e, w⟩ := HashApie.exec_wf L o (.digestC c n) hw hc
      exact ⟨o', out, e, w, fun l h => by cases h⟩
    | some (m, b), hr =>
      obtain ⟨o', e, r⟩ := hashApie_digestC L o m (hashApieR_holds L o m b hr) c n
      exact ⟨o', _, by simp only [HashApie.exec, e, Option.bind_eq_bind, Option.bind_some, Option.pure_def]; rfl, r, fun l h => by cases h; rfl⟩

def macApieNext : MacHas → MacApie.Call → MacHas
  | _, .init k => some (k, [], false)
  | some (k, m, false), .update x => if x.length < 2 ^ 64 then some (k, m ++ x, false) else none
  | _, .update _ => none
  | some (k, m, _), .digest _ _ => some (k, m, true)
  | some (k, m, _), .digestC _ _ => some (k, m, true)
  | none, _ => none

def macApieOut (F : List Byte → List Byte → List Byte) : MacHas → MacApie.Call → Option (List MacApie.Out)
  | some (k, m, _), .digest dst n => some [Spec.written (F k m) dst n]
  | some (k, m, _), .digestC c n => some [((Spec.contained (F k m) c n).1.data, (Spec.contained (F k m) c n).2)]
  | none, .digest _ _ => none
  | none, .digestC _ _ => none
  | _, _ => some []

def macApieR {H : MacImpl} {F : List Byte → List Byte → List Byte} (L : LawfulMac H F) (o : MacApie.Obj H) : MacHas → Prop
  | none => MacApie.Good L o
  | some (k, m, b) => o.finalized = some b ∧ if b then L.Fin o.impl k m else L.Rep o.impl k m

theorem macApieR_good {H : MacImpl} {F : List Byte → List Byte → List Byte} (L : LawfulMac H F) (o : MacApie.Obj H) (a : MacHas) (h : macApieR L o a) :
    MacApie.Good L o := by
  match a, h with
  | none, h => exact h
  | some (k, m, false), h => exact ⟨L.rep_wf _ _ _ h.2, by rw [h.1]; simp⟩
  | some (k, m, true), h => exact ⟨L.fin_wf _ _ _ h.2, by rw [h.1]; simp⟩

theorem macApieR_holds {H : MacImpl} {F : List Byte → List Byte → List Byte} (L : LawfulMac H F) (o : MacApie.Obj H) (k m : List Byte) (b : Bool)
    (h : macApieR L o (some (k, m, b))) : MacApie.Holds L o k m := by
  cases b with
  | false => exact .inl ⟨h.1, h.2⟩
  | true => exact .inr ⟨h.1, h.2⟩

theorem macApie_digest {H : MacImpl} {F : List Byte → List Byte → List Byte} (L : LawfulMac H F) (o : MacApie.Obj H) (k m : List Byte)
    (ho : MacApie.Holds L o k m) (dst : List Byte) (n : Nat) (hn : min n H.digestSize ≤ dst.length) :
    ∃ o', MacApie.digest H o dst n = some (o', Spec.written (F k m) dst n) ∧ macApieR L o' (some (k, m, true)) := by
  obtain ⟨o', e, hf, f⟩ := MacApie.doFinalize_holds L o k m ho
  exact ⟨o', by simp [MacApie.digest, e, Mac.digest_written L _ k m dst n f hn], hf, f⟩

theorem macApie_digestC {H : MacImpl} {F : List Byte → List Byte → List Byte} (L : LawfulMac H F) (o : MacApie.Obj H) (k m : List Byte)
    (ho : MacApie.Holds L o k m) (c : Container) (n : Nat) :
    ∃ o', MacApie.digestC H o c n = some (o', Spec.contained (F k m) c n) ∧ macApieR L o' (some (k, m, true)) := by
  obtain ⟨o2, e2, -⟩ := MacApie.digestC_holds L o k m ho c n
  refine ⟨o2, e2, ?_⟩
  obtain ⟨o1, e1, hf, f1⟩ := MacApie.doFinalize_holds L o k m ho
  have h1 := HashApie.resize_fits c (min n H.digestSize)
  obtain ⟨o3, e3, r3⟩ := macApie_digest L o1 k m (.inr ⟨hf, f1⟩) (c.resize (min n H.digestSize)).1.data (c.resize (min n H.digestSize)).2 (by omega)
  simp only [MacApie.digestC, e1, e3, Option.bind_eq_bind, Option.bind_some, Option.pure_def, Option.some.injEq, Prod.mk.injEq] at e2
  rw [← e2.1]; exact r3

theorem macApie_law {H : MacImpl} {F : List Byte → List Byte → List Byte} (L : LawfulMac H F) (o : MacApie.Obj H) (a : MacHas) (c : MacApie.Call)
    (hc : c.Ok H.digestSize) (hr : macApieR L o a) :
    ∃ o' outs, MacApie.exec H o c = some (o', outs) ∧ macApieR L o' (macApieNext a c) ∧ ∀ l, macApieOut F a c = some l → outs = l := by
  have hw := macApieR_good L o a hr
  cases c with
  | init k =>
    obtain ⟨o', e, r, f⟩ := MacApie.init_rep L o k hw.1 hc
    exact ⟨o', [], by simp [MacApie.exec, e], ⟨f, r⟩, fun l h => by cases a with | none => cases h; rfl | some p => cases h; rfl⟩
  | update x =>
    have hout : ∀ l, macApieOut F a (.update x) = some l → [] = l := fun l h => by
      cases a with | none => cases h; rfl | some p => cases h; rfl
    have gen : macApieNext a (.update x) = none → ∃ o' outs, MacApie.exec H o (.update x) = some (o', outs) ∧
        macApieR L o' (macApieNext a (.update x)) ∧ ∀ l, macApieOut F a (.update x) = some l → outs = l := fun hn => by
      obtain ⟨i, e, w⟩ := L.update_wf o.impl x hw.1
      exact ⟨{ o with impl := i }, [], by simp [MacApie.exec, MacApie.update, e], by rw [hn]; exact ⟨w, hw.2⟩, hout⟩
    match a, hr with
    | none, hr => exact gen rfl
    | some (k, m, true), hr => exact gen rfl
    | some (k, m, false), hr =>
      by_cases hx : x.length < 2 ^ 64
      · obtain ⟨i, e, r⟩ := L.update o.impl k m x hr.2 hx
        exact ⟨{ o with impl := i }, [], by simp [MacApie.exec, MacApie.update, e], by simp only [macApieNext, if_pos hx]; exact ⟨hr.1, r⟩, hout⟩
      · exact gen (by simp only [macApieNext, if_neg hx])
  | digest dst n =>
    match a, hr with
    | none, hr =>
      obtain ⟨o', out, e, w⟩ := MacApie.digest_good L o hw dst n hc
      exact ⟨o', [out], by simp [MacApie.exec, e], w, fun l h => by cases h⟩
    | some (k, m, b), hr =>
      obtain ⟨o', e, r⟩ := macApie_digest L o k m (macApieR_holds L o k m b hr) dst n hc
      exact ⟨o', _, by simp only [MacApie.exec, e, Option.bind_eq_bind, Option.bind_some, Option.pure_def]; rfl, r, fun l h => by cases h; rfl⟩
  | digestC c n =>
    match a, hr with
    | none, hr =>
      obtain ⟨o', out, e, w⟩ := MacApie.exec_good L o (.digestC c n) hw hc
      exact ⟨o', out, e, w, fun l h => by cases h⟩
    | some (k, m, b), hr =>
      obtain ⟨o', e, r⟩ := macApie_digestC L o k m (macApieR_holds L o k m b hr) c n
      exact ⟨o', _, by simp only [MacApie.exec, e, Option.bind_eq_bind, Option.bind_some, Option.pure_def]; rfl, r, fun l h => by cases h; rfl⟩

/-! ### the families -/

theorem hashApieR_carry {H1 H2 : HashImpl} {F : List Byte → List Byte} (L1 : Lawful H1 F) (L2 : Lawful H2 F)
    (f : H1.σ → H2.σ) (hf : ∀ o, (L1.Wf o → L2.Wf (f o)) ∧ ∀ m, (L1.Rep o m → L2.Rep (f o) m) ∧ (L1.Fin o m → L2.Fin (f o) m)) (o : HashApie.Obj H1)
    (x : HashHas) (hr : hashApieR L1 o x) : hashApieR L2 ⟨f o.impl, o.finalized⟩ x := by
  match x, hr with
  | none, hr => exact (hf o.impl).1 hr
  | some (m, false), hr => exact ⟨hr.1, ((hf o.impl).2 m).1 hr.2⟩
  | some (m, true), hr => exact ⟨hr.1, ((hf o.impl).2 m).2 hr.2⟩

theorem macApieR_carry {H1 H2 : MacImpl} {F1 F2 : List Byte → List Byte → List Byte} (L1 : LawfulMac H1 F1) (L2 : LawfulMac H2 F2)
    (f : H1.σ → H2.σ) (hf : ∀ o, (L1.Wf o → L2.Wf (f o)) ∧ ∀ k m, (L1.Rep o k m → L2.Rep (f o) k m) ∧ (L1.Fin o k m → L2.Fin (f o) k m)) (o : MacApie.Obj H1)
    (x : MacHas) (hr : macApieR L1 o x) : macApieR L2 ⟨f o.impl, o.finalized⟩ x := by
  match x, hr with
  | none, hr => exact ⟨(hf o.impl).1 hr.1, hr.2⟩
  | some (k, m, false), hr => exact ⟨hr.1, ((hf o.impl).2 k m).1 hr.2⟩
  | some (k, m, true), hr => exact ⟨hr.1, ((hf o.impl).2 k m).2 hr.2⟩

theorem macR_carry {H1 H2 : MacImpl} {F1 F2 : List Byte → List Byte → List Byte} (L1 : LawfulMac H1 F1) (L2 : LawfulMac H2 F2)
    (f : H1.σ → H2.σ) (hf : ∀ o, (L1.Wf o → L2.Wf (f o)) ∧ ∀ k m, (L1.Rep o k m → L2.Rep (f o) k m) ∧ (L1.Fin o k m → L2.Fin (f o) k m)) (o : H1.σ)
    (x : MacHas) (hr : macR L1 o x) : macR L2 (f o) x := by
  match x, hr with
  | none, hr => exact (hf o).1 hr
  | some (k, m, false), hr => exact ((hf o).2 k m).1 hr
  | some (k, m, true), hr => exact ((hf o).2 k m).2 hr

theorem hashR_carry {H1 H2 : HashImpl} {F : List Byte → List Byte} (L1 : Lawful H1 F) (L2 : Lawful H2 F)
    (f : H1.σ → H2.σ) (hf : ∀ o, (L1.Wf o → L2.Wf (f o)) ∧ ∀ m, (L1.Rep o m → L2.Rep (f o) m) ∧ (L1.Fin o m → L2.Fin (f o) m)) (o : H1.σ)
    (x : HashHas) (hr : hashR L1 o x) : hashR L2 (f o) x := by
  match x, hr with
  | none, hr => exact (hf o).1 hr
  | some (m, false), hr => exact ((hf o).2 m).1 hr
  | some (m, true), hr => exact ((hf o).2 m).2 hr

/-- The reading of hash objects. -/
theorem sha_reading (a : ShaAlg) (ds : Nat) (hds : ds ≤ a.size) : ∃ Q : (a.family ds).Reading HashHas, Q.Good = (fun _ => True) ∧ Q.Ok = Hash.Call.Ok ds ∧
    Q.next = hashNext ∧ Q.out = hashOut (fun m => (shaSpec a m).take ds) ∧ ∀ h, Q.R h (a.impl h ds).fresh none := by
  obtain ⟨L, hL⟩ := sha_laws a ds hds
  refine ⟨⟨fun h o x => hashR (L h) o x, fun _ => True, Hash.Call.Ok ds, hashNext, hashOut _, fun h o x c _ hc hr => ?_, fun h1 h2 o x _ _ hr => ?_⟩,
    rfl, rfl, rfl, rfl, fun h => (L h).fresh⟩
  · exact hash_law (L h) o x c (by rw [shaDigestSize]; exact hc) hr
  · exact hashR_carry (L h1) (L h2) (a.carry h1 h2 ds) (hL h1 h2) o x hr

theorem shaApie_reading (a : ShaAlg) (ds : Nat) (hds : ds ≤ a.size) : ∃ Q : (a.apieFamily ds).Reading HashHas, Q.Good = (fun _ => True) ∧
    Q.Ok = HashApie.Call.Ok ds ∧ Q.next = hashApieNext ∧ Q.out = hashApieOut (fun m => (shaSpec a m).take ds) ∧
    ∀ h u, Q.R h (HashApie.construct (a.impl h ds) u) (some ([], false)) := by
  obtain ⟨L, hL⟩ := sha_laws a ds hds
  refine ⟨⟨fun h o x => hashApieR (L h) o x, fun _ => True, HashApie.Call.Ok ds, hashApieNext, hashApieOut _, fun h o x c _ hc hr => ?_, fun h1 h2 o x _ _ hr => ?_⟩,
    rfl, rfl, rfl, rfl, fun h u => ⟨rfl, (L h).init _ (L h).fresh⟩⟩
  · exact hashApie_law (L h) o x c (by rw [shaDigestSize]; exact hc) hr
  · exact hashApieR_carry (L h1) (L h2) (a.carry h1 h2 ds) (hL h1 h2) o x hr

theorem mac_reading (e : Endian) (a : MacAlg) (ha : a.Ok) (ds : Nat) (hds : ds ≤ a.size) : ∃ Q : (a.family ds).Reading MacHas,
    Q.Good = (fun h => h.endian = e) ∧ Q.Ok = Mac.Call.Ok ds ∧
    Q.next = macNext ∧ Q.out = macOut (fun k m => (Spec.macOn e a k m).take ds) ∧ ∀ h, Q.R h (a.impl h ds).fresh none := by
  obtain ⟨L, hL⟩ := mac_laws a ha ds hds
  refine ⟨⟨fun h o x => macR (L h) o x, fun h => h.endian = e, Mac.Call.Ok ds, macNext, macOut _, fun h o x c he hc hr => ?_, fun h1 h2 o x e1 e2 hr => ?_⟩,
    rfl, rfl, rfl, rfl, fun h => (L h).fresh⟩
  · subst he
    exact mac_law (L h) o x c (by rw [macDigestSize]; exact hc) hr
  · have he : h1.endian = h2.endian := by rw [e1, e2]
    exact macR_carry (L h1) (L h2) (a.carry h1 h2 ds) (fun o => hL h1 h2 o he) o x hr

theorem macApie_reading (e : Endian) (a : MacAlg) (ha : a.Ok) (ds : Nat) (hds : ds ≤ a.size) : ∃ Q : (a.apieFamily ds).Reading MacHas,
    Q.Good = (fun h => h.endian = e) ∧ Q.Ok = MacApie.Call.Ok ds ∧ Q.next = macApieNext ∧ Q.out = macApieOut (fun k m => (Spec.macOn e a k m).take ds) ∧
    ∀ h k, k.length < 2 ^ 64 → ∃ o, MacApie.construct (a.impl h ds) k = some o ∧ Q.R h o (some (k, [], false)) := by
  obtain ⟨L, hL⟩ := mac_laws a ha ds hds
  refine ⟨⟨fun h o x => macApieR (L h) o x, fun h => h.endian = e, MacApie.Call.Ok ds, macApieNext, macApieOut _, fun h o x c he hc hr => ?_, fun h1 h2 o x e1 e2 hr => ?_⟩,
    rfl, rfl, rfl, rfl, fun h k hk => ?_⟩
  · subst he
    exact macApie_law (L h) o x c (by rw [macDigestSize]; exact hc) hr
  · have he : h1.endian = h2.endian := by rw [e1, e2]
    exact macApieR_carry (L h1) (L h2) (a.carry h1 h2 ds) (fun o => hL h1 h2 o he) o x hr
  · obtain ⟨o', e, r, f⟩ := MacApie.init_rep (L h) (MacApie.constructDefault _) k (L h).fresh hk
    exact ⟨o', e, f, r⟩

end Milo
