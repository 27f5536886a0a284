import Verif.Proof.Mixed
import Verif.Proof.AeadUse
import Verif.Spec.AeadText
/- The mac does not depend on the circumstances of a call but for the byte order; the AEAD object under changing circumstances. -/
namespace Milo
open Memory

theorem forM'_none {σ : Type} (f : Nat → σ → Option σ) (P : σ → Prop) (bound : Nat) (hf : ∀ j s, P s → bound ≤ j → f j s = none)
    (hP : ∀ j s s', P s → f j s = some s' → P s') : ∀ (n i : Nat) (s : σ), P s → bound < i + n → 0 < n → forM' f n i s = none := by
  intro n
  induction n with
  | zero => intro i s _ _ h; omega
  | succ n ih =>
    intro i s hs hb _
    simp only [forM', Option.bind_eq_bind]
    cases e : f i s with
    | none => rfl
    | some s' =>
      simp only [Option.bind_some]
      by_cases hn : n = 0
      · subst hn
        rw [hf i s hs (by omega)] at e
        cases e
      · exact ih (i + 1) s' (hP i s s' hs e) (by omega) (by omega)

theorem stor1_length (h : Host) (d d' : List Byte) (i : Nat) (x : Byte) (e : stor h (v := 1) (p := 1) d i x = some d') : d'.length = d.length := by
  rw [stor_eq h ⟨by omega, by omega, .inl ⟨1, by omega⟩⟩] at e
  cases hw : wrN (image (p := 1) h.endian d) (i * 1) (toBytes (n := 1) h.endian x) with
  | none => rw [hw] at e; cases e
  | some r =>
    rw [hw] at e
    simp only [Option.map_some, Option.some.injEq] at e
    rw [← e]
    exact ofImage_length _ _ _ _

theorem stor1_none (h : Host) (d : List Byte) (i : Nat) (x : Byte) (hi : d.length ≤ i) : stor h (v := 1) (p := 1) d i x = none := by
  rw [stor_eq h ⟨by omega, by omega, .inl ⟨1, by omega⟩⟩]
  unfold wrN
  rw [if_neg (by simp; omega)]
  rfl

theorem load1_none (h : Host) (s : List Byte) (i : Nat) (hi : s.length ≤ i) : load h false 1 (p := 1) s i = none := by
  rw [load_eq h _ ⟨by omega, by omega, .inl ⟨1, by omega⟩⟩]
  unfold rdN
  rw [if_neg (by simp; omega)]
  rfl

/-- `memory_copy` on bytes is defined exactly when both areas are large enough. -/
theorem copy_bytes_iff (h : Host) (dst src : List Byte) (n : Nat) :
    copy h (p := 1) (q := 1) dst src n = if n ≤ src.length ∧ n ≤ dst.length then some (src.take n ++ dst.drop n) else none := by
  split
  · next hc =>
    rw [copy_eq h (by omega) (by omega) _ _ _ (by omega) (by omega), image_bytes', image_bytes', ofImage_bytes' _ _ _ (by simp; omega)]
  · next hc =>
    have hn : 0 < n := by omega
    unfold copy
    split
    · by_cases hs : n ≤ src.length
      · exact forM'_none _ (fun d : List Byte => d.length = dst.length) dst.length (fun j s hl hj => by
          cases load h false 1 (p := 1) src j with
          | none => rfl
          | some x => exact stor1_none h s j x (by omega)) (fun j s s' hl e => by
          cases hx : load h false 1 (p := 1) src j with
          | none => rw [hx] at e; cases e
          | some x => rw [hx] at e; rw [stor1_length h s s' j x e, hl]) n 0 dst rfl (by omega) hn
      · exact forM'_none _ (fun _ => True) src.length (fun j s _ hj => by rw [load1_none h src j hj]; rfl) (fun _ _ _ _ _ => trivial) n 0 dst trivial (by omega) hn
    · rw [image_bytes', image_bytes']
      by_cases hs : n ≤ src.length
      · rw [rdN_some _ _ _ (by omega)]
        simp only [Option.bind_eq_bind, Option.bind_some]
        unfold wrN
        rw [if_neg (by simp; omega)]
        rfl
      · unfold rdN
        rw [if_neg (by omega)]
        rfl

theorem set_bytes_iff (h : Host) (buf : List Byte) (v : Byte) (n : Nat) :
    Memory.set h (p := 1) buf v n = if n ≤ buf.length then some (List.replicate n v ++ buf.drop n) else none := by
  split
  · next hc =>
    rw [set_eq h (by omega) _ _ _ (by omega), image_bytes', ofImage_bytes' _ _ _ (by simp; omega)]
  · next hc =>
    have hn : 0 < n := by omega
    unfold Memory.set
    split
    · exact forM'_none _ (fun d : List Byte => d.length = buf.length) buf.length (fun j s hl hj => stor1_none h s j v (by omega))
        (fun j s s' hl e => by rw [stor1_length h s s' j v e, hl]) n 0 buf rfl (by omega) hn
    · unfold wrN
      rw [if_neg (by simp; omega)]
      rfl

theorem copy_host (h1 h2 : Host) : @copy h1 1 1 = @copy h2 1 1 := by
  funext dst src n; rw [copy_bytes_iff, copy_bytes_iff]

theorem set_host (h1 h2 : Host) : @Memory.set h1 1 = @Memory.set h2 1 := by
  funext b v n; rw [set_bytes_iff, set_bytes_iff]

namespace Poly1305

theorem process_host (h1 h2 : Host) : process h1 = process h2 := by
  have hl : ∀ (src : List Byte) (i : Nat), loadLe h1 false 4 (p := 1) src i = loadLe h2 false 4 (p := 1) src i := by
    intro src i
    rw [loadLe_eq h1 _ ⟨by omega, by omega, .inl ⟨4, by omega⟩⟩ (by simp [Swappable]), loadLe_eq h2 _ ⟨by omega, by omega, .inl ⟨4, by omega⟩⟩ (by simp [Swappable]),
      image_bytes', image_bytes']
  have ha : addStep h1 = addStep h2 := by
    funext add a src; unfold addStep; simp only [hl]
  have hp : ∀ k add n a src, processLoop h1 k add n a src = processLoop h2 k add n a src := by
    intro k add n
    induction n with
    | zero => intro a src; rfl
    | succ n ih => intro a src; simp only [processLoop, ha, ih]
  funext k add n acc src
  unfold process
  simp only [hp]

/-- The mac of a call depends on its circumstances by the byte order only. -/
theorem impl_host (h1 h2 : Host) (he : h1.endian = h2.endian) (ds : Nat) : impl h1 ds = impl h2 ds := by
  have hi : initObj h1 = initObj h2 := by
    funext o key
    unfold initObj
    rw [init_eq h1 (by omega) (by omega), init_eq h2 (by omega) (by omega), he]
  have hu : update h1 = update h2 := by
    funext o msg
    unfold update soak
    rw [process_host h1 h2, copy_host h1 h2]
  have hf : finalize h1 = finalize h2 := by
    funext o
    unfold finalize lastBlock
    rw [process_host h1 h2, set_host h1 h2]
  have hd : digest h1 ds = digest h2 ds := by
    funext o dst n
    have h1' : ∀ (d : List Byte) (i : Nat) (x : W32), storLe h1 (v := 4) (p := 1) d i x = storLe h2 (v := 4) (p := 1) d i x := by
      intro d i x
      rw [storLe_eq h1 ⟨by omega, by omega, .inl ⟨4, by omega⟩⟩ (by simp [Swappable]), storLe_eq h2 ⟨by omega, by omega, .inl ⟨4, by omega⟩⟩ (by simp [Swappable]), he]
    have h2' : ∀ (d : List Byte) (i : Nat) (x : W32) (n : Nat), 0 < n → storLeN h1 (v := 4) (p := 1) d i x n = storLeN h2 (v := 4) (p := 1) d i x n := by
      intro d i x n hn
      rw [storLeN_eq h1 ⟨by omega, by omega, .inl ⟨4, by omega⟩⟩ (by simp [Swappable]) _ _ _ _ hn,
        storLeN_eq h2 ⟨by omega, by omega, .inl ⟨4, by omega⟩⟩ (by simp [Swappable]) _ _ _ _ hn, he]
    unfold digest copyLe
    simp only [h1', gt_iff_lt]
    split
    · next hc => simp only [h2' _ _ _ _ hc]
    · rfl
  unfold impl
  rw [hi, hu, hf, hd]

end Poly1305

/-- Both undefined, or both defined with related results. -/
def OptRel {α β : Type} (R : α → β → Prop) : Option α → Option β → Prop
  | none, none => True
  | some a, some b => R a b
  | _, _ => False

theorem OptRel.bind {α β γ δ : Type} {R : α → β → Prop} {Q : γ → δ → Prop} {x : Option α} {y : Option β} (hxy : OptRel R x y) {f : α → Option γ} {g : β → Option δ}
    (hf : ∀ a b, R a b → OptRel Q (f a) (g b)) : OptRel Q (x.bind f) (y.bind g) := by
  cases x <;> cases y
  · trivial
  · exact hxy.elim
  · exact hxy.elim
  · exact hf _ _ hxy

theorem OptRel.same {α γ δ : Type} {Q : γ → δ → Prop} (x : Option α) {f : α → Option γ} {g : α → Option δ} (hf : ∀ a, OptRel Q (f a) (g a)) :
    OptRel Q (x.bind f) (x.bind g) := by
  cases x
  · trivial
  · exact hf _

/-- Related objects, equal outputs. -/
abbrev Both {α β O : Type} (R : α → β → Prop) : α × O → β × O → Prop := fun r s => R r.1 s.1 ∧ r.2 = s.2

theorem Both.run {α β C O : Type} (f : α → C → Option (α × List O)) (g : β → C → Option (β × List O)) (R : Nat → α → β → Prop) (size : C → Nat) (Ok : C → Prop)
    (hfg : ∀ n a b c, R n a b → Ok c → OptRel (Both (R (n + size c))) (f a c) (g b c)) :
    ∀ (cs : List C) (n : Nat) (a : α) (b : β), R n a b → (∀ c ∈ cs, Ok c) → OptRel (Both (R (n + (cs.map size).sum))) (runCalls f a cs) (runCalls g b cs) := by
  intro cs
  induction cs with
  | nil => intro n a b h _; exact ⟨by simpa using h, rfl⟩
  | cons c cs ih =>
    intro n a b h hok
    simp only [runCalls]
    refine OptRel.bind (hfg n a b c h (hok c List.mem_cons_self)) fun x y hxy => ?_
    refine OptRel.bind (ih _ x.1 y.1 hxy.1 fun c hc => hok c (List.mem_cons_of_mem _ hc)) fun u v huv => ?_
    simp only [List.map_cons, List.sum_cons, ← Nat.add_assoc]
    exact ⟨huv.1, by rw [hxy.2, huv.2]⟩

namespace Aead
variable {M : MacImpl} {B1 B2 : ChaCha.Backend}

/-- The same object to the eyes of the two ciphers. -/
structure Sim (B1 B2 : ChaCha.Backend) (pos : Nat) (o o' : Obj M) : Prop where
  cipher : ∃ st0, ChaCha.Rep B1 st0 o.cipher pos ∧ ChaCha.Rep B2 st0 o'.cipher pos
  mac : o.mac = o'.mac
  aad : o.aadSize = o'.aadSize
  edd : o.eddSize = o'.eddSize

variable (h1 h2 : Host) (L1 : ChaCha.LawfulBackend B1) (L2 : ChaCha.LawfulBackend B2)

include L1 L2 in
theorem Sim.fresh : Sim B1 B2 0 (fresh M) (fresh M) := ⟨⟨_, ChaCha.fresh_rep L1, ChaCha.fresh_rep L2⟩, rfl, rfl, rfl⟩

include L1 L2 in
theorem Sim.init {pos : Nat} {o o' : Obj M} (hs : Sim B1 B2 pos o o') (key iv : List Byte) :
    OptRel (Sim B1 B2 64) (Aead.init h1 B1 o key iv) (Aead.init h2 B2 o' key iv) := by
  obtain ⟨⟨st0, r1, r2⟩, hm, -, -⟩ := hs
  obtain ⟨c1, e1, r1⟩ := ChaCha.init_rep h1 L1 st0 o.cipher pos r1 key (civ iv)
  obtain ⟨c2, e2, r2⟩ := ChaCha.init_rep h2 L2 st0 o'.cipher pos r2 key (civ iv)
  have hf : Cipher.Fits (List.replicate 64 0#8) 0 64 0 := ⟨.inl rfl, by simp, by simp⟩
  obtain ⟨d1, f1, s1⟩ := ChaCha.encrypt_eq h1 L1 _ c1 0 r1 (List.replicate 64 0#8) 0 64 0 hf
  obtain ⟨d2, f2, s2⟩ := ChaCha.encrypt_eq h2 L2 _ c2 0 r2 (List.replicate 64 0#8) 0 64 0 hf
  unfold Aead.init
  rw [civ_eq h1, civ_eq h2]
  simp only [Option.bind_eq_bind, Option.bind_some, e1, e2, f1, f2, hm]
  exact OptRel.same _ fun m => ⟨⟨_, s1, s2⟩, rfl, rfl, rfl⟩

theorem Sim.doAad {pos : Nat} {o o' : Obj M} (hs : Sim B1 B2 pos o o') (x : List Byte) : OptRel (Sim B1 B2 pos) (Aead.aad o x) (Aead.aad o' x) := by
  obtain ⟨hc, hm, ha, he⟩ := hs
  unfold Aead.aad
  rw [hm, ha]
  exact OptRel.same _ fun m => OptRel.same _ fun a => ⟨hc, rfl, rfl, he⟩

theorem Sim.updatePad {pos : Nat} {o o' : Obj M} (hs : Sim B1 B2 pos o o') (n : W64) : OptRel (Sim B1 B2 pos) (Aead.updatePad o n) (Aead.updatePad o' n) := by
  obtain ⟨hc, hm, ha, he⟩ := hs
  unfold Aead.updatePad
  rw [hm]
  exact OptRel.same _ fun m => OptRel.same _ fun a => ⟨hc, rfl, ha, he⟩

theorem Sim.aadover {pos : Nat} {o o' : Obj M} (hs : Sim B1 B2 pos o o') : OptRel (Sim B1 B2 pos) (Aead.aadover o) (Aead.aadover o') := by
  unfold Aead.aadover
  rw [hs.aad]
  exact OptRel.same _ fun a => hs.updatePad a

include L1 L2 in
theorem Sim.encrypt {pos : Nat} {o o' : Obj M} (hs : Sim B1 B2 pos o o') (mem : List Byte) (src n dst : Nat) (hf : Cipher.Fits mem src n dst) :
    OptRel (fun r s => Both (Sim B1 B2 (pos + n)) r s ∧ s.2.2 = n ∧ s.2.1.length = mem.length) (Aead.encrypt h1 B1 o mem src n dst) (Aead.encrypt h2 B2 o' mem src n dst) := by
  obtain ⟨⟨st0, r1, r2⟩, hm, ha, he⟩ := hs
  obtain ⟨c1, e1, r1⟩ := ChaCha.encrypt_eq h1 L1 st0 o.cipher pos r1 mem src n dst hf
  obtain ⟨c2, e2, r2⟩ := ChaCha.encrypt_eq h2 L2 st0 o'.cipher pos r2 mem src n dst hf
  unfold Aead.encrypt
  simp only [Option.bind_eq_bind, Option.bind_some, e1, e2, hm, he]
  refine OptRel.same _ fun m => OptRel.same _ fun a => OptRel.same _ fun b => ⟨⟨⟨⟨_, r1, r2⟩, rfl, ha, rfl⟩, rfl⟩, rfl, ?_⟩
  obtain ⟨-, -, hd⟩ := hf
  simp [xored]; omega

include L1 L2 in
theorem Sim.decrypt {pos : Nat} {o o' : Obj M} (hs : Sim B1 B2 pos o o') (mem : List Byte) (src n dst : Nat) (hf : Cipher.Fits mem src n dst) :
    OptRel (fun r s => Both (Sim B1 B2 (pos + n)) r s ∧ s.2.2 = n ∧ s.2.1.length = mem.length) (Aead.decrypt h1 B1 o mem src n dst) (Aead.decrypt h2 B2 o' mem src n dst) := by
  obtain ⟨⟨st0, r1, r2⟩, hm, ha, he⟩ := hs
  obtain ⟨c1, e1, r1⟩ := ChaCha.encrypt_eq h1 L1 st0 o.cipher pos r1 mem src n dst hf
  obtain ⟨c2, e2, r2⟩ := ChaCha.encrypt_eq h2 L2 st0 o'.cipher pos r2 mem src n dst hf
  unfold Aead.decrypt
  rw [ChaCha.decrypt_eq_encrypt, ChaCha.decrypt_eq_encrypt]
  simp only [Option.bind_eq_bind, Option.bind_some, e1, e2, hm, he]
  refine OptRel.same _ fun m => OptRel.same _ fun a => OptRel.same _ fun b => ⟨⟨⟨⟨_, r1, r2⟩, rfl, ha, rfl⟩, rfl⟩, rfl, ?_⟩
  obtain ⟨-, -, hd⟩ := hf
  simp [xored]; omega

theorem lengths_host (a e : W64) : lengths h1 a e = lengths h2 a e := by
  have e1 := lengths_eq h1 a.toNat e.toNat
  have e2 := lengths_eq h2 a.toNat e.toNat
  rw [BitVec.ofNat_toNat, BitVec.ofNat_toNat, BitVec.setWidth_eq, BitVec.setWidth_eq] at e1 e2
  rw [e1, e2]

theorem Sim.finalize {pos : Nat} {o o' : Obj M} (hs : Sim B1 B2 pos o o') : OptRel (Sim B1 B2 pos) (Aead.finalize h1 o) (Aead.finalize h2 o') := by
  unfold Aead.finalize
  rw [hs.aad, hs.edd]
  refine OptRel.same _ fun a => OptRel.same _ fun e => ?_
  refine OptRel.bind (hs.updatePad e) fun p p' hp => ?_
  rw [lengths_host h1 h2, hp.mac]
  exact OptRel.same _ fun l => OptRel.same _ fun m => OptRel.same _ fun m' => ⟨hp.cipher, rfl, hp.aad, hp.edd⟩

include L1 L2 in
theorem Sim.exec {pos : Nat} {o o' : Obj M} (hs : Sim B1 B2 pos o o') (c : Call) (hc : c.Ok) (hi : ∀ key iv, c ≠ .init key iv) :
    OptRel (Both (Sim B1 B2 (pos + c.size))) (Aead.exec h1 B1 o c) (Aead.exec h2 B2 o' c) := by
  cases c with
  | init key iv => exact absurd rfl (hi key iv)
  | aad x => exact OptRel.bind (hs.doAad x) fun p p' hp => ⟨hp, rfl⟩
  | aadover => exact OptRel.bind hs.aadover fun p p' hp => ⟨hp, rfl⟩
  | encrypt s =>
    refine OptRel.bind (hs.encrypt h1 h2 L1 L2 s.mem s.src s.n s.dst hc.1) fun p p' hp => ?_
    obtain ⟨a, x⟩ := p
    obtain ⟨a', x'⟩ := p'
    obtain ⟨⟨ha, hx⟩, -⟩ := hp
    have hx : x = x' := hx
    subst hx
    exact ⟨ha, rfl⟩
  | decrypt s =>
    refine OptRel.bind (hs.decrypt h1 h2 L1 L2 s.mem s.src s.n s.dst hc.1) fun p p' hp => ?_
    obtain ⟨a, x⟩ := p
    obtain ⟨a', x'⟩ := p'
    obtain ⟨⟨ha, hx⟩, -⟩ := hp
    have hx : x = x' := hx
    subst hx
    exact ⟨ha, rfl⟩
  | finalize => exact OptRel.bind (hs.finalize h1 h2) fun p p' hp => ⟨hp, rfl⟩
  | digest dst n =>
    unfold Aead.exec Aead.digest
    rw [hs.mac]
    exact OptRel.same _ fun d => ⟨hs, rfl⟩

end Aead

namespace AeadApie
open Aead (poly)
variable {M : MacImpl} {B1 B2 : ChaCha.Backend}

/-- The same object to the eyes of the two ciphers. -/
structure Sim (B1 B2 : ChaCha.Backend) (pos : Nat) (o o' : Obj M) : Prop where
  impl : Aead.Sim B1 B2 pos o.impl o'.impl
  over : o.finalizedAad = o'.finalizedAad
  fin : o.finalized = o'.finalized

variable (h1 h2 : Host) (L1 : ChaCha.LawfulBackend B1) (L2 : ChaCha.LawfulBackend B2)

include L1 L2 in
theorem Sim.fresh : Sim B1 B2 0 (constructDefault M) (constructDefault M) := ⟨Aead.Sim.fresh L1 L2, rfl, rfl⟩

include L1 L2 in
theorem Sim.init {pos : Nat} {o o' : Obj M} (hs : Sim B1 B2 pos o o') (key iv : List Byte) :
    OptRel (Sim B1 B2 64) (initialise h1 B1 o key iv) (initialise h2 B2 o' key iv) :=
  OptRel.bind (hs.impl.init h1 h2 L1 L2 key iv) fun _ _ hp => ⟨hp, rfl, rfl⟩

theorem Sim.doFinalizeAad {pos : Nat} {o o' : Obj M} (hs : Sim B1 B2 pos o o') : OptRel (Sim B1 B2 pos) (doFinalizeAad o) (doFinalizeAad o') := by
  unfold AeadApie.doFinalizeAad
  rw [hs.over]
  split
  · trivial
  · exact hs
  · exact OptRel.bind hs.impl.aadover fun _ _ hp => ⟨hp, rfl, hs.fin⟩

theorem Sim.doFinalize {pos : Nat} {o o' : Obj M} (hs : Sim B1 B2 pos o o') : OptRel (Sim B1 B2 pos) (doFinalize h1 o) (doFinalize h2 o') := by
  unfold AeadApie.doFinalize
  rw [hs.fin]
  split
  · trivial
  · exact hs
  · exact OptRel.bind (hs.impl.finalize h1 h2) fun _ _ hp => ⟨hp, hs.over, rfl⟩

theorem Sim.doAad {pos : Nat} {o o' : Obj M} (hs : Sim B1 B2 pos o o') (x : List Byte) : OptRel (Sim B1 B2 pos) (aad o x) (aad o' x) :=
  OptRel.bind (hs.impl.doAad x) fun _ _ hp => ⟨hp, hs.over, hs.fin⟩

/-- `encrypt` or `decrypt`. -/
def ptr (h : Host) (B : ChaCha.Backend) (d : Bool) (o : Obj M) (mem : List Byte) (src n dst : Nat) : Option (Obj M × List Byte × Nat) :=
  if d then decrypt h B o mem src n dst else encrypt h B o mem src n dst

include L1 L2 in
theorem Sim.ptr {pos : Nat} {o o' : Obj M} (hs : Sim B1 B2 pos o o') (d : Bool) (mem : List Byte) (src n dst : Nat) (hf : Cipher.Fits mem src n dst) :
    OptRel (fun r s => Both (Sim B1 B2 (pos + n)) r s ∧ s.2.2 = n ∧ s.2.1.length = mem.length) (ptr h1 B1 d o mem src n dst) (ptr h2 B2 d o' mem src n dst) := by
  unfold AeadApie.ptr
  cases d
  · simp only [Bool.false_eq_true, if_false]
    refine OptRel.bind hs.doFinalizeAad fun p p' hp => ?_
    refine OptRel.bind (hp.impl.encrypt h1 h2 L1 L2 mem src n dst hf) fun q q' hq => ?_
    obtain ⟨a, x⟩ := q
    obtain ⟨a', x'⟩ := q'
    obtain ⟨⟨ha, hx⟩, hn⟩ := hq
    have hx : x = x' := hx
    subst hx
    exact ⟨⟨⟨ha, hp.over, hp.fin⟩, rfl⟩, hn⟩
  · simp only [if_true]
    refine OptRel.bind hs.doFinalizeAad fun p p' hp => ?_
    refine OptRel.bind (hp.impl.decrypt h1 h2 L1 L2 mem src n dst hf) fun q q' hq => ?_
    obtain ⟨a, x⟩ := q
    obtain ⟨a', x'⟩ := q'
    obtain ⟨⟨ha, hx⟩, hn⟩ := hq
    have hx : x = x' := hx
    subst hx
    exact ⟨⟨⟨ha, hp.over, hp.fin⟩, rfl⟩, hn⟩

theorem text_ptr (h : Host) (B : ChaCha.Backend) (d : Bool) (o : Obj M) (s : Area) : text h B d o (.ptr s) = ptr h B d o s.mem s.src s.n s.dst := rfl

theorem text_cont (h : Host) (B : ChaCha.Backend) (d : Bool) (o : Obj M) (x : List Byte) (tgt : Container) :
    text h B d o (.cont x tgt) = (ptr h B d o (x ++ (tgt.resize x.length).1.data) 0 x.length x.length).bind fun r =>
      some (r.1, ((((tgt.resize x.length).1.withData (r.2.1.drop x.length)).resize r.2.2).1).data, r.2.2) := by
  unfold text ptr decryptC encryptC
  cases d <;> simp only [Bool.false_eq_true, if_true, if_false, Option.bind_eq_bind, Option.pure_def, Option.bind_assoc, Option.bind_some]

theorem text_self (h : Host) (B : ChaCha.Backend) (d : Bool) (o : Obj M) (c : Container) :
    text h B d o (.self c) = (ptr h B d o (c.resize c.data.length).1.data 0 (c.resize c.data.length).1.data.length 0).bind fun r =>
      some (r.1, ((((c.resize c.data.length).1.withData r.2.1).resize r.2.2).1).data, r.2.2) := by
  unfold text ptr decryptSelf encryptSelf
  cases d <;> simp only [Bool.false_eq_true, if_true, if_false, Option.bind_eq_bind, Option.pure_def, Option.bind_assoc, Option.bind_some]

include L1 L2 in
theorem Sim.text {pos : Nat} {o o' : Obj M} (hs : Sim B1 B2 pos o o') (d : Bool) (t : TextReq) (ht : t.Ok) :
    OptRel (Both (Sim B1 B2 (pos + (Spec.Aead.text t).length))) (text h1 B1 d o t) (text h2 B2 d o' t) := by
  cases t with
  | ptr s =>
    rw [text_ptr, text_ptr, show (Spec.Aead.text (.ptr s)).length = s.n from Aead.span_text_length s ht]
    have := hs.ptr h1 h2 L1 L2 d s.mem s.src s.n s.dst ht.1
    revert this
    generalize AeadApie.ptr h1 B1 d o s.mem s.src s.n s.dst = x
    generalize AeadApie.ptr h2 B2 d o' s.mem s.src s.n s.dst = y
    cases x <;> cases y <;> intro h
    · trivial
    · exact h.elim
    · exact h.elim
    · exact h.1
  | cont x tgt =>
    rw [text_cont, text_cont]
    have hl : x.length ≤ (tgt.resize x.length).1.data.length := by
      unfold Container.resize
      cases hd : tgt.dynamic
      · simpa using ht.1 hd
      · simp; omega
    refine OptRel.bind (hs.ptr h1 h2 L1 L2 d _ 0 x.length x.length ⟨.inr (.inl (by omega)), by simp, by simp; omega⟩) fun p p' hp => ?_
    obtain ⟨a, u⟩ := p
    obtain ⟨a', u'⟩ := p'
    obtain ⟨⟨ha, hx⟩, -⟩ := hp
    have hx : u = u' := hx
    subst hx
    exact ⟨ha, rfl⟩
  | self c =>
    rw [text_self, text_self, resize_self]
    refine OptRel.bind (hs.ptr h1 h2 L1 L2 d _ 0 c.data.length 0 ⟨.inl rfl, by simp, by simp⟩) fun p p' hp => ?_
    obtain ⟨a, u⟩ := p
    obtain ⟨a', u'⟩ := p'
    obtain ⟨⟨ha, hx⟩, -⟩ := hp
    have hx : u = u' := hx
    subst hx
    exact ⟨ha, rfl⟩

theorem Sim.digest {pos : Nat} {o o' : Obj M} (hs : Sim B1 B2 pos o o') (dst : List Byte) (n : Nat) :
    OptRel (Both (Sim B1 B2 pos)) (digest h1 o dst n) (digest h2 o' dst n) := by
  refine OptRel.bind (hs.doFinalize h1 h2) fun p p' hp => ?_
  unfold Aead.digest
  rw [hp.impl.mac]
  exact OptRel.same _ fun d => ⟨hp, rfl⟩

theorem Sim.digestC {pos : Nat} {o o' : Obj M} (hs : Sim B1 B2 pos o o') (c : Container) (n : Nat) :
    OptRel (Both (Sim B1 B2 pos)) (digestC h1 o c n) (digestC h2 o' c n) := by
  refine OptRel.bind (hs.doFinalize h1 h2) fun p p' hp => ?_
  refine OptRel.bind (hp.digest h1 h2 _ _) fun q q' hq => ?_
  obtain ⟨a, u⟩ := q
  obtain ⟨a', u'⟩ := q'
  obtain ⟨ha, hx⟩ := hq
  have hx : u = u' := hx
  subst hx
  exact ⟨ha, rfl⟩

theorem Sim.verify {pos : Nat} {o o' : Obj M} (hs : Sim B1 B2 pos o o') (tag : List Byte) :
    OptRel (Both (Sim B1 B2 pos)) (verify h1 o tag) (verify h2 o' tag) := by
  unfold AeadApie.verify digestStatic
  refine OptRel.bind (R := Both (Sim B1 B2 pos)) (OptRel.bind (hs.digestC h1 h2 _ _) fun q q' hq => ?_) fun q q' hq => ?_
  · obtain ⟨a, u⟩ := q
    obtain ⟨a', u'⟩ := q'
    obtain ⟨ha, hx⟩ := hq
    have hx : u = u' := hx
    subst hx
    exact ⟨ha, rfl⟩
  · obtain ⟨a, u⟩ := q
    obtain ⟨a', u'⟩ := q'
    obtain ⟨ha, hx⟩ := hq
    have hx : u = u' := hx
    subst hx
    simp only [matchC_bytes h1, matchC_bytes h2]
    exact ⟨ha, rfl⟩

include L1 L2 in
theorem Sim.exec {pos : Nat} {o o' : Obj M} (hs : Sim B1 B2 pos o o') (c : Call) (hc : c.Ok) (hi : ∀ key iv, c ≠ .init key iv) :
    OptRel (Both (Sim B1 B2 (pos + c.size))) (exec h1 B1 o c) (exec h2 B2 o' c) := by
  cases c with
  | init key iv => exact absurd rfl (hi key iv)
  | aad x => exact OptRel.bind (hs.doAad x) fun p p' hp => ⟨hp, rfl⟩
  | text d t =>
    refine OptRel.bind (hs.text h1 h2 L1 L2 d t hc) fun q q' hq => ?_
    obtain ⟨a, u⟩ := q
    obtain ⟨a', u'⟩ := q'
    obtain ⟨ha, hx⟩ := hq
    have hx : u = u' := hx
    subst hx
    exact ⟨ha, rfl⟩
  | digest dst n =>
    refine OptRel.bind (hs.digest h1 h2 dst n) fun q q' hq => ?_
    obtain ⟨a, u⟩ := q
    obtain ⟨a', u'⟩ := q'
    obtain ⟨ha, hx⟩ := hq
    have hx : u = u' := hx
    subst hx
    exact ⟨ha, rfl⟩
  | digestC c n =>
    refine OptRel.bind (hs.digestC h1 h2 c n) fun q q' hq => ?_
    obtain ⟨a, u⟩ := q
    obtain ⟨a', u'⟩ := q'
    obtain ⟨ha, hx⟩ := hq
    have hx : u = u' := hx
    subst hx
    exact ⟨ha, rfl⟩
  | verify tag =>
    refine OptRel.bind (hs.verify h1 h2 tag) fun q q' hq => ?_
    obtain ⟨a, u⟩ := q
    obtain ⟨a', u'⟩ := q'
    obtain ⟨ha, hx⟩ := hq
    have hx : u = u' := hx
    subst hx
    exact ⟨ha, rfl⟩
  | verifyThrow tag =>
    unfold AeadApie.exec verifyThrow
    refine OptRel.bind (R := Both (Sim B1 B2 pos)) (OptRel.bind (hs.verify h1 h2 tag) fun q q' hq => ?_) fun q q' hq => ?_
    · obtain ⟨a, u⟩ := q
      obtain ⟨a', u'⟩ := q'
      obtain ⟨ha, hx⟩ := hq
      have hx : u = u' := hx
      subst hx
      by_cases hu : u ≠ .none
      · simp only [if_pos hu]; exact ⟨ha, rfl⟩
      · simp only [if_neg hu]; exact ⟨ha, rfl⟩
    · obtain ⟨a, u⟩ := q
      obtain ⟨a', u'⟩ := q'
      obtain ⟨ha, hx⟩ := hq
      have hx : u = u' := hx
      subst hx
      exact ⟨ha, rfl⟩

end AeadApie

/-! ### Families -/

/-- A run under unchanging circumstances. -/
theorem Family.run_const {ι C O : Type} (P : Family ι C O) (hid : ∀ i o, P.carry i i o = o) (i : ι) (cs : List C) :
    ∀ (j : ι) (o : P.S j), OptRel (Both fun (x : Σ i, P.S i) y => P.carry x.1 i x.2 = y) (P.run ⟨j, o⟩ (cs.map fun c => (i, c)))
      (runCalls (P.exec i) (P.carry j i o) cs) := by
  induction cs with
  | nil => intro j o; exact ⟨rfl, rfl⟩
  | cons c cs ih =>
    intro j o
    simp only [Family.run, List.map_cons, runCalls, Family.step, Option.bind_eq_bind, Option.bind_assoc, Option.pure_def, Option.bind_some]
    refine OptRel.same _ fun r => ?_
    have := ih i r.1
    rw [hid] at this
    refine OptRel.bind this fun x y hxy => ⟨hxy.1, by rw [hxy.2]⟩

/-- A run under changing circumstances, in two parts. -/
theorem Family.run_split {ι C O : Type} (P : Family ι C O) (o : Σ i, P.S i) (a b : List (ι × C)) :
    P.run o (a ++ b) = (P.run o a).bind fun r => (P.run r.1 b).map fun s => (s.1, r.2 ++ s.2) := runCalls_append _ _ _ _

namespace Aead

theorem cast_eq {M1 M2 : MacImpl} (e : M1 = M2) (o : Obj M1) :
    (e ▸ o : Obj M2) = ⟨o.cipher, cast (congrArg MacImpl.σ e) o.mac, o.aadSize, o.eddSize⟩ := by
  subst e; rfl

theorem carry_cast {i j : Host} (e : poly i = poly j) (o : Obj (poly i)) : carry i j o = (e ▸ o : Obj (poly j)) := by
  rw [cast_eq e]; rfl

theorem exec_cast {M1 M2 : MacImpl} (e : M1 = M2) (h : Host) (B : ChaCha.Backend) (o : Obj M1) (cs : List Call) :
    runCalls (Aead.exec h B) (e ▸ o : Obj M2) cs = (runCalls (Aead.exec h B) o cs).map fun r => (e ▸ r.1, r.2) := by
  subst e; simp

end Aead

namespace AeadApie
open Aead (poly)

theorem cast_eq {M1 M2 : MacImpl} (e : M1 = M2) (o : Obj M1) : (e ▸ o : Obj M2) = ⟨e ▸ o.impl, o.finalizedAad, o.finalized⟩ := by
  subst e; rfl

theorem carry_cast {i j : Host} (e : poly i = poly j) (o : Obj (poly i)) : carry i j o = (e ▸ o : Obj (poly j)) := by
  rw [cast_eq e, ← Aead.carry_cast e]; rfl

theorem exec_cast {M1 M2 : MacImpl} (e : M1 = M2) (h : Host) (B : ChaCha.Backend) (o : Obj M1) (cs : List Call) :
    runCalls (exec h B) (e ▸ o : Obj M2) cs = (runCalls (exec h B) o cs).map fun r => (e ▸ r.1, r.2) := by
  subst e; simp

end AeadApie
end Milo
