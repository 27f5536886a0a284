import Verif.Proof.MixedAead
import Verif.Props.Mixed
import Verif.Props.Aead
/-
Property theorems C51 for ChaCha20-Poly1305: objects that are worked on during constant evaluation (always the portable code) and afterwards at run time.

`aeadFamily.run`, `aeadApieFamily.run`: every call carries the circumstances (`Host`, cipher backend) it is made in.
-/
namespace Milo.Props
open Milo

theorem optRel_snd {α β O : Type} {R : α → β → Prop} {x : Option (α × O)} {y : Option (β × O)} (h : OptRel (Both R) x y) : x.map (·.2) = y.map (·.2) := by
  cases x <;> cases y
  · rfl
  · exact h.elim
  · exact h.elim
  · simp only [Option.map_some, h.2]

/-- Any calls of the class keep two objects the same to the eyes of their ciphers. -/
theorem aead_sim (h1 h2 : Host) {B1 B2 : ChaCha.Backend} (L1 : ChaCha.LawfulBackend B1) (L2 : ChaCha.LawfulBackend B2) {M : MacImpl} (o o' : Aead.Obj M)
    (hs : ∃ pos, Aead.Sim B1 B2 pos o o') (cs : List Aead.Call) (hok : ∀ c ∈ cs, c.Ok) :
    OptRel (Both fun x y => ∃ pos, Aead.Sim B1 B2 pos x y) (runCalls (Aead.exec h1 B1) o cs) (runCalls (Aead.exec h2 B2) o' cs) := by
  refine Both.run _ _ (fun _ x y => ∃ pos, Aead.Sim B1 B2 pos x y) (fun _ => 0) Aead.Call.Ok (fun _ x y c hxy hc => ?_) cs 0 o o' hs hok
  obtain ⟨pos, hp⟩ := hxy
  have w : ∀ {k} {u : Option (Aead.Obj M × List Aead.Out)} {v : Option (Aead.Obj M × List Aead.Out)}, OptRel (Both (Aead.Sim B1 B2 k)) u v →
      OptRel (Both fun x y => ∃ pos, Aead.Sim B1 B2 pos x y) u v := by
    intro k u v huv
    cases u <;> cases v
    · trivial
    · exact huv.elim
    · exact huv.elim
    · exact ⟨⟨k, huv.1⟩, huv.2⟩
  cases c with
  | init key iv => exact w (OptRel.bind (hp.init h1 h2 L1 L2 key iv) fun p p' hp => ⟨hp, rfl⟩)
  | aad x => exact w (hp.exec h1 h2 L1 L2 _ hc (fun _ _ => by simp))
  | aadover => exact w (hp.exec h1 h2 L1 L2 _ hc (fun _ _ => by simp))
  | encrypt s => exact w (hp.exec h1 h2 L1 L2 _ hc (fun _ _ => by simp))
  | decrypt s => exact w (hp.exec h1 h2 L1 L2 _ hc (fun _ _ => by simp))
  | finalize => exact w (hp.exec h1 h2 L1 L2 _ hc (fun _ _ => by simp))
  | digest dst n => exact w (hp.exec h1 h2 L1 L2 _ hc (fun _ _ => by simp))

theorem aeadApie_sim (h1 h2 : Host) {B1 B2 : ChaCha.Backend} (L1 : ChaCha.LawfulBackend B1) (L2 : ChaCha.LawfulBackend B2) {M : MacImpl} (o o' : AeadApie.Obj M)
    (hs : ∃ pos, AeadApie.Sim B1 B2 pos o o') (cs : List AeadApie.Call) (hok : ∀ c ∈ cs, c.Ok) :
    OptRel (Both fun x y => ∃ pos, AeadApie.Sim B1 B2 pos x y) (runCalls (AeadApie.exec h1 B1) o cs) (runCalls (AeadApie.exec h2 B2) o' cs) := by
  refine Both.run _ _ (fun _ x y => ∃ pos, AeadApie.Sim B1 B2 pos x y) (fun _ => 0) AeadApie.Call.Ok (fun _ x y c hxy hc => ?_) cs 0 o o' hs hok
  obtain ⟨pos, hp⟩ := hxy
  have w : ∀ {k} {u : Option (AeadApie.Obj M × List AeadApie.Out)} {v : Option (AeadApie.Obj M × List AeadApie.Out)}, OptRel (Both (AeadApie.Sim B1 B2 k)) u v →
      OptRel (Both fun x y => ∃ pos, AeadApie.Sim B1 B2 pos x y) u v := by
    intro k u v huv
    cases u <;> cases v
    · trivial
    · exact huv.elim
    · exact huv.elim
    · exact ⟨⟨k, huv.1⟩, huv.2⟩
  cases c with
  | init key iv => exact w (OptRel.bind (hp.init h1 h2 L1 L2 key iv) fun p p' hp => ⟨hp, rfl⟩)
  | aad x => exact w (hp.exec h1 h2 L1 L2 _ hc (fun _ _ => by simp))
  | text d t => exact w (hp.exec h1 h2 L1 L2 _ hc (fun _ _ => by simp))
  | digest dst n => exact w (hp.exec h1 h2 L1 L2 _ hc (fun _ _ => by simp))
  | digestC c n => exact w (hp.exec h1 h2 L1 L2 _ hc (fun _ _ => by simp))
  | verify t => exact w (hp.exec h1 h2 L1 L2 _ hc (fun _ _ => by simp))
  | verifyThrow t => exact w (hp.exec h1 h2 L1 L2 _ hc (fun _ _ => by simp))

/-- The part of both proofs that does not depend on the interface: a first part under circumstances `i`, a second under `j`. -/
theorem two_parts {ι C O : Type} (P : Family ι C O) (hid : ∀ i o, P.carry i i o = o) (i j : ι) (o : P.S i) (o' : P.S j) (cs1 cs2 : List C)
    (X Y : P.S j → P.S j → Prop)
    (h1 : OptRel (Both fun x y => ∀ z : Σ k, P.S k, P.carry z.1 i z.2 = x → X (P.carry z.1 j z.2) y) (runCalls (P.exec i) o cs1) (runCalls (P.exec j) o' cs1))
    (h2 : ∀ x y, X x y → OptRel (Both Y) (runCalls (P.exec j) x cs2) (runCalls (P.exec j) y cs2)) :
    (P.run ⟨i, o⟩ (cs1.map (fun c => (i, c)) ++ cs2.map fun c => (j, c))).map (·.2) = (runCalls (P.exec j) o' (cs1 ++ cs2)).map (·.2) := by
  have a := P.run_const hid i cs1 i o
  rw [hid] at a
  rw [P.run_split, runCalls_append]
  revert a h1
  generalize P.run ⟨i, o⟩ (cs1.map fun c => (i, c)) = u
  generalize runCalls (P.exec i) o cs1 = v
  generalize runCalls (P.exec j) o' cs1 = w
  intro h1 a
  cases u with
  | none =>
    cases v with
    | none => cases w with
      | none => rfl
      | some w => exact h1.elim
    | some v => exact a.elim
  | some u =>
    cases v with
    | none => exact a.elim
    | some v => cases w with
      | none => exact h1.elim
      | some w =>
        have hX := h1.1 u.1 a.1
        have b := P.run_const hid j cs2 u.1.1 u.1.2
        have c := h2 _ _ hX
        have eo : u.2 = w.2 := by rw [a.2, h1.2]
        simp only [Option.bind_some, eo]
        have d1 := optRel_snd b
        have d2 := optRel_snd c
        rw [Option.map_map, Option.map_map]
        have e : ∀ (α : Type) (x : Option (α × List O)), x.map ((fun r : α × List O => r.2) ∘ fun s => (s.1, w.2 ++ s.2)) = (x.map (·.2)).map (w.2 ++ ·) := by
          intro α x; cases x <;> rfl
        show Option.map _ (P.run u.1 _) = _
        rw [e, e, ← d2, ← d1]

/-- C51, the AEAD class (partial: the text since `initialize` that was processed during constant evaluation is a whole number of blocks; see `C51_aead_wrong`):
any calls (`pre`: any earlier use), the last of them after `initialize`, during constant evaluation, and any further calls `cs2` at run time with any backend
output what they would have output at run time throughout (which C34-C41 are about). -/
theorem C51_aead_class_partial (h1 h2 : Host) (he : h1.endian = h2.endian) (b : CipherBackend) (pre : List Aead.Call) (hp : ∀ c ∈ pre, c.Ok) (key iv : List Byte)
    (cs1 cs2 : List Aead.Call) (hc1 : ∀ c ∈ cs1, c.Ok ∧ ∀ k i, c ≠ .init k i) (hc2 : ∀ c ∈ cs2, c.Ok) (hblk : (cs1.map Aead.Call.size).sum % 64 = 0) :
    (aeadFamily.run ⟨(h1, .portable), Aead.fresh (Aead.poly h1)⟩
        ((pre ++ [Aead.Call.init key iv] ++ cs1).map (fun c => ((h1, .portable), c)) ++ cs2.map fun c => ((h2, b), c))).map (·.2)
      = (Aead.run h2 b (pre ++ [.init key iv] ++ cs1 ++ cs2)).map (·.2) := by
  have L1 := ChaCha.sw_lawful h1
  have L2 := backendLawful h2 b
  have e : Aead.poly h1 = Aead.poly h2 := Poly1305.impl_host h1 h2 he 16
  have s0 : ∃ pos, Aead.Sim (ChaCha.sw h1) (b.impl h2) pos (Aead.fresh (Aead.poly h2)) (Aead.fresh (Aead.poly h2)) := ⟨0, Aead.Sim.fresh L1 L2⟩
  have s1 := aead_sim h1 h2 L1 L2 _ _ s0 pre hp
  have s3 : OptRel (Both fun x y => ∃ pos, pos % 64 = 0 ∧ Aead.Sim (ChaCha.sw h1) (b.impl h2) pos x y)
      (runCalls (Aead.exec h1 (ChaCha.sw h1)) (Aead.fresh (Aead.poly h2)) (pre ++ [.init key iv] ++ cs1))
      (runCalls (Aead.exec h2 (b.impl h2)) (Aead.fresh (Aead.poly h2)) (pre ++ [.init key iv] ++ cs1)) := by
    rw [List.append_assoc, runCalls_append, runCalls_append]
    refine OptRel.bind s1 fun x y hxy => ?_
    obtain ⟨⟨pos, hs⟩, ho⟩ := hxy
    have s2 : OptRel (Both fun x y => ∃ pos, pos % 64 = 0 ∧ Aead.Sim (ChaCha.sw h1) (b.impl h2) pos x y)
        (runCalls (Aead.exec h1 (ChaCha.sw h1)) x.1 ([.init key iv] ++ cs1)) (runCalls (Aead.exec h2 (b.impl h2)) y.1 ([.init key iv] ++ cs1)) := by
      rw [List.singleton_append]
      simp only [runCalls]
      have si : OptRel (Both (Aead.Sim (ChaCha.sw h1) (b.impl h2) 64)) (Aead.exec h1 (ChaCha.sw h1) x.1 (.init key iv)) (Aead.exec h2 (b.impl h2) y.1 (.init key iv)) :=
        OptRel.bind (hs.init h1 h2 L1 L2 key iv) fun p p' hp => ⟨hp, rfl⟩
      refine OptRel.bind si fun p p' hp => ?_
      refine OptRel.bind (Both.run _ _ (Aead.Sim (ChaCha.sw h1) (b.impl h2)) Aead.Call.size (fun c => c.Ok ∧ ∀ k i, c ≠ .init k i)
        (fun n a a' c ha hc => ha.exec h1 h2 L1 L2 c hc.1 hc.2) cs1 64 p.1 p'.1 hp.1 hc1) fun q q' hq => ?_
      exact ⟨⟨_, by omega, hq.1⟩, by rw [hp.2, hq.2]⟩
    revert s2
    generalize runCalls (Aead.exec h1 (ChaCha.sw h1)) x.1 ([.init key iv] ++ cs1) = u
    generalize runCalls (Aead.exec h2 (b.impl h2)) y.1 ([.init key iv] ++ cs1) = v
    intro s2
    cases u <;> cases v
    · trivial
    · exact s2.elim
    · exact s2.elim
    · exact ⟨s2.1, by simp only [ho, s2.2]⟩
  refine two_parts aeadFamily (fun i o => rfl) (h1, .portable) (h2, b) (Aead.fresh (Aead.poly h1)) (Aead.fresh (Aead.poly h2)) _ cs2
    (fun x y => ∃ pos, Aead.Sim (b.impl h2) (b.impl h2) pos x y) (fun x y => ∃ pos, Aead.Sim (b.impl h2) (b.impl h2) pos x y) ?_
    (fun x y hxy => aead_sim h2 h2 L2 L2 x y hxy cs2 hc2)
  have ec := Aead.exec_cast e h1 (ChaCha.sw h1) (Aead.fresh (Aead.poly h1)) (pre ++ [.init key iv] ++ cs1)
  rw [← Aead.carry_cast e] at ec
  have ef : Aead.carry h1 h2 (Aead.fresh (Aead.poly h1)) = Aead.fresh (Aead.poly h2) := rfl
  rw [ef] at ec
  rw [ec] at s3
  show OptRel _ (runCalls (Aead.exec h1 (ChaCha.sw h1)) (Aead.fresh (Aead.poly h1)) (pre ++ [.init key iv] ++ cs1)) (runCalls (Aead.exec h2 (b.impl h2)) (Aead.fresh (Aead.poly h2)) (pre ++ [.init key iv] ++ cs1))
  revert s3
  generalize runCalls (Aead.exec h1 (ChaCha.sw h1)) (Aead.fresh (Aead.poly h1)) (pre ++ [.init key iv] ++ cs1) = u
  generalize runCalls (Aead.exec h2 (b.impl h2)) (Aead.fresh (Aead.poly h2)) (pre ++ [.init key iv] ++ cs1) = v
  intro s3
  cases u <;> cases v
  · trivial
  · exact s3.elim
  · exact s3.elim
  · next u v =>
    refine ⟨fun z hz => ?_, s3.2⟩
    obtain ⟨pos, hm, hs⟩ := s3.1
    have hz' : Aead.carry h1 h2 u.1 = Aead.carry z.1.1 h2 z.2 := by rw [← hz]; rfl
    have hs : Aead.Sim (ChaCha.sw h1) (b.impl h2) pos (e ▸ u.1) v.1 := hs
    rw [← Aead.carry_cast e, hz'] at hs
    obtain ⟨⟨st0, r1, r2⟩, m, a, d⟩ := hs
    exact ⟨pos, ⟨st0, rep_boundary h1 L2 st0 _ pos r1 hm, r2⟩, m, a, d⟩

/-- C51, the AEAD `apie` (partial, as above). -/
theorem C51_aead_apie_partial (h1 h2 : Host) (he : h1.endian = h2.endian) (b : CipherBackend) (pre : List AeadApie.Call) (hp : ∀ c ∈ pre, c.Ok) (key iv : List Byte)
    (cs1 cs2 : List AeadApie.Call) (hc1 : ∀ c ∈ cs1, c.Ok ∧ ∀ k i, c ≠ .init k i) (hc2 : ∀ c ∈ cs2, c.Ok) (hblk : (cs1.map AeadApie.Call.size).sum % 64 = 0) :
    (aeadApieFamily.run ⟨(h1, .portable), AeadApie.constructDefault (Aead.poly h1)⟩
        ((pre ++ [AeadApie.Call.init key iv] ++ cs1).map (fun c => ((h1, .portable), c)) ++ cs2.map fun c => ((h2, b), c))).map (·.2)
      = (AeadApie.run h2 b (pre ++ [.init key iv] ++ cs1 ++ cs2)).map (·.2) := by
  have L1 := ChaCha.sw_lawful h1
  have L2 := backendLawful h2 b
  have e : Aead.poly h1 = Aead.poly h2 := Poly1305.impl_host h1 h2 he 16
  have s0 : ∃ pos, AeadApie.Sim (ChaCha.sw h1) (b.impl h2) pos (AeadApie.constructDefault (Aead.poly h2)) (AeadApie.constructDefault (Aead.poly h2)) := ⟨0, AeadApie.Sim.fresh L1 L2⟩
  have s1 := aeadApie_sim h1 h2 L1 L2 _ _ s0 pre hp
  have s3 : OptRel (Both fun x y => ∃ pos, pos % 64 = 0 ∧ AeadApie.Sim (ChaCha.sw h1) (b.impl h2) pos x y)
      (runCalls (AeadApie.exec h1 (ChaCha.sw h1)) (AeadApie.constructDefault (Aead.poly h2)) (pre ++ [.init key iv] ++ cs1))
      (runCalls (AeadApie.exec h2 (b.impl h2)) (AeadApie.constructDefault (Aead.poly h2)) (pre ++ [.init key iv] ++ cs1)) := by
    rw [List.append_assoc, runCalls_append, runCalls_append]
    refine OptRel.bind s1 fun x y hxy => ?_
    obtain ⟨⟨pos, hs⟩, ho⟩ := hxy
    have s2 : OptRel (Both fun x y => ∃ pos, pos % 64 = 0 ∧ AeadApie.Sim (ChaCha.sw h1) (b.impl h2) pos x y)
        (runCalls (AeadApie.exec h1 (ChaCha.sw h1)) x.1 ([.init key iv] ++ cs1)) (runCalls (AeadApie.exec h2 (b.impl h2)) y.1 ([.init key iv] ++ cs1)) := by
      rw [List.singleton_append]
      simp only [runCalls]
      have si : OptRel (Both (AeadApie.Sim (ChaCha.sw h1) (b.impl h2) 64)) (AeadApie.exec h1 (ChaCha.sw h1) x.1 (.init key iv)) (AeadApie.exec h2 (b.impl h2) y.1 (.init key iv)) :=
        OptRel.bind (hs.init h1 h2 L1 L2 key iv) fun p p' hp => ⟨hp, rfl⟩
      refine OptRel.bind si fun p p' hp => ?_
      refine OptRel.bind (Both.run _ _ (AeadApie.Sim (ChaCha.sw h1) (b.impl h2)) AeadApie.Call.size (fun c => c.Ok ∧ ∀ k i, c ≠ .init k i)
        (fun n a a' c ha hc => ha.exec h1 h2 L1 L2 c hc.1 hc.2) cs1 64 p.1 p'.1 hp.1 hc1) fun q q' hq => ?_
      exact ⟨⟨_, by omega, hq.1⟩, by rw [hp.2, hq.2]⟩
    revert s2
    generalize runCalls (AeadApie.exec h1 (ChaCha.sw h1)) x.1 ([.init key iv] ++ cs1) = u
    generalize runCalls (AeadApie.exec h2 (b.impl h2)) y.1 ([.init key iv] ++ cs1) = v
    intro s2
    cases u <;> cases v
    · trivial
    · exact s2.elim
    · exact s2.elim
    · exact ⟨s2.1, by simp only [ho, s2.2]⟩
  refine two_parts aeadApieFamily (fun i o => rfl) (h1, .portable) (h2, b) (AeadApie.constructDefault (Aead.poly h1)) (AeadApie.constructDefault (Aead.poly h2)) _ cs2
    (fun x y => ∃ pos, AeadApie.Sim (b.impl h2) (b.impl h2) pos x y) (fun x y => ∃ pos, AeadApie.Sim (b.impl h2) (b.impl h2) pos x y) ?_
    (fun x y hxy => aeadApie_sim h2 h2 L2 L2 x y hxy cs2 hc2)
  have ec := AeadApie.exec_cast e h1 (ChaCha.sw h1) (AeadApie.constructDefault (Aead.poly h1)) (pre ++ [.init key iv] ++ cs1)
  rw [← AeadApie.carry_cast e] at ec
  have ef : AeadApie.carry h1 h2 (AeadApie.constructDefault (Aead.poly h1)) = AeadApie.constructDefault (Aead.poly h2) := rfl
  rw [ef] at ec
  rw [ec] at s3
  show OptRel _ (runCalls (AeadApie.exec h1 (ChaCha.sw h1)) (AeadApie.constructDefault (Aead.poly h1)) (pre ++ [.init key iv] ++ cs1)) (runCalls (AeadApie.exec h2 (b.impl h2)) (AeadApie.constructDefault (Aead.poly h2)) (pre ++ [.init key iv] ++ cs1))
  revert s3
  generalize runCalls (AeadApie.exec h1 (ChaCha.sw h1)) (AeadApie.constructDefault (Aead.poly h1)) (pre ++ [.init key iv] ++ cs1) = u
  generalize runCalls (AeadApie.exec h2 (b.impl h2)) (AeadApie.constructDefault (Aead.poly h2)) (pre ++ [.init key iv] ++ cs1) = v
  intro s3
  cases u <;> cases v
  · trivial
  · exact s3.elim
  · exact s3.elim
  · next u v =>
    refine ⟨fun z hz => ?_, s3.2⟩
    obtain ⟨pos, hm, hs⟩ := s3.1
    have hz' : AeadApie.carry h1 h2 u.1 = AeadApie.carry z.1.1 h2 z.2 := by rw [← hz]; rfl
    have hs : AeadApie.Sim (ChaCha.sw h1) (b.impl h2) pos (e ▸ u.1) v.1 := hs
    rw [← AeadApie.carry_cast e, hz'] at hs
    obtain ⟨⟨⟨st0, r1, r2⟩, m, a, d⟩, f, g⟩ := hs
    exact ⟨pos, ⟨⟨st0, rep_boundary h1 L2 st0 _ pos r1 hm, r2⟩, m, a, d⟩, f, g⟩

/-- C51 in the words of C35: little-endian, `apie`, at least one text call; the calls after `initialize` are split anywhere into `cs1`, during constant evaluation,
and `cs2`, at run time with any backend (partial: at a block boundary of the text). -/
theorem C51_aead_rfc_partial (h1 h2 : Host) (hh1 : h1.endian = .little) (hh2 : h2.endian = .little) (b : CipherBackend) (pre : List AeadApie.Call)
    (hp : AeadApie.Begun pre) (d : Bool) (key : List Byte) (hk : key.length = 32) (nonce : List Byte) (hn : nonce.length = 12) (ads : List (List Byte))
    (ha : ∀ x ∈ ads, x.length < 2 ^ 64) (ts : List TextReq) (ht : ∀ t ∈ ts, t.Ok) (hne : ts ≠ []) (cs : List AeadApie.Call) (hc : ∀ c ∈ cs, c.Ok ∧ Spec.Aead.Ends c)
    (cs1 cs2 : List AeadApie.Call) (hcs : cs1 ++ cs2 = ads.map .aad ++ ts.map (.text d) ++ cs) (hblk : (cs1.map AeadApie.Call.size).sum % 64 = 0) :
    ∃ o outs rs, aeadApieFamily.run ⟨(h1, .portable), AeadApie.constructDefault (Aead.poly h1)⟩
        ((pre ++ [AeadApie.Call.init key nonce] ++ cs1).map (fun c => ((h1, .portable), c)) ++ cs2.map fun c => ((h2, b), c))
        = some (o, outs ++ (textOuts ts rs ++ cs.map (Spec.Aead.ending (Spec.Aead.tag key nonce ads.flatten (cipherOf d key nonce (allText ts)))))) ∧
      rs.map List.length = ts.map (fun t => (Spec.Aead.text t).length) ∧ rs.flatten = Spec.Aead.crypt key nonce (allText ts) := by
  have hmem : ∀ c, c ∈ cs1 ∨ c ∈ cs2 → c.Ok ∧ ∀ k i, c ≠ .init k i := by
    intro c h
    have : c ∈ ads.map .aad ++ ts.map (.text d) ++ cs := by rw [← hcs]; exact List.mem_append.mpr h
    simp only [List.mem_append, List.mem_map] at this
    rcases this with (⟨x, hx, rfl⟩ | ⟨t, hx, rfl⟩) | h
    · exact ⟨ha x hx, fun _ _ => by simp⟩
    · exact ⟨ht t hx, fun _ _ => by simp⟩
    · refine ⟨(hc c h).1, fun k i e => ?_⟩
      have := (hc c h).2
      rw [e] at this
      exact this.elim
  have e1 := C51_aead_apie_partial h1 h2 (by rw [hh1, hh2]) b pre hp.1 key nonce cs1 cs2 (fun c h => hmem c (.inl h)) (fun c h => (hmem c (.inr h)).1) hblk
  obtain ⟨o, outs, rs, e2, p⟩ := C35_aead_apie h2 hh2 b pre hp d key hk nonce hn ads ha ts ht hne cs hc
  have e3 : pre ++ apieCalls d key nonce ads ts [] cs = pre ++ [.init key nonce] ++ cs1 ++ cs2 := by
    rw [List.append_assoc _ cs1 cs2, hcs]
    simp [apieCalls]
  rw [e3] at e2
  rw [e2] at e1
  revert e1
  generalize aeadApieFamily.run _ _ = u
  intro e1
  cases u with
  | none => cases e1
  | some u =>
    obtain ⟨u1, u2⟩ := u
    have e1 : u2 = _ := Option.some.inj e1
    exact ⟨u1, outs, rs, by rw [e1], p⟩

/-- Hypotheses met: the object is made and begun during constant evaluation with associated data and one block of text; the rest at run time with AVX2. -/
example (x : List Byte) (hx : x.length = 64) : ∃ o outs rs, aeadApieFamily.run ⟨(⟨.little, true, none⟩, .portable), AeadApie.constructDefault (Aead.poly ⟨.little, true, none⟩)⟩
      ((([.init [1] [2], .verify [5]] : List AeadApie.Call) ++ [AeadApie.Call.init (List.replicate 32 1) (List.replicate 12 2)] ++ ([.aad [7], .text false (.self ⟨true, x⟩)] : List AeadApie.Call)).map
        (fun c => ((⟨.little, true, none⟩, .portable), c)) ++ ([.text false (.self ⟨true, [8]⟩), .digest (List.replicate 16 0) 16] : List AeadApie.Call).map
        fun c => ((⟨.little, false, none⟩, .avx2 fun _ => 0), c))
    = some (o, outs ++ (textOuts [.self ⟨true, x⟩, .self ⟨true, [8]⟩] rs ++ [.digest (List.replicate 16 0) 16].map (Spec.Aead.ending
        (Spec.Aead.tag (List.replicate 32 1) (List.replicate 12 2) [7] (cipherOf false (List.replicate 32 1) (List.replicate 12 2)
          (allText [.self ⟨true, x⟩, .self ⟨true, [8]⟩])))))) ∧
      rs.map List.length = [.self ⟨true, x⟩, .self ⟨true, [8]⟩].map (fun t => (Spec.Aead.text t).length) ∧
      rs.flatten = Spec.Aead.crypt (List.replicate 32 1) (List.replicate 12 2) (allText [.self ⟨true, x⟩, .self ⟨true, [8]⟩]) :=
  C51_aead_rfc_partial ⟨.little, true, none⟩ ⟨.little, false, none⟩ rfl rfl (.avx2 fun _ => 0) [.init [1] [2], .verify [5]] ⟨by simp [AeadApie.Call.Ok], by simp⟩ false
    (List.replicate 32 1) (by simp) (List.replicate 12 2) (by simp) [[7]] (by simp) [.self ⟨true, x⟩, .self ⟨true, [8]⟩]
    (by simp [TextReq.Ok, hx]) (by simp) [.digest (List.replicate 16 0) 16] (by simp [AeadApie.Call.Ok, Spec.Aead.Ends])
    [.aad [7], .text false (.self ⟨true, x⟩)] [.text false (.self ⟨true, [8]⟩), .digest (List.replicate 16 0) 16] rfl
    (by simp [AeadApie.Call.size, Spec.Aead.text, hx])

/-- What `initialize` leaves in the cipher when it is executed by the portable code on a new object: a buffer of zeros, the counter at 1. -/
theorem aead_new_cipher (h : Host) (key iv : List Byte) :
    ∃ o buf, AeadApie.initialise h (ChaCha.sw h) (AeadApie.constructDefault (Aead.poly h)) key iv = some o ∧
      AeadApie.St (ChaCha.sw h) (Aead.L h) key iv o [] 0 0 false ∧
      o.impl.cipher = ⟨ChaCha.ctr (Aead.S key iv) 1, buf, 0⟩ ∧ buf.length = 512 ∧ ∀ i, buf.getD i 0 = 0#8 := by
  have LB := ChaCha.sw_lawful h
  obtain ⟨o, e, hs⟩ := AeadApie.init_st h LB (Aead.L h) (AeadApie.constructDefault (Aead.poly h)) (AeadApie.base_default LB (Aead.L h)) key iv
  refine ⟨o, ChaCha.fresh.buffer, e, hs, ?_, List.length_replicate, ?_⟩
  · have hfl : (ChaCha.fresh).state.length = 16 := List.length_replicate
    have e0 := ChaCha.init_eq h ChaCha.fresh key (Aead.civ iv) hfl
    have hsl : (ChaCha.initState key (Aead.civ iv)).length = 16 := ChaCha.initState_length _ _
    have hz : (List.replicate 64 0#8).length = 64 := List.length_replicate
    unfold Aead.S
    generalize ChaCha.initState key (Aead.civ iv) = st at e0 hsl ⊢
    generalize ChaCha.fresh.buffer = buf at e0 ⊢
    have e1 : ∃ k, ChaCha.encrypt h (ChaCha.sw h) ⟨st, buf, 0⟩ (List.replicate 64 0#8) 0 64 0 = some (⟨ChaCha.ctr st 1, buf, 0⟩, k, 64) := by
      generalize List.replicate 64 0#8 = z at hz
      obtain ⟨d, et, hd⟩ := LB.transform 1 st z 0 0 hsl (.inl rfl) (by show 0 + 64 * 1 * 1 ≤ _; omega) (by show 0 + 64 * 1 * 1 ≤ _; omega)
      have hr1 : (ChaCha.sw h).ratio = 1 := rfl
      rw [hr1] at et hd
      unfold ChaCha.encrypt ChaCha.prodXor ChaCha.prodRest ChaCha.fullBlocks ChaCha.lastBytes
      simp only [Nat.lt_irrefl, gt_iff_lt, if_false, hr1, Nat.reduceMul, Nat.reduceDiv, Nat.reduceMod, ne_eq, Nat.one_ne_zero, not_false_eq_true, if_true,
        not_true_eq_false, Option.bind_eq_bind, et, Option.bind_some, ChaCha.bump_done st d 1 (by omega) hd, Option.pure_def]
      exact ⟨_, rfl⟩
    obtain ⟨k, e1⟩ := e1
    have ei : AeadApie.initialise h (ChaCha.sw h) (AeadApie.constructDefault (Aead.poly h)) key iv
        = ((Aead.poly h).init (Aead.poly h).fresh k).bind fun m => some ⟨⟨⟨ChaCha.ctr st 1, buf, 0⟩, m, some 0, some 0⟩, some false, some false⟩ := by
      unfold AeadApie.initialise Aead.init
      rw [Aead.civ_eq]
      have ec : (AeadApie.constructDefault (Aead.poly h)).impl.cipher = ChaCha.fresh := rfl
      simp only [Option.bind_eq_bind, Option.bind_some, ec, e0, e1, Option.pure_def, Option.bind_assoc]
      rfl
    rw [ei] at e
    revert e
    generalize (Aead.poly h).init (Aead.poly h).fresh k = u
    intro e
    cases u with
    | none => cases e
    | some u => rw [← Option.some.inj e]
  · intro i
    show (List.replicate (64 * 8) 0#8).getD i 0#8 = 0#8
    rw [List.getD_eq_getElem?_getD, List.getElem?_replicate]
    split <;> rfl

/-- C51 is false of the AEAD too: when the text encrypted during constant evaluation ends inside a block, an accelerated backend at run time outputs, after the rest
of that block, the following text *unencrypted* (and authenticates it). -/
theorem C51_aead_wrong (h1 h2 : Host) (b : CipherBackend) (key : List Byte) (hk32 : key.length = 32) (nonce : List Byte) (hn : nonce.length = 12)
    (x1 x2 : List Byte) (hk : 0 < x1.length) (hk' : x1.length < 64) (hx : x1.length + x2.length ≤ 64 * (b.impl h2).ratio) :
    ∃ o c1 c2, aeadApieFamily.run ⟨(h1, .portable), AeadApie.constructDefault (Aead.poly h1)⟩
        [((h1, .portable), .init key nonce), ((h1, .portable), .text false (.ptr ⟨x1, 0, x1.length, 0⟩)), ((h2, b), .text false (.ptr ⟨x2, 0, x2.length, 0⟩))]
      = some (o, [.bytes c1 x1.length, .bytes (c2 ++ x2.drop (64 - x1.length)) x2.length]) ∧
      c1 ++ c2 = Spec.Aead.crypt key nonce (x1 ++ x2.take (64 - x1.length)) := by
  obtain ⟨o0, buf, e0, s0, hc, hbl, hbz⟩ := aead_new_cipher h1 key nonce
  have hsl : (ChaCha.ctr (Aead.S key nonce) 1).length = 16 := by rw [ChaCha.ctr_length]; exact ChaCha.initState_length _ _
  obtain ⟨p1, p2, e1, e2⟩ := split_block h1 h2 b _ buf hsl hbl hbz x1 x2 hk hk' hx
  have hst : ∀ (p : Nat) (x : List Byte), Cipher.streamed (ChaCha.ctr (Aead.S key nonce) 1) p x = Aead.crypted key nonce p x := by
    intro p x
    unfold Aead.crypted Cipher.streamed
    have : (fun (i : Nat) (b : Byte) => b ^^^ ChaCha.stream (ChaCha.ctr (Aead.S key nonce) 1) (p + i)) = fun i b => b ^^^ ChaCha.stream (Aead.S key nonce) (64 + p + i) := by
      funext i b
      rw [ChaCha.stream_ctr _ _ _ (by rw [show (Aead.S key nonce).length = 16 from ChaCha.initState_length _ _]; omega), Nat.mul_one, Nat.add_assoc]
    rw [this]
  rw [hst] at e1 e2
  have hlen1 : (Aead.crypted key nonce 0 x1).length = x1.length := Aead.crypted_length _ _ _ _
  -- the first text call
  obtain ⟨o0', ef, sf⟩ := AeadApie.doFinalizeAad_st (Aead.L h1) key nonce o0 _ _ _ _ s0
  have hc' : o0'.impl.cipher = ⟨ChaCha.ctr (Aead.S key nonce) 1, buf, 0⟩ := by
    unfold AeadApie.doFinalizeAad at ef
    rw [s0.over] at ef
    simp only [Aead.aadover, Aead.updatePad, Option.bind_eq_bind, Option.pure_def] at ef
    have : ∀ (u : Option W64) (z : W64 → Option (List Byte)) , (u.bind fun a => ((z a).bind fun y => ((Aead.poly h1).update o0.impl.mac y).bind fun m => some { o0.impl with mac := m }).bind
        fun i => some ({ o0 with impl := i, finalizedAad := some true } : AeadApie.Obj (Aead.poly h1))) = some o0' → o0'.impl.cipher = o0.impl.cipher := by
      intro u z hu
      cases u with
      | none => cases hu
      | some u =>
        simp only [Option.bind_some] at hu
        cases hz : z u with
        | none => rw [hz] at hu; cases hu
        | some y =>
          rw [hz] at hu
          simp only [Option.bind_some] at hu
          cases hy : (Aead.poly h1).update o0.impl.mac y with
          | none => rw [hy] at hu; cases hu
          | some m =>
            rw [hy] at hu
            rw [← Option.some.inj hu]
    rw [← hc]
    simp only [Option.bind_assoc] at this ef
    exact this _ _ ef
  obtain ⟨m1, em1, rm1⟩ := (Aead.L h1).update o0'.impl.mac _ _ (Aead.crypted key nonce 0 x1) sf.holds.mac (by omega)
  have t1 : AeadApie.exec h1 (ChaCha.sw h1) o0 (.text false (.ptr ⟨x1, 0, x1.length, 0⟩))
      = some (⟨⟨p1, m1, o0'.impl.aadSize, some (BitVec.ofNat 64 0 + BitVec.ofNat 64 x1.length)⟩, some true, some false⟩, [.bytes (Aead.crypted key nonce 0 x1) x1.length]) := by
    unfold AeadApie.exec AeadApie.text AeadApie.encrypt Aead.encrypt
    simp only [ef, Option.bind_eq_bind, Option.bind_some, hc', e1, Bool.false_eq_true, if_false]
    rw [Memory.rdN_some _ _ _ (by omega), List.drop_zero, List.take_of_length_le (by omega)]
    simp only [Option.bind_some, em1, sf.holds.edd, Option.pure_def, sf.over, sf.fin]
  have hc2l : (Aead.crypted key nonce x1.length (x2.take (64 - x1.length)) ++ x2.drop (64 - x1.length)).length = x2.length := by
    rw [List.length_append, Aead.crypted_length]; simp; omega
  generalize hc2 : Aead.crypted key nonce x1.length (x2.take (64 - x1.length)) ++ x2.drop (64 - x1.length) = c at e2 hc2l
  have hm : (Aead.poly h1).update = (Aead.poly h2).update := by
    have : Poly1305.update h1 = Poly1305.update h2 := by
      funext o msg
      unfold Poly1305.update soak
      rw [Poly1305.process_host h1 h2, copy_host h1 h2]
    exact this
  have hx64 : x2.length < 2 ^ 64 := by have := (backendLawful h2 b).le; omega
  obtain ⟨m2, em2, -⟩ := (Aead.L h1).update m1 _ _ c rm1 (by omega)
  have t2 : AeadApie.exec h2 (b.impl h2) (M := Aead.poly h2)
      ⟨⟨p1, m1, o0'.impl.aadSize, some (BitVec.ofNat 64 0 + BitVec.ofNat 64 x1.length)⟩, some true, some false⟩ (.text false (.ptr ⟨x2, 0, x2.length, 0⟩))
      = some (⟨⟨p2, m2, o0'.impl.aadSize, some (BitVec.ofNat 64 0 + BitVec.ofNat 64 x1.length + BitVec.ofNat 64 x2.length)⟩, some true, some false⟩, [.bytes c x2.length]) := by
    have em2' : (Aead.poly h2).update m1 c = some m2 := by rw [← hm]; exact em2
    unfold AeadApie.exec AeadApie.text AeadApie.encrypt Aead.encrypt AeadApie.doFinalizeAad
    simp only [Option.bind_eq_bind, Option.bind_some, e2, Bool.false_eq_true, if_false]
    rw [Memory.rdN_some _ _ _ (by omega), List.drop_zero, List.take_of_length_le (by omega)]
    simp only [Option.bind_some, em2', Option.pure_def]
    rfl
  have t0 : AeadApie.exec h1 (ChaCha.sw h1) (AeadApie.constructDefault (Aead.poly h1)) (.init key nonce) = some (o0, []) := by
    simp only [AeadApie.exec, e0, Option.bind_eq_bind, Option.bind_some, Option.pure_def]
  refine ⟨⟨(h2, b), ⟨⟨p2, m2, o0'.impl.aadSize, some (BitVec.ofNat 64 0 + BitVec.ofNat 64 x1.length + BitVec.ofNat 64 x2.length)⟩, some true, some false⟩⟩,
    Aead.crypted key nonce 0 x1, Aead.crypted key nonce x1.length (x2.take (64 - x1.length)), ?_, ?_⟩
  · rw [hc2]
    have k0 : aeadApieFamily.step ⟨(h1, .portable), AeadApie.constructDefault (Aead.poly h1)⟩ ((h1, .portable), .init key nonce) = some (⟨(h1, .portable), o0⟩, []) := by
      show (AeadApie.exec h1 (ChaCha.sw h1) (AeadApie.constructDefault (Aead.poly h1)) (.init key nonce)).bind (fun r => some ((⟨(h1, .portable), r.1⟩ : Σ i, aeadApieFamily.S i), r.2)) = _
      rw [t0]; rfl
    have k1 : aeadApieFamily.step ⟨(h1, .portable), o0⟩ ((h1, .portable), .text false (.ptr ⟨x1, 0, x1.length, 0⟩))
        = some (⟨(h1, .portable), (⟨⟨p1, m1, o0'.impl.aadSize, some (BitVec.ofNat 64 0 + BitVec.ofNat 64 x1.length)⟩, some true, some false⟩ : AeadApie.Obj (Aead.poly h1))⟩,
          [.bytes (Aead.crypted key nonce 0 x1) x1.length]) := by
      show (AeadApie.exec h1 (ChaCha.sw h1) o0 (.text false (.ptr ⟨x1, 0, x1.length, 0⟩))).bind (fun r => some ((⟨(h1, .portable), r.1⟩ : Σ i, aeadApieFamily.S i), r.2)) = _
      rw [t1]; rfl
    have k2 : aeadApieFamily.step ⟨(h1, .portable), (⟨⟨p1, m1, o0'.impl.aadSize, some (BitVec.ofNat 64 0 + BitVec.ofNat 64 x1.length)⟩, some true, some false⟩ : AeadApie.Obj (Aead.poly h1))⟩
          ((h2, b), .text false (.ptr ⟨x2, 0, x2.length, 0⟩))
        = some (⟨(h2, b), (⟨⟨p2, m2, o0'.impl.aadSize, some (BitVec.ofNat 64 0 + BitVec.ofNat 64 x1.length + BitVec.ofNat 64 x2.length)⟩, some true, some false⟩ : AeadApie.Obj (Aead.poly h2))⟩,
          [.bytes c x2.length]) := by
      show (AeadApie.exec h2 (b.impl h2) (M := Aead.poly h2) ⟨⟨p1, m1, o0'.impl.aadSize, some (BitVec.ofNat 64 0 + BitVec.ofNat 64 x1.length)⟩, some true, some false⟩
        (.text false (.ptr ⟨x2, 0, x2.length, 0⟩))).bind (fun r => some ((⟨(h2, b), r.1⟩ : Σ i, aeadApieFamily.S i), r.2)) = _
      rw [t2]; rfl
    simp only [Family.run, runCalls, k0, k1, k2, Option.bind_eq_bind, Option.bind_some, Option.pure_def, List.nil_append, List.append_nil, List.cons_append]
  · have := Aead.crypted_append key nonce 0 x1 (x2.take (64 - x1.length))
    rw [Nat.zero_add] at this
    rw [← this, AeadApie.crypt_eq, padTo_id 32 key hk32, padTo_id 12 nonce hn]

/-- Hypotheses met: one byte of text during constant evaluation, then 127 with AVX2 (a unit is 256 bytes or more): the last 64 come out as they are. -/
example (x y : List Byte) (hx : x.length = 63) (hy : y.length = 64) :
    ∃ o c1 c2, aeadApieFamily.run ⟨(⟨.little, true, none⟩, .portable), AeadApie.constructDefault (Aead.poly ⟨.little, true, none⟩)⟩
      [((⟨.little, true, none⟩, .portable), .init (List.replicate 32 1) (List.replicate 12 2)),
        ((⟨.little, true, none⟩, .portable), .text false (.ptr ⟨[9], 0, 1, 0⟩)),
        ((⟨.little, false, none⟩, .avx2 fun _ => 0), .text false (.ptr ⟨x ++ y, 0, (x ++ y).length, 0⟩))]
    = some (o, [.bytes c1 1, .bytes (c2 ++ y) (x ++ y).length]) ∧ c1 ++ c2 = Spec.Aead.crypt (List.replicate 32 1) (List.replicate 12 2) ([9] ++ x) := by
  have := C51_aead_wrong ⟨.little, true, none⟩ ⟨.little, false, none⟩ (.avx2 fun _ => 0) (List.replicate 32 1) (by simp) (List.replicate 12 2) (by simp) [9] (x ++ y)
    (by simp) (by simp) (by rw [List.length_append, hx, hy]; decide)
  rwa [List.drop_left' (by simp [hx]), List.take_left' (by simp [hx])] at this

end Milo.Props
