import Verif.Proof.Mixed
import Verif.Props.Hash
import Verif.Props.Mac
import Verif.Props.Cipher
/-
Property theorems C51: objects that are worked on during constant evaluation and afterwards at run time.

`Family.run o calls`: every call carries the circumstances (`Host`: byte order, constant evaluation or run time, with or without SHA instructions; for the
cipher also the backend) it is made in; they may change between any two calls.
-/
namespace Milo.Props
open Milo

theorem hash_final {P : Family Host Hash.Call Hash.Out} (Q : P.Reading HashHas) (F : List Byte → List Byte) (hn : Q.next = hashNext) (ho : Q.out = hashOut F)
    (a : HashHas) (xs : List (List Byte)) (hx : ∀ x ∈ xs, x.length < 2 ^ 64) (dg : List (List Byte × Nat)) :
    Q.outs a ([.init] ++ xs.map .update ++ [.finalize] ++ dg.map fun d => .digest d.1 d.2) = some (dg.map fun d => Spec.written (F xs.flatten) d.1 d.2) := by
  have hu : ∀ (xs : List (List Byte)) (m : List Byte), (∀ x ∈ xs, x.length < 2 ^ 64) → Q.outs (some (m, false)) (xs.map .update) = some [] ∧
      Q.final (some (m, false)) (xs.map .update) = some (m ++ xs.flatten, false) := by
    intro xs
    induction xs with
    | nil => intro m _; exact ⟨rfl, by simp [Family.Reading.final]⟩
    | cons x xs ih =>
      intro m hx
      have hx1 := hx x List.mem_cons_self
      obtain ⟨i1, i2⟩ := ih (m ++ x) (fun y h => hx y (List.mem_cons_of_mem _ h))
      have hnx : Q.next (some (m, false)) (.update x) = some (m ++ x, false) := by rw [hn]; simp only [hashNext, if_pos hx1]
      unfold Family.Reading.final at i2 ⊢
      simp only [List.map_cons, Family.Reading.outs, List.foldl_cons, hnx, i1, i2]
      exact ⟨by rw [ho]; rfl, by simp⟩
  have hd : ∀ (dg : List (List Byte × Nat)) (m : List Byte), Q.outs (some (m, true)) (dg.map fun d => .digest d.1 d.2) = some (dg.map fun d => Spec.written (F m) d.1 d.2) := by
    intro dg m
    induction dg with
    | nil => rfl
    | cons d dg ih =>
      have hnx : Q.next (some (m, true)) (.digest d.1 d.2) = some (m, true) := by rw [hn]; rfl
      simp only [List.map_cons, Family.Reading.outs, hnx, ih, ho]
      rfl
  have hi : Q.outs a [.init] = some [] ∧ Q.final a [.init] = some ([], false) := by
    unfold Family.Reading.final
    simp only [Family.Reading.outs, List.foldl_cons, List.foldl_nil, hn, ho]
    exact ⟨by cases a with | none => rfl | some p => (obtain ⟨m, b⟩ := p; cases b <;> rfl), by cases a <;> rfl⟩
  obtain ⟨u1, u2⟩ := hu xs [] hx
  have e1 := Q.outs_append a [.init] (xs.map .update) [] [] hi.1 (by rw [hi.2]; exact u1)
  have f1 : Q.final a ([.init] ++ xs.map .update) = some (xs.flatten, false) := by
    have := hi.2
    unfold Family.Reading.final at *
    rw [List.foldl_append, this, u2, List.nil_append]
  have e2 := Q.outs_append a _ [.finalize] _ [] e1 (by rw [f1]; simp only [Family.Reading.outs, ho]; rfl)
  have f2 : Q.final a ([.init] ++ xs.map .update ++ [.finalize]) = some (xs.flatten, true) := by
    unfold Family.Reading.final at *
    rw [List.foldl_append, f1, hn]; rfl
  exact Q.outs_append a _ _ _ _ e2 (by rw [f2]; exact hd dg _)

/-- C51, hash classes: whatever was done with the object before (`pre`), and however the calls are distributed over constant evaluation and run time, with
whatever backend, the digests are those of C14-C16. -/
theorem C51_hash (a : ShaAlg) (ds : Nat) (hds : ds ≤ a.size) (h0 : Host) (pre : List Hash.Call) (hpre : ∀ c ∈ pre, c.Ok ds) (xs : List (List Byte))
    (hx : ∀ x ∈ xs, x.length < 2 ^ 64) (dg : List (List Byte × Nat)) (hdg : ∀ d ∈ dg, min d.2 ds ≤ d.1.length)
    (cs : List (Host × Hash.Call)) (hcs : cs.map (·.2) = hashing pre xs dg) :
    ∃ o outs, (a.family ds).run ⟨h0, (a.impl h0 ds).fresh⟩ cs = some (o, outs ++ dg.map fun d => Spec.written ((shaSpec a xs.flatten).take ds) d.1 d.2) := by
  obtain ⟨Q, hg, hok, hn, ho, hf⟩ := sha_reading a ds hds
  have hall : ∀ c ∈ cs, Q.Good c.1 ∧ Q.Ok c.2 := by
    intro c hc
    rw [hg, hok]
    refine ⟨trivial, ?_⟩
    have : c.2 ∈ hashing pre xs dg := by rw [← hcs]; exact List.mem_map_of_mem hc
    simp only [hashing, List.mem_append, List.mem_map, List.mem_singleton] at this
    rcases this with (((h | h) | ⟨x, -, h⟩) | h) | ⟨d, hd, h⟩
    · exact hpre _ h
    · rw [h]; trivial
    · rw [← h]; trivial
    · rw [h]; trivial
    · rw [← h]; exact hdg d hd
  have hsplit : cs.map (·.2) = pre ++ ([.init] ++ xs.map .update ++ [.finalize] ++ dg.map fun d => .digest d.1 d.2) := by
    rw [hcs]; simp [hashing]
  obtain ⟨o, outs, e, -⟩ := Q.run_after pre _ cs hsplit hall ⟨h0, (a.impl h0 ds).fresh⟩ none (by rw [hg]; trivial) (hf h0) _
    (hash_final Q _ hn ho _ xs hx dg)
  exact ⟨o, outs, e⟩

/-- Hypotheses of C51 met: SHA-256 begun during constant evaluation and finished at run time with the SHA instructions. -/
example : ∃ o outs, (ShaAlg.sha_2_256.family 32).run ⟨⟨.little, true, none⟩, (ShaAlg.sha_2_256.impl ⟨.little, true, none⟩ 32).fresh⟩
    [(⟨.little, true, none⟩, .init), (⟨.little, true, none⟩, .update [0x61]), (⟨.little, false, some fun _ => 7⟩, .update [0x62, 0x63]),
      (⟨.little, false, some fun _ => 9⟩, .finalize), (⟨.little, false, none⟩, .digest (List.replicate 40 0) 32)]
    = some (o, outs ++ [Spec.written ((shaSpec .sha_2_256 [0x61, 0x62, 0x63]).take 32) (List.replicate 40 0) 32]) :=
  C51_hash .sha_2_256 32 (by decide) ⟨.little, true, none⟩ [] (by simp) [[0x61], [0x62, 0x63]] (by simp) [(List.replicate 40 0, 32)] (by simp) _ rfl

theorem hashApie_final {P : Family Host HashApie.Call HashApie.Out} (Q : P.Reading HashHas) (F : List Byte → List Byte) (hn : Q.next = hashApieNext)
    (ho : Q.out = hashApieOut F) (xs : List (List Byte)) (hx : ∀ x ∈ xs, x.length < 2 ^ 64) (dg : List DigestReq) :
    Q.outs (some ([], false)) (xs.map .update ++ dg.map HashApie.ofReq) = some (dg.map (Spec.extracted (F xs.flatten))) := by
  have hu : ∀ (xs : List (List Byte)) (m : List Byte), (∀ x ∈ xs, x.length < 2 ^ 64) → Q.outs (some (m, false)) (xs.map .update) = some [] ∧
      Q.final (some (m, false)) (xs.map .update) = some (m ++ xs.flatten, false) := by
    intro xs
    induction xs with
    | nil => intro m _; exact ⟨rfl, by simp [Family.Reading.final]⟩
    | cons x xs ih =>
      intro m hx
      have hx1 := hx x List.mem_cons_self
      obtain ⟨i1, i2⟩ := ih (m ++ x) (fun y h => hx y (List.mem_cons_of_mem _ h))
      have hnx : Q.next (some (m, false)) (.update x) = some (m ++ x, false) := by rw [hn]; simp only [hashApieNext, if_pos hx1]
      unfold Family.Reading.final at i2 ⊢
      simp only [List.map_cons, Family.Reading.outs, List.foldl_cons, hnx, i1, i2]
      exact ⟨by rw [ho]; rfl, by simp⟩
  have hd : ∀ (dg : List DigestReq) (m : List Byte) (b : Bool), Q.outs (some (m, b)) (dg.map HashApie.ofReq) = some (dg.map (Spec.extracted (F m))) := by
    intro dg m
    induction dg with
    | nil => intro b; rfl
    | cons d dg ih =>
      intro b
      have hnx : Q.next (some (m, b)) (HashApie.ofReq d) = some (m, true) := by rw [hn]; cases d <;> rfl
      simp only [List.map_cons, Family.Reading.outs, hnx, ih, ho]
      cases d <;> rfl
  obtain ⟨u1, u2⟩ := hu xs [] hx
  exact Q.outs_append _ _ _ _ _ u1 (by rw [u2]; exact hd dg _ _)

/-- C51, hash `apie`: after construction, or after any calls and `initialize`. -/
theorem C51_hash_apie (a : ShaAlg) (ds : Nat) (hds : ds ≤ a.size) (h0 : Host) (u : Bool) (pre : List HashApie.Call) (hpre : ∀ c ∈ pre, c.Ok ds)
    (hi : pre = [] ∨ pre.getLast? = some .init) (xs : List (List Byte)) (hx : ∀ x ∈ xs, x.length < 2 ^ 64) (dg : List DigestReq) (hdg : ∀ d ∈ dg, d.Ok ds)
    (cs : List (Host × HashApie.Call)) (hcs : cs.map (·.2) = pre ++ xs.map .update ++ dg.map HashApie.ofReq) :
    ∃ o outs, (a.apieFamily ds).run ⟨h0, HashApie.construct (a.impl h0 ds) u⟩ cs = some (o, outs ++ dg.map (Spec.extracted ((shaSpec a xs.flatten).take ds))) := by
  obtain ⟨Q, hg, hok, hn, ho, hf⟩ := shaApie_reading a ds hds
  have hall : ∀ c ∈ cs, Q.Good c.1 ∧ Q.Ok c.2 := by
    intro c hc
    rw [hg, hok]
    refine ⟨trivial, ?_⟩
    have : c.2 ∈ pre ++ xs.map .update ++ dg.map HashApie.ofReq := by rw [← hcs]; exact List.mem_map_of_mem hc
    simp only [List.mem_append, List.mem_map] at this
    rcases this with (h | ⟨x, -, h⟩) | ⟨d, hd, h⟩
    · exact hpre _ h
    · rw [← h]; trivial
    · rw [← h]; have := hdg d hd; cases d with
      | ptr dst n => exact this
      | cont c n => trivial
  have hfin : Q.final (some ([], false)) pre = some ([], false) := by
    rcases hi with rfl | hi
    · rfl
    · obtain ⟨pre', rfl⟩ := List.getLast?_eq_some_iff.mp hi
      unfold Family.Reading.final
      rw [List.foldl_append, hn]
      simp only [List.foldl_cons, List.foldl_nil]
      generalize List.foldl hashApieNext _ pre' = z
      cases z <;> rfl
  obtain ⟨o, outs, e, -⟩ := Q.run_after pre (xs.map .update ++ dg.map HashApie.ofReq) cs (by rw [hcs, List.append_assoc]) hall
    ⟨h0, HashApie.construct (a.impl h0 ds) u⟩ (some ([], false)) (by rw [hg]; trivial) (hf h0 u) _ (by rw [hfin]; exact hashApie_final Q _ hn ho xs hx dg)
  exact ⟨o, outs, e⟩

theorem mac_final {P : Family Host Mac.Call Mac.Out} (Q : P.Reading MacHas) (F : List Byte → List Byte → List Byte) (hn : Q.next = macNext) (ho : Q.out = macOut F)
    (a : MacHas) (key : List Byte) (xs : List (List Byte)) (hx : ∀ x ∈ xs, x.length < 2 ^ 64) (dg : List (List Byte × Nat)) :
    Q.outs a ([.init key] ++ xs.map .update ++ [.finalize] ++ dg.map fun d => .digest d.1 d.2) = some (dg.map fun d => Spec.written (F key xs.flatten) d.1 d.2) := by
  have hu : ∀ (xs : List (List Byte)) (m : List Byte), (∀ x ∈ xs, x.length < 2 ^ 64) → Q.outs (some (key, m, false)) (xs.map .update) = some [] ∧
      Q.final (some (key, m, false)) (xs.map .update) = some (key, m ++ xs.flatten, false) := by
    intro xs
    induction xs with
    | nil => intro m _; exact ⟨rfl, by simp [Family.Reading.final]⟩
    | cons x xs ih =>
      intro m hx
      have hx1 := hx x List.mem_cons_self
      obtain ⟨i1, i2⟩ := ih (m ++ x) (fun y h => hx y (List.mem_cons_of_mem _ h))
      have hnx : Q.next (some (key, m, false)) (.update x) = some (key, m ++ x, false) := by rw [hn]; simp only [macNext, if_pos hx1]
      unfold Family.Reading.final at i2 ⊢
      simp only [List.map_cons, Family.Reading.outs, List.foldl_cons, hnx, i1, i2]
      exact ⟨by rw [ho]; rfl, by simp⟩
  have hd : ∀ (dg : List (List Byte × Nat)) (m : List Byte), Q.outs (some (key, m, true)) (dg.map fun d => .digest d.1 d.2) = some (dg.map fun d => Spec.written (F key m) d.1 d.2) := by
    intro dg m
    induction dg with
    | nil => rfl
    | cons d dg ih =>
      have hnx : Q.next (some (key, m, true)) (.digest d.1 d.2) = some (key, m, true) := by rw [hn]; rfl
      simp only [List.map_cons, Family.Reading.outs, hnx, ih, ho]
      rfl
  have hi : Q.outs a [.init key] = some [] ∧ Q.final a [.init key] = some (key, [], false) := by
    unfold Family.Reading.final
    simp only [Family.Reading.outs, List.foldl_cons, List.foldl_nil, hn, ho]
    exact ⟨by cases a with | none => rfl | some p => (obtain ⟨k, m, b⟩ := p; cases b <;> rfl), by cases a <;> rfl⟩
  obtain ⟨u1, u2⟩ := hu xs [] hx
  have e1 := Q.outs_append a [.init key] (xs.map .update) [] [] hi.1 (by rw [hi.2]; exact u1)
  have f1 : Q.final a ([.init key] ++ xs.map .update) = some (key, xs.flatten, false) := by
    have := hi.2
    unfold Family.Reading.final at *
    rw [List.foldl_append, this, u2, List.nil_append]
  have e2 := Q.outs_append a _ [.finalize] _ [] e1 (by rw [f1]; simp only [Family.Reading.outs, ho]; rfl)
  have f2 : Q.final a ([.init key] ++ xs.map .update ++ [.finalize]) = some (key, xs.flatten, true) := by
    unfold Family.Reading.final at *
    rw [List.foldl_append, f1, hn]; rfl
  exact Q.outs_append a _ _ _ _ e2 (by rw [f2]; exact hd dg _)

/-- C51, mac classes (`Spec.macOn e`: the published function, with the exception of C24 on big-endian targets). The byte order is that of the target, the same
throughout. -/
theorem C51_mac (e : Endian) (a : MacAlg) (ha : a.Ok) (ds : Nat) (hds : ds ≤ a.size) (h0 : Host) (he : h0.endian = e) (pre : List Mac.Call) (hpre : ∀ c ∈ pre, c.Ok ds)
    (key : List Byte) (hk : key.length < 2 ^ 64) (xs : List (List Byte))
    (hx : ∀ x ∈ xs, x.length < 2 ^ 64) (dg : List (List Byte × Nat)) (hdg : ∀ d ∈ dg, min d.2 ds ≤ d.1.length)
    (cs : List (Host × Mac.Call)) (hcs : cs.map (·.2) = macing pre key xs dg) (hend : ∀ c ∈ cs, c.1.endian = e) :
    ∃ o outs, (a.family ds).run ⟨h0, (a.impl h0 ds).fresh⟩ cs
      = some (o, outs ++ dg.map fun d => Spec.written ((Spec.macOn e a key xs.flatten).take ds) d.1 d.2) := by
  obtain ⟨Q, hg, hok, hn, ho, hf⟩ := mac_reading e a ha ds hds
  have hall : ∀ c ∈ cs, Q.Good c.1 ∧ Q.Ok c.2 := by
    intro c hc
    rw [hg, hok]
    refine ⟨hend c hc, ?_⟩
    have : c.2 ∈ macing pre key xs dg := by rw [← hcs]; exact List.mem_map_of_mem hc
    simp only [macing, List.mem_append, List.mem_map, List.mem_singleton] at this
    rcases this with (((h | h) | ⟨x, -, h⟩) | h) | ⟨d, hd, h⟩
    · exact hpre _ h
    · rw [h]; exact hk
    · rw [← h]; trivial
    · rw [h]; trivial
    · rw [← h]; exact hdg d hd
  have hsplit : cs.map (·.2) = pre ++ ([.init key] ++ xs.map .update ++ [.finalize] ++ dg.map fun d => .digest d.1 d.2) := by
    rw [hcs]; simp [macing]
  obtain ⟨o, outs, e, -⟩ := Q.run_after pre _ cs hsplit hall ⟨h0, (a.impl h0 ds).fresh⟩ none (by rw [hg]; exact he) (hf h0) _
    (mac_final Q _ hn ho _ key xs hx dg)
  exact ⟨o, outs, e⟩

theorem macApie_final {P : Family Host MacApie.Call MacApie.Out} (Q : P.Reading MacHas) (F : List Byte → List Byte → List Byte) (hn : Q.next = macApieNext)
    (ho : Q.out = macApieOut F) (k : List Byte) (xs : List (List Byte)) (hx : ∀ x ∈ xs, x.length < 2 ^ 64) (dg : List DigestReq) :
    Q.outs (some (k, [], false)) (xs.map .update ++ dg.map MacApie.ofReq) = some (dg.map (Spec.extracted (F k xs.flatten))) := by
  have hu : ∀ (xs : List (List Byte)) (m : List Byte), (∀ x ∈ xs, x.length < 2 ^ 64) → Q.outs (some (k, m, false)) (xs.map .update) = some [] ∧
      Q.final (some (k, m, false)) (xs.map .update) = some (k, m ++ xs.flatten, false) := by
    intro xs
    induction xs with
    | nil => intro m _; exact ⟨rfl, by simp [Family.Reading.final]⟩
    | cons x xs ih =>
      intro m hx
      have hx1 := hx x List.mem_cons_self
      obtain ⟨i1, i2⟩ := ih (m ++ x) (fun y h => hx y (List.mem_cons_of_mem _ h))
      have hnx : Q.next (some (k, m, false)) (.update x) = some (k, m ++ x, false) := by rw [hn]; simp only [macApieNext, if_pos hx1]
      unfold Family.Reading.final at i2 ⊢
      simp only [List.map_cons, Family.Reading.outs, List.foldl_cons, hnx, i1, i2]
      exact ⟨by rw [ho]; rfl, by simp⟩
  have hd : ∀ (dg : List DigestReq) (m : List Byte) (b : Bool), Q.outs (some (k, m, b)) (dg.map MacApie.ofReq) = some (dg.map (Spec.extracted (F k m))) := by
    intro dg m
    induction dg with
    | nil => intro b; rfl
    | cons d dg ih =>
      intro b
      have hnx : Q.next (some (k, m, b)) (MacApie.ofReq d) = some (k, m, true) := by rw [hn]; cases d <;> rfl
      simp only [List.map_cons, Family.Reading.outs, hnx, ih, ho]
      cases d <;> rfl
  obtain ⟨u1, u2⟩ := hu xs [] hx
  exact Q.outs_append _ _ _ _ _ u1 (by rw [u2]; exact hd dg _ _)

/-- C51, mac `apie`: constructed with a key, or after any calls given a new key. -/
theorem C51_mac_apie (e : Endian) (a : MacAlg) (ha : a.Ok) (ds : Nat) (hds : ds ≤ a.size) (h0 : Host) (he : h0.endian = e) (key0 : List Byte)
    (hk0 : key0.length < 2 ^ 64) (pre : List MacApie.Call) (hpre : ∀ c ∈ pre, c.Ok ds) (key : List Byte)
    (hi : (pre = [] ∧ key = key0) ∨ pre.getLast? = some (.init key)) (xs : List (List Byte)) (hx : ∀ x ∈ xs, x.length < 2 ^ 64)
    (dg : List DigestReq) (hdg : ∀ d ∈ dg, d.Ok ds)
    (cs : List (Host × MacApie.Call)) (hcs : cs.map (·.2) = pre ++ xs.map .update ++ dg.map MacApie.ofReq) (hend : ∀ c ∈ cs, c.1.endian = e) :
    ∃ o0 o outs, MacApie.construct (a.impl h0 ds) key0 = some o0 ∧
      (a.apieFamily ds).run ⟨h0, o0⟩ cs = some (o, outs ++ dg.map (Spec.extracted ((Spec.macOn e a key xs.flatten).take ds))) := by
  obtain ⟨Q, hg, hok, hn, ho, hf⟩ := macApie_reading e a ha ds hds
  have hall : ∀ c ∈ cs, Q.Good c.1 ∧ Q.Ok c.2 := by
    intro c hc
    rw [hg, hok]
    refine ⟨hend c hc, ?_⟩
    have : c.2 ∈ pre ++ xs.map .update ++ dg.map MacApie.ofReq := by rw [← hcs]; exact List.mem_map_of_mem hc
    simp only [List.mem_append, List.mem_map] at this
    rcases this with (h | ⟨x, -, h⟩) | ⟨d, hd, h⟩
    · exact hpre _ h
    · rw [← h]; trivial
    · rw [← h]; have := hdg d hd; cases d with
      | ptr dst n => exact this
      | cont c n => trivial
  have hfin : Q.final (some (key0, [], false)) pre = some (key, [], false) := by
    rcases hi with ⟨rfl, rfl⟩ | hi
    · rfl
    · obtain ⟨pre', rfl⟩ := List.getLast?_eq_some_iff.mp hi
      unfold Family.Reading.final
      rw [List.foldl_append, hn]
      simp only [List.foldl_cons, List.foldl_nil]
      generalize List.foldl macApieNext _ pre' = z
      cases z <;> rfl
  obtain ⟨o0, e0, r0⟩ := hf h0 key0 hk0
  obtain ⟨o, outs, e, -⟩ := Q.run_after pre (xs.map .update ++ dg.map MacApie.ofReq) cs (by rw [hcs, List.append_assoc]) hall
    ⟨h0, o0⟩ (some (key0, [], false)) (by rw [hg]; exact he) r0 _ (by rw [hfin]; exact macApie_final Q _ hn ho key xs hx dg)
  exact ⟨o0, o, outs, e0, e⟩

/-! ## The cipher -/

/-- A portable object at a block boundary is one that any backend can continue. -/
theorem rep_boundary (h1 : Host) {B : ChaCha.Backend} (L : ChaCha.LawfulBackend B) (st0 : List W32) (o : ChaCha.Obj) (pos : Nat)
    (hr : ChaCha.Rep (ChaCha.sw h1) st0 o pos) (hp : pos % 64 = 0) : ChaCha.Rep B st0 o pos := by
  obtain ⟨a, b, c, g, hs, hc⟩ := hr
  have hpos := L.pos
  have c' : o.bufferSize < 64 := c
  rcases hc with ⟨h0, he⟩ | ⟨h0, -, h2, -⟩
  · exact ⟨a, b, by omega, g, hs, .inl ⟨h0, he⟩⟩
  · have : (ChaCha.sw h1).ratio = 1 := rfl
    rw [this] at h2
    omega

/-- C51, cipher (partial: the text processed during constant evaluation is a whole number of blocks; see `C51_cipher_wrong` for the other case): the calls `cs1`
during constant evaluation and the calls `cs2` at run time, with any backend, output what C29-C33 say of the calls together. -/
theorem C51_cipher_partial (h1 h2 : Host) (b : CipherBackend) (pre : List Cipher.Call) (hp : ∀ c ∈ pre, c.Ok) (key iv : List Byte)
    (cs1 cs2 : List Cipher.Call) (hc1 : Texts cs1) (hc2 : Texts cs2) (hblk : (cs1.map Spec.cipherText).flatten.length % 64 = 0) :
    ∃ o outs, cipherFamily.run ⟨(h1, .portable), ChaCha.fresh⟩
        ((ciphering pre key iv cs1).map (fun c => ((h1, .portable), c)) ++ cs2.map fun c => ((h2, b), c))
      = some (o, outs ++ Spec.cipherOuts key iv 0 (cs1 ++ cs2)) := by
  have hrun : ∀ (i : Host × CipherBackend) (cs : List Cipher.Call) (j : Host × CipherBackend) (o : ChaCha.Obj) (o' : ChaCha.Obj) (outs : List Cipher.Out),
      runCalls (Cipher.exec i.1 (i.2.impl i.1)) o cs = some (o', outs) → ∃ k, cipherFamily.run ⟨j, o⟩ (cs.map fun c => (i, c)) = some (⟨k, o'⟩, outs) := by
    intro i cs
    induction cs with
    | nil =>
      intro j o o' outs he
      simp only [runCalls, Option.some.injEq, Prod.mk.injEq] at he
      obtain ⟨rfl, rfl⟩ := he
      exact ⟨j, rfl⟩
    | cons c cs ih =>
      intro j o o' outs he
      simp only [runCalls, Option.bind_eq_bind] at he
      cases e1 : Cipher.exec i.1 (i.2.impl i.1) o c with
      | none => rw [e1] at he; simp at he
      | some r =>
        rw [e1] at he
        simp only [Option.bind_some] at he
        cases e2 : runCalls (Cipher.exec i.1 (i.2.impl i.1)) r.1 cs with
        | none => rw [e2] at he; simp at he
        | some s =>
          rw [e2] at he
          simp only [Option.bind_some, Option.pure_def, Option.some.injEq, Prod.mk.injEq] at he
          obtain ⟨k, e3⟩ := ih i r.1 s.1 s.2 e2
          refine ⟨k, ?_⟩
          have e1' : cipherFamily.exec i o c = some r := e1
          have e1'' : cipherFamily.exec i (cipherFamily.carry j i o) c = some r := e1'
          unfold Family.run at e3 ⊢
          simp only [List.map_cons, runCalls, Family.step, e1'', Option.bind_eq_bind, Option.pure_def]
          show (runCalls cipherFamily.step ⟨i, r.1⟩ (cs.map fun c => (i, c))).bind (fun x => some (x.1, r.2 ++ x.2)) = _
          rw [e3]
          simp only [Option.bind_some, he.1, he.2]
  obtain ⟨o1, outs, e1, st0, pos, r1⟩ := Cipher.run_wf h1 (ChaCha.sw_lawful h1) pre hp
  obtain ⟨o2, e2, r2⟩ := ChaCha.init_rep h1 (ChaCha.sw_lawful h1) st0 o1 pos r1 key iv
  obtain ⟨o3, e3, r3⟩ := Cipher.runCalls_eq h1 (ChaCha.sw_lawful h1) key iv cs1 o2 0 r2 hc1.notInit
  rw [Nat.zero_add] at r3
  obtain ⟨o4, e4, -⟩ := Cipher.runCalls_eq h2 (backendLawful h2 b) key iv cs2 o3 _ (rep_boundary h1 (backendLawful h2 b) _ _ _ r3 hblk) hc2.notInit
  have e13 : runCalls (Cipher.exec h1 (CipherBackend.portable.impl h1)) ChaCha.fresh (ciphering pre key iv cs1)
      = some (o3, outs ++ Spec.cipherOuts key iv 0 cs1) := by
    unfold Cipher.run at e1
    unfold ciphering
    rw [runCalls_append]
    have e1' : runCalls (Cipher.exec h1 (CipherBackend.portable.impl h1)) ChaCha.fresh pre = some (o1, outs) := e1
    have e3' : runCalls (Cipher.exec h1 (CipherBackend.portable.impl h1)) o2 cs1 = some (o3, Spec.cipherOuts key iv 0 cs1) := e3
    rw [e1']
    simp only [Option.bind_some, runCalls, Cipher.exec, e2, e3', Option.bind_eq_bind, Option.pure_def, List.nil_append, Option.map_some]
  obtain ⟨k1, f1⟩ := hrun (h1, .portable) _ (h1, .portable) _ _ _ e13
  obtain ⟨k2, f2⟩ := hrun (h2, b) cs2 k1 o3 _ _ e4
  refine ⟨⟨k2, o4⟩, outs, ?_⟩
  unfold Family.run at f1 f2 ⊢
  rw [runCalls_append, f1, Option.bind_some, f2]
  simp only [Option.map_some, Option.some.injEq, Prod.mk.injEq, true_and, List.append_assoc]
  congr 1
  have : ∀ (cs1 : List Cipher.Call) (p : Nat), Spec.cipherOuts key iv p cs1 ++ Spec.cipherOuts key iv (p + (cs1.map Spec.cipherText).flatten.length) cs2
      = Spec.cipherOuts key iv p (cs1 ++ cs2) := by
    intro cs1
    induction cs1 with
    | nil => intro p; simp [Spec.cipherOuts]
    | cons c cs1 ih =>
      intro p
      simp only [Spec.cipherOuts, List.cons_append, List.map_cons, List.flatten_cons, List.length_append]
      rw [← ih, chacha_length, Nat.add_assoc]
  simpa using this cs1 0

/-- Hypotheses met: 64 bytes during constant evaluation, the rest at run time with AVX2, after a first use with another key. -/
example : ∃ o outs, cipherFamily.run ⟨(⟨.little, true, none⟩, .portable), ChaCha.fresh⟩
    ((ciphering [.encryptC [1, 2, 3] ⟨true, []⟩] (List.replicate 32 1) (List.replicate 16 2) [.encryptC (List.replicate 60 5) ⟨true, []⟩, .encryptC (List.replicate 4 5) ⟨true, []⟩]).map
        (fun c => ((⟨.little, true, none⟩, .portable), c)) ++ [Cipher.Call.encryptC (List.replicate 100 6) ⟨true, []⟩].map fun c => ((⟨.little, false, none⟩, .avx2 fun _ => 0), c))
    = some (o, outs ++ Spec.cipherOuts (List.replicate 32 1) (List.replicate 16 2) 0 ([.encryptC (List.replicate 60 5) ⟨true, []⟩, .encryptC (List.replicate 4 5) ⟨true, []⟩] ++
        [.encryptC (List.replicate 100 6) ⟨true, []⟩])) :=
  C51_cipher_partial ⟨.little, true, none⟩ ⟨.little, false, none⟩ (.avx2 fun _ => 0) _ (by simp [Cipher.Call.Ok]) _ _ _ _ (by simp [Texts, Cipher.Call.Ok]) (by simp [Texts, Cipher.Call.Ok])
    (by simp [Spec.cipherText])

/-- The portable code, at a block boundary and with nothing but zeros in the buffer, processes `x1` and so leaves the buffer half used; then another backend `x2`. -/
theorem split_block (h1 h2 : Host) (b : CipherBackend) (st : List W32) (buf : List Byte) (hsl : st.length = 16) (hbl : buf.length = 512)
    (hbz : ∀ i, buf.getD i 0 = 0#8) (x1 x2 : List Byte) (hk : 0 < x1.length) (hk' : x1.length < 64) (hx : x1.length + x2.length ≤ 64 * (b.impl h2).ratio) :
    ∃ o1 o2, ChaCha.encrypt h1 (ChaCha.sw h1) ⟨st, buf, 0⟩ x1 0 x1.length 0 = some (o1, Cipher.streamed st 0 x1, x1.length) ∧
      ChaCha.encrypt h2 (b.impl h2) o1 x2 0 x2.length 0
        = some (o2, Cipher.streamed st x1.length (x2.take (64 - x1.length)) ++ x2.drop (64 - x1.length), x2.length) := by
  have L := backendLawful h2 b
  have hle := L.le
  -- the first call
  obtain ⟨d, eg, hd⟩ := (ChaCha.sw_lawful h1).generate 1 st buf hsl (by show 64 * 1 * 1 ≤ _; omega)
  have hr1 : (ChaCha.sw h1).ratio = 1 := rfl
  rw [hr1] at eg hd
  generalize hb1 : (List.range (64 * 1 * 1)).map (ChaCha.stream st) ++ buf.drop (64 * 1 * 1) = buf1 at eg
  have hb1l : buf1.length = 512 := by rw [← hb1]; simp; omega
  have hg1 : ∀ i, i < 64 → buf1.getD i 0 = ChaCha.stream st i := by
    intro i hi
    rw [← hb1, List.getD_eq_getElem?_getD, List.getElem?_append_left (by simpa using hi), List.getElem?_map, List.getElem?_range (by omega)]; rfl
  have hg2 : ∀ i, 64 ≤ i → buf1.getD i 0 = 0#8 := by
    intro i hi
    rw [← hb1, List.getD_eq_getElem?_getD, List.getElem?_append_right (by simpa using hi), List.getElem?_drop, ← List.getD_eq_getElem?_getD]
    exact hbz _
  have e1 : ChaCha.encrypt h1 (ChaCha.sw h1) ⟨st, buf, 0⟩ x1 0 x1.length 0
      = some (⟨ChaCha.ctr st 1, buf1, x1.length⟩, xored x1 0 0 (fun j => ChaCha.stream st (0 + j)) x1.length, x1.length) := by
    unfold ChaCha.encrypt ChaCha.prodXor ChaCha.prodRest ChaCha.fullBlocks ChaCha.lastBytes
    simp only [Nat.lt_irrefl, gt_iff_lt, if_false, hr1]
    rw [show x1.length / (64 * 1) = 0 by omega, show x1.length % (64 * 1) = x1.length by omega]
    simp only [ne_eq, not_true_eq_false, if_false, Option.bind_eq_bind, Option.bind_some, Option.pure_def, eg]
    rw [if_pos (by omega), ChaCha.bump_done st d 1 (by omega) hd]
    simp only [Option.bind_some]
    rw [ChaCha.xorMem_eq h1 x1 0 0 x1.length buf1 (.inl rfl) (by omega) (by omega) (by omega)]
    simp only [Option.bind_some]
    rw [ChaCha.xored_congr x1 0 0 x1.length _ (fun j => ChaCha.stream st (0 + j)) (fun j hj => by rw [hg1 j (by omega), Nat.zero_add])]
  -- the second call
  have e2 : ∃ o, ChaCha.encrypt h2 (b.impl h2) ⟨ChaCha.ctr st 1, buf1, x1.length⟩ x2 0 x2.length 0
      = some (o, xored x2 0 0 (fun j => (buf1.drop x1.length).getD j 0) x2.length, x2.length) := by
    unfold ChaCha.encrypt ChaCha.prodXor
    have hR : 64 * (b.impl h2).ratio ≤ 512 := by omega
    generalize 64 * (b.impl h2).ratio = R at hx hR ⊢
    simp only [gt_iff_lt, hk, if_true]
    rw [if_neg (by omega), advance_eq _ _ (by omega), show min (R - x1.length) x2.length = x2.length by omega]
    simp only [Option.bind_eq_bind, Option.bind_some]
    rw [ChaCha.xorMem_eq h2 x2 0 0 x2.length _ (.inl rfl) (by omega) (by omega) (by simp; omega)]
    simp only [Option.bind_some]
    by_cases hlt : x2.length < R - x1.length
    · rw [if_pos hlt]; exact ⟨_, rfl⟩
    · rw [if_neg hlt]
      unfold ChaCha.prodRest ChaCha.fullBlocks ChaCha.lastBytes
      simp only [Nat.sub_self, Nat.zero_div, Nat.zero_mod, ne_eq, not_true_eq_false, if_false, Option.bind_eq_bind, Option.bind_some, Option.pure_def]
      exact ⟨_, rfl⟩
  obtain ⟨o2, e2⟩ := e2
  have m1 : xored x1 0 0 (fun j => ChaCha.stream st (0 + j)) x1.length = Cipher.streamed st 0 x1 := by
    rw [Cipher.xored_streamed _ _ _ _ _ _ (by omega)]; simp
  have m2 : xored x2 0 0 (fun j => (buf1.drop x1.length).getD j 0) x2.length
      = Cipher.streamed st x1.length (x2.take (64 - x1.length)) ++ x2.drop (64 - x1.length) := by
    unfold xored Cipher.streamed
    apply List.ext_getElem?
    intro i
    simp only [List.take_zero, List.nil_append, Nat.zero_add, List.drop_length, List.append_nil, List.getElem?_map]
    by_cases hi : i < x2.length
    · rw [List.getElem?_range hi]
      simp only [Option.map_some]
      have hdr : (buf1.drop x1.length).getD i 0 = buf1.getD (x1.length + i) 0 := by
        rw [List.getD_eq_getElem?_getD, List.getElem?_drop, ← List.getD_eq_getElem?_getD]
      rw [hdr]
      by_cases h6 : i < 64 - x1.length
      · rw [List.getElem?_append_left (by simp; omega), List.getElem?_mapIdx, List.getElem?_take_of_lt h6, hg1 _ (by omega),
          List.getD_eq_getElem?_getD, List.getElem?_eq_getElem hi]
        rfl
      · rw [List.getElem?_append_right (by simp; omega), hg2 _ (by omega), List.getElem?_drop, List.length_mapIdx, List.length_take,
          show 64 - x1.length + (i - min (64 - x1.length) x2.length) = i by omega, List.getD_eq_getElem?_getD, List.getElem?_eq_getElem hi]
        simp
    · rw [List.getElem?_eq_none (by simp; omega), List.getElem?_eq_none (by simp; omega)]
      rfl
  rw [m1] at e1
  rw [m2] at e2
  exact ⟨_, _, e1, e2⟩

/-- C51 is false of the cipher: when the text processed during constant evaluation ends inside a block (`x1`, between 1 and 63 bytes), an accelerated backend at run
time (it takes the 64 bytes of key stream left in the buffer for a unit of `64 * ratio` bytes) encrypts the rest of that block and outputs the following text
*unencrypted*: `x2.drop (64 - x1.length)` appears as it is. -/
theorem C51_cipher_wrong (h1 h2 : Host) (b : CipherBackend) (key iv x1 x2 : List Byte) (hk : 0 < x1.length) (hk' : x1.length < 64)
    (hx : x1.length + x2.length ≤ 64 * (b.impl h2).ratio) :
    ∃ o, cipherFamily.run ⟨(h1, .portable), ChaCha.fresh⟩
        [((h1, .portable), .init key iv), ((h1, .portable), .encrypt x1 0 x1.length 0), ((h2, b), .encrypt x2 0 x2.length 0)]
      = some (o, [(Spec.chacha key iv 0 x1, x1.length),
          (Spec.chacha key iv x1.length (x2.take (64 - x1.length)) ++ x2.drop (64 - x1.length), x2.length)]) := by
  have hfl : (ChaCha.fresh).state.length = 16 := List.length_replicate
  have hbl : (ChaCha.fresh).buffer.length = 512 := List.length_replicate
  have hbz : ∀ i, (ChaCha.fresh).buffer.getD i 0 = 0#8 := by
    intro i
    show (List.replicate (64 * 8) 0#8).getD i 0#8 = 0#8
    rw [List.getD_eq_getElem?_getD, List.getElem?_replicate]
    split <;> rfl
  have e0 := ChaCha.init_eq h1 ChaCha.fresh key iv hfl
  generalize hst : ChaCha.initState key iv = st at e0
  have hsl : st.length = 16 := by rw [← hst]; exact ChaCha.initState_length _ _
  generalize ChaCha.fresh.buffer = buf at e0 hbl hbz
  obtain ⟨o1, o2, e1, e2⟩ := split_block h1 h2 b st buf hsl hbl hbz x1 x2 hk hk' hx
  rw [← hst, Cipher.streamed_init] at e1 e2
  rw [hst] at e1
  refine ⟨⟨(h2, b), o2⟩, ?_⟩
  have s0 : cipherFamily.step ⟨(h1, .portable), ChaCha.fresh⟩ ((h1, .portable), .init key iv) = some (⟨(h1, .portable), (⟨st, buf, 0⟩ : ChaCha.Obj)⟩, []) := by
    show (do let (o', out) ← Cipher.exec h1 (ChaCha.sw h1) ChaCha.fresh (.init key iv); pure ((⟨(h1, .portable), o'⟩ : Σ i, cipherFamily.S i), out)) = _
    simp only [Cipher.exec, e0, Option.bind_eq_bind, Option.bind_some, Option.pure_def]
  have s1 : cipherFamily.step ⟨(h1, .portable), (⟨st, buf, 0⟩ : ChaCha.Obj)⟩ ((h1, .portable), .encrypt x1 0 x1.length 0)
      = some (⟨(h1, .portable), (o1 : ChaCha.Obj)⟩, [(Spec.chacha key iv 0 x1, x1.length)]) := by
    show (do let (o', out) ← Cipher.exec h1 (ChaCha.sw h1) ⟨st, buf, 0⟩ (.encrypt x1 0 x1.length 0); pure ((⟨(h1, .portable), o'⟩ : Σ i, cipherFamily.S i), out)) = _
    simp only [Cipher.exec, e1, Option.bind_eq_bind, Option.bind_some, Option.pure_def]
  have s2 : cipherFamily.step ⟨(h1, .portable), (o1 : ChaCha.Obj)⟩ ((h2, b), .encrypt x2 0 x2.length 0)
      = some (⟨(h2, b), o2⟩, [(Spec.chacha key iv x1.length (x2.take (64 - x1.length)) ++ x2.drop (64 - x1.length), x2.length)]) := by
    show (do let (o', out) ← Cipher.exec h2 (b.impl h2) o1 (.encrypt x2 0 x2.length 0); pure ((⟨(h2, b), o'⟩ : Σ i, cipherFamily.S i), out)) = _
    simp only [Cipher.exec, e2, Option.bind_eq_bind, Option.bind_some, Option.pure_def]
  simp only [Family.run, runCalls, s0, s1, s2, Option.bind_eq_bind, Option.bind_some, Option.pure_def, List.nil_append, List.append_nil, List.cons_append]

/-- Hypotheses met, with AVX2: one byte during constant evaluation, then 100 bytes at run time: 37 of them are output as they are. -/
example : ∃ o, cipherFamily.run ⟨(⟨.little, true, none⟩, .portable), ChaCha.fresh⟩
    [((⟨.little, true, none⟩, .portable), .init (List.replicate 32 1) (List.replicate 16 2)), ((⟨.little, true, none⟩, .portable), .encrypt [5] 0 1 0),
      ((⟨.little, false, none⟩, .avx2 fun _ => 0), .encrypt (List.replicate 100 6) 0 (List.replicate 100 6).length 0)]
    = some (o, [(Spec.chacha (List.replicate 32 1) (List.replicate 16 2) 0 [5], 1),
        (Spec.chacha (List.replicate 32 1) (List.replicate 16 2) 1 ((List.replicate 100 6).take 63) ++ (List.replicate 100 6).drop 63, 100)]) :=
  C51_cipher_wrong ⟨.little, true, none⟩ ⟨.little, false, none⟩ (.avx2 fun _ => 0) (List.replicate 32 1) (List.replicate 16 2) [5] (List.replicate 100 6) (by decide) (by decide)
    (by show 1 + (List.replicate 100 (6 : Byte)).length ≤ 64 * 8; rw [List.length_replicate]; omega)

end Milo.Props
