import Verif.Spec.Alloc
import Verif.Proof.HashApie
import Verif.Proof.MacLawful
import Verif.Proof.KdfLawful
import Verif.Proof.Cipher
import Verif.Proof.AeadApie
/- Histories in which memory runs out. -/
namespace Milo.Alloc
open Spec.Alloc

theorem resize_room (mem : Bool) (c : Container) (n : Nat) : resize mem c n = if (if mem then none else grows c n).isSome then .badAlloc else .returned (c.resize n) := by
  unfold resize grows
  cases mem <;> cases hd : c.dynamic <;> by_cases hn : c.data.length < n <;> simp [hn, Fate.leave]

theorem withRoom_fed {σ α : Type} (mem : Bool) (c : Container) (n : Nat) (o : σ) (k : Container → Nat → Option (σ × Container × Fate α))
    (hs : (if mem then none else grows c n) = none) : withRoom mem c n o k = k (c.resize n).1 (c.resize n).2 := by
  unfold withRoom
  rw [resize_room, hs]; rfl

theorem withRoom_dry {σ α : Type} (mem : Bool) (c : Container) (n : Nat) (o : σ) (k : Container → Nat → Option (σ × Container × Fate α)) (content : List Byte)
    (hs : (if mem then none else grows c n) = some content) : withRoom mem c n o k = some (o, c, .badAlloc) ∧ content = c.data := by
  unfold withRoom
  rw [resize_room, hs]
  have : c.dynamic = true ∧ content = c.data := by
    cases mem
    · simp only [Bool.false_eq_true, if_false, grows] at hs
      split at hs
      · rename_i h1
        exact ⟨h1.1, (Option.some.inj hs).symm⟩
      · exact absurd hs (by simp)
    · simp at hs
  simp [this.1, this.2, Fate.leave]

/-- Resize, write, resize: the second one does not need memory. -/
theorem second_room {σ α : Type} (mem : Bool) (c : Container) (n : Nat) (d : List Byte) (o : σ) (k : Container → Nat → Option (σ × Container × Fate α))
    (hd : d.length = (c.resize n).1.data.length) :
    withRoom mem ((c.resize n).1.withData d) n o k = k (((c.resize n).1.withData d).resize n).1 (((c.resize n).1.withData d).resize n).2 := by
  rw [withRoom_fed]
  cases mem
  · simp only [Bool.false_eq_true, if_false, grows]
    rw [if_neg]
    rintro ⟨h1, h2⟩
    have e1 : c.dynamic = true := by
      simp only [Container.withData, Container.resize] at h1
      split at h1 <;> simp_all
    simp only [Container.withData] at h2
    rw [hd] at h2
    simp only [Container.resize, e1, if_true, List.length_append, List.length_take, List.length_replicate] at h2
    omega
  · rfl

theorem self_room (mem : Bool) (c : Container) : (if mem then none else grows c c.data.length) = none := by
  cases mem <;> simp [grows]

theorem resize_holds (c : Container) (n : Nat) (hok : c.dynamic = false → n ≤ c.data.length) : n ≤ ((c.resize n).1).data.length := by
  unfold Container.resize; cases hd : c.dynamic
  · simpa using hok hd
  · simp; omega

section generic
variable {σ C O : Type} (R : Rules C) (exec : σ → C → Option (σ × List O)) (execM : σ → Bool × C → Option (σ × List (Outcome O))) (P : σ → Prop) (Ok : C → Prop)

/-- What has to hold of a class. -/
structure Fair : Prop where
  step : ∀ o c, P o → Ok c → ∃ o' outs, exec o c = some (o', outs) ∧ P o'
  count : ∀ o c o' outs, exec o c = some (o', outs) → outs.length = R.results c
  lost : ∀ c, Ok c → (R.needs c).isSome → ∀ c' ∈ R.lost c, Ok c'
  fed : ∀ o a, P o → Ok a.2 → starved R a = none → execM o a = (exec o a.2).map fun r => (r.1, r.2.map .answered)
  dry : ∀ o a content o' outs, P o → Ok a.2 → starved R a = some content → runCalls exec o (R.lost a.2) = some (o', outs) → execM o a = some (o', [.outOfMemory content])

variable {R exec execM P Ok}

theorem counts (F : Fair R exec execM P Ok) (cs : List C) : ∀ (o o' : σ) (outs : List O), runCalls exec o cs = some (o', outs) → outs.length = (cs.map R.results).sum := by
  induction cs with
  | nil =>
    intro o o' outs e
    simp only [runCalls, Option.some.injEq, Prod.mk.injEq] at e
    simp [← e.2]
  | cons c cs ih =>
    intro o o' outs e
    simp only [runCalls, Option.bind_eq_bind, Option.pure_def] at e
    cases h1 : exec o c with
    | none => simp [h1] at e
    | some r =>
      simp only [h1, Option.bind_some] at e
      cases h2 : runCalls exec r.1 cs with
      | none => simp [h2] at e
      | some s =>
        simp only [h2, Option.bind_some, Option.some.injEq, Prod.mk.injEq] at e
        have a1 := F.count o c r.1 r.2 h1
        have a2 := ih r.1 s.1 s.2 h2
        simp [← e.2, a1, a2]

theorem starved_needs (a : Bool × C) (content : List Byte) (h : starved R a = some content) : (R.needs a.2).isSome := by
  unfold starved at h
  split at h
  · exact absurd h (by simp)
  · simp [h]

theorem effective_cons (a : Bool × C) (as : List (Bool × C)) :
    effective R (a :: as) = (if (starved R a).isSome then R.lost a.2 else [a.2]) ++ effective R as := by simp [effective]

theorem effective_append (as bs : List (Bool × C)) : effective R (as ++ bs) = effective R as ++ effective R bs := by simp [effective]

theorem effective_ok (F : Fair R exec execM P Ok) (as : List (Bool × C)) (h : ∀ a ∈ as, Ok a.2) : ∀ c ∈ effective R as, Ok c := by
  intro c hc
  simp only [effective, List.mem_flatMap] at hc
  obtain ⟨a, ha, hc⟩ := hc
  cases hs : starved R a with
  | none => simp only [hs, Option.isSome_none, Bool.false_eq_true, if_false, List.mem_singleton] at hc; subst hc; exact h a ha
  | some content =>
    simp only [hs, Option.isSome_some, if_true] at hc
    exact F.lost a.2 (h a ha) (starved_needs a content hs) c hc

/-- The history theorem. -/
theorem history (F : Fair R exec execM P Ok) (as : List (Bool × C)) : ∀ (o : σ), P o → (∀ a ∈ as, Ok a.2) →
    ∃ o' outs, runCalls exec o (effective R as) = some (o', outs) ∧ runCalls execM o as = some (o', outcomes R as outs) ∧ P o' := by
  induction as with
  | nil => exact fun o ho _ => ⟨o, [], rfl, rfl, ho⟩
  | cons a as ih =>
    intro o ho ha
    have ha1 := ha a List.mem_cons_self
    cases hs : starved R a with
    | none =>
      obtain ⟨o1, out, e1, p1⟩ := F.step o a.2 ho ha1
      obtain ⟨o2, outs, e2, m2, p2⟩ := ih o1 p1 (fun b hb => ha b (List.mem_cons_of_mem _ hb))
      have hl := F.count o a.2 o1 out e1
      refine ⟨o2, out ++ outs, ?_, ?_, p2⟩
      · rw [effective_cons, hs]
        simp only [Option.isSome_none, Bool.false_eq_true, if_false, List.singleton_append, runCalls, e1, e2, Option.bind_eq_bind, Option.bind_some, Option.pure_def]
      · simp only [runCalls, F.fed o a ho ha1 hs, e1, Option.map_some, Option.bind_eq_bind, Option.bind_some, Option.pure_def, m2, outcomes, hs, ← hl,
          List.take_left, List.drop_left]
    | some content =>
      have hlost := F.lost a.2 ha1 (starved_needs a content hs)
      obtain ⟨o1, out, e1, p1⟩ := runCalls_inv exec P Ok F.step (R.lost a.2) hlost o ho
      obtain ⟨o2, outs, e2, m2, p2⟩ := ih o1 p1 (fun b hb => ha b (List.mem_cons_of_mem _ hb))
      have hl := counts F (R.lost a.2) o o1 out e1
      refine ⟨o2, out ++ outs, ?_, ?_, p2⟩
      · rw [effective_cons, hs, Option.isSome_some, if_pos rfl, runCalls_append, e1]
        simp only [Option.bind_some, e2, Option.map_some]
      · simp only [runCalls, F.dry o a content o1 out ho ha1 hs e1, Option.bind_eq_bind, Option.bind_some, Option.pure_def, m2, outcomes, hs, ← hl,
          List.drop_left, List.singleton_append]

theorem outcomes_append (as bs : List (Bool × C)) : ∀ outs : List O,
    outcomes R (as ++ bs) outs = outcomes R as outs ++ outcomes R bs (outs.drop ((effective R as).map R.results).sum) := by
  induction as with
  | nil => intro outs; simp [outcomes, effective]
  | cons a as ih =>
    intro outs
    rw [effective_cons]
    cases hs : starved R a with
    | none => simp only [List.cons_append, outcomes, hs, ih, Option.isSome_none, Bool.false_eq_true, if_false, List.map_append, List.sum_append, List.drop_drop, List.map_cons, List.map_nil, List.sum_cons, List.sum_nil, Nat.add_zero, Nat.zero_add, List.append_assoc]
    | some content => simp only [List.cons_append, outcomes, hs, ih, Option.isSome_some, if_true, List.map_append, List.sum_append, List.drop_drop]

theorem outcomes_prefix (as : List (Bool × C)) : ∀ outs more : List O, outs.length = ((effective R as).map R.results).sum → outcomes R as (outs ++ more) = outcomes R as outs := by
  induction as with
  | nil => intro outs more _; rfl
  | cons a as ih =>
    intro outs more hl
    rw [effective_cons] at hl
    cases hs : starved R a with
    | none =>
      simp only [hs, Option.isSome_none, Bool.false_eq_true, if_false, List.map_append, List.sum_append, List.map_cons, List.map_nil, List.sum_cons, List.sum_nil, Nat.add_zero] at hl
      simp only [outcomes, hs]
      rw [List.take_append_of_le_length (by omega), List.drop_append_of_le_length (by omega), ih _ _ (by simp; omega)]
    | some content =>
      simp only [hs, Option.isSome_some, if_true, List.map_append, List.sum_append] at hl
      simp only [outcomes, hs]
      rw [List.drop_append_of_le_length (by omega), ih _ _ (by simp; omega)]

/-- Nothing ends the process. -/
theorem outcomes_alive (as : List (Bool × C)) : ∀ outs : List O, .terminated ∉ outcomes R as outs := by
  induction as with
  | nil => intro outs; simp [outcomes]
  | cons a as ih =>
    intro outs
    cases hs : starved R a with
    | none =>
      simp only [outcomes, hs, List.mem_append, not_or]
      refine ⟨?_, ih _⟩
      intro h
      obtain ⟨x, -, hx⟩ := List.mem_map.mp h
      exact absurd hx (by simp)
    | some content => simp [outcomes, hs, ih]

/-- A history `pre` and then calls `bs` whose effective results are known. -/
theorem history_tail (F : Fair R exec execM P Ok) (pre bs : List (Bool × C)) (o o' : σ) (ho : P o) (hp : ∀ a ∈ pre, Ok a.2) (hb : ∀ a ∈ bs, Ok a.2)
    (outs known : List O) (hk : known.length = ((effective R bs).map R.results).sum)
    (e : runCalls exec o (effective R pre ++ effective R bs) = some (o', outs ++ known)) :
    runCalls execM o (pre ++ bs) = some (o', outcomes R pre outs ++ outcomes R bs known) := by
  obtain ⟨o1, outs1, e1, m1, -⟩ := history F (pre ++ bs) o ho (by
    intro a ha
    rcases List.mem_append.mp ha with h | h
    · exact hp a h
    · exact hb a h)
  have hc := counts F _ _ _ _ e
  rw [← effective_append, e1] at e
  obtain ⟨rfl, rfl⟩ := Prod.mk.inj (Option.some.inj e)
  rw [List.map_append, List.sum_append, List.length_append] at hc
  have h0 : outs.length = ((effective R pre).map R.results).sum := by omega
  rw [m1, outcomes_append, outcomes_prefix _ _ _ h0, ← h0, List.drop_left]

end generic

namespace OfHash
variable {H : HashImpl} {F : List Byte → List Byte} (L : Lawful H F)
include L

theorem fair : Fair (Spec.Alloc.hashRules H.digestSize) (HashApie.exec H) (exec H) (fun o => L.Wf o.impl) (HashApie.Call.Ok H.digestSize) where
  step := HashApie.exec_wf L
  count o c o' outs e := by
    cases c <;> simp only [HashApie.exec, Option.bind_eq_bind, Option.bind_eq_some_iff, Option.pure_def, Option.some.injEq, Prod.mk.injEq] at e
    · simp [← e.2, Spec.Alloc.hashRules]
    · obtain ⟨_, -, -, e⟩ := e; simp [← e, Spec.Alloc.hashRules]
    · obtain ⟨_, -, -, e⟩ := e; simp [← e, Spec.Alloc.hashRules]
    · obtain ⟨_, -, -, e⟩ := e; simp [← e, Spec.Alloc.hashRules]
  lost c _ _ c' hc' := by
    simp only [Spec.Alloc.hashRules, List.mem_singleton] at hc'
    subst hc'
    simp [HashApie.Call.Ok]
  fed o a ho ha hs := by
    obtain ⟨mem, c⟩ := a
    cases c with
    | digestC c n =>
      have hs : (if mem then none else grows c (min n H.digestSize)) = none := hs
      simp only [exec, digestC, HashApie.exec, HashApie.digestC, withRoom_fed _ _ _ _ _ hs, Option.bind_eq_bind, Option.pure_def]
      cases HashApie.doFinalize H o with
      | none => rfl
      | some o1 =>
        simp only [Option.bind_some]
        cases HashApie.digest H o1 (c.resize (min n H.digestSize)).1.data (c.resize (min n H.digestSize)).2 <;> rfl
    | _ => simp only [exec, Option.bind_eq_bind, Option.pure_def]; cases HashApie.exec H o _ <;> rfl
  dry o a content o' outs ho ha hs e := by
    obtain ⟨mem, c⟩ := a
    cases c with
    | digestC c n =>
      have hs : (if mem then none else grows c (min n H.digestSize)) = some content := hs
      simp only [Spec.Alloc.hashRules, runCalls, HashApie.exec, HashApie.digest, Option.bind_eq_bind, Option.pure_def, Option.bind_assoc] at e
      cases h1 : HashApie.doFinalize H o with
      | none => simp [h1] at e
      | some o1 =>
        simp only [h1, Option.bind_some] at e
        cases h2 : H.digest o1.impl [] 0 with
        | none => simp [h2] at e
        | some r =>
          simp only [h2, Option.bind_some, Option.some.injEq, Prod.mk.injEq] at e
          obtain ⟨w, rfl⟩ := withRoom_dry (α := Nat) mem c (min n H.digestSize) o1 (fun c n => (HashApie.digest H o1 c.data n).bind fun r => some (r.1, c.withData r.2.1, .returned r.2.2)) content hs
          simp only [exec, digestC, h1, Option.bind_eq_bind, Option.bind_some, Option.pure_def]
          rw [w]
          simp [outcome, e.1]
    | _ => simp [starved, Spec.Alloc.hashRules] at hs

end OfHash

namespace OfMac
variable {M : MacImpl} {F : List Byte → List Byte → List Byte} (L : LawfulMac M F)
include L

theorem fair : Fair (Spec.Alloc.macRules M.digestSize) (MacApie.exec M) (exec M) (MacApie.Good L) (MacApie.Call.Ok M.digestSize) where
  step := MacApie.exec_good L
  count o c o' outs e := by
    cases c <;> simp only [MacApie.exec, Option.bind_eq_bind, Option.bind_eq_some_iff, Option.pure_def, Option.some.injEq, Prod.mk.injEq] at e
    all_goals (obtain ⟨_, -, -, e⟩ := e; simp [← e, Spec.Alloc.macRules])
  lost c _ _ c' hc' := by
    simp only [Spec.Alloc.macRules, List.mem_singleton] at hc'
    subst hc'
    simp [MacApie.Call.Ok]
  fed o a ho ha hs := by
    obtain ⟨mem, c⟩ := a
    cases c with
    | digestC c n =>
      have hs : (if mem then none else grows c (min n M.digestSize)) = none := hs
      simp only [exec, digestC, MacApie.exec, MacApie.digestC, withRoom_fed _ _ _ _ _ hs, Option.bind_eq_bind, Option.pure_def]
      cases MacApie.doFinalize M o with
      | none => rfl
      | some o1 =>
        simp only [Option.bind_some]
        cases MacApie.digest M o1 (c.resize (min n M.digestSize)).1.data (c.resize (min n M.digestSize)).2 <;> rfl
    | _ => simp only [exec, Option.bind_eq_bind, Option.pure_def]; cases MacApie.exec M o _ <;> rfl
  dry o a content o' outs ho ha hs e := by
    obtain ⟨mem, c⟩ := a
    cases c with
    | digestC c n =>
      have hs : (if mem then none else grows c (min n M.digestSize)) = some content := hs
      simp only [Spec.Alloc.macRules, runCalls, MacApie.exec, MacApie.digest, Option.bind_eq_bind, Option.pure_def, Option.bind_assoc] at e
      cases h1 : MacApie.doFinalize M o with
      | none => simp [h1] at e
      | some o1 =>
        simp only [h1, Option.bind_some] at e
        cases h2 : M.digest o1.impl [] 0 with
        | none => simp [h2] at e
        | some r =>
          simp only [h2, Option.bind_some, Option.some.injEq, Prod.mk.injEq] at e
          obtain ⟨w, rfl⟩ := withRoom_dry (α := Nat) mem c (min n M.digestSize) o1 (fun c n => (MacApie.digest M o1 c.data n).bind fun r => some (r.1, c.withData r.2.1, .returned r.2.2)) content hs
          simp only [exec, digestC, h1, Option.bind_eq_bind, Option.bind_some, Option.pure_def]
          rw [w]
          simp [outcome, e.1]
    | _ => simp [starved, Spec.Alloc.macRules] at hs

end OfMac

namespace OfKdf
variable {h : Host} {K : KdfImpl} {stream : Mem → K.Args → List Byte} {retained : K.Args → List Nat} (L : LawfulKdf h K stream retained)
include L

theorem fair (sizes : Nat → Nat) : Fair (Spec.Alloc.kdfRules K.Args) (Kdf.exec K) (exec K) (fun s => L.Wf sizes s.1 ∧ Kdf.MemOk sizes s.2) (Kdf.Call.Ok K sizes) where
  step s c hs hc := by
    obtain ⟨s', out, e, w, m, -⟩ := Kdf.exec_wf L sizes s c hs hc
    exact ⟨s', out, e, w, m⟩
  count o c o' outs e := by
    cases c <;> simp only [Kdf.exec, Option.bind_eq_bind, Option.bind_eq_some_iff, Option.pure_def, Option.some.injEq, Prod.mk.injEq] at e
    · obtain ⟨_, -, -, e⟩ := e; simp [← e, Spec.Alloc.kdfRules]
    · simp [← e.2, Spec.Alloc.kdfRules]
    · obtain ⟨_, -, -, e⟩ := e; simp [← e, Spec.Alloc.kdfRules]
  lost c _ _ c' hc' := by simp [Spec.Alloc.kdfRules] at hc'
  fed s a ho ha hs := by
    obtain ⟨mem, c⟩ := a
    have other : ∀ c : Kdf.Call K.Args, (∀ x n, c ≠ .derive (.cont x n)) → exec K s (mem, c) = (Kdf.exec K s c).map fun r => (r.1, r.2.map Outcome.answered) := by
      intro c hc
      unfold exec
      split
      · exact absurd ‹_› (hc _ _)
      · simp only [Option.bind_eq_bind, Option.pure_def]; cases Kdf.exec K s _ <;> rfl
    cases c with
    | derive r =>
      cases r with
      | cont c n =>
        have hs : (if mem then none else grows c n) = none := hs
        simp only [exec, deriveC, Kdf.exec, Kdf.deriveReq, withRoom_fed _ _ _ _ _ hs, Option.bind_eq_bind, Option.pure_def]
        cases K.derive s.1 s.2 (c.resize n).1.data (c.resize n).2 <;> rfl
      | ptr => exact other _ (by intros; simp)
    | _ => exact other _ (by intros; simp)
  dry s a content o' outs ho ha hs e := by
    obtain ⟨mem, c⟩ := a
    cases c with
    | derive r =>
      cases r with
      | cont c n =>
        have hs : (if mem then none else grows c n) = some content := hs
        simp only [Spec.Alloc.kdfRules, runCalls, Option.some.injEq, Prod.mk.injEq] at e
        obtain ⟨w, rfl⟩ := withRoom_dry (α := Nat) mem c n s.1 (fun c n => (K.derive s.1 s.2 c.data n).bind fun r => some (r.1, c.withData r.2.1, .returned r.2.2)) content hs
        simp only [exec, deriveC, Option.bind_eq_bind, Option.pure_def]
        rw [w]
        simp [outcome, ← e.1]
      | ptr => simp [starved, Spec.Alloc.kdfRules] at hs
    | _ => simp [starved, Spec.Alloc.kdfRules] at hs

end OfKdf

namespace OfCipher
variable (h : Host) {B : ChaCha.Backend} (L : ChaCha.LawfulBackend B)
include L

theorem encryptC_fed (o : ChaCha.Obj) (ho : ∃ st0 pos, ChaCha.Rep B st0 o pos) (mem : Bool) (x : List Byte) (tgt : Container)
    (hok : tgt.dynamic = false → x.length ≤ tgt.data.length) (hs : (if mem then none else grows tgt x.length) = none) :
    encryptC h B mem o x tgt = (Cipher.encryptC h B o x tgt).map fun r => (r.1, r.2.1, .returned r.2.2) := by
  obtain ⟨st0, pos, hr⟩ := ho
  have hl := resize_holds tgt x.length hok
  obtain ⟨o', e, -⟩ := ChaCha.encrypt_eq h L st0 o pos hr (x ++ (tgt.resize x.length).1.data) 0 x.length x.length ⟨.inr (.inl (by omega)), by simp, by simp; omega⟩
  unfold encryptC Cipher.encryptC
  rw [withRoom_fed _ _ _ _ _ hs]
  simp only [e, Option.bind_eq_bind, Option.bind_some, Option.pure_def, Option.map_some]
  rw [second_room _ _ _ _ _ _ (by rw [List.length_drop, xored_length _ _ _ _ _ (by simp; omega)]; simp)]

theorem encryptSelf_fed (o : ChaCha.Obj) (ho : ∃ st0 pos, ChaCha.Rep B st0 o pos) (mem : Bool) (c : Container) :
    encryptSelf h B mem o c = (Cipher.encryptSelf h B o c).map fun r => (r.1, r.2.1, .returned r.2.2) := by
  obtain ⟨st0, pos, hr⟩ := ho
  obtain ⟨o', e, -⟩ := ChaCha.encrypt_eq h L st0 o pos hr c.data 0 c.data.length 0 ⟨.inl rfl, by simp, by simp⟩
  unfold encryptSelf Cipher.encryptSelf
  rw [withRoom_fed _ _ _ _ _ (self_room mem c), AeadApie.resize_self]
  simp only [e, Option.bind_eq_bind, Option.bind_some, Option.pure_def, Option.map_some]
  rw [withRoom_fed]
  cases mem
  · simp [grows, Container.withData, xored_length]
  · rfl

theorem fair : Fair Spec.Alloc.cipherRules (Cipher.exec h B) (exec h B) (fun o => ∃ st0 pos, ChaCha.Rep B st0 o pos) Cipher.Call.Ok where
  step := Cipher.exec_wf h L
  count o c o' outs e := by
    cases c <;> simp only [Cipher.exec, Option.bind_eq_bind, Option.bind_eq_some_iff, Option.pure_def, Option.some.injEq, Prod.mk.injEq] at e
    all_goals (obtain ⟨_, -, -, e⟩ := e; simp [← e, Spec.Alloc.cipherRules])
  lost c _ _ c' hc' := by simp [Spec.Alloc.cipherRules] at hc'
  fed o a ho ha hs := by
    obtain ⟨mem, c⟩ := a
    have dC : ∀ x tgt, decryptC h B mem o x tgt = encryptC h B mem o x tgt := fun _ _ => rfl
    have dS : ∀ c, decryptSelf h B mem o c = encryptSelf h B mem o c := fun _ => rfl
    have dC' : ∀ x tgt, Cipher.decryptC h B o x tgt = Cipher.encryptC h B o x tgt := fun _ _ => rfl
    have dS' : ∀ c, Cipher.decryptSelf h B o c = Cipher.encryptSelf h B o c := fun _ => rfl
    cases c with
    | encryptC x tgt =>
      simp only [exec, Cipher.exec, encryptC_fed h L o ho mem x tgt ha hs, Option.bind_eq_bind, Option.pure_def]
      cases Cipher.encryptC h B o x tgt <;> rfl
    | decryptC x tgt =>
      simp only [exec, Cipher.exec, dC, dC', encryptC_fed h L o ho mem x tgt ha hs, Option.bind_eq_bind, Option.pure_def]
      cases Cipher.encryptC h B o x tgt <;> rfl
    | encryptSelf c =>
      simp only [exec, Cipher.exec, encryptSelf_fed h L o ho mem c, Option.bind_eq_bind, Option.pure_def]
      cases Cipher.encryptSelf h B o c <;> rfl
    | decryptSelf c =>
      simp only [exec, Cipher.exec, dS, dS', encryptSelf_fed h L o ho mem c, Option.bind_eq_bind, Option.pure_def]
      cases Cipher.encryptSelf h B o c <;> rfl
    | _ => simp only [exec, Option.bind_eq_bind, Option.pure_def]; cases Cipher.exec h B o _ <;> rfl
  dry o a content o' outs ho ha hs e := by
    obtain ⟨mem, c⟩ := a
    simp only [Spec.Alloc.cipherRules, runCalls, Option.some.injEq, Prod.mk.injEq] at e
    obtain ⟨rfl, -⟩ := e
    have key : ∀ x tgt, (if mem then none else grows tgt x.length) = some content → encryptC h B mem o x tgt = some (o, tgt, .badAlloc) ∧ content = tgt.data := by
      intro x tgt hs
      unfold encryptC
      exact withRoom_dry _ _ _ _ _ _ hs
    have dC : ∀ x tgt, decryptC h B mem o x tgt = encryptC h B mem o x tgt := fun _ _ => rfl
    cases c with
    | encryptC x tgt =>
      obtain ⟨w, rfl⟩ := key x tgt hs
      simp only [exec, w, Option.bind_eq_bind, Option.bind_some, Option.pure_def, outcome]
    | decryptC x tgt =>
      obtain ⟨w, rfl⟩ := key x tgt hs
      simp only [exec, dC, w, Option.bind_eq_bind, Option.bind_some, Option.pure_def, outcome]
    | _ => simp [starved, Spec.Alloc.cipherRules] at hs

end OfCipher

namespace OfAead
open AeadApie
variable (h : Host) {B : ChaCha.Backend} (LB : ChaCha.LawfulBackend B) {M : MacImpl} {F : List Byte → List Byte → List Byte} (L : LawfulMac M F)

include LB in
theorem ptr_wf' (d : Bool) (o : Obj M) (ho : Wf B L o) (mem : List Byte) (src n dst : Nat) (hf : Cipher.Fits mem src n dst) :
    ∃ o' mem', (if d then decrypt h B o mem src n dst else encrypt h B o mem src n dst) = some (o', mem', n) ∧ Wf B L o' ∧ mem'.length = mem.length := by
  obtain ⟨o1, e1, w1, wa, wf⟩ := doFinalizeAad_wf L o ho
  cases d
  · obtain ⟨i, mem', ei, wi, hm⟩ := Aead.encrypt_wf h LB L o1.impl w1 mem src n dst hf
    exact ⟨{ o1 with impl := i }, mem', by simp [encrypt, e1, ei], ⟨wi, wa, wf⟩, hm⟩
  · obtain ⟨i, mem', ei, wi, hm⟩ := Aead.decrypt_wf h LB L o1.impl w1 mem src n dst hf
    exact ⟨{ o1 with impl := i }, mem', by simp [decrypt, e1, ei], ⟨wi, wa, wf⟩, hm⟩

include LB in
theorem cont_fed (d : Bool) (o : Obj M) (ho : Wf B L o) (mem : Bool) (x : List Byte) (tgt : Container)
    (hok : tgt.dynamic = false → x.length ≤ tgt.data.length) (hs : (if mem then none else grows tgt x.length) = none) :
    (if d then decryptC h B mem o x tgt else encryptC h B mem o x tgt)
      = (if d then AeadApie.decryptC h B o x tgt else AeadApie.encryptC h B o x tgt).map fun r => (r.1, r.2.1, .returned r.2.2) := by
  have hl := resize_holds tgt x.length hok
  obtain ⟨o', mem', e, w, hm⟩ := ptr_wf' h LB L d o ho (x ++ (tgt.resize x.length).1.data) 0 x.length x.length ⟨.inr (.inl (by omega)), by simp, by simp; omega⟩
  cases d
  all_goals
    simp only [Bool.false_eq_true, if_false, if_true] at e ⊢
    simp only [encryptC, AeadApie.encryptC, decryptC, AeadApie.decryptC]
    rw [withRoom_fed _ _ _ _ _ hs]
    simp only [e, Option.bind_eq_bind, Option.bind_some, Option.pure_def, Option.map_some]
    rw [second_room _ _ _ _ _ _ (by rw [List.length_drop, hm]; simp)]

include LB in
theorem self_fed (d : Bool) (o : Obj M) (ho : Wf B L o) (mem : Bool) (c : Container) :
    (if d then decryptSelf h B mem o c else encryptSelf h B mem o c)
      = (if d then AeadApie.decryptSelf h B o c else AeadApie.encryptSelf h B o c).map fun r => (r.1, r.2.1, .returned r.2.2) := by
  obtain ⟨o', mem', e, w, hm⟩ := ptr_wf' h LB L d o ho c.data 0 c.data.length 0 ⟨.inl rfl, by simp, by simp⟩
  cases d
  all_goals
    simp only [Bool.false_eq_true, if_false, if_true] at e ⊢
    simp only [encryptSelf, AeadApie.encryptSelf, decryptSelf, AeadApie.decryptSelf]
    rw [withRoom_fed _ _ _ _ _ (self_room mem c), AeadApie.resize_self]
    simp only [e, Option.bind_eq_bind, Option.bind_some, Option.pure_def, Option.map_some]
    rw [withRoom_fed]
    cases mem
    · simp [grows, Container.withData, hm]
    · rfl

theorem digestC_fed (o : Obj M) (mem : Bool) (c : Container) (n : Nat) (hs : (if mem then none else grows c (min n M.digestSize)) = none) :
    digestC h mem o c n = (AeadApie.digestC h o c n).map fun r => (r.1, r.2.1, .returned r.2.2) := by
  unfold digestC AeadApie.digestC
  simp only [withRoom_fed _ _ _ _ _ hs, Option.bind_eq_bind, Option.pure_def]
  cases doFinalize h o with
  | none => rfl
  | some o1 =>
    simp only [Option.bind_some]
    cases AeadApie.digest h o1 (c.resize (min n M.digestSize)).1.data (c.resize (min n M.digestSize)).2 <;> rfl

include LB L in
theorem fair (hds : M.digestSize = 16) : Fair Spec.Alloc.aeadRules (AeadApie.exec h B) (exec h B) (Wf B L) Call.Ok where
  step := exec_wf h LB L hds
  count o c o' outs e := by
    cases c <;> simp only [AeadApie.exec, Option.bind_eq_bind, Option.bind_eq_some_iff, Option.pure_def, Option.some.injEq, Prod.mk.injEq] at e
    all_goals (obtain ⟨_, -, -, e⟩ := e; simp [← e, Spec.Alloc.aeadRules])
  lost c _ _ c' hc' := by
    cases c <;> simp [Spec.Alloc.aeadRules] at hc'
    subst hc'
    simp [Call.Ok]
  fed o a ho ha hs := by
    obtain ⟨mem, c⟩ := a
    have other : ∀ c : Call, (∀ d x t, c ≠ .text d (.cont x t)) → (∀ d t, c ≠ .text d (.self t)) → (∀ t n, c ≠ .digestC t n) →
        exec h B o (mem, c) = (AeadApie.exec h B o c).map fun r => (r.1, r.2.map Outcome.answered) := by
      intro c h1 h2 h3
      unfold exec
      split
      · exact absurd ‹_› (h1 _ _ _)
      · exact absurd ‹_› (h2 _ _)
      · exact absurd ‹_› (h3 _ _)
      · simp only [Option.bind_eq_bind, Option.pure_def]; cases AeadApie.exec h B o _ <;> rfl
    cases c with
    | text d t =>
      cases t with
      | cont x tgt =>
        have e := cont_fed h LB L d o ho mem x tgt ha.1 hs
        cases d
        · simp only [Bool.false_eq_true, if_false] at e
          simp only [exec, AeadApie.exec, text, Bool.false_eq_true, if_false, e, Option.bind_eq_bind, Option.pure_def]
          cases AeadApie.encryptC h B o x tgt <;> rfl
        · simp only [if_true] at e
          simp only [exec, AeadApie.exec, text, if_true, e, Option.bind_eq_bind, Option.pure_def]
          cases AeadApie.decryptC h B o x tgt <;> rfl
      | self c =>
        have e := self_fed h LB L d o ho mem c
        cases d
        · simp only [Bool.false_eq_true, if_false] at e
          simp only [exec, AeadApie.exec, text, Bool.false_eq_true, if_false, e, Option.bind_eq_bind, Option.pure_def]
          cases AeadApie.encryptSelf h B o c <;> rfl
        · simp only [if_true] at e
          simp only [exec, AeadApie.exec, text, if_true, e, Option.bind_eq_bind, Option.pure_def]
          cases AeadApie.decryptSelf h B o c <;> rfl
      | ptr => exact other _ (by intros; simp) (by intros; simp) (by intros; simp)
    | digestC c n =>
      have hs : (if mem then none else grows c (min n M.digestSize)) = none := by rw [hds]; exact hs
      simp only [exec, AeadApie.exec, digestC_fed h o mem c n hs, Option.bind_eq_bind, Option.pure_def]
      cases AeadApie.digestC h o c n <;> rfl
    | _ => exact other _ (by intros; simp) (by intros; simp) (by intros; simp)
  dry o a content o' outs ho ha hs e := by
    obtain ⟨mem, c⟩ := a
    cases c with
    | text d t =>
      cases t with
      | cont x tgt =>
        simp only [Spec.Alloc.aeadRules, runCalls, Option.some.injEq, Prod.mk.injEq] at e
        obtain ⟨rfl, -⟩ := e
        have hs : (if mem then none else grows tgt x.length) = some content := hs
        have key : (if d then decryptC h B mem o x tgt else encryptC h B mem o x tgt) = some (o, tgt, .badAlloc) ∧ content = tgt.data := by
          cases d
          · simp only [Bool.false_eq_true, if_false, encryptC]; exact withRoom_dry _ _ _ _ _ _ hs
          · simp only [if_true, decryptC]; exact withRoom_dry _ _ _ _ _ _ hs
        obtain ⟨w, rfl⟩ := key
        cases d
        · simp only [Bool.false_eq_true, if_false] at w
          simp only [exec, Bool.false_eq_true, if_false, w, Option.bind_eq_bind, Option.bind_some, Option.pure_def, outcomeA]
        · simp only [if_true] at w
          simp only [exec, if_true, w, Option.bind_eq_bind, Option.bind_some, Option.pure_def, outcomeA]
      | _ => simp [starved, Spec.Alloc.aeadRules] at hs
    | digestC c n =>
      have hs : (if mem then none else grows c (min n M.digestSize)) = some content := by rw [hds]; exact hs
      simp only [Spec.Alloc.aeadRules, runCalls, AeadApie.exec, AeadApie.digest, Option.bind_eq_bind, Option.pure_def, Option.bind_assoc] at e
      cases h1 : doFinalize h o with
      | none => simp [h1] at e
      | some o1 =>
        simp only [h1, Option.bind_some] at e
        cases h2 : Aead.digest o1.impl [] 0 with
        | none => simp [h2] at e
        | some r =>
          simp only [h2, Option.bind_some, Option.some.injEq, Prod.mk.injEq] at e
          obtain ⟨w, rfl⟩ := withRoom_dry (α := Nat) mem c (min n M.digestSize) o1 (fun c n => (AeadApie.digest h o1 c.data n).bind fun r => some (r.1, c.withData r.2.1, .returned r.2.2)) content hs
          simp only [exec, digestC, h1, Option.bind_eq_bind, Option.bind_some, Option.pure_def]
          rw [w]
          simp [outcomeA, e.1]
    | _ => simp [starved, Spec.Alloc.aeadRules] at hs

end OfAead

end Milo.Alloc
