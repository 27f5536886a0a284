import Verif.Model.Timed.Calls
import Verif.Spec.Timed
import Verif.Proof.Timed.Kdf
import Verif.Proof.Timed.Aead
/- Sequences of calls: results and what is observed. -/
namespace Milo.Timed

theorem val_runCalls {σ C O : Type} (f : σ → C → T (σ × List O)) (g : σ → C → Option (σ × List O)) (e : ∀ o c, (f o c).val = g o c) :
    ∀ cs o, (runCalls f o cs).val = Milo.runCalls g o cs := by
  intro cs
  induction cs with
  | nil => intro o; rfl
  | cons c cs ih => intro o; simp only [runCalls, Milo.runCalls, val_bind, val_pure, e, ih]; rfl

/-- Two calls one after the other, as `runCalls` does. `see` is what the onlooker learns from outputs anyway. -/
theorem same_runCalls {σ C O V : Type} [Shape σ] {f : σ → C → T (σ × List O)} (hide : C → C) (see : O → Bool) (key : O → V)
    (e : ∀ o o' c c', Shape.same o o' → hide c = hide c' → ∀ a b, (f o c).val = some a → (f o' c').val = some b →
      ((a.2.filter see).map key).length = ((b.2.filter see).map key).length ∧
      ((a.2.filter see).map key = (b.2.filter see).map key → (f o c).trace = (f o' c').trace ∧ Shape.same a.1 b.1)) :
    ∀ cs cs' o o', Shape.same o o' → cs.map hide = cs'.map hide → ∀ a b, (runCalls f o cs).val = some a → (runCalls f o' cs').val = some b →
      (a.2.filter see).map key = (b.2.filter see).map key → (runCalls f o cs).trace = (runCalls f o' cs').trace := by
  intro cs
  induction cs with
  | nil =>
    intro cs' o o' es ec
    cases cs' with
    | nil => intros; rfl
    | cons c' cs' => cases ec
  | cons c cs ih =>
    intro cs' o o' es ec a b ha hb hv
    cases cs' with
    | nil => cases ec
    | cons c' cs' =>
      have e1 : hide c = hide c' := by injection ec
      have e2 : cs.map hide = cs'.map hide := by injection ec
      simp only [runCalls] at ha hb ⊢
      rw [val_bind] at ha hb
      cases h1 : (f o c).val with
      | none => rw [h1] at ha; cases ha
      | some p =>
        cases h2 : (f o' c').val with
        | none => rw [h2] at hb; cases hb
        | some q =>
          obtain ⟨p1, p2⟩ := p
          obtain ⟨q1, q2⟩ := q
          rw [h1, Option.bind_some] at ha
          rw [h2, Option.bind_some] at hb
          dsimp only at ha hb
          rw [val_bind] at ha hb
          cases h3 : (runCalls f p1 cs).val with
          | none => rw [h3] at ha; cases ha
          | some r =>
            cases h4 : (runCalls f q1 cs').val with
            | none => rw [h4] at hb; cases hb
            | some s =>
              obtain ⟨r1, r2⟩ := r
              obtain ⟨s1, s2⟩ := s
              rw [h3, Option.bind_some] at ha
              rw [h4, Option.bind_some] at hb
              cases ha
              cases hb
              simp only [List.filter_append, List.map_append] at hv
              obtain ⟨hl, hs⟩ := e o o' c c' es e1 _ _ h1 h2
              obtain ⟨hv1, hv2⟩ := List.append_inj hv hl
              obtain ⟨ht, hsh⟩ := hs hv1
              rw [trace_bind' _ _ _ h1, trace_bind' _ _ _ h2]
              dsimp only
              rw [trace_bind' _ _ _ h3, trace_bind' _ _ _ h4, ht, ih cs' p1 q1 hsh e2 _ _ h3 h4 hv2]
              rfl

/-- The same when the onlooker learns nothing from the outputs. -/
theorem same_runCalls' {σ C O : Type} [Shape σ] {f : σ → C → T (σ × List O)} (hide : C → C)
    (e : ∀ o o' c c', Shape.same o o' → hide c = hide c' → ∀ a b, (f o c).val = some a → (f o' c').val = some b → (f o c).trace = (f o' c').trace ∧ Shape.same a.1 b.1)
    (cs cs' : List C) (o o' : σ) (es : Shape.same o o') (ec : cs.map hide = cs'.map hide) (a b : σ × List O) (ha : (runCalls f o cs).val = some a) (hb : (runCalls f o' cs').val = some b) :
    (runCalls f o cs).trace = (runCalls f o' cs').trace := by
  refine same_runCalls (V := Unit) hide (fun _ => false) (fun _ => ()) (fun o o' c c' es ec a b ha hb => ⟨?_, fun _ => e o o' c c' es ec a b ha hb⟩) cs cs' o o' es ec a b ha hb ?_
  · rw [List.filter_eq_nil_iff.2 (by simp), List.filter_eq_nil_iff.2 (by simp)]
  · rw [List.filter_eq_nil_iff.2 (by simp), List.filter_eq_nil_iff.2 (by simp)]

/-- Observed and shape of the object, from a computation that also has outputs. -/
theorem first_same {σ β O : Type} [Shape σ] [Shape β] {x y : T (σ × β)} {g : β → List O} (h : Same x y) : ∀ a b, (x >>= fun r => (pure (r.1, g r.2) : T (σ × List O))).val = some a →
    (y >>= fun r => (pure (r.1, g r.2) : T (σ × List O))).val = some b →
    (x >>= fun r => (pure (r.1, g r.2) : T (σ × List O))).trace = (y >>= fun r => (pure (r.1, g r.2) : T (σ × List O))).trace ∧ Shape.same a.1 b.1 := by
  intro a b ha hb
  rw [val_bind] at ha hb
  cases h1 : x.val with
  | none => rw [h1] at ha; cases ha
  | some p =>
    cases h2 : y.val with
    | none => rw [h2] at hb; cases hb
    | some q =>
      rw [h1] at ha
      rw [h2] at hb
      cases ha
      cases hb
      obtain ⟨h3, h4⟩ := h p q h1 h2
      rw [trace_bind' _ _ _ h1, trace_bind' _ _ _ h2, h3]
      exact ⟨rfl, h4.1⟩

/-- The same when there is an object only. -/
theorem only_same {σ O : Type} [Shape σ] {x y : T σ} {out out' : List O} (h : Same x y) : ∀ a b, (x >>= fun r => (pure (r, out) : T (σ × List O))).val = some a →
    (y >>= fun r => (pure (r, out') : T (σ × List O))).val = some b →
    (x >>= fun r => (pure (r, out) : T (σ × List O))).trace = (y >>= fun r => (pure (r, out') : T (σ × List O))).trace ∧ Shape.same a.1 b.1 := by
  intro a b ha hb
  rw [val_bind] at ha hb
  cases h1 : x.val with
  | none => rw [h1] at ha; cases ha
  | some p =>
    cases h2 : y.val with
    | none => rw [h2] at hb; cases hb
    | some q =>
      rw [h1] at ha
      rw [h2] at hb
      cases ha
      cases hb
      obtain ⟨h3, h4⟩ := h p q h1 h2
      rw [trace_bind' _ _ _ h1, trace_bind' _ _ _ h2, h3]
      exact ⟨rfl, h4⟩

/-- The same when the object does not change. -/
theorem output_same {σ β O : Type} [Shape σ] [Shape β] {o o' : σ} (eo : Shape.same o o') {x y : T β} {g : β → List O} (h : Same x y) :
    ∀ a b, (x >>= fun r => (pure (o, g r) : T (σ × List O))).val = some a → (y >>= fun r => (pure (o', g r) : T (σ × List O))).val = some b →
    (x >>= fun r => (pure (o, g r) : T (σ × List O))).trace = (y >>= fun r => (pure (o', g r) : T (σ × List O))).trace ∧ Shape.same a.1 b.1 := by
  intro a b ha hb
  rw [val_bind] at ha hb
  cases h1 : x.val with
  | none => rw [h1] at ha; cases ha
  | some p =>
    cases h2 : y.val with
    | none => rw [h2] at hb; cases hb
    | some q =>
      rw [h1] at ha
      rw [h2] at hb
      cases ha
      cases hb
      rw [trace_bind' _ _ _ h1, trace_bind' _ _ _ h2, (h p q h1 h2).1]
      exact ⟨rfl, eo⟩

theorem plain_same {σ O : Type} [Shape σ] {o o' : σ} {out out' : List O} (eo : Shape.same o o') : ∀ a b, (pure (o, out) : T (σ × List O)).val = some a → (pure (o', out') : T (σ × List O)).val = some b →
    (pure (o, out) : T (σ × List O)).trace = (pure (o', out') : T (σ × List O)).trace ∧ Shape.same a.1 b.1 := by
  intro a b ha hb
  cases ha
  cases hb
  exact ⟨rfl, eo⟩

open Spec.Timed (blank container)

theorem blank_length {x y : List Byte} (e : blank x = blank y) : x.length = y.length := by
  have := congrArg List.length e
  simpa [blank] using this
theorem container_same {c d : Container} (e : container c = container d) : Shape.same c d := by
  have h1 : (container c).dynamic = (container d).dynamic := by rw [e]
  have h2 : (container c).data = (container d).data := by rw [e]
  exact ⟨h1, blank_length h2⟩

/-! ### Hash -/
section
variable {H : HashImpl} {t : HashT H} (L : t.Law)
include L

theorem Hash.val_exec (o : H.σ) (c : Milo.Hash.Call) : (Hash.exec t o c).val = Milo.Hash.exec H o c := by
  cases c <;> simp only [Hash.exec, Milo.Hash.exec, val_bind, val_pure, L.updateVal, L.finalizeVal, L.digestVal] <;> rfl
theorem Hash.val_run (cs : List Milo.Hash.Call) : (Hash.run t cs).val = Milo.Hash.run H cs := val_runCalls _ _ (Hash.val_exec L) _ _
theorem Hash.same_exec (o o' : H.σ) (c c' : Milo.Hash.Call) (e : L.shape.same o o') (ec : Spec.Timed.hash c = Spec.Timed.hash c') :
    ∀ a b, (Hash.exec t o c).val = some a → (Hash.exec t o' c').val = some b → (Hash.exec t o c).trace = (Hash.exec t o' c').trace ∧ L.shape.same a.1 b.1 := by
  letI := L.shape
  cases c with
  | init => cases c' with
    | init => exact plain_same (L.init _ _ e)
    | _ => cases ec
  | update x => cases c' with
    | update y => exact only_same (L.update _ _ _ _ e (blank_length (by injection ec)))
    | _ => cases ec
  | finalize => cases c' with
    | finalize => exact only_same (L.finalize _ _ e)
    | _ => cases ec
  | digest d n => cases c' with
    | digest d' n' =>
      have h1 : blank d = blank d' := by injection ec
      have h2 : n = n' := by injection ec
      cases h2
      exact output_same e (L.digest _ _ _ _ _ e (blank_length h1))
    | _ => cases ec
theorem Hash.same_run (cs cs' : List Milo.Hash.Call) (ec : cs.map Spec.Timed.hash = cs'.map Spec.Timed.hash) (a b) (ha : Milo.Hash.run H cs = some a) (hb : Milo.Hash.run H cs' = some b) :
    (Hash.run t cs).trace = (Hash.run t cs').trace := by
  letI := L.shape
  rw [← Hash.val_run L] at ha hb
  exact same_runCalls' Spec.Timed.hash (Hash.same_exec L) cs cs' _ _ L.fresh ec a b ha hb

theorem HashApie.val_doFinalize (o : Milo.HashApie.Obj H) : (HashApie.doFinalize t o).val = Milo.HashApie.doFinalize H o := by
  unfold HashApie.doFinalize Milo.HashApie.doFinalize
  simp only [val_branch, val_bind, val_pure, L.finalizeVal]
  rfl
theorem HashApie.val_digest (o : Milo.HashApie.Obj H) (d : List Byte) (n : Nat) : (HashApie.digest t o d n).val = Milo.HashApie.digest H o d n := by
  unfold HashApie.digest Milo.HashApie.digest
  simp only [val_bind, val_pure, HashApie.val_doFinalize L, L.digestVal]
  rfl
theorem HashApie.val_exec (o : Milo.HashApie.Obj H) (c : Milo.HashApie.Call) : (HashApie.exec t o c).val = Milo.HashApie.exec H o c := by
  cases c <;> simp only [HashApie.exec, Milo.HashApie.exec, HashApie.update, Milo.HashApie.update, HashApie.digestC, Milo.HashApie.digestC, val_bind, val_pure, L.updateVal,
    HashApie.val_digest L, HashApie.val_doFinalize L] <;> rfl
theorem HashApie.val_run (u : Bool) (cs : List Milo.HashApie.Call) : (HashApie.run t u cs).val = Milo.HashApie.run H u cs := val_runCalls _ _ (HashApie.val_exec L) _ _

omit L in
/-- The wrapper: the flag is public. -/
def HashApie.shape (L : t.Law) : Shape (Milo.HashApie.Obj H) := ⟨fun a b => L.shape.same a.impl b.impl ∧ a.finalized = b.finalized⟩

theorem HashApie.same_doFinalize {o o' : Milo.HashApie.Obj H} (e : (HashApie.shape L).same o o') : letI := HashApie.shape L; Same (HashApie.doFinalize t o) (HashApie.doFinalize t o') := by
  letI := HashApie.shape L
  letI := L.shape
  unfold HashApie.doFinalize
  rw [show o'.finalized = o.finalized from e.2.symm]
  exact Same.branch Iff.rfl (fun _ _ => Same.pure e) fun _ _ => Same.bind (L.finalize _ _ e.1) fun _ _ e1 => Same.pure ⟨e1, rfl⟩
theorem HashApie.same_digest {o o' : Milo.HashApie.Obj H} {d d' : List Byte} {n : Nat} (e : (HashApie.shape L).same o o') (ed : d.length = d'.length) :
    letI := HashApie.shape L; Same (HashApie.digest t o d n) (HashApie.digest t o' d' n) := by
  letI := HashApie.shape L
  letI := L.shape
  exact Same.bind (HashApie.same_doFinalize L e) fun _ _ e1 => Same.bind (L.digest _ _ _ _ _ e1.1 ed) fun _ _ e2 => Same.pure ⟨e1, e2⟩
theorem HashApie.same_digestC {o o' : Milo.HashApie.Obj H} {c c' : Container} {n : Nat} (e : (HashApie.shape L).same o o') (ec : Shape.same c c') :
    letI := HashApie.shape L; Same (HashApie.digestC t o c n) (HashApie.digestC t o' c' n) := by
  letI := HashApie.shape L
  unfold HashApie.digestC
  have er := resize_same (n := min n H.digestSize) ec
  refine Same.bind (HashApie.same_doFinalize L e) fun _ _ e1 => ?_
  dsimp only
  rw [er.2]
  refine Same.bind (HashApie.same_digest L e1 er.1.2) ?_
  rintro ⟨a, b, s⟩ ⟨a', b', s'⟩ ⟨e1, e2, e3⟩
  exact Same.pure ⟨e1, withData_same er.1 e2, e3⟩
theorem HashApie.same_exec (o o' : Milo.HashApie.Obj H) (c c' : Milo.HashApie.Call) (e : (HashApie.shape L).same o o') (ec : Spec.Timed.hashApie c = Spec.Timed.hashApie c') :
    ∀ a b, (HashApie.exec t o c).val = some a → (HashApie.exec t o' c').val = some b →
      (HashApie.exec t o c).trace = (HashApie.exec t o' c').trace ∧ (HashApie.shape L).same a.1 b.1 := by
  letI := L.shape
  letI := HashApie.shape L
  cases c with
  | init => cases c' with
    | init => exact plain_same ⟨L.init _ _ e.1, rfl⟩
    | _ => cases ec
  | update x => cases c' with
    | update y =>
      have h1 : blank x = blank y := by injection ec
      exact only_same (Same.bind (L.update _ _ _ _ e.1 (blank_length h1)) fun _ _ e1 => Same.pure ⟨e1, e.2⟩)
    | _ => cases ec
  | digest d n => cases c' with
    | digest d' n' =>
      have h1 : blank d = blank d' := by injection ec
      have h2 : n = n' := by injection ec
      cases h2
      exact first_same (HashApie.same_digest L e (blank_length h1)) (g := fun r => [r])
    | _ => cases ec
  | digestC c n => cases c' with
    | digestC c' n' =>
      have h1 : container c = container c' := by injection ec
      have h2 : n = n' := by injection ec
      cases h2
      exact first_same (HashApie.same_digestC L e (container_same h1)) (g := fun r => [(r.1.data, r.2)])
    | _ => cases ec
theorem HashApie.same_run (u : Bool) (cs cs' : List Milo.HashApie.Call) (ec : cs.map Spec.Timed.hashApie = cs'.map Spec.Timed.hashApie) (a b)
    (ha : Milo.HashApie.run H u cs = some a) (hb : Milo.HashApie.run H u cs' = some b) : (HashApie.run t u cs).trace = (HashApie.run t u cs').trace := by
  letI := HashApie.shape L
  rw [← HashApie.val_run L] at ha hb
  exact same_runCalls' Spec.Timed.hashApie (HashApie.same_exec L) cs cs' _ _ ⟨L.init _ _ L.fresh, rfl⟩ ec a b ha hb
end

/-! ### Mac -/
section
variable {M : MacImpl} {t : MacT M} (L : t.Law)
include L

theorem Mac.val_exec (o : M.σ) (c : Milo.Mac.Call) : (Mac.exec t o c).val = Milo.Mac.exec M o c := by
  cases c <;> simp only [Mac.exec, Milo.Mac.exec, val_bind, val_pure, L.initVal, L.updateVal, L.finalizeVal, L.digestVal] <;> rfl
theorem Mac.val_run (cs : List Milo.Mac.Call) : (Mac.run t cs).val = Milo.Mac.run M cs := val_runCalls _ _ (Mac.val_exec L) _ _
theorem Mac.same_exec (o o' : M.σ) (c c' : Milo.Mac.Call) (e : L.shape.same o o') (ec : Spec.Timed.mac c = Spec.Timed.mac c') :
    ∀ a b, (Mac.exec t o c).val = some a → (Mac.exec t o' c').val = some b → (Mac.exec t o c).trace = (Mac.exec t o' c').trace ∧ L.shape.same a.1 b.1 := by
  letI := L.shape
  cases c with
  | init x => cases c' with
    | init y => exact only_same (L.init _ _ _ _ e (blank_length (by injection ec)))
    | _ => cases ec
  | update x => cases c' with
    | update y => exact only_same (L.update _ _ _ _ e (blank_length (by injection ec)))
    | _ => cases ec
  | finalize => cases c' with
    | finalize => exact only_same (L.finalize _ _ e)
    | _ => cases ec
  | digest d n => cases c' with
    | digest d' n' =>
      have h1 : blank d = blank d' := by injection ec
      have h2 : n = n' := by injection ec
      cases h2
      exact output_same e (L.digest _ _ _ _ _ e (blank_length h1))
    | _ => cases ec
theorem Mac.same_run (cs cs' : List Milo.Mac.Call) (ec : cs.map Spec.Timed.mac = cs'.map Spec.Timed.mac) (a b) (ha : Milo.Mac.run M cs = some a) (hb : Milo.Mac.run M cs' = some b) :
    (Mac.run t cs).trace = (Mac.run t cs').trace := by
  letI := L.shape
  rw [← Mac.val_run L] at ha hb
  exact same_runCalls' Spec.Timed.mac (Mac.same_exec L) cs cs' _ _ L.fresh ec a b ha hb

theorem MacApie.val_doFinalize (o : Milo.MacApie.Obj M) : (MacApie.doFinalize t o).val = Milo.MacApie.doFinalize M o := by
  unfold MacApie.doFinalize Milo.MacApie.doFinalize
  simp only [val_branch, val_bind, val_quiet, val_pure, L.finalizeVal]
  rcases o.finalized with _ | _ | _ <;> rfl
theorem MacApie.val_digest (o : Milo.MacApie.Obj M) (d : List Byte) (n : Nat) : (MacApie.digest t o d n).val = Milo.MacApie.digest M o d n := by
  unfold MacApie.digest Milo.MacApie.digest
  simp only [val_bind, val_pure, MacApie.val_doFinalize L, L.digestVal]
  rfl
theorem MacApie.val_exec (o : Milo.MacApie.Obj M) (c : Milo.MacApie.Call) : (MacApie.exec t o c).val = Milo.MacApie.exec M o c := by
  cases c <;> simp only [MacApie.exec, Milo.MacApie.exec, MacApie.initialise, Milo.MacApie.initialise, MacApie.update, Milo.MacApie.update, MacApie.digestC, Milo.MacApie.digestC,
    val_bind, val_pure, L.initVal, L.updateVal, MacApie.val_digest L, MacApie.val_doFinalize L] <;> rfl
theorem MacApie.val_run (cs : List Milo.MacApie.Call) : (MacApie.runDefault t cs).val = Milo.MacApie.runDefault M cs := val_runCalls _ _ (MacApie.val_exec L) _ _

omit L in
/-- The wrapper: the flag is public. -/
def MacApie.shape (L : t.Law) : Shape (Milo.MacApie.Obj M) := ⟨fun a b => L.shape.same a.impl b.impl ∧ a.finalized = b.finalized⟩

theorem MacApie.same_doFinalize {o o' : Milo.MacApie.Obj M} (e : (MacApie.shape L).same o o') : letI := MacApie.shape L; Same (MacApie.doFinalize t o) (MacApie.doFinalize t o') := by
  letI := MacApie.shape L
  letI := L.shape
  unfold MacApie.doFinalize
  rw [show o'.finalized = o.finalized from e.2.symm]
  exact Same.known fun f => Same.branch Iff.rfl (fun _ _ => Same.pure e) fun _ _ => Same.bind (L.finalize _ _ e.1) fun _ _ e1 => Same.pure ⟨e1, rfl⟩
theorem MacApie.same_digest {o o' : Milo.MacApie.Obj M} {d d' : List Byte} {n : Nat} (e : (MacApie.shape L).same o o') (ed : d.length = d'.length) :
    letI := MacApie.shape L; Same (MacApie.digest t o d n) (MacApie.digest t o' d' n) := by
  letI := MacApie.shape L
  letI := L.shape
  exact Same.bind (MacApie.same_doFinalize L e) fun _ _ e1 => Same.bind (L.digest _ _ _ _ _ e1.1 ed) fun _ _ e2 => Same.pure ⟨e1, e2⟩
theorem MacApie.same_digestC {o o' : Milo.MacApie.Obj M} {c c' : Container} {n : Nat} (e : (MacApie.shape L).same o o') (ec : Shape.same c c') :
    letI := MacApie.shape L; Same (MacApie.digestC t o c n) (MacApie.digestC t o' c' n) := by
  letI := MacApie.shape L
  unfold MacApie.digestC
  have er := resize_same (n := min n M.digestSize) ec
  refine Same.bind (MacApie.same_doFinalize L e) fun _ _ e1 => ?_
  dsimp only
  rw [er.2]
  refine Same.bind (MacApie.same_digest L e1 er.1.2) ?_
  rintro ⟨a, b, s⟩ ⟨a', b', s'⟩ ⟨e1, e2, e3⟩
  exact Same.pure ⟨e1, withData_same er.1 e2, e3⟩
theorem MacApie.same_exec (o o' : Milo.MacApie.Obj M) (c c' : Milo.MacApie.Call) (e : (MacApie.shape L).same o o') (ec : Spec.Timed.macApie c = Spec.Timed.macApie c') :
    ∀ a b, (MacApie.exec t o c).val = some a → (MacApie.exec t o' c').val = some b → (MacApie.exec t o c).trace = (MacApie.exec t o' c').trace ∧ (MacApie.shape L).same a.1 b.1 := by
  letI := L.shape
  letI := MacApie.shape L
  cases c with
  | init x => cases c' with
    | init y =>
      have h1 : blank x = blank y := by injection ec
      exact only_same (Same.bind (L.init _ _ _ _ e.1 (blank_length h1)) fun _ _ e1 => Same.pure ⟨e1, rfl⟩)
    | _ => cases ec
  | update x => cases c' with
    | update y =>
      have h1 : blank x = blank y := by injection ec
      exact only_same (Same.bind (L.update _ _ _ _ e.1 (blank_length h1)) fun _ _ e1 => Same.pure ⟨e1, e.2⟩)
    | _ => cases ec
  | digest d n => cases c' with
    | digest d' n' =>
      have h1 : blank d = blank d' := by injection ec
      have h2 : n = n' := by injection ec
      cases h2
      exact first_same (MacApie.same_digest L e (blank_length h1)) (g := fun r => [r])
    | _ => cases ec
  | digestC c n => cases c' with
    | digestC c' n' =>
      have h1 : container c = container c' := by injection ec
      have h2 : n = n' := by injection ec
      cases h2
      exact first_same (MacApie.same_digestC L e (container_same h1)) (g := fun r => [(r.1.data, r.2)])
    | _ => cases ec
theorem MacApie.same_run (cs cs' : List Milo.MacApie.Call) (ec : cs.map Spec.Timed.macApie = cs'.map Spec.Timed.macApie) (a b)
    (ha : Milo.MacApie.runDefault M cs = some a) (hb : Milo.MacApie.runDefault M cs' = some b) : (MacApie.runDefault t cs).trace = (MacApie.runDefault t cs').trace := by
  letI := MacApie.shape L
  rw [← MacApie.val_run L] at ha hb
  exact same_runCalls' Spec.Timed.macApie (MacApie.same_exec L) cs cs' _ _ ⟨L.fresh, rfl⟩ ec a b ha hb
end

/-! ### Kdf -/
section
variable {K : KdfImpl} {t : KdfT K} (L : t.Law)
include L

theorem Kdf.val_deriveReq (o : K.σ) (m : Mem) (r : DigestReq) : (Kdf.deriveReq t o m r).val = Milo.Kdf.deriveReq K o m r := by
  cases r <;> simp only [Kdf.deriveReq, Milo.Kdf.deriveReq, val_bind, val_pure, L.deriveVal] <;> rfl
theorem Kdf.val_exec (s : K.σ × Mem) (c : Milo.Kdf.Call K.Args) : (Kdf.exec t s c).val = Milo.Kdf.exec K s c := by
  cases c <;> simp only [Kdf.exec, Milo.Kdf.exec, val_bind, val_pure, L.initVal, Kdf.val_deriveReq L] <;> rfl
theorem Kdf.val_run (m : Mem) (cs : List (Milo.Kdf.Call K.Args)) : (Kdf.run t m cs).val = Milo.Kdf.run K m cs := val_runCalls _ _ (Kdf.val_exec L) _ _

omit L in
/-- Object and memory. -/
def Kdf.shape (L : t.Law) : Shape (K.σ × Mem) := ⟨fun a b => L.shape.same a.1 b.1 ∧ SameMem a.2 b.2⟩

theorem Kdf.same_deriveReq {o o' : K.σ} {m m' : Mem} {r r' : DigestReq} (e : L.shape.same o o') (em : SameMem m m') (er : Spec.Timed.request r = Spec.Timed.request r') :
    letI := L.shape; Same (Kdf.deriveReq t o m r) (Kdf.deriveReq t o' m' r') := by
  letI := L.shape
  cases r with
  | ptr d n => cases r' with
    | ptr d' n' =>
      have h1 : blank d = blank d' := by injection er
      have h2 : n = n' := by injection er
      cases h2
      refine Same.bind (L.derive _ _ _ _ _ _ _ e em (blank_length h1)) ?_
      rintro ⟨a, b⟩ ⟨a', b'⟩ e1
      exact Same.pure e1
    | _ => cases er
  | cont c n => cases r' with
    | cont c' n' =>
      have h1 : container c = container c' := by injection er
      have h2 : n = n' := by injection er
      cases h2
      have er := resize_same (n := n) (container_same h1)
      unfold Kdf.deriveReq
      dsimp only
      rw [er.2]
      refine Same.bind (L.derive _ _ _ _ _ _ _ e em er.1.2) ?_
      rintro ⟨a, b, s⟩ ⟨a', b', s'⟩ ⟨e1, e2, e3⟩
      exact Same.pure ⟨e1, e2, e3⟩
    | _ => cases er
theorem Kdf.same_exec (s s' : K.σ × Mem) (c c' : Milo.Kdf.Call K.Args) (e : (Kdf.shape L).same s s') (ec : Spec.Timed.kdf c = Spec.Timed.kdf c') :
    ∀ a b, (Kdf.exec t s c).val = some a → (Kdf.exec t s' c').val = some b → (Kdf.exec t s c).trace = (Kdf.exec t s' c').trace ∧ (Kdf.shape L).same a.1 b.1 := by
  letI := L.shape
  letI : Shape (K.σ × Mem) := Kdf.shape L
  cases c with
  | init x => cases c' with
    | init y =>
      have h1 : x = y := by injection ec
      cases h1
      intro a b ha hb
      simp only [Kdf.exec, val_bind, val_pure] at ha hb
      cases h1 : (t.init s.1 s.2 x).val with
      | none => rw [h1] at ha; cases ha
      | some p => cases h2 : (t.init s'.1 s'.2 x).val with
        | none => rw [h2] at hb; cases hb
        | some q =>
          rw [h1] at ha
          rw [h2] at hb
          cases ha
          cases hb
          obtain ⟨h3, h4⟩ := L.init _ _ _ _ x e.1 e.2 p q h1 h2
          refine ⟨?_, h4, e.2⟩
          simp only [Kdf.exec]
          rw [trace_bind' _ _ _ h1, trace_bind' _ _ _ h2, h3]
          rfl
    | _ => cases ec
  | poke i x => cases c' with
    | poke j y =>
      have h1 : i = j := by injection ec
      have h2 : blank x = blank y := by injection ec
      cases h1
      intro a b ha hb
      cases ha
      cases hb
      refine ⟨rfl, e.1, fun k => ?_⟩
      show (if k = i then x else s.2 k).length = (if k = i then y else s'.2 k).length
      split
      · exact blank_length h2
      · exact e.2 k
    | _ => cases ec
  | derive r => cases c' with
    | derive r' =>
      have h1 : Spec.Timed.request r = Spec.Timed.request r' := by injection ec
      intro a b ha hb
      simp only [Kdf.exec, val_bind, val_pure] at ha hb
      cases h2 : (Kdf.deriveReq t s.1 s.2 r).val with
      | none => rw [h2] at ha; cases ha
      | some p => cases h3 : (Kdf.deriveReq t s'.1 s'.2 r').val with
        | none => rw [h3] at hb; cases hb
        | some q =>
          rw [h2] at ha
          rw [h3] at hb
          cases ha
          cases hb
          obtain ⟨h4, h5⟩ := Kdf.same_deriveReq L e.1 e.2 h1 p q h2 h3
          refine ⟨?_, h5.1, e.2⟩
          simp only [Kdf.exec]
          rw [trace_bind' _ _ _ h2, trace_bind' _ _ _ h3, h4]
          rfl
    | _ => cases ec
theorem Kdf.same_run (m m' : Mem) (em : Spec.Timed.memory m = Spec.Timed.memory m') (cs cs' : List (Milo.Kdf.Call K.Args)) (ec : cs.map Spec.Timed.kdf = cs'.map Spec.Timed.kdf) (a b)
    (ha : Milo.Kdf.run K m cs = some a) (hb : Milo.Kdf.run K m' cs' = some b) : (Kdf.run t m cs).trace = (Kdf.run t m' cs').trace := by
  letI : Shape (K.σ × Mem) := Kdf.shape L
  rw [← Kdf.val_run L] at ha hb
  exact same_runCalls' Spec.Timed.kdf (Kdf.same_exec L) cs cs' (K.fresh, m) (K.fresh, m') ⟨L.fresh, fun b => blank_length (congrFun em b)⟩ ec a b ha hb
end

/-! ### Cipher -/
namespace Cipher
variable (h : Host) {t : ChaCha.Backend} {B : Milo.ChaCha.Backend} (L : ChaCha.Law t B)
include L

theorem val_exec (o : Milo.ChaCha.Obj) (c : Milo.Cipher.Call) : (exec h t o c).val = Milo.Cipher.exec h B o c := by
  cases c <;> simp only [exec, Milo.Cipher.exec, encryptC, Milo.Cipher.encryptC, decryptC, Milo.Cipher.decryptC, encryptSelf, Milo.Cipher.encryptSelf, decryptSelf, Milo.Cipher.decryptSelf,
    val_bind, val_pure, ChaCha.val_init, ChaCha.val_encrypt L, ChaCha.val_decrypt L] <;> rfl

theorem same_encryptC (o o' : Milo.ChaCha.Obj) (x x' : List Byte) (c c' : Container) (e : Shape.same o o') (ex : x.length = x'.length) (ec : Shape.same c c') :
    Same (encryptC h t o x c) (encryptC h t o' x' c') := by
  unfold encryptC
  rw [ex]
  have er := (resize_same (n := x'.length) ec).1
  refine Same.bind (ChaCha.same_encrypt L h _ _ _ _ _ _ _ e (by rw [List.length_append, List.length_append, ex, er.2])) ?_
  rintro ⟨a, b, s⟩ ⟨a', b', s'⟩ ⟨e1, e2, e3⟩
  cases e3
  exact Same.pure ⟨e1, (resize_same (withData_same er (by rw [List.length_drop, List.length_drop, show b.length = b'.length from e2]))).1, rfl⟩
theorem same_encryptSelf (o o' : Milo.ChaCha.Obj) (c c' : Container) (e : Shape.same o o') (ec : Shape.same c c') : Same (encryptSelf h t o c) (encryptSelf h t o' c') := by
  unfold encryptSelf
  rw [ec.2]
  have er := (resize_same (n := c'.data.length) ec).1
  dsimp only
  rw [er.2]
  refine Same.bind (ChaCha.same_encrypt L h _ _ _ _ _ _ _ e er.2) ?_
  rintro ⟨a, b, s⟩ ⟨a', b', s'⟩ ⟨e1, e2, e3⟩
  cases e3
  exact Same.pure ⟨e1, (resize_same (withData_same er e2)).1, rfl⟩
theorem same_decryptC (o o' : Milo.ChaCha.Obj) (x x' : List Byte) (c c' : Container) (e : Shape.same o o') (ex : x.length = x'.length) (ec : Shape.same c c') :
    Same (decryptC h t o x c) (decryptC h t o' x' c') := by
  unfold decryptC
  rw [ex]
  have er := (resize_same (n := x'.length) ec).1
  refine Same.bind (ChaCha.same_decrypt L h _ _ _ _ _ _ _ e (by rw [List.length_append, List.length_append, ex, er.2])) ?_
  rintro ⟨a, b, s⟩ ⟨a', b', s'⟩ ⟨e1, e2, e3⟩
  cases e3
  exact Same.pure ⟨e1, (resize_same (withData_same er (by rw [List.length_drop, List.length_drop, show b.length = b'.length from e2]))).1, rfl⟩
theorem same_decryptSelf (o o' : Milo.ChaCha.Obj) (c c' : Container) (e : Shape.same o o') (ec : Shape.same c c') : Same (decryptSelf h t o c) (decryptSelf h t o' c') := by
  unfold decryptSelf
  rw [ec.2]
  have er := (resize_same (n := c'.data.length) ec).1
  dsimp only
  rw [er.2]
  refine Same.bind (ChaCha.same_decrypt L h _ _ _ _ _ _ _ e er.2) ?_
  rintro ⟨a, b, s⟩ ⟨a', b', s'⟩ ⟨e1, e2, e3⟩
  cases e3
  exact Same.pure ⟨e1, (resize_same (withData_same er e2)).1, rfl⟩

theorem same_exec (o o' : Milo.ChaCha.Obj) (c c' : Milo.Cipher.Call) (e : Shape.same o o') (ec : Spec.Timed.cipher c = Spec.Timed.cipher c') :
    ∀ a b, (exec h t o c).val = some a → (exec h t o' c').val = some b → (exec h t o c).trace = (exec h t o' c').trace ∧ Shape.same a.1 b.1 := by
  cases c with
  | init k i => cases c' with
    | init k' i' =>
      have h1 : blank k = blank k' := by injection ec
      have h2 : blank i = blank i' := by injection ec
      exact only_same (ChaCha.same_init _ _ _ _ _ _ _ e (blank_length h1) (blank_length h2))
    | _ => cases ec
  | encrypt m s n d => cases c' with
    | encrypt m' s' n' d' =>
      injection ec with h1 h2 h3 h4
      cases h2; cases h3; cases h4
      exact first_same (ChaCha.same_encrypt L h _ _ _ _ _ _ _ e (blank_length h1)) (g := fun r => [(r.1, r.2)])
    | _ => cases ec
  | decrypt m s n d => cases c' with
    | decrypt m' s' n' d' =>
      injection ec with h1 h2 h3 h4
      cases h2; cases h3; cases h4
      exact first_same (ChaCha.same_decrypt L h _ _ _ _ _ _ _ e (blank_length h1)) (g := fun r => [(r.1, r.2)])
    | _ => cases ec
  | encryptC x c => cases c' with
    | encryptC x' c' =>
      injection ec with h1 h2
      exact first_same (same_encryptC h L _ _ _ _ _ _ e (blank_length h1) (container_same h2)) (g := fun r => [(r.1.data, r.2)])
    | _ => cases ec
  | decryptC x c => cases c' with
    | decryptC x' c' =>
      injection ec with h1 h2
      exact first_same (same_decryptC h L _ _ _ _ _ _ e (blank_length h1) (container_same h2)) (g := fun r => [(r.1.data, r.2)])
    | _ => cases ec
  | encryptSelf c => cases c' with
    | encryptSelf c' =>
      injection ec with h2
      exact first_same (same_encryptSelf h L _ _ _ _ e (container_same h2)) (g := fun r => [(r.1.data, r.2)])
    | _ => cases ec
  | decryptSelf c => cases c' with
    | decryptSelf c' =>
      injection ec with h2
      exact first_same (same_decryptSelf h L _ _ _ _ e (container_same h2)) (g := fun r => [(r.1.data, r.2)])
    | _ => cases ec
omit L

theorem val_run (b : CipherBackend) (cs : List Milo.Cipher.Call) : (run h b cs).val = Milo.Cipher.run h (b.impl h) cs := val_runCalls _ _ (val_exec h (ChaCha.backendLaw h b)) _ _
theorem same_run (b : CipherBackend) (cs cs' : List Milo.Cipher.Call) (ec : cs.map Spec.Timed.cipher = cs'.map Spec.Timed.cipher) (r r')
    (ha : Milo.Cipher.run h (b.impl h) cs = some r) (hb : Milo.Cipher.run h (b.impl h) cs' = some r') : (run h b cs).trace = (run h b cs').trace := by
  rw [← val_run h b] at ha hb
  exact same_runCalls' Spec.Timed.cipher (same_exec h (ChaCha.backendLaw h b)) cs cs' _ _ ⟨rfl, rfl, rfl⟩ ec r r' ha hb

end Cipher

/-! ### Aead -/
section
variable (h : Host) {t : ChaCha.Backend} {B : Milo.ChaCha.Backend} (LB : ChaCha.Law t B) {M : MacImpl} {u : MacT M} (L : u.Law)
include LB L

theorem Aead.val_exec (o : Milo.Aead.Obj M) (c : Milo.Aead.Call) : (Aead.exec h t u o c).val = Milo.Aead.exec h B o c := by
  cases c <;> simp only [Aead.exec, Milo.Aead.exec, Aead.digest, Milo.Aead.digest, val_bind, val_pure, Aead.val_init h LB L, Aead.val_aad L, Aead.val_aadover L, Aead.val_encrypt h LB L,
    Aead.val_decrypt h LB L, Aead.val_finalize h L, L.digestVal] <;> rfl

theorem Aead.same_exec (o o' : Milo.Aead.Obj M) (c c' : Milo.Aead.Call) (e : (Aead.shape L).same o o') (ec : Spec.Timed.aead c = Spec.Timed.aead c') :
    ∀ a b, (Aead.exec h t u o c).val = some a → (Aead.exec h t u o' c').val = some b →
      (Aead.exec h t u o c).trace = (Aead.exec h t u o' c').trace ∧ (Aead.shape L).same a.1 b.1 := by
  letI := L.shape
  letI := Aead.shape L
  cases c with
  | init k i => cases c' with
    | init k' i' =>
      injection ec with h1 h2
      exact only_same (Aead.same_init h LB L _ _ _ _ _ _ e (blank_length h1) (blank_length h2))
    | _ => cases ec
  | aad x => cases c' with
    | aad y =>
      injection ec with h1
      exact only_same (Aead.same_aad L _ _ _ _ e (blank_length h1))
    | _ => cases ec
  | aadover => cases c' with
    | aadover => exact only_same (Aead.same_aadover L _ _ e)
    | _ => cases ec
  | encrypt s => cases c' with
    | encrypt s' =>
      obtain ⟨m, i, n, d⟩ := s
      obtain ⟨m', i', n', d'⟩ := s'
      injection ec with h1
      injection h1 with h1 h2 h3 h4
      cases h2; cases h3; cases h4
      exact first_same (Aead.same_encrypt h LB L _ _ _ _ _ _ _ e (blank_length h1)) (g := fun r => [(r.1, r.2)])
    | _ => cases ec
  | decrypt s => cases c' with
    | decrypt s' =>
      obtain ⟨m, i, n, d⟩ := s
      obtain ⟨m', i', n', d'⟩ := s'
      injection ec with h1
      injection h1 with h1 h2 h3 h4
      cases h2; cases h3; cases h4
      exact first_same (Aead.same_decrypt h LB L _ _ _ _ _ _ _ e (blank_length h1)) (g := fun r => [(r.1, r.2)])
    | _ => cases ec
  | finalize => cases c' with
    | finalize => exact only_same (Aead.same_finalize h L _ _ e)
    | _ => cases ec
  | digest d n => cases c' with
    | digest d' n' =>
      injection ec with h1 h2
      cases h2
      exact output_same e (L.digest _ _ _ _ _ e.2.1 (blank_length h1))
    | _ => cases ec
end

theorem Aead.val_run (h : Host) (b : CipherBackend) (cs : List Milo.Aead.Call) : (Aead.run h b cs).val = Milo.Aead.run h b cs :=
  val_runCalls _ _ (Aead.val_exec h (ChaCha.backendLaw h b) (macLaw h 16 .poly_1305)) _ _
theorem Aead.same_run (h : Host) (b : CipherBackend) (cs cs' : List Milo.Aead.Call) (ec : cs.map Spec.Timed.aead = cs'.map Spec.Timed.aead) (r r')
    (ha : Milo.Aead.run h b cs = some r) (hb : Milo.Aead.run h b cs' = some r') : (Aead.run h b cs).trace = (Aead.run h b cs').trace := by
  letI : Shape (Milo.Aead.Obj (MacAlg.impl h 16 .poly_1305)) := Aead.shape (macLaw h 16 .poly_1305)
  rw [← Aead.val_run h b] at ha hb
  exact same_runCalls' Spec.Timed.aead (Aead.same_exec h (ChaCha.backendLaw h b) (macLaw h 16 .poly_1305)) cs cs' _ _ ⟨⟨rfl, rfl, rfl⟩, (macLaw h 16 .poly_1305).fresh, rfl, rfl⟩ ec r r' ha hb

section
variable (h : Host) {t : ChaCha.Backend} {B : Milo.ChaCha.Backend} (LB : ChaCha.Law t B) {M : MacImpl} {u : MacT M} (L : u.Law)
include LB L

theorem AeadApie.val_text (d : Bool) (o : Milo.AeadApie.Obj M) (q : TextReq) : (AeadApie.text h t u d o q).val = Milo.AeadApie.text h B d o q := by
  cases q <;> cases d <;> simp only [AeadApie.text, Milo.AeadApie.text, if_true, if_false, Bool.false_eq_true, val_bind, val_pure, AeadApie.val_encrypt h LB L, AeadApie.val_decrypt h LB L,
    AeadApie.val_encryptC h LB L, AeadApie.val_decryptC h LB L, AeadApie.val_encryptSelf h LB L, AeadApie.val_decryptSelf h LB L] <;> rfl
theorem AeadApie.val_exec (o : Milo.AeadApie.Obj M) (c : Milo.AeadApie.Call) : (AeadApie.exec h t u o c).val = Milo.AeadApie.exec h B o c := by
  cases c <;> simp only [AeadApie.exec, Milo.AeadApie.exec, val_bind, val_pure, AeadApie.val_initialise h LB L, AeadApie.val_aad L, AeadApie.val_text h LB L, AeadApie.val_digest h L,
    AeadApie.val_digestC h L, AeadApie.val_verify h L, AeadApie.val_verifyThrow h L] <;> rfl

theorem AeadApie.same_text (d : Bool) (o o' : Milo.AeadApie.Obj M) (q q' : TextReq) (e : (AeadApie.shape L).same o o') (eq : Spec.Timed.text q = Spec.Timed.text q') :
    letI := AeadApie.shape L; Same (AeadApie.text h t u d o q) (AeadApie.text h t u d o' q') := by
  letI := AeadApie.shape L
  cases q with
  | ptr s => cases q' with
    | ptr s' =>
      obtain ⟨m, i, n, e'⟩ := s
      obtain ⟨m', i', n', e''⟩ := s'
      injection eq with h1
      injection h1 with h1 h2 h3 h4
      cases h2; cases h3; cases h4
      cases d
      · exact AeadApie.same_encrypt h LB L _ _ _ _ _ _ _ e (blank_length h1)
      · exact AeadApie.same_decrypt h LB L _ _ _ _ _ _ _ e (blank_length h1)
    | _ => cases eq
  | cont x c => cases q' with
    | cont x' c' =>
      injection eq with h1 h2
      cases d
      · refine Same.bind (AeadApie.same_encryptC h LB L _ _ _ _ _ _ e (blank_length h1) (container_same h2)) ?_
        rintro ⟨a, b, s⟩ ⟨a', b', s'⟩ ⟨e1, e2, e3⟩
        exact Same.pure ⟨e1, e2.2, e3⟩
      · refine Same.bind (AeadApie.same_decryptC h LB L _ _ _ _ _ _ e (blank_length h1) (container_same h2)) ?_
        rintro ⟨a, b, s⟩ ⟨a', b', s'⟩ ⟨e1, e2, e3⟩
        exact Same.pure ⟨e1, e2.2, e3⟩
    | _ => cases eq
  | self c => cases q' with
    | self c' =>
      injection eq with h2
      cases d
      · refine Same.bind (AeadApie.same_encryptSelf h LB L _ _ _ _ e (container_same h2)) ?_
        rintro ⟨a, b, s⟩ ⟨a', b', s'⟩ ⟨e1, e2, e3⟩
        exact Same.pure ⟨e1, e2.2, e3⟩
      · refine Same.bind (AeadApie.same_decryptSelf h LB L _ _ _ _ e (container_same h2)) ?_
        rintro ⟨a, b, s⟩ ⟨a', b', s'⟩ ⟨e1, e2, e3⟩
        exact Same.pure ⟨e1, e2.2, e3⟩
    | _ => cases eq

omit LB L in
/-- What `verdicts` keeps. -/
def AeadApie.seen : Milo.AeadApie.Out → Bool
  | .bytes _ _ => false
  | _ => true

omit LB L in
/-- A call without a verdict. -/
theorem AeadApie.unseen {X Y : T (Milo.AeadApie.Obj M × List Milo.AeadApie.Out)} {S : Milo.AeadApie.Obj M → Milo.AeadApie.Obj M → Prop}
    (hx : ∀ a, X.val = some a → a.2.filter AeadApie.seen = []) (hy : ∀ a, Y.val = some a → a.2.filter AeadApie.seen = [])
    (e : ∀ a b, X.val = some a → Y.val = some b → X.trace = Y.trace ∧ S a.1 b.1) :
    ∀ a b, X.val = some a → Y.val = some b → ((a.2.filter AeadApie.seen).map id).length = ((b.2.filter AeadApie.seen).map id).length ∧
      ((a.2.filter AeadApie.seen).map id = (b.2.filter AeadApie.seen).map id → X.trace = Y.trace ∧ S a.1 b.1) := by
  intro a b ha hb
  rw [hx a ha, hy b hb]
  exact ⟨rfl, fun _ => e a b ha hb⟩

omit LB L in
theorem AeadApie.unseenBytes {α : Type} {X : T α} {f : α → Milo.AeadApie.Obj M} {g : α → List Byte} {n : α → Nat} :
    ∀ a, (X >>= fun r => (pure (f r, [Milo.AeadApie.Out.bytes (g r) (n r)]) : T (Milo.AeadApie.Obj M × List Milo.AeadApie.Out))).val = some a → a.2.filter AeadApie.seen = [] := by
  intro a ha
  rw [val_bind] at ha
  cases h1 : X.val with
  | none => rw [h1] at ha; cases ha
  | some p => rw [h1] at ha; cases ha; rfl
omit LB L in
theorem AeadApie.unseenNone {α : Type} {X : T α} {f : α → Milo.AeadApie.Obj M} :
    ∀ a, (X >>= fun r => (pure (f r, []) : T (Milo.AeadApie.Obj M × List Milo.AeadApie.Out))).val = some a → a.2.filter AeadApie.seen = [] := by
  intro a ha
  rw [val_bind] at ha
  cases h1 : X.val with
  | none => rw [h1] at ha; cases ha
  | some p => rw [h1] at ha; cases ha; rfl

omit LB L in
/-- A call with one verdict. -/
theorem AeadApie.seenOne {β : Type} {X Y : T (Milo.AeadApie.Obj M × β)} {g : β → Milo.AeadApie.Out} {S : Milo.AeadApie.Obj M → Milo.AeadApie.Obj M → Prop} (hg : ∀ r, AeadApie.seen (g r) = true)
    (inj : ∀ r s, g r = g s → r = s) (e : ∀ a b, X.val = some a → Y.val = some b → a.2 = b.2 → X.trace = Y.trace ∧ S a.1 b.1) :
    ∀ a b, (X >>= fun r => (pure (r.1, [g r.2]) : T (Milo.AeadApie.Obj M × List Milo.AeadApie.Out))).val = some a →
      (Y >>= fun r => (pure (r.1, [g r.2]) : T (Milo.AeadApie.Obj M × List Milo.AeadApie.Out))).val = some b →
      ((a.2.filter AeadApie.seen).map id).length = ((b.2.filter AeadApie.seen).map id).length ∧
      ((a.2.filter AeadApie.seen).map id = (b.2.filter AeadApie.seen).map id →
        (X >>= fun r => (pure (r.1, [g r.2]) : T (Milo.AeadApie.Obj M × List Milo.AeadApie.Out))).trace = (Y >>= fun r => (pure (r.1, [g r.2]) : T (Milo.AeadApie.Obj M × List Milo.AeadApie.Out))).trace ∧
        S a.1 b.1) := by
  intro a b ha hb
  rw [val_bind] at ha hb
  cases h1 : X.val with
  | none => rw [h1] at ha; cases ha
  | some p =>
    cases h2 : Y.val with
    | none => rw [h2] at hb; cases hb
    | some q =>
      rw [h1] at ha
      rw [h2] at hb
      cases ha
      cases hb
      have k : ∀ r, [g r].filter AeadApie.seen = [g r] := fun r => by rw [List.filter_cons_of_pos (hg r), List.filter_nil]
      simp only [k, List.map_cons, List.map_nil, id, List.length_cons, List.length_nil, true_and]
      intro hv
      have hv : g p.2 = g q.2 := by injection hv
      obtain ⟨h3, h4⟩ := e p q h1 h2 (inj _ _ hv)
      rw [trace_bind' _ _ _ h1, trace_bind' _ _ _ h2, h3]
      exact ⟨rfl, h4⟩

theorem AeadApie.same_exec (o o' : Milo.AeadApie.Obj M) (c c' : Milo.AeadApie.Call) (e : (AeadApie.shape L).same o o') (ec : Spec.Timed.aeadApie c = Spec.Timed.aeadApie c') :
    ∀ a b, (AeadApie.exec h t u o c).val = some a → (AeadApie.exec h t u o' c').val = some b →
      ((a.2.filter AeadApie.seen).map id).length = ((b.2.filter AeadApie.seen).map id).length ∧
      ((a.2.filter AeadApie.seen).map id = (b.2.filter AeadApie.seen).map id →
        (AeadApie.exec h t u o c).trace = (AeadApie.exec h t u o' c').trace ∧ (AeadApie.shape L).same a.1 b.1) := by
  letI := L.shape
  letI := AeadApie.shape L
  cases c with
  | init k i => cases c' with
    | init k' i' =>
      injection ec with h1 h2
      exact AeadApie.unseen AeadApie.unseenNone AeadApie.unseenNone (only_same (AeadApie.same_initialise h LB L _ _ _ _ _ _ e (blank_length h1) (blank_length h2)))
    | _ => cases ec
  | aad x => cases c' with
    | aad y =>
      injection ec with h1
      exact AeadApie.unseen AeadApie.unseenNone AeadApie.unseenNone (only_same (AeadApie.same_aad L _ _ _ _ e (blank_length h1)))
    | _ => cases ec
  | text d q => cases c' with
    | text d' q' =>
      injection ec with h1 h2
      cases h1
      have k := first_same (AeadApie.same_text h LB L d _ _ _ _ e h2) (g := fun r : List Byte × Nat => [Milo.AeadApie.Out.bytes r.1 r.2])
      exact AeadApie.unseen AeadApie.unseenBytes AeadApie.unseenBytes k
    | _ => cases ec
  | digest d n => cases c' with
    | digest d' n' =>
      injection ec with h1 h2
      cases h2
      have k := first_same (AeadApie.same_digest h L _ _ _ _ n e (blank_length h1)) (g := fun r : List Byte × Nat => [Milo.AeadApie.Out.bytes r.1 r.2])
      exact AeadApie.unseen AeadApie.unseenBytes AeadApie.unseenBytes k
    | _ => cases ec
  | digestC c n => cases c' with
    | digestC c' n' =>
      injection ec with h1 h2
      cases h2
      have k := first_same (AeadApie.same_digestC h L _ _ _ _ n e (container_same h1)) (g := fun r : Container × Nat => [Milo.AeadApie.Out.bytes r.1.data r.2])
      exact AeadApie.unseen AeadApie.unseenBytes AeadApie.unseenBytes k
    | _ => cases ec
  | verify g => cases c' with
    | verify g' =>
      injection ec with h1
      exact AeadApie.seenOne (fun _ => rfl) (fun _ _ hh => by injection hh) (AeadApie.same_verify h L _ _ _ _ e (blank_length h1))
    | _ => cases ec
  | verifyThrow g => cases c' with
    | verifyThrow g' =>
      injection ec with h1
      exact AeadApie.seenOne (fun _ => rfl) (fun _ _ hh => by injection hh) (AeadApie.same_verifyThrow h L _ _ _ _ e (blank_length h1))
    | _ => cases ec
end

theorem AeadApie.val_run (h : Host) (b : CipherBackend) (cs : List Milo.AeadApie.Call) : (AeadApie.run h b cs).val = Milo.AeadApie.run h b cs :=
  val_runCalls _ _ (AeadApie.val_exec h (ChaCha.backendLaw h b) (macLaw h 16 .poly_1305)) _ _
theorem AeadApie.same_run (h : Host) (b : CipherBackend) (cs cs' : List Milo.AeadApie.Call) (ec : cs.map Spec.Timed.aeadApie = cs'.map Spec.Timed.aeadApie) (r r')
    (ha : Milo.AeadApie.run h b cs = some r) (hb : Milo.AeadApie.run h b cs' = some r') (hv : Spec.Timed.verdicts r.2 = Spec.Timed.verdicts r'.2) :
    (AeadApie.run h b cs).trace = (AeadApie.run h b cs').trace := by
  letI : Shape (Milo.AeadApie.Obj (MacAlg.impl h 16 .poly_1305)) := AeadApie.shape (macLaw h 16 .poly_1305)
  rw [← AeadApie.val_run h b] at ha hb
  refine same_runCalls Spec.Timed.aeadApie AeadApie.seen id (AeadApie.same_exec h (ChaCha.backendLaw h b) (macLaw h 16 .poly_1305)) cs cs' _ _
    ⟨⟨⟨rfl, rfl, rfl⟩, (macLaw h 16 .poly_1305).fresh, rfl, rfl⟩, rfl, rfl⟩ ec r r' ha hb ?_
  have k : ∀ l : List Milo.AeadApie.Out, l.filter AeadApie.seen = Spec.Timed.verdicts l := fun l => by
    unfold Spec.Timed.verdicts
    rfl
  rw [List.map_id, List.map_id, k, k]
  exact hv

end Milo.Timed
