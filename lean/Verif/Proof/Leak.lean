import Verif.Spec.Leak
import Verif.Proof.X64Run
/- Information flow in the assembly functions: a static check, and what it gives. -/
namespace Milo.X64
open Memory X86 Spec.Leak

/-- Two states with the same public registers, and zero flag if `z`. -/
def Low (P : List Reg) (z : Bool) (s t : State) : Prop := (∀ r ∈ P, s.g r = t.g r) ∧ (z = true → s.zf = t.zf)

def addrOk (P : List Reg) : Addr → Bool
  | .reg r _ => P.contains r
  | .rel _ => true

def opndOk (P : List Reg) : Opnd → Bool
  | .x _ => true
  | .m a => addrOk P a

/-- The register `d` becomes public if `b`, otherwise secret. -/
def mark (P : List Reg) (d : Reg) (b : Bool) : List Reg := if b then d :: P else P.filter (· ≠ d)

def keep (ok : Bool) (P : List Reg) (z : Bool) : Option (List Reg × Bool) := if ok then some (P, z) else none

/-- Public registers and flag after an instruction; `none` if it uses a secret as an address. What is read from memory is secret. -/
def flow (P : List Reg) (z : Bool) : Ins → Option (List Reg × Bool)
  | .push _ => keep (P.contains .rsp) P z
  | .pop r => keep (P.contains .rsp && r != .rsp) (mark P r false) z
  | .mov d s => some (mark P d (P.contains s), z)
  | .load d a => keep (addrOk P a) (mark P d false) z
  | .store32 a _ => keep (addrOk P a) P z
  | .add d _ => some (P, P.contains d)
  | .sub d _ => some (P, P.contains d)
  | .and d _ => some (P, P.contains d)
  | .shl d _ => some (P, P.contains d)
  | .test a b => some (P, P.contains a && P.contains b)
  | .xchg _ _ => none
  | .cpuid => none
  | .vzeroupper => some (P, z)
  | .vload _ _ _ a => keep (addrOk P a) P z
  | .vstore _ _ a _ => keep (addrOk P a) P z
  | .vmov _ _ _ => some (P, z)
  | .movdLoad _ a => keep (addrOk P a) P z
  | .movdStore a _ => keep (addrOk P a) P z
  | .vbroadcasti128 _ a => keep (addrOk P a) P z
  | .bin _ _ _ _ b => keep (opndOk P b) P z
  | .unImm _ _ _ _ _ => some (P, z)
  | .binImm _ _ _ _ _ _ => some (P, z)
  | .rnds2 _ _ => some (P, z)
  | .ud2 => some (P, z)

variable {M : Machine} {P : List Reg} {z : Bool} {s t : State}

theorem keep_some {ok : Bool} {P' Q : List Reg} {z' y : Bool} (h : keep ok Q y = some (P', z')) : ok = true ∧ Q = P' ∧ y = z' := by
  unfold keep at h
  split at h
  · cases h; exact ⟨by assumption, rfl, rfl⟩
  · exact nomatch h

theorem Low.reg (h : Low P z s t) {r : Reg} (hr : P.contains r = true) : s.g r = t.g r := h.1 r (by simpa using hr)

theorem Low.addr (h : Low P z s t) {a : Addr} (ha : addrOk P a = true) : addr M s a = addr M t a := by
  cases a with
  | reg r d => simp only [X64.addr, h.reg ha]
  | rel off => rfl

/-- Both faulted, or both are in similar states. -/
def Both (P : List Reg) (z : Bool) (a b : Option State) : Prop := (a = none ∧ b = none) ∨ ∃ s t, a = some s ∧ b = some t ∧ Low P z s t

theorem read_both (a : W64) (n : Nat) : (M.read s a n = none ∧ M.read t a n = none) ∨ ∃ x y, M.read s a n = some x ∧ M.read t a n = some y := by
  unfold Machine.read
  split
  · exact .inr ⟨_, _, rfl, rfl⟩
  · exact .inl ⟨rfl, rfl⟩

theorem write_both (a : W64) {x y : List Byte} (h : x.length = y.length) :
    (M.write s a x = none ∧ M.write t a y = none) ∨ ∃ u v, M.write s a x = some u ∧ M.write t a y = some v ∧ u.g = s.g ∧ v.g = t.g ∧ u.zf = s.zf ∧ v.zf = t.zf := by
  unfold Machine.write
  rw [h]
  split
  · exact .inr ⟨_, _, rfl, rfl, rfl, rfl, rfl, rfl⟩
  · exact .inl ⟨rfl, rfl⟩

theorem readVec_both (l : Nat) (al : Bool) (a : W64) : (readVec M s l al a = none ∧ readVec M t l al a = none) ∨ ∃ x y, readVec M s l al a = some x ∧ readVec M t l al a = some y := by
  unfold readVec
  split
  · exact .inl ⟨rfl, rfl⟩
  · rcases read_both (M := M) (s := s) (t := t) a (4 * l) with ⟨h1, h2⟩ | ⟨x, y, h1, h2⟩
    · rw [h1, h2]; exact .inl ⟨rfl, rfl⟩
    · rw [h1, h2]; exact .inr ⟨_, _, rfl, rfl⟩

theorem Low.setV (h : Low P z s t) (i j : Nat) (v w : Vec) : Low P z (setV s i v) (setV t j w) := h

theorem Low.setG (h : Low P z s t) (d : Reg) (b : Bool) (v w : W64) (hb : b = true → v = w) : Low (mark P d b) z (setG s d v) (setG t d w) := by
  refine ⟨fun r hr => ?_, h.2⟩
  show (if r = d then v else s.g r) = if r = d then w else t.g r
  by_cases c : r = d
  · rw [if_pos c, if_pos c]
    cases b with
    | true => exact hb rfl
    | false =>
      unfold mark at hr
      simp [c] at hr
  · rw [if_neg c, if_neg c]
    apply h.1
    unfold mark at hr
    cases b with
    | true => simpa [c] using hr
    | false => exact (List.mem_filter.mp hr).1

theorem Low.same (h : Low P z s t) (r : Reg) (v w : W64) (hr : P.contains r = true → v = w) : Low P z (X64.setG s r v) (X64.setG t r w) := by
  refine ⟨fun q hq => ?_, h.2⟩
  show (if q = r then v else s.g q) = if q = r then w else t.g q
  by_cases c : q = r
  · rw [if_pos c, if_pos c]; exact hr (by subst c; simpa using hq)
  · rw [if_neg c, if_neg c]; exact h.1 q hq

theorem Low.alu (h : Low P z s t) (d : Reg) (f : W64 → W64) : Low P (P.contains d) (alu s d (f (s.g d))) (alu t d (f (t.g d))) := by
  refine ⟨(h.same d _ _ fun hd => by rw [h.reg hd]).1, fun hd => ?_⟩
  show (f (s.g d) == 0) = (f (t.g d) == 0)
  rw [h.reg hd]

theorem vecBytes_len (l : Nat) (v w : Vec) : (vecBytes l v).length = (vecBytes l w).length := by
  simp [vecBytes]

/-- The check is right for one instruction. -/
theorem flow_sound {P' : List Reg} {z' : Bool} (i : Ins) (hf : flow P z i = some (P', z')) (h : Low P z s t) :
    accesses M s i = accesses M t i ∧ Both P' z' (ins M s i) (ins M t i) := by
  cases i with
  | push r =>
    obtain ⟨h1, rfl, rfl⟩ := keep_some hf
    refine ⟨by simp only [accesses, h.reg h1], ?_⟩
    simp only [ins]
    rw [h.reg h1]
    rcases write_both (M := M) (s := s) (t := t) (t.g .rsp - 8) (x := toLE 8 (s.g r).toNat) (y := toLE 8 (t.g r).toNat) (by rw [toLE_length, toLE_length])
      with ⟨e1, e2⟩ | ⟨u, v, e1, e2, g1, g2, z1, z2⟩
    · rw [e1, e2]; exact .inl ⟨rfl, rfl⟩
    · rw [e1, e2]
      refine .inr ⟨_, _, rfl, rfl, Low.same ⟨fun q hq => ?_, fun hz => ?_⟩ _ _ _ fun _ => rfl⟩
      · rw [g1, g2]; exact h.1 q hq
      · rw [z1, z2]; exact h.2 hz
  | pop r =>
    obtain ⟨h1, rfl, rfl⟩ := keep_some hf
    rw [Bool.and_eq_true] at h1
    refine ⟨by simp only [accesses, h.reg h1.1], ?_⟩
    simp only [ins]
    rw [h.reg h1.1]
    rcases read_both (M := M) (s := s) (t := t) (t.g .rsp) 8 with ⟨e1, e2⟩ | ⟨x, y, e1, e2⟩
    · rw [e1, e2]; exact .inl ⟨rfl, rfl⟩
    · rw [e1, e2]
      exact .inr ⟨_, _, rfl, rfl, Low.setG (h.same _ _ _ fun _ => rfl) r false _ _ fun hc => nomatch hc⟩
  | mov d r =>
    cases hf
    exact ⟨rfl, .inr ⟨_, _, rfl, rfl, h.setG d _ _ _ fun hb => h.reg hb⟩⟩
  | load d a =>
    obtain ⟨h1, rfl, rfl⟩ := keep_some hf
    refine ⟨by simp only [accesses, h.addr (M := M) h1], ?_⟩
    simp only [ins]
    rw [h.addr h1]
    rcases read_both (M := M) (s := s) (t := t) (addr M t a) 8 with ⟨e1, e2⟩ | ⟨x, y, e1, e2⟩
    · rw [e1, e2]; exact .inl ⟨rfl, rfl⟩
    · rw [e1, e2]
      exact .inr ⟨_, _, rfl, rfl, h.setG d false _ _ fun hc => nomatch hc⟩
  | store32 a r =>
    obtain ⟨h1, rfl, rfl⟩ := keep_some hf
    refine ⟨by simp only [accesses, h.addr (M := M) h1], ?_⟩
    simp only [ins]
    rw [h.addr h1]
    rcases write_both (M := M) (s := s) (t := t) (addr M t a) (x := toLE 4 ((s.g r).toNat % 2 ^ 32)) (y := toLE 4 ((t.g r).toNat % 2 ^ 32)) (by rw [toLE_length, toLE_length])
      with ⟨e1, e2⟩ | ⟨u, v, e1, e2, g1, g2, z1, z2⟩
    · exact .inl ⟨e1, e2⟩
    · refine .inr ⟨_, _, e1, e2, fun q hq => ?_, fun hz => ?_⟩
      · rw [g1, g2]; exact h.1 q hq
      · rw [z1, z2]; exact h.2 hz
  | add d w => cases hf; exact ⟨rfl, .inr ⟨_, _, rfl, rfl, h.alu d (· + w)⟩⟩
  | sub d w => cases hf; exact ⟨rfl, .inr ⟨_, _, rfl, rfl, h.alu d (· - w)⟩⟩
  | and d w => cases hf; exact ⟨rfl, .inr ⟨_, _, rfl, rfl, h.alu d (· &&& w)⟩⟩
  | shl d n => cases hf; exact ⟨rfl, .inr ⟨_, _, rfl, rfl, h.alu d (· <<< n)⟩⟩
  | test a b =>
    cases hf
    refine ⟨rfl, .inr ⟨_, _, rfl, rfl, h.1, fun hz => ?_⟩⟩
    rw [Bool.and_eq_true] at hz
    show ((s.g a &&& s.g b) == 0) = ((t.g a &&& t.g b) == 0)
    rw [h.reg hz.1, h.reg hz.2]
  | xchg a b => exact nomatch hf
  | cpuid => exact nomatch hf
  | vzeroupper => cases hf; exact ⟨rfl, .inr ⟨_, _, rfl, rfl, h⟩⟩
  | vload k al d a =>
    obtain ⟨h1, rfl, rfl⟩ := keep_some hf
    refine ⟨by simp only [accesses, h.addr (M := M) h1], ?_⟩
    simp only [ins]
    rw [h.addr h1]
    rcases readVec_both (M := M) (s := s) (t := t) k.lanes al (addr M t a) with ⟨e1, e2⟩ | ⟨x, y, e1, e2⟩
    · rw [e1, e2]; exact .inl ⟨rfl, rfl⟩
    · rw [e1, e2]; exact .inr ⟨_, _, rfl, rfl, h⟩
  | vstore k al a r =>
    obtain ⟨h1, rfl, rfl⟩ := keep_some hf
    refine ⟨by simp only [accesses, h.addr (M := M) h1], ?_⟩
    simp only [ins]
    rw [h.addr h1]
    split
    · exact .inl ⟨rfl, rfl⟩
    · rcases write_both (M := M) (s := s) (t := t) (addr M t a) (vecBytes_len k.lanes (s.v r) (t.v r)) with ⟨e1, e2⟩ | ⟨u, v, e1, e2, g1, g2, z1, z2⟩
      · exact .inl ⟨e1, e2⟩
      · refine .inr ⟨_, _, e1, e2, fun q hq => ?_, fun hz => ?_⟩
        · rw [g1, g2]; exact h.1 q hq
        · rw [z1, z2]; exact h.2 hz
  | vmov k d r => cases hf; exact ⟨rfl, .inr ⟨_, _, rfl, rfl, h⟩⟩
  | movdLoad d a =>
    obtain ⟨h1, rfl, rfl⟩ := keep_some hf
    refine ⟨by simp only [accesses, h.addr (M := M) h1], ?_⟩
    simp only [ins]
    rw [h.addr h1]
    rcases read_both (M := M) (s := s) (t := t) (addr M t a) 4 with ⟨e1, e2⟩ | ⟨x, y, e1, e2⟩
    · rw [e1, e2]; exact .inl ⟨rfl, rfl⟩
    · rw [e1, e2]; exact .inr ⟨_, _, rfl, rfl, h⟩
  | movdStore a r =>
    obtain ⟨h1, rfl, rfl⟩ := keep_some hf
    refine ⟨by simp only [accesses, h.addr (M := M) h1], ?_⟩
    simp only [ins]
    rw [h.addr h1]
    rcases write_both (M := M) (s := s) (t := t) (addr M t a) (x := toLE 4 (s.v r 0).toNat) (y := toLE 4 (t.v r 0).toNat) (by rw [toLE_length, toLE_length])
      with ⟨e1, e2⟩ | ⟨u, v, e1, e2, g1, g2, z1, z2⟩
    · exact .inl ⟨e1, e2⟩
    · refine .inr ⟨_, _, e1, e2, fun q hq => ?_, fun hz => ?_⟩
      · rw [g1, g2]; exact h.1 q hq
      · rw [z1, z2]; exact h.2 hz
  | vbroadcasti128 d a =>
    obtain ⟨h1, rfl, rfl⟩ := keep_some hf
    refine ⟨by simp only [accesses, h.addr (M := M) h1], ?_⟩
    simp only [ins]
    rw [h.addr h1]
    rcases readVec_both (M := M) (s := s) (t := t) 4 false (addr M t a) with ⟨e1, e2⟩ | ⟨x, y, e1, e2⟩
    · rw [e1, e2]; exact .inl ⟨rfl, rfl⟩
    · rw [e1, e2]; exact .inr ⟨_, _, rfl, rfl, h⟩
  | bin k o d a b =>
    obtain ⟨h1, rfl, rfl⟩ := keep_some hf
    cases b with
    | x i => exact ⟨rfl, .inr ⟨_, _, rfl, rfl, h⟩⟩
    | m b =>
      refine ⟨by simp only [accesses, operand, h.addr (M := M) h1], ?_⟩
      simp only [ins, opndVal]
      rw [h.addr h1]
      rcases readVec_both (M := M) (s := s) (t := t) k.lanes (decide (k = .sse)) (addr M t b) with ⟨e1, e2⟩ | ⟨x, y, e1, e2⟩
      · rw [e1, e2]; exact .inl ⟨rfl, rfl⟩
      · rw [e1, e2]; exact .inr ⟨_, _, rfl, rfl, h⟩
  | unImm k o d a n => cases hf; exact ⟨rfl, .inr ⟨_, _, rfl, rfl, h⟩⟩
  | binImm k o d a b n => cases hf; exact ⟨rfl, .inr ⟨_, _, rfl, rfl, h⟩⟩
  | rnds2 d b => cases hf; exact ⟨rfl, .inr ⟨_, _, rfl, rfl, h⟩⟩
  | ud2 => cases hf; exact ⟨rfl, .inl ⟨rfl, rfl⟩⟩

/-- What is public at a label. -/
abbrev Labels := Label → List Reg × Bool

def sub (p q : List Reg × Bool) : Bool := p.1.all q.1.contains && (!p.2 || q.2)

theorem Low.mono {p q : List Reg × Bool} (hs : sub p q = true) (h : Low q.1 q.2 s t) : Low p.1 p.2 s t := by
  unfold sub at hs
  rw [Bool.and_eq_true, List.all_eq_true] at hs
  refine ⟨fun r hr => h.1 r (by simpa using hs.1 r hr), fun hz => h.2 ?_⟩
  have := hs.2
  rw [hz] at this
  simpa using this

/-- The static check: at each jump what the label demands is public, and so is the zero flag if it is read. -/
def check (L : Labels) : List Reg × Bool → List Line → Bool
  | _, [] => true
  | p, .label l :: r => sub (L l) p && check L (L l) r
  | p, .ins i :: r =>
    match flow p.1 p.2 i with
    | none => false
    | some p => check L p r
  | p, .jz l :: r => p.2 && sub (L l) p && check L p r
  | p, .jnz l :: r => p.2 && sub (L l) p && check L p r
  | p, .jmp l :: r => sub (L l) p && check L p r
  | p, .ret :: r => p.1.contains .rsp && check L p r

theorem check_target {L : Labels} {p : List Reg × Bool} {l : Label} {code r : List Line} (h : check L p code = true) (ht : target l code = some r) : check L (L l) r = true := by
  induction code generalizing p with
  | nil => exact nomatch ht
  | cons x code ih =>
    cases x with
    | label m =>
      rw [check, Bool.and_eq_true] at h
      rw [target] at ht
      split at ht
      · cases ht; subst_vars; exact h.2
      · exact ih h.2 ht
    | ins i =>
      rw [check] at h
      split at h
      · exact nomatch h
      · exact ih h ht
    | jz m => rw [check, Bool.and_eq_true] at h; exact ih h.2 ht
    | jnz m => rw [check, Bool.and_eq_true] at h; exact ih h.2 ht
    | jmp m => rw [check, Bool.and_eq_true] at h; exact ih h.2 ht
    | ret => rw [check, Bool.and_eq_true] at h; exact ih h.2 ht

/-- Similar configurations. -/
def Alike (L : Labels) : Config → Config → Prop
  | .at r s, .at r' t => r = r' ∧ ∃ p, check L p r = true ∧ Low p.1 p.2 s t
  | .returned _ _, .returned _ _ => True
  | _, _ => False

theorem step_alike {L : Labels} {code : List Line} (hc : ∀ l r, target l code = some r → check L (L l) r = true) {c d : Config} (h : Alike L c d) :
    observed M c = observed M d ∧ ((next M code c = none ∧ next M code d = none) ∨ ∃ c' d', next M code c = some c' ∧ next M code d = some d' ∧ Alike L c' d') := by
  cases c with
  | returned ra s =>
    cases d with
    | «at» r t => exact nomatch h
    | returned rb t => exact ⟨rfl, .inr ⟨_, _, rfl, rfl, trivial⟩⟩
  | «at» r s =>
    cases d with
    | returned rb t => exact nomatch h
    | «at» r' t =>
      obtain ⟨rfl, p, hp, hl⟩ := h
      have hj : ∀ l, sub (L l) p = true → (jump code l s = none ∧ jump code l t = none) ∨ ∃ c' d', jump code l s = some c' ∧ jump code l t = some d' ∧ Alike L c' d' := fun l hs => by
        unfold jump
        cases ht : target l code with
        | none => exact .inl ⟨rfl, rfl⟩
        | some r => exact .inr ⟨_, _, rfl, rfl, rfl, L l, hc l r ht, hl.mono hs⟩
      cases r with
      | nil => exact ⟨rfl, .inl ⟨rfl, rfl⟩⟩
      | cons x r =>
        cases x with
        | label m =>
          rw [check, Bool.and_eq_true] at hp
          exact ⟨rfl, .inr ⟨_, _, rfl, rfl, rfl, L m, hp.2, hl.mono hp.1⟩⟩
        | ins i =>
          rw [check] at hp
          split at hp
          · exact nomatch hp
          · rename_i p' hf
            obtain ⟨h1, h2⟩ := flow_sound (M := M) i hf hl
            refine ⟨by simp only [observed, h1], ?_⟩
            simp only [next]
            rcases h2 with ⟨e1, e2⟩ | ⟨s', t', e1, e2, hl'⟩
            · rw [e1, e2]; exact .inl ⟨rfl, rfl⟩
            · rw [e1, e2]; exact .inr ⟨_, _, rfl, rfl, rfl, p', hp, hl'⟩
        | jz m =>
          rw [check, Bool.and_eq_true, Bool.and_eq_true] at hp
          refine ⟨rfl, ?_⟩
          simp only [next]
          rw [hl.2 hp.1.1]
          split
          · exact hj m hp.1.2
          · exact .inr ⟨_, _, rfl, rfl, rfl, p, hp.2, hl⟩
        | jnz m =>
          rw [check, Bool.and_eq_true, Bool.and_eq_true] at hp
          refine ⟨rfl, ?_⟩
          simp only [next]
          rw [hl.2 hp.1.1]
          split
          · exact .inr ⟨_, _, rfl, rfl, rfl, p, hp.2, hl⟩
          · exact hj m hp.1.2
        | jmp m =>
          rw [check, Bool.and_eq_true] at hp
          exact ⟨rfl, hj m hp.1⟩
        | ret =>
          rw [check, Bool.and_eq_true] at hp
          refine ⟨by simp only [observed, hl.reg hp.1], ?_⟩
          simp only [next]
          rw [hl.reg hp.1]
          rcases read_both (M := M) (s := s) (t := t) (t.g .rsp) 8 with ⟨e1, e2⟩ | ⟨x, y, e1, e2⟩
          · rw [e1, e2]; exact .inl ⟨rfl, rfl⟩
          · rw [e1, e2]; exact .inr ⟨_, _, rfl, rfl, trivial⟩

theorem trace_alike {L : Labels} {code : List Line} (hc : ∀ l r, target l code = some r → check L (L l) r = true) (n : Nat) {c d : Config} (h : Alike L c d) :
    trace M code n c = trace M code n d := by
  induction n generalizing c d with
  | zero => rfl
  | succ n ih =>
    obtain ⟨h1, h2⟩ := step_alike (M := M) hc h
    rw [trace, trace, h1]
    rcases h2 with ⟨e1, e2⟩ | ⟨c', d', e1, e2, h'⟩
    · rw [e1, e2]
    · rw [e1, e2]
      exact congrArg _ (ih h')

/-- The check of a straight line. -/
def flowAll : List Reg × Bool → List Ins → Option (List Reg × Bool)
  | p, [] => some p
  | p, i :: l =>
    match flow p.1 p.2 i with
    | none => none
    | some p => flowAll p l

/-- Two runs through a straight line, and what comes after it. -/
theorem trace_line {code rest : List Line} {l : List Ins} {p q : List Reg × Bool} (hf : flowAll p l = some q) {s t s' t' : State} (h : Low p.1 p.2 s t)
    (hs : insAll M s l = some s') (ht : insAll M t l = some t') :
    Low q.1 q.2 s' t' ∧ ((∀ n, trace M code n (.at rest s') = trace M code n (.at rest t')) → ∀ n, trace M code n (.at (l.map .ins ++ rest) s) = trace M code n (.at (l.map .ins ++ rest) t)) := by
  induction l generalizing p s t with
  | nil =>
    cases hf
    cases hs
    cases ht
    exact ⟨h, fun h => h⟩
  | cons i l ih =>
    rw [flowAll] at hf
    split at hf
    · exact nomatch hf
    · rename_i p' hi
      obtain ⟨h1, h2⟩ := flow_sound (M := M) i hi h
      obtain ⟨s1, e1, hs⟩ := Option.bind_eq_some_iff.mp (show (ins M s i).bind _ = _ from hs)
      obtain ⟨t1, e2, ht⟩ := Option.bind_eq_some_iff.mp (show (ins M t i).bind _ = _ from ht)
      rcases h2 with ⟨n1, -⟩ | ⟨s2, t2, f1, f2, hl⟩
      · rw [e1] at n1; exact nomatch n1
      · rw [e1] at f1
        rw [e2] at f2
        cases f1
        cases f2
        obtain ⟨g1, g2⟩ := ih hf hl hs ht
        refine ⟨g1, fun hr n => ?_⟩
        cases n with
        | zero => rfl
        | succ n =>
          have o : observed M (.at (.ins i :: (l.map .ins ++ rest)) s) = observed M (.at (.ins i :: (l.map .ins ++ rest)) t) := by
            simp only [observed, h1]
          have n1 : next M code (.at (.ins i :: (l.map .ins ++ rest)) s) = some (.at (l.map .ins ++ rest) s1) := by simp only [next, e1]; rfl
          have n2 : next M code (.at (.ins i :: (l.map .ins ++ rest)) t) = some (.at (l.map .ins ++ rest) t1) := by simp only [next, e2]; rfl
          rw [List.map_cons, List.cons_append, trace, trace, o, n1, n2]
          exact congrArg _ (g2 hr n)

end Milo.X64
