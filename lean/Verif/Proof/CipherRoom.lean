import Verif.Proof.Cipher
/-
What a ChaCha backend that does not leave its memory must have had room for: the converse of `LawfulBackend.transform`, for objects in any state.
-/
namespace Milo.ChaCha
open Milo Memory

private theorem bsome {α β : Type} {x : Option α} {f : α → Option β} {b : β} (h : x.bind f = some b) : ∃ a, x = some a ∧ f a = some b := by
  cases x with
  | none => cases h
  | some a => exact ⟨a, rfl, h⟩

theorem wrN_room {α : Type} {buf out xs : List α} {off : Nat} (h : wrN buf off xs = some out) : off + xs.length ≤ buf.length ∧ out.length = buf.length := by
  unfold wrN at h
  split at h
  · next hl =>
    cases h
    refine ⟨hl, ?_⟩
    simp only [List.length_append, List.length_take, List.length_drop]
    omega
  · cases h

/-! ### The portable backend -/

private theorem storLe_room (h : Host) (buf o : List Byte) (j : Nat) (x : W32) (e : storLe h (v := 4) (p := 1) buf j x = some o) :
    4 * j + 4 ≤ buf.length ∧ o.length = buf.length := by
  rw [storLe_eq h (v := 4) (p := 1) ⟨by omega, by omega, .inl ⟨4, by omega⟩⟩ (by simp [Swappable])] at e
  cases hw : wrN (image h.endian (p := 1) buf) (j * 4) (toBytes .little (n := 4) x) with
  | none => rw [hw] at e; cases e
  | some r =>
    rw [hw] at e
    cases e
    obtain ⟨h1, h2⟩ := wrN_room hw
    rw [image_length, toBytes_length] at h1
    exact ⟨by omega, ofImage_length _ _ _ _⟩

private theorem word_room (h : Host) (w : List W32) (dst src j : Nat) (mem out : List Byte) (e : transformWord h w dst src j mem = some out) :
    dst + 4 * j + 4 ≤ mem.length ∧ out.length = mem.length := by
  unfold transformWord at e
  simp only [Option.bind_eq_bind] at e
  obtain ⟨x, -, e⟩ := bsome e
  obtain ⟨s, -, e⟩ := bsome e
  obtain ⟨y, -, e⟩ := bsome e
  unfold at_ at e
  split at e
  · next hd =>
    simp only [Option.bind_eq_bind] at e
    obtain ⟨o, e1, e2⟩ := bsome e
    cases e2
    obtain ⟨h1, h2⟩ := storLe_room h _ _ _ _ e1
    rw [List.length_drop] at h1 h2
    rw [List.length_append, List.length_take, h2]
    omega
  · cases e

private theorem words_room (h : Host) (w : List W32) (dst src n : Nat) : ∀ (i : Nat) (mem out : List Byte),
    forM' (transformWord h w dst src) n i mem = some out → out.length = mem.length ∧ (n ≠ 0 → dst + 4 * (i + n) ≤ mem.length) := by
  induction n with
  | zero => intro i mem out e; cases e; exact ⟨rfl, fun h => absurd rfl h⟩
  | succ n ih =>
    intro i mem out e
    simp only [forM', Option.bind_eq_bind] at e
    obtain ⟨m, e1, e2⟩ := bsome e
    obtain ⟨h1, h2⟩ := word_room h w dst src i mem m e1
    obtain ⟨h3, h4⟩ := ih (i + 1) m out e2
    refine ⟨by omega, fun _ => ?_⟩
    by_cases hn : n = 0
    · subst hn; omega
    · have := h4 hn; omega

private theorem blocks_room (h : Host) (dst src n : Nat) : ∀ (i : Nat) (s out : List W32 × List Byte),
    forM' (transformBlock h dst src) n i s = some out → out.2.length = s.2.length ∧ (n ≠ 0 → dst + 64 * (i + n) ≤ s.2.length) := by
  induction n with
  | zero => intro i s out e; cases e; exact ⟨rfl, fun h => absurd rfl h⟩
  | succ n ih =>
    intro i s out e
    simp only [forM', Option.bind_eq_bind] at e
    obtain ⟨m, e1, e2⟩ := bsome e
    unfold transformBlock at e1
    simp only [Option.bind_eq_bind] at e1
    obtain ⟨w, -, e1⟩ := bsome e1
    obtain ⟨mem, e3, e1⟩ := bsome e1
    obtain ⟨base, -, e1⟩ := bsome e1
    cases e1
    obtain ⟨h1, h2⟩ := words_room h w _ _ 16 0 _ _ e3
    obtain ⟨h3, h4⟩ := ih (i + 1) _ out e2
    simp only at h3 h4
    have := h2 (by omega)
    refine ⟨by omega, fun _ => ?_⟩
    by_cases hn : n = 0
    · subst hn; omega
    · have := h4 hn; omega

theorem sw_room (h : Host) (n : Nat) (st : List W32) (mem : List Byte) (dst src : Nat) (r : Nat × List Byte)
    (e : (sw h).transform n st mem dst src = some r) : r.2.length = mem.length ∧ (n ≠ 0 → dst + 64 * n ≤ mem.length) := by
  unfold sw at e
  simp only [Option.bind_eq_bind] at e
  obtain ⟨b, -, e⟩ := bsome e
  obtain ⟨m, e1, e⟩ := bsome e
  cases e
  have := blocks_room h dst src n 0 _ _ e1
  simpa using this

/-! ### The vector backends -/

namespace Asm
open X86

/-- By how much the program moves `g_dst`. -/
def moved {V : Type} : List (Instr V) → Nat
  | [] => 0
  | .addDst n :: p => n + moved p
  | _ :: p => moved p

/-- The ends of the places the program writes to, counted from a fixed place `off` before `g_dst` at its start; `size` is that of a register. -/
def written {V : Type} (size : Nat) : (off : Nat) → List (Instr V) → List Nat
  | _, [] => []
  | off, .addDst n :: p => written size (off + n) p
  | off, .mov (.dst k) _ :: p => (off + k + size) :: written size off p
  | off, _ :: p => written size off p

/-- The memory still there, of the same length: nothing was accessed outside. -/
def Kept (s s' : St Vec (Option (List Byte))) : Prop := ∀ m', s'.mem = some m' → ∃ m, s.mem = some m ∧ m'.length = m.length

private theorem get_kept (lanes : Nat) (s : St Vec (Option (List Byte))) (b : Src Vec) (v : Vec) (mem : Option (List Byte))
    (e : get (simd lanes) s b = some (v, mem)) : ∀ m', mem = some m' → s.mem = some m' := by
  cases b with
  | x i | temp i | base i =>
    simp only [X86.get, Option.bind_eq_bind] at e
    obtain ⟨_, -, e⟩ := bsome e
    cases e
    exact fun _ h => h
  | const c => cases e; exact fun _ h => h
  | src k =>
    simp only [X86.get, simd, loadVec] at e
    split at e
    · cases e; exact fun _ h => h
    · cases e; exact fun _ h => nomatch h

private theorem put_kept (lanes : Nat) (s s' : St Vec (Option (List Byte))) (v : Vec) (d : Dst) (e : put (simd lanes) s v d = some s') :
    s'.dst = s.dst ∧ Kept s s' ∧ ∀ k, d = .dst k → ∀ m', s'.mem = some m' → s.dst + k + 4 * lanes ≤ m'.length := by
  cases d with
  | x i | temp i | base i =>
    simp only [put, Option.bind_eq_bind] at e
    obtain ⟨_, -, e⟩ := bsome e
    cases e
    exact ⟨rfl, fun m' h => ⟨m', h, rfl⟩, fun _ h => nomatch h⟩
  | dst k =>
    cases e
    refine ⟨rfl, fun m' h => ?_, fun k' hk m' h => ?_⟩
    · simp only [simd] at h
      obtain ⟨m, h1, h2⟩ := bsome h
      exact ⟨m, h1, (wrN_room h2).2⟩
    · cases hk
      simp only [simd] at h
      obtain ⟨m, h1, h2⟩ := bsome h
      have := wrN_room h2
      rw [vecBytes_length] at this
      omega

private theorem Kept.trans {a b c : St Vec (Option (List Byte))} (h : Kept a b) (g : Kept b c) : Kept a c := by
  intro m hm
  obtain ⟨m1, h1, h2⟩ := g m hm
  obtain ⟨m2, h3, h4⟩ := h m1 h1
  exact ⟨m2, h3, by omega⟩

/-- The end of the program's execution with the memory still there: `g_dst` has moved, everything written was inside. -/
theorem exec_room (lanes from_ : Nat) (p : List (Instr Vec)) : ∀ (off : Nat) (s s' : St Vec (Option (List Byte))),
    exec (simd lanes) s p = some s' → s.dst = from_ + off →
    s'.dst = s.dst + moved p ∧ Kept s s' ∧ ∀ m', s'.mem = some m' → ∀ w ∈ written (4 * lanes) off p, from_ + w ≤ m'.length := by
  induction p with
  | nil => intro off s s' e _; cases e; exact ⟨rfl, fun m' h => ⟨m', h, rfl⟩, fun _ _ w hw => by cases hw⟩
  | cons i p ih =>
    intro off s s' e hd
    simp only [exec, Option.bind_eq_bind] at e
    obtain ⟨s1, e1, e'⟩ := bsome e
    have plain : s1.dst = s.dst → Kept s s1 → moved (i :: p) = moved p → written (4 * lanes) off (i :: p) = written (4 * lanes) off p →
        s'.dst = s.dst + moved (i :: p) ∧ Kept s s' ∧ ∀ m', s'.mem = some m' → ∀ w ∈ written (4 * lanes) off (i :: p), from_ + w ≤ m'.length := by
      intro h1 h2 h3 h4
      obtain ⟨g1, g2, g3⟩ := ih off s1 s' e' (by rw [h1, hd])
      rw [h3, h4]
      exact ⟨by rw [g1, h1], h2.trans g2, g3⟩
    cases i with
    | mov d b =>
      simp only [step, Option.bind_eq_bind] at e1
      obtain ⟨⟨v, mem⟩, e2, e1⟩ := bsome e1
      obtain ⟨h1, h2, h3⟩ := put_kept lanes _ _ _ _ e1
      have h4 := get_kept lanes s b v mem e2
      have hk : Kept s s1 := Kept.trans (b := { s with mem := mem }) (fun m' h => ⟨m', h4 m' h, rfl⟩) h2
      cases d with
      | x i | temp i | base i => exact plain h1 hk rfl rfl
      | dst k =>
        obtain ⟨g1, g2, g3⟩ := ih off s1 s' e' (by rw [h1]; exact hd)
        refine ⟨by rw [g1, h1]; rfl, hk.trans g2, fun m' hm w hw => ?_⟩
        simp only [written, List.mem_cons] at hw
        rcases hw with rfl | hw
        · obtain ⟨m1, hm1, hl⟩ := g2 m' hm
          have := h3 k rfl m1 hm1
          simp only at this
          omega
        · exact g3 m' hm w hw
    | bin o d a b =>
      simp only [step, Option.bind_eq_bind] at e1
      obtain ⟨y, -, e1⟩ := bsome e1
      obtain ⟨⟨v, mem⟩, e2, e1⟩ := bsome e1
      obtain ⟨h1, h2, -⟩ := put_kept lanes _ _ _ _ e1
      have h4 := get_kept lanes s b v mem e2
      exact plain h1 (Kept.trans (b := { s with mem := mem }) (fun m' h => ⟨m', h4 m' h, rfl⟩) h2) rfl rfl
    | unImm o d a imm =>
      simp only [step, Option.bind_eq_bind] at e1
      obtain ⟨y, -, e1⟩ := bsome e1
      obtain ⟨h1, h2, -⟩ := put_kept lanes _ _ _ _ e1
      exact plain h1 h2 rfl rfl
    | binImm o d a b imm =>
      simp only [step, Option.bind_eq_bind] at e1
      obtain ⟨y, -, e1⟩ := bsome e1
      obtain ⟨z, -, e1⟩ := bsome e1
      obtain ⟨h1, h2, -⟩ := put_kept lanes _ _ _ _ e1
      exact plain h1 h2 rfl rfl
    | rnds2 d b =>
      simp only [step, Option.bind_eq_bind] at e1
      obtain ⟨y, -, e1⟩ := bsome e1
      obtain ⟨z, -, e1⟩ := bsome e1
      obtain ⟨k, -, e1⟩ := bsome e1
      obtain ⟨h1, h2, -⟩ := put_kept lanes _ _ _ _ e1
      exact plain h1 h2 rfl rfl
    | addDst n =>
      cases e1
      obtain ⟨g1, g2, g3⟩ := ih (off + n) _ s' e' (by simp only; omega)
      exact ⟨by rw [g1]; simp only [moved]; omega, Kept.trans (fun m' h => ⟨m', h, rfl⟩) g2, g3⟩
    | addSrc n => cases e1; exact plain rfl (fun m' h => ⟨m', h, rfl⟩) rfl rfl

/-- A program that neither moves `g_dst` nor writes to memory. -/
private theorem exec_quiet (lanes : Nat) (p : List (Instr Vec)) (hp : moved p = 0) (s s' : St Vec (Option (List Byte)))
    (e : exec (simd lanes) s p = some s') : s'.dst = s.dst ∧ Kept s s' := by
  obtain ⟨h1, h2, -⟩ := exec_room lanes s.dst p 0 s s' e rfl
  exact ⟨by rw [h1, hp]; rfl, h2⟩

private theorem rounds_quiet (lanes : Nat) (k : Consts Vec) (hk : moved (doubleRound k) = 0) (n : Nat) : ∀ (s s' : St Vec (Option (List Byte))),
    roundsLoop (simd lanes) k n s = some s' → s'.dst = s.dst ∧ Kept s s' := by
  induction n with
  | zero => intro s s' e; cases e; exact ⟨rfl, fun m' h => ⟨m', h, rfl⟩⟩
  | succ n ih =>
    intro s s' e
    simp only [roundsLoop, Option.bind_eq_bind] at e
    obtain ⟨s1, e1, e⟩ := bsome e
    obtain ⟨h1, h2⟩ := exec_quiet lanes _ hk s s1 e1
    obtain ⟨h3, h4⟩ := ih s1 s' e
    exact ⟨by rw [h3, h1], h2.trans h4⟩

private theorem loop_room (lanes size : Nat) (k : Consts Vec) (body : Prog Vec) (hk : moved (doubleRound k) = 0) (hr : moved (reload : Prog Vec) = 0)
    (hb : moved body = size) (hw : size ∈ written (4 * lanes) 0 body) (n : Nat) : ∀ (s s' : St Vec (Option (List Byte))),
    blocksLoop (simd lanes) k body n s = some s' → Kept s s' ∧ ∀ m', s'.mem = some m' → s.dst + size * (n + 1) ≤ m'.length := by
  induction n with
  | zero =>
    intro s s' e
    simp only [blocksLoop, Option.bind_eq_bind] at e
    obtain ⟨s1, e1, e⟩ := bsome e
    obtain ⟨h1, h2⟩ := rounds_quiet lanes k hk 10 s s1 e1
    obtain ⟨-, h4, h5⟩ := exec_room lanes s1.dst body 0 s1 s' e rfl
    refine ⟨h2.trans h4, fun m' hm => ?_⟩
    have := h5 m' hm _ hw
    rw [h1] at this
    omega
  | succ n ih =>
    intro s s' e
    simp only [blocksLoop, Option.bind_eq_bind] at e
    obtain ⟨s1, e1, e⟩ := bsome e
    obtain ⟨s2, e2, e⟩ := bsome e
    obtain ⟨s3, e3, e⟩ := bsome e
    obtain ⟨h1, h2⟩ := rounds_quiet lanes k hk 10 s s1 e1
    obtain ⟨h3, h4, -⟩ := exec_room lanes s1.dst body 0 s1 s2 e2 rfl
    obtain ⟨h5, h6⟩ := exec_quiet lanes _ hr s2 s3 e3
    obtain ⟨h7, h8⟩ := ih s3 s' e
    refine ⟨h2.trans (h4.trans (h6.trans h7)), fun m' hm => ?_⟩
    have := h8 m' hm
    rw [h5, h3, h1, hb] at this
    rw [show size * (n + 1 + 1) = size + size * (n + 1) by rw [Nat.mul_succ size (n + 1), Nat.add_comm]]
    omega

theorem backend_room (lanes : Nat) (k : Consts Vec) (body gen : Prog Vec) (junk : Nat → Vec) (hk : moved (doubleRound k) = 0)
    (hi : ∀ q, moved (blocksInit k q) = 0) (hb : moved body = 64 * lanes) (hw : 64 * lanes ∈ written (4 * lanes) 0 body)
    (n : Nat) (st : List W32) (mem : List Byte) (dst src : Nat) (r : Nat × List Byte)
    (e : (backend lanes k body gen junk).transform n st mem dst src = some r) :
    r.2.length = mem.length ∧ (n ≠ 0 → dst + 64 * lanes * n ≤ mem.length) := by
  unfold backend at e
  simp only [Option.bind_eq_bind] at e
  obtain ⟨b, -, e⟩ := bsome e
  obtain ⟨s, e1, e⟩ := bsome e
  obtain ⟨m, hm, e⟩ := bsome e
  cases e
  cases n with
  | zero => cases e1; cases hm; exact ⟨rfl, fun h => absurd rfl h⟩
  | succ n =>
    simp only [run, Option.bind_eq_bind] at e1
    obtain ⟨s1, e2, e1⟩ := bsome e1
    obtain ⟨h1, h2⟩ := exec_quiet lanes _ (hi _) _ s1 e2
    obtain ⟨h3, h4⟩ := loop_room lanes (64 * lanes) k body hk rfl hb hw n s1 s e1
    obtain ⟨m1, g1, g2⟩ := (h2.trans h3) m hm
    have := h4 m hm
    rw [h1] at this
    cases g1
    exact ⟨g2, fun _ => by simp only [entry] at this; omega⟩

end Asm

/-- The converse of `LawfulBackend.transform`: without undefined behaviour there was room for all blocks. -/
theorem backend_room (h : Host) (b : CipherBackend) (n : Nat) (st : List W32) (mem : List Byte) (dst src : Nat) (r : Nat × List Byte)
    (e : (b.impl h).transform n st mem dst src = some r) :
    r.2.length = mem.length ∧ (n ≠ 0 → dst + 64 * (b.impl h).ratio * n ≤ mem.length) := by
  cases b with
  | portable =>
    have := sw_room h n st mem dst src r e
    exact this
  | ssse3 junk => exact Asm.backend_room 4 Asm.ssse3Consts _ _ junk rfl (fun _ => rfl) (by rfl) (by simp only [Asm.transformBody]; decide) n st mem dst src r e
  | avx2 junk => exact Asm.backend_room 8 Asm.avx2Consts _ _ junk rfl (fun _ => rfl) (by rfl) (by decide) n st mem dst src r e

end Milo.ChaCha
