import Verif.Proof.Leak
import Verif.Props.Abi
/-
C64: the time the assembly functions take, and the memory they access, tell nothing of keys and texts.

`Spec.Leak.trace` is the sequence of the lines executed and the addresses accessed. It is the same for two runs with the same stack pointer and the same
arguments (pointers and numbers of rounds and blocks), whatever memory, vector registers and the other general registers contain.
-/
namespace Milo.Props
open X64 Spec.Leak

/-- Registers with the arguments. -/
def argRegs (abi : Abi) (n : Nat) : List Reg := (List.range n).map abi.arg

/-- What is public in the ChaCha functions, behind the prologue. -/
def chachaPublic (abi : Abi) (transform : Bool) : List Reg × Bool := ([.rsp, .rbp, .rax] ++ argRegs abi (if transform then 5 else 4), true)

def chachaLabels (abi : Abi) (transform : Bool) : Labels
  | .rounds_loop => (.rbx :: (chachaPublic abi transform).1, false)
  | _ => ((chachaPublic abi transform).1, false)

def shaLabels (abi : Abi) : Labels := fun _ => ([.rsp, .rax] ++ (if abi = .wind then [.rbp] else []) ++ argRegs abi 3, false)

/-- The functions without their prologues. -/
def chachaRest (abi : Abi) (k : Kind) (transform : Bool) : List Line := (chacha abi k transform).drop (chachaHead abi k transform).length

theorem chacha_split (abi : Abi) (k : Kind) (transform : Bool) : chacha abi k transform = (chachaHead abi k transform).map .ins ++ chachaRest abi k transform := by
  unfold chachaRest
  unfold chacha
  simp only
  rw [List.drop_append_of_le_length (by rw [List.length_map]), List.drop_eq_nil_of_le (by rw [List.length_map]), List.nil_append]

theorem chacha_checked : ∀ abi ∈ [Abi.unix, .wind], ∀ k ∈ [Kind.sse, .vex256], ∀ transform ∈ [true, false],
    check (chachaLabels abi transform) (chachaPublic abi transform) (chachaRest abi k transform) = true := by decide +kernel

theorem head_checked : ∀ abi ∈ [Abi.unix, .wind], ∀ k ∈ [Kind.sse, .vex256], ∀ transform ∈ [true, false],
    (flowAll (Reg.rsp :: argRegs abi 4, false) (chachaHead abi k transform)).any (fun q => sub ([.rsp, .rbp, .rax] ++ argRegs abi 4, true) q) = true := by decide +kernel

theorem sha_checked : ∀ abi ∈ [Abi.unix, .wind], check (shaLabels abi) (.rsp :: argRegs abi 3, false) (sha1 abi) = true ∧
    check (shaLabels abi) (.rsp :: argRegs abi 3, false) (sha256 abi) = true := by decide +kernel

theorem arg_reg (abi : Abi) (s : State) (i : Nat) (hi : i < 4) : s.g (abi.arg i) = Spec.Abi.arg abi s i := by
  cases abi <;> (match i, hi with
    | 0, _ => rfl
    | 1, _ => rfl
    | 2, _ => rfl
    | 3, _ => rfl)

theorem public_low {abi : Abi} {n m : Nat} {s s' : State} (h : Public abi n s s') (hm : m ≤ n) (h4 : m ≤ 4) : Low (Reg.rsp :: argRegs abi m) false s s' := by
  refine ⟨fun r hr => ?_, fun hc => nomatch hc⟩
  rcases List.mem_cons.mp hr with rfl | hr
  · exact h.rsp
  · obtain ⟨i, hi, rfl⟩ := List.mem_map.mp hr
    have hi := List.mem_range.mp hi
    rw [arg_reg _ _ _ (by omega), arg_reg _ _ _ (by omega)]
    exact h.args i (by omega)

/-- C64, SHA-1 and SHA-256. -/
theorem C64_sha (abi : Abi) (M : Machine) (s s' : State) (same : Public abi 3 s s') (n : Nat) :
    trace M (sha1 abi) n (.at (sha1 abi) s) = trace M (sha1 abi) n (.at (sha1 abi) s') ∧
      trace M (sha256 abi) n (.at (sha256 abi) s) = trace M (sha256 abi) n (.at (sha256 abi) s') := by
  obtain ⟨h1, h2⟩ := sha_checked abi (by cases abi <;> simp)
  have hl := public_low same (Nat.le_refl _) (by omega)
  exact ⟨trace_alike (fun l r => check_target h1) n ⟨rfl, _, h1, hl⟩, trace_alike (fun l r => check_target h2) n ⟨rfl, _, h2, hl⟩⟩

/-- C64, ChaCha; on Windows the fifth argument of `transform` is on the stack, of which it is the only part that counts. -/
theorem C64_chacha (abi : Abi) (k : Kind) (hk : k = .sse ∨ k = .vex256) (transform : Bool) (M : Machine) (s s' : State)
    (entered : Spec.Abi.Entered M s [] (if transform then Spec.Abi.stackArgs abi s 5 else []) [])
    (same : Public abi (if transform then 5 else 4) s s') (n : Nat) :
    trace M (chacha abi k transform) n (.at (chacha abi k transform) s) = trace M (chacha abi k transform) n (.at (chacha abi k transform) s') := by
  have hk' : k ≠ .vex128 := by rcases hk with rfl | rfl <;> decide
  have ha : abi ∈ [Abi.unix, .wind] := by cases abi <;> simp
  have hkm : k ∈ [Kind.sse, .vex256] := by rcases hk with rfl | rfl <;> simp
  have ht : transform ∈ [true, false] := by cases transform <;> simp
  have hc := chacha_checked abi ha k hkm transform ht
  have hh := head_checked abi ha k hkm transform ht
  obtain ⟨q, hq, hs⟩ : ∃ q, flowAll (Reg.rsp :: argRegs abi 4, false) (chachaHead abi k transform) = some q ∧ sub ([.rsp, .rbp, .rax] ++ argRegs abi 4, true) q = true := by
    cases hq : flowAll (Reg.rsp :: argRegs abi 4, false) (chachaHead abi k transform) with
    | none => rw [hq] at hh; exact nomatch hh
    | some q => rw [hq] at hh; exact ⟨q, rfl, hh⟩
  have hB : ∀ x : W64, x = (x - 1024) + BitVec.ofNat 64 1024 := fun x => (BitVec.sub_add_cancel x 1024).symm
  have hBm : (s.g .rsp - 1024).toNat % 16 = 8 := by
    have := entered.aligned
    rw [BitVec.toNat_sub]
    have e : (1024 : W64).toNat = 1024 := rfl
    rw [e]
    omega
  have hf : RW M (s.g .rsp - 1024) 1024 := entered.stack
  have h5 : abi = .wind → transform = true → ∀ a, Area (s.g .rsp + BitVec.ofNat 64 40) 8 a → M.rd a = true := fun h1 h2 a h => by
    subst h1
    subst h2
    exact (entered.read (s.g .rsp + 40, 8 * (5 - 4)) (.head _) a h).1
  obtain ⟨t, f, e1, -, -, -, -, -, -, -, -, -, -, a1⟩ := head_exec (s := s) abi k hk' transform hf hBm (hB _) h5
  rw [same.rsp] at hf hBm h5
  obtain ⟨t', f', e2, -, -, -, -, -, -, -, -, -, -, a2⟩ := head_exec (s := s') abi k hk' transform hf hBm (hB _) h5
  obtain ⟨l1, l2⟩ := trace_line (code := chacha abi k transform) (rest := chachaRest abi k transform) hq (public_low same (by split <;> omega) (Nat.le_refl _)) e1 e2
  have l1 := l1.mono hs
  have hl : Low (chachaPublic abi transform).1 (chachaPublic abi transform).2 t t' := by
    refine ⟨fun r hr => ?_, l1.2⟩
    rcases List.mem_append.mp hr with hr | hr
    · exact l1.1 r (List.mem_append_left _ hr)
    · obtain ⟨i, hi, rfl⟩ := List.mem_map.mp hr
      have hi := List.mem_range.mp hi
      by_cases c : i < 4
      · exact l1.1 _ (List.mem_append_right _ (List.mem_map.mpr ⟨i, List.mem_range.mpr c, rfl⟩))
      · cases transform with
        | false => exact absurd hi c
        | true =>
          have : i = 4 := by
            have : i < 5 := hi
            omega
          subst this
          rw [a1 rfl, a2 rfl]
          exact same.args 4 (by decide)
  rw [chacha_split] at l2 ⊢
  refine l2 (fun n => ?_) n
  refine trace_alike (L := chachaLabels abi transform) (fun l r h => ?_) n ⟨rfl, _, hc, hl⟩
  rw [target_ins] at h
  exact check_target hc h

/-! ### Callers -/

/-- Another key: the same program with other bytes at the address of the state and other contents of the registers nobody passes arguments in. -/
def other (s : State) (key : List Byte) : State :=
  { s with
    g := fun r => if r ∈ [Reg.rax, .rbx, .r11, .r12] then 0xdead else s.g r
    v := fun _ _ => 5
    zf := false
    mem := putBytes s.mem 0x610000 key }

theorem other_qword (s : State) (key : List Byte) (hkey : key.length = 64) : Spec.Abi.qword s (0x7fff0030 : W64) = Spec.Abi.qword (other s key) (0x7fff0030 : W64) := by
  refine congrArg (fun l => BitVec.ofNat 64 (Spec.leNat l)) (bytesAt_congr fun i hi => (putBytes_out fun hc => ?_).symm)
  rw [hkey] at hc
  have h1 := (area_iff 0x610000 64 _ (by omega) (by omega)).mp hc
  have h2 : (0x7fff0030 + BitVec.ofNat 64 i : W64).toNat = 0x7fff0030 + i := by
    rw [BitVec.toNat_add, BitVec.toNat_ofNat, Nat.mod_eq_of_lt (show i < 2 ^ 64 by omega)]
    exact Nat.mod_eq_of_lt (show 0x7fff0030 + i < 2 ^ 64 by omega)
  rw [h2] at h1
  omega

/-- Hypotheses of C64 met: the caller of C56 on Windows with AVX2, and the same with another key. -/
example (key : List Byte) (hkey : key.length = 64) (n : Nat) :
    let M := callerM avx2Ro [(0x650001, 1536), (0x610000, 64)] [(0x670003, 1536)]
    let s := callerS avx2Ro [(.rcx, 10), (.rdx, 3), (.r8, 0x610000), (.r9, 0x670003)]
    trace M (chacha .wind .vex256 true) n (.at (chacha .wind .vex256 true) s) = trace M (chacha .wind .vex256 true) n (.at (chacha .wind .vex256 true) (other s key)) := by
  refine C64_chacha .wind .vex256 (.inr rfl) true (callerM avx2Ro [(0x650001, 1536), (0x610000, 64)] [(0x670003, 1536)])
    (callerS avx2Ro [(.rcx, 10), (.rdx, 3), (.r8, 0x610000), (.r9, 0x670003)])
    (other (callerS avx2Ro [(.rcx, 10), (.rdx, 3), (.r8, 0x610000), (.r9, 0x670003)]) key) ?_ ⟨rfl, fun i hi => ?_⟩ n
  · have := caller_entered avx2Ro (by rw [avx2Ro_length]; omega) [(.rcx, 10), (.rdx, 3), (.r8, 0x610000), (.r9, 0x670003)] [(0x650001, 1536), (0x610000, 64)] [(0x670003, 1536)]
      (fun p hp => by
        simp only [List.mem_cons, List.not_mem_nil, or_false] at hp
        rcases hp with rfl | rfl
        · exact ⟨0x650001, 1536, rfl, by omega, by omega⟩
        · exact ⟨0x610000, 64, rfl, by omega, by omega⟩)
      (fun p hp => by
        simp only [List.mem_cons, List.not_mem_nil, or_false] at hp
        subst hp
        exact ⟨0x670003, 1536, rfl, by omega, by omega⟩) [(0x7fff0030, 8)] (fun p hp => .inr (by simpa using hp))
    exact ⟨this.aligned, this.stack, this.ret, this.roAligned, (fun a h => absurd h (Nat.not_lt_zero _)), rfl, this.read, fun p hp => nomatch hp⟩
  · have hi : i < 5 := hi
    by_cases c : i < 4
    · rw [← arg_reg _ _ _ c, ← arg_reg _ _ _ c]
      match i, c with
      | 0, _ => rfl
      | 1, _ => rfl
      | 2, _ => rfl
      | 3, _ => rfl
    · have : i = 4 := by omega
      subst this
      show Spec.Abi.qword _ (0x7fff0030 : W64) = Spec.Abi.qword _ (0x7fff0030 : W64)
      exact other_qword _ key hkey

/-- What C64 rules out: an address, or a branch, that depends on what is in memory. -/
example : ∃ (M : Machine) (s s' : State), Public .unix 3 s s' ∧
    trace M [.ins (.load .rax (.reg .rsi 0)), .ins (.load .rax (.reg .rax 0)), .ret] 2 (.at [.ins (.load .rax (.reg .rsi 0)), .ins (.load .rax (.reg .rax 0)), .ret] s) ≠
    trace M [.ins (.load .rax (.reg .rsi 0)), .ins (.load .rax (.reg .rax 0)), .ret] 2 (.at [.ins (.load .rax (.reg .rsi 0)), .ins (.load .rax (.reg .rax 0)), .ret] s') :=
  ⟨⟨fun _ => true, fun _ => true, 0, fun _ _ => (0, 0, 0, 0)⟩, ⟨fun _ => 64, fun _ _ => 0, false, fun _ => 0⟩, ⟨fun _ => 64, fun _ _ => 0, false, fun _ => 1⟩,
    ⟨rfl, fun i hi => match i, hi with | 0, _ => rfl | 1, _ => rfl | 2, _ => rfl⟩, by decide +kernel⟩

/-! ### The observations are complete -/

theorem write_mem {M : Machine} {s t : State} {a : W64} {bs : List Byte} (h : M.write s a bs = some t) : t = { s with mem := putBytes s.mem a bs } ∧
    ∀ i, i < bs.length → M.wr (a + BitVec.ofNat 64 i) = true := by
  unfold Machine.write at h
  split at h
  · rename_i hw
    refine ⟨(Option.some.inj h).symm, fun i hi => ?_⟩
    exact List.all_eq_true.mp hw i (List.mem_range.mpr hi)
  · exact absurd h (by simp)

/-- C64, the observations: what an instruction does to the registers depends on no memory but what it is said to read. -/
theorem C64_reads_complete (M : Machine) (s : State) (i : Ins) (mem : W64 → Byte)
    (h : ∀ a n, .read a n ∈ accesses M s i → bytesAt mem a n = bytesAt s.mem a n) :
    (ins M { s with mem := mem } i).map (fun t => (t.g, t.v, t.zf)) = (ins M s i).map (fun t => (t.g, t.v, t.zf)) := by
  have ad : ∀ a, addr M { s with mem := mem } a = addr M s a := fun a => by cases a <;> rfl
  have rd : ∀ a n, bytesAt mem a n = bytesAt s.mem a n → M.read { s with mem := mem } a n = M.read s a n := fun a n e => by
    unfold Machine.read
    show (if _ then some (bytesAt mem a n) else none) = _
    rw [e]
  have rv : ∀ l al a, bytesAt mem a (4 * l) = bytesAt s.mem a (4 * l) → readVec M { s with mem := mem } l al a = readVec M s l al a := fun l al a e => by
    unfold readVec
    rw [rd a _ e]
  have wr : ∀ a bs, (M.write { s with mem := mem } a bs).map (fun t => (t.g, t.v, t.zf)) = (M.write s a bs).map (fun t => (t.g, t.v, t.zf)) := fun a bs => by
    unfold Machine.write
    split <;> rfl
  cases i with
  | push r =>
    simp only [ins, Option.bind_eq_bind, Option.pure_def, Option.map_bind]
    unfold Machine.write
    show Option.bind (if _ then _ else none) _ = Option.bind (if _ then _ else none) _
    split <;> rfl
  | pop r => simp only [ins]; rw [rd _ _ (h _ _ (List.mem_singleton.mpr rfl))]; cases M.read s (s.g .rsp) 8 <;> rfl
  | load d a => simp only [ins, ad]; rw [rd _ _ (h _ _ (List.mem_singleton.mpr rfl))]; cases M.read s _ 8 <;> rfl
  | vload k al d a => simp only [ins, ad]; rw [rv _ _ _ (h _ _ (List.mem_singleton.mpr rfl))]; cases readVec M s _ al _ <;> rfl
  | movdLoad d a => simp only [ins, ad]; rw [rd _ _ (h _ _ (List.mem_singleton.mpr rfl))]; cases M.read s _ 4 <;> rfl
  | vbroadcasti128 d a => simp only [ins, ad]; rw [rv _ _ _ (h _ _ (List.mem_singleton.mpr rfl))]; cases readVec M s _ _ _ <;> rfl
  | bin k o d a b =>
    cases b with
    | x i => rfl
    | m a => simp only [ins, opndVal, ad]; rw [rv _ _ _ (h _ _ (List.mem_singleton.mpr rfl))]; cases readVec M s _ _ _ <;> rfl
  | store32 a r => simp only [ins, ad]; exact wr _ _
  | vstore k al a r =>
    simp only [ins, ad]
    split
    · rfl
    · exact wr _ _
  | movdStore a r => simp only [ins, ad]; exact wr _ _
  | _ => rfl

/-- C64, the observations: an instruction changes no memory but what it is said to write. -/
theorem C64_writes_complete (M : Machine) (s s' : State) (i : Ins) (h : ins M s i = some s') (a : W64) (ha : s'.mem a ≠ s.mem a) :
    ∃ b n, .write b n ∈ accesses M s i ∧ Area b n a := by
  have wr : ∀ {b : W64} {bs : List Byte} {n : Nat} {t : State}, M.write s b bs = some t → bs.length = n → t.mem a ≠ s.mem a → Area b n a := fun hw hn hne => by
    obtain ⟨rfl, _⟩ := write_mem hw
    apply Classical.byContradiction
    intro hout
    exact hne (putBytes_out (hn ▸ hout))
  cases i with
  | push r =>
    simp only [ins, Option.bind_eq_bind, Option.bind_eq_some_iff, Option.pure_def, Option.some.injEq] at h
    obtain ⟨t, h, rfl⟩ := h
    exact ⟨_, _, List.mem_singleton.mpr rfl, wr h (toLE_length _ _) ha⟩
  | store32 b r => exact ⟨_, _, List.mem_singleton.mpr rfl, wr h (toLE_length _ _) ha⟩
  | vstore k al b r =>
    simp only [ins, Option.ite_none_left_eq_some] at h
    exact ⟨_, _, List.mem_singleton.mpr rfl, wr h.2 (ChaCha.Asm.vecBytes_length _) ha⟩
  | movdStore b r => exact ⟨_, _, List.mem_singleton.mpr rfl, wr h (toLE_length _ _) ha⟩
  | pop r =>
    simp only [ins, Option.bind_eq_bind, Option.bind_eq_some_iff, Option.pure_def, Option.some.injEq] at h
    obtain ⟨t, h, rfl⟩ := h
    exact absurd rfl ha
  | load r b =>
    simp only [ins, Option.bind_eq_bind, Option.bind_eq_some_iff, Option.pure_def, Option.some.injEq] at h
    obtain ⟨t, h, rfl⟩ := h
    exact absurd rfl ha
  | vload k al d b =>
    simp only [ins, Option.bind_eq_bind, Option.bind_eq_some_iff, Option.pure_def, Option.some.injEq] at h
    obtain ⟨t, h, rfl⟩ := h
    exact absurd rfl ha
  | movdLoad d b =>
    simp only [ins, Option.bind_eq_bind, Option.bind_eq_some_iff, Option.pure_def, Option.some.injEq] at h
    obtain ⟨t, h, rfl⟩ := h
    exact absurd rfl ha
  | vbroadcasti128 d b =>
    simp only [ins, Option.bind_eq_bind, Option.bind_eq_some_iff, Option.pure_def, Option.some.injEq] at h
    obtain ⟨t, h, rfl⟩ := h
    exact absurd rfl ha
  | bin k o d c b =>
    simp only [ins, Option.bind_eq_bind, Option.bind_eq_some_iff, Option.pure_def, Option.some.injEq] at h
    obtain ⟨t, h, rfl⟩ := h
    exact absurd rfl ha
  | ud2 => cases h
  | _ => cases h; exact absurd rfl ha

/-- The hypotheses met: an instruction with an operand in memory, other contents elsewhere; and a store that changes a byte. -/
example (M : Machine) (s : State) (x : Byte) (a : W64) (ha : ¬ Area (s.g .rsi) 16 a) :
    (ins M { s with mem := putBytes s.mem a [x] } (.bin .sse .pxor 1 1 (.m (.reg .rsi 0)))).map (fun t => (t.g, t.v, t.zf)) =
      (ins M s (.bin .sse .pxor 1 1 (.m (.reg .rsi 0)))).map (fun t => (t.g, t.v, t.zf)) := by
  refine C64_reads_complete M s _ _ fun b n h => ?_
  have h : .read b n ∈ [Event.read (s.g .rsi + 0) 16] := h
  cases List.mem_singleton.mp h
  refine bytesAt_congr fun i hi => putBytes_out fun hin => ha ?_
  obtain ⟨u, hu, _, e⟩ := hin.off
  have : u = 0 := by simpa using hu
  subst this
  have e : s.g .rsi + 0 + BitVec.ofNat 64 i = a := e.trans (BitVec.add_zero a)
  rw [← e, show s.g .rsi + (0 : W64) = s.g .rsi from BitVec.add_zero _]
  exact (area_off _ _ _ (by omega)).mpr hi

example : ∃ (M : Machine) (s s' : State), ins M s (.push .rax) = some s' ∧ s'.mem 0xff8 ≠ s.mem 0xff8 :=
  ⟨⟨fun _ => true, fun _ => true, 0, fun _ _ => (0, 0, 0, 0)⟩, ⟨fun _ => 0x1000, fun _ _ => 0, false, fun _ => 7⟩, _, rfl, by decide⟩

end Milo.Props
