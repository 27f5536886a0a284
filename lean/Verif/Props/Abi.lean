import Verif.Proof.X64Cpuid
import Verif.Proof.X64ShaCall
/-
C56: the assembly functions, called as C++ code calls them, on Linux and on Windows.

`Spec.Abi.Entered` is what the caller provides (aligned stack with 1024 bytes of room, the function's constants in memory, areas it may read and write that do
not lie in the function's own stack), `Spec.Abi.Returns` what it gets back. Every access of a run is checked against the permissions of the machine, so that a
run that returns has read nothing but the areas `reads`, the constants and its own stack, and written nothing but the areas `writes` and its own stack, whenever
the machine grants no more than that.
-/
namespace Milo.Props
open X64

/-- The number of 64-byte blocks a pass of the loop produces: four for SSSE3, eight for AVX2. -/
def unit : Kind → Nat
  | .sse => 4
  | .vex128 => 4
  | .vex256 => 8

/-- C56, `..._ssse_3_ietf_transform` and `..._avx_2_ietf_transform(10, n, Q, D, S)`: the destination gets the source combined with the key stream, whether they
are the same area or disjoint. -/
theorem C56_chacha_transform (abi : Abi) (k : Kind) (hk : k = .sse ∨ k = .vex256) (M : Machine) (s : State) (n : Nat) (Q D S : W64)
    (rounds : Spec.Abi.arg abi s 0 = 10) (blocks : (Spec.Abi.arg abi s 1).toNat = n) (state : Spec.Abi.arg abi s 2 = Q) (dst : Spec.Abi.arg abi s 3 = D)
    (src : Spec.Abi.arg abi s 4 = S)
    (entered : Spec.Abi.Entered M s (if k = .vex256 then avx2Ro else ssse3Ro) ((S, 64 * unit k * n) :: Spec.Abi.stackArgs abi s 5 ++ [(Q, 64)]) [(D, 64 * unit k * n)])
    (apart : Apart (Area D (64 * unit k * n)) (Area Q 64)) (same : D = S ∨ Apart (Area D (64 * unit k * n)) (Area S (64 * unit k * n))) :
    ∃ s', Spec.Abi.Returns abi M (chacha abi k true) s s' [(D, 64 * unit k * n)] ∧ s'.g .rax = BitVec.ofNat 64 (unit k * n) ∧
      ∀ i, i < 64 * unit k * n → s'.mem (D + BitVec.ofNat 64 i) = s.mem (S + BitVec.ofNat 64 i) ^^^ Spec.Abi.keyByte (Spec.Abi.words s Q 16) i := by
  have hk' : k ≠ .vex128 := by rcases hk with rfl | rfl <;> decide
  have hu : unit k = k.lanes := by rcases hk with rfl | rfl <;> rfl
  rw [hu] at *
  have := chacha_transform_run (abi := abi) hk' (N := 64 * k.lanes * n) (by rw [blocks]) entered rounds state dst src apart same
  rw [blocks] at this
  exact this

/-- C56, `..._ssse_3_ietf_generate` and `..._avx_2_ietf_generate(10, n, Q, D)`: the destination gets the key stream. -/
theorem C56_chacha_generate (abi : Abi) (k : Kind) (hk : k = .sse ∨ k = .vex256) (M : Machine) (s : State) (n : Nat) (Q D : W64)
    (rounds : Spec.Abi.arg abi s 0 = 10) (blocks : (Spec.Abi.arg abi s 1).toNat = n) (state : Spec.Abi.arg abi s 2 = Q) (dst : Spec.Abi.arg abi s 3 = D)
    (entered : Spec.Abi.Entered M s (if k = .vex256 then avx2Ro else ssse3Ro) [(Q, 64)] [(D, 64 * unit k * n)])
    (apart : Apart (Area D (64 * unit k * n)) (Area Q 64)) :
    ∃ s', Spec.Abi.Returns abi M (chacha abi k false) s s' [(D, 64 * unit k * n)] ∧ s'.g .rax = BitVec.ofNat 64 (unit k * n) ∧
      ∀ i, i < 64 * unit k * n → s'.mem (D + BitVec.ofNat 64 i) = Spec.Abi.keyByte (Spec.Abi.words s Q 16) i := by
  have hk' : k ≠ .vex128 := by rcases hk with rfl | rfl <;> decide
  have hu : unit k = k.lanes := by rcases hk with rfl | rfl <;> rfl
  rw [hu] at *
  have := chacha_generate_run (abi := abi) hk' (N := 64 * k.lanes * n) (by rw [blocks]) entered rounds state dst apart
  rw [blocks] at this
  exact this

/-- C56, `..._sha_1_160_impl_hw_x86_64_ni_blocks(n, Q, S)`: the state becomes that after the `n` blocks. -/
theorem C56_sha1 (abi : Abi) (M : Machine) (s : State) (n : Nat) (Q S : W64) (blocks : (Spec.Abi.arg abi s 0).toNat = n) (state : Spec.Abi.arg abi s 1 = Q)
    (src : Spec.Abi.arg abi s 2 = S) (entered : Spec.Abi.Entered M s sha1Ro [(Q, 20), (S, 64 * n)] [(Q, 20)]) :
    ∃ s', Spec.Abi.Returns abi M (sha1 abi) s s' [(Q, 20)] ∧ s'.g .rax = BitVec.ofNat 64 n ∧
      Spec.Abi.words s' Q 5 = Spec.Abi.hashed Spec.Sha.Sha1.compress (Spec.Abi.words s Q 5) (bytesAt s.mem S (64 * n)) := by
  obtain ⟨s', r, x, w⟩ := sha1_run (abi := abi) (N := 64 * n) (by rw [blocks]) entered state src
  exact ⟨s', r, by rw [x, ← blocks, BitVec.ofNat_toNat, BitVec.setWidth_eq], w⟩

/-- C56, `..._sha_2_256_impl_hw_x86_64_ni_blocks(n, Q, S)`. -/
theorem C56_sha256 (abi : Abi) (M : Machine) (s : State) (n : Nat) (Q S : W64) (blocks : (Spec.Abi.arg abi s 0).toNat = n) (state : Spec.Abi.arg abi s 1 = Q)
    (src : Spec.Abi.arg abi s 2 = S) (entered : Spec.Abi.Entered M s sha256Ro [(Q, 32), (S, 64 * n)] [(Q, 32)]) :
    ∃ s', Spec.Abi.Returns abi M (sha256 abi) s s' [(Q, 32)] ∧ s'.g .rax = BitVec.ofNat 64 n ∧
      Spec.Abi.words s' Q 8 = Spec.Abi.hashed (Spec.Sha.Sha2.compress Spec.Sha.p32) (Spec.Abi.words s Q 8) (bytesAt s.mem S (64 * n)) := by
  obtain ⟨s', r, x, w⟩ := sha256_run (abi := abi) (N := 64 * n) (by rw [blocks]) entered state src
  exact ⟨s', r, by rw [x, ← blocks, BitVec.ofNat_toNat, BitVec.setWidth_eq], w⟩

/-- C56, `milo_internal_arch_x86_64_cpuid(A, leaf, subleaf)`: the array gets the processor's four answers, `eax`, `ebx`, `ecx`, `edx`. -/
theorem C56_cpuid (abi : Abi) (M : Machine) (s : State) (A : W64) (leaf sub : W32) (info : Spec.Abi.arg abi s 0 = A)
    (hl : (Spec.Abi.arg abi s 1).setWidth 32 = leaf) (hs : (Spec.Abi.arg abi s 2).setWidth 32 = sub)
    (entered : Spec.Abi.Entered M s [] [] [(A, 16)]) (a b c d : W32) (answers : M.cpuid leaf sub = (a, b, c, d)) :
    ∃ s', Spec.Abi.Returns abi M (cpuidFn abi) s s' [(A, 16)] ∧ Spec.Abi.words s' A 4 = [a, b, c, d] := by
  obtain ⟨s', r, w⟩ := cpuid_run (abi := abi) entered info
  rw [hl, hs, answers] at w
  exact ⟨s', r, w⟩

/-! ### Callers -/

/-- Memory with numbers 0, 7, 14, … in it, and some bytes at some addresses. -/
def image : List (W64 × List Byte) → W64 → Byte
  | [] => fun a => BitVec.ofNat 8 (7 * a.toNat)
  | (b, bs) :: l => putBytes (image l) b bs

def inside (l : List (W64 × Nat)) (a : W64) : Bool := l.any fun p => decide ((a - p.1).toNat < p.2)

/-- A program that has called a function, with constants at 0x400000 and the stack pointer at 0x7fff0008, and may read and write nothing but what the function
is to read and write. The caller's stack begins with a return address, 32 bytes of shadow space and the number 0x650001. -/
def callerM (ro : List Byte) (reads writes : List (W64 × Nat)) : Machine where
  rd := inside ((0x7ffefc08, 1024) :: (0x7fff0008, 8) :: (0x400000, ro.length) :: (0x7fff0030, 8) :: reads)
  wr := inside ((0x7ffefc08, 1024) :: writes)
  ro := 0x400000
  cpuid := fun l u => (l + 13, 0x756e6547, u, 0x49656e69)

def callerS (ro : List Byte) (regs : List (Reg × W64)) : State where
  g := fun r => if r = .rsp then 0x7fff0008 else (regs.lookup r).getD 0x1234567890
  v := fun i j => BitVec.ofNat 32 (16 * i + j)
  zf := true
  mem := image [(0x7fff0030, Memory.toLE 8 0x650001), (0x400000, ro)]

theorem area_iff (b : Nat) (n : Nat) (a : W64) (hb : b < 2 ^ 64) (h : b + n ≤ 2 ^ 64) : Area (BitVec.ofNat 64 b) n a ↔ b ≤ a.toNat ∧ a.toNat < b + n := by
  unfold Area
  rw [BitVec.toNat_sub, BitVec.toNat_ofNat, Nat.mod_eq_of_lt hb]
  have := a.isLt
  by_cases hc : b ≤ a.toNat
  · rw [show 2 ^ 64 - b + a.toNat = (a.toNat - b) + 2 ^ 64 by omega, Nat.add_mod_right, Nat.mod_eq_of_lt (by omega)]
    omega
  · rw [Nat.mod_eq_of_lt (by omega)]
    omega

theorem inside_of {l : List (W64 × Nat)} {a : W64} (p : W64 × Nat) (hp : p ∈ l) (h : Area p.1 p.2 a) : inside l a = true :=
  List.any_eq_true.mpr ⟨p, hp, decide_eq_true h⟩

/-- The caller has done its part if the areas lie between the constants and the stack. -/
theorem caller_entered (ro : List Byte) (hro : ro.length ≤ 0x10000) (regs : List (Reg × W64)) (reads writes : List (W64 × Nat))
    (hr : ∀ p ∈ reads, ∃ b n, p = (BitVec.ofNat 64 b, n) ∧ 0x410000 ≤ b ∧ b + n ≤ 0x7ffefc08)
    (hw : ∀ p ∈ writes, ∃ b n, p = (BitVec.ofNat 64 b, n) ∧ 0x410000 ≤ b ∧ b + n ≤ 0x7ffefc08) (r' : List (W64 × Nat))
    (hr' : ∀ p ∈ r', p ∈ reads ∨ p = (0x7fff0030, 8)) :
    Spec.Abi.Entered (callerM ro reads writes) (callerS ro regs) ro r' writes := by
  have hrsp : (callerS ro regs).g .rsp = BitVec.ofNat 64 0x7fff0008 := rfl
  have hroom : ∀ a, Spec.Abi.room (callerS ro regs) a ↔ 0x7ffefc08 ≤ a.toNat ∧ a.toNat < 0x7ffefc08 + 1024 := fun a => by
    unfold Spec.Abi.room
    rw [hrsp]
    exact area_iff 0x7ffefc08 1024 a (by omega) (by omega)
  have hframe : ∀ a, Spec.Abi.frame (callerS ro regs) a ↔ 0x7ffefc08 ≤ a.toNat ∧ a.toNat < 0x7ffefc08 + 1032 := fun a => by
    unfold Spec.Abi.frame
    rw [hrsp]
    exact area_iff 0x7ffefc08 1032 a (by omega) (by omega)
  have hroA : ∀ a, Area (callerM ro reads writes).ro ro.length a ↔ 0x400000 ≤ a.toNat ∧ a.toNat < 0x400000 + ro.length := fun a =>
    area_iff 0x400000 ro.length a (by omega) (by omega)
  have hst : ∀ a, Spec.Abi.room (callerS ro regs) a → Area 0x7ffefc08 1024 a := fun a h => (area_iff 0x7ffefc08 1024 a (by omega) (by omega)).mpr ((hroom a).mp h)
  refine ⟨by rw [hrsp]; rfl, fun a h => ⟨inside_of _ (.head _) (hst a h), inside_of _ (.head _) (hst a h)⟩, fun a h => inside_of _ (.tail _ (.head _)) h, show (0x400000#64).toNat % 16 = 0 by decide, fun a h => ?_, ?_, fun p hp a h => ?_, fun p hp a h => ?_⟩
  · refine ⟨inside_of _ (.tail _ (.tail _ (.head _))) h, fun hc => ?_⟩
    rw [hroA] at h
    rw [hframe] at hc
    omega
  · have e : ∀ i, i < ro.length → (callerS ro regs).mem (0x400000 + BitVec.ofNat 64 i) = image [(0x400000, ro)] (0x400000 + BitVec.ofNat 64 i) := fun i hi => by
      refine putBytes_out ?_
      rw [show (Memory.toLE 8 0x650001).length = 8 from rfl]
      intro hc
      have h1 := (area_iff 0x7fff0030 8 _ (by omega) (by omega)).mp hc
      have h2 : (0x400000 + BitVec.ofNat 64 i : W64).toNat = 0x400000 + i := by
        rw [BitVec.toNat_add, BitVec.toNat_ofNat, Nat.mod_eq_of_lt (show i < 2 ^ 64 by omega)]
        exact Nat.mod_eq_of_lt (show 0x400000 + i < 2 ^ 64 by omega)
      rw [h2] at h1
      omega
    show bytesAt _ (0x400000 : W64) _ = _
    rw [bytesAt_congr e]
    exact bytesAt_putBytes _ _ _ (by omega)
  · rcases hr' p hp with h' | rfl
    · obtain ⟨b, n, rfl, h1, h2⟩ := hr p h'
      refine ⟨inside_of _ (.tail _ (.tail _ (.tail _ (.tail _ h')))) h, fun hc => ?_⟩
      have := (area_iff b n a (by omega) (by omega)).mp h
      rw [hroom] at hc
      omega
    · refine ⟨inside_of _ (.tail _ (.tail _ (.tail _ (.head _)))) h, fun hc => ?_⟩
      have := (area_iff 0x7fff0030 8 a (by omega) (by omega)).mp h
      rw [hroom] at hc
      omega
  · obtain ⟨b, n, rfl, h1, h2⟩ := hw p hp
    have := (area_iff b n a (by omega) (by omega)).mp h
    refine ⟨inside_of _ (.tail _ hp) h, fun hc => ?_, fun hc => ?_⟩
    · rw [hframe] at hc
      omega
    · rw [hroA] at hc
      omega

theorem apart_of (b n c m : Nat) (hb : b + n ≤ 2 ^ 63) (hc : c + m ≤ 2 ^ 63) (h : b + n ≤ c ∨ c + m ≤ b) : Apart (Area (BitVec.ofNat 64 b) n) (Area (BitVec.ofNat 64 c) m) := fun a h1 h2 => by
  have h1 := (area_iff b n a (by omega) (by omega)).mp h1
  have h2 := (area_iff c m a (by omega) (by omega)).mp h2
  omega

theorem avx2Ro_length : avx2Ro.length = 128 := by decide +kernel
theorem ssse3Ro_length : ssse3Ro.length = 64 := by decide

/-- Hypotheses of C56 met: AVX2 on Windows, three passes (1536 bytes) from a source at an odd address to another place, the fifth argument on the stack. -/
example :
    let M := callerM avx2Ro [(0x650001, 1536), (0x610000, 64)] [(0x670003, 1536)]
    let s := callerS avx2Ro [(.rcx, 10), (.rdx, 3), (.r8, 0x610000), (.r9, 0x670003)]
    ∃ s', Spec.Abi.Returns .wind M (chacha .wind .vex256 true) s s' [(0x670003, 1536)] ∧ s'.g .rax = 24 ∧
      ∀ i, i < 1536 → s'.mem (0x670003 + BitVec.ofNat 64 i) = s.mem (0x650001 + BitVec.ofNat 64 i) ^^^ Spec.Abi.keyByte (Spec.Abi.words s 0x610000 16) i := by
  refine C56_chacha_transform .wind .vex256 (.inr rfl) (callerM avx2Ro [(0x650001, 1536), (0x610000, 64)] [(0x670003, 1536)])
    (callerS avx2Ro [(.rcx, 10), (.rdx, 3), (.r8, 0x610000), (.r9, 0x670003)]) 3 0x610000 0x670003 0x650001 rfl rfl rfl rfl ?_
    (caller_entered avx2Ro (by rw [avx2Ro_length]; omega) _ [(0x650001, 1536), (0x610000, 64)] [(0x670003, 1536)] ?_ ?_ _ ?_)
    (apart_of 0x670003 1536 0x610000 64 (by omega) (by omega) (by omega)) (.inr (apart_of 0x670003 1536 0x650001 1536 (by omega) (by omega) (by omega)))
  · show Spec.Abi.qword _ (0x7fff0030 : W64) = _
    unfold Spec.Abi.qword
    have := bytesAt_putBytes (image [(0x400000, avx2Ro)]) 0x7fff0030 (Memory.toLE 8 0x650001) (by decide)
    change bytesAt _ _ 8 = _ at this
    show BitVec.ofNat 64 (Spec.leNat (bytesAt (putBytes (image [(0x400000, avx2Ro)]) 0x7fff0030 (Memory.toLE 8 0x650001)) _ 8)) = _
    rw [this]
    decide
  · intro p hp
    simp only [List.mem_cons, List.not_mem_nil, or_false] at hp
    rcases hp with rfl | rfl
    · exact ⟨0x650001, 1536, rfl, by omega, by omega⟩
    · exact ⟨0x610000, 64, rfl, by omega, by omega⟩
  · intro p hp
    simp only [List.mem_cons, List.not_mem_nil, or_false] at hp
    subst hp
    exact ⟨0x670003, 1536, rfl, by omega, by omega⟩
  · intro p hp
    have : p ∈ [((0x650001 : W64), 1536), (0x7fff0030, 8), (0x610000, 64)] := hp
    simp only [List.mem_cons, List.not_mem_nil, or_false] at this ⊢
    rcases this with rfl | rfl | rfl
    · exact .inl (.inl rfl)
    · exact .inr rfl
    · exact .inl (.inr rfl)

/-- Hypotheses of C56 met: SSSE3 on Linux, two passes (512 bytes) in place. -/
example :
    let M := callerM ssse3Ro [(0x650001, 512), (0x610000, 64)] [(0x650001, 512)]
    let s := callerS ssse3Ro [(.rdi, 10), (.rsi, 2), (.rdx, 0x610000), (.rcx, 0x650001), (.r8, 0x650001)]
    ∃ s', Spec.Abi.Returns .unix M (chacha .unix .sse true) s s' [(0x650001, 512)] ∧ s'.g .rax = 8 ∧
      ∀ i, i < 512 → s'.mem (0x650001 + BitVec.ofNat 64 i) = s.mem (0x650001 + BitVec.ofNat 64 i) ^^^ Spec.Abi.keyByte (Spec.Abi.words s 0x610000 16) i := by
  refine C56_chacha_transform .unix .sse (.inl rfl) (callerM ssse3Ro [(0x650001, 512), (0x610000, 64)] [(0x650001, 512)])
    (callerS ssse3Ro [(.rdi, 10), (.rsi, 2), (.rdx, 0x610000), (.rcx, 0x650001), (.r8, 0x650001)]) 2 0x610000 0x650001 0x650001 rfl rfl rfl rfl rfl
    (caller_entered ssse3Ro (by rw [ssse3Ro_length]; omega) _ [(0x650001, 512), (0x610000, 64)] [(0x650001, 512)] ?_ ?_ _ fun p hp => .inl hp)
    (apart_of 0x650001 512 0x610000 64 (by omega) (by omega) (by omega)) (.inl rfl)
  all_goals
    intro p hp
    simp only [List.mem_cons, List.not_mem_nil, or_false] at hp
  · rcases hp with rfl | rfl
    · exact ⟨0x650001, 512, rfl, by omega, by omega⟩
    · exact ⟨0x610000, 64, rfl, by omega, by omega⟩
  · subst hp
    exact ⟨0x650001, 512, rfl, by omega, by omega⟩

/-- Hypotheses of C56 met: key stream by AVX2 on Linux. -/
example :
    let M := callerM avx2Ro [(0x610000, 64)] [(0x650001, 1024)]
    let s := callerS avx2Ro [(.rdi, 10), (.rsi, 2), (.rdx, 0x610000), (.rcx, 0x650001)]
    ∃ s', Spec.Abi.Returns .unix M (chacha .unix .vex256 false) s s' [(0x650001, 1024)] ∧ s'.g .rax = 16 ∧
      ∀ i, i < 1024 → s'.mem (0x650001 + BitVec.ofNat 64 i) = Spec.Abi.keyByte (Spec.Abi.words s 0x610000 16) i := by
  refine C56_chacha_generate .unix .vex256 (.inr rfl) (callerM avx2Ro [(0x610000, 64)] [(0x650001, 1024)])
    (callerS avx2Ro [(.rdi, 10), (.rsi, 2), (.rdx, 0x610000), (.rcx, 0x650001)]) 2 0x610000 0x650001 rfl rfl rfl rfl
    (caller_entered avx2Ro (by rw [avx2Ro_length]; omega) _ [(0x610000, 64)] [(0x650001, 1024)] ?_ ?_ _ fun p hp => .inl hp)
    (apart_of 0x650001 1024 0x610000 64 (by omega) (by omega) (by omega))
  all_goals
    intro p hp
    simp only [List.mem_cons, List.not_mem_nil, or_false] at hp
    subst hp
  · exact ⟨0x610000, 64, rfl, by omega, by omega⟩
  · exact ⟨0x650001, 1024, rfl, by omega, by omega⟩

/-- Hypotheses of C56 met: two blocks for SHA-1 on Windows and for SHA-256 on Linux. -/
example :
    let M := callerM sha1Ro [(0x610000, 20), (0x650001, 128)] [(0x610000, 20)]
    let s := callerS sha1Ro [(.rcx, 2), (.rdx, 0x610000), (.r8, 0x650001)]
    ∃ s', Spec.Abi.Returns .wind M (sha1 .wind) s s' [(0x610000, 20)] ∧ s'.g .rax = 2 ∧
      Spec.Abi.words s' 0x610000 5 = Spec.Abi.hashed Spec.Sha.Sha1.compress (Spec.Abi.words s 0x610000 5) (bytesAt s.mem 0x650001 128) := by
  refine C56_sha1 .wind (callerM sha1Ro [(0x610000, 20), (0x650001, 128)] [(0x610000, 20)]) (callerS sha1Ro [(.rcx, 2), (.rdx, 0x610000), (.r8, 0x650001)])
    2 0x610000 0x650001 rfl rfl rfl (caller_entered sha1Ro (by decide) _ _ _ ?_ ?_ _ fun p hp => .inl hp)
  all_goals
    intro p hp
    simp only [List.mem_cons, List.not_mem_nil, or_false] at hp
  · rcases hp with rfl | rfl
    · exact ⟨0x610000, 20, rfl, by omega, by omega⟩
    · exact ⟨0x650001, 128, rfl, by omega, by omega⟩
  · subst hp
    exact ⟨0x610000, 20, rfl, by omega, by omega⟩

example :
    let M := callerM sha256Ro [(0x610000, 32), (0x650001, 128)] [(0x610000, 32)]
    let s := callerS sha256Ro [(.rdi, 2), (.rsi, 0x610000), (.rdx, 0x650001)]
    ∃ s', Spec.Abi.Returns .unix M (sha256 .unix) s s' [(0x610000, 32)] ∧ s'.g .rax = 2 ∧
      Spec.Abi.words s' 0x610000 8 = Spec.Abi.hashed (Spec.Sha.Sha2.compress Spec.Sha.p32) (Spec.Abi.words s 0x610000 8) (bytesAt s.mem 0x650001 128) := by
  refine C56_sha256 .unix (callerM sha256Ro [(0x610000, 32), (0x650001, 128)] [(0x610000, 32)]) (callerS sha256Ro [(.rdi, 2), (.rsi, 0x610000), (.rdx, 0x650001)])
    2 0x610000 0x650001 rfl rfl rfl (caller_entered sha256Ro (by rw [sha256Ro_length]; omega) _ _ _ ?_ ?_ _ fun p hp => .inl hp)
  all_goals
    intro p hp
    simp only [List.mem_cons, List.not_mem_nil, or_false] at hp
  · rcases hp with rfl | rfl
    · exact ⟨0x610000, 32, rfl, by omega, by omega⟩
    · exact ⟨0x650001, 128, rfl, by omega, by omega⟩
  · subst hp
    exact ⟨0x610000, 32, rfl, by omega, by omega⟩

/-- Hypotheses of C56 met: `cpuid` leaf 7, the upper halves of the registers with the 32-bit arguments being anything. -/
example :
    let M := callerM [] [] [(0x610000, 16)]
    let s := callerS [] [(.rdi, 0x610000), (.rsi, 0xdeadbeef00000007), (.rdx, 0x100000000)]
    ∃ s', Spec.Abi.Returns .unix M (cpuidFn .unix) s s' [(0x610000, 16)] ∧ Spec.Abi.words s' 0x610000 4 = [20, 0x756e6547, 0, 0x49656e69] := by
  refine C56_cpuid .unix (callerM [] [] [(0x610000, 16)]) (callerS [] [(.rdi, 0x610000), (.rsi, 0xdeadbeef00000007), (.rdx, 0x100000000)]) 0x610000 7 0 rfl rfl rfl
    (caller_entered [] (by decide) _ [] [(0x610000, 16)] (by simp) ?_ _ (by simp)) 20 0x756e6547 0 0x49656e69 rfl
  intro p hp
  simp only [List.mem_cons, List.not_mem_nil, or_false] at hp
  subst hp
  exact ⟨0x610000, 16, rfl, by omega, by omega⟩

end Milo.Props
