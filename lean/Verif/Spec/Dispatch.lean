import Verif.Model.Dispatch
/-
What it means that a processor supports an instruction set extension (Intel SDM, vol. 2A "CPUID" and vol. 1, 14.3 "Detection of AVX instructions"), and that
the requirements of a class are met.
-/
namespace Spec.Dispatch
open Milo.Dispatch

/-- The processor reports the extension: the leaf exists (leaf 0 gives the last one) and the documented bit is set. -/
def Reports (cpuid : BitVec 32 → BitVec 32 → Regs) : Ext → Prop
  | .sse_1 => 1 ≤ (cpuid 0 0).eax.toNat ∧ (cpuid 1 0).edx.getLsbD 25
  | .sse_2 => 1 ≤ (cpuid 0 0).eax.toNat ∧ (cpuid 1 0).edx.getLsbD 26
  | .sse_3 => 1 ≤ (cpuid 0 0).eax.toNat ∧ (cpuid 1 0).ecx.getLsbD 0
  | .ssse_3 => 1 ≤ (cpuid 0 0).eax.toNat ∧ (cpuid 1 0).ecx.getLsbD 9
  | .sse_4_1 => 1 ≤ (cpuid 0 0).eax.toNat ∧ (cpuid 1 0).ecx.getLsbD 19
  | .sse_4_2 => 1 ≤ (cpuid 0 0).eax.toNat ∧ (cpuid 1 0).ecx.getLsbD 20
  | .sse_4 => 1 ≤ (cpuid 0 0).eax.toNat ∧ (cpuid 1 0).ecx.getLsbD 19 ∧ (cpuid 1 0).ecx.getLsbD 20
  | .avx_1 => 1 ≤ (cpuid 0 0).eax.toNat ∧ (cpuid 1 0).ecx.getLsbD 28
  | .avx_2 => 7 ≤ (cpuid 0 0).eax.toNat ∧ (cpuid 7 0).ebx.getLsbD 5
  | .sha_1 => 7 ≤ (cpuid 0 0).eax.toNat ∧ (cpuid 7 0).ebx.getLsbD 29
  | .sha_2 => 7 ≤ (cpuid 0 0).eax.toNat ∧ (cpuid 7 0).ebx.getLsbD 29

/-- The extensions whose instructions fault unless the operating system has enabled the 256-bit registers. -/
def OsEnabled : List Ext := [.avx_1, .avx_2]

/-- The instructions of the extension can be executed: reported by the processor and, where that is needed, enabled by the operating system. -/
def Usable (m : Machine) (e : Ext) : Prop :=
  Reports m.cpuid e ∧ (e ∈ OsEnabled → (m.cpuid 1 0).ecx.getLsbD 27 ∧ m.ymm)

/-- The class needs nothing, or is for x86-64, this is x86-64, and each extension it declares satisfies `ok`. -/
def Met {α : Type} (ok : Ext → Prop) (m : Machine) (c : Class α) : Prop :=
  c.arch = none ∨ m.x86_64 ∧ ∃ ise, c.arch = some ⟨some ise⟩ ∧ ∀ es, ise = some es → ∀ e ∈ es, ok e

/-- A processor with everything. -/
def full : BitVec 32 → BitVec 32 → Regs := fun leaf _ => if leaf = 0 then ⟨7, 0, 0, 0⟩ else ⟨-1, -1, -1, -1⟩

/-- The extensions an instruction belongs to (Intel SDM, vol. 2). `lanes` is 4 in code on 128-bit registers and 8 in code on 256-bit registers. An operation on two
registers whose result goes to a third exists only in the VEX encoding. -/
def exts {V : Type} (lanes : Nat) : Milo.X86.Instr V → List Ext
  | .mov _ _ => if lanes = 8 then [.avx_1, .avx_2] else [.sse_2]
  | .bin o d a _ =>
    (match o with
    | .pshufb => [.ssse_3]
    | .sha1nexte | .sha1msg1 | .sha1msg2 => [.sha_1]
    | .sha256msg1 | .sha256msg2 => [.sha_2]
    | .paddd | .pxor | .punpckhdq | .punpckldq | .punpckhqdq | .punpcklqdq => [.sse_2]) ++
    (if lanes = 8 then [.avx_2] else if d = a then [] else [.avx_1])
  | .unImm _ _ _ _ => [.sse_2] ++ if lanes = 8 then [.avx_2] else []
  | .binImm o d a _ _ =>
    match o with
    | .vperm2i128 => [.avx_2]
    | .palignr => [.ssse_3] ++ if lanes = 8 then [.avx_2] else if d = a then [] else [.avx_1]
    | .sha1rnds4 => [.sha_1]
  | .rnds2 _ _ => [.sha_2]
  | .addDst _ => []
  | .addSrc _ => []

end Spec.Dispatch
