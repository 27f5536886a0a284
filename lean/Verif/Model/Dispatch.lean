import Verif.Model.Mixed
/-
Model of src/milo/internal/impl.h, option.h, arch.h, arch/any.h, arch/x86_64.h, arch/x86_64/cpuid.asm and of the candidate lists of the primitives: which
class of an algorithm is run.

A class is represented by what it requires and by its content (`α`, what it computes). `none` stands for a type that is not a class (`void`: an option that
is not given, or a class of another architecture, e.g. sha_1_160_impl_hw_x86_64.h:83).
Not modelled: user-written choosers and invokers (option.h:292-306); those of the library only pass arguments on (hash/impl.h, cipher/impl.h,
mac/poly/poly_1305_impl.h).
-/
namespace Milo.Dispatch

/-- The instruction set extensions a class can declare (arch/x86_64.h:256-375). -/
inductive Ext where
  | sse_1 | sse_2 | sse_3 | ssse_3 | sse_4_1 | sse_4_2 | sse_4 | avx_1 | avx_2 | sha_1 | sha_2
  deriving DecidableEq, Repr

/-- arch/x86_64.h:71-77 `registers`. -/
structure Regs where
  eax : BitVec 32
  ebx : BitVec 32
  ecx : BitVec 32
  edx : BitVec 32
  deriving DecidableEq, Repr

/-- How the library is compiled, and the processor it runs on. (internal/arch/x86_64/cpuid.asm:1-29, internal/arch/x86_64.h:1-405) -/
structure Machine where
  /-- `MILO_INTERNAL_ARCH_X86_64` -/
  x86_64 : Bool
  /-- `MILO_INTERNAL_ASM` -/
  asm : Bool
  /-- the instruction `cpuid` of the processor: leaf (eax) and sub-leaf (ecx) -/
  cpuid : BitVec 32 → BitVec 32 → Regs
  /-- whether the operating system lets programs use the 256-bit registers (XCR0 bits 1 and 2 are set) -/
  ymm : Bool

/-- arch/x86_64.h:40-63 `arch_x86_64_cpuid` and arch/x86_64/cpuid.asm. -/
def cpuid (m : Machine) (leaf : BitVec 32) (sub : BitVec 32 := 0) : Regs := if m.asm then m.cpuid leaf sub else ⟨0, 0, 0, 0⟩

/-- arch/x86_64.h:81 `m_features`. -/
structure Info where
  f0 : Regs := ⟨0, 0, 0, 0⟩
  f1 : Regs := ⟨0, 0, 0, 0⟩

/-- arch/x86_64.h:85-116, the constructor of `arch_x86_64_info`. -/
def readInfo (m : Machine) : Info :=
  let max := (cpuid m 0).eax
  let i : Info := {}
  let i := if 1 ≤ max then { i with f0 := cpuid m 1 } else i
  if 7 ≤ max then { i with f1 := cpuid m 7 } else i

/-- `r & (1 << n)` as a truth value (internal/arch/x86_64.h:1-405) -/
def bit (r : BitVec 32) (n : Nat) : Bool := r &&& (1#32 <<< n) != 0

/-- arch/x86_64.h:131-199 and 204-246, the constants of `arch_x86_64_ise`. -/
def Info.has (i : Info) : Ext → Bool
  | .sse_1 => bit i.f0.edx 25
  | .sse_2 => bit i.f0.edx 26
  | .sse_3 => bit i.f0.ecx 0
  | .ssse_3 => bit i.f0.ecx 9
  | .sse_4_1 => bit i.f0.ecx 19
  | .sse_4_2 => bit i.f0.ecx 20
  | .sse_4 => bit i.f0.ecx 19 && bit i.f0.ecx 20
  | .avx_1 => bit i.f0.ecx 28
  | .avx_2 => bit i.f1.ebx 5
  | .sha_1 => bit i.f1.ebx 29
  | .sha_2 => bit i.f1.ebx 29

/-- What the member types of `requirements::arch` say: whether there is a member `x86_64`, in it a member `ise`, and which members that has. (requirements in detail/cipher/chacha/chacha_impl_hw_x86_64.h, detail/hash/sha/sha_1_160_impl_hw_x86_64.h (`requirements`)) -/
structure ArchReq where
  x86_64 : Option (Option (List Ext))
  deriving DecidableEq

/-- A class: the member type `requirements::arch`, if any, and what it does. (internal/impl.h:1-274) -/
structure Class (α : Type) where
  arch : Option ArchReq
  content : α
  deriving DecidableEq

/-- A type given as a candidate: `none` is `void`. `meta::complex` (meta.h:126-127) tells the two apart. -/
abbrev Cand (α : Type) := Option (Class α)

/-- The dynamic initialisation of the variables involved. They are inline variables, and `impl` is a static member of a template, so initialised in no
particular order with respect to others: code that runs before `main` may find them zero. (internal/impl.h:1-274, internal/arch/x86_64.h:1-405: inline variables) -/
inductive Phase where
  /-- nothing is initialised yet -/
  | zero
  /-- `impl` was initialised before the processor's features were read (impl.h:158-163, x86_64.h:202-246) -/
  | early
  /-- `impl` was initialised afterwards -/
  | done
  deriving DecidableEq, Repr

/-- The features `check` sees: zero-initialised constants, or those of the processor. (internal/arch/x86_64.h:1-405) -/
def seen (m : Machine) : Phase → Info
  | .done => readInfo m
  | _ => {}

/-- arch/x86_64.h:248-383 `check`; the tests of lines 266-375 are made one by one in that order. -/
def iseCheck (i : Info) (r : ArchReq) : Bool :=
  match r.x86_64 with
  | some (some ise) =>
    [.sse_1, .sse_2, .sse_3, .ssse_3, .sse_4_1, .sse_4_2, .sse_4, .avx_1, .avx_2, .sha_1, .sha_2].all fun e => !ise.contains e || i.has e
  | some none => true
  | none => false

/-- arch.h:15-18 `arch_active::ise::check`; arch/any.h:14-21. -/
def check (m : Machine) (p : Phase) (r : ArchReq) : Bool := if m.x86_64 then iseCheck (seen m p) r else false

/-- impl.h:42-85 `impl_choose_hook`; `none`: control flows off the end. -/
def chooseHook {α : Type} (check : ArchReq → Bool) : List (Cand α) → Option (Class α)
  | [] => none
  | none :: cs => chooseHook check cs
  | some c :: cs =>
    match c.arch with
    | none => some c
    | some r => if check r then some c else chooseHook check cs

/-- impl.h:87-122 `impl_choose_assert`. -/
def chooseAssert {α : Type} (cs : List (Cand α)) : Bool :=
  0 < cs.length && cs.any fun c => match c with
    | none => false
    | some c => c.arch.isNone

/-- The options (option.h:275-330, src/milo/option.h). Types are compared by name; `other` is any other type. -/
inductive Opt (α : Type) where
  | digestSize (n : Nat)
  | implChooser (name : String)
  | implInvoker (name : String)
  | implCpltime (c : Cand α)
  | implRuntime (c : Cand α)
  | implEnforce (c : Cand α)
  | other (name : String)

/-- option.h:91-108 `option_query` with a `solver` of option.h:138-159 or 224-239: `std::disjunction`, the first that is true. `none`: the `static_assert`
fails, the program is refused. -/
def query {α β : Type} (solver : Opt α → Option β) : List (Opt α) → Option β
  | [] => none
  | o :: os =>
    match solver o with
    | some v => some v
    | none => query solver os

/-- option.h:177-194, 256-272 `query_default`: the default is appended as the last option. -/
def queryDefault {α β : Type} (solver : Opt α → Option β) (default : Opt α) (os : List (Opt α)) : Option β := query solver (os ++ [default])

/-- option.h:279-286 -/
def Opt.digestSize? {α : Type} : Opt α → Option Nat
  | .digestSize n => some n
  | _ => none
/-- option.h:308-314 -/
def Opt.cpltime? {α : Type} : Opt α → Option (Cand α)
  | .implCpltime c => some c
  | _ => none
/-- option.h:316-322 -/
def Opt.runtime? {α : Type} : Opt α → Option (Cand α)
  | .implRuntime c => some c
  | _ => none
/-- option.h:324-330 -/
def Opt.enforce? {α : Type} : Opt α → Option (Cand α)
  | .implEnforce c => some c
  | _ => none

/-- impl.h:166-273 `impl_proxy`: the class that `invoke` runs. `none` is a program that is refused, or undefined behaviour (a call through a pointer not
yet set). -/
def invoke {α : Type} (m : Machine) (p : Phase) (consteval : Bool) (cpltime runtime : List (Cand α)) (os : List (Opt α)) : Option (Class α) := do
  let cplOverride ← queryDefault Opt.cpltime? (.implCpltime none) os
  let cplSelected ← cpltime.head?
  let prefer ← queryDefault Opt.runtime? (.implRuntime none) os
  let override ← queryDefault Opt.enforce? (.implEnforce none) os
  let runtime := prefer :: runtime
  if chooseAssert runtime then
    if consteval then
      match cplOverride with
      | some c => some c
      | none => cplSelected
    else
      match override with
      | some c => some c
      | none => if p = .zero then none else chooseHook (check m p) runtime
  else none

/-- A class that declares extensions of x86-64. -/
def needs {α : Type} (es : List Ext) (a : α) : Class α := ⟨some ⟨some (some es)⟩, a⟩

/-- Classes of assembly code exist only if it is built (e.g. sha_1_160_impl_hw_x86_64.h:11, 81-85). -/
def built {α : Type} (m : Machine) (c : Class α) : Cand α := if m.asm && m.x86_64 then some c else none

/-- A class without requirements. (detail/hash/sha/sha_1_160_impl_sw.h:11-158, detail/cipher/chacha/chacha_impl_sw.h:11-183) -/
def portable {α : Type} (a : α) : Cand α := some ⟨none, a⟩

/-- The classes of `sha_1_160` and of `sha_2_224`/`sha_2_256`. (detail/hash/sha/sha_1_160.h:20-50, sha_2_256.h:20-50) -/
inductive ShaClass where
  | sw | ni
  deriving DecidableEq, Repr

/-- sha_1_160_impl_hw_x86_64.h:29-54 -/
def sha1Ni : Class ShaClass := needs [.sse_1, .sse_2, .sse_3, .ssse_3, .sha_1] .ni
/-- sha_2_256_impl_hw_x86_64.h:29-56 -/
def sha256Ni : Class ShaClass := needs [.sse_1, .sse_2, .sse_3, .ssse_3, .avx_1, .sha_2] .ni

/-- sha_1_160.h:27-33 -/
def sha1Cpltime : List (Cand ShaClass) := [portable .sw]
/-- detail/hash/sha/sha_1_160.h:20-50: the candidates at run time. -/
def sha1Runtime (m : Machine) : List (Cand ShaClass) := [built m sha1Ni, portable .sw]
/-- sha_2_256.h:27-33 -/
def sha256Cpltime : List (Cand ShaClass) := [portable .sw]
/-- detail/hash/sha/sha_2_256.h:20-50: the candidates at run time. -/
def sha256Runtime (m : Machine) : List (Cand ShaClass) := [built m sha256Ni, portable .sw]

/-- The classes of `chacha_20`. (detail/cipher/chacha/chacha.h:20-50) -/
inductive ChaChaClass where
  | sw | ssse3 | avx2
  deriving DecidableEq, Repr

/-- chacha_impl_hw_x86_64.h:51-73 -/
def chachaSsse3 : Class ChaChaClass := needs [.sse_1, .sse_2, .sse_3, .ssse_3] .ssse3
/-- chacha_impl_hw_x86_64.h:130-156 -/
def chachaAvx2 : Class ChaChaClass := needs [.sse_1, .sse_2, .sse_3, .ssse_3, .avx_1, .avx_2] .avx2

/-- chacha.h:26-33 -/
def chachaCpltime : List (Cand ChaChaClass) := [portable .sw]
/-- detail/cipher/chacha/chacha.h:20-50: the candidates at run time. -/
def chachaRuntime (m : Machine) : List (Cand ChaChaClass) := [built m chachaAvx2, built m chachaSsse3, portable .sw]

/-- poly_1305.h:21-31: the options of the class are not passed on to the proxy. -/
def polyInvoke (m : Machine) (p : Phase) (consteval : Bool) (_ : List (Opt Unit)) : Option (Class Unit) :=
  invoke m p consteval [portable ()] [portable ()] []

/-- The content of a class of `chacha_20`, run with given contents of the registers. (detail/cipher/chacha/chacha.h:20-50) -/
def ChaChaClass.backend (junk : Nat → X86.Vec) : ChaChaClass → CipherBackend
  | .sw => .portable
  | .ssse3 => .ssse3 junk
  | .avx2 => .avx2 junk

/-- detail/hash/sha/sha_1_160.h:20-50, sha_2_256.h:20-50: what a class means for a host of Model/Memory. -/
def ShaClass.host (junk : Nat → X86.Vec) : ShaClass → Option (Nat → X86.Vec)
  | .sw => none
  | .ni => some junk

/-- `chacha_20<os...>`: the calls `cs` on an object, with the class that `invoke` runs. (detail/cipher/chacha/chacha.h:15-217) -/
def chachaRun (m : Machine) (e : Endian) (p : Phase) (consteval : Bool) (os : List (Opt ChaChaClass)) (junk : Nat → X86.Vec) (cs : List Cipher.Call) :
    Option (ChaCha.Obj × List Cipher.Out) := do
  let c ← invoke m p consteval chachaCpltime (chachaRuntime m) os
  let h : Host := ⟨e, consteval, none⟩
  Cipher.run h ((c.content.backend junk).impl h) cs

/-- The class run by `sha_1_160<os...>`, `sha_2_224<os...>` and `sha_2_256<os...>`; the other hash functions list one class (sha_2_512.h:26-32). -/
def shaInvoke (m : Machine) (p : Phase) (consteval : Bool) (os : List (Opt ShaClass)) : ShaAlg → Option (Class ShaClass)
  | .sha_1_160 => invoke m p consteval sha1Cpltime (sha1Runtime m) os
  | .sha_2_224 | .sha_2_256 => invoke m p consteval sha256Cpltime (sha256Runtime m) os
  | _ => invoke m p consteval [portable .sw] [portable .sw] os

/-- A hash class with options: the calls `cs` on an object, with the class that `invoke` runs. (detail/hash/sha/sha_1_160.h:15-193, sha_2_256.h:15-209) -/
def shaRun (m : Machine) (e : Endian) (p : Phase) (consteval : Bool) (os : List (Opt ShaClass)) (junk : Nat → X86.Vec) (a : ShaAlg) (cs : List Hash.Call) := do
  let c ← shaInvoke m p consteval os a
  let ds ← queryDefault Opt.digestSize? (.digestSize a.size) os
  let r ← Hash.run (a.impl ⟨e, consteval, c.content.host junk⟩ ds) cs
  pure r.2

end Milo.Dispatch
