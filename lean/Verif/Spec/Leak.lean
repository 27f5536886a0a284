import Verif.Spec.Abi
/-
What somebody learns of a run of an assembly function who measures time, or shares caches and branch predictors with it: which line is executed when, and which
addresses are accessed. (That an instruction takes the same time whatever its operands is what the processor's manual promises for those in use here.)
-/
namespace Spec.Leak
open Milo Milo.X64

inductive Event where
  /-- the line with so many lines after it -/
  | line (after : Nat)
  | read (a : W64) (n : Nat)
  | write (a : W64) (n : Nat)
  /-- the caller runs again -/
  | returned
  deriving DecidableEq

/-- Memory an operand is read from. -/
def operand (M : Machine) (s : State) (n : Nat) : Opnd → List Event
  | .x _ => []
  | .m a => [.read (addr M s a) n]

/-- Memory an instruction accesses. -/
def accesses (M : Machine) (s : State) : Ins → List Event
  | .push _ => [.write (s.g .rsp - 8) 8]
  | .pop _ => [.read (s.g .rsp) 8]
  | .load _ a => [.read (addr M s a) 8]
  | .store32 a _ => [.write (addr M s a) 4]
  | .vload k _ _ a => [.read (addr M s a) (4 * k.lanes)]
  | .vstore k _ a _ => [.write (addr M s a) (4 * k.lanes)]
  | .movdLoad _ a => [.read (addr M s a) 4]
  | .movdStore a _ => [.write (addr M s a) 4]
  | .vbroadcasti128 _ a => [.read (addr M s a) 16]
  | .bin k _ _ _ b => operand M s (4 * k.lanes) b
  | _ => []

/-- What is observed of the next step. -/
def observed (M : Machine) : Config → List Event
  | .at (.ins i :: r) s => .line r.length :: accesses M s i
  | .at (.ret :: r) s => [.line r.length, .read (s.g .rsp) 8]
  | .at (_ :: r) _ => [.line r.length]
  | .at [] _ => []
  | .returned _ _ => [.returned]

/-- What is observed of `n` steps, or of fewer if an instruction faults before. -/
def trace (M : Machine) (code : List Line) : Nat → Config → List Event
  | 0, _ => []
  | n + 1, c => observed M c ++ match next M code c with
    | none => []
    | some c => trace M code n c

/-- The processor at the first instruction of a function with `n` arguments, two states an onlooker cannot tell apart. -/
structure Public (abi : Abi) (n : Nat) (s s' : State) : Prop where
  rsp : s.g .rsp = s'.g .rsp
  args : ∀ i, i < n → Abi.arg abi s i = Abi.arg abi s' i

end Spec.Leak
