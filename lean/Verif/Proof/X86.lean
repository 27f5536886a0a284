import Verif.Model.X86
import Verif.Proof.KernelRfl
/- Running programs in sequence. -/
namespace Milo.X86
open Memory

theorem exec_append {V M : Type} (A : Alg V M) (s : St V M) (p q : List (Instr V)) : exec A s (p ++ q) = (exec A s p).bind fun s => exec A s q := by
  induction p generalizing s with
  | nil => rfl
  | cons i p ih =>
    simp only [List.cons_append, exec, Option.bind_eq_bind]
    cases step A s i with
    | none => rfl
    | some t => exact ih t

theorem exec_trans {V M : Type} {A : Alg V M} {s s1 s2 : St V M} {p q : List (Instr V)} (h1 : exec A s p = some s1) (h2 : exec A s1 q = some s2) :
    exec A s (p ++ q) = some s2 := by rw [exec_append, h1]; exact h2

end Milo.X86
