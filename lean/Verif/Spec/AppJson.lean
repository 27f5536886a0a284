import Verif.Model.AppJson
import Verif.Spec.Json
import Verif.Spec.App
/- The JSON values that the application means to print. -/
namespace Milo.App
open Spec.Json

/-- No character needs an escape. -/
def Plain (s : Str) : Prop := ∀ c ∈ s, 32 ≤ c.toNat ∧ c ≠ '"' ∧ c ≠ '\\'

mutual

/-- The JSON value. -/
def Var.denote : Var → J
  | .str s => .str s
  | .nat n => .num (digits n)
  | .int z => .num (integer z)
  | .bool b => .bool b
  | .dbl d => .num d.text
  | .arr l => .arr l.denote
  | .obj l => .obj l.denote

def Elems.denote : Elems → List J
  | .nil => []
  | .cons v l => v.denote :: l.denote

def Members.denote : Members → List (Str × J)
  | .nil => []
  | .cons k v l => (k, v.denote) :: l.denote

end

mutual

/-- Strings need no escape, numbers are finite. -/
def Var.Good : Var → Prop
  | .str s => Plain s
  | .nat _ => True
  | .int _ => True
  | .bool _ => True
  | .dbl d => ∃ a b, d = .finite a b
  | .arr l => l.Good
  | .obj l => l.Good

def Elems.Good : Elems → Prop
  | .nil => True
  | .cons v l => v.Good ∧ l.Good

def Members.Good : Members → Prop
  | .nil => True
  | .cons k v l => Plain k ∧ v.Good ∧ l.Good

end

/-- All printed quotients are finite. -/
def FiniteMetrics (m : Metrics) : Prop :=
  m.nanosecondsPerCall.den ≠ 0 ∧ (∀ g b, m.throughput = some (g, b) → g.den ≠ 0 ∧ b.den ≠ 0) ∧ ∀ c b, m.cpu = some (c, b) → c.den ≠ 0 ∧ b.den ≠ 0

/-- A number with six digits after the point. -/
def Fixed (t : Str) (p : Nat × Nat) : Prop := ∃ a b, Spec.App.Decimal a p.1 ∧ b.length = 6 ∧ Spec.App.Decimal b p.2 ∧ t = a ++ '.' :: b

/-- The document says `n` under a path. -/
def Says (doc : J) (path : List Str) (n : Nat) : Prop := ∃ t, Spec.App.Decimal t n ∧ At doc path (.num t)

/-- The document says the quotient `q`, rounded, under a path. -/
def SaysQuot (doc : J) (path : List Str) (round : Quot → Nat × Nat) (q : Quot) : Prop := ∃ t, Fixed t (round q) ∧ At doc path (.num t)

/-- A path, from what comes before it. -/
def sub (pre : List Str) (path : List String) : List Str := pre ++ path.map String.toList

/-- The document has an entry's configuration and metrics under a path. -/
structure Shows (doc : J) (pre : List Str) (round : Quot → Nat × Nat) (e : Entry) : Prop where
  warm : Says doc (sub pre ["config", "benchmark", "repeats-warm"]) e.options.repeatsWarm.toNat
  time : Says doc (sub pre ["config", "benchmark", "repeats-time"]) e.options.repeatsTime.toNat
  clock : e.options.cpuClock ≠ 0 → Says doc (sub pre ["config", "benchmark", "cpu-clock"]) e.options.cpuClock.toNat
  input : ∀ q v, (q, v) ∈ e.input → Says doc (sub pre ["config", "input"] ++ [q]) v.toNat
  nanoseconds : e.metrics.nanosecondsPerCall.den ≠ 0 → SaysQuot doc (sub pre ["metrics", "duration", "nanoseconds_per_call"]) round e.metrics.nanosecondsPerCall
  throughput : ∀ g m, e.metrics.throughput = some (g, m) →
    (g.den ≠ 0 → SaysQuot doc (sub pre ["metrics", "throughput", "gigabytes_per_second"]) round g) ∧
    (m.den ≠ 0 → SaysQuot doc (sub pre ["metrics", "throughput", "megabytes_per_second"]) round m)
  cpu : ∀ c b, e.metrics.cpu = some (c, b) →
    (c.den ≠ 0 → SaysQuot doc (sub pre ["metrics", "cpu", "cycles_per_call"]) round c) ∧
    (b.den ≠ 0 → SaysQuot doc (sub pre ["metrics", "cpu", "cycles_per_byte"]) round b)

end Milo.App
