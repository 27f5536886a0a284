import Verif.Model.App
/-
JSON written by the application: app/include/milo/app/type.h, and the values that command/benchmark.h and run.h give to it.

A `std::unordered_map` is modelled by the list of its members in the order of the iteration; keys are strings, as everywhere in the application.
-/
namespace Milo.App

/-- `std::to_string` of an unsigned number. (used in type.h:317-352) -/
def digits (n : Nat) : Str := if h : n < 10 then [Char.ofNat (48 + n)] else digits (n / 10) ++ [Char.ofNat (48 + n % 10)]
  termination_by n
  decreasing_by omega

/-- `std::to_string` of a signed number. (used in type.h:317-352) -/
def integer (z : Int) : Str := if z < 0 then '-' :: digits z.natAbs else digits z.natAbs

/-- A floating point number as `std::to_string` prints it, that is `%f`: up to six digits after the point, or none of these. (used in type.h:317-352) -/
inductive Dbl where
  | finite (whole millionths : Nat)
  | infinite
  | notANumber
  deriving DecidableEq, Repr

/-- `%f`; the sign of what is not a number is that of glibc on x86-64. -/
def Dbl.text : Dbl → Str
  | .finite a b => digits a ++ '.' :: (digits (1000000 + b % 1000000)).drop 1
  | .infinite => "inf".toList
  | .notANumber => "-nan".toList

mutual

/-- type.h:14-574 `var`, 576-656 `array`, 658-730 `object` (the application uses no signed and boolean values and no negative `double`; of the latter there is no model). -/
inductive Var where
  | str (s : Str)
  | nat (n : Nat)
  | int (z : Int)
  | bool (b : Bool)
  | dbl (d : Dbl)
  | arr (l : Elems)
  | obj (l : Members)

/-- type.h:576-656 `array`: the elements. -/
inductive Elems where
  | nil
  | cons (v : Var) (l : Elems)

/-- type.h:658-730 `object`: the members. -/
inductive Members where
  | nil
  | cons (k : Str) (v : Var) (l : Members)

end

/-- The character `"`, type.h:832-931. -/
def quote : Char := '"'

mutual

/-- type.h:832-981 `to_json`: the text of an item. -/
def Var.json : Var → Str
  | .str s => quote :: (s ++ [quote])
  | .nat n => digits n
  | .int z => integer z
  | .bool b => if b then "true".toList else "false".toList
  | .dbl d => d.text
  | .arr l => '[' :: (l.json ++ [']'])
  | .obj l => '{' :: (l.json ++ ['}'])

/-- type.h:886-931, the loop: a comma if any are left. -/
def Elems.json : Elems → Str
  | .nil => []
  | .cons v l => v.json ++ l.jsonMore

/-- type.h:886-931, the rest of the loop. -/
def Elems.jsonMore : Elems → Str
  | .nil => []
  | .cons v l => ',' :: (v.json ++ l.jsonMore)

/-- type.h:832-884, the loop. -/
def Members.json : Members → Str
  | .nil => []
  | .cons k v l => quote :: (k ++ quote :: ':' :: (v.json ++ l.jsonMore))

/-- type.h:832-884, the rest of the loop. -/
def Members.jsonMore : Members → Str
  | .nil => []
  | .cons k v l => ',' :: quote :: (k ++ quote :: ':' :: (v.json ++ l.jsonMore))

end

mutual

/-- The same value, the members of objects in another order: `std::unordered_map` has no order of its own. (type.h:663) -/
inductive Same : Var → Var → Prop
  | str (s : Str) : Same (.str s) (.str s)
  | nat (n : Nat) : Same (.nat n) (.nat n)
  | int (z : Int) : Same (.int z) (.int z)
  | bool (b : Bool) : Same (.bool b) (.bool b)
  | dbl (d : Dbl) : Same (.dbl d) (.dbl d)
  | arr {l l' : Elems} : SameElems l l' → Same (.arr l) (.arr l')
  | obj {l l' : Members} : SameMembers l l' → Same (.obj l) (.obj l')

/-- `Same` for the elements of an array (type.h:576-656). -/
inductive SameElems : Elems → Elems → Prop
  | nil : SameElems .nil .nil
  | cons {v v' : Var} {l l' : Elems} : Same v v' → SameElems l l' → SameElems (.cons v l) (.cons v' l')

/-- `Same` for the members of an object (type.h:658-730). -/
inductive SameMembers : Members → Members → Prop
  | nil : SameMembers .nil .nil
  | cons (k : Str) {v v' : Var} {l l' : Members} : Same v v' → SameMembers l l' → SameMembers (.cons k v l) (.cons k v' l')
  | swap (k m : Str) (v w : Var) (l : Members) : SameMembers (.cons k v (.cons m w l)) (.cons m w (.cons k v l))
  | trans {l l' l'' : Members} : SameMembers l l' → SameMembers l' l'' → SameMembers l l''

end

/-- A list as an array (type.h:576-656). -/
def elems : List Var → Elems
  | [] => .nil
  | v :: l => .cons v (elems l)

/-- A list as an object (type.h:658-730). -/
def members : List (Str × Var) → Members
  | [] => .nil
  | (k, v) :: l => .cons k v (members l)

/-- `double(num) / double(den)`, printed; `round` is what the division and `%f` make of a quotient of numbers that are not zero. (command/benchmark.h:214-243) -/
def Quot.dbl (round : Quot → Nat × Nat) (q : Quot) : Dbl :=
  if q.den = 0 then if q.num = 0 then .notANumber else .infinite else .finite (round q).1 (round q).2

/-- benchmark.h:165-183, parameter.h:124: `config` -/
def Entry.config (e : Entry) : Var :=
  .obj (members [("benchmark".toList, .obj (members ([("repeats-warm".toList, .nat e.options.repeatsWarm.toNat), ("repeats-time".toList, .nat e.options.repeatsTime.toNat)] ++
      if e.options.cpuClock ≠ 0 then [("cpu-clock".toList, .nat e.options.cpuClock.toNat)] else []))),
    ("input".toList, .obj (members (e.input.map fun p => (p.1, .nat p.2.toNat))))])

/-- benchmark.h:214-243: `result["metrics"]` -/
def Entry.metricsVar (round : Quot → Nat × Nat) (e : Entry) : Var :=
  .obj (members ([("duration".toList, .obj (members [("nanoseconds_per_call".toList, .dbl (e.metrics.nanosecondsPerCall.dbl round))]))] ++
    (match e.metrics.throughput with
      | some (g, m) => [("throughput".toList, .obj (members [("gigabytes_per_second".toList, .dbl (g.dbl round)), ("megabytes_per_second".toList, .dbl (m.dbl round))]))]
      | none => []) ++
    (match e.metrics.cpu with
      | some (c, b) => [("cpu".toList, .obj (members [("cycles_per_call".toList, .dbl (c.dbl round)), ("cycles_per_byte".toList, .dbl (b.dbl round))]))]
      | none => [])))

/-- benchmark.h:185, 207-243: `app::context["result"]` -/
def resultVar (round : Quot → Nat × Nat) (l : List Entry) : Var :=
  .obj (members (if l = [] then [] else
    [("benchmark".toList, .obj (members [("primitive".toList, .obj (members (l.map fun e =>
      (e.name, .obj (members [("config".toList, e.config), ("metrics".toList, e.metricsVar round)])))))]))]))

/-- Constants of the build: names and versions of the compiler and of the project. (run.h:23-48) -/
structure Build where
  compiler : Str
  compilerVersion : Str
  project : Str
  projectVersion : Str

/-- run.h:23-48: `app::context`; benchmark.h:1259-1271: what is printed of it. -/
def printedVar (b : Build) (round : Quot → Nat × Nat) (verbose : Option (List Str)) (l : List Entry) : Var :=
  match verbose with
  | none => resultVar round l
  | some args => .obj (members
      [("compiler".toList, .obj (members [("name".toList, .str b.compiler), ("version".toList, .str b.compilerVersion)])),
       ("project".toList, .obj (members [("name".toList, .str b.project), ("version".toList, .str b.projectVersion)])),
       ("command".toList, .obj (members [("dump".toList, .str (args.foldl (fun s x => s ++ x ++ [' ']) []).dropLast), ("args".toList, .arr (elems (args.map .str)))])),
       ("result".toList, resultVar round l)])

end Milo.App
