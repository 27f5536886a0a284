import Verif.Model.AppJson
/-
Values of the application's configuration and results: app/include/milo/app/type.h, `var` and the containers `array` and `object`.
-/
namespace Milo.App

/-- `double`: not a number, an infinity, or a sign and a magnitude counted in units of 2^-1074, the distance of the smallest numbers. (`Precise` below says which magnitudes there are.) (used in type.h:124-132) -/
inductive F64 where
  | nan
  | inf (neg : Bool)
  | fin (neg : Bool) (units : Nat)
  deriving DecidableEq, Repr

namespace F64

/-- The unit one of the magnitude. (No code in /repo: part of the description of `double`.) -/
def one : Nat := 2 ^ 1074

/-- The finite numbers of a binary64: 53 significant bits. -/
def Precise : F64 → Prop
  | .fin _ u => ∃ m e, m < 2 ^ 53 ∧ e < 2046 ∧ u = m * 2 ^ e
  | _ => True

/-- `==` of two doubles: nothing equals what is not a number; the two zeros are equal. (used in type.h:252-258) -/
def eq : F64 → F64 → Bool
  | .fin s u, .fin t v => u == v && (s == t || u == 0)
  | .inf s, .inf t => s == t
  | _, _ => false

/-- To nearest, ties to even, to 53 bits. (the conversion of an integer in type.h:257) -/
def round (n : Nat) : Nat :=
  if n < 2 ^ 53 then n else
    let s := Nat.log2 n - 52
    let q := n / 2 ^ s
    let r := n % 2 ^ s
    (if 2 ^ s < 2 * r ∨ (2 * r = 2 ^ s ∧ q % 2 = 1) then q + 1 else q) * 2 ^ s

/-- `(double)` of an integer. (type.h:257) -/
def ofInt (z : Int) : F64 := .fin (decide (z < 0)) (round z.natAbs * one)

/-- Towards zero. (the conversions in type.h:247, 252) -/
def trunc : F64 → Option Int
  | .fin s u => some (if s then -((u / one : Nat) : Int) else ((u / one : Nat) : Int))
  | _ => none

/-- `(long)` of a double: undefined if the truncated number does not fit. (type.h:247) -/
def toLong (d : F64) : Option (BitVec 64) := d.trunc.bind fun z => if -2 ^ 63 ≤ z ∧ z < 2 ^ 63 then some (BitVec.ofInt 64 z) else none

/-- `(long unsigned)` of a double. (type.h:252) -/
def toULong (d : F64) : Option (BitVec 64) := d.trunc.bind fun z => if 0 ≤ z ∧ z < 2 ^ 64 then some (BitVec.ofInt 64 z) else none

end F64

/-- type.h:14-52: what a `var` holds (`m_val`), as far as comparisons and hashes see it: of arrays and objects only that they are. -/
inductive Key where
  /-- `std::string_view`, also of a literal: type.h:79-88 -/
  | view (s : Str)
  | string (s : Str)
  /-- all signed integers: type.h:104-112 -/
  | long (n : BitVec 64)
  /-- all unsigned integers: type.h:114-122 -/
  | ulong (n : BitVec 64)
  | dbl (d : F64)
  | bool (b : Bool)
  | array
  | object
  deriving DecidableEq, Repr

namespace Key

/-- The type held: `type()`, type.h:173-178 -/
inductive Kind where
  | view | string | long | ulong | dbl | bool | array | object
  deriving DecidableEq, Repr

/-- The type held: type.h:173-197. -/
def kind : Key → Kind
  | .view _ => .view
  | .string _ => .string
  | .long _ => .long
  | .ulong _ => .ulong
  | .dbl _ => .dbl
  | .bool _ => .bool
  | .array => .array
  | .object => .object

/-- type.h:220-276 `compare(const t_var&)`, for a text. -/
def compareText (a : Key) (t : Str) : Bool :=
  match a with
  | .view s => s == t
  | .string s => s == t
  | _ => false

/-- type.h:240-260, for an integer of the value `z`: converted to the type held. -/
def compareInt (a : Key) (z : Int) : Bool :=
  match a with
  | .long n => n == BitVec.ofInt 64 z
  | .ulong n => n == BitVec.ofInt 64 z
  | .dbl d => F64.eq d (F64.ofInt z)
  | _ => false

/-- type.h:240-260, for a double; undefined if it cannot be converted. -/
def compareDbl (a : Key) (d : F64) : Option Bool :=
  match a with
  | .long n => d.toLong.map (n == ·)
  | .ulong n => d.toULong.map (n == ·)
  | .dbl e => some (F64.eq e d)
  | _ => some false

/-- type.h:240-272, for a `bool`, which is an integer also: only if no number is held, the last branch. -/
def compareBool (a : Key) (b : Bool) : Bool :=
  match a with
  | .bool c => c == b
  | _ => compareInt a (if b then 1 else 0)

/-- type.h:278-315 `compare(const var&)`, 437-445 `operator==`: by the type of the right side, then by that of the left. `none`: undefined behaviour. -/
def compare (a b : Key) : Option Bool :=
  match b with
  | .view s => some (compareText a s)
  | .string s => some (compareText a s)
  | .long n => some (compareInt a n.toInt)
  | .ulong n => some (compareInt a n.toNat)
  | .dbl d => compareDbl a d
  | .bool c => some (compareBool a c)
  | .array => some false
  | .object => some false

/-- type.h:317-352 `string()`; `none`: `std::logic_error`. `float` is `std::to_string` of a double. -/
def text (float : F64 → Str) : Key → Option Str
  | .string s => some s
  | .view s => some s
  | .long n => some (integer n.toInt)
  | .ulong n => some (digits n.toNat)
  | .dbl d => some (float d)
  | .bool b => some (if b then "true".toList else "false".toList)
  | .array => none
  | .object => none

end Key

/-- What the standard library chooses: `std::hash` of texts (the same for `std::string` and `std::string_view`), of numbers, `type_info::hash_code`, whether the map compares
stored hashes before keys (libc++) or only chooses a bucket by them (libstdc++), and which of the two keys is on the left of `==`. (used in type.h:26-50, 663) -/
structure Lib where
  text : Str → BitVec 64
  long : BitVec 64 → BitVec 64
  ulong : BitVec 64 → BitVec 64
  dbl : F64 → BitVec 64
  bool : Bool → BitVec 64
  code : Key.Kind → BitVec 64
  cached : Bool
  storedLeft : Bool

/-- type.h:26-50 `m_hasher`, 180-187 `hash()`, 561-572 `std::hash<var>`; arrays and objects have no `std::hash`. -/
def Lib.hash (L : Lib) (k : Key) : BitVec 64 :=
  let mix (h : BitVec 64) : BitVec 64 := h ^^^ (L.code k.kind <<< 1)
  match k with
  | .view s => mix (L.text s)
  | .string s => mix (L.text s)
  | .long n => mix (L.long n)
  | .ulong n => mix (L.ulong n)
  | .dbl d => mix (L.dbl d)
  | .bool b => mix (L.bool b)
  | .array => 0
  | .object => 0

/-- type.h:663 `std::unordered_map<var, var>`: the members and the number of buckets. `α` stands for the values. -/
structure Table (α : Type) where
  buckets : Nat
  nodes : List (Key × α)

/-- `std::unordered_map::unordered_map()`; the number of buckets is up to the library. (type.h:663) -/
def Table.empty (α : Type) (buckets : Nat) : Table α := ⟨buckets, []⟩

namespace Table
variable {α : Type}

/-- The map takes the node's key for the one given: same bucket (or same hash), and `==` holds. (`std::unordered_map::find`, `operator[]` and `at` as used in type.h:704-718) -/
def Hits (L : Lib) (t : Table α) (k : Key) (n : Key × α) : Prop :=
  (if L.cached then L.hash n.1 = L.hash k else (L.hash n.1).toNat % t.buckets = (L.hash k).toNat % t.buckets) ∧
  (if L.storedLeft then n.1.compare k else k.compare n.1) = some true

/-- type.h:712-718 `operator[] const`, that is `at`: one of the nodes that hit. -/
def Reads (L : Lib) (t : Table α) (k : Key) (v : α) : Prop := ∃ n ∈ t.nodes, Hits L t k n ∧ n.2 = v

/-- `at` throws `std::out_of_range`: nothing hits. (type.h:712-718) -/
def Throws (L : Lib) (t : Table α) (k : Key) : Prop := ∀ n ∈ t.nodes, ¬ Hits L t k n

/-- type.h:704-710 `operator[]` and the assignment to what it refers to: a node that hits is assigned to; if there is none, one is added. The library may then have any
(positive) number of buckets and any order of the nodes. -/
inductive Assigns (L : Lib) (k : Key) (v : α) : Table α → Table α → Prop
  | found {b : Nat} {pre post : List (Key × α)} {n : Key × α} : Hits L ⟨b, pre ++ n :: post⟩ k n →
      Assigns L k v ⟨b, pre ++ n :: post⟩ ⟨b, pre ++ (n.1, v) :: post⟩
  | added {t : Table α} {b : Nat} {nodes : List (Key × α)} : Throws L t k → 0 < b → List.Perm nodes ((k, v) :: t.nodes) → Assigns L k v t ⟨b, nodes⟩

/-- A history of assignments: type.h:680-690 (the constructor with a list), and the calls of the application. -/
inductive Run (L : Lib) : List (Key × α) → Table α → Prop
  | nil {b : Nat} : 0 < b → Run L [] (empty α b)
  | snoc {h : List (Key × α)} {t t' : Table α} {k : Key} {v : α} : Run L h t → Assigns L k v t t' → Run L (h ++ [(k, v)]) t'

end Table

/-- Outcomes of a conversion. (type.h:356-417, 625-639) -/
inductive Conv (β : Type) where
  | value (b : β)
  /-- `std::logic_error` -/
  | refused
  /-- a null pointer is followed, or an index is out of range -/
  | undefined
  deriving DecidableEq, Repr

/-- type.h:356-369 `operator size_t` -/
def Key.toSize : Key → Conv (BitVec 64)
  | .long n => .value n
  | .ulong n => .value n
  | _ => .refused

/-- type.h:371-389 `operator bool` -/
def Key.toBool : Key → Conv Bool
  | .bool b => .value b
  | .long n => .value (n != 0)
  | .ulong n => .value (n != 0)
  | _ => .refused

/-- type.h:391-417 `operator t_type&`, `operator const t_type&`, 199-217 `as`: `std::any_cast` of a pointer returns null if another type is held, and does not throw. `want` is the
type asked for. -/
def Key.toRef (want : Key.Kind) (k : Key) : Conv Key := if k.kind = want then .value k else .undefined

/-- type.h:625-639 `array::operator[]`: `std::vector::operator[]` does not check. -/
def arrayAt {α : Type} (l : List α) (k : Key) : Conv α :=
  match k.toSize with
  | .value n => match l[n.toNat]? with
    | some v => .value v
    | none => .undefined
  | .refused => .refused
  | .undefined => .undefined

end Milo.App
