import Verif.Model.AppVar
/- What values of the application's configuration mean. -/
namespace Spec.Var
open Milo.App

/-- The content of a value: a text, a number (in units of 2^-1074, so that every double is a whole number), an infinity or a truth value. -/
inductive Content where
  | text (s : Str)
  | number (units : Int)
  | infinite (neg : Bool)
  | truth (b : Bool)
  deriving DecidableEq

/-- Arrays, objects and what is not a number have no content to compare. The two zeros are the same number. -/
def content : Key → Option Content
  | .view s => some (.text s)
  | .string s => some (.text s)
  | .long n => some (.number (n.toInt * 2 ^ 1074))
  | .ulong n => some (.number (n.toNat * 2 ^ 1074))
  | .dbl (.fin neg u) => some (.number (if neg then -(u : Int) else u))
  | .dbl (.inf neg) => some (.infinite neg)
  | .dbl .nan => none
  | .bool b => some (.truth b)
  | .array => none
  | .object => none

/-- The value last assigned under a name of the same content. -/
def latest {α : Type} (h : List (Key × α)) (k : Key) : Option α := ((h.filter fun e => content e.1 = content k).getLast?).map Prod.snd

/-- The names a program uses: each text always in the same form, `form s` tells whether as a `std::string`; besides texts only values of one type, integers or truth values. -/
def Tidy (form : Str → Bool) (kind : Key.Kind) : Key → Prop
  | .view s => form s = false
  | .string s => form s = true
  | .long _ => kind = .long
  | .ulong _ => kind = .ulong
  | .bool _ => kind = .bool
  | _ => False

/-- What is read, which is what was last assigned; each name is there once. -/
structure Faithful {α : Type} (L : Lib) (h : List (Key × α)) (t : Table α) (names : Key → Prop) : Prop where
  reads : ∀ k, names k → ∀ v, t.Reads L k v ↔ latest h k = some v
  throws : ∀ k, names k → (t.Throws L k ↔ latest h k = none)
  once : (t.nodes.map fun n => content n.1).Nodup
  members : ∀ c, c ∈ t.nodes.map (fun n => content n.1) ↔ c ∈ h.map (fun e => content e.1)

/-- Names that have a content. -/
def Named (k : Key) : Prop := content k ≠ none

/-- C75 in full: whatever types the names are given as. -/
def FoundAgain : Prop := ∀ (L : Lib) (α : Type) (h : List (Key × α)) (t : Table α), (∀ e ∈ h, Named e.1) → t.Run L h → Faithful L h t Named

/-- C76 in full: values are equal if their contents are. -/
def Compares : Prop := ∀ a b : Key, Named a → Named b → a.compare b = some (decide (content a = content b))

/-- Comparisons that do what they should: texts with anything; values of one type; integers both below 2^63, or with a signed one that is not negative; a double on the left with
an integer of less than 2^53; an integer on the left with a double that is a whole number of its range; a truth value on the left. -/
def Safe : Key → Key → Prop
  | .long n, .ulong m => 0 ≤ n.toInt ∨ m.toNat < 2 ^ 63
  | .ulong m, .long n => 0 ≤ n.toInt ∨ m.toNat < 2 ^ 63
  | .dbl _, .long n => n.toInt.natAbs < 2 ^ 53
  | .dbl _, .ulong n => n.toNat < 2 ^ 53
  | .long _, .dbl d => ∃ z : Int, content (.dbl d) = some (.number (z * 2 ^ 1074)) ∧ -2 ^ 63 ≤ z ∧ z < 2 ^ 63
  | .ulong _, .dbl d => ∃ z : Int, content (.dbl d) = some (.number (z * 2 ^ 1074)) ∧ 0 ≤ z ∧ z < 2 ^ 64
  | .long _, .bool _ => False
  | .ulong _, .bool _ => False
  | .dbl _, .bool _ => False
  | _, _ => True

/-- Has a fraction. -/
def Fractional : F64 → Prop
  | .fin _ u => u % 2 ^ 1074 ≠ 0
  | _ => False

/-- C77 in full: what is read as a type it is not convertible to is refused. `convertible` is the table of conversions: by reference only the type itself. -/
def Refuses : Prop :=
  (∀ k : Key, k.toSize = .refused ∨ ∃ n, k.toSize = .value n) ∧
  (∀ k : Key, k.toBool = .refused ∨ ∃ b, k.toBool = .value b) ∧
  (∀ (want : Key.Kind) (k : Key), k.toRef want = if k.kind = want then .value k else .refused) ∧
  (∀ (α : Type) (l : List α) (k : Key), arrayAt l k ≠ .undefined)

end Spec.Var
