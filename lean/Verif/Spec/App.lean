/-
What doc/benchmarking.md says about the command line of the application.
-/
namespace Spec.App

/-- A pattern expression matches a name: each '*' stands for any characters, also none, every other character for itself. -/
inductive Glob : List Char → List Char → Prop
  | nil : Glob [] []
  | star {p m : List Char} (u : List Char) : Glob p m → Glob ('*' :: p) (u ++ m)
  | char {c : Char} {p m : List Char} : c ≠ '*' → Glob p m → Glob (c :: p) (c :: m)

/-- "Parameters and options" begin with two dashes … -/
def isOption (x : List Char) : Prop := ∃ y, x = '-' :: '-' :: y

/-- … commands with anything but a dash. -/
def isCommand (x : List Char) : Prop := ∀ y, x ≠ '-' :: y

/-- The option `--name`. -/
def opt (name : List Char) : List Char := '-' :: '-' :: name

/-- The parameter `--name=value`. -/
def par (name value : List Char) : List Char := '-' :: '-' :: (name ++ '=' :: value)

/-- A decimal number. -/
inductive Decimal : List Char → Nat → Prop
  | digit {c : Char} {d : Nat} : d < 10 → c = Char.ofNat (48 + d) → Decimal [c] d
  | more {s : List Char} {n : Nat} {c : Char} {d : Nat} : Decimal s n → d < 10 → c = Char.ofNat (48 + d) → Decimal (s ++ [c]) (10 * n + d)

/-- A parameter is given the value `n` among the arguments of a command: there is `--name=v` for a numeral `v` of `n`, and no other argument begins with `--name`. -/
def Given (args : List (List Char)) (name : List Char) (n : Nat) : Prop :=
  ∃ v, Decimal v n ∧ par name v ∈ args ∧ ∀ x ∈ args, opt name <+: x → x = par name v

/-- It is omitted. -/
def Omitted (args : List (List Char)) (name : List Char) : Prop := ∀ x ∈ args, ¬ opt name <+: x

/-- A parameter that has a default. -/
def GivenOr (args : List (List Char)) (name : List Char) (default n : Nat) : Prop := Given args name n ∨ Omitted args name ∧ n = default

/-- A command line: `milo <global> benchmark <timing> primitive <unused> <pattern> <inputs> <rest>`; what comes after the arguments of the pattern is not read. -/
structure Usage where
  global : List (List Char)
  timing : List (List Char)
  unused : List (List Char)
  pattern : List Char
  inputs : List (List Char)
  rest : List (List Char)

/-- `argv`, for a program called `program` -/
def Usage.argv (u : Usage) (program : List Char) : List (List Char) :=
  program :: (u.global ++ "benchmark".toList :: (u.timing ++ "primitive".toList :: (u.unused ++ u.pattern :: (u.inputs ++ u.rest))))

/-- The options and parameters have two dashes, the pattern has none, nor does the first argument that is left. -/
structure Usage.Ok (u : Usage) : Prop where
  global : ∀ x ∈ u.global, isOption x
  timing : ∀ x ∈ u.timing, isOption x
  unused : ∀ x ∈ u.unused, isOption x
  pattern : isCommand u.pattern
  inputs : ∀ x ∈ u.inputs, isOption x
  rest : ∀ x, u.rest.head? = some x → ¬ isOption x

/-- The documented patterns with their parameters. -/
def documented : List (String × List String) :=
  [("codec-*", ["bytes-size"]),
   ("hash-*", ["message-size"]),
   ("mac-*", ["key-size", "message-size"]),
   ("kdf-hkdf-*", ["ikm-size", "salt-size", "info-size", "key-size"]),
   ("kdf-pbkdf-2-*", ["ikm-size", "salt-size", "iterations", "key-size"]),
   ("cipher-*", ["bytes-size"]),
   ("aead-*", ["aad-size", "bytes-size"])]

/-- Which parameters count as bytes processed by a call: the text that is encoded, hashed, authenticated or encrypted (with its associated data), or the key that is derived. -/
def counted : List (String × List String) :=
  [("codec-", ["bytes-size"]),
   ("hash-", ["message-size"]),
   ("mac-", ["message-size"]),
   ("kdf-hkdf-", ["key-size"]),
   ("kdf-pbkdf-2-", ["key-size"]),
   ("cipher-", ["bytes-size"]),
   ("aead-", ["aad-size", "bytes-size"])]

/-- The bytes processed by a call: the sum of the values of these parameters. -/
def bytesPerCall (names : List String) (input : List (List Char × BitVec 64)) : Nat :=
  (names.map fun q => ((input.filter fun x => x.1 == q.toList).map fun x => x.2.toNat).sum).sum

/-- The benchmarks: of each algorithm … -/
def basicNames : List String :=
  ["codec-base-16-encode", "codec-base-16-decode", "codec-base-64-encode", "codec-base-64-decode", "hash-sha-1-160", "hash-sha-2-224",
   "hash-sha-2-256", "hash-sha-2-384", "hash-sha-2-512", "hash-sha-2-512-224", "hash-sha-2-512-256", "mac-hmac-sha-1-160", "mac-hmac-sha-2-224",
   "mac-hmac-sha-2-256", "mac-hmac-sha-2-384", "mac-hmac-sha-2-512", "mac-hmac-sha-2-512-224", "mac-hmac-sha-2-512-256", "kdf-hkdf-hmac-sha-1-160",
   "kdf-hkdf-hmac-sha-2-224", "kdf-hkdf-hmac-sha-2-256", "kdf-hkdf-hmac-sha-2-384", "kdf-hkdf-hmac-sha-2-512", "kdf-hkdf-hmac-sha-2-512-224",
   "kdf-hkdf-hmac-sha-2-512-256", "kdf-pbkdf-2-hmac-sha-1-160", "kdf-pbkdf-2-hmac-sha-2-224", "kdf-pbkdf-2-hmac-sha-2-256",
   "kdf-pbkdf-2-hmac-sha-2-384", "kdf-pbkdf-2-hmac-sha-2-512", "kdf-pbkdf-2-hmac-sha-2-512-224", "kdf-pbkdf-2-hmac-sha-2-512-256", "mac-poly-1305",
   "cipher-chacha-20-encrypt", "cipher-chacha-20-decrypt", "aead-chacha-20-poly-1305-encrypt", "aead-chacha-20-poly-1305-decrypt"]

/-- … with `--advanced` also of its portable implementation … -/
def portableNames : List String :=
  ["hash-sha-1-160-sw", "hash-sha-2-224-sw", "hash-sha-2-256-sw", "hash-sha-2-384-sw", "hash-sha-2-512-sw", "hash-sha-2-512-224-sw",
   "hash-sha-2-512-256-sw", "mac-hmac-sha-1-160-sw", "mac-hmac-sha-2-224-sw", "mac-hmac-sha-2-256-sw", "mac-hmac-sha-2-384-sw",
   "mac-hmac-sha-2-512-sw", "mac-hmac-sha-2-512-224-sw", "mac-hmac-sha-2-512-256-sw", "kdf-hkdf-hmac-sha-1-160-sw", "kdf-hkdf-hmac-sha-2-224-sw",
   "kdf-hkdf-hmac-sha-2-256-sw", "kdf-hkdf-hmac-sha-2-384-sw", "kdf-hkdf-hmac-sha-2-512-sw", "kdf-hkdf-hmac-sha-2-512-224-sw",
   "kdf-hkdf-hmac-sha-2-512-256-sw", "kdf-pbkdf-2-hmac-sha-1-160-sw", "kdf-pbkdf-2-hmac-sha-2-224-sw", "kdf-pbkdf-2-hmac-sha-2-256-sw",
   "kdf-pbkdf-2-hmac-sha-2-384-sw", "kdf-pbkdf-2-hmac-sha-2-512-sw", "kdf-pbkdf-2-hmac-sha-2-512-224-sw", "kdf-pbkdf-2-hmac-sha-2-512-256-sw",
   "mac-poly-1305-sw", "cipher-chacha-20-sw-encrypt", "cipher-chacha-20-sw-decrypt", "aead-chacha-20-sw-poly-1305-sw-encrypt",
   "aead-chacha-20-sw-poly-1305-sw-decrypt"]

/-- … and of those that use instructions of x86-64 processors. -/
def x86Names : List String :=
  ["hash-sha-1-160-hw-x86-64-ni", "hash-sha-2-224-hw-x86-64-ni", "hash-sha-2-256-hw-x86-64-ni", "mac-hmac-sha-1-160-hw-x86-64-ni",
   "mac-hmac-sha-2-224-hw-x86-64-ni", "mac-hmac-sha-2-256-hw-x86-64-ni", "kdf-hkdf-hmac-sha-1-160-hw-x86-64-ni",
   "kdf-hkdf-hmac-sha-2-224-hw-x86-64-ni", "kdf-hkdf-hmac-sha-2-256-hw-x86-64-ni", "kdf-pbkdf-2-hmac-sha-1-160-hw-x86-64-ni",
   "kdf-pbkdf-2-hmac-sha-2-224-hw-x86-64-ni", "kdf-pbkdf-2-hmac-sha-2-256-hw-x86-64-ni", "cipher-chacha-20-hw-x86-64-ssse-3-encrypt",
   "cipher-chacha-20-hw-x86-64-ssse-3-decrypt", "cipher-chacha-20-hw-x86-64-avx-2-encrypt", "cipher-chacha-20-hw-x86-64-avx-2-decrypt"]

def benchmarks (x86 advanced : Bool) : List (List Char) :=
  (basicNames ++ if advanced then portableNames ++ if x86 then x86Names else [] else []).map String.toList

end Spec.App
