import Verif.Model.Base
/-
The command line application `milo`: app/main.cpp, app/include/milo/app/app.h, pattern.h, parameter.h, run.h, command/benchmark.h, command/version.h, type.h.

Characters are Lean's `Char` in the place of C++'s `char`; nothing here depends on their codes except '-', '=', '*', the digits and, for JSON, the quote, the
backslash and the control characters. Memory is assumed to be enough for the inputs: otherwise `std::bad_alloc` makes the run a failure with status 1.
-/
namespace Milo.App

/-- `std::string`, `std::string_view` (app/dep.h); characters are those of the arguments. -/
abbrev Str := List Char

/-- What ends a computation: an exception derived from `std::exception` (with its text, for those thrown by the application), or undefined behaviour. (main.cpp, app.h:104-330: `std::logic_error`, `std::invalid_argument`, `std::out_of_range`) -/
inductive Err where
  | logic (text : Str)
  | outOfRange
  | badFunctionCall
  | ub
  deriving DecidableEq, Repr

/-- Functions that may throw (app.h, parameter.h, command/benchmark.h). -/
abbrev M := Except Err

/-! ### std::string_view -/

/-- `find_first_not_of(c, pos)` (`std::string_view`, used in pattern.h:14-91) -/
def findFirstNotOf (s : Str) (c : Char) (pos : Nat) : Option Nat := (List.range s.length).find? fun i => decide (pos ≤ i) && s[i]? != some c

/-- `find_first_of(c, pos)` (`std::string_view`, used in pattern.h:14-91) -/
def findFirstOf (s : Str) (c : Char) (pos : Nat) : Option Nat := (List.range s.length).find? fun i => decide (pos ≤ i) && s[i]? == some c

/-- `find(p, pos, n)`, `p` being the `n` characters (`std::string_view`, used in pattern.h:14-91) -/
def find (s p : Str) (pos : Nat) : Option Nat := (List.range (s.length + 1)).find? fun i => decide (pos ≤ i) && p.isPrefixOf (s.drop i)

/-- `ends_with`, used in pattern.h:14-91 -/
def endsWith (s : Str) (c : Char) : Bool := s.getLast? == some c

/-! ### pattern.h -/

/-- pattern.h:42-91, the loop; `fuel` bounds the number of passes, `none`: it was not enough. -/
def matchLoop (pattern message : Str) : Nat → Nat → Nat → Option Bool
  | 0, _, _ => none
  | fuel + 1, patternPos, messagePos =>
    match findFirstNotOf pattern '*' patternPos with
    | none => if patternPos < pattern.length then some (endsWith pattern '*') else some (message.length == messagePos)
    | some beg =>
      let e := (findFirstOf pattern '*' beg).getD pattern.length
      let size := e - beg
      match find message ((pattern.drop beg).take size) messagePos with
      | none => some false
      | some pos => matchLoop pattern message fuel (beg + size) (pos + size)

/-- pattern.h:10-92 `pattern_match_star` -/
def patternMatchStar (pattern message : Str) : Option Bool :=
  if pattern = ['*'] then some true
  else if pattern = [] ∧ message = [] then some true
  else if pattern = [] ∧ message ≠ [] then some false
  else matchLoop pattern message (pattern.length + 1) 0 0

/-! ### app.h -/

/-- app.h:22-45 `app_args`; the iterator `m_args_cur` as an index, the stack of commands from its top. -/
structure Args where
  args : List Str
  cur : Nat
  commands : List Str
  deriving DecidableEq, Repr

/-- app.h:49-70; `argv[1]` up to `argv[argc]`: there is no such range when `argc` is 0. -/
def mkArgs (argv : List Str) : M Args :=
  match argv with
  | [] => .error .ub
  | _ :: args => .ok ⟨args, 0, ["milo application".toList]⟩

/-- app.h:74-94 `dump`; `pop_back` of an empty string is undefined. -/
def dump (a : Args) : M Str :=
  let str := a.args.foldl (fun s x => s ++ x ++ [' ']) []
  if str = [] then .error .ub else .ok str.dropLast

/-- The text of the exception in app.h:104-157. -/
def expected : Str := "Error. Expected a command token. Commands do not start with - or --. Please check argument list and try again. ".toList

/-- app.h:103-133 `command` -/
def command (a : Args) : M (Args × Str) :=
  match (a.args.drop a.cur).findIdx? fun x => !['-'].isPrefixOf x with
  | none => .error (.logic expected)
  | some i =>
    match (a.args.drop a.cur)[i]? with
    | none => .error .ub
    | some x => .ok (⟨a.args, a.cur + i + 1, (x ++ " command".toList) :: a.commands⟩, x)

/-- `"--"`, app.h:160-330 -/
def dashes : Str := ['-', '-']

/-- app.h:162-185 `option` -/
def optionLoop (name : Str) : List Str → Bool
  | [] => false
  | x :: l => if dashes.isPrefixOf x then if x.drop 2 = name then true else optionLoop name l else false

/-- app.h:163-185 `option(name)` -/
def option (a : Args) (name : Str) : Bool := optionLoop name (a.args.drop a.cur)

/-- `m_commands.top()`; never empty. (app.h:104-157) -/
def top (a : Args) : M Str :=
  match a.commands with
  | [] => .error .ub
  | c :: _ => .ok c

/-- "Missing", app.h:222-246 -/
def missing (a : Args) (name : Str) : M α := do
  let c ← top a
  .error (.logic ("Error. Missing --".toList ++ name ++ " parameter of ".toList ++ c ++ ".".toList))

/-- app.h:208-233: the argument the loop stops at. -/
def paramArg (a : Args) (name : Str) : List Str → M Str
  | [] => missing a name
  | x :: l => if dashes.isPrefixOf x then if name.isPrefixOf (x.drop 2) then .ok x else paramArg a name l else missing a name

/-- `std::from_chars` of base 10 for a 64-bit unsigned number: the longest prefix of digits; `none` if there is none, or the number is too big. (used in app.h:191-322) -/
def fromChars (s : Str) : Option (BitVec 64) :=
  let ds := s.takeWhile Char.isDigit
  let n := ds.foldl (fun n c => 10 * n + (c.toNat - '0'.toNat)) 0
  if ds = [] then none else if 2 ^ 64 ≤ n then none else some (BitVec.ofNat 64 n)

/-- app.h:187-319 `parameter<uint64_t>`, `parameter<size_t>`. `T` in the text stands for the name of the type. -/
def parameter (a : Args) (name : Str) : M (BitVec 64) := do
  let x ← paramArg a name (a.args.drop a.cur)
  match findFirstOf x '=' 0 with
  | none => do
    let c ← top a
    .error (.logic ("Error. Missing value for --".toList ++ name ++ " parameter of ".toList ++ c ++ ". ".toList ++ "To specify missing value try --".toList ++ name ++
      "=<value>.".toList))
  | some pos =>
    if pos + 1 ≥ x.length then .ok 0 else
    match fromChars (x.drop (pos + 1)) with
    | some n => .ok n
    | none => do
      let c ← top a
      .error (.logic ("Error. Value conversion failure for --".toList ++ name ++ " parameter of ".toList ++ c ++ ". ".toList ++ "Conversion from ".toList ++
        x.drop (pos + 1) ++ " to type of type ".toList ++ "T".toList ++ " failed.".toList))

/-- app.h:321-342 `parameter` with a default: `catch (...)`. -/
def parameterOr (a : Args) (name : Str) (default : BitVec 64) : M (BitVec 64) :=
  match parameter a name with
  | .ok n => .ok n
  | .error .ub => .error .ub
  | .error _ => .ok default

/-! ### command/benchmark.h -/

/-- What a benchmark measures: its parameters, how many bytes a call processes, whether it reads the first byte of the derived key. (command/benchmark.h:240-965) -/
inductive Kind where
  | codec | hash | mac | hkdf | pbkdf2 | cipher | aead
  deriving DecidableEq, Repr

/-- benchmark.h:986-1204: `parameter::group` -/
def Kind.params : Kind → List Str
  | .codec => ["bytes-size".toList]
  | .hash => ["message-size".toList]
  | .mac => ["key-size".toList, "message-size".toList]
  | .hkdf => ["ikm-size".toList, "salt-size".toList, "info-size".toList, "key-size".toList]
  | .pbkdf2 => ["ikm-size".toList, "salt-size".toList, "iterations".toList, "key-size".toList]
  | .cipher => ["bytes-size".toList]
  | .aead => ["aad-size".toList, "bytes-size".toList]

/-- Bytes processed by a call, from the parameters: benchmark.h:293, 348, 395, 450, 513, 573, 661, 749, 857, 965. -/
def Kind.bytes : Kind → List (BitVec 64) → BitVec 64
  | .codec, [n] => n
  | .hash, [n] => n
  | .mac, [_, n] => n
  | .hkdf, [_, _, _, n] => n
  | .pbkdf2, [_, _, _, n] => n
  | .cipher, [n] => n
  | .aead, [a, n] => a + n
  | _, _ => 0

/-- benchmark.h:484, 545: `return a_key_ptr[0]`, the first element of a `vector` of `key-size` elements. -/
def Kind.touches : Kind → List (BitVec 64) → M Unit
  | .hkdf, [_, _, _, n] => if n = 0 then .error .ub else .ok ()
  | .pbkdf2, [_, _, _, n] => if n = 0 then .error .ub else .ok ()
  | _, _ => .ok ()

/-- command/benchmark.h:985-1228: one call of `declare` -/
structure Group where
  kind : Kind
  basic : List Str
  advanced : List Str

/-- The names of one family of hash-based algorithms. (command/benchmark.h:985-1228) -/
def sha : List Str := ["sha-1-160".toList, "sha-2-224".toList, "sha-2-256".toList, "sha-2-384".toList, "sha-2-512".toList, "sha-2-512-224".toList, "sha-2-512-256".toList]

/-- Backends of a family that the advanced benchmarks name: the portable one for all, SHA-NI for three (on x86-64). -/
def backends (x86 : Bool) (pre : Str) : List Str :=
  (sha.map fun s => pre ++ s ++ "-sw".toList) ++ if x86 then (sha.take 3).map fun s => pre ++ s ++ "-hw-x86-64-ni".toList else []

/-- benchmark.h:973-1223, the benchmarks in the order of the file; `x86` is `MILO_INTERNAL_ARCH_X86_64`. (The macs' list has `mac-poly-1305-sw` after the other portable
ones, before those for x86-64.) -/
def groups (x86 : Bool) : List Group :=
  [⟨.codec, ["codec-base-16-encode".toList, "codec-base-16-decode".toList, "codec-base-64-encode".toList, "codec-base-64-decode".toList], []⟩,
   ⟨.hash, sha.map ("hash-".toList ++ ·), backends x86 "hash-".toList⟩,
   ⟨.mac, (sha.map ("mac-hmac-".toList ++ ·)) ++ ["mac-poly-1305".toList],
     (sha.map fun s => "mac-hmac-".toList ++ s ++ "-sw".toList) ++ ["mac-poly-1305-sw".toList] ++
       if x86 then (sha.take 3).map fun s => "mac-hmac-".toList ++ s ++ "-hw-x86-64-ni".toList else []⟩,
   ⟨.hkdf, sha.map ("kdf-hkdf-hmac-".toList ++ ·), backends x86 "kdf-hkdf-hmac-".toList⟩,
   ⟨.pbkdf2, sha.map ("kdf-pbkdf-2-hmac-".toList ++ ·), backends x86 "kdf-pbkdf-2-hmac-".toList⟩,
   ⟨.cipher, ["cipher-chacha-20-encrypt".toList, "cipher-chacha-20-decrypt".toList],
     ["cipher-chacha-20-sw-encrypt".toList, "cipher-chacha-20-sw-decrypt".toList] ++
       if x86 then ["cipher-chacha-20-hw-x86-64-ssse-3-encrypt".toList, "cipher-chacha-20-hw-x86-64-ssse-3-decrypt".toList,
         "cipher-chacha-20-hw-x86-64-avx-2-encrypt".toList, "cipher-chacha-20-hw-x86-64-avx-2-decrypt".toList] else []⟩,
   ⟨.aead, ["aead-chacha-20-poly-1305-encrypt".toList, "aead-chacha-20-poly-1305-decrypt".toList],
     ["aead-chacha-20-sw-poly-1305-sw-encrypt".toList, "aead-chacha-20-sw-poly-1305-sw-decrypt".toList]⟩]

/-- benchmark.h:102-130 `declare` -/
def declare (advanced : Bool) (g : Group) : List Str := if advanced then g.basic ++ g.advanced else g.basic

/-- benchmark.h:16-23 `options` -/
structure Options where
  cpuClock : BitVec 64
  repeatsWarm : BitVec 64
  repeatsTime : BitVec 64
  deriving DecidableEq, Repr

/-- `double(num) / double(den)` (command/benchmark.h:214-243) -/
structure Quot where
  num : BitVec 64
  den : BitVec 64
  deriving DecidableEq, Repr

/-- Metrics of a benchmark, as in the output. (command/benchmark.h:214-243) -/
structure Metrics where
  nanosecondsPerCall : Quot
  /-- gigabytes and megabytes per second -/
  throughput : Option (Quot × Quot)
  /-- cycles per call and per byte -/
  cpu : Option (Quot × Quot)
  deriving DecidableEq, Repr

/-- An entry of the output: the name, its parameters with their names, the options, the metrics. (command/benchmark.h:194-245) -/
structure Entry where
  name : Str
  input : List (Str × BitVec 64)
  options : Options
  metrics : Metrics
  deriving DecidableEq, Repr

/-- benchmark.h:214-243; all products are of 64-bit unsigned numbers. -/
def metrics (o : Options) (ns processed : BitVec 64) : Metrics where
  nanosecondsPerCall := ⟨ns, o.repeatsTime⟩
  throughput := if processed ≠ 0 then some (⟨processed, ns⟩, ⟨processed * 1000, ns⟩) else none
  cpu := if processed ≠ 0 ∧ o.cpuClock ≠ 0 then
    some (⟨o.cpuClock * ns, 1000000000 * o.repeatsTime⟩, ⟨o.cpuClock * ns, 1000000000 * processed⟩) else none

/-- parameter.h:92-166 `parse` -/
def parse (a : Args) (names : List Str) : M (List (BitVec 64)) := names.mapM (parameter a)

/-- The clock: nanoseconds measured for the benchmark of a name. (command/benchmark.h:59-72: `clock_type::now()` before and after) -/
abbrev Clock := Str → List (BitVec 64) → BitVec 64

/-- A name matched; the loop of `pattern_match_star` always ends (C57), otherwise this would be undefined behaviour. (command/benchmark.h:196-204) -/
def matched (pattern name : Str) : M Bool :=
  match patternMatchStar pattern name with
  | some b => .ok b
  | none => .error .ub

/-- benchmark.h:196-244: the loop over the benchmarks of a group. -/
def invokeLoop (clock : Clock) (o : Options) (k : Kind) (pattern : Str) (ps : List (BitVec 64)) : List Str → M (List Entry)
  | [] => .ok []
  | name :: l => do
    let b ← matched pattern name
    if b then do
      k.touches ps
      let e : Entry := ⟨name, k.params.zip ps, o, metrics o (clock name ps) (o.repeatsTime * k.bytes ps)⟩
      let l ← invokeLoop clock o k pattern ps l
      pure (e :: l)
    else invokeLoop clock o k pattern ps l

/-- benchmark.h:132-245 `invoke`: names listed, or entries of the result. -/
def invoke (clock : Clock) (a : Args) (o : Options) (k : Kind) (pattern : Str) (names : List Str) : M (List Str × List Entry) := do
  if pattern = "list".toList then pure (names, [])
  else do
    let bs ← names.mapM (matched pattern)
    if bs.any id then do
      let ps ← parse a k.params
      let es ← invokeLoop clock o k pattern ps names
      pure ([], es)
    else pure ([], [])

/-- benchmark.h:969-1229 `primitive`, after `pattern` was taken. -/
def primitive (clock : Clock) (advanced : Bool) (a : Args) (o : Options) (pattern : Str) : List Group → M (List Str × List Entry)
  | [] => .ok ([], [])
  | g :: l => do
    let (ns, es) ← invoke clock a o g.kind pattern (declare advanced g)
    let (ns', es') ← primitive clock advanced a o pattern l
    pure (ns ++ ns', es ++ es')

/-- What is written to the standard output. (command/benchmark.h:1259-1271, command/version.h) -/
inductive Output where
  | version
  | names (l : List Str)
  /-- JSON of the result, with `--verbose` also of the arguments (and of constants) -/
  | result (verbose : Option (List Str)) (l : List Entry)
  deriving DecidableEq, Repr

/-- benchmark.h:1231-1272 `run`; an unknown name gets an empty `std::function` from `operator[]`. -/
def benchmark (x86 : Bool) (clock : Clock) (verbose : Option (List Str)) (advanced : Bool) (a : Args) : M Output := do
  let clk ← parameterOr a "cpu-clock".toList 0
  let warm ← parameterOr a "repeats-warm".toList 128
  let time ← parameterOr a "repeats-time".toList 1024
  let o : Options := ⟨clk * 1000000, warm, if time = 0 then 1 else time⟩
  let (a, c) ← command a
  if c = "primitive".toList then do
    let (a, pattern) ← command a
    let (ns, es) ← primitive clock advanced a o pattern (groups x86)
    if pattern = "list".toList then pure (.names ns) else pure (.result verbose es)
  else .error .badFunctionCall

/-- How the program ends: with an exit status and what it wrote to the standard output and as error message (`none`: the text of a standard exception). (main.cpp, run.h:15-76) -/
inductive Exit where
  | done (out : Output)
  | failed (text : Option Str)
  | ub
  deriving DecidableEq, Repr

/-- The exit status of run.h:13-75. -/
def Exit.status : Exit → Option Nat
  | .done _ => some 0
  | .failed _ => some 1
  | .ub => none

/-- run.h:59-72: `catch (const std::exception&)`. The handler `catch (...)`, status 2, is never reached: nothing else is thrown. -/
def caught : M Output → Exit
  | .ok o => .done o
  | .error (.logic t) => .failed (some t)
  | .error .outOfRange => .failed none
  | .error .badFunctionCall => .failed none
  | .error .ub => .ub

/-- run.h:13-75 `run`, main.cpp: what is before `try` (19-57) and after. -/
def run (x86 : Bool) (clock : Clock) (argv : List Str) : Exit :=
  match (do let a ← mkArgs argv; let _ ← dump a; pure a : M Args) with
  | .error _ => .ub
  | .ok a =>
    let verbose := if option a "verbose".toList then some a.args else none
    let advanced := option a "advanced".toList
    caught do
      let (a, c) ← command a
      if c = "benchmark".toList then benchmark x86 clock verbose advanced a
      else if c = "version".toList then pure .version
      else .error .outOfRange

end Milo.App
