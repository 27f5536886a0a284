import Verif.Spec.MacAlg
import Verif.Spec.Poly1305
import Verif.Spec.Output
import Verif.Model.HashApie
import Verif.Model.MacImpl
/-
What the hash and mac objects answer to calls in any order, also after a digest was taken: FIPS 180-4 and RFC 2104 taken apart into steps. An object that
was finalized keeps the incomplete block it held before, and goes on from the chaining value which was its digest.
-/
namespace Spec.Resume
open Milo

/-- An object described by what each of its calls does to an abstract state; `start` may depend on a key. -/
structure Machine where
  S : Type
  /-- as constructed, before `initialize` -/
  fresh : S
  start : List Byte → S
  feed : S → List Byte → S
  close : S → S
  /-- the bytes a digest is a prefix of -/
  out : S → List Byte

/-! ## FIPS 180-4 in steps -/

/-- Chaining value, number of bytes so far, bytes that do not make a block yet. -/
structure State (σ : Type) where
  chain : σ
  count : Nat
  held : List Byte

/-- Compress all whole blocks, hold the rest. -/
def feed {σ : Type} (compress : σ → List Byte → σ) (B : Nat) (s : State σ) (x : List Byte) : State σ :=
  ⟨(chunks B ((s.held ++ x).take ((s.held ++ x).length / B * B))).foldl compress s.chain, s.count + x.length,
    (s.held ++ x).drop ((s.held ++ x).length / B * B)⟩

/-- FIPS 180-4 5.1: what is appended to a message of `n` bytes. -/
def padding (B L n : Nat) : List Byte := [0x80#8] ++ List.replicate ((B - (n + 1 + L) % B) % B) 0#8 ++ beBytes L (8 * n)

/-- Compress the held bytes and the padding. They are still held afterwards, and counted. -/
def close {σ : Type} (compress : σ → List Byte → σ) (B L : Nat) (s : State σ) : State σ :=
  { s with chain := (chunks B (s.held ++ padding B L s.count)).foldl compress s.chain }

/-- A hash of FIPS 180-4 with words of `n` bytes. Before `initialize` the chaining value is zero. -/
def steps (n : Nat) (compress : List (BitVec (8 * n)) → List Byte → List (BitVec (8 * n))) (B L : Nat) (iv : List (BitVec (8 * n))) (size : Nat) : Machine where
  S := State (List (BitVec (8 * n)))
  fresh := ⟨List.replicate iv.length 0, 0, []⟩
  start := fun _ => ⟨iv, 0, []⟩
  feed := feed compress B
  close := close compress B L
  out := fun s => (Sha.output s.chain).take size

/-- By documented type. -/
def sha : ShaAlg → Machine
  | .sha_1_160 => steps 4 Sha.Sha1.compress 64 8 Sha.Sha1.iv 20
  | .sha_2_224 => steps 4 (Sha.Sha2.compress Sha.p32) 64 8 Sha.iv224 28
  | .sha_2_256 => steps 4 (Sha.Sha2.compress Sha.p32) 64 8 Sha.iv256 32
  | .sha_2_384 => steps 8 (Sha.Sha2.compress Sha.p64) 128 16 Sha.iv384 48
  | .sha_2_512 => steps 8 (Sha.Sha2.compress Sha.p64) 128 16 Sha.iv512 64
  | .sha_2_512_224 => steps 8 (Sha.Sha2.compress Sha.p64) 128 16 (Sha.ivT "SHA-512/224") 28
  | .sha_2_512_256 => steps 8 (Sha.Sha2.compress Sha.p64) 128 16 (Sha.ivT "SHA-512/256") 32

/-- The value of a hash after the message `m`, a digest and the bytes `y`: a prefix of the chaining value that follows from that of the finished message by
compressing the whole blocks of the last incomplete block of `m` followed by `y`. -/
def resumed (a : ShaAlg) (m y : List Byte) : List Byte := (sha a).out ((sha a).feed ((sha a).close ((sha a).feed ((sha a).start []) m)) y)

/-! ## RFC 2104 in steps -/

/-- HMAC over a hash machine with blocks of `B` bytes whose digests are cut to `hs` bytes; `F` hashes long keys. Closing hashes the inner digest behind the
outer key block; what is fed afterwards goes to that outer hash. -/
def hmac (M : Machine) (B hs : Nat) (F : List Byte → List Byte) : Machine where
  S := M.S × List Byte
  fresh := (M.fresh, List.replicate B 0)
  start := fun key => (M.feed (M.start []) ((hmacKey B F key).map (· ^^^ 0x36)), (hmacKey B F key).map (· ^^^ 0x5c))
  feed := fun s x => (M.feed s.1 x, s.2)
  close := fun s => (M.close (M.feed (M.start []) (s.2 ++ (M.out (M.close s.1)).take hs)), s.2)
  out := fun s => (M.out s.1).take hs

/-- HMAC over the hash `a` cut to `hs` bytes. -/
def hmacSha (a : ShaAlg) (hs : Nat) : Machine := hmac (sha a) (shaBlock a) hs fun m => (shaSpec a m).take hs

/-- The value of HMAC after the message `m`, a digest and the bytes `y`: the hash of the outer key block and the inner digest, resumed with `y`. -/
def resumedHmac (a : ShaAlg) (hs : Nat) (key m y : List Byte) : List Byte :=
  (resumed a ((hmacKey (shaBlock a) (fun m => (shaSpec a m).take hs) key).map (· ^^^ 0x5c)
    ++ (shaSpec a ((hmacKey (shaBlock a) (fun m => (shaSpec a m).take hs) key).map (· ^^^ 0x36) ++ m)).take hs) y).take hs

/-! ## RFC 8439 Poly1305 -/

/-- The number a Poly1305 tag encodes. -/
def polyTag (key m : List Byte) : Nat := leNat (Poly1305.mac key m)

/-- `v` is a number the accumulator may hold after the message `m`, its tag and the bytes `y`: the whole blocks of the last incomplete block of `m` followed by `y` are
absorbed by an accumulator that starts from the tag, plus a small multiple `c` of `2^128`; without a whole block it is still the tag. -/
def PolyResumed (key m y : List Byte) (v : Nat) : Prop :=
  ∃ c ≤ 4, v < 5 * 2 ^ 128 ∧ ((m.drop (m.length / 16 * 16) ++ y).length < 16 → v = polyTag key m + 2 ^ 128 * c) ∧
    v % Poly1305.p = (chunks 16 ((m.drop (m.length / 16 * 16) ++ y).take ((m.drop (m.length / 16 * 16) ++ y).length / 16 * 16))).foldl
      (Poly1305.absorb (Poly1305.clamp (leNat (key.take 16)))) (polyTag key m + 2 ^ 128 * c) % Poly1305.p

/-! ## Calls -/

/-- The outputs of calls of a hash class with `digest_size` option `ds`, in any order. -/
def Machine.hashCalls (M : Machine) (ds : Nat) : M.S → List Hash.Call → List (List Byte × Nat)
  | _, [] => []
  | _, .init :: cs => M.hashCalls ds (M.start []) cs
  | s, .update x :: cs => M.hashCalls ds (M.feed s x) cs
  | s, .finalize :: cs => M.hashCalls ds (M.close s) cs
  | s, .digest dst n :: cs => written ((M.out s).take ds) dst n :: M.hashCalls ds s cs

/-- The outputs of calls of a mac class, in any order. -/
def Machine.macCalls (M : Machine) (ds : Nat) : M.S → List Mac.Call → List (List Byte × Nat)
  | _, [] => []
  | _, .init key :: cs => M.macCalls ds (M.start key) cs
  | s, .update x :: cs => M.macCalls ds (M.feed s x) cs
  | s, .finalize :: cs => M.macCalls ds (M.close s) cs
  | s, .digest dst n :: cs => written ((M.out s).take ds) dst n :: M.macCalls ds s cs

/-- A digest closes the message, once. -/
def Machine.closed (M : Machine) (s : M.S) (done : Bool) : M.S := if done then s else M.close s

/-- The outputs of calls of the `apie` wrapper of a hash, in any order; `done`: a digest was taken since `initialize`. -/
def Machine.hashApie (M : Machine) (ds : Nat) : M.S → Bool → List HashApie.Call → List (List Byte × Nat)
  | _, _, [] => []
  | _, _, .init :: cs => M.hashApie ds (M.start []) false cs
  | s, done, .update x :: cs => M.hashApie ds (M.feed s x) done cs
  | s, done, .digest dst n :: cs => written ((M.out (M.closed s done)).take ds) dst n :: M.hashApie ds (M.closed s done) true cs
  | s, done, .digestC c n :: cs =>
    extracted ((M.out (M.closed s done)).take ds) (.cont c n) :: M.hashApie ds (M.closed s done) true cs

/-- The outputs of calls of the `apie` wrapper of a mac, in any order. -/
def Machine.macApie (M : Machine) (ds : Nat) : M.S → Bool → List MacApie.Call → List (List Byte × Nat)
  | _, _, [] => []
  | _, _, .init key :: cs => M.macApie ds (M.start key) false cs
  | s, done, .update x :: cs => M.macApie ds (M.feed s x) done cs
  | s, done, .digest dst n :: cs => written ((M.out (M.closed s done)).take ds) dst n :: M.macApie ds (M.closed s done) true cs
  | s, done, .digestC c n :: cs =>
    extracted ((M.out (M.closed s done)).take ds) (.cont c n) :: M.macApie ds (M.closed s done) true cs

/-! ## What a user expects -/

/-- Every digest covers all that was given since `initialize` (or construction); `m` is what was given so far. -/
def promised (F : List Byte → List Byte) (ds : Nat) : List Byte → List HashApie.Call → List (List Byte × Nat)
  | _, [] => []
  | _, .init :: cs => promised F ds [] cs
  | m, .update x :: cs => promised F ds (m ++ x) cs
  | m, .digest dst n :: cs => extracted ((F m).take ds) (.ptr dst n) :: promised F ds m cs
  | m, .digestC c n :: cs => extracted ((F m).take ds) (.cont c n) :: promised F ds m cs

/-- The same for a mac and its key. -/
def promisedMac (F : List Byte → List Byte → List Byte) (ds : Nat) : List Byte → List Byte → List MacApie.Call → List (List Byte × Nat)
  | _, _, [] => []
  | _, _, .init key :: cs => promisedMac F ds key [] cs
  | k, m, .update x :: cs => promisedMac F ds k (m ++ x) cs
  | k, m, .digest dst n :: cs => extracted ((F k m).take ds) (.ptr dst n) :: promisedMac F ds k m cs
  | k, m, .digestC c n :: cs => extracted ((F k m).take ds) (.cont c n) :: promisedMac F ds k m cs

/-- The documented order ("must be re-initialized before reuse", doc/reference_hash.md): no `update` between a digest and the next `initialize`. -/
def Documented : Bool → List HashApie.Call → Prop
  | _, [] => True
  | _, .init :: cs => Documented false cs
  | done, .update _ :: cs => done = false ∧ Documented done cs
  | _, .digest _ _ :: cs => Documented true cs
  | _, .digestC _ _ :: cs => Documented true cs

/-- The same for macs (doc/reference_mac.md). -/
def DocumentedMac : Bool → List MacApie.Call → Prop
  | _, [] => True
  | _, .init _ :: cs => DocumentedMac false cs
  | done, .update _ :: cs => done = false ∧ DocumentedMac done cs
  | _, .digest _ _ :: cs => DocumentedMac true cs
  | _, .digestC _ _ :: cs => DocumentedMac true cs

end Spec.Resume
