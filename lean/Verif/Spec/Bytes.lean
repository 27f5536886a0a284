/- Integers as byte strings (independent of the model). -/
namespace Spec

/-- Value of a byte string, most significant byte first. -/
def beNat (bs : List (BitVec 8)) : Nat := bs.foldl (fun acc b => acc * 256 + b.toNat) 0

/-- Value of a byte string, least significant byte first. -/
def leNat (bs : List (BitVec 8)) : Nat := bs.foldr (fun b acc => b.toNat + 256 * acc) 0

/-- The `n` bytes of `x mod 256^n`, most significant first. -/
def beBytes (n x : Nat) : List (BitVec 8) := (List.range n).map fun i => BitVec.ofNat 8 (x / 256 ^ (n - 1 - i))

/-- The `n` bytes of `x mod 256^n`, least significant first. -/
def leBytes (n x : Nat) : List (BitVec 8) := (List.range n).map fun i => BitVec.ofNat 8 (x / 256 ^ i)

/-- Split a list into consecutive chunks of `n` (the last one may be shorter). -/
def chunks {α : Type u} (n : Nat) (l : List α) : List (List α) :=
  if h : l = [] ∨ n = 0 then [] else l.take n :: chunks n (l.drop n)
termination_by l.length
decreasing_by
  have : 0 < l.length := List.length_pos_iff.mpr (fun e => h (.inl e))
  have hn : n ≠ 0 := fun e => h (.inr e)
  simp; omega

end Spec
