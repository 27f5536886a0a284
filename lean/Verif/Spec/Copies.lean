import Verif.Model.Kdf
/-
Several objects of one class, created, copied, moved, assigned, destroyed and used in any order: what a user expects of them (C65). The expectation only
speaks of the calls that happened: an object stands for the sequence of calls behind its value.
-/
namespace Spec.Copies
variable {C O : Type}

/-- What a program does with its objects, which are numbered. `env` is a change of the caller's own memory. -/
inductive Op (C : Type) where
  /-- `T x_i;` -/
  | new (i : Nat)
  /-- `T x_i(x_j);` -/
  | copy (i j : Nat)
  /-- `T x_i(std::move(x_j));` -/
  | move (i j : Nat)
  /-- `x_i = x_j;` or `x_i = std::move(x_j);` -/
  | assign (i j : Nat)
  /-- the end of `x_i`'s lifetime -/
  | drop (i : Nat)
  /-- a call of a member function of `x_i` -/
  | call (i : Nat) (c : C)
  | env (c : C)

/-- The calls behind the value of an object, and whether the object was moved from since. -/
structure Life (C : Type) where
  past : List C
  moved : Bool

structure World (C : Type) where
  /-- the changes of the caller's memory so far -/
  env : List C
  life : Nat → Option (Life C)

def World.start : World C := ⟨[], fun _ => none⟩

def put {α : Type} (f : Nat → Option α) (i : Nat) (a : Option α) : Nat → Option α := fun k => if k = i then a else f k

/-- A copy, a moved-to object and an assigned-to object take over the past of the source; calls are part of the past of the object called only. -/
def after (w : World C) : Op C → World C
  | .new i => { w with life := put w.life i (some ⟨w.env, false⟩) }
  | .copy i j => { w with life := put w.life i (w.life j) }
  | .move i j => { w with life := put (put w.life i (w.life j)) j ((w.life j).map fun l => { l with moved := true }) }
  | .assign i j => { w with life := put w.life i (w.life j) }
  | .drop i => { w with life := put w.life i none }
  | .call i c => { w with life := put w.life i ((w.life i).map fun l => ⟨l.past ++ [c], false⟩) }
  | .env c => ⟨w.env ++ [c], fun k => (w.life k).map fun l => { l with past := l.past ++ [c] }⟩

/-- What is known of a class. -/
structure Rules (C O : Type) where
  /-- changes of the caller's memory, as calls -/
  isEnv : C → Bool
  /-- may be called on a moved-from object (at least `initialize`) -/
  revives : C → Bool
  /-- the pasts after which an object may be copied -/
  complete : List C → Prop
  /-- what one object, used alone, answers to a call after a sequence of calls (`none`: undefined) -/
  answer : List C → C → Option (List O)

variable (R : Rules C O)

/-- An object that may be copied, moved or assigned from. -/
def Source (w : World C) (j : Nat) : Prop := ∃ l, w.life j = some l ∧ l.moved = false ∧ R.complete l.past

/-- A step a program may take: new objects get an unused number; nobody uses a moved-from object, except to assign to it, to initialise it or to end its
lifetime; `can past c`: the call `c` is one that may be made after `past`. -/
def Legal (can : List C → C → Prop) (w : World C) : Op C → Prop
  | .new i => w.life i = none
  | .copy i j => w.life i = none ∧ Source R w j
  | .move i j => w.life i = none ∧ Source R w j
  | .assign i j => w.life i ≠ none ∧ Source R w j
  | .drop i => w.life i ≠ none
  | .call i c => R.isEnv c = false ∧ ∃ l, w.life i = some l ∧ (l.moved = true → R.revives c = true) ∧ can l.past c
  | .env c => R.isEnv c = true ∧ can w.env c

def Allowed (can : List C → C → Prop) : World C → List (Op C) → Prop
  | _, [] => True
  | w, op :: ops => Legal R can w op ∧ Allowed can (after w op) ops

/-- Calls that an object used alone answers. -/
def Answered (past : List C) (c : C) : Prop := R.answer past c ≠ none

/-- What the program must output: every call answers like an object used alone, with the past of the object called. -/
def expected : World C → List (Op C) → List O
  | _, [] => []
  | w, op :: ops =>
    (match op with
      | .call i c => ((w.life i).bind fun l => R.answer l.past c).getD []
      | _ => []) ++ expected (after w op) ops

/-- The world at the end. -/
def worldAfter (w : World C) (ops : List (Op C)) : World C := ops.foldl after w

/-- The answer of one object used alone: run the past, then the call. -/
def alone {σ : Type} (exec : σ → C → Option (σ × List O)) (s : σ) (past : List C) (c : C) : Option (List O) := do
  let (s, _) ← Milo.runCalls exec s past
  let (_, out) ← exec s c
  pure out

/-- The rules of a class whose objects refer to nothing outside. -/
def rules {S : Type} (fresh : S) (exec : S → C → Option (S × List O)) (complete : List C → Prop) : Rules C O where
  isEnv _ := false
  revives _ := true
  complete := complete
  answer := alone exec fresh

/-- Changes of the caller's memory; calls of `initialize`. -/
def isPoke {A : Type} : Milo.Kdf.Call A → Bool
  | .poke _ _ => true
  | _ => false
def isInit {A : Type} : Milo.Kdf.Call A → Bool
  | .init _ => true
  | _ => false

/-- The rules for kdf objects, the caller's memory being `m` at the start. -/
def kdfRules (K : Milo.KdfImpl) (m : Milo.Mem) : Rules (Milo.Kdf.Call K.Args) Milo.Kdf.Out where
  isEnv := isPoke
  revives := isInit
  complete _ := True
  answer := alone (Milo.Kdf.exec K) (K.fresh, m)

/-- A program: object 0 is used (`xs`), copied to object 1, then the two are used (`ys` on 0, `zs` on 1), one after the other. -/
def fork (xs ys zs : List C) : List (Op C) :=
  [.new 0] ++ xs.map (.call 0) ++ [.copy 1 0] ++ ys.map (.call 0) ++ zs.map (.call 1)

end Spec.Copies
