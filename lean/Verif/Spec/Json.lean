/-
JSON, RFC 8259.
-/
namespace Spec.Json

/-- Values; numbers by their text, objects by their members (whose order means nothing). -/
inductive J where
  | null
  | bool (b : Bool)
  | num (text : List Char)
  | str (s : List Char)
  | arr (l : List J)
  | obj (l : List (List Char × J))

def Digit (c : Char) : Prop := 48 ≤ c.toNat ∧ c.toNat ≤ 57

/-- "int": no leading zeros -/
inductive Whole : List Char → Prop
  | zero : Whole ['0']
  | other {c : Char} {l : List Char} : Digit c → c ≠ '0' → (∀ d ∈ l, Digit d) → Whole (c :: l)

def Ws (l : List Char) : Prop := ∀ c ∈ l, c = ' ' ∨ c = '\t' ∨ c = '\n' ∨ c = '\r'

/-- number = [ minus ] int [ frac ] [ exp ] -/
inductive Number : List Char → Prop
  | mk {minus whole frac exp : List Char} : minus = [] ∨ minus = ['-'] → Whole whole →
      (frac = [] ∨ ∃ l, l ≠ [] ∧ (∀ d ∈ l, Digit d) ∧ frac = '.' :: l) →
      (exp = [] ∨ ∃ e s l, (e = 'e' ∨ e = 'E') ∧ (s = [] ∨ s = ['+'] ∨ s = ['-']) ∧ l ≠ [] ∧ (∀ d ∈ l, Digit d) ∧ exp = e :: s ++ l) →
      Number (minus ++ whole ++ frac ++ exp)

/-- The characters of a string and their text: all but the quotation mark, the backslash and the control characters stand for themselves; the others are escaped. (For
code points given by four hexadecimal digits, the text is checked, not the value.) -/
inductive Chars : List Char → List Char → Prop
  | nil : Chars [] []
  | plain {c : Char} {s t : List Char} : 32 ≤ c.toNat → c ≠ '"' → c ≠ '\\' → Chars s t → Chars (c :: s) (c :: t)
  | escape {c d : Char} {s t : List Char} : (c, d) ∈ [('"', '"'), ('\\', '\\'), ('/', '/'), ('\x08', 'b'), ('\x0c', 'f'), ('\n', 'n'), ('\r', 'r'), ('\t', 't')] →
      Chars s t → Chars (c :: s) ('\\' :: d :: t)
  | hex {c : Char} {h s t : List Char} : h.length = 4 → (∀ d ∈ h, d.isAlphanum) → Chars s t → Chars (c :: s) ('\\' :: 'u' :: (h ++ t))

mutual

/-- A value and its text. -/
inductive Text : J → List Char → Prop
  | null : Text .null "null".toList
  | true : Text (.bool true) "true".toList
  | false : Text (.bool false) "false".toList
  | num {t : List Char} : Number t → Text (.num t) t
  | str {s t : List Char} : Chars s t → Text (.str s) ('"' :: (t ++ ['"']))
  | arrEmpty {w : List Char} : Ws w → Text (.arr []) ('[' :: (w ++ [']']))
  | arr {l : List J} {t : List Char} : Values l t → Text (.arr l) ('[' :: (t ++ [']']))
  | objEmpty {w : List Char} : Ws w → Text (.obj []) ('{' :: (w ++ ['}']))
  | obj {l : List (List Char × J)} {t : List Char} : Members l t → Text (.obj l) ('{' :: (t ++ ['}']))

/-- One value or more, with commas between them. -/
inductive Values : List J → List Char → Prop
  | one {j : J} {a t b : List Char} : Ws a → Text j t → Ws b → Values [j] (a ++ t ++ b)
  | more {j : J} {l : List J} {a t b r : List Char} : Ws a → Text j t → Ws b → Values l r → Values (j :: l) (a ++ t ++ b ++ ',' :: r)

/-- One member or more. -/
inductive Members : List (List Char × J) → List Char → Prop
  | one {k : List Char} {j : J} {a q b c t d : List Char} : Ws a → Chars k q → Ws b → Ws c → Text j t → Ws d →
      Members [(k, j)] (a ++ '"' :: (q ++ '"' :: (b ++ ':' :: (c ++ t ++ d))))
  | more {k : List Char} {j : J} {l : List (List Char × J)} {a q b c t d r : List Char} : Ws a → Chars k q → Ws b → Ws c → Text j t → Ws d → Members l r →
      Members ((k, j) :: l) (a ++ '"' :: (q ++ '"' :: (b ++ ':' :: (c ++ t ++ d ++ ',' :: r))))

end

/-- A text is JSON. -/
def Valid (t : List Char) : Prop := ∃ j, Text j t

/-- What is found in a document under a path of names, each of which occurs once in its object. -/
inductive At : J → List (List Char) → J → Prop
  | here (j : J) : At j [] j
  | member {l : List (List Char × J)} {k : List Char} {v j : J} {path : List (List Char)} : l.filter (fun m => m.1 = k) = [(k, v)] → At v path j → At (.obj l) (k :: path) j

end Spec.Json
