import Verif.Model.PyStr

/-! Specification of escaped string literals, read from the Python language reference. -/

namespace Verif.Spec

/-- `c` is a hexadecimal digit (of either case) with value `d`. -/
def HexDigit (c : Char) (d : Nat) : Prop :=
  (s!!"0123456789abcdef")[d]? = some c ∨ (s!!"0123456789ABCDEF")[d]? = some c

/-- `c` is an octal digit with value `d`. -/
def OctDigit (c : Char) (d : Nat) : Prop := (s!!"01234567")[d]? = some c

/-- `Numeral base digit ds n`: the string `ds` of digits denotes the number `n`. -/
inductive Numeral (base : Nat) (digit : Char → Nat → Prop) : Str → Nat → Prop
  | nil : Numeral base digit [] 0
  | snoc {ds : Str} {n : Nat} {c : Char} {d : Nat} :
      Numeral base digit ds n → digit c d → Numeral base digit (ds ++ [c]) (n * base + d)

/-- Characters with a two-character escape: the letter after the backslash, and what it denotes. -/
def letterEscapes : List (Char × Char) :=
  [('\\', '\\'), ('\'', '\''), ('"', '"'), ('a', '\x07'), ('b', '\x08'), ('f', '\x0c'),
   ('n', '\n'), ('r', '\r'), ('t', '\t'), ('v', '\x0b')]

/-- `Escaped names c e`: the string `e` is a form in which the character `c` may be written. -/
inductive Escaped (names : Str → Option Char) (c : Char) : Str → Prop
  | plain : c ≠ '\\' → Escaped names c [c]
  | letter {l : Char} : (l, c) ∈ letterEscapes → Escaped names c ['\\', l]
  | hex2 {ds : Str} : ds.length = 2 → Numeral 16 HexDigit ds c.toNat →
      Escaped names c ('\\' :: 'x' :: ds)
  | hex4 {ds : Str} : ds.length = 4 → Numeral 16 HexDigit ds c.toNat →
      Escaped names c ('\\' :: 'u' :: ds)
  | hex8 {ds : Str} : ds.length = 8 → Numeral 16 HexDigit ds c.toNat →
      Escaped names c ('\\' :: 'U' :: ds)
  | oct3 {ds : Str} : ds.length = 3 → Numeral 8 OctDigit ds c.toNat → Escaped names c ('\\' :: ds)
  | name {nm : Str} : nm ≠ [] → '}' ∉ nm → names nm = some c →
      Escaped names c (s!!"\\N{" ++ nm ++ ['}'])

end Verif.Spec
