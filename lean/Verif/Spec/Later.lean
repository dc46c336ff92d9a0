import Verif.Spec.Source

/-!
# Specification: later versions (C60)

What the tokens of a program have to be for the program to mean the same when further versions are active.
-/

namespace FM.Spec
open FM

/-- The same build with the same versions and possibly more, but not Luau. -/
structure Later (c c' : Cfg) : Prop where
  feat : c'.feat = c.feat
  more : ∀ v, c.has v = true → c'.has v = true
  luau : c'.has .luau = false

/-- The number starts with `0x`. -/
def isHex (t : Text) : Bool := t.take 2 == c!"0x" || t.take 2 == c!"0X"

/-- A number goes on with this character in `c'` and not in `c`: hexadecimal numbers have points and exponents from Lua 5.2
on, numbers have suffixes and `0` starts binary numbers in LuaJIT. -/
def goesOn (c c' : Cfg) (t : Text) (ch : Char) : Bool :=
  (!c.has .lua52 && c'.has .lua52 && isHex t && (ch == '.' || ch == 'p' || ch == 'P')) ||
  (!c.has .luajit && c'.has .luajit && (suffixMark ch || (t == c!"0" && (ch == 'b' || ch == 'B'))))

/-- No name becomes a keyword, and no number is followed, without anything in between, by a character with which it would
go on. -/
def Keeps (c c' : Cfg) (tys : List TokenType) : Prop :=
  (∀ x, .identifier x ∈ tys → Reserved c' x → Reserved c x) ∧
  ∀ a t u b, tys = a ++ .number t :: u :: b → startsWith (goesOn c c' t) u.display = false

end FM.Spec
