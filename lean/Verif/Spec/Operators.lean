import Verif.Model.Ast.Kinds

/-!
# Specification: the operator table of the Lua manuals (C24, C23)

§2.5.6 of the 5.1 manual and §3.4.8 of the 5.3 manual, from lower to higher priority:

    or
    and
    <     >     <=    >=    ~=    ==
    |
    ~
    &
    <<    >>
    ..
    +     -
    *     /     //    %
    unary operators (not   #     -     ~)
    ^

"the concatenation ('..') and exponentiation ('^') operators are right associative.  All other binary operators
are left associative."
-/

namespace FM.Spec

/-- The rows of the manual's table of binary operators, from lower to higher priority, by the text of the
operators; the empty row is that of the unary operators. -/
def manual : List (List Text) :=
  [[c!"or"], [c!"and"], [c!"<", c!">", c!"<=", c!">=", c!"~=", c!"=="], [c!"|"], [c!"~"], [c!"&"], [c!"<<", c!">>"],
   [c!".."], [c!"+", c!"-"], [c!"*", c!"/", c!"//", c!"%"], [], [c!"^"]]

/-- The row of an operator. -/
def row (op : Text) : Nat := manual.findIdx (·.contains op)

/-- The row of the unary operators. -/
def unaryRow : Nat := manual.findIdx List.isEmpty

/-- The operators of the manual that exist in a version: the bitwise operators in 5.3, `//` in 5.3 and Luau. -/
def binaryIn (c : Cfg) (op : Text) : Bool :=
  manual.any (·.contains op) &&
    (if [c!"|", c!"~", c!"&", c!"<<", c!">>"].contains op then c.lua53
     else if op == c!"//" then c.luau || c.lua53
     else true)

end FM.Spec
