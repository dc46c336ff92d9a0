import Verif.Model.Token

/-!
# Specification: nesting of interpolated strings (C41)

An interpolated string is written `` `text{expression}text{expression}text` ``.  Its tokens are a begin section
`` `text{ ``, middle sections `}text{` and an end section `` }text` ``; without expressions it is one simple section.
-/

namespace FM.Spec

/-- A token that neither opens nor closes anything. -/
def Neutral : TokenType → Prop
  | .symbol y => y ≠ .leftBrace ∧ y ≠ .rightBrace
  | .interpolated _ k => k = .simple
  | _ => True

mutual

/-- Tokens in which braces and interpolated strings are closed in the order they are opened. -/
inductive Balanced : List TokenType → Prop where
  | nil : Balanced []
  | neutral {pre ty} : Balanced pre → Neutral ty → Balanced (pre ++ [ty])
  | braces {pre body} : Balanced pre → Balanced body → Balanced (pre ++ .symbol .leftBrace :: body ++ [.symbol .rightBrace])
  | string {pre parts x y} : Balanced pre → Parts parts → Balanced (pre ++ .interpolated x .begin :: parts ++ [.interpolated y .end_])

/-- What stands between the begin section and the end section: balanced tokens separated by middle sections. -/
inductive Parts : List TokenType → Prop where
  | one {body} : Balanced body → Parts body
  | more {parts x body} : Parts parts → Balanced body → Parts (parts ++ .interpolated x .middle :: body)

end

/-- After these tokens, an expression of an interpolated string is open, and everything opened in it is closed. -/
def InString (pre : List TokenType) : Prop := ∃ pre' x parts, pre = pre' ++ .interpolated x .begin :: parts ∧ Parts parts

end FM.Spec
