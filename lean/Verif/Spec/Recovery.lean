import Verif.Model.Parser.Parse

/-! # Specification: the errors for tokens that begin no statement

`parse_fallible` skips a token that begins no statement and reports it as unexpected. -/

namespace FM.Spec
open FM.Parser

/-- What such an error says. -/
def strayMessage : String := "unexpected token, this needs to be a statement"

/-- The token such an error is about. -/
def strayToken : Err → Option Token
  | .tokenizer _ => none
  | .ast t m _ => if m = strayMessage then some t else none

end FM.Spec
