import Verif.Spec.Lexical

/-!
# Specification: tokens written down with any white space and comments in between

For all tokens, sections of interpolated strings included.
-/

namespace FM.Spec

/-- `Respaced c ts s`: the text `s` prints the tokens of `ts` in order, starting with the first one, with other
white space and comments in between.  Two tokens may touch only where they touch in `ts`, and the Eof token may
touch anything.  Behind a section of an interpolated string there must be white space or comments exactly if there are
some on its line in `ts`. -/
inductive Respaced (c : Cfg) : List TokRef → Text → Prop where
  | eof {e} : e.token.type = .eof → Respaced c [e] []
  | gap {t u ts f s} : (Interpolated t.token.type → t.trailing ≠ []) → Gap c f → Respaced c (u :: ts) s →
      Respaced c (t :: u :: ts) (t.token.display ++ f ++ s)
  | touching {t u ts s} : t.trailing = [] → u.leading = [] → Respaced c (u :: ts) s → Respaced c (t :: u :: ts) (t.token.display ++ s)
  | last {t e} : (Interpolated t.token.type → t.trailing = []) → e.token.type = .eof → Respaced c [t, e] t.token.display

/-- `Written c braces ts s`: the text `s` prints the tokens `ts` in order, with nothing or white space and comments behind
each (the trivia of `ts` is not printed), so that each of them is the token that the lexical grammar finds there.
`braces` are the braces that are open.  Behind a section of an interpolated string there is something exactly if the
section has trailing trivia in `ts`: `{{` in a string is an error. -/
inductive Written (c : Cfg) : List BraceType → List TokRef → Text → Prop where
  | nil {bs} : Written c bs [] []
  | cons {bs bs' t ts f s} : t.token.type.isTrivia = false → Lexeme c bs t.token.type (f ++ s) bs' → (f = [] ∨ Gap c f) →
      (Interpolated t.token.type → (t.trailing = [] ↔ f = [])) → Written c bs' ts s → Written c bs (t :: ts) (t.token.display ++ (f ++ s))

end FM.Spec
