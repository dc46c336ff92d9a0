import Verif.Spec.Tokens
import Verif.Model.Lexer

/-!
# Specification: spacing

What may stand between two tokens.
-/

namespace FM.Spec

/-- The text starts a long bracket: `[[`, `[=[`, `[==[`, … -/
def StartsLong (text : Text) : Prop := ∃ n, '[' :: List.replicate n '=' ++ ['['] <+: text

/-- White space and comments: blanks, line comments with their line break, long comments of any level and, in
CfxLua, C-style comments, in any order and number. -/
inductive Filler (c : Cfg) : Text → Prop where
  | nil : Filler c []
  | blank {ch f} : IsBlank ch → Filler c f → Filler c (ch :: f)
  | line {body f} : '\n' ∉ body → ¬ StartsLong body → Filler c f → Filler c (c!"--" ++ body ++ '\n' :: f)
  | long {n body f} : ClosesFirst (closeBracket n) body → Filler c f →
      Filler c (c!"--[" ++ List.replicate n '=' ++ '[' :: body ++ closeBracket n ++ f)
  | cStyle {body f} : c.has .cfxlua = true → ClosesFirst c!"*/" body → Filler c f → Filler c (c!"/*" ++ body ++ c!"*/" ++ f)

/-- A filler that sets two tokens apart: it starts with a blank. -/
def Gap (c : Cfg) (f : Text) : Prop := Filler c f ∧ startsWith (fun ch => ch == ' ' || ch == '\t' || ch == '\r' || ch == '\n') f = true

/-- `text` is read as tokens of these types, without an error; a shebang line is not one of tokens. -/
def ReadsAs (c : Cfg) (text : Text) (tys : List TokenType) : Prop :=
  ¬ HasShebang text ∧ ∃ rs, lexAll c text = .ok rs ∧ errorsOf rs = [] ∧ (tokensOf rs).map (·.token.type) = tys ++ [.eof]

/-- A part of an interpolated string. -/
def Interpolated (ty : TokenType) : Prop := ∃ x k, ty = .interpolated x k

/-- The printed form of a token of this type is, on its own, read back as a token of this type, and it is not a part of an
interpolated string. -/
def Alone (c : Cfg) (ty : TokenType) : Prop := ¬ Interpolated ty ∧ ReadsAs c ty.display [ty]

/-- Tokens of these types may touch: the two printed next to each other are read back as the two.  (`[` must not touch
a token made of `=` only: what comes next could make it a long bracket.)  The first is not a part of an interpolated
string. -/
def MayTouch (c : Cfg) (ty ty' : TokenType) : Prop :=
  ¬ Interpolated ty ∧ ReadsAs c (ty.display ++ ty'.display) [ty, ty'] ∧ (ty.display = c!"[" → ∃ ch ∈ ty'.display, ch ≠ '=')

/-- `s` prints tokens of the types `tys`, in order: each one is set apart from the next, or may touch it. -/
inductive Laid (c : Cfg) : List TokenType → Text → Prop where
  | nil : Laid c [] []
  | last {ty} : Alone c ty → Laid c [ty] ty.display
  | gap {ty tys f s} : Alone c ty → Gap c f → Laid c tys s → Laid c (ty :: tys) (ty.display ++ f ++ s)
  | touching {ty ty' tys s} : MayTouch c ty ty' → Laid c (ty' :: tys) s → Laid c (ty :: ty' :: tys) (ty.display ++ s)

/-- Tokens of these types, with a space behind each. -/
def spaced : List TokenType → Text
  | [] => []
  | ty :: tys => ty.display ++ c!" " ++ spaced tys

end FM.Spec
