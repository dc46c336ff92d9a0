import Verif.Spec.Text

/-!
# Specification: well-formedness of error-free tokens

`TypeWf c ty rest`: what a token of type `ty`, read without an error and followed by the text `rest`,
must look like.  `c` tells which versions are active.
-/

namespace FM.Spec

/-- Does the text start with a character satisfying `p`? -/
def startsWith (p : Char → Bool) : Text → Bool
  | [] => false
  | ch :: _ => p ch

/-- `body` followed by `close` contains `close` only at its very end. -/
def ClosesFirst (close body : Text) : Prop :=
  ∀ u v, body ++ close = u ++ close ++ v → u = body ∧ v = []

/-- The words reserved in every version (Lua 5.1 manual, section 2.1). -/
def keywords : List Text := [c!"and", c!"break", c!"do", c!"else", c!"elseif", c!"end", c!"false", c!"for",
  c!"function", c!"if", c!"in", c!"local", c!"nil", c!"not", c!"or", c!"repeat", c!"return", c!"then",
  c!"true", c!"until", c!"while"]

/-- The reserved words of the active versions: `goto` is one from Lua 5.2 on and in LuaJIT. -/
def Reserved (c : Cfg) (w : Text) : Prop :=
  w ∈ keywords ∨ w = c!"goto" ∧ (c.has .lua52 = true ∨ c.has .luajit = true)

/-- Versions that introduce a symbol, by its text; the empty list for the symbols of Lua 5.1. -/
def introducedBy (text : Text) : List Ver :=
  if text ∈ [c!"//", c!"&", c!"|"] then [.luau, .lua53]
  else if text ∈ [c!"<<", c!">>", c!"~"] then [.lua53]
  else if text ∈ [c!"+=", c!"-=", c!"*=", c!"/=", c!"^="] then [.luau, .cfxlua]
  else if text ∈ [c!"//=", c!"%=", c!"..=", c!"->", c!"?", c!"@"] then [.luau]
  else if text ∈ [c!"<<=", c!">>=", c!"&=", c!"|=", c!"?."] then [.cfxlua]
  else if text = c!"::" then [.luau, .lua52, .luajit]
  else if text = c!"goto" then [.lua52, .luajit]
  else []

/-- A symbol is available in the active versions. -/
def Enabled (c : Cfg) (y : Symbol) : Prop :=
  introducedBy y.text = [] ∨ ∃ v ∈ introducedBy y.text, c.has v = true

def IsBlank (ch : Char) : Prop := ch = ' ' ∨ ch = '\t' ∨ ch = '\r' ∨ ch = '\n'

/-- See the module comment. -/
def TypeWf (c : Cfg) (ty : TokenType) (rest : Text) : Prop :=
  match ty with
  | .eof => rest = []
  | .shebang t => t.take 2 = ['#', '!'] ∧ '\n' ∉ t ∧ (rest = [] ∨ rest.head? = some '\n')
  | .identifier t => IsWord t ∧ ¬ Reserved c t ∧ startsWith isWordChar rest = false
  | .symbol y => Enabled c y ∧ (IsWord y.text → Reserved c y.text ∧ startsWith isWordChar rest = false)
  | .number t => startsWith (fun ch => ch == '.' || ('0' ≤ ch && ch ≤ '9')) t = true ∧
      t.count '.' ≤ (if t.head? = some '.' then 2 else 1)
  | .multiLineComment n body => ClosesFirst (closeBracket n) body
  | .stringLiteral body n .brackets => ClosesFirst (closeBracket n) body
  | .stringLiteral _ n q => n = 0 ∧ (q = .backtick → c.feat.cfxlua = true)
  | .singleLineComment t => '\n' ∉ t ∧ (rest = [] ∨ rest.head? = some '\n')
  | .whitespace t => t ≠ [] ∧ (∀ ch ∈ t, IsBlank ch) ∧ '\n' ∉ t.dropLast
  | .interpolated _ _ => c.has .luau = true
  | .cStyleComment t => c.has .cfxlua = true ∧ ClosesFirst ['*', '/'] t

/-- The kinds of tokens that can carry a tokenizer error of their own: an unfinished string, comment or
number.  In particular no symbol, identifier, whitespace or Eof token is ever erroneous. -/
def canRecover : TokenType → Bool
  | .number _ | .stringLiteral _ _ _ | .interpolated _ _ | .multiLineComment _ _ | .cStyleComment _ => true
  | _ => false

/-- The text printed by a list of tokens. -/
def text (ts : List Token) : Text := ts.flatMap Token.display

/-- The tokens `ts` stand in a source right after the text `before` and are followed by `after`: each one
starts at the position reached so far, ends where its printed text ends, and is well formed given what
follows it. -/
def Placed (c : Cfg) : (before : Text) → List Token → (after : Text) → Prop
  | _, [], _ => True
  | before, t :: ts, after =>
    t.start = position before ∧ t.stop = endPosition before t.display ∧
    TypeWf c t.type (text ts ++ after) ∧ Placed c (before ++ t.display) ts after

/-- The range of a tokenizer error covers a nonempty part of the source. -/
def ErrorIn (source : Text) (e : TokErr) : Prop :=
  ∃ before w after, source = before ++ w ++ after ∧ w ≠ [] ∧
    e.range = (position before, position (before ++ w))

/-- The token `x` stands in the source: it starts at the position after some prefix of the source, and
unless it is an unfinished string, comment or number, it prints as the text found there, ends where that
text ends and is well formed. -/
def TokenIn (c : Cfg) (source : Text) (x : Token) : Prop :=
  ∃ before after, source = before ++ after ∧ x.start = position before ∧
    (canRecover x.type = true ∨
     ∃ rest, after = x.display ++ rest ∧ x.stop = endPosition before x.display ∧ TypeWf c x.type rest)

/-- The source starts with `#!`. -/
def HasShebang (source : Text) : Prop := source.take 2 = ['#', '!']

instance (source : Text) : Decidable (HasShebang source) := by unfold HasShebang; infer_instance

/-- The tokenizer cannot meet a backtick it has no rule for: Luau is active, CfxLua is compiled in, or the
text has no backtick. -/
def BackticksOk (c : Cfg) (source : Text) : Prop :=
  c.has .luau = true ∨ c.feat.cfxlua = true ∨ '`' ∉ source

/-- The token references of a stream of results, erroneous ones included. -/
def tokensOf (rs : List (LexRes TokRef)) : List TokRef :=
  rs.filterMap fun
    | .ok t => some t
    | .recovered t _ => some t
    | .fatal _ => none

/-- All errors of a stream of results. -/
def errorsOf {α : Type} (rs : List (LexRes α)) : List TokErr :=
  rs.flatMap fun
    | .ok _ => []
    | .recovered _ es => es
    | .fatal es => es

/-- The `#!` line, if the source has one, was kept: the first token of the stream is a shebang token at the
start of the source. -/
def ShebangKept (source : Text) (rs : List (LexRes TokRef)) : Prop :=
  HasShebang source → ∃ t rest line ts, rs = .ok t :: rest ∧ t.leading = line :: ts ∧ line.start.bytes = 0 ∧
    ∃ x, line.type = .shebang x

/-- Every token (trivia included) of the stream, in order. -/
def flatTokens (rs : List (LexRes TokRef)) : List Token := (tokensOf rs).flatMap TokRef.flat

end FM.Spec
