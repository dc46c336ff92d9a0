import Verif.Spec.Spacing

/-!
# Specification: the lexical grammar (C51)

`Lexeme c braces ty rest braces'`: a token of type `ty`, printed in front of the text `rest`, is what has to be read
there.  This is a description of the tokens by their characters, with the longest match where a shorter one would do.
`braces` are the braces that are open in Luau, innermost first: the end of an interpolated expression is the brace that
closes the one of its string.
-/

namespace FM.Spec

/-! ## Numbers -/

/-- A decimal digit, or in Luau a `_`. -/
def digitOr_ (c : Cfg) (ch : Char) : Bool := ('0' ≤ ch && ch ≤ '9') || (c.has .luau && ch == '_')

/-- An exponent: a mark, a sign or none, a digit, and more digits. -/
def Exponent (c : Cfg) (marks : List Char) (t : Text) : Prop :=
  ∃ m sign d ds, t = m :: (sign ++ d :: ds) ∧ m ∈ marks ∧ sign ∈ [[], ['+'], ['-']] ∧ ('0' ≤ d ∧ d ≤ '9') ∧
    ∀ ch ∈ ds, digitOr_ c ch = true

/-- The first character of a LuaJIT suffix. -/
def suffixMark (ch : Char) : Bool := [ 'u', 'U', 'l', 'L', 'i', 'I' ].contains ch

/-- A suffix of LuaJIT: `LL`, `ULL` or `I`, in capitals or not. -/
def IntSuffix (c : Cfg) (t : Text) : Prop :=
  c.has .luajit = true ∧ ∃ u v w i, (u = 'u' ∨ u = 'U') ∧ (v = 'l' ∨ v = 'L') ∧ (w = 'l' ∨ w = 'L') ∧ (i = 'i' ∨ i = 'I') ∧
    t ∈ [[v, w], [u, v, w], [i]]

/-- Characters that satisfy `p`, with at most one point if `points` says so, and none otherwise. -/
def Mantissa (p : Char → Bool) (points : Bool) (t : Text) : Prop :=
  (∀ ch ∈ t, p ch = true ∨ ch = '.') ∧ t.count '.' ≤ (if points then 1 else 0)

/-- A decimal number.  A number that starts with a point may have another one. -/
def Decimal (c : Cfg) (t rest : Text) : Prop :=
  ∃ first body tail, t = first :: (body ++ tail) ∧ (('0' ≤ first ∧ first ≤ '9') ∨ first = '.' ∧ startsWith (fun ch => '0' ≤ ch && ch ≤ '9') body = true) ∧
    Mantissa (digitOr_ c) true body ∧
    (tail = [] ∧ startsWith (fun ch => digitOr_ c ch || ch == '.' || ch == 'e' || ch == 'E' || (c.has .luajit && suffixMark ch)) rest = false ∧
        (t = ['0'] → startsWith (fun ch => ch == 'x' || ch == 'X' || ((c.has .luau || c.has .luajit) && (ch == 'b' || ch == 'B'))) rest = false) ∨
      Exponent c ['e', 'E'] tail ∧ startsWith (digitOr_ c) rest = false ∨
      IntSuffix c tail)

/-- A hexadecimal digit, or in Luau a `_`. -/
def hexOr_ (c : Cfg) (ch : Char) : Bool :=
  ('0' ≤ ch && ch ≤ '9') || ('a' ≤ ch && ch ≤ 'f') || ('A' ≤ ch && ch ≤ 'F') || (c.has .luau && ch == '_')

/-- A hexadecimal number; points and exponents from Lua 5.2 on. -/
def Hexadecimal (c : Cfg) (t rest : Text) : Prop :=
  ∃ x body tail, t = '0' :: x :: (body ++ tail) ∧ (x = 'x' ∨ x = 'X') ∧ Mantissa (hexOr_ c) (c.has .lua52) body ∧
    (tail = [] ∧ body ≠ [] ∧ startsWith (fun ch => hexOr_ c ch || (c.has .lua52 && (ch == '.' || ch == 'p' || ch == 'P')) || (c.has .luajit && suffixMark ch)) rest = false ∨
      c.has .lua52 = true ∧ body ≠ [] ∧ Exponent c ['p', 'P'] tail ∧ startsWith (digitOr_ c) rest = false ∨
      IntSuffix c tail)

/-- A binary digit or `_`. -/
def bitOr_ (ch : Char) : Bool := ch == '0' || ch == '1' || ch == '_'

/-- A binary number of Luau or LuaJIT. -/
def Binary (c : Cfg) (t rest : Text) : Prop :=
  (c.has .luau = true ∨ c.has .luajit = true) ∧
  ∃ b body tail, t = '0' :: b :: (body ++ tail) ∧ (b = 'b' ∨ b = 'B') ∧ (∀ ch ∈ body, bitOr_ ch = true) ∧
    (tail = [] ∧ body ≠ [] ∧ startsWith (fun ch => bitOr_ ch || (c.has .luajit && suffixMark ch)) rest = false ∨ IntSuffix c tail)

/-! ## Strings -/

/-- The text between quotes.  `skip`: a line break may follow, because of an escape in front of it. -/
inductive StringBody (c : Cfg) (quote : Char) : (skip : Bool) → Text → Prop where
  | nil {z} : StringBody c quote z []
  | char {z ch t} : ch ≠ quote → ch ≠ '\\' → ch ≠ '\n' → ch ≠ '\r' → StringBody c quote z t → StringBody c quote z (ch :: t)
  | escape {z ch t} : StringBody c quote (z || c.has .lua52 || c.has .luau || (c.has .luajit && ch == 'z')) t →
      StringBody c quote z ('\\' :: ch :: t)
  | newline {ch t} : ch = '\n' ∨ ch = '\r' → StringBody c quote false t → StringBody c quote true (ch :: t)

/-- The text of a section of an interpolated string, followed by `after`.  `escaped`: a backslash stands in front. -/
inductive SectionBody (after : Text) : (escaped skip : Bool) → Text → Prop where
  | nil {z} : SectionBody after false z []
  | char {z ch t} : ch ∉ ['\\', '\n', '\r', '{', '`'] → SectionBody after false z t → SectionBody after false z (ch :: t)
  | newline {ch t} : ch = '\n' ∨ ch = '\r' → SectionBody after false false t → SectionBody after false true (ch :: t)
  | backslash {z t} : (t ++ after).head? ≠ some 'u' → SectionBody after true z t → SectionBody after false z ('\\' :: t)
  | skip {z t} : SectionBody after true true t → SectionBody after true z ('z' :: t)
  | escaped {z ch t} : ch ≠ 'z' → SectionBody after false true t → SectionBody after true z (ch :: t)
  | u {z t} : (t ++ after).head? ≠ some '{' → SectionBody after false z t → SectionBody after false z ('\\' :: 'u' :: t)
  /-- `\u{` and what follows it, up to the character before the next `}` that is not directly behind the brace -/
  | unicode {z x w t v} : t ++ after = x :: v → '}' ∉ (w ++ [x]).tail → (v = [] ∨ v.head? = some '}') →
      SectionBody after false z t → SectionBody after false z ('\\' :: 'u' :: '{' :: (w ++ t))

/-! ## Symbols -/

/-- No symbol of the active versions is longer. -/
def Longest (c : Cfg) (y : Symbol) (rest : Text) : Prop :=
  ∀ z : Symbol, Enabled c z → ¬ IsWord z.text → z.text <+: y.text ++ rest → z.text.length ≤ y.text.length

/-- The text that follows a symbol does not make it the start of a comment, number or long string. -/
def NotMore (c : Cfg) (y : Symbol) (rest : Text) : Prop :=
  match y with
  | .minus => rest.head? ≠ some '-'
  | .slash => c.has .cfxlua = true → rest.head? ≠ some '*'
  | .dot => startsWith (fun ch => '0' ≤ ch && ch ≤ '9') rest = false
  | .leftBracket => ¬ StartsLong ('[' :: rest)
  | _ => True

/-- How a symbol changes the open braces. -/
def BracesOf (c : Cfg) (y : Symbol) (bs bs' : List BraceType) : Prop :=
  match y with
  | .leftBrace => bs' = if c.has .luau then .normal :: bs else bs
  | .rightBrace => if c.has .luau then bs.head? ≠ some .interpolatedString ∧ bs' = bs.tail else bs' = bs
  | _ => bs' = bs

/-! ## Tokens -/

/-- White space: blanks up to and including the end of the line.  A carriage return starts one or stands in front of the
line feed. -/
def Blanks (t rest : Text) : Prop :=
  t = ['\n'] ∨ ∃ first mid last, t = first :: (mid ++ last) ∧ (first = ' ' ∨ first = '\t' ∨ first = '\r') ∧
    (∀ ch ∈ mid, ch = ' ' ∨ ch = '\t') ∧
    (last = ['\n'] ∨ last = ['\r', '\n'] ∨ last = [] ∧ startsWith (fun ch => ch == ' ' || ch == '\t' || ch == '\n') rest = false ∧ rest.take 2 ≠ ['\r', '\n'])

/-- See the module comment. -/
def Lexeme (c : Cfg) (bs : List BraceType) (ty : TokenType) (rest : Text) (bs' : List BraceType) : Prop :=
  match ty with
  | .eof | .shebang _ => False
  | .identifier t => IsWord t ∧ ¬ Reserved c t ∧ startsWith isWordChar rest = false ∧ bs' = bs
  | .symbol y => Enabled c y ∧ (IsWord y.text → startsWith isWordChar rest = false) ∧ (¬ IsWord y.text → Longest c y rest) ∧ NotMore c y rest ∧
      BracesOf c y bs bs'
  | .number t => (Decimal c t rest ∨ Hexadecimal c t rest ∨ Binary c t rest) ∧ bs' = bs
  | .whitespace t => Blanks t rest ∧ bs' = bs
  | .singleLineComment t => '\n' ∉ t ∧ ¬ StartsLong t ∧ (rest = [] ∨ rest.head? = some '\n') ∧ bs' = bs
  | .multiLineComment n body => ClosesFirst (closeBracket n) body ∧ bs' = bs
  | .cStyleComment t => c.has .cfxlua = true ∧ ClosesFirst ['*', '/'] t ∧ bs' = bs
  | .stringLiteral body n .brackets => ClosesFirst (closeBracket n) body ∧ bs' = bs
  | .stringLiteral body n .double => n = 0 ∧ StringBody c '"' false body ∧ bs' = bs
  | .stringLiteral body n .single => n = 0 ∧ StringBody c '\'' false body ∧ bs' = bs
  | .stringLiteral body n .backtick => n = 0 ∧ c.feat.cfxlua = true ∧ c.has .luau = false ∧ StringBody c '`' false body ∧ bs' = bs
  | .interpolated body k => c.has .luau = true ∧
      match k with
      | .begin => SectionBody ('{' :: rest) false false body ∧ bs' = .interpolatedString :: bs
      | .simple => SectionBody ('`' :: rest) false false body ∧ bs' = bs
      | .middle => SectionBody ('{' :: rest) false false body ∧ bs.head? = some .interpolatedString ∧ bs' = bs
      | .end_ => SectionBody ('`' :: rest) false false body ∧ bs = .interpolatedString :: bs'

/-- The text is, from its beginning to the end of the file, made of tokens of these types. -/
inductive Lexes (c : Cfg) : List BraceType → Text → List TokenType → Prop where
  | eof {bs} : Lexes c bs [] [.eof]
  | token {bs bs' ty rest tys} : Lexeme c bs ty rest bs' → Lexes c bs' rest tys → Lexes c bs (ty.display ++ rest) (ty :: tys)

/-- A file is made of tokens of these types; a first line that starts with `#!` is one token. -/
def LexesFile (c : Cfg) (source : Text) (tys : List TokenType) : Prop :=
  ¬ HasShebang source ∧ Lexes c [] source tys ∨
  ∃ line rest tys', source = line ++ rest ∧ HasShebang line ∧ '\n' ∉ line ∧ (rest = [] ∨ rest.head? = some '\n') ∧
    tys = .shebang line :: tys' ∧ Lexes c [] rest tys'

end FM.Spec
