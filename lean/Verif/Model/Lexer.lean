import Verif.Model.Token

/-!
# The tokenizer

Models `tokenizer/lexer.rs` and `tokenizer/interpolated_strings.rs`.

Representation: `LexerSource { source, lexer_position }` is the list of characters not yet read
(`source[index..]`) together with the position; `current()` is the head of that list and `peek()` its
second element.  Resetting `lexer_position` is restoring an earlier `Src`.
`expect("peeked, but no next")` directly after a successful `current()` cannot fail and is not modelled;
neither are the `debug_assert!`s (1136, 1171), which repeat the guards of the only callers.
-/

namespace FM

/-- The position update of `LexerSource::next` (`tokenizer/lexer.rs` 1452–1459). -/
def Position.advance (p : Position) (ch : Char) : Position :=
  if ch = '\n' then ⟨p.bytes + ch.utf8Size, p.line + 1, 1⟩
  else ⟨p.bytes + ch.utf8Size, p.line, p.character + 1⟩

/-- `LexerSource` (`tokenizer/lexer.rs` 1432–1435), see the module comment. -/
structure Src where
  rest : List Char
  pos : Position
  deriving Repr, DecidableEq

/-- `LexerPosition::new` (`tokenizer/lexer.rs` 1490–1499). -/
def Position.initial : Position := ⟨0, 1, 1⟩

/-- `LexerSource::new` (`tokenizer/lexer.rs` 1438–1443). -/
def Src.new (source : Text) : Src := ⟨source, .initial⟩

/-- `LexerSource::current` (`tokenizer/lexer.rs` 1445–1447). -/
def Src.current (s : Src) : Option Char := s.rest.head?

/-- `LexerSource::peek` (`tokenizer/lexer.rs` 1465–1467). -/
def Src.peek (s : Src) : Option Char := s.rest.tail.head?

/-- State after `LexerSource::next` (`tokenizer/lexer.rs` 1449–1463); its return value is `current`. -/
def Src.advance (s : Src) : Src :=
  match s.rest with
  | [] => s
  | ch :: r => ⟨r, s.pos.advance ch⟩

/-- `LexerSource::consume` (`tokenizer/lexer.rs` 1469–1476). -/
def Src.consume (s : Src) (ch : Char) : Bool × Src :=
  if s.current = some ch then (true, s.advance) else (false, s)

/-- `enum BraceType` (`tokenizer/interpolated_strings.rs` 9–12). -/
inductive BraceType where
  | interpolatedString | normal
  deriving Repr, DecidableEq

/-- The part of `struct Lexer` that tokenizing works on (`tokenizer/lexer.rs` 13–25):
`source`, `sent_eof`, `brace_stack` (top of the stack first). -/
structure Lx where
  src : Src
  sentEof : Bool
  braces : List BraceType
  deriving Repr, DecidableEq

/-- `Lexer::new_lazy` (`tokenizer/lexer.rs` 40–53). -/
def Lx.new (source : Text) : Lx := ⟨.new source, false, []⟩

/-- `is_identifier_start` (`tokenizer/lexer.rs` 1428–1430). -/
def isIdentStart (ch : Char) : Bool :=
  ('a' ≤ ch && ch ≤ 'z') || ('A' ≤ ch && ch ≤ 'Z') || ch == '_'

/-- `char::is_ascii_digit`. -/
def isDigit (ch : Char) : Bool := '0' ≤ ch && ch ≤ '9'

/-- `char::is_ascii_whitespace`: space, `\t`, `\n`, form feed, `\r`. -/
def isAsciiWhitespace (ch : Char) : Bool :=
  ch == ' ' || ch == '\t' || ch == '\n' || ch == '\x0c' || ch == '\r'

/-- `String::len`: number of UTF-8 bytes. -/
def byteLen (t : Text) : Nat := (t.map Char.utf8Size).sum

/-- Result of reading one token from the source. -/
abbrev ReadRes := LexRes Token × Src

/-- `Lexer::create` (`tokenizer/lexer.rs` 102–112). -/
def create (start : Position) (ty : TokenType) (s : Src) : ReadRes :=
  (.ok ⟨start, s.pos, ty⟩, s)

/-- `Lexer::create_recovered` (`tokenizer/lexer.rs` 114–128). -/
def createRecovered (start : Position) (ty : TokenType) (errors : List TokErr) (s : Src) : ReadRes :=
  (.new ⟨start, s.pos, ty⟩ errors, s)

/-- The loop of the identifier branch (`tokenizer/lexer.rs` 274–280). -/
def identLoop : List Char → Position → Text → Text × Src
  | [], p, acc => (acc, ⟨[], p⟩)
  | ch :: r, p, acc =>
    if isIdentStart ch || isDigit ch then identLoop r (p.advance ch) (acc ++ [ch])
    else (acc, ⟨ch :: r, p⟩)

/-- The identifier branch of `process_next` (`tokenizer/lexer.rs` 270–292). -/
def readIdent (c : Cfg) (start : Position) (initial : Char) (s : Src) : ReadRes :=
  let (identifier, s) := identLoop s.rest s.pos [initial]
  create start
    (match Symbol.fromStr c identifier with
     | some y => .symbol y
     | none => .identifier identifier) s

/-- The loop of the whitespace branch (`tokenizer/lexer.rs` 306–326): characters, hand-computed end
position, state. -/
def wsLoop : List Char → Position → Text → Position → Text × Position × Src
  | [], p, acc, e => (acc, e, ⟨[], p⟩)
  | ch :: r, p, acc, e =>
    if ch = ' ' ∨ ch = '\t' then
      wsLoop r (p.advance ch) (acc ++ [ch]) ⟨e.bytes + ch.utf8Size, e.line, e.character + 1⟩
    else if ch = '\n' then
      (acc ++ [ch], ⟨e.bytes + ch.utf8Size, e.line, e.character⟩, ⟨r, p.advance ch⟩)
    else if ch = '\r' then
      match r with
      | '\n' :: r' =>
        (acc ++ [ch, '\n'],
         ⟨e.bytes + (ch.utf8Size + ('\n').utf8Size), e.line, e.character + 1⟩,
         ⟨r', (p.advance ch).advance '\n'⟩)
      | _ => (acc, e, ⟨ch :: r, p⟩)
    else (acc, e, ⟨ch :: r, p⟩)

/-- The whitespace branch (`tokenizer/lexer.rs` 294–335). -/
def readWhitespace (start : Position) (initial : Char) (s : Src) : ReadRes :=
  let (ws, e, s) := wsLoop s.rest s.pos [initial]
    ⟨start.bytes + initial.utf8Size, start.line, start.character + 1⟩
  (.ok ⟨start, e, .whitespace ws⟩, s)

/-- `eat_invalid_number` (`tokenizer/lexer.rs` 1015–1041). -/
def eatInvalidNumber (start : Position) : List Char → Position → Text → ReadRes
  | [], p, number => (.new ⟨start, p, .number number⟩ [⟨.invalidNumber, (start, p)⟩], ⟨[], p⟩)
  | ch :: r, p, number =>
    if isAsciiWhitespace ch then
      (.new ⟨start, p, .number number⟩ [⟨.invalidNumber, (start, p)⟩], ⟨ch :: r, p⟩)
    else eatInvalidNumber start r (p.advance ch) (number ++ [ch])

/-- The digit loop of `read_exponent_part` (`tokenizer/lexer.rs` 1060–1073). -/
def exponentLoop (c : Cfg) (start : Position) : List Char → Position → Text → ReadRes
  | [], p, number => create start (.number number) ⟨[], p⟩
  | ch :: r, p, number =>
    if isDigit ch || (c.luau && ch == '_') then exponentLoop c start r (p.advance ch) (number ++ [ch])
    else create start (.number number) ⟨ch :: r, p⟩

/-- `matches!(self.source.current(), Some('0'..='9'))` and similar: the head satisfies `p`. -/
def headIs (p : Char → Bool) : List Char → Bool
  | [] => false
  | ch :: _ => p ch

/-- `read_exponent_part` after the marker and the optional sign (`tokenizer/lexer.rs` 1056–1073). -/
def exponentDigits (c : Cfg) (start : Position) (rest : List Char) (p : Position) (number : Text) : ReadRes :=
  if !headIs isDigit rest then eatInvalidNumber start rest p number
  else exponentLoop c start rest p number

/-- `read_exponent_part` (`tokenizer/lexer.rs` 1044–1074), called with `current() = Some(marker)`;
`r` is what follows the marker. -/
def readExponentPart (c : Cfg) (start : Position) (marker : Char) (r : List Char) (p : Position)
    (number : Text) : ReadRes :=
  match r with
  | [] => exponentDigits c start [] (p.advance marker) (number ++ [marker])
  | ch :: r' =>
    if ch = '+' ∨ ch = '-' then
      exponentDigits c start r' ((p.advance marker).advance ch) (number ++ [marker] ++ [ch])
    else exponentDigits c start (ch :: r') (p.advance marker) (number ++ [marker])

def isU (ch : Char) : Bool := ch == 'u' || ch == 'U'
def isL (ch : Char) : Bool := ch == 'l' || ch == 'L'
def isI (ch : Char) : Bool := ch == 'i' || ch == 'I'

/-- `read_luajit_number_suffix` (`tokenizer/lexer.rs` 1166–1201). -/
def readLuajitSuffix (start : Position) : List Char → Position → Text → ReadRes
  | [], p, number => create start (.number number) ⟨[], p⟩
  | ch :: r, p, number =>
    if isU ch then
      if !headIs isL r then eatInvalidNumber start r (p.advance ch) (number ++ [ch])
      else readLuajitSuffix start r (p.advance ch) (number ++ [ch])
    else if isL ch then
      match r with
      | ch' :: r' =>
        if isL ch' then
          create start (.number (number ++ [ch] ++ [ch'])) ⟨r', (p.advance ch).advance ch'⟩
        else eatInvalidNumber start r (p.advance ch) (number ++ [ch])
      | [] => eatInvalidNumber start r (p.advance ch) (number ++ [ch])
    else if isI ch then create start (.number (number ++ [ch])) ⟨r, p.advance ch⟩
    else eatInvalidNumber start (ch :: r) p number

/-- The loop of `read_number` (`tokenizer/lexer.rs` 986–1012); `hit` is `hit_decimal`. -/
def numberLoop (c : Cfg) (start : Position) : List Char → Position → Text → Bool → ReadRes
  | [], p, number, _ => create start (.number number) ⟨[], p⟩
  | ch :: r, p, number, hit =>
    if isDigit ch || (c.luau && ch == '_') then numberLoop c start r (p.advance ch) (number ++ [ch]) hit
    else if ch = '.' then
      if hit then eatInvalidNumber start (ch :: r) p number
      else numberLoop c start r (p.advance ch) (number ++ [ch]) true
    else if ch = 'e' ∨ ch = 'E' then readExponentPart c start ch r p number
    else if c.luajit && (isU ch || isL ch || isI ch) then readLuajitSuffix start (ch :: r) p number
    else create start (.number number) ⟨ch :: r, p⟩

/-- `read_number` (`tokenizer/lexer.rs` 979–1013). -/
def readNumber (c : Cfg) (start : Position) (number : Text) (s : Src) : ReadRes :=
  numberLoop c start s.rest s.pos number false

/-- Hexadecimal digits `'0'..='9' | 'a'..='f' | 'A'..='F'` (`tokenizer/lexer.rs` 1086). -/
def isHexDigit (ch : Char) : Bool :=
  ('0' ≤ ch && ch ≤ '9') || ('a' ≤ ch && ch ≤ 'f') || ('A' ≤ ch && ch ≤ 'F')

/-- The end of `read_hex_number` / `read_binary_number` (`tokenizer/lexer.rs` 1119–1128, 1154–1163). -/
def finishPrefixed (start : Position) (number : Text) (s : Src) : ReadRes :=
  if byteLen number = 2 then eatInvalidNumber start s.rest s.pos number
  else create start (.number number) s

/-- The loop of `read_hex_number` (`tokenizer/lexer.rs` 1084–1128). -/
def hexLoop (c : Cfg) (start : Position) : List Char → Position → Text → Bool → ReadRes
  | [], p, number, _ => finishPrefixed start number ⟨[], p⟩
  | ch :: r, p, number, hit =>
    if isHexDigit ch then hexLoop c start r (p.advance ch) (number ++ [ch]) hit
    else if ch = '_' && c.luau then hexLoop c start r (p.advance ch) (number ++ [ch]) hit
    else if ch = '.' && c.lua52 then
      if hit then eatInvalidNumber start (ch :: r) p number
      else hexLoop c start r (p.advance ch) (number ++ [ch]) true
    else if (ch = 'p' || ch = 'P') && c.lua52 then
      if byteLen number = 2 then eatInvalidNumber start (ch :: r) p number
      else readExponentPart c start ch r p number
    else if c.luajit && (isU ch || isL ch || isI ch) then readLuajitSuffix start (ch :: r) p number
    else finishPrefixed start number ⟨ch :: r, p⟩

/-- `read_hex_number` (`tokenizer/lexer.rs` 1076–1129). -/
def readHexNumber (c : Cfg) (start : Position) (hexChar : Char) (s : Src) : ReadRes :=
  hexLoop c start s.rest s.pos ['0', hexChar] false

/-- The loop of `read_binary_number` (`tokenizer/lexer.rs` 1140–1163). -/
def binaryLoop (c : Cfg) (start : Position) : List Char → Position → Text → ReadRes
  | [], p, number => finishPrefixed start number ⟨[], p⟩
  | ch :: r, p, number =>
    if ch = '0' ∨ ch = '1' ∨ ch = '_' then binaryLoop c start r (p.advance ch) (number ++ [ch])
    else if c.luajit && (isU ch || isL ch || isI ch) then readLuajitSuffix start (ch :: r) p number
    else finishPrefixed start number ⟨ch :: r, p⟩

/-- `read_binary_number` (`tokenizer/lexer.rs` 1131–1164). -/
def readBinaryNumber (c : Cfg) (start : Position) (binChar : Char) (s : Src) : ReadRes :=
  binaryLoop c start s.rest s.pos ['0', binChar]

/-- The `'0'` branch of `process_next` (`tokenizer/lexer.rs` 337–349). -/
def readZero (c : Cfg) (start : Position) (s : Src) : ReadRes :=
  match s.rest with
  | ch :: _ =>
    if ch = 'x' ∨ ch = 'X' then readHexNumber c start ch s.advance
    else if (c.luau || c.luajit) && (ch = 'b' || ch = 'B') then readBinaryNumber c start ch s.advance
    else readNumber c start ['0'] s
  | [] => readNumber c start ['0'] s

/-- The loop of `read_string` (`tokenizer/lexer.rs` 1218–1290): literal, "had to be recovered", state. -/
def stringLoop (c : Cfg) (quote : Char) : List Char → Position → Text → (escape zEscaped : Bool) →
    Text × Bool × Src
  | [], p, lit, _, _ => (lit, true, ⟨[], p⟩)
  | next :: r, p, lit, escape, z =>
    if escape && next == 'z' && (c.lua52 || c.luau || c.luajit) then
      stringLoop c quote r (p.advance next) (lit ++ ['z']) false true
    else if escape then
      stringLoop c quote r (p.advance next) (lit ++ [next]) false (if c.lua52 || c.luau then true else z)
    else if next = '\\' then stringLoop c quote r (p.advance next) (lit ++ ['\\']) true z
    else if (next = '\n' || next = '\r') && z then
      stringLoop c quote r (p.advance next) (lit ++ [next]) false false
    else if next = '\n' || next = '\r' then (lit, true, ⟨r, p.advance next⟩)
    else if next = quote then (lit, false, ⟨r, p.advance next⟩)
    else stringLoop c quote r (p.advance next) (lit ++ [next]) false z

/-- The quote type chosen by `read_string` (`tokenizer/lexer.rs` 1205–1211); `none` is the
`unreachable!()`.  The backtick arm is compiled only with the feature `cfxlua`. -/
def quoteType (c : Cfg) (quote : Char) : Option Quote :=
  if quote = '"' then some .double
  else if quote = '\'' then some .single
  else if quote = '`' && c.feat.cfxlua then some .backtick
  else none

/-- `read_string` and its caller (`tokenizer/lexer.rs` 364–376, 1204–1291). -/
def readString (c : Cfg) (start : Position) (quote : Char) (s : Src) : Outcome ReadRes :=
  match quoteType c quote with
  | none => .panic
  | some qt =>
    let (lit, recovered, s) := stringLoop c quote s.rest s.pos [] false false
    .ok (createRecovered start (.stringLiteral lit 0 qt)
      (if recovered then [⟨.unclosedString, (start, s.pos)⟩] else []) s)

/-- `enum MultiLineBodyResult` (`tokenizer/lexer.rs` 1548–1552). -/
inductive MultiLine where
  | ok (blocks : Nat) (body : Text)
  | notMultiLine (blocks : Nat)
  | unclosed (blocks : Nat) (body : Text)
  deriving Repr, DecidableEq

/-- `while self.source.consume('=') { blocks += 1 }` (`tokenizer/lexer.rs` 1352–1354). -/
def eqLoop : List Char → Position → Nat → Nat × Src
  | [], p, n => (n, ⟨[], p⟩)
  | ch :: r, p, n => if ch = '=' then eqLoop r (p.advance ch) (n + 1) else (n, ⟨ch :: r, p⟩)

/-- The inner loop `while equal_signs < blocks` (`tokenizer/lexer.rs` 1369–1383): consumes up to `k`
more `=`; returns how many were consumed and the state. -/
def closeEqLoop : Nat → List Char → Position → Nat × Src
  | 0, r, p => (0, ⟨r, p⟩)
  | _ + 1, [], p => (0, ⟨[], p⟩)
  | k + 1, ch :: r, p =>
    if ch = '=' then
      let (n, s) := closeEqLoop k r (p.advance ch)
      (n + 1, s)
    else (0, ⟨ch :: r, p⟩)

/-- The body loop (`tokenizer/lexer.rs` 1362–1398).  The first argument bounds the number of iterations;
each iteration reads at least one character, so with fuel `rest.length` it only runs out at the end of
the source, where the Rust loop returns `Unclosed` (lines 1363–1366). -/
def bodyLoop (blocks : Nat) : Nat → List Char → Position → Text → MultiLine × Src
  | 0, rest, p, body => (.unclosed blocks body, ⟨rest, p⟩)
  | _ + 1, [], p, body => (.unclosed blocks body, ⟨[], p⟩)
  | fuel + 1, next :: r, p, body =>
    if next = ']' then
      let (n, s) := closeEqLoop blocks r (p.advance next)
      if n < blocks then
        bodyLoop blocks fuel s.rest s.pos (body ++ ']' :: List.replicate n '=')
      else if s.current = some ']' then (.ok blocks body, s.advance)
      else bodyLoop blocks fuel s.rest s.pos (body ++ ']' :: List.replicate n '=')
    else bodyLoop blocks fuel r (p.advance next) (body ++ [next])

/-- `read_multi_line_body` (`tokenizer/lexer.rs` 1350–1401). -/
def readMultiLineBody (s : Src) : MultiLine × Src :=
  let (blocks, s) := eqLoop s.rest s.pos 0
  if s.current = some '[' then
    bodyLoop blocks s.advance.rest.length s.advance.rest s.advance.pos []
  else (.notMultiLine blocks, s)

/-- The line loop of `read_comment` (`tokenizer/lexer.rs` 1329–1340): everything up to, not including,
the newline (the code reads the newline and resets the position to just before it). -/
def lineLoop : List Char → Position → Text → Text × Src
  | [], p, comment => (comment, ⟨[], p⟩)
  | ch :: r, p, comment =>
    if ch = '\n' then (comment, ⟨ch :: r, p⟩) else lineLoop r (p.advance ch) (comment ++ [ch])

/-- `read_comment` (`tokenizer/lexer.rs` 1294–1348): comment, "had to be recovered", state. -/
def readComment (s : Src) : TokenType × Bool × Src :=
  let line (comment : Text) (s : Src) : TokenType × Bool × Src :=
    let (comment, s) := lineLoop s.rest s.pos comment
    (.singleLineComment comment, false, s)
  match s.consume '[' with
  | (true, s) =>
    match readMultiLineBody s with
    | (.ok blocks body, s) => (.multiLineComment blocks body, false, s)
    | (.unclosed blocks body, s) => (.multiLineComment blocks body, true, s)
    | (.notMultiLine blocks, s) => line ('[' :: List.replicate blocks '=') s
  | (false, s) => line [] s

/-- `read_c_style_comment` (`tokenizer/lexer.rs` 1404–1425). -/
def cStyleLoop : List Char → Position → Text → Text × Bool × Src
  | [], p, comment => (comment, true, ⟨[], p⟩)
  | next :: r, p, comment =>
    match r with
    | ch :: r' =>
      if next = '*' ∧ ch = '/' then (comment, false, ⟨r', (p.advance next).advance ch⟩)
      else cStyleLoop r (p.advance next) (comment ++ [next])
    | [] => cStyleLoop r (p.advance next) (comment ++ [next])

/-- A comment token with its error when unclosed (`tokenizer/lexer.rs` 611–622, 885–896). -/
def commentToken (start : Position) (r : TokenType × Bool × Src) : ReadRes :=
  createRecovered start r.1
    (if r.2.1 then [⟨.unclosedComment, (start, r.2.2.pos)⟩] else []) r.2.2

/-- The `'['` branch of `process_next` (`tokenizer/lexer.rs` 449–496). -/
def readLeftBracket (start : Position) (s : Src) : ReadRes :=
  if s.current = some '[' ∨ s.current = some '=' then
    match readMultiLineBody s with
    | (.ok blocks body, s') => create start (.stringLiteral body blocks .brackets) s'
    | (.unclosed blocks body, s') =>
      createRecovered start (.stringLiteral body blocks .brackets) [⟨.unclosedString, (start, s'.pos)⟩] s'
    | (.notMultiLine _, _) => create start (.symbol .leftBracket) s
  else create start (.symbol .leftBracket) s

/-- The inner loop of `\u{…}` (`tokenizer/interpolated_strings.rs` 52–54): reads while the character
after the current one exists and is not `}`. -/
def unicodeLoop : List Char → Position → Text → Text × Src
  | ch :: ch' :: r, p, acc =>
    if ch' = '}' then (acc, ⟨ch :: ch' :: r, p⟩)
    else unicodeLoop (ch' :: r) (p.advance ch) (acc ++ [ch])
  | r, p, acc => (acc, ⟨r, p⟩)

/-- What ended a section of an interpolated string. -/
inductive SectionEnd where
  | brace | backtick | unclosed
  deriving Repr, DecidableEq

/-- The loop of `read_interpolated_string_section` (`tokenizer/interpolated_strings.rs` 20–97).  Fuel as
in `bodyLoop`: each iteration reads at least one character. -/
def sectionLoop : Nat → List Char → Position → Text → (escape zEscaped : Bool) → Text × SectionEnd × Src
  | 0, rest, p, lit, _, _ => (lit, .unclosed, ⟨rest, p⟩)
  | _ + 1, [], p, lit, _, _ => (lit, .unclosed, ⟨[], p⟩)
  | fuel + 1, ch :: r, p, lit, escape, z =>
    if !escape && !z && (ch = '\n' || ch = '\r') then (lit, .unclosed, ⟨ch :: r, p⟩)
    else if escape && ch = 'z' then sectionLoop fuel r (p.advance ch) (lit ++ ['z']) true true
    else if escape then sectionLoop fuel r (p.advance ch) (lit ++ [ch]) false true
    else if ch = '\\' then
      match r with
      | 'u' :: r' =>
        match r' with
        | '{' :: r'' =>
          let (lit, s) := unicodeLoop r'' (((p.advance ch).advance 'u').advance '{') (lit ++ ['\\', 'u', '{'])
          sectionLoop fuel s.rest s.pos lit escape z
        | _ => sectionLoop fuel r' ((p.advance ch).advance 'u') (lit ++ ['\\', 'u']) escape z
      | _ => sectionLoop fuel r (p.advance ch) (lit ++ [ch]) true z
    else if (ch = '\n' || ch = '\r') && z then sectionLoop fuel r (p.advance ch) (lit ++ [ch]) escape false
    else if ch = '{' then (lit, .brace, ⟨r, p.advance ch⟩)
    else if ch = '`' then (lit, .backtick, ⟨r, p.advance ch⟩)
    else sectionLoop fuel r (p.advance ch) (lit ++ [ch]) escape z

/-- Result of `process_next`: `None` after the end, otherwise a result, and the new state. -/
abbrev StepRes := Option (LexRes Token) × Lx

/-- Put a `ReadRes` back into the lexer state. -/
def Lx.finish (l : Lx) (r : ReadRes) : StepRes := (some r.1, { l with src := r.2 })

/-- `read_interpolated_string_section` (`tokenizer/interpolated_strings.rs` 14–114). -/
def readSection (l : Lx) (start : Position) (formatType endType : InterpKind) : StepRes :=
  match sectionLoop l.src.rest.length l.src.rest l.src.pos [] false false with
  | (lit, .brace, s) =>
    (some (.ok ⟨start, s.pos, .interpolated lit formatType⟩),
      { l with src := s, braces := .interpolatedString :: l.braces })
  | (lit, .backtick, s) => (some (.ok ⟨start, s.pos, .interpolated lit endType⟩), { l with src := s })
  | (lit, .unclosed, s) =>
    (some (.recovered ⟨start, s.pos, .interpolated lit endType⟩ [⟨.unclosedString, (start, s.pos)⟩]),
      { l with src := s })

/-- `create` of a symbol token. -/
def symTok (start : Position) (y : Symbol) (s : Src) : ReadRes := create start (.symbol y) s

/-- `'='` (`tokenizer/lexer.rs` 379–395). -/
def readEqual (start : Position) (s : Src) : ReadRes :=
  match s.consume '=' with
  | (true, s) => symTok start .twoEqual s
  | (false, s) => symTok start .equal s

/-- `'~'` (`tokenizer/lexer.rs` 397–422). -/
def readTilde (c : Cfg) (start : Position) (s : Src) : ReadRes :=
  match s.consume '=' with
  | (true, s) => symTok start .tildeEqual s
  | (false, s) =>
    if c.hasAny [.lua53] then symTok start .tilde s
    else (.fatal [⟨.invalidSymbol ['~'], (start, s.pos)⟩], s)

/-- A character that becomes `withEq` when a version of `vs` is active and `=` (or `ch`) follows, and
`plain` otherwise: `':'` (505–525), `'+'` (534–554), `'*'` (556–576), `'%'` (637–657), `'^'` (659–679)
of `tokenizer/lexer.rs`. -/
def readGated (c : Cfg) (vs : List Ver) (ch : Char) (combined plain : Symbol) (start : Position)
    (s : Src) : ReadRes :=
  if c.hasAny vs then
    match s.consume ch with
    | (true, s) => symTok start combined s
    | (false, s) => symTok start plain s
  else symTok start plain s

/-- `'/'` (`tokenizer/lexer.rs` 578–635). -/
def readSlash (c : Cfg) (start : Position) (s : Src) : ReadRes :=
  if c.hasAny [.lua53, .luau, .cfxlua] then
    match s.consume '/' with
    | (true, s) =>
      if c.hasAny [.luau] then
        match s.consume '=' with
        | (true, s) => symTok start .doubleSlashEqual s
        | (false, s) => symTok start .doubleSlash s
      else symTok start .doubleSlash s
    | (false, s) =>
      match (if c.hasAny [.luau, .cfxlua] then s.consume '=' else (false, s)) with
      | (true, s) => symTok start .slashEqual s
      | (false, s) =>
        match (if c.hasAny [.cfxlua] then s.consume '*' else (false, s)) with
        | (true, s) =>
          let (comment, recovered, s) := cStyleLoop s.rest s.pos []
          commentToken start (.cStyleComment comment, recovered, s)
        | (false, s) => symTok start .slash s
  else symTok start .slash s

/-- `'<'` and `'>'` (`tokenizer/lexer.rs` 688–774): `ch` itself, then the doubled, doubled-with-`=`,
with-`=` and plain symbols. -/
def readAngle (c : Cfg) (ch : Char) (dblEq dbl withEq plain : Symbol) (start : Position) (s : Src) : ReadRes :=
  let rest (s : Src) : ReadRes :=
    match s.consume '=' with
    | (true, s) => symTok start withEq s
    | (false, s) => symTok start plain s
  if c.hasAny [.lua53, .cfxlua] then
    match s.consume ch with
    | (true, s) =>
      if c.hasAny [.cfxlua] then
        match s.consume '=' with
        | (true, s) => symTok start dblEq s
        | (false, s) => symTok start dbl s
      else symTok start dbl s
    | (false, s) => rest s
  else rest s

/-- `'.'` (`tokenizer/lexer.rs` 813–853). -/
def readDot (c : Cfg) (start : Position) (s : Src) : ReadRes :=
  match s.consume '.' with
  | (true, s) =>
    match s.consume '.' with
    | (true, s) => symTok start .ellipsis s
    | (false, s) =>
      if c.hasAny [.luau] then
        match s.consume '=' with
        | (true, s) => symTok start .twoDotsEqual s
        | (false, s) => symTok start .twoDots s
      else symTok start .twoDots s
  | (false, s) =>
    if headIs isDigit s.rest then readNumber c start ['.'] s
    else symTok start .dot s

/-- `'-'` after the compound operators: comment or minus (`tokenizer/lexer.rs` 882–904). -/
def readMinusRest (start : Position) (s : Src) : ReadRes :=
  match s.consume '-' with
  | (true, s) => commentToken start (readComment s)
  | (false, s) => symTok start .minus s

/-- `'-'` (`tokenizer/lexer.rs` 855–905). -/
def readMinus (c : Cfg) (start : Position) (s : Src) : ReadRes :=
  if c.hasAny [.luau, .cfxlua] then
    match s.consume '=' with
    | (true, s) => symTok start .minusEqual s
    | (false, s) =>
      if c.hasAny [.luau] then
        match s.consume '>' with
        | (true, s) => symTok start .thinArrow s
        | (false, s) => readMinusRest start s
      else readMinusRest start s
  else readMinusRest start s

/-- `'&'`, `'|'`, `'?'`, `'@'` and any other character (`tokenizer/lexer.rs` 914–975), in the order of
the match arms. -/
def readOther (c : Cfg) (start : Position) (ch : Char) (s : Src) : ReadRes :=
  if ch = '&' ∧ c.cfxlua ∧ s.current = some '=' then symTok start .ampersandEqual s.advance
  else if ch = '|' ∧ c.cfxlua ∧ s.current = some '=' then symTok start .pipeEqual s.advance
  else if ch = '?' ∧ c.cfxlua ∧ s.current = some '.' then symTok start .questionMarkDot s.advance
  else if ch = '&' ∧ (c.lua53 ∨ c.luau) then symTok start .ampersand s
  else if ch = '|' ∧ (c.lua53 ∨ c.luau) then symTok start .pipe s
  else if ch = '?' ∧ c.luau then symTok start .questionMark s
  else if ch = '@' ∧ c.luau then symTok start .atSign s
  else (.fatal [⟨.unexpectedToken ch, (start, s.pos)⟩], s)

/-- The branches of `process_next` that neither panic nor touch the brace stack
(`tokenizer/lexer.rs` 269–976 without the quote, `'{'` and `'}'` arms). -/
def readPlain (c : Cfg) (start : Position) (ch : Char) (s : Src) : ReadRes :=
  if isIdentStart ch then readIdent c start ch s
  else if ch = ' ' ∨ ch = '\t' ∨ ch = '\r' then readWhitespace start ch s
  else if ch = '0' then readZero c start s
  else if isDigit ch then readNumber c start [ch] s
  else if ch = '=' then readEqual start s
  else if ch = '~' then readTilde c start s
  else if ch = '\n' then
    -- lines 424–433: the end position stays on the line of the newline
    (.ok ⟨start, ⟨start.bytes + 1, start.line, start.character⟩, .whitespace ['\n']⟩, s)
  else if ch = '(' then symTok start .leftParen s
  else if ch = ')' then symTok start .rightParen s
  else if ch = '[' then readLeftBracket start s
  else if ch = ']' then symTok start .rightBracket s
  else if ch = ':' then readGated c [.lua52, .luau, .luajit] ':' .twoColons .colon start s
  else if ch = ',' then symTok start .comma s
  else if ch = '+' then readGated c [.luau, .cfxlua] '=' .plusEqual .plus start s
  else if ch = '*' then readGated c [.luau, .cfxlua] '=' .starEqual .star start s
  else if ch = '/' then readSlash c start s
  else if ch = '%' then readGated c [.luau] '=' .percentEqual .percent start s
  else if ch = '^' then readGated c [.luau, .cfxlua] '=' .caretEqual .caret start s
  else if ch = '#' then symTok start .hash s
  else if ch = '<' then
    readAngle c '<' .doubleLessThanEqual .doubleLessThan .lessThanEqual .lessThan start s
  else if ch = '>' then
    readAngle c '>' .doubleGreaterThanEqual .doubleGreaterThan .greaterThanEqual .greaterThan start s
  else if ch = '.' then readDot c start s
  else if ch = '-' then readMinus c start s
  else if ch = ';' then symTok start .semicolon s
  else readOther c start ch s

/-- `Lexer::process_next` (`tokenizer/lexer.rs` 257–977). -/
def processNext (c : Cfg) (l : Lx) : Outcome StepRes :=
  let start := l.src.pos
  match l.src.rest with
  | [] =>
    if l.sentEof then .ok (none, l)
    else .ok (some (.ok ⟨start, start, .eof⟩), { l with sentEof := true })
  | ch :: r =>
    let s : Src := ⟨r, start.advance ch⟩
    let l := { l with src := s }
    if ch = '"' ∨ ch = '\'' ∨ ch = '`' then
      if c.luau ∧ ch = '`' then .ok (readSection l start .begin .simple)
      else (readString c start ch s).bind fun res => .ok (l.finish res)
    else if ch = '{' then
      .ok (({ l with braces := if c.luau then .normal :: l.braces else l.braces }).finish
        (symTok start .leftBrace s))
    else if ch = '}' then
      if c.luau then
        -- `brace_stack.pop()` happens whatever the popped value is
        let l' := { l with braces := l.braces.tail }
        if l.braces.head? = some .interpolatedString then .ok (readSection l' start .middle .end_)
        else .ok (l'.finish (symTok start .rightBrace s))
      else .ok (l.finish (symTok start .rightBrace s))
    else .ok (l.finish (readPlain c start ch s))

/-- The characters that can start trivia in `collect_trailing_trivia` (`tokenizer/lexer.rs` 221–224). -/
def startsTrailing (ch : Char) : Bool :=
  ch == '\n' || ch == '\r' || ch == '\t' || ch == '#' || ch == '-' || ch == ' '

/-- Does a whitespace token contain a newline (`tokenizer/lexer.rs` 229–235)? -/
def TokenType.endsLine : TokenType → Bool
  | .whitespace characters => characters.contains '\n'
  | _ => false

/-- `collect_trailing_trivia` (`tokenizer/lexer.rs` 213–254).  The reset (248–249) restores the source
position and `sent_eof`, not the brace stack. -/
def collectTrailing (c : Cfg) : Nat → Lx → Outcome (List Token × Lx)
  | 0, _ => .diverge
  | fuel + 1, l =>
    if headIs startsTrailing l.src.rest then
      (processNext c l).bind fun
        | (some (.ok t), l') =>
          if t.type.isTrivia then
            if t.type.endsLine then .ok ([t], l')
            else (collectTrailing c fuel l').bind fun (ts, l'') => .ok (t :: ts, l'')
          else .ok ([], { l' with src := l.src, sentEof := l.sentEof })
        | (_, l') => .ok ([], { l' with src := l.src, sentEof := l.sentEof })
    else .ok ([], l)

/-- The loop of `process_next_with_trivia` (`tokenizer/lexer.rs` 134–162): leading trivia collected so
far, errors collected so far (`None` until a token was recovered), result. -/
inductive NonTrivial where
  | done
  | fatal (errors : List TokErr)
  | token (leading : List Token) (token : Token) (errors : Option (List TokErr))
  deriving Repr, DecidableEq

/-- See `NonTrivial`; each iteration reads at least one character or ends. -/
def leadingLoop (c : Cfg) : Nat → Lx → List Token → Option (List TokErr) → Outcome (NonTrivial × Lx)
  | 0, _, _, _ => .diverge
  | fuel + 1, l, leading, errors =>
    (processNext c l).bind fun
      | (none, l') => .ok (.done, l')
      | (some (.ok t), l') =>
        if t.type.isTrivia then leadingLoop c fuel l' (leading ++ [t]) errors
        else .ok (.token leading t errors, l')
      | (some (.fatal es), l') => .ok (.fatal es, l')
      | (some (.recovered t es), l') =>
        let errors := some (errors.getD [] ++ es)
        if t.type.isTrivia then leadingLoop c fuel l' (leading ++ [t]) errors
        else .ok (.token leading t errors, l')

/-- `process_next_with_trivia` (`tokenizer/lexer.rs` 130–176). -/
def processNextWithTrivia (c : Cfg) (l : Lx) : Outcome (Option (LexRes TokRef) × Lx) :=
  (leadingLoop c (l.src.rest.length + 1) l [] none).bind fun
    | (.done, l') => .ok (none, l')
    | (.fatal es, l') => .ok (some (.fatal es), l')
    | (.token leading t errors, l') =>
      (collectTrailing c (l'.src.rest.length + 1) l').bind fun (trailing, l'') =>
        match errors with
        | some es => .ok (some (.recovered ⟨leading, t, trailing⟩ es), l'')
        | none => .ok (some (.ok ⟨leading, t, trailing⟩), l'')

/-- `process_first_with_trivia` (`tokenizer/lexer.rs` 178–211). -/
def processFirstWithTrivia (c : Cfg) (l : Lx) : Outcome (Option (LexRes TokRef) × Lx) :=
  match l.src.rest with
  | '#' :: '!' :: r =>
    let start := l.src.pos
    let (line, s) := lineLoop r ((start.advance '#').advance '!') ['#', '!']
    let shebang : Token := ⟨start, s.pos, .shebang line⟩
    (processNextWithTrivia c { l with src := s }).bind fun
      | (some (.ok t), l') => .ok (some (.ok { t with leading := shebang :: t.leading }), l')
      | (_, l') => processNextWithTrivia c l'
  | _ => processNextWithTrivia c l

/-- `struct Lexer` with its two-token window (`tokenizer/lexer.rs` 13–25). -/
structure Lexer where
  lx : Lx
  next : Option (LexRes TokRef)
  peeked : Option (LexRes TokRef)
  deriving Repr, DecidableEq

namespace Lexer

/-- `Lexer::new` (`tokenizer/lexer.rs` 29–36). -/
def new (c : Cfg) (source : Text) : Outcome Lexer :=
  (processFirstWithTrivia c (Lx.new source)).bind fun (n, l) =>
    (processNextWithTrivia c l).bind fun (p, l) => .ok ⟨l, n, p⟩

/-- `Lexer::current` (`tokenizer/lexer.rs` 56–58). -/
def current (x : Lexer) : Option (LexRes TokRef) := x.next

/-- `Lexer::peek` (`tokenizer/lexer.rs` 61–63). -/
def peek (x : Lexer) : Option (LexRes TokRef) := x.peeked

/-- `Lexer::consume` (`tokenizer/lexer.rs` 66–71). -/
def consume (c : Cfg) (x : Lexer) : Outcome (Option (LexRes TokRef) × Lexer) :=
  match x.next with
  | none => .ok (none, x)
  | some n => (processNextWithTrivia c x.lx).bind fun (p, l) => .ok (some n, ⟨l, x.peeked, p⟩)

/-- The loop of `Lexer::collect` (`tokenizer/lexer.rs` 79–97). -/
def collectLoop (c : Cfg) : Nat → Lexer → List Token → List TokErr → Outcome (List Token × List TokErr)
  | 0, _, _, _ => .diverge
  | fuel + 1, x, tokens, errors =>
    (x.consume c).bind fun
      | (none, _) => .ok (tokens, errors)
      | (some (.ok t), x') => collectLoop c fuel x' (tokens ++ t.leading ++ [t.token] ++ t.trailing) errors
      | (some (.recovered t es), x') =>
        collectLoop c fuel x' (tokens ++ t.leading ++ [t.token] ++ t.trailing) (errors ++ es)
      | (some (.fatal es), x') => collectLoop c fuel x' tokens (errors ++ es)

/-- `Lexer::collect` (`tokenizer/lexer.rs` 74–100).  The fuel covers the two tokens of the window, one
token per remaining character and Eof. -/
def collect (c : Cfg) (x : Lexer) : Outcome (LexRes (List Token)) :=
  (collectLoop c (x.lx.src.rest.length + 4) x [] []).bind fun (tokens, errors) => .ok (.new tokens errors)

end Lexer

/-- Repeated `process_next_with_trivia` until it returns `None`. -/
def lexRest (c : Cfg) : Nat → Lx → Outcome (List (LexRes TokRef))
  | 0, _ => .diverge
  | fuel + 1, l =>
    (processNextWithTrivia c l).bind fun
      | (none, _) => .ok []
      | (some t, l') => (lexRest c fuel l').bind fun ts => .ok (t :: ts)

/-- All results the tokenizer produces for a source, in order: what repeated `Lexer::consume` on
`Lexer::new(source)` returns (proved in `Props/Tokenizer`, C08). -/
def lexAll (c : Cfg) (source : Text) : Outcome (List (LexRes TokRef)) :=
  (processFirstWithTrivia c (Lx.new source)).bind fun
    | (none, l) => (lexRest c (source.length + 2) l).bind fun ts => .ok ts
    | (some t, l) => (lexRest c (source.length + 2) l).bind fun ts => .ok (t :: ts)

/-- The first loop of `symbol_specific_lua_version` (`tokenizer/structs.rs` 655–695). -/
def symbolLeading (c : Cfg) (text : Text) : Nat → Lx → List Token →
    Outcome (Except TokErrType (List Token × Token × Lx))
  | 0, _, _ => .diverge
  | fuel + 1, l, leading =>
    (processNext c l).bind fun
      | (some (.ok t), l') =>
        match t.type with
        | .whitespace _ => symbolLeading c text fuel l' (leading ++ [t])
        | .symbol _ => .ok (.ok (leading, t, l'))
        | .eof => .ok (.error (.invalidSymbol text))
        | _ =>
          match t.display with
          | ch :: _ => .ok (.error (.unexpectedToken ch))
          | [] => .panic
      | (some (.fatal es), _) | (some (.recovered _ es), _) =>
        match es with
        | e :: _ => .ok (.error e.error)
        | [] => .panic
      | (none, _) => .panic

/-- The second loop (`tokenizer/structs.rs` 699–731). -/
def symbolTrailing (c : Cfg) : Nat → Lx → List Token → Outcome (Except TokErrType (List Token))
  | 0, _, _ => .diverge
  | fuel + 1, l, trailing =>
    (processNext c l).bind fun
      | (some (.ok t), l') =>
        match t.type with
        | .whitespace _ => symbolTrailing c fuel l' (trailing ++ [t])
        | .eof => .ok (.ok trailing)
        | _ =>
          match t.display with
          | ch :: _ => .ok (.error (.unexpectedToken ch))
          | [] => .panic
      | (some (.fatal es), _) | (some (.recovered _ es), _) =>
        match es with
        | e :: _ => .ok (.error e.error)
        | [] => .panic
      | (none, _) => .panic

/-- `TokenReference::symbol_specific_lua_version` (`tokenizer/structs.rs` 646–738). -/
def symbolSpecific (c : Cfg) (text : Text) : Outcome (Except TokErrType TokRef) :=
  (symbolLeading c text (text.length + 2) (Lx.new text) []).bind fun
    | .error e => .ok (.error e)
    | .ok (leading, t, l) =>
      (symbolTrailing c (text.length + 2) l []).bind fun
        | .error e => .ok (.error e)
        | .ok trailing => .ok (.ok ⟨leading, t, trailing⟩)

end FM
