import Verif.Model.Config

/-!
# Symbols

Models the `symbol!` macro and its table, `tokenizer/structs.rs` 15–179.  Keyword constructors carry a
leading `k` (Lean reserves most of the names); all other names are the Rust ones in lower camel case.
-/

namespace FM

/-- `pub enum Symbol` (`tokenizer/structs.rs` 100–178).  The Rust enum has a variant only when one of
its features is compiled (`cfg(any(…))`, lines 31–33); see `Symbol.compiled`. -/
inductive Symbol where
  | kAnd
  | kBreak
  | kDo
  | kElse
  | kElseIf
  | kEnd
  | kFalse
  | kFor
  | kFunction
  | kIf
  | kIn
  | kLocal
  | kNil
  | kNot
  | kOr
  | kRepeat
  | kReturn
  | kThen
  | kTrue
  | kUntil
  | kWhile
  | kGoto
  | plusEqual
  | minusEqual
  | starEqual
  | slashEqual
  | doubleSlashEqual
  | percentEqual
  | caretEqual
  | twoDotsEqual
  | ampersand
  | thinArrow
  | twoColons
  | atSign
  | doubleLessThanEqual
  | doubleGreaterThanEqual
  | ampersandEqual
  | pipeEqual
  | questionMarkDot
  | caret
  | colon
  | comma
  | dot
  | twoDots
  | ellipsis
  | equal
  | twoEqual
  | greaterThan
  | greaterThanEqual
  | doubleGreaterThan
  | hash
  | leftBrace
  | leftBracket
  | leftParen
  | lessThan
  | lessThanEqual
  | doubleLessThan
  | minus
  | percent
  | pipe
  | plus
  | questionMark
  | rightBrace
  | rightBracket
  | rightParen
  | semicolon
  | slash
  | doubleSlash
  | star
  | tilde
  | tildeEqual
  deriving Repr, DecidableEq

namespace Symbol

/-- Every row of the table, in order (`tokenizer/structs.rs` 101–177). -/
def all : List Symbol := [
  .kAnd, .kBreak, .kDo, .kElse, .kElseIf, .kEnd,
  .kFalse, .kFor, .kFunction, .kIf, .kIn, .kLocal,
  .kNil, .kNot, .kOr, .kRepeat, .kReturn, .kThen,
  .kTrue, .kUntil, .kWhile, .kGoto, .plusEqual, .minusEqual,
  .starEqual, .slashEqual, .doubleSlashEqual, .percentEqual, .caretEqual, .twoDotsEqual,
  .ampersand, .thinArrow, .twoColons, .atSign, .doubleLessThanEqual, .doubleGreaterThanEqual,
  .ampersandEqual, .pipeEqual, .questionMarkDot, .caret, .colon, .comma,
  .dot, .twoDots, .ellipsis, .equal, .twoEqual, .greaterThan,
  .greaterThanEqual, .doubleGreaterThan, .hash, .leftBrace, .leftBracket, .leftParen,
  .lessThan, .lessThanEqual, .doubleLessThan, .minus, .percent, .pipe,
  .plus, .questionMark, .rightBrace, .rightBracket, .rightParen, .semicolon,
  .slash, .doubleSlash, .star, .tilde, .tildeEqual]

/-- The version list in brackets of a row (`tokenizer/structs.rs` 101–177); empty when there is none. -/
def gates : Symbol → List Ver
  | .kGoto => [.lua52, .luajit]
  | .plusEqual => [.luau, .cfxlua]
  | .minusEqual => [.luau, .cfxlua]
  | .starEqual => [.luau, .cfxlua]
  | .slashEqual => [.luau, .cfxlua]
  | .doubleSlashEqual => [.luau]
  | .percentEqual => [.luau]
  | .caretEqual => [.luau, .cfxlua]
  | .twoDotsEqual => [.luau]
  | .ampersand => [.luau, .lua53]
  | .thinArrow => [.luau]
  | .twoColons => [.luau, .lua52, .luajit]
  | .atSign => [.luau]
  | .doubleLessThanEqual => [.cfxlua]
  | .doubleGreaterThanEqual => [.cfxlua]
  | .ampersandEqual => [.cfxlua]
  | .pipeEqual => [.cfxlua]
  | .questionMarkDot => [.cfxlua]
  | .doubleGreaterThan => [.lua53]
  | .doubleLessThan => [.lua53]
  | .pipe => [.luau, .lua53]
  | .questionMark => [.luau]
  | .doubleSlash => [.luau, .lua53]
  | .tilde => [.lua53]
  | _ => []

/-- The string of a row, which is also what `Display for Symbol` writes (`tokenizer/structs.rs` 76–90). -/
def text : Symbol → Text
  | .kAnd => c!"and"
  | .kBreak => c!"break"
  | .kDo => c!"do"
  | .kElse => c!"else"
  | .kElseIf => c!"elseif"
  | .kEnd => c!"end"
  | .kFalse => c!"false"
  | .kFor => c!"for"
  | .kFunction => c!"function"
  | .kIf => c!"if"
  | .kIn => c!"in"
  | .kLocal => c!"local"
  | .kNil => c!"nil"
  | .kNot => c!"not"
  | .kOr => c!"or"
  | .kRepeat => c!"repeat"
  | .kReturn => c!"return"
  | .kThen => c!"then"
  | .kTrue => c!"true"
  | .kUntil => c!"until"
  | .kWhile => c!"while"
  | .kGoto => c!"goto"
  | .plusEqual => c!"+="
  | .minusEqual => c!"-="
  | .starEqual => c!"*="
  | .slashEqual => c!"/="
  | .doubleSlashEqual => c!"//="
  | .percentEqual => c!"%="
  | .caretEqual => c!"^="
  | .twoDotsEqual => c!"..="
  | .ampersand => c!"&"
  | .thinArrow => c!"->"
  | .twoColons => c!"::"
  | .atSign => c!"@"
  | .doubleLessThanEqual => c!"<<="
  | .doubleGreaterThanEqual => c!">>="
  | .ampersandEqual => c!"&="
  | .pipeEqual => c!"|="
  | .questionMarkDot => c!"?."
  | .caret => c!"^"
  | .colon => c!":"
  | .comma => c!","
  | .dot => c!"."
  | .twoDots => c!".."
  | .ellipsis => c!"..."
  | .equal => c!"="
  | .twoEqual => c!"=="
  | .greaterThan => c!">"
  | .greaterThanEqual => c!">="
  | .doubleGreaterThan => c!">>"
  | .hash => c!"#"
  | .leftBrace => c!"{"
  | .leftBracket => c!"["
  | .leftParen => c!"("
  | .lessThan => c!"<"
  | .lessThanEqual => c!"<="
  | .doubleLessThan => c!"<<"
  | .minus => c!"-"
  | .percent => c!"%"
  | .pipe => c!"|"
  | .plus => c!"+"
  | .questionMark => c!"?"
  | .rightBrace => c!"}"
  | .rightBracket => c!"]"
  | .rightParen => c!")"
  | .semicolon => c!";"
  | .slash => c!"/"
  | .doubleSlash => c!"//"
  | .star => c!"*"
  | .tilde => c!"~"
  | .tildeEqual => c!"~="

/-- `#[cfg(any(feature = …))]` of a row (`tokenizer/structs.rs` 31–33, 58–60, 81–83). -/
def compiled (f : Features) (s : Symbol) : Bool :=
  s.gates.isEmpty || s.gates.any f.has

/-- `Symbol::from_str` (`tokenizer/structs.rs` 54–73): a `match` on the string over the compiled rows,
then the version check.  (The strings of the rows are pairwise distinct, so "the first row whose string
matches" is the `match` arm.) -/
def fromStr (c : Cfg) (s : Text) : Option Symbol :=
  match all.find? (fun y => y.compiled c.feat && y.text == s) with
  | none => none
  | some y => if c.hasAny y.gates then some y else none

end Symbol

end FM
