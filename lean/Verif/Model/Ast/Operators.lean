import Verif.Model.Ast.Kinds

/-!
# Operators (ast/mod.rs 2205–2383)
-/

namespace FM

/-- The operators in the order of the table (ast/mod.rs 2295–2325). -/
def BinOp.all : List BinOp :=
  [.caret, .percent, .slash, .star, .doubleSlash, .minus, .plus, .twoDots, .doubleLessThan, .doubleGreaterThan,
   .ampersand, .tilde, .pipe, .greaterThan, .greaterThanEqual, .lessThan, .lessThanEqual, .tildeEqual, .twoEqual,
   .and, .or]

/-- The symbol of the same name (ast/mod.rs 2239, 2271). -/
def BinOp.symbol : BinOp → Symbol
  | .caret => .caret | .percent => .percent | .slash => .slash | .star => .star | .doubleSlash => .doubleSlash
  | .minus => .minus | .plus => .plus | .twoDots => .twoDots | .doubleLessThan => .doubleLessThan
  | .doubleGreaterThan => .doubleGreaterThan | .ampersand => .ampersand | .tilde => .tilde | .pipe => .pipe
  | .greaterThan => .greaterThan | .greaterThanEqual => .greaterThanEqual | .lessThan => .lessThan
  | .lessThanEqual => .lessThanEqual | .tildeEqual => .tildeEqual | .twoEqual => .twoEqual | .and => .kAnd
  | .or => .kOr

/-- The versions of the table (ast/mod.rs 2295–2325). -/
def BinOp.gates : BinOp → List Ver
  | .doubleSlash => [.luau, .lua53]
  | .doubleLessThan | .doubleGreaterThan | .ampersand | .tilde | .pipe => [.lua53]
  | _ => []

/-- The precedences of the table (ast/mod.rs 2295–2325). -/
def BinOp.level : BinOp → Nat
  | .caret => 12
  | .percent | .slash | .star | .doubleSlash => 10
  | .minus | .plus => 9
  | .twoDots => 8
  | .doubleLessThan | .doubleGreaterThan => 7
  | .ampersand => 6
  | .tilde => 5
  | .pipe => 4
  | .greaterThan | .greaterThanEqual | .lessThan | .lessThanEqual | .tildeEqual | .twoEqual => 3
  | .and => 2
  | .or => 1

/-- `#[cfg(any(feature = …))]` on a variant (ast/mod.rs 2219–2223). -/
def BinOp.compiled (f : Features) (o : BinOp) : Bool := o.gates.isEmpty || o.gates.any f.has

/-- The arm of a `match` on symbols over the compiled operators. -/
def BinOp.ofSymbol (f : Features) (s : Symbol) : Option BinOp :=
  BinOp.all.find? fun o => o.symbol == s && o.compiled f

/-- `BinOp::precedence_of_token` (ast/mod.rs 2230–2246). -/
def BinOp.precedenceOfToken (f : Features) (t : TokRef) : Option Nat :=
  match t.token.type with
  | .symbol s => (BinOp.ofSymbol f s).map BinOp.level
  | _ => none

/-- `BinOp::precedence` (ast/mod.rs 2331–2333) of the variant `o` holding the token `t`. -/
def BinOp.precedence (f : Features) (_ : BinOp) (t : TokRef) : Outcome Nat :=
  match BinOp.precedenceOfToken f t with
  | some p => .ok p
  | none => .panic

/-- `BinOp::is_right_associative` (ast/mod.rs 2337–2339). -/
def BinOp.isRightAssociative : BinOp → Bool
  | .caret | .twoDots => true
  | _ => false

/-- `BinOp::is_right_associative_token` (ast/mod.rs 2342–2351). -/
def BinOp.isRightAssociativeToken (t : TokRef) : Bool :=
  t.token.type == .symbol .caret || t.token.type == .symbol .twoDots

/-- The operator `BinOp::consume` (ast/mod.rs 2262–2285) builds from a token, if it consumes it. -/
def BinOp.accept (c : Cfg) (t : TokRef) : Option BinOp :=
  match t.token.type with
  | .symbol s =>
    match BinOp.ofSymbol c.feat s with
    | some o => if c.hasAny o.gates then some o else none
    | none => none
  | _ => none

/-- `UnOp::precedence` (ast/mod.rs 2380–2382). -/
def UnOp.precedence : Nat := 11

end FM
