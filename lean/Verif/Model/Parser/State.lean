import Verif.Model.Lexer
import Verif.Model.Punctuated
import Verif.Model.Ast.Visit
import Verif.Model.Ast.Operators

/-!
# Parser state (ast/parser_structs.rs 8–255)

A parser function is a function from the tokenizer results not yet consumed to its value, the results that
remain, and the errors it pushed, in order: `ParserState::errors` is append-only and is only read by
`AstResult::parse_fallible`.  `lexer.current()` and `lexer.peek()` are the first two remaining results.  The Rust lexer
produces them on demand; here they are all produced first, which Props/Streaming (C08) shows to be the same.

`silent` is not in the Rust code.  It counts the places where a Luau production gives up after consuming tokens
without recording an error (see `giveUp`) and has no influence on anything else.
-/

namespace FM.Parser

/-- `enum Error` (lib.rs 39–44) with `AstError` (ast/mod.rs 2388–2398).  Messages are `String`s. -/
inductive Err where
  | tokenizer (e : TokErr)
  | ast (token : Token) (additional : String) (range : Option (Position × Position))
  deriving Repr, DecidableEq

/-- What remains of the tokenizer output. -/
abbrev Toks := List (LexRes TokRef)

/-- The effect of running a parser function to its end. -/
structure Run (α : Type) where
  val : α
  toks : Toks
  errs : List Err
  silent : Nat
  deriving Repr, DecidableEq

/-- A parser function (`fn(&mut ParserState) -> α`). -/
def M (α : Type) : Type := Toks → Outcome (Run α)

/-- Run `f` after a run. -/
def Run.andThen {α β : Type} (r : Run α) (f : α → M β) : Outcome (Run β) :=
  match f r.val r.toks with
  | .ok r' => .ok ⟨r'.val, r'.toks, r.errs ++ r'.errs, r.silent + r'.silent⟩
  | .panic => .panic
  | .diverge => .diverge

/-- Sequential composition. -/
def M.bind {α β : Type} (p : M α) (f : α → M β) : M β := fun ts =>
  match p ts with
  | .ok r => r.andThen f
  | .panic => .panic
  | .diverge => .diverge

/-- No effect. -/
def M.pure {α : Type} (a : α) : M α := fun ts => .ok ⟨a, ts, [], 0⟩

instance : Monad M where
  pure := M.pure
  bind := M.bind

/-- A Rust panic. -/
def panic {α : Type} : M α := fun _ => .panic

/-- The bound on the number of iterations of a loop was reached. -/
def diverge {α : Type} : M α := fun _ => .diverge

/-- Number of tokens left, plus one: bound for loops whose iterations consume. -/
def fuel : M Nat := fun ts => .ok ⟨ts.length + 1, ts, [], 0⟩

/-- Marks a place where a Luau production gives up, after the caller or itself has consumed tokens, without
recording an error.  No effect in the Rust code. -/
def giveUp : M Unit := fun ts => .ok ⟨(), ts, [], 1⟩

/-- `enum ParserResult` (ast/parser_structs.rs 235–245). -/
inductive Res (α : Type) where
  | value (a : α)
  | moved
  | notFound
  deriving Repr, DecidableEq

/-- `ParserResult::unwrap` (ast/parser_structs.rs 248–254). -/
def Res.unwrap {α : Type} : Res α → M α
  | .value a => pure a
  | _ => panic

/-- `ParserState::current` (ast/parser_structs.rs 31–37); `none` is `Err(())`. -/
def current : M (Option TokRef) := fun ts =>
  match ts with
  | .ok t :: _ | .recovered t _ :: _ => .ok ⟨some t, ts, [], 0⟩
  | .fatal _ :: _ => .ok ⟨none, ts, [], 0⟩
  | [] => .panic

/-- `ParserState::peek` (ast/parser_structs.rs 39–45). -/
def peek : M (Option TokRef) := fun ts =>
  match ts with
  | _ :: .ok t :: _ | _ :: .recovered t _ :: _ => .ok ⟨some t, ts, [], 0⟩
  | _ :: .fatal _ :: _ => .ok ⟨none, ts, [], 0⟩
  | _ => .panic

/-- `ParserState::consume` (ast/parser_structs.rs 47–71). -/
def consume : M (Res TokRef) := fun ts =>
  match ts with
  | .ok t :: ts => .ok ⟨.value t, ts, [], 0⟩
  | .recovered t es :: ts => .ok ⟨.value t, ts, es.map .tokenizer, 0⟩
  | .fatal es :: ts => .ok ⟨.moved, ts, es.map .tokenizer, 0⟩
  | [] => .ok ⟨.notFound, [], [], 0⟩

/-- `state.consume().unwrap()`. -/
def take : M TokRef := do (← consume).unwrap

/-- `ParserState::token_error` (ast/parser_structs.rs 185–196). -/
def tokenError (t : TokRef) (msg : String) : M Unit := fun ts => .ok ⟨(), ts, [.ast t.token msg none], 0⟩

/-- `ParserState::token_error_ranged` (ast/parser_structs.rs 199–215). -/
def tokenErrorRanged (t : TokRef) (msg : String) (start stop : TokRef) : M Unit := fun ts =>
  .ok ⟨(), ts, [.ast t.token msg (some (start.token.start, stop.token.stop))], 0⟩

/-- `state.current().unwrap().clone()`. -/
def currentUnwrap : M TokRef := do
  match ← current with
  | some t => pure t
  | none => panic

/-- `matches!(token.token_type(), TokenType::Identifier { .. })`, also `token_kind() == TokenKind::Identifier`. -/
def _root_.FM.TokRef.isIdent (t : TokRef) : Bool := t.token.type.kind == .identifier

/-- `matches!(token.token_type(), TokenType::StringLiteral { .. })`. -/
def _root_.FM.TokRef.isString (t : TokRef) : Bool := t.token.type.kind == .stringLiteral

/-- `matches!(token.token_type(), TokenType::Number { .. })`. -/
def _root_.FM.TokRef.isNumber (t : TokRef) : Bool := t.token.type.kind == .number

/-- `token_kind() == TokenKind::Eof`. -/
def _root_.FM.TokRef.isEof (t : TokRef) : Bool := t.token.type.kind == .eof

/-- `matches!(state.current(), Ok(token) if p(token))`. -/
def currentIs (p : TokRef → Bool) : M Bool := do
  match ← current with
  | some t => pure (p t)
  | none => pure false

/-- `matches!(state.peek(), Ok(token) if p(token))`. -/
def peekIs (p : TokRef → Bool) : M Bool := do
  match ← peek with
  | some t => pure (p t)
  | none => pure false

/-- Token has the given symbol. -/
def is (s : Symbol) (t : TokRef) : Bool := t.isSymbol s

/-- The three outcomes of `match state.current() { Ok(token) if p(token) => state.consume().unwrap(), Ok(token) => …, Err(()) => … }`. -/
inductive Took where
  | took (t : TokRef)
  | other (t : TokRef)
  | fatal
  deriving Repr, DecidableEq

/-- The pattern above, used throughout parsers.rs. -/
def takeIf (p : TokRef → Bool) : M Took := do
  match ← current with
  | some t => if p t then return .took (← take) else return .other t
  | none => return .fatal

/-- `ParserState::consume_if` (ast/parser_structs.rs 73–85). -/
def consumeIf (s : Symbol) : M (Option TokRef) := do
  match ← takeIf (is s) with
  | .took t => return some t
  | _ => return none

/-- `ParserState::consume_if_symbols` (ast/parser_structs.rs 87–99). -/
def consumeIfAny (ss : List Symbol) : M (Option TokRef) := do
  match ← takeIf (fun t => ss.any t.isSymbol) with
  | .took t => return some t
  | _ => return none

/-- `ParserState::require` (ast/parser_structs.rs 101–114). -/
def require (s : Symbol) (msg : String) : M (Option TokRef) := do
  match ← takeIf (is s) with
  | .took t => return some t
  | .other t => tokenError t msg; return none
  | .fatal => return none

/-- `ParserState::require_with_reference_token` (ast/parser_structs.rs 116–134). -/
def requireWithToken (s : Symbol) (msg : String) (reference : TokRef) : M (Option TokRef) := do
  match ← takeIf (is s) with
  | .took t => return some t
  | .other _ => tokenError reference msg; return none
  | .fatal => return none

/-- `ParserState::require_with_reference_range_callback` (ast/parser_structs.rs 157–183), and
`require_with_reference_range` (136–155) when `range` has no effect. -/
def requireWithRange (s : Symbol) (msg : String) (range : M (TokRef × TokRef)) : M (Option TokRef) := do
  match ← takeIf (is s) with
  | .took t => return some t
  | .other t =>
    let (start, stop) ← range
    tokenErrorRanged t msg start stop
    return none
  | .fatal => return none

/-- `n.tokens().next().unwrap()`. -/
def firstToken (n : Node) : M TokRef :=
  match (Tokens.next n.items).1 with
  | some t => pure t
  | none => panic

/-- `n.tokens().next_back().unwrap()`. -/
def lastToken (n : Node) : M TokRef :=
  match (Tokens.nextBack n.items).1 with
  | some t => pure t
  | none => panic

/-! ## Tokens made by the parser -/

/-- `TokenReference::symbol_specific_lua_version(text, version).unwrap()`, and `TokenReference::basic_symbol`
(tokenizer/structs.rs 626–628) for `LuaVersion::lua51()`. -/
def made (f : Features) (v : LuaVersion) (text : Text) : M TokRef := fun ts =>
  match symbolSpecific ⟨f, v⟩ text with
  | .ok (.ok t) => .ok ⟨t, ts, [], 0⟩
  | .ok (.error _) | .panic => .panic
  | .diverge => .diverge

/-- `TokenReference::basic_symbol` (tokenizer/structs.rs 626–628). -/
def basicSymbol (c : Cfg) (text : Text) : M TokRef := made c.feat .lua51 text

/-- `error_token` (ast/parsers.rs 28–36). -/
def errorToken : TokRef := ⟨[], .new (.identifier c!"%error-id%"), []⟩

/-- The end of an unfinished interpolated string (ast/parsers.rs 2540–2547). -/
def interpolatedEnd : TokRef := ⟨[], .new (.interpolated [] .end_), []⟩

/-! ## Building nodes -/

/-- `Option<TokenReference>` -/
def optTok : Option TokRef → Node
  | none => .none
  | some t => .some (.tok t)

/-- `Option` of a node -/
def optNode : Option Node → Node
  | none => .none
  | some n => .some n

/-- `Vec` of nodes -/
def vec (ns : List Node) : Node := .node .vec ns

/-- `ContainedSpan::new` (ast/span.rs 29–33); `tokens` (ast/span.rs 36–38) gives the two back. -/
def span (o c : TokRef) : Node := .spanOf (.tok o) (.tok c)

/-- A `Pair` as a node. -/
def pairNode : Pair Node → Node
  | .end v => .node .pairEnd [v]
  | .punctuated v p => .node .pairPunct [v, .tok p]

/-- A `Punctuated` as a node. -/
def punct (p : Punctuated Node) : Node := .node .punct (p.pairs.map pairNode)

/-- `Block` (ast/mod.rs 59–63): statements and last statement, each with its optional semicolon. -/
structure Blk where
  stmts : List (Node × Option TokRef)
  last : Option (Node × Option TokRef)
  deriving Repr

/-- `Block::new` (ast/mod.rs 67–72). -/
def Blk.empty : Blk := ⟨[], none⟩

/-- A statement and its semicolon. -/
def stmtNode (s : Node × Option TokRef) : Node := .node .tuple [s.1, optTok s.2]

/-- A `Block` as a node. -/
def Blk.node (b : Blk) : Node := .node .block [vec (b.stmts.map stmtNode), optNode (b.last.map stmtNode)]

/-- `struct Name` (ast/parsers.rs 3503–3509). -/
structure Name where
  name : TokRef
  attr : Option Node
  typeSpec : Option Node
  deriving Repr

/-- `enum StmtVariant` (ast/parsers.rs 113–119). -/
inductive StmtV where
  | stmt (n : Node)
  | last (n : Node)
  deriving Repr

/-- `FunctionArgs::empty` (ast/mod.rs 576–585). -/
def emptyArgs (c : Cfg) : M Node := do
  let o ← basicSymbol c c!"("
  let e ← basicSymbol c c!")"
  return .node .argsParens [span o e, punct .new]

/-- `FunctionBody::new` (ast/mod.rs 1439–1459). -/
def newBody (c : Cfg) : M Node := do
  let o ← basicSymbol c c!"("
  let e ← basicSymbol c c!")"
  let stop ← basicSymbol c c!"\nend"
  return .node .funcBody [.none, span o e, punct .new, vec [], .none, Blk.empty.node, .tok stop]

/-- `If::new(condition).with_else_if(else_if)` (ast/mod.rs 1002–1013, 1078–1080). -/
def newIf (c : Cfg) (condition : Node) (elseIf : Node) : M Node := do
  let i ← basicSymbol c c!"if "
  let t ← basicSymbol c c!" then"
  let e ← basicSymbol c c!"\nend"
  return .node .ifBlock [.tok i, condition, .tok t, Blk.empty.node, elseIf, .none, .none, .tok e]

/-- `While::new` (ast/mod.rs 1178–1186). -/
def newWhile (c : Cfg) (condition : Node) : M Node := do
  let w ← basicSymbol c c!"while "
  let d ← basicSymbol c c!" do\n"
  let e ← basicSymbol c c!"end\n"
  return .node .whileBlock [.tok w, condition, .tok d, Blk.empty.node, .tok e]

/-- `Do::new().with_block(block)` (ast/mod.rs 1981–1987, 2010–2012). -/
def newDo (c : Cfg) (block : Node) : M Node := do
  let d ← basicSymbol c c!"do\n"
  let e ← basicSymbol c c!"\nend"
  return .node .doBlock [.tok d, block, .tok e]

/-- The recursive calls available to a parser function: the functions of the same name, run on strictly fewer
tokens (see `parsers` in Parse.lean). -/
structure Rec where
  /-- `parse_block` -/
  block : M (Res Blk)
  /-- `parse_expression` -/
  expr : M (Res Node)
  /-- `parse_primary_expression` -/
  primary : M (Res Node)
  /-- `parse_expression_with_precedence` -/
  climb : Node → Nat → M (Res Node)
  /-- `parse_type` -/
  type : M (Res Node)
  /-- `parse_type_or_pack` -/
  typeOrPack : M (Res Node)

/-! ## Lists -/

/-- Drop the trailing separator of a list and report it, as at the end of `one_or_more` (ast/parsers.rs
3738–3747) and in `parse_function_body` (2334–2343). -/
def dropTrailing {α : Type} (msg : String) (values : Punctuated α) : M (Punctuated α) :=
  match values.pop with
  | (some (.punctuated v p), rest) => do
    tokenError p msg
    return rest.push (.end v)
  | _ => pure values

/-- The loop of `one_or_more` (ast/parsers.rs 3716–3732). -/
def oneOrMoreLoop {α : Type} (parser : M (Res α)) (delimiter : Symbol) : Nat → Punctuated α → M (Punctuated α)
  | 0, _ => diverge
  | n + 1, values => do
    match ← parser with
    | .value v =>
      match ← consumeIf delimiter with
      | some d => oneOrMoreLoop parser delimiter n (values.push (.punctuated v d))
      | none => return values.push (.end v)
    | _ => return values

/-- `one_or_more` (ast/parsers.rs 3709–3750); `parse_name_list` (ast/parsers.rs 3752–3754) is an instance. -/
def oneOrMore {α : Type} (parser : M (Res α)) (delimiter : Symbol) : M (Res (Punctuated α)) := do
  let values ← oneOrMoreLoop parser delimiter (← fuel) .new
  if values.isEmpty then return .notFound
  else return .value (← dropTrailing "trailing commas are not allowed" values)

end FM.Parser
