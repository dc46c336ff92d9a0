import Verif.Model.Parser.Types

/-!
# Expressions (ast/parsers.rs 1189–1399, 1554–2552)
-/

namespace FM.Parser

/-! ## Blocks that end with `end` -/

/-- `let mut tokens = n.tokens(); (tokens.next().unwrap(), tokens.next_back().unwrap_or(start))` (ast/parsers.rs
88–91, 93–96). -/
def nodeRange (n : Node) : M (TokRef × TokRef) :=
  match Tokens.next n.items with
  | (some t, rest) => pure (t, (Tokens.nextBack rest).1.getD t)
  | (none, _) => panic

/-- The range shown when `end` is missing (ast/parsers.rs 87–99). -/
def blockRange (b : Blk) (start : TokRef) : M (TokRef × TokRef) :=
  match b.last with
  | some s => nodeRange s.1
  | none =>
    match b.stmts.getLast? with
    | some s => nodeRange s.1
    | none => pure (start, start)

/-- `expect_block_with_end` (ast/parsers.rs 76–111). -/
def expectBlockWithEnd (self : Rec) (c : Cfg) (name : String) (start : TokRef) : M (Option (Blk × TokRef)) := do
  match ← self.block with
  | .value b =>
    let range ← blockRange b start
    match ← requireWithRange .kEnd ("expected `end` to close " ++ name ++ " block") (pure range) with
    | some e => return some (b, e)
    | none => return some (b, ← basicSymbol c c!"end")
  | .notFound => panic
  | .moved => return none

/-! ## Tables -/

/-- `expect_expression_key` (ast/parsers.rs 1189–1251). -/
def expectExpressionKey (self : Rec) (left : TokRef) : M (Option Node) := do
  match ← self.expr with
  | .value key =>
    match ← requireWithRange .rightBracket "expected `]` after expression" (do return (left, ← lastToken key)) with
    | none => return none
    | some right =>
      match ← requireWithRange .equal "expected `=` after expression" (pure (left, right)) with
      | none => return none
      | some equal =>
        match ← self.expr with
        | .value value => return some (.node .fieldExprKey [span left right, key, .tok equal, value])
        | .notFound =>
          tokenError equal "expected an expression after `=`"
          return none
        | .moved => return none
  | .notFound =>
    tokenError left "expected an expression after `[`"
    return none
  | .moved => return none

/-- What one iteration of `force_table_constructor` leads to, before the separator: a field, the end of the table, or
`return unfinished_table(..)`. -/
inductive CtorRes where
  | field (n : Node)
  | done (right : TokRef)
  | unfinished
  deriving Repr

/-- `name = value` (ast/parsers.rs 1295–1317). -/
def nameKeyField (self : Rec) : M CtorRes := do
  let key ← take
  let equal ← take
  match ← self.expr with
  | .value value => return .field (.node .fieldNameKey [.tok key, .tok equal, value])
  | .notFound =>
    tokenError equal "expected an expression after `=`"
    return .unfinished
  | .moved => return .unfinished

/-- `.name` (ast/parsers.rs 1325–1340). -/
def setField : M CtorRes := do
  let dot ← take
  match ← takeIf TokRef.isIdent with
  | .took key => return .field (.node .fieldSet [.tok dot, .tok key])
  | .other t =>
    tokenError t "expected identifier after `.`"
    return .unfinished
  | .fatal => return .unfinished

/-- The token of the error "expected a field" (ast/parsers.rs 1349–1357). -/
def fieldErrorToken (left : TokRef) (fields : Punctuated Node) : M TokRef :=
  match fields.last with
  | some p => lastToken p.value
  | none => pure left

/-- A field without key (ast/parsers.rs 1344–1369). -/
def noKeyField (self : Rec) (left : TokRef) (fields : Punctuated Node) : M CtorRes := do
  match ← self.expr with
  | .value value => return .field (.node .fieldNoKey [value])
  | .notFound =>
    let t ← fieldErrorToken left fields
    tokenError t "expected a field"
    return .unfinished
  | .moved => return .unfinished

/-- One iteration of `force_table_constructor`, before the separator (ast/parsers.rs 1266–1371). -/
def ctorField (self : Rec) (c : Cfg) (left : TokRef) (fields : Punctuated Node) : M CtorRes := do
  match ← current with
  | none => return .unfinished
  | some t =>
    if is .rightBrace t then return .done (← take)
    else if is .leftBracket t then
      match ← expectExpressionKey self (← take) with
      | some f => return .field f
      | none => return .unfinished
    else if t.isIdent then
      if ← peekIs (is .equal) then nameKeyField self else noKeyField self left fields
    else if c.feat.cfxlua && is .dot t then setField
    else noKeyField self left fields

/-- The loop of `force_table_constructor` (ast/parsers.rs 1265–1398). -/
def ctorLoop (self : Rec) (c : Cfg) (left : TokRef) : Nat → Punctuated Node → M Node
  | 0, _ => diverge
  | n + 1, fields => do
    match ← ctorField self c left fields with
    | .unfinished => return .node .tableCtor [span left (← basicSymbol c c!"}"), punct fields]
    | .done right => return .node .tableCtor [span left right, punct fields]
    | .field f =>
      match ← takeIf (fun t => is .comma t || is .semicolon t) with
      | .took p => ctorLoop self c left n (fields.push (.punctuated f p))
      | _ =>
        let right ← requireOr c .rightBrace "expected `}` after last field" c!"}"
        return .node .tableCtor [span left right, punct (fields.push (.end f))]

/-- `force_table_constructor` (ast/parsers.rs 1253–1399). -/
def forceTableConstructor (self : Rec) (c : Cfg) (left : TokRef) : M Node := do
  ctorLoop self c left (← fuel) .new

/-! ## Prefixes and suffixes -/

/-- `Prefix` (ast/mod.rs 514–521). -/
inductive Pre where
  | expr (e : Node)
  | name (t : TokRef)
  deriving Repr

/-- A `Prefix` as a node. -/
def Pre.node : Pre → Node
  | .expr e => .node .prefixExpr [e]
  | .name t => .node .prefixName [.tok t]

/-- `parse_prefix` (ast/parsers.rs 1554–1603). -/
def parsePrefix (self : Rec) (c : Cfg) : M (Res Pre) := do
  match ← current with
  | none => return .notFound
  | some t =>
    if is .leftParen t then
      let left ← take
      match ← self.expr with
      | .value e =>
        let right ← requireOr c .rightParen "expected `)` after expression" c!")"
        return .value (.expr (.node .exprParens [span left right, e]))
      | .notFound =>
        tokenError left "expected an expression after `(`"
        return .moved
      | .moved => return .moved
    else if t.isIdent then return .value (.name (← take))
    else return .notFound

/-- `parse_expression_list` (ast/parsers.rs 3756–3758). -/
def parseExpressionList (self : Rec) : M (Res (Punctuated Node)) := oneOrMore self.expr .comma

/-- The parenthesised arguments of `parse_arguments` (ast/parsers.rs 1617–1630). -/
def closeArguments (c : Cfg) (left : TokRef) (arguments : Punctuated Node) : M (Res Node) := do
  match ← requireWithToken .rightParen "expected `)` to close function call" left with
  | some right => return .value (.node .argsParens [span left right, punct arguments])
  | none => return .value (.node .argsParens [span left (← basicSymbol c c!")"), punct arguments])

/-- `parse_arguments` (ast/parsers.rs 1605–1649). -/
def parseArguments (self : Rec) (c : Cfg) : M (Res Node) := do
  match ← current with
  | none => return .notFound
  | some t =>
    if is .leftParen t then
      let left ← take
      match ← parseExpressionList self with
      | .value arguments => closeArguments c left arguments
      | .notFound => closeArguments c left .new
      | .moved => return .moved
    else if is .leftBrace t then
      let left ← take
      return .value (.node .argsTable [← forceTableConstructor self c left])
    else if t.isString then return .value (.node .argsString [.tok (← take)])
    else return .notFound

/-- `.name` and `?.name` (ast/parsers.rs 1661–1678, 1684–1698). -/
def dotSuffix (msg : String) : M (Res Node) := do
  let dot ← take
  match ← takeIf TokRef.isIdent with
  | .took name => return .value (.node .suffixIndex [.node .indexDot [.tok dot, .tok name]])
  | .other _ =>
    tokenError dot msg
    return .moved
  | .fatal => return .moved

/-- `[expression]` (ast/parsers.rs 1704–1729). -/
def bracketSuffix (self : Rec) (c : Cfg) : M (Res Node) := do
  let left ← take
  match ← self.expr with
  | .value e =>
    let last ← lastToken e
    match ← requireWithRange .rightBracket "expected `]` to close index expression" (pure (left, last)) with
    | some right => return .value (.node .suffixIndex [.node .indexBrackets [span left right, e]])
    | none => return .value (.node .suffixIndex [.node .indexBrackets [span left (← basicSymbol c c!"]"), e]])
  | .notFound =>
    tokenError left "expected expression after `[`"
    return .moved
  | .moved => return .moved

/-- The type instantiation of a method call (ast/parsers.rs 1779–1801); the outer `none` is `return
ParserResult::LexerMoved`. -/
def methodTypes (self : Rec) (c : Cfg) : M (Option (Option Node)) := do
  if c.luau then
    match ← consumeIf .lessThan with
    | some outer =>
      match ← expectTypeInstantiation self outer with
      | some i => return some (some i)
      | none => return none
    | none => return some none
  else return some none

/-- A method call as a suffix (ast/parsers.rs 1812–1819). -/
def methodNode (colon name : TokRef) (types : Option Node) (args : Node) : Node :=
  .node .suffixCall [.node .callMethod [.node .methodCall [.tok colon, .tok name, optNode types, args]]]

/-- `:name args` (ast/parsers.rs 1764–1819). -/
def methodSuffix (self : Rec) (c : Cfg) : M (Res Node) := do
  let colon ← take
  match ← takeIf TokRef.isIdent with
  | .took name =>
    match ← methodTypes self c with
    | none => return .moved
    | some types =>
      match ← parseArguments self c with
      | .value args => return .value (methodNode colon name types args)
      | .moved => return .value (methodNode colon name types (← emptyArgs c))
      | .notFound =>
        tokenError name "expected arguments after `:`"
        return .value (methodNode colon name types (← emptyArgs c))
  | .other _ =>
    tokenError colon "expected identifier after `:`"
    return .moved
  | .fatal => return .moved

/-- Calls without `:` (ast/parsers.rs 1736–1737). -/
def callSuffix (self : Rec) (c : Cfg) : M (Res Node) := do
  match ← parseArguments self c with
  | .value args => return .value (.node .suffixCall [.node .callAnonymous [args]])
  | .notFound => panic
  | .moved => return .moved

/-- `<<types>>` (ast/parsers.rs 1751–1758). -/
def instSuffix (self : Rec) : M (Res Node) := do
  let outer ← take
  match ← expectTypeInstantiation self outer with
  | some i => return .value (.node .suffixTypeInst [i])
  | none => return .moved

/-- `parse_suffix` (ast/parsers.rs 1651–1824). -/
def parseSuffix (self : Rec) (c : Cfg) : M (Res Node) := do
  match ← current with
  | none => return .notFound
  | some t =>
    if c.feat.cfxlua && is .questionMarkDot t then dotSuffix "expected identifier after `?.`"
    else if is .dot t then dotSuffix "expected identifier after `.`"
    else if is .leftBracket t then bracketSuffix self c
    else if is .leftParen t || is .leftBrace t || t.isString then callSuffix self c
    else if c.luau && is .lessThan t then
      if ← peekIs (is .lessThan) then instSuffix self else return .notFound
    else if is .colon t then methodSuffix self c
    else return .notFound

/-- The loop of `parse_prefix_and_suffixes` (ast/parsers.rs 1837–1851). -/
def suffixesLoop (self : Rec) (c : Cfg) : Nat → List Node → M (List Node)
  | 0, _ => diverge
  | n + 1, suffixes => do
    match ← parseSuffix self c with
    | .value s => suffixesLoop self c n (suffixes ++ [s])
    | _ => return suffixes

/-- `parse_prefix_and_suffixes` (ast/parsers.rs 1826–1854). -/
def parsePrefixAndSuffixes (self : Rec) (c : Cfg) : M (Res (Pre × List Node)) := do
  match ← parsePrefix self c with
  | .value p => return .value (p, ← suffixesLoop self c (← fuel) [])
  | .moved => return .moved
  | .notFound => return .notFound

/-- `suffixes.last()` is a call. -/
def lastIsCall (suffixes : List Node) : Bool :=
  match suffixes.getLast? with
  | some s => hasKind .suffixCall s
  | none => false

/-- `FunctionCall { prefix, suffixes }`. -/
def callNode (p : Pre) (suffixes : List Node) : Node := .node .functionCall [p.node, vec suffixes]

/-- `Var::Expression(VarExpression { prefix, suffixes })`. -/
def varExprNode (p : Pre) (suffixes : List Node) : Node := .node .varExpression [.node .varExpr [p.node, vec suffixes]]

/-- The variable built from a prefix and suffixes that do not end with a call (ast/parsers.rs 279–295, 482–515). -/
def varNode (p : Pre) (suffixes : List Node) : Node :=
  match p, suffixes with
  | .name t, [] => .node .varName [.tok t]
  | p, suffixes => varExprNode p suffixes

/-- The expression built from a prefix and suffixes (ast/parsers.rs 1955–1971). -/
def prefixExprNode (p : Pre) (suffixes : List Node) : Node :=
  match p, suffixes with
  | .expr e, [] => e
  | .name t, [] => .node .exprVar [.node .varName [.tok t]]
  | p, suffixes =>
    if lastIsCall suffixes then .node .exprCall [callNode p suffixes]
    else .node .exprVar [varExprNode p suffixes]

/-! ## Functions -/

/-- How the parameters of a function end. -/
inductive Params where
  /-- at the right parenthesis, with the parameters and type specifiers -/
  | done (right : TokRef) (parameters : Punctuated Node) (types : List Node)
  /-- `return unfinished_function_body(..)` -/
  | unfinished (parameters : Punctuated Node)
  deriving Repr

/-- The type of `...` (ast/parsers.rs 2247–2277): `none` is the early return, `some none` no type. -/
def varargType (self : Rec) : M (Option (Option Node)) := do
  match ← consumeIf .colon with
  | none => return some none
  | some colon =>
    let pack ← (do
      if ← currentIs TokRef.isIdent then peekIs (is .ellipsis) else return false)
    if pack then return some (some (.node .typeSpec [.tok colon, ← genericPack]))
    else
      match ← self.type with
      | .value ty => return some (some (.node .typeSpec [.tok colon, ty]))
      | _ => return none

/-- The `)` after the last parameter (ast/parsers.rs 2281–2284, 2309–2316). -/
def closeParams (parameters : Punctuated Node) (types : List Node) : M Params := do
  match ← require .rightParen "expected a `)`" with
  | some right => return .done right parameters types
  | none => return .unfinished parameters

/-- The `...` arm (ast/parsers.rs 2242–2286). -/
def ellipsisParam (self : Rec) (c : Cfg) (parameters : Punctuated Node) (types : List Node) : M Params := do
  let ellipsis ← take
  let parameters := parameters.push (.end (.node .paramEllipsis [.tok ellipsis]))
  if c.luau then
    match ← varargType self with
    | none => return .unfinished parameters
    | some ty => closeParams parameters (types ++ [optNode ty])
  else closeParams parameters types

/-- The loop over the parameters (ast/parsers.rs 2234–2332).  `types` grows with every name when Luau is compiled in, also
when it is not active. -/
def paramsLoop (self : Rec) (c : Cfg) : Nat → Punctuated Node → List Node → M Params
  | 0, _, _ => diverge
  | n + 1, parameters, types => do
    match ← current with
    | none => return .unfinished parameters
    | some t =>
      if is .rightParen t then return .done (← take) parameters types
      else if is .ellipsis t then ellipsisParam self c parameters types
      else if t.isIdent then
        match ← parseNameWithTypes self c with
        | .value name =>
          let types := if c.feat.luau then types ++ [optNode name.typeSpec] else types
          let parameter := Node.node .paramName [.tok name.name]
          match ← consumeIf .comma with
          | none => closeParams (parameters.push (.end parameter)) types
          | some comma => paramsLoop self c n (parameters.push (.punctuated parameter comma)) types
        | _ => panic
      else
        tokenError t "expected a parameter name or `)`"
        return .unfinished parameters

/-- Drop the trailing separator of a list (ast/parsers.rs 2210–2213). -/
def noTrailing {α : Type} (values : Punctuated α) : Punctuated α :=
  match values.pop with
  | (some (.punctuated v _), rest) => rest.push (.end v)
  | _ => values

/-- `unfinished_function_body` (ast/parsers.rs 2208–2232). -/
def unfinishedBody (c : Cfg) (left : TokRef) (parameters : Punctuated Node) : M (Res Node) := do
  let right ← basicSymbol c c!")"
  let stop ← basicSymbol c c!"end"
  return .value (.node .funcBody [.none, span left right, punct (noTrailing parameters), vec [], .none, Blk.empty.node, .tok stop])

/-- The return type (ast/parsers.rs 2345–2372): `none` is `return ParserResult::LexerMoved`, `some none` no type. -/
def bodyReturnType (self : Rec) (c : Cfg) : M (Option (Option Node)) := do
  if c.luau then
    match ← consumeIf .colon with
    | some p =>
      match ← parseReturnType self with
      | .value ty => return some (some (.node .typeSpec [.tok p, ty]))
      | _ => return none
    | none =>
      match ← consumeIf .thinArrow with
      | some p =>
        tokenError p "function return type annotations should use `:` instead of `->`"
        match ← parseReturnType self with
        | .value ty => return some (some (.node .typeSpec [.tok p, ty]))
        | _ => return none
      | none => return some none
  else return some none

/-- `parse_function_body` after the parameters (ast/parsers.rs 2334–2390). -/
def bodyRest (self : Rec) (c : Cfg) (generics : Option Node) (left right : TokRef) (parameters : Punctuated Node)
    (types : List Node) : M (Res Node) := do
  let parameters ← dropTrailing "trailing commas in arguments are not allowed" parameters
  match ← bodyReturnType self c with
  | none => return .moved
  | some ret =>
    match ← expectBlockWithEnd self c "function body" right with
    | none => return .moved
    | some (b, stop) =>
      return .value (.node .funcBody [optNode generics, span left right, punct parameters, vec types, optNode ret,
        b.node, .tok stop])

/-- `parse_function_body` after the generics (ast/parsers.rs 2199–2390). -/
def bodyParens (self : Rec) (c : Cfg) (generics : Option Node) : M (Res Node) := do
  match ← consumeIf .leftParen with
  | none => return .notFound
  | some left =>
    match ← paramsLoop self c (← fuel) .new [] with
    | .unfinished parameters => unfinishedBody c left parameters
    | .done right parameters types => bodyRest self c generics left right parameters types

/-- `parse_function_body` (ast/parsers.rs 2189–2391).  Without the `luau` feature there are no generics, and
`parseGenericTypeList` finds none. -/
def parseFunctionBody (self : Rec) (c : Cfg) : M (Res Node) := do
  match ← parseGenericTypeList self c false with
  | .value generics => bodyParens self c (some generics)
  | .notFound => bodyParens self c none
  | .moved => return .moved

/-- An anonymous function after its attributes (ast/parsers.rs 1883–1898, 1911–1926). -/
def anonymousFunction (self : Rec) (c : Cfg) (attributes : List Node) : M (Res Node) := do
  let token ← take
  match ← parseFunctionBody self c with
  | .value body => return .value (.node .exprFunction [.node .anonFunc [vec attributes, .tok token, body]])
  | .moved => return .moved
  | .notFound =>
    tokenError token "expected a function body"
    return .moved

/-- An anonymous function with attributes (ast/parsers.rs 1877–1905). -/
def attributedFunction (self : Rec) (c : Cfg) : M (Res Node) := do
  match ← parseAttributes with
  | .value attributes =>
    match ← current with
    | some t =>
      if is .kFunction t then anonymousFunction self c attributes
      else
        tokenError t "expected `function` after attributes"
        return .moved
    | none => return .moved
  | _ => return .moved

/-! ## `if` expressions and interpolated strings -/

/-- `let ParserResult::Value(e) = parse_expression(state) else { return Err(()) }` in `expect_if_else_expression`. -/
def ifOperand (self : Rec) : M (Option Node) := do
  match ← self.expr with
  | .value e => return some e
  | .notFound => giveUp; return none
  | .moved => return none

/-- `condition then expression` (ast/parsers.rs 2398–2408, 2412–2422). -/
def ifPart (self : Rec) : M (Option (Node × TokRef × Node)) := do
  match ← ifOperand self with
  | none => return none
  | some condition =>
    match ← require .kThen "expected `then` after condition" with
    | none => return none
    | some then_ =>
      match ← ifOperand self with
      | none => return none
      | some e => return some (condition, then_, e)

/-- The loop over `elseif` (ast/parsers.rs 2411–2429). -/
def elseIfExprs (self : Rec) : Nat → List Node → M (Option (List Node))
  | 0, _ => diverge
  | n + 1, parts => do
    match ← consumeIf .kElseIf with
    | none => return some parts
    | some token =>
      match ← ifPart self with
      | none => return none
      | some (condition, then_, e) =>
        elseIfExprs self n (parts ++ [.node .elseIfExpr [.tok token, condition, .tok then_, e]])

/-- `None` if there is none, otherwise `Some(vec)` (ast/parsers.rs 2447–2451, 1023–1029). -/
def optVec (parts : List Node) : Node := if parts.isEmpty then .none else .some (vec parts)

/-- `expect_if_else_expression` (ast/parsers.rs 2394–2455). -/
def expectIfElse (self : Rec) (token : TokRef) : M (Option Node) := do
  match ← ifPart self with
  | none => return none
  | some (condition, then_, e) =>
    match ← elseIfExprs self (← fuel) [] with
    | none => return none
    | some parts =>
      match ← require .kElse "expected `else` when parsing if then else expression" with
      | none => return none
      | some else_ =>
        match ← ifOperand self with
        | none => return none
        | some e' =>
          return some (.node .ifExpr [.tok token, condition, .tok then_, e, optVec parts, .tok else_, e'])

/-- The kind of an interpolated string token. -/
def interpKind (t : TokRef) : Option InterpKind :=
  match t.token.type with
  | .interpolated _ k => some k
  | _ => none

/-- The value after `break` (ast/parsers.rs 2536–2551). -/
def interpBroken (first : TokRef) (segments : List Node) : Node :=
  .node .interpString [vec segments, .tok (if segments.isEmpty then first else interpolatedEnd)]

/-- `has_double_brace` (ast/parsers.rs 2470–2483). -/
def doubleBrace (current : TokRef) : M Bool := do
  if current.trailing.isEmpty then
    match ← consumeIf .leftBrace with
    | some b =>
      tokenError b "unexpected double brace, try \\{ if you meant to escape"
      return true
    | none => return false
  else return false

/-- `if has_double_brace { state.consume_if(Symbol::RightBrace); }` (ast/parsers.rs 2500–2502). -/
def skipBrace (double : Bool) : M Unit := do
  if double then
    let _ ← consumeIf .rightBrace
    return ()
  else return ()

/-- The loop of `expect_interpolated_string` (ast/parsers.rs 2469–2534). -/
def interpLoop (self : Rec) (first : TokRef) : Nat → (current : TokRef) → List Node → M Node
  | 0, _, _ => diverge
  | n + 1, cur, segments => do
    let double ← doubleBrace cur
    match ← self.expr with
    | .notFound =>
      tokenError cur "expected expression after `{`"
      return interpBroken first segments
    | .moved => return interpBroken first segments
    | .value e =>
      let segments := segments ++ [.node .interpSegment [.tok cur, e]]
      skipBrace double
      match ← current with
      | none => return interpBroken first segments
      | some next =>
        match interpKind next with
        | some .end_ => return .node .interpString [vec segments, .tok (← take)]
        | some _ =>
          match ← consume with
          | .value t => interpLoop self first n t segments
          | _ => return interpBroken first segments
        | none =>
          tokenError next "interpolated string parameter can only contain an expression"
          return interpBroken first segments

/-- `expect_interpolated_string` (ast/parsers.rs 2458–2552). -/
def expectInterpolated (self : Rec) (first : TokRef) : M Node := do
  interpLoop self first (← fuel) first []

/-- The interpolated string arm of `parse_primary_expression` (ast/parsers.rs 2012–2030).  In the last case the token
is consumed although nothing was found. -/
def interpolated (self : Rec) (k : InterpKind) : M (Res Node) := do
  let first ← take
  match k with
  | .simple => return .value (.node .exprInterp [.node .interpString [vec [], .tok first]])
  | .begin => return .value (.node .exprInterp [← expectInterpolated self first])
  | _ => giveUp; return .notFound

/-! ## Operators -/

/-- `format!("expected an expression after {}", unary_operator.token().token())`. -/
def unaryMessage (t : TokRef) : String := "expected an expression after " ++ String.ofList t.token.display

/-- The operator of a unary operator token (ast/parsers.rs 2134–2147). -/
def unaryOp (c : Cfg) (t : TokRef) : Option UnOp :=
  if is .minus t then some .minus
  else if is .kNot t then some .not
  else if is .hash t then some .hash
  else if c.lua53 && is .tilde t then some .tilde
  else none

/-- `parse_unary_expression` (ast/parsers.rs 2130–2187). -/
def parseUnary (self : Rec) (c : Cfg) (t : TokRef) : M (Res Node) := do
  match unaryOp c t with
  | none => panic
  | some o =>
    match ← self.primary with
    | .notFound =>
      tokenError t (unaryMessage t)
      return .notFound
    | .moved => return .moved
    | .value e =>
      match ← self.climb e UnOp.precedence with
      | .value e => return .value (.node .exprUnary [.node (.unOp o) [.tok t], e])
      | .moved => return .moved
      | .notFound =>
        tokenError t (unaryMessage t)
        return .moved

/-- The prefix arm of `parse_primary_expression` (ast/parsers.rs 1947–1971). -/
def prefixExpression (self : Rec) (c : Cfg) : M (Res Node) := do
  match ← parsePrefixAndSuffixes self c with
  | .value (p, suffixes) => return .value (prefixExprNode p suffixes)
  | .moved => return .moved
  | .notFound => panic

/-- A token that starts a unary operation (ast/parsers.rs 1974–1984). -/
def startsUnary (c : Cfg) (t : TokRef) : Bool :=
  is .minus t || is .kNot t || is .hash t || (c.feat.lua53 && is .tilde t)

/-- The `match` of `parse_primary_expression` (ast/parsers.rs 1872–2034). -/
def primaryBase (self : Rec) (c : Cfg) : M (Res Node) := do
  match ← current with
  | none => return .notFound
  | some t =>
    if c.feat.luau && is .atSign t then attributedFunction self c
    else if is .kFunction t then anonymousFunction self c []
    else if is .kTrue t || is .kFalse t || is .kNil t || is .ellipsis t then
      return .value (.node .exprSymbol [.tok (← take)])
    else if t.isString then return .value (.node .exprString [.tok (← take)])
    else if t.isNumber then return .value (.node .exprNumber [.tok (← take)])
    else if t.isIdent || is .leftParen t then prefixExpression self c
    else if startsUnary c t then parseUnary self c (← take)
    else if is .leftBrace t then
      let left ← take
      return .value (.node .exprTable [← forceTableConstructor self c left])
    else if c.luau && is .kIf t then
      match ← expectIfElse self (← take) with
      | some e => return .value (.node .exprIf [e])
      | none => return .moved
    else
      match interpKind t with
      | some k => if c.luau then interpolated self k else return .notFound
      | none => return .notFound

/-- `parse_primary_expression` (ast/parsers.rs 1866–2057). -/
def parsePrimary (self : Rec) (c : Cfg) : M (Res Node) := do
  match ← primaryBase self c with
  | .value e =>
    if c.luau then
      match ← consumeIf .twoColons with
      | some op =>
        match ← self.type with
        | .value ty => return .value (.node .exprAssertion [e, .node .typeAssertion [.tok op, ty]])
        | _ => return .moved
      | none => return .value e
    else return .value e
  | .moved => return .moved
  | .notFound => return .notFound

/-- The inner loop of `parse_expression_with_precedence` (ast/parsers.rs 2091–2120); `none` is `return
ParserResult::Value(lhs)`. -/
def rhsLoop (self : Rec) (c : Cfg) (level : Nat) (op : TokRef) : Nat → Node → M (Option Node)
  | 0, _ => diverge
  | n + 1, rhs => do
    match ← current with
    | none => return some rhs
    | some t =>
      match BinOp.precedenceOfToken c.feat t with
      | none => return some rhs
      | some next =>
        if level < next || (BinOp.isRightAssociativeToken t && next == level) then
          match ← self.climb rhs (if level < next then level + 1 else level) with
          | .value rhs => rhsLoop self c level op n rhs
          | .notFound =>
            tokenError op "expected expression after binary operator"
            return none
          | .moved => return none
        else return some rhs

/-- The outer loop of `parse_expression_with_precedence` (ast/parsers.rs 2065–2127). -/
def climbLoop (self : Rec) (c : Cfg) (precedence : Nat) : Nat → Node → M (Res Node)
  | 0, _ => diverge
  | n + 1, lhs => do
    match ← current with
    | none => return .value lhs
    | some t =>
      match BinOp.precedenceOfToken c.feat t with
      | none => return .value lhs
      | some level =>
        if level < precedence then return .value lhs
        else
          match BinOp.accept c t with
          | none => panic
          | some o =>
            let op ← take
            match ← self.primary with
            | .notFound =>
              tokenError op "expected expression after binary operator"
              return .value lhs
            | .moved => return .moved
            | .value rhs =>
              match ← rhsLoop self c level op (← fuel) rhs with
              | some rhs => climbLoop self c precedence n (.node .exprBinary [lhs, .node (.binOp o) [.tok op], rhs])
              | none => return .value lhs

/-- `parse_expression_with_precedence` (ast/parsers.rs 2060–2128). -/
def parseClimb (self : Rec) (c : Cfg) (lhs : Node) (precedence : Nat) : M (Res Node) := do
  climbLoop self c precedence (← fuel) lhs

/-- `parse_expression` (ast/parsers.rs 1856–1864). -/
def parseExpression (self : Rec) (c : Cfg) : M (Res Node) := do
  match ← parsePrimary self c with
  | .value e => parseClimb self c e 0
  | .notFound => return .notFound
  | .moved => return .moved

end FM.Parser
