import Verif.Model.Parser.Expr

/-!
# Statements (ast/parsers.rs 38–71, 121–1187, 1401–1552)
-/

namespace FM.Parser

/-- `StmtVariant::Stmt` around one of the variants of `Stmt`. -/
def stmt (k : Kind) (n : Node) : Res StmtV := .value (.stmt (.node k [n]))

/-! ## Functions -/

/-- The names of a function name so far, as a `FunctionName`. -/
def functionNameNode (names : Punctuated TokRef) (colon : Option (TokRef × TokRef)) : Node :=
  .node .functionName [punct ⟨names.pairs.map (Pair.map .tok)⟩,
    optNode (colon.map fun p => .node .tuple [.tok p.1, .tok p.2])]

/-- The loop of `expect_function_name` (ast/parsers.rs 728–770). -/
def functionNameLoop : Nat → Punctuated TokRef → M (Res Node)
  | 0, _ => diverge
  | n + 1, names => do
    match ← takeIf (fun t => is .colon t || is .dot t) with
    | .fatal => return .moved
    | .other _ => return .value (functionNameNode names none)
    | .took middle =>
      match ← takeIf TokRef.isIdent with
      | .fatal => return .moved
      | .other t =>
        tokenError t ("expected name after `" ++ String.ofList middle.token.display ++ "`")
        return .notFound
      | .took name =>
        if is .dot middle then
          match names.pushPunctuated name middle with
          | .returned _ names => functionNameLoop n names
          | .panicked _ => panic
        else if is .colon middle then return .value (functionNameNode names (some (middle, name)))
        else panic

/-- `expect_function_name` (ast/parsers.rs 710–771). -/
def expectFunctionName : M (Res Node) := do
  match ← takeIf TokRef.isIdent with
  | .took name => functionNameLoop (← fuel) (.push .new (.end name))
  | .other t =>
    tokenError t "expected function name"
    return .notFound
  | .fatal => return .notFound

/-- `expect_function_declaration` (ast/parsers.rs 773–800), with the attributes that `parse_stmt` adds (632). -/
def expectFunctionDeclaration (self : Rec) (c : Cfg) (attributes : List Node) (token : TokRef) : M (Option Node) := do
  match ← expectFunctionName with
  | .value name =>
    match ← parseFunctionBody self c with
    | .value body => return some (.node .functionDecl [vec attributes, .tok token, name, body])
    | .moved => return some (.node .functionDecl [vec attributes, .tok token, name, ← newBody c])
    | .notFound =>
      tokenError token "expected a function body"
      return some (.node .functionDecl [vec attributes, .tok token, name, ← newBody c])
  | _ => return none

/-- `expect_local_function_declaration` (ast/parsers.rs 802–835), with the attributes that `parse_stmt` adds (651). -/
def expectLocalFunction (self : Rec) (c : Cfg) (attributes : List Node) (local_ token : TokRef) : M (Option Node) := do
  match ← takeIf TokRef.isIdent with
  | .took name =>
    match ← parseFunctionBody self c with
    | .value body => return some (.node .localFunction [vec attributes, .tok local_, .tok token, .tok name, body])
    | .notFound =>
      tokenError token "expected a function body"
      return none
    | .moved => return none
  | .other t =>
    tokenError t "expected a function name"
    return none
  | .fatal => return none

/-- A statement from an optional one: `Err(()) => return ParserResult::LexerMoved`. -/
def stmtOrMoved (k : Kind) : Option Node → Res StmtV
  | some n => stmt k n
  | none => .moved

/-! ## `local` -/

/-- The type specifiers of a list of names; the field exists only with the `luau` feature. -/
def typeSpecs (c : Cfg) (names : Punctuated Name) : Node :=
  vec (if c.feat.luau then names.pairs.map (fun p => optNode p.value.typeSpec) else [])

/-- The attributes of a list of names; the field exists only with the `lua54` feature. -/
def attrs (c : Cfg) (names : Punctuated Name) : Node :=
  vec (if c.feat.lua54 then names.pairs.map (fun p => optNode p.value.attr) else [])

/-- The names themselves. -/
def nameNodes (names : Punctuated Name) : Node := punct ⟨names.pairs.map (Pair.map fun n => .tok n.name)⟩

/-- The symbols that introduce the values (ast/parsers.rs 1162–1166). -/
def assignSymbols (c : Cfg) : List Symbol := if c.feat.cfxlua then [.equal, .kIn] else [.equal]

/-- `LocalAssignment` (ast/parsers.rs 1151–1160). -/
def localNode (c : Cfg) (local_ : TokRef) (names : Punctuated Name) (equal : Option TokRef) (es : Punctuated Node) : Node :=
  .node .localAssignment [.tok local_, typeSpecs c names, nameNodes names, attrs c names, optTok equal, punct es]

/-- `expect_local_assignment` (ast/parsers.rs 1117–1187). -/
def expectLocalAssignment (self : Rec) (c : Cfg) (local_ : TokRef) : M (Option Node) := do
  match ← oneOrMore (parseNameWithAttributes self c) .comma with
  | .notFound => panic
  | .moved => return none
  | .value names =>
    match ← consumeIfAny (assignSymbols c) with
    | none => return some (localNode c local_ names none .new)
    | some equal =>
      match ← parseExpressionList self with
      | .value es => return some (localNode c local_ names (some equal) es)
      | .notFound =>
        tokenError equal "expected an expression"
        return some (localNode c local_ names (some equal) .new)
      | .moved => return some (localNode c local_ names (some equal) .new)

/-- The `local` arm of `parse_stmt` (ast/parsers.rs 148–185). -/
def localStmt (self : Rec) (c : Cfg) : M (Res StmtV) := do
  let local_ ← take
  match ← current with
  | none => return .moved
  | some t =>
    if t.isIdent then return stmtOrMoved .stmtLocalAssignment (← expectLocalAssignment self c local_)
    else if is .kFunction t then
      let token ← take
      return stmtOrMoved .stmtLocalFunction (← expectLocalFunction self c [] local_ token)
    else
      tokenError t "expected either a variable name or `function`"
      return .moved

/-! ## Loops -/

/-- `Err(()) => (ast::Block::new(), TokenReference::basic_symbol("end"))` (ast/parsers.rs 900–903, 974–977). -/
def blockOrEmpty (self : Rec) (c : Cfg) (name : String) (start : TokRef) : M (Blk × TokRef) := do
  match ← expectBlockWithEnd self c name start with
  | some r => return r
  | none => return (.empty, ← basicSymbol c c!"end")

/-- `for … do` to the end of a numeric `for` (ast/parsers.rs 970–993). -/
def numericForRest (self : Rec) (c : Cfg) (for_ : TokRef) (index : Name) (equal : TokRef) (start : Node) (comma : TokRef)
    (stop : Node) (step : Option (TokRef × Node)) : M (Option Node) := do
  match ← require .kDo "expected `do` after step expression" with
  | none => return none
  | some do_ =>
    let (b, end_) ← blockOrEmpty self c "numeric for loop" do_
    return some (.node .numericFor [.tok for_, .tok index.name, .tok equal, start, .tok comma, stop,
      optTok (step.map (·.1)), optNode (step.map (·.2)), .tok do_, b.node, .tok end_, optNode index.typeSpec])

/-- `expect_numeric_for_stmt` (ast/parsers.rs 925–994). -/
def expectNumericFor (self : Rec) (c : Cfg) (for_ : TokRef) (index : Name) : M (Option Node) := do
  let equal ← take
  match ← self.expr with
  | .notFound =>
    tokenError equal "expected start expression after `=`"
    return none
  | .moved => return none
  | .value start =>
    match ← require .comma "expected `,` after start expression" with
    | none => return none
    | some comma =>
      match ← self.expr with
      | .notFound =>
        tokenError comma "expected end expression after `,`"
        return none
      | .moved => return none
      | .value stop =>
        match ← consumeIf .comma with
        | none => numericForRest self c for_ index equal start comma stop none
        | some comma' =>
          match ← self.expr with
          | .value step => numericForRest self c for_ index equal start comma stop (some (comma', step))
          | .notFound =>
            tokenError comma "expected step expression after `,`"
            return none
          | .moved => return none

/-- `GenericFor` (ast/parsers.rs 880–897, 905–922). -/
def genericForNode (c : Cfg) (for_ : TokRef) (names : Punctuated Name) (in_ : TokRef) (es : Punctuated Node) (do_ : TokRef)
    (b : Blk) (end_ : TokRef) : Node :=
  .node .genericFor [.tok for_, nameNodes names, .tok in_, punct es, .tok do_, b.node, .tok end_, typeSpecs c names]

/-- A generic `for` after its names (ast/parsers.rs 862–922). -/
def genericFor (self : Rec) (c : Cfg) (for_ : TokRef) (names : Punctuated Name) : M (Option Node) := do
  match ← takeIf (is .kIn) with
  | .other t =>
    tokenError t "expected `in` after name list"
    return none
  | .fatal => return none
  | .took in_ =>
    match ← parseExpressionList self with
    | .notFound =>
      tokenError in_ "expected expressions after `in`"
      return none
    | .moved => return none
    | .value es =>
      match ← require .kDo "expected `do` after expression list" with
      | none =>
        let do_ ← basicSymbol c c!"do"
        let end_ ← basicSymbol c c!"end"
        return some (genericForNode c for_ names in_ es do_ .empty end_)
      | some do_ =>
        let (b, end_) ← blockOrEmpty self c "for loop" do_
        return some (genericForNode c for_ names in_ es do_ b end_)

/-- `expect_for_stmt` (ast/parsers.rs 837–923). -/
def expectFor (self : Rec) (c : Cfg) (for_ : TokRef) : M (Res StmtV) := do
  match ← oneOrMore (parseNameWithTypes self c) .comma with
  | .notFound =>
    tokenError for_ "expected name after `for`"
    return .moved
  | .moved => return .moved
  | .value names =>
    match ← current with
    | none => return .moved
    | some t =>
      match names.pairs with
      | [] => panic
      | [p] =>
        if is .equal t then return stmtOrMoved .stmtNumericFor (← expectNumericFor self c for_ p.value)
        else return stmtOrMoved .stmtGenericFor (← genericFor self c for_ names)
      | _ => return stmtOrMoved .stmtGenericFor (← genericFor self c for_ names)

/-- `expect_repeat_stmt` (ast/parsers.rs 1401–1442). -/
def expectRepeat (self : Rec) (c : Cfg) (repeat_ : TokRef) : M (Res StmtV) := do
  match ← self.block with
  | .notFound =>
    tokenError repeat_ "expected a block after `repeat`"
    return .moved
  | .moved => return .moved
  | .value b =>
    match ← require .kUntil "expected `until` after block" with
    | none => return stmt .stmtDo (← newDo c b.node)
    | some until_ =>
      match ← self.expr with
      | .value e => return stmt .stmtRepeat (.node .repeatBlock [.tok repeat_, b.node, .tok until_, e])
      | .notFound =>
        tokenError until_ "expected a condition after `until`"
        return stmt .stmtDo (← newDo c b.node)
      | .moved => return stmt .stmtDo (← newDo c b.node)

/-- `expect_while_stmt` (ast/parsers.rs 1444–1481). -/
def expectWhile (self : Rec) (c : Cfg) (while_ : TokRef) : M (Option Node) := do
  match ← self.expr with
  | .notFound =>
    tokenError while_ "expected a condition after `while`"
    return none
  | .moved => return none
  | .value e =>
    match ← require .kDo "expected `do` after condition" with
    | none => return some (← newWhile c e)
    | some do_ =>
      match ← expectBlockWithEnd self c "while loop" do_ with
      | none => return some (← newWhile c e)
      | some (b, end_) => return some (.node .whileBlock [.tok while_, e, .tok do_, b.node, .tok end_])

/-! ## `if` -/

/-- How the loop over `elseif` ends: at another token, or with `return unfinished_if(..)`. -/
inductive ElseIfs where
  | done (parts : List Node)
  | unfinished (n : Node)
  deriving Repr

/-- The loop over `elseif` (ast/parsers.rs 1034–1080).  After the condition of an `elseif`, `condition` names that one, so
an unfinished `if` is built with it. -/
def elseIfLoop (self : Rec) (c : Cfg) (condition : Node) : Nat → List Node → M ElseIfs
  | 0, _ => diverge
  | n + 1, parts => do
    match ← takeIf (is .kElseIf) with
    | .other _ => return .done parts
    | .fatal => return .unfinished (← newIf c condition (optVec parts))
    | .took token =>
      match ← self.expr with
      | .notFound =>
        tokenError token "expected condition after `elseif`"
        return .unfinished (← newIf c condition (optVec parts))
      | .moved => return .unfinished (← newIf c condition (optVec parts))
      | .value condition' =>
        match ← require .kThen "expected `then` after condition" with
        | none => return .unfinished (← newIf c condition' (optVec parts))
        | some then_ =>
          match ← self.block with
          | .value b =>
            elseIfLoop self c condition n (parts ++ [.node .elseIf [.tok token, condition', .tok then_, b.node]])
          | .notFound =>
            tokenError then_ "expected block after `then`"
            return .unfinished (← newIf c condition' (optVec parts))
          | .moved => return .unfinished (← newIf c condition' (optVec parts))

/-- `else` and its block (ast/parsers.rs 1082–1093). -/
def elsePart (self : Rec) : M (Option (TokRef × Blk)) := do
  match ← consumeIf .kElse with
  | none => return none
  | some token =>
    match ← self.block with
    | .value b => return some (token, b)
    | .notFound =>
      tokenError token "expected block after `else`"
      return some (token, .empty)
    | .moved => return some (token, .empty)

/-- `expect_if_stmt` (ast/parsers.rs 996–1115). -/
def expectIf (self : Rec) (c : Cfg) (if_ : TokRef) : M (Option Node) := do
  match ← self.expr with
  | .notFound =>
    tokenError if_ "expected condition after `if`"
    return none
  | .moved => return none
  | .value condition =>
    match ← require .kThen "expected `then` after condition" with
    | none => return none
    | some then_ =>
      match ← self.block with
      | .notFound =>
        tokenError then_ "expected block after `then`"
        return some (← newIf c condition .none)
      | .moved => return some (← newIf c condition .none)
      | .value b =>
        match ← elseIfLoop self c condition (← fuel) [] with
        | .unfinished n => return some n
        | .done parts =>
          let else_ ← elsePart self
          let end_ ← requireOr c .kEnd "expected `end` to conclude `if`" c!"end"
          return some (.node .ifBlock [.tok if_, condition, .tok then_, b.node, optVec parts,
            optTok (else_.map (·.1)), optNode (else_.map fun p => p.2.node), .tok end_])

/-! ## Statements that start with an expression -/

/-- `CompoundOp::from_token` (ast/compound.rs 70–104). -/
def compoundOp (c : Cfg) (t : TokRef) : Option CompoundOp :=
  if is .plusEqual t then some .plusEqual
  else if is .minusEqual t then some .minusEqual
  else if is .starEqual t then some .starEqual
  else if is .slashEqual t then some .slashEqual
  else if is .caretEqual t then some .caretEqual
  else if c.feat.luau && is .doubleSlashEqual t then some .doubleSlashEqual
  else if c.feat.luau && is .percentEqual t then some .percentEqual
  else if c.feat.luau && is .twoDotsEqual t then some .twoDotsEqual
  else if c.feat.cfxlua && is .doubleLessThanEqual t then some .doubleLessThanEqual
  else if c.feat.cfxlua && is .doubleGreaterThanEqual t then some .doubleGreaterThanEqual
  else if c.feat.cfxlua && is .ampersandEqual t then some .ampersandEqual
  else if c.feat.cfxlua && is .pipeEqual t then some .pipeEqual
  else none

/-- The tokens that lead to a compound assignment (ast/parsers.rs 299–329). -/
def isCompound (c : Cfg) (t : TokRef) : Bool :=
  (c.luau && (is .plusEqual t || is .minusEqual t || is .starEqual t || is .slashEqual t || is .doubleSlashEqual t
    || is .percentEqual t || is .caretEqual t || is .twoDotsEqual t)) ||
  (c.cfxlua && (is .plusEqual t || is .minusEqual t || is .starEqual t || is .slashEqual t || is .caretEqual t
    || is .doubleLessThanEqual t || is .doubleGreaterThanEqual t || is .ampersandEqual t || is .pipeEqual t))

/-- `parse_compound_assignment` (ast/parsers.rs 122–137). -/
def parseCompound (self : Rec) (c : Cfg) (var : Node) : M (Res StmtV) := do
  let op ← take
  match ← self.expr with
  | .value e =>
    match compoundOp c op with
    | some o => return stmt .stmtCompound (.node .compoundAssignment [var, .node (.compoundOp o) [.tok op], e])
    | none => panic
  | _ =>
    tokenError op "expected expression to set to"
    return .moved

/-- The loop over further variables (ast/parsers.rs 453–517); `none` is `return ParserResult::LexerMoved`. -/
def varsLoop (self : Rec) (c : Cfg) : Nat → Punctuated Node → M (Option (Punctuated Node))
  | 0, _ => diverge
  | n + 1, vars => do
    match ← takeIf (is .comma) with
    | .other _ => return some vars
    | .fatal => return none
    | .took comma =>
      match ← parsePrefixAndSuffixes self c with
      | .moved => return some vars
      | .notFound =>
        tokenError comma "expected another variable"
        return some vars
      | .value (p, suffixes) =>
        match suffixes.getLast? with
        | some (.node .suffixCall cs) =>
          let t ← lastToken (.node .suffixCall cs)
          tokenError t "can't assign to the result of a call"
          return some vars
        | _ =>
          match vars.pushPunctuated (varNode p suffixes) comma with
          | .returned _ vars => varsLoop self c n vars
          | .panicked _ => panic

/-- An assignment after its first variable (ast/parsers.rs 450–538). -/
def assignment (self : Rec) (c : Cfg) (var : Node) : M (Res StmtV) := do
  match ← varsLoop self c (← fuel) (.push .new (.end var)) with
  | none => return .moved
  | some vars =>
    match ← require .equal "expected `=` after name" with
    | none => return .moved
    | some equal =>
      match ← parseExpressionList self with
      | .value es => return stmt .stmtAssignment (.node .assignment [punct vars, .tok equal, punct es])
      | .notFound =>
        tokenError equal "expected values to set to"
        return stmt .stmtAssignment (.node .assignment [punct vars, .tok equal, punct .new])
      | .moved => return stmt .stmtAssignment (.node .assignment [punct vars, .tok equal, punct .new])

/-- `expect_type_declaration` after the generics (ast/parsers.rs 1503–1517). -/
def typeDeclarationRest (self : Rec) (c : Cfg) (token base : TokRef) (generics : Option Node) : M (Option Node) := do
  let equal ← requireOr c .equal "expected `=` after type name" c!"="
  match ← self.type with
  | .value ty => return some (.node .typeDecl [.tok token, .tok base, optNode generics, .tok equal, ty])
  | _ => return none

/-- `expect_type_declaration` (ast/parsers.rs 1484–1518). -/
def expectTypeDeclaration (self : Rec) (c : Cfg) (token : TokRef) : M (Option Node) := do
  match ← takeIf TokRef.isIdent with
  | .took base =>
    match ← parseGenericTypeList self c true with
    | .value generics => typeDeclarationRest self c token base (some generics)
    | .notFound => typeDeclarationRest self c token base none
    | .moved => return none
  | .other t =>
    tokenError t "expected type name"
    return none
  | .fatal => return none

/-- `expect_type_function` (ast/parsers.rs 1521–1552). -/
def expectTypeFunction (self : Rec) (c : Cfg) (token function : TokRef) : M (Option Node) := do
  match ← takeIf TokRef.isIdent with
  | .took name =>
    match ← parseFunctionBody self c with
    | .value body => return some (.node .typeFunction [.tok token, .tok function, .tok name, body])
    | .moved => return none
    | .notFound =>
      tokenError function "expected a type function body"
      return none
  | .other t =>
    tokenError t "expected a type function name"
    return none
  | .fatal => return none

/-- `matches!(token.token_type(), TokenType::Identifier { identifier } if identifier.as_str() == name)`. -/
def isNamed (name : Text) (t : TokRef) : Bool := t.token.type == .identifier name

/-- `type` after its token (ast/parsers.rs 401–424). -/
def typeStmt (self : Rec) (c : Cfg) (token : TokRef) : M (Res StmtV) := do
  match ← consumeIf .kFunction with
  | some function => return stmtOrMoved .stmtTypeFunction (← expectTypeFunction self c token function)
  | none => return stmtOrMoved .stmtType (← expectTypeDeclaration self c token)

/-- `export` after its token (ast/parsers.rs 344–394). -/
def exportStmt (self : Rec) (c : Cfg) (export_ : TokRef) : M (Res StmtV) := do
  match ← takeIf (isNamed c!"type") with
  | .took token =>
    match ← consumeIf .kFunction with
    | some function =>
      match ← expectTypeFunction self c token function with
      | some f => return stmt .stmtExportedTypeFunction (.node .exportedTypeFunction [.tok export_, f])
      | none => return .moved
    | none =>
      match ← expectTypeDeclaration self c token with
      | some d => return stmt .stmtExportedType (.node .exportedTypeDecl [.tok export_, d])
      | none => return .moved
  | .other t =>
    tokenErrorRanged t "expected `type` after `export`" export_ t
    return .moved
  | .fatal => return .moved

/-- An expression that is neither a call nor followed by an assignment (ast/parsers.rs 333–445). -/
def contextual (self : Rec) (c : Cfg) (p : Pre) (suffixes : List Node) (t : TokRef) : M (Res StmtV) :=
  match c.luau, p, suffixes with
  | true, .name token, [] =>
    if isNamed c!"export" token then exportStmt self c token
    else if isNamed c!"type" token then typeStmt self c token
    else if isNamed c!"continue" token then return .value (.last (.node .lastContinue [.tok token]))
    else do
      tokenError t "unexpected expression when looking for a statement"
      return .moved
  | _, _, _ => do
    tokenError t "unexpected expression when looking for a statement"
    return .moved

/-- The arm of `parse_stmt` for names and parentheses (ast/parsers.rs 270–538). -/
def expressionStmt (self : Rec) (c : Cfg) : M (Res StmtV) := do
  match ← parsePrefixAndSuffixes self c with
  | .moved => return .moved
  | .notFound => panic
  | .value (p, suffixes) =>
    if lastIsCall suffixes then return stmt .stmtCall (callNode p suffixes)
    else
      match ← current with
      | none => return .moved
      | some t =>
        if isCompound c t then parseCompound self c (varNode p suffixes)
        else if is .comma t || is .equal t then assignment self c (varNode p suffixes)
        else contextual self c p suffixes t

/-! ## `goto`, labels and attributes -/

/-- The `goto` arm (ast/parsers.rs 545–573), with its debug assertion. -/
def gotoStmt (c : Cfg) : M (Res StmtV) := do
  if c.lua52 || c.luajit then
    let token ← take
    match ← takeIf TokRef.isIdent with
    | .took name => return stmt .stmtGoto (.node .gotoStmt [.tok token, .tok name])
    | .other t =>
      tokenErrorRanged t "expected label name after `goto`" token t
      return .moved
    | .fatal =>
      tokenError token "expected label name after `goto`"
      return .moved
  else panic

/-- The `::` arm (ast/parsers.rs 580–610). -/
def labelStmt (c : Cfg) : M (Res StmtV) := do
  let left ← take
  match ← takeIf TokRef.isIdent with
  | .took name =>
    match ← require .twoColons "expected `::` after label" with
    | some right => return stmt .stmtLabel (.node .label [.tok left, .tok name, .tok right])
    | none => return stmt .stmtLabel (.node .label [.tok left, .tok name, .tok (← made c.feat .default c!"::")])
  | .other t =>
    tokenErrorRanged t "expected label name after `::`" left t
    return .moved
  | .fatal => return .moved

/-- The `@` arm (ast/parsers.rs 617–672). -/
def attributedStmt (self : Rec) (c : Cfg) : M (Res StmtV) := do
  match ← parseAttributes with
  | .value attributes =>
    match ← current with
    | none => return .moved
    | some t =>
      if is .kFunction t then
        let token ← take
        return stmtOrMoved .stmtFunction (← expectFunctionDeclaration self c attributes token)
      else if is .kLocal t then
        let local_ ← take
        match ← takeIf (is .kFunction) with
        | .took token => return stmtOrMoved .stmtLocalFunction (← expectLocalFunction self c attributes local_ token)
        | .other t =>
          tokenError t "expected `local function` after attribute"
          return .moved
        | .fatal => return .moved
      else
        tokenError t "expected `function` or `local function` after attribute"
        return .moved
  | _ => return .moved

/-! ## Statements and blocks -/

/-- The `do` arm (ast/parsers.rs 200–210). -/
def doStmt (self : Rec) (c : Cfg) : M (Res StmtV) := do
  let do_ ← take
  match ← expectBlockWithEnd self c "do" do_ with
  | some (b, end_) => return stmt .stmtDo (.node .doBlock [.tok do_, b.node, .tok end_])
  | none => return .moved

/-- `parse_stmt` (ast/parsers.rs 139–677). -/
def parseStmt (self : Rec) (c : Cfg) : M (Res StmtV) := do
  match ← current with
  | none => return .notFound
  | some t =>
    if is .kLocal t then localStmt self c
    else if is .kFor t then expectFor self c (← take)
    else if is .kDo t then doStmt self c
    else if is .kIf t then
      let token ← take
      return stmtOrMoved .stmtIf (← expectIf self c token)
    else if is .kFunction t then
      let token ← take
      return stmtOrMoved .stmtFunction (← expectFunctionDeclaration self c [] token)
    else if is .kRepeat t then expectRepeat self c (← take)
    else if is .kWhile t then
      let token ← take
      return stmtOrMoved .stmtWhile (← expectWhile self c token)
    else if is .leftParen t || t.isIdent then expressionStmt self c
    else if (c.feat.lua52 || c.feat.luajit || c.feat.cfxlua) && is .kGoto t then gotoStmt c
    else if (c.lua52 || c.luajit) && is .twoColons t then labelStmt c
    else if c.luau && is .atSign t then attributedStmt self c
    else return .notFound

/-- `Return` (ast/parsers.rs 691–694). -/
def returnNode (token : TokRef) (es : Punctuated Node) : Node := .node .lastReturn [.node .ret [.tok token, punct es]]

/-- `parse_last_stmt` (ast/parsers.rs 679–708). -/
def parseLastStmt (self : Rec) : M (Res (Node × Option TokRef)) := do
  match ← takeIf (fun t => is .kReturn t || is .kBreak t) with
  | .took t =>
    if is .kReturn t then
      match ← parseExpressionList self with
      | .value es => return .value (returnNode t es, ← consumeIf .semicolon)
      | _ => return .value (returnNode t .new, ← consumeIf .semicolon)
    else return .value (.node .lastBreak [.tok t], ← consumeIf .semicolon)
  | _ => return .notFound

/-- The end of `parse_block` (ast/parsers.rs 65–70). -/
def blockEnd (self : Rec) (stmts : List (Node × Option TokRef)) : M (Res Blk) := do
  match ← parseLastStmt self with
  | .value l => return .value ⟨stmts, some l⟩
  | _ => return .value ⟨stmts, none⟩

/-- The loop of `parse_block` (ast/parsers.rs 41–63). -/
def blockLoop (self : Rec) (c : Cfg) : Nat → List (Node × Option TokRef) → M (Res Blk)
  | 0, _ => diverge
  | n + 1, stmts => do
    match ← parseStmt self c with
    | .value (.stmt s) =>
      let semicolon ← consumeIf .semicolon
      blockLoop self c n (stmts ++ [(s, semicolon)])
    | .value (.last s) =>
      let semicolon ← consumeIf .semicolon
      return .value ⟨stmts, some (s, semicolon)⟩
    | .notFound => blockEnd self stmts
    | .moved => if stmts.isEmpty then return .moved else blockEnd self stmts

/-- `parse_block` (ast/parsers.rs 38–71). -/
def parseBlock (self : Rec) (c : Cfg) : M (Res Blk) := do
  blockLoop self c (← fuel) []

end FM.Parser
