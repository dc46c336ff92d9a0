import Verif.Model.Parser.State

/-!
# Luau types (ast/parsers.rs 2554–3525, 3681–3707)

All of these are compiled only with the `luau` feature and, except `parseName`, called only when Luau is
active.  A function returning `Result<_, ()>` returns an `Option` here.
-/

namespace FM.Parser

/-- `parse_name` (ast/parsers.rs 3512–3525) with `force_name` (3557–3565), whose other fields are `None`. -/
def parseName : M (Res TokRef) := do
  match ← takeIf TokRef.isIdent with
  | .took t => return .value t
  | .other _ => return .notFound
  | .fatal => return .notFound

/-- `Name...` (ast/parsers.rs 2611–2621, 2252–2263): `parse_name` and `require(Ellipsis)`, neither of which may
fail. -/
def genericPack : M Node := do
  match ← parseName with
  | .value name =>
    match ← require .ellipsis "expected `...` after type name" with
    | some e => return .node .tyGenericPack [.tok name, .tok e]
    | none => panic
  | _ => panic

/-- `parse_type_pack` (ast/parsers.rs 2593–2626). -/
def parseTypePack (self : Rec) : M (Res Node) := do
  match ← current with
  | none => return .notFound
  | some t =>
    if is .ellipsis t then
      let e ← take
      match ← self.type with
      | .value ty => return .value (.node .tyVariadic [.tok e, ty])
      | _ => return .moved
    else if t.isIdent then
      if ← peekIs (is .ellipsis) then return .value (← genericPack)
      else return .notFound
    else return .notFound

/-- `parse_return_type` (ast/parsers.rs 3250–3257), spelled out again in `expect_generic_type_params`
(3438–3445). -/
def parseReturnType (self : Rec) : M (Res Node) := do
  match ← parseTypePack self with
  | .value ty => return .value ty
  | .notFound => self.typeOrPack
  | .moved => return .moved

/-- The loop of `expect_generic_type_params` (ast/parsers.rs 3433–3460). -/
def genericParamsLoop (self : Rec) : Nat → Punctuated Node → M (Option (Punctuated Node))
  | 0, _ => diverge
  | n + 1, generics => do
    match ← current with
    | none => return none
    | some t =>
      if is .greaterThan t then return some generics
      else
        match ← parseReturnType self with
        | .value ty =>
          match ← consumeIf .comma with
          | some p =>
            match ← current with
            | none => return none
            | some t =>
              if is .greaterThan t then
                tokenError t "expected type after ',' but got '>' instead"
                return some (generics.push (.punctuated ty p))
              else genericParamsLoop self n (generics.push (.punctuated ty p))
          | none => return some (generics.push (.end ty))
        | _ => return none

/-- `expect_generic_type_params` (ast/parsers.rs 3427–3473); the result is `arrows` and `generics`. -/
def expectGenericTypeParams (self : Rec) (left : TokRef) : M (Option (Node × Node)) := do
  match ← genericParamsLoop self (← fuel) .new with
  | none => return none
  | some generics =>
    match ← require .greaterThan "expected '>' to close generic type parameter list" with
    | some right => return some (span left right, punct generics)
    | none => return none

/-- `expect_type_instantiation` (ast/parsers.rs 3682–3707). -/
def expectTypeInstantiation (self : Rec) (outer0 : TokRef) : M (Option Node) := do
  match ← require .lessThan "expected second `<` in type instantiation" with
  | none => return none
  | some inner0 =>
    match ← expectGenericTypeParams self inner0 with
    | none => return none
    | some (arrows, generics) =>
      match ← require .greaterThan "expected second `>` in type instantiation" with
      | none => return none
      | some outer1 => return some (.node .typeInst [span outer0 outer1, arrows, generics])

/-! ## Generic declarations -/

/-- `if seen_default { state.token_error(state.current().unwrap().clone(), …) }` (ast/parsers.rs 3342–3347,
3369–3374). -/
def missingDefault (seenDefault : Bool) : M Unit := do
  if seenDefault then
    let t ← currentUnwrap
    tokenError t "expected default type after type name"
  else return ()

/-- The result of parsing a default: none of it, the default, or `return ParserResult::LexerMoved`. -/
inductive Default where
  | absent
  | present (n : Node)
  | moved
  deriving Repr

/-- The default of a generic type pack (ast/parsers.rs 3311–3350). -/
def packDefault (self : Rec) (withDefaults seenDefault : Bool) : M Default := do
  if withDefaults && (← currentIs (is .equal)) then
    let equal ← take
    match ← parseTypePack self with
    | .value ty => return .present (.node .tuple [.tok equal, ty])
    | .notFound =>
      match ← self.typeOrPack with
      | .value (.node .tyTuple cs) => return .present (.node .tuple [.tok equal, .node .tyTuple cs])
      | .value ty =>
        let first ← firstToken ty
        let last ← lastToken ty
        tokenErrorRanged equal "expected type pack after `=` but got type instead" first last
        return .present (.node .tuple [.tok equal, ty])
      | _ => return .moved
    | .moved => return .moved
  else
    missingDefault seenDefault
    return .absent

/-- The default of a generic type (ast/parsers.rs 3357–3377). -/
def typeDefault (self : Rec) (withDefaults seenDefault : Bool) : M Default := do
  if withDefaults && (← currentIs (is .equal)) then
    let equal ← take
    match ← self.type with
    | .value ty => return .present (.node .tuple [.tok equal, ty])
    | _ => return .moved
  else
    missingDefault seenDefault
    return .absent

/-- A `GenericDeclarationParameter` (ast/parsers.rs 3386, 3400–3403). -/
def genericParam (parameter : Node) (default : Option Node) : Node := .node .genericDeclParam [parameter, optNode default]

/-- What one parameter of a generic declaration leads to (ast/parsers.rs 3285–3380): the parameter and the new values of
`seen_pack` and `seen_default`, or an early return. -/
inductive ParamRes where
  | param (n : Node) (seenPack seenDefault : Bool)
  | moved
  | notFound
  deriving Repr

/-- The body of the loop of `parse_generic_type_list` up to the separator (ast/parsers.rs 3285–3380). -/
def genericListParam (self : Rec) (c : Cfg) (withDefaults seenPack seenDefault : Bool) : M ParamRes := do
  let name ← (do
    match ← takeIf TokRef.isIdent with
    | .took t => return some t
    | .other t => tokenError t "expected a generic type name"; return some errorToken
    | .fatal => return none)
  match name with
  | none => return .moved
  | some name =>
    match ← current with
    | none => return .notFound
    | some t =>
      if seenPack || is .ellipsis t then
        let ellipsis ← (do
          match ← consumeIf .ellipsis with
          | some e => return e
          | none =>
            tokenError name "generic types come before generic type packs"
            basicSymbol c c!"...")
        match ← packDefault self withDefaults seenDefault with
        | .absent => return .param (genericParam (.node .genericVariadic [.tok name, .tok ellipsis]) none) true seenDefault
        | .present d => return .param (genericParam (.node .genericVariadic [.tok name, .tok ellipsis]) (some d)) true true
        | .moved => return .moved
      else
        match ← typeDefault self withDefaults seenDefault with
        | .absent => return .param (genericParam (.node .genericName [.tok name]) none) false seenDefault
        | .present d => return .param (genericParam (.node .genericName [.tok name]) (some d)) false true
        | .moved => return .moved

/-- The loop of `parse_generic_type_list` (ast/parsers.rs 3284–3408). -/
def genericListLoop (self : Rec) (c : Cfg) (withDefaults : Bool) :
    Nat → Punctuated Node → (seenPack seenDefault : Bool) → M (Res (Punctuated Node))
  | 0, _, _, _ => diverge
  | n + 1, generics, seenPack, seenDefault => do
    match ← genericListParam self c withDefaults seenPack seenDefault with
    | .moved => return .moved
    | .notFound => return .notFound
    | .param p seenPack seenDefault =>
      match ← takeIf (is .comma) with
      | .took comma =>
        match ← current with
        | some t =>
          if is .greaterThan t then
            tokenError t "expected type after `,` but got `>` instead"
            genericListLoop self c withDefaults n (generics.push (.punctuated p comma)) seenPack seenDefault
          else genericListLoop self c withDefaults n (generics.push (.punctuated p comma)) seenPack seenDefault
        | none => genericListLoop self c withDefaults n (generics.push (.punctuated p comma)) seenPack seenDefault
      | .other _ => return .value (generics.push (.end p))
      | .fatal => return .moved

/-- `state.require(symbol, …).unwrap_or_else(|| TokenReference::basic_symbol(text))`, also written as a `match`. -/
def requireOr (c : Cfg) (s : Symbol) (msg : String) (text : Text) : M TokRef := do
  match ← require s msg with
  | some t => return t
  | none => basicSymbol c text

/-- `parse_generic_type_list` (ast/parsers.rs 3267–3418); `withDefaults` is `TypeListStyle::WithDefaults`. -/
def parseGenericTypeList (self : Rec) (c : Cfg) (withDefaults : Bool) : M (Res Node) := do
  if c.luau then
    match ← consumeIf .lessThan with
    | none => return .notFound
    | some left =>
      match ← genericListLoop self c withDefaults (← fuel) .new false false with
      | .value generics =>
        let right ← requireOr c .greaterThan "expected `>` to close generic list" c!">"
        return .value (.node .genericDecl [span left right, punct generics])
      | .moved => return .moved
      | .notFound => return .notFound
  else return .notFound

/-! ## Table types -/

/-- How the loop of `expect_type_table` ends. -/
inductive TableEnd where
  /-- `return Err(())` -/
  | err
  /-- `return Ok(_)` at the right brace -/
  | done (right : TokRef) (fields : Punctuated Node)
  /-- `break`, without an array type -/
  | fields (fields : Punctuated Node)
  /-- `break`, with an array type -/
  | array (access : Option TokRef) (ty : Node)
  deriving Repr

/-- `read` or `write` not followed by a colon (ast/parsers.rs 2914–2920). -/
def tableAccess : M (Option TokRef) := do
  if ← currentIs (fun t => t.isIdent && (t.token.display == c!"read" || t.token.display == c!"write")) then
    if ← peekIs (is .colon) then return none
    else return some (← take)
  else return none

/-- A type after `:` in a table type, or the key of an indexer or the element type of an array
(ast/parsers.rs 2969–2979, 2991–3001, 3029–3039, 3050–3060). -/
def fieldValue (self : Rec) (msg : String) : M (Option Node) := do
  match ← self.type with
  | .value ty => return some ty
  | .notFound =>
    let t ← currentUnwrap
    tokenError t msg
    return none
  | .moved => return none

/-- `["property"]: type` (ast/parsers.rs 2934–2966). -/
def stringKeyField (self : Rec) (access : Option TokRef) : M (Option Node) := do
  let left ← take
  let property ← take
  match ← require .rightBracket "expected `]` to close `[` for type table field" with
  | none => return none
  | some right =>
    match ← require .colon "expected `:` after type field key" with
    | none => return none
    | some colon =>
      match ← self.type with
      | .value ty =>
        return some (.node .typeField [optTok access,
          .node .keyIndex [span left right, .node .tyString [.tok property]], .tok colon, ty])
      | _ =>
        let t ← currentUnwrap
        tokenError t "expected type after type field key"
        return none

/-- `[type]: type` (ast/parsers.rs 2968–3021). -/
def indexerField (self : Rec) (access : Option TokRef) (hasIndexer : Bool) : M (Option Node) := do
  let left ← take
  match ← fieldValue self "expected type for type field key" with
  | none => return none
  | some key =>
    match ← require .rightBracket "expected `]` to close `[` for type table field" with
    | none => return none
    | some right =>
      match ← require .colon "expected `:` after type field key" with
      | none => return none
      | some colon =>
        match ← fieldValue self "expected type after type field key" with
        | none => return none
        | some ty =>
          if hasIndexer then
            let last ← lastToken ty
            tokenErrorRanged left "cannot have more than one table indexer" left last
            return some (.node .typeField [optTok access, .node .keyIndex [span left right, key], .tok colon, ty])
          else
            return some (.node .typeField [optTok access, .node .keyIndex [span left right, key], .tok colon, ty])

/-- One iteration of `expect_type_table` up to the separator (ast/parsers.rs 2914–3072): a field and the new value
of `has_indexer`, or the end of the loop. -/
inductive FieldRes where
  | field (n : Node) (hasIndexer : Bool)
  | stop (e : TableEnd)
  deriving Repr

/-- The rest of an iteration when no bracket follows (ast/parsers.rs 3022–3071). -/
def plainField (self : Rec) (access : Option TokRef) (t : TokRef) (fields : Punctuated Node) (hasIndexer : Bool) :
    M FieldRes := do
  let array ← (do
    if fields.isEmpty && !hasIndexer then
      if t.isIdent then return !(← peekIs (is .colon)) else return true
    else return false)
  if array then
    match ← fieldValue self "expected type for table array" with
    | some ty => return .stop (.array access ty)
    | none => return .stop .err
  else
    match ← parseName with
    | .value name =>
      match ← require .colon "expected `:` after type field key" with
      | none => return .stop .err
      | some colon =>
        match ← fieldValue self "expected type after type field key" with
        | none => return .stop .err
        | some ty =>
          return .field (.node .typeField [optTok access, .node .keyName [.tok name], .tok colon, ty]) hasIndexer
    | .notFound => return .stop (.fields fields)
    | .moved => return .stop .err

/-- One iteration of `expect_type_table` up to the separator (ast/parsers.rs 2914–3072).  At the right brace an
access modifier that was already consumed is dropped. -/
def tableField (self : Rec) (fields : Punctuated Node) (hasIndexer : Bool) : M FieldRes := do
  let access ← tableAccess
  match ← current with
  | none => return .stop .err
  | some t =>
    if is .rightBrace t then
      if access.isSome then
        giveUp
        return .stop (.done (← take) fields)
      else return .stop (.done (← take) fields)
    else if is .leftBracket t then
      if ← peekIs TokRef.isString then
        match ← stringKeyField self access with
        | some f => return .field f hasIndexer
        | none => return .stop .err
      else
        match ← indexerField self access hasIndexer with
        | some f => return .field f true
        | none => return .stop .err
    else plainField self access t fields hasIndexer

/-- The loop of `expect_type_table` (ast/parsers.rs 2913–3089). -/
def typeTableLoop (self : Rec) : Nat → Punctuated Node → (hasIndexer : Bool) → M TableEnd
  | 0, _, _ => diverge
  | n + 1, fields, hasIndexer => do
    match ← tableField self fields hasIndexer with
    | .stop e => return e
    | .field f hasIndexer =>
      match ← takeIf (fun t => is .comma t || is .semicolon t) with
      | .took p => typeTableLoop self n (fields.push (.punctuated f p)) hasIndexer
      | .other _ => return .fields (fields.push (.end f))
      | .fatal => return .fields (fields.push (.end f))

/-- `expect_type_table` (ast/parsers.rs 2904–3106). -/
def expectTypeTable (self : Rec) (c : Cfg) (left : TokRef) : M (Option Node) := do
  match ← typeTableLoop self (← fuel) .new false with
  | .err => return none
  | .done right fields => return some (.node .tyTable [span left right, punct fields])
  | .fields fields =>
    let right ← requireOr c .rightBrace "expected `}` to close type table" c!"}"
    return some (.node .tyTable [span left right, punct fields])
  | .array access ty =>
    let right ← requireOr c .rightBrace "expected `}` to close type table" c!"}"
    return some (.node .tyArray [span left right, optTok access, ty])

/-! ## Function types -/

/-- `SimpleTypeStyle` (ast/parsers.rs 2630–2633). -/
inductive Style where
  | default
  | allowPack
  deriving Repr, DecidableEq

/-- The name of an argument of a function type (ast/parsers.rs 3146–3152). -/
def argumentName (t : TokRef) : M (Option (TokRef × TokRef)) := do
  if t.isIdent then
    if ← peekIs (is .colon) then
      let name ← take
      let colon ← take
      return some (name, colon)
    else return none
  else return none

/-- A `TypeArgument`: optional name and type. -/
structure Arg where
  name : Option (TokRef × TokRef)
  type : Node
  deriving Repr

/-- A `TypeArgument` as a node. -/
def Arg.node (a : Arg) : Node :=
  .node .typeArg [optNode (a.name.map fun p => .node .tuple [.tok p.1, .tok p.2]), a.type]

/-- The loop over the arguments of a function type (ast/parsers.rs 3128–3175); `none` is `return Err(())`. -/
def typeArgsLoop (self : Rec) : Nat → Punctuated Arg → M (Option (Punctuated Arg))
  | 0, _ => diverge
  | n + 1, arguments => do
    if ← currentIs (is .rightParen) then return some arguments
    else
      match ← parseTypePack self with
      | .value ty => return some (arguments.push (.end ⟨none, ty⟩))
      | .moved => return none
      | .notFound =>
        match ← current with
        | none => return none
        | some t =>
          let name ← argumentName t
          match ← self.type with
          | .value ty =>
            match ← consumeIf .comma with
            | none => return some (arguments.push (.end ⟨name, ty⟩))
            | some p =>
              if ← currentIs (is .rightParen) then
                let t ← currentUnwrap
                tokenError t "expected type after `,` but got `)` instead"
                return some (arguments.push (.punctuated ⟨name, ty⟩ p))
              else typeArgsLoop self n (arguments.push (.punctuated ⟨name, ty⟩ p))
          | _ => return none

/-- The node has the given kind. -/
def hasKind (k : Kind) : Node → Bool
  | .node k' _ => k == k'
  | .tok _ => false

/-- `arguments.len() == 1 && !matches!(arguments.iter().next().unwrap().type_info, TypeInfo::Variadic { .. })`
(ast/parsers.rs 3194–3198). -/
def singleType (arguments : Punctuated Arg) : Bool :=
  match arguments.pairs with
  | [p] => !hasKind .tyVariadic p.value.type
  | _ => false

/-- The end of `expect_function_type` (ast/parsers.rs 3181–3231); `force` is `force_function_type`. -/
def functionTypeRest (self : Rec) (style : Style) (force : Bool) (generics : Option Node) (left right : TokRef)
    (arguments : Punctuated Arg) : M (Option Node) := do
  let force := force || arguments.pairs.any fun p => p.value.name.isSome
  let tuple ← (do
    if force then return false
    else if ← currentIs (is .thinArrow) then return false
    else return singleType arguments || style == .allowPack)
  if tuple then
    return some (.node .tyTuple [span left right, punct ⟨arguments.pairs.map (Pair.map Arg.type)⟩])
  else
    match ← require .thinArrow "expected `->` after `()` for function type" with
    | none => return none
    | some arrow =>
      match ← parseReturnType self with
      | .value ret =>
        return some (.node .tyCallback [optNode generics, span left right,
          punct ⟨arguments.pairs.map (Pair.map Arg.node)⟩, .tok arrow, ret])
      | _ => return none

/-- `expect_function_type` after the generics (ast/parsers.rs 3122–3231). -/
def functionTypeParens (self : Rec) (style : Style) (force : Bool) (generics : Option Node) : M (Option Node) := do
  match ← require .leftParen "expected `(`" with
  | none => return none
  | some left =>
    match ← typeArgsLoop self (← fuel) .new with
    | none => return none
    | some arguments =>
      match ← require .rightParen "expected `)` to close `(`" with
      | none => return none
      | some right => functionTypeRest self style force generics left right arguments

/-- `expect_function_type` (ast/parsers.rs 3109–3231). -/
def expectFunctionType (self : Rec) (c : Cfg) (style : Style) : M (Option Node) := do
  let force ← currentIs (is .lessThan)
  match ← parseGenericTypeList self c false with
  | .value generics => functionTypeParens self style force (some generics)
  | .notFound => functionTypeParens self style force none
  | .moved => return none

/-! ## Simple types -/

/-- `typeof(expression)` after `typeof` (ast/parsers.rs 2677–2700). -/
def typeofType (self : Rec) (c : Cfg) (name : TokRef) : M (Res Node) := do
  let left ← requireOr c .leftParen "expected `(` after `typeof`" c!"("
  match ← self.expr with
  | .value e =>
    let right ← (do
      match ← requireWithToken .rightParen "expected `)` to close typeof call" left with
      | some t => return t
      | none => basicSymbol c c!")")
    return .value (.node .tyTypeof [.tok name, span left right, e])
  | .notFound => giveUp; return .moved
  | .moved => return .moved

/-- `module.type` after `module` and the point (ast/parsers.rs 2706–2737). -/
def moduleType (self : Rec) (name punctuation : TokRef) : M (Res Node) := do
  match ← parseName with
  | .value base =>
    match ← consumeIf .lessThan with
    | some left =>
      match ← expectGenericTypeParams self left with
      | some (arrows, generics) =>
        return .value (.node .tyModule [.tok name, .tok punctuation, .node .idxGeneric [.tok base, arrows, generics]])
      | none => return .moved
    | none => return .value (.node .tyModule [.tok name, .tok punctuation, .node .idxBasic [.tok base]])
  | .notFound =>
    let t ← currentUnwrap
    tokenError t "expected identifier after `.`"
    return .moved
  | .moved => return .moved

/-- The name arm of `parse_simple_type` (ast/parsers.rs 2673–2752). -/
def nameType (self : Rec) (c : Cfg) : M (Res Node) := do
  let name ← take
  if name.token.display == c!"typeof" then typeofType self c name
  else
    match ← current with
    | some t =>
      if is .dot t then moduleType self name (← take)
      else if is .lessThan t then
        let left ← take
        match ← expectGenericTypeParams self left with
        | some (arrows, generics) => return .value (.node .tyGeneric [.tok name, arrows, generics])
        | none => return .moved
      else return .value (.node .tyBasic [.tok name])
    | none => return .value (.node .tyBasic [.tok name])

/-- `parse_simple_type` (ast/parsers.rs 2636–2774). -/
def parseSimpleType (self : Rec) (c : Cfg) (style : Style) : M (Res Node) := do
  match ← current with
  | none => return .notFound
  | some t =>
    if is .kNil t then return .value (.node .tyBasic [.tok (← take)])
    else if is .kTrue t || is .kFalse t then return .value (.node .tyBoolean [.tok (← take)])
    else if t.isString then return .value (.node .tyString [.tok (← take)])
    else if t.token.type.kind == .interpolatedString then
      let token ← take
      tokenError token "interpolated string literals cannot be used as types"
      return .moved
    else if t.isIdent then nameType self c
    else if is .leftBrace t then
      match ← expectTypeTable self c (← take) with
      | some ty => return .value ty
      | none => return .moved
    else if is .leftParen t || is .lessThan t then
      match ← expectFunctionType self c style with
      | some ty => return .value ty
      | none => return .moved
    else return .notFound

/-! ## Unions and intersections -/

/-- The locals of `parse_type_suffix` (ast/parsers.rs 2781–2808). -/
structure Suffix where
  types : Punctuated Node
  isUnion : Bool
  isIntersection : Bool
  leading : Option TokRef
  deriving Repr

/-- The end of `parse_type_suffix` (ast/parsers.rs 2890–2900). -/
def suffixResult (x : Suffix) : M (Res Node) :=
  match x.isUnion, x.isIntersection with
  | true, false => pure (.value (.node .tyUnion [.node .typeUnion [optTok x.leading, punct x.types]]))
  | false, true => pure (.value (.node .tyIntersection [.node .typeIntersection [optTok x.leading, punct x.types]]))
  | _, _ => panic

/-- The loop of `parse_type_suffix` (ast/parsers.rs 2810–2888). -/
def suffixLoop (self : Rec) (c : Cfg) : Nat → Suffix → (currentType : Option Node) → M (Res Node)
  | 0, _, _ => diverge
  | n + 1, x, currentType => do
    let ty ← (do
      match currentType with
      | some ty => return some ty
      | none =>
        match ← parseSimpleType self c .default with
        | .value ty => return some ty
        | .notFound => giveUp; return none
        | .moved => return none)
    match ty with
    | none => return .moved
    | some ty =>
      match ← current with
      | none => suffixResult { x with types := x.types.push (.end ty) }
      | some t =>
        if is .questionMark t then
          if x.isIntersection then
            tokenError t "cannot mix union and intersection types"
            return .moved
          else
            let q ← take
            suffixLoop self c n { x with isUnion := true } (some (.node .tyOptional [ty, .tok q]))
        else if is .pipe t then
          if x.isIntersection then
            tokenError t "cannot mix union and intersection types"
            return .moved
          else
            let p ← take
            suffixLoop self c n { x with types := x.types.push (.new ty (some p)), isUnion := true } none
        else if is .ampersand t then
          if x.isUnion then
            tokenError t "cannot mix union and intersection types"
            return .moved
          else
            let p ← take
            suffixLoop self c n { x with types := x.types.push (.new ty (some p)), isIntersection := true } none
        else if x.types.isEmpty && x.leading.isNone then return .value ty
        else suffixResult { x with types := x.types.push (.end ty) }

/-- `parse_type_suffix` (ast/parsers.rs 2777–2901). -/
def parseTypeSuffix (self : Rec) (c : Cfg) (simple : Option Node) : M (Res Node) := do
  match simple with
  | some ty => suffixLoop self c (← fuel) ⟨.new, false, false, none⟩ (some ty)
  | none =>
    match ← current with
    | none => panic
    | some t =>
      if is .pipe t then suffixLoop self c (← fuel) ⟨.new, true, false, some (← take)⟩ none
      else if is .ampersand t then suffixLoop self c (← fuel) ⟨.new, false, true, some (← take)⟩ none
      else panic

/-- `parse_type` (ast/parsers.rs 2555–2573). -/
def parseType (self : Rec) (c : Cfg) : M (Res Node) := do
  match ← current with
  | none => return .notFound
  | some t =>
    if is .pipe t || is .ampersand t then parseTypeSuffix self c none
    else
      match ← parseSimpleType self c .default with
      | .value ty => parseTypeSuffix self c (some ty)
      | .notFound => giveUp; return .moved
      | .moved => return .moved

/-- `parse_type_or_pack` (ast/parsers.rs 2576–2590). -/
def parseTypeOrPack (self : Rec) (c : Cfg) : M (Res Node) := do
  match ← parseSimpleType self c .allowPack with
  | .value ty =>
    match ty with
    | .node .tyTuple [parens, .node .punct types] =>
      if types.length != 1 then return .value (.node .tyTuple [parens, .node .punct types])
      else parseTypeSuffix self c (some ty)
    | .node .tyVariadicPack _ => panic
    | .node .tyGenericPack _ => panic
    | ty => parseTypeSuffix self c (some ty)
  | .notFound => giveUp; return .moved
  | .moved => return .moved

/-! ## Attributes and type specifiers -/

/-- The loop of `parse_attributes` (ast/parsers.rs 3483–3497). -/
def attributesLoop : Nat → List Node → M (Res (List Node))
  | 0, _ => diverge
  | n + 1, attributes => do
    match ← consumeIf .atSign with
    | none => return .value attributes
    | some at_ =>
      match ← parseName with
      | .value name => attributesLoop n (attributes ++ [.node .luauAttr [.tok at_, .tok name]])
      | .notFound =>
        let t ← currentUnwrap
        tokenError t "expected identifier after `@`"
        return .moved
      | .moved => return .moved

/-- `parse_attributes` (ast/parsers.rs 3476–3500). -/
def parseAttributes : M (Res (List Node)) := do
  if ← currentIs (is .atSign) then attributesLoop (← fuel) []
  else panic

/-- `expect_type_specifier` (ast/parsers.rs 3234–3247). -/
def expectTypeSpecifier (self : Rec) (punctuation : TokRef) : M (Option Node) := do
  match ← self.type with
  | .value ty => return some (.node .typeSpec [.tok punctuation, ty])
  | _ =>
    tokenError punctuation "expected type info after `:`"
    return none

/-! ## Names (ast/parsers.rs 3503–3679) -/

/-- `force_name_with_type_specifiers` (ast/parsers.rs 3645–3674). -/
def forceNameWithTypes (self : Rec) (c : Cfg) (name : TokRef) : M Name := do
  if c.luau then
    match ← consumeIf .colon with
    | some p =>
      match ← expectTypeSpecifier self p with
      | some s => return ⟨name, none, some s⟩
      | none => return ⟨name, none, none⟩
    | none => return ⟨name, none, none⟩
  else return ⟨name, none, none⟩

/-- `force_name_with_attributes` (ast/parsers.rs 3568–3642, 3677–3679). -/
def forceNameWithAttributes (self : Rec) (c : Cfg) (name : TokRef) : M Name := do
  if c.lua54 || c.cfxlua then
    match ← consumeIf .lessThan with
    | some left =>
      match ← takeIf TokRef.isIdent with
      | .took attr =>
        let right ← requireOr c .greaterThan "expected `>` to close attribute" c!">"
        return ⟨name, some (.node .attribute [span left right, .tok attr]), none⟩
      | .other t =>
        tokenErrorRanged t "expected identifier after `<` for attribute" left t
        return ⟨name, none, none⟩
      | .fatal =>
        tokenError left "expected identifier after `<` for attribute"
        return ⟨name, none, none⟩
    | none => forceNameWithTypes self c name
  else forceNameWithTypes self c name

/-- `parse_name_with_attributes` (ast/parsers.rs 3527–3540). -/
def parseNameWithAttributes (self : Rec) (c : Cfg) : M (Res Name) := do
  match ← takeIf TokRef.isIdent with
  | .took t => return .value (← forceNameWithAttributes self c t)
  | .other _ => return .notFound
  | .fatal => return .notFound

/-- `parse_name_with_type_specifiers` (ast/parsers.rs 3542–3555). -/
def parseNameWithTypes (self : Rec) (c : Cfg) : M (Res Name) := do
  match ← takeIf TokRef.isIdent with
  | .took t => return .value (← forceNameWithTypes self c t)
  | .other _ => return .notFound
  | .fatal => return .notFound

end FM.Parser
