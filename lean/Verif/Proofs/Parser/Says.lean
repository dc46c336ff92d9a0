import Verif.Proofs.Parser.SaysTac

/-! Helper lemmas: what the errors of the parser functions say. -/

namespace FM.Parser.Says
open FM.Parser

variable {α β : Type} {c : Cfg} {self : Rec}

theorem says_take : Says take := by unfold take; says
theorem says_currentUnwrap : Says currentUnwrap := by unfold currentUnwrap; says
theorem says_firstToken {n : Node} : Says (firstToken n) := by unfold firstToken; says
theorem says_lastToken {n : Node} : Says (lastToken n) := by unfold lastToken; says

theorem says_made {f : Features} {v : LuaVersion} {x : Text} : Says (made f v x) := by
  intro ts r hr
  unfold made at hr
  split at hr
  · exact says_none hr
  · cases hr
  · cases hr
  · cases hr
theorem says_basicSymbol {x : Text} : Says (basicSymbol c x) := by unfold basicSymbol; says

theorem says_currentIs {p : TokRef → Bool} : Says (currentIs p) := by unfold currentIs; says

theorem says_peekIs {p : TokRef → Bool} : Says (peekIs p) := by unfold peekIs; says

theorem says_takeIf {p : TokRef → Bool} : Says (takeIf p) := by unfold takeIf; says

theorem says_consumeIf {a1 : Symbol} : Says (consumeIf a1) := by unfold consumeIf; says

theorem says_consumeIfAny {a1 : List Symbol} : Says (consumeIfAny a1) := by unfold consumeIfAny; says

theorem says_require {a1 : Symbol} {a2 : String} (hm : Proper a2) : Says (require a1 a2) := by unfold require; says

theorem says_requireWithToken {a1 : Symbol} {a2 : String} (hm : Proper a2) {a3 : TokRef} : Says (requireWithToken a1 a2 a3) := by unfold requireWithToken; says

theorem says_emptyArgs : Says (emptyArgs c) := by unfold emptyArgs; says

theorem says_newBody : Says (newBody c) := by unfold newBody; says

theorem says_newIf {a1 : Node} {a2 : Node} : Says (newIf c a1 a2) := by unfold newIf; says

theorem says_newWhile {a1 : Node} : Says (newWhile c a1) := by unfold newWhile; says

theorem says_newDo {a1 : Node} : Says (newDo c a1) := by unfold newDo; says

theorem says_requireWithRange {s : Symbol} {msg : String} (hm : Proper msg) {p : M (TokRef × TokRef)} (hp : Says p) : Says (requireWithRange s msg p) := by unfold requireWithRange; says

theorem says_dropTrailing {msg : String} (hm : Proper msg) {a : Punctuated α} : Says (dropTrailing msg a) := by unfold dropTrailing; says

theorem says_oneOrMoreLoop {p : M (Res α)} (hp : Says p) {d : Symbol} {n : Nat} {a : Punctuated α} : Says (oneOrMoreLoop p d n a) := by
  induction n generalizing a with
  | zero => exact says_diverge
  | succ n ih => unfold oneOrMoreLoop; says

theorem says_oneOrMore {p : M (Res α)} (hp : Says p) {d : Symbol} : Says (oneOrMore p d) := by unfold oneOrMore; says

theorem says_parseName : Says (parseName) := by unfold parseName; says

theorem says_genericPack : Says (genericPack) := by unfold genericPack; says

theorem says_parseTypePack (hs : RecSays self) : Says (parseTypePack self) := by unfold parseTypePack; says

theorem says_parseReturnType (hs : RecSays self) : Says (parseReturnType self) := by unfold parseReturnType; says

theorem says_genericParamsLoop (hs : RecSays self) {n : Nat} {a2 : Punctuated Node} : Says (genericParamsLoop self n a2) := by
  induction n generalizing a2 with
  | zero => exact says_diverge
  | succ n ih => unfold genericParamsLoop; says

theorem says_expectGenericTypeParams (hs : RecSays self) {a1 : TokRef} : Says (expectGenericTypeParams self a1) := by unfold expectGenericTypeParams; says

theorem says_expectTypeInstantiation (hs : RecSays self) {a1 : TokRef} : Says (expectTypeInstantiation self a1) := by unfold expectTypeInstantiation; says

theorem says_missingDefault {a1 : Bool} : Says (missingDefault a1) := by unfold missingDefault; says

theorem says_packDefault (hs : RecSays self) {a1 : Bool} {a2 : Bool} : Says (packDefault self a1 a2) := by unfold packDefault; says

theorem says_typeDefault (hs : RecSays self) {a1 : Bool} {a2 : Bool} : Says (typeDefault self a1 a2) := by unfold typeDefault; says

theorem says_genericListParam (hs : RecSays self) {a1 : Bool} {a2 : Bool} {a3 : Bool} : Says (genericListParam self c a1 a2 a3) := by unfold genericListParam; says

theorem says_genericListLoop (hs : RecSays self) {a1 : Bool} {n : Nat} {a3 : Punctuated Node} {a4 : Bool} {a5 : Bool} : Says (genericListLoop self c a1 n a3 a4 a5) := by
  induction n generalizing a3 a4 a5 with
  | zero => exact says_diverge
  | succ n ih => unfold genericListLoop; says

theorem says_requireOr {a1 : Symbol} {a2 : String} (hm : Proper a2) {a3 : Text} : Says (requireOr c a1 a2 a3) := by unfold requireOr; says

theorem says_parseGenericTypeList (hs : RecSays self) {a1 : Bool} : Says (parseGenericTypeList self c a1) := by unfold parseGenericTypeList; says

theorem says_tableAccess : Says (tableAccess) := by unfold tableAccess; says

theorem says_fieldValue (hs : RecSays self) {a1 : String} (hm : Proper a1) : Says (fieldValue self a1) := by unfold fieldValue; says

theorem says_stringKeyField (hs : RecSays self) {a1 : Option TokRef} : Says (stringKeyField self a1) := by unfold stringKeyField; says

theorem says_indexerField (hs : RecSays self) {a1 : Option TokRef} {a2 : Bool} : Says (indexerField self a1 a2) := by unfold indexerField; says

theorem says_plainField (hs : RecSays self) {a1 : Option TokRef} {a2 : TokRef} {a3 : Punctuated Node} {a4 : Bool} : Says (plainField self a1 a2 a3 a4) := by unfold plainField; says

theorem says_tableField (hs : RecSays self) {a1 : Punctuated Node} {a2 : Bool} : Says (tableField self a1 a2) := by unfold tableField; says

theorem says_typeTableLoop (hs : RecSays self) {n : Nat} {a2 : Punctuated Node} {a3 : Bool} : Says (typeTableLoop self n a2 a3) := by
  induction n generalizing a2 a3 with
  | zero => exact says_diverge
  | succ n ih => unfold typeTableLoop; says

theorem says_expectTypeTable (hs : RecSays self) {a1 : TokRef} : Says (expectTypeTable self c a1) := by unfold expectTypeTable; says

theorem says_argumentName {a1 : TokRef} : Says (argumentName a1) := by unfold argumentName; says

theorem says_typeArgsLoop (hs : RecSays self) {n : Nat} {a2 : Punctuated Arg} : Says (typeArgsLoop self n a2) := by
  induction n generalizing a2 with
  | zero => exact says_diverge
  | succ n ih => unfold typeArgsLoop; says

theorem says_functionTypeRest (hs : RecSays self) {a1 : Style} {a2 : Bool} {a3 : Option Node} {a4 : TokRef} {a5 : TokRef} {a6 : Punctuated Arg} : Says (functionTypeRest self a1 a2 a3 a4 a5 a6) := by unfold functionTypeRest; says

theorem says_functionTypeParens (hs : RecSays self) {a1 : Style} {a2 : Bool} {a3 : Option Node} : Says (functionTypeParens self a1 a2 a3) := by unfold functionTypeParens; says

theorem says_expectFunctionType (hs : RecSays self) {a1 : Style} : Says (expectFunctionType self c a1) := by unfold expectFunctionType; says

theorem says_typeofType (hs : RecSays self) {a1 : TokRef} : Says (typeofType self c a1) := by unfold typeofType; says

theorem says_moduleType (hs : RecSays self) {a1 : TokRef} {a2 : TokRef} : Says (moduleType self a1 a2) := by unfold moduleType; says

theorem says_nameType (hs : RecSays self) : Says (nameType self c) := by unfold nameType; says

theorem says_parseSimpleType (hs : RecSays self) {a1 : Style} : Says (parseSimpleType self c a1) := by unfold parseSimpleType; says

theorem says_suffixResult {a1 : Suffix} : Says (suffixResult a1) := by unfold suffixResult; says

theorem says_suffixLoop (hs : RecSays self) {n : Nat} {a2 : Suffix} {a3 : Option Node} : Says (suffixLoop self c n a2 a3) := by
  induction n generalizing a2 a3 with
  | zero => exact says_diverge
  | succ n ih => unfold suffixLoop; says

theorem says_parseTypeSuffix (hs : RecSays self) {a1 : Option Node} : Says (parseTypeSuffix self c a1) := by unfold parseTypeSuffix; says

theorem says_parseType (hs : RecSays self) : Says (parseType self c) := by unfold parseType; says

theorem says_parseTypeOrPack (hs : RecSays self) : Says (parseTypeOrPack self c) := by unfold parseTypeOrPack; says

theorem says_attributesLoop {n : Nat} {a2 : List Node} : Says (attributesLoop n a2) := by
  induction n generalizing a2 with
  | zero => exact says_diverge
  | succ n ih => unfold attributesLoop; says

theorem says_parseAttributes : Says (parseAttributes) := by unfold parseAttributes; says

theorem says_expectTypeSpecifier (hs : RecSays self) {a1 : TokRef} : Says (expectTypeSpecifier self a1) := by unfold expectTypeSpecifier; says

theorem says_forceNameWithTypes (hs : RecSays self) {a1 : TokRef} : Says (forceNameWithTypes self c a1) := by unfold forceNameWithTypes; says

theorem says_forceNameWithAttributes (hs : RecSays self) {a1 : TokRef} : Says (forceNameWithAttributes self c a1) := by unfold forceNameWithAttributes; says

theorem says_parseNameWithAttributes (hs : RecSays self) : Says (parseNameWithAttributes self c) := by unfold parseNameWithAttributes; says

theorem says_parseNameWithTypes (hs : RecSays self) : Says (parseNameWithTypes self c) := by unfold parseNameWithTypes; says

theorem says_nodeRange {a1 : Node} : Says (nodeRange a1) := by unfold nodeRange; says

theorem says_blockRange {a1 : Blk} {a2 : TokRef} : Says (blockRange a1 a2) := by unfold blockRange; says

theorem says_expectBlockWithEnd (hs : RecSays self) {a1 : String} {a2 : TokRef} : Says (expectBlockWithEnd self c a1 a2) := by unfold expectBlockWithEnd; says

theorem says_expectExpressionKey (hs : RecSays self) {a1 : TokRef} : Says (expectExpressionKey self a1) := by unfold expectExpressionKey; says

theorem says_nameKeyField (hs : RecSays self) : Says (nameKeyField self) := by unfold nameKeyField; says

theorem says_setField : Says (setField) := by unfold setField; says

theorem says_fieldErrorToken {a1 : TokRef} {a2 : Punctuated Node} : Says (fieldErrorToken a1 a2) := by unfold fieldErrorToken; says

theorem says_noKeyField (hs : RecSays self) {a1 : TokRef} {a2 : Punctuated Node} : Says (noKeyField self a1 a2) := by unfold noKeyField; says

theorem says_ctorField (hs : RecSays self) {a1 : TokRef} {a2 : Punctuated Node} : Says (ctorField self c a1 a2) := by unfold ctorField; says

theorem says_ctorLoop (hs : RecSays self) {a1 : TokRef} {n : Nat} {a3 : Punctuated Node} : Says (ctorLoop self c a1 n a3) := by
  induction n generalizing a3 with
  | zero => exact says_diverge
  | succ n ih => unfold ctorLoop; says

theorem says_forceTableConstructor (hs : RecSays self) {a1 : TokRef} : Says (forceTableConstructor self c a1) := by unfold forceTableConstructor; says

theorem says_parsePrefix (hs : RecSays self) : Says (parsePrefix self c) := by unfold parsePrefix; says

theorem says_parseExpressionList (hs : RecSays self) : Says (parseExpressionList self) := by unfold parseExpressionList; says

theorem says_closeArguments {a1 : TokRef} {a2 : Punctuated Node} : Says (closeArguments c a1 a2) := by unfold closeArguments; says

theorem says_parseArguments (hs : RecSays self) : Says (parseArguments self c) := by unfold parseArguments; says

theorem says_dotSuffix {a1 : String} (hm : Proper a1) : Says (dotSuffix a1) := by unfold dotSuffix; says

theorem says_bracketSuffix (hs : RecSays self) : Says (bracketSuffix self c) := by unfold bracketSuffix; says

theorem says_methodTypes (hs : RecSays self) : Says (methodTypes self c) := by unfold methodTypes; says

theorem says_methodSuffix (hs : RecSays self) : Says (methodSuffix self c) := by unfold methodSuffix; says

theorem says_callSuffix (hs : RecSays self) : Says (callSuffix self c) := by unfold callSuffix; says

theorem says_instSuffix (hs : RecSays self) : Says (instSuffix self) := by unfold instSuffix; says

theorem says_parseSuffix (hs : RecSays self) : Says (parseSuffix self c) := by unfold parseSuffix; says

theorem says_suffixesLoop (hs : RecSays self) {n : Nat} {a2 : List Node} : Says (suffixesLoop self c n a2) := by
  induction n generalizing a2 with
  | zero => exact says_diverge
  | succ n ih => unfold suffixesLoop; says

theorem says_parsePrefixAndSuffixes (hs : RecSays self) : Says (parsePrefixAndSuffixes self c) := by unfold parsePrefixAndSuffixes; says

theorem says_varargType (hs : RecSays self) : Says (varargType self) := by unfold varargType; says

theorem says_closeParams {a1 : Punctuated Node} {a2 : List Node} : Says (closeParams a1 a2) := by unfold closeParams; says

theorem says_ellipsisParam (hs : RecSays self) {a1 : Punctuated Node} {a2 : List Node} : Says (ellipsisParam self c a1 a2) := by unfold ellipsisParam; says

theorem says_paramsLoop (hs : RecSays self) {n : Nat} {a2 : Punctuated Node} {a3 : List Node} : Says (paramsLoop self c n a2 a3) := by
  induction n generalizing a2 a3 with
  | zero => exact says_diverge
  | succ n ih => unfold paramsLoop; says

theorem says_unfinishedBody {a1 : TokRef} {a2 : Punctuated Node} : Says (unfinishedBody c a1 a2) := by unfold unfinishedBody; says

theorem says_bodyReturnType (hs : RecSays self) : Says (bodyReturnType self c) := by unfold bodyReturnType; says

theorem says_bodyRest (hs : RecSays self) {a1 : Option Node} {a2 : TokRef} {a3 : TokRef} {a4 : Punctuated Node} {a5 : List Node} : Says (bodyRest self c a1 a2 a3 a4 a5) := by unfold bodyRest; says

theorem says_bodyParens (hs : RecSays self) {a1 : Option Node} : Says (bodyParens self c a1) := by unfold bodyParens; says

theorem says_parseFunctionBody (hs : RecSays self) : Says (parseFunctionBody self c) := by unfold parseFunctionBody; says

theorem says_anonymousFunction (hs : RecSays self) {a1 : List Node} : Says (anonymousFunction self c a1) := by unfold anonymousFunction; says

theorem says_attributedFunction (hs : RecSays self) : Says (attributedFunction self c) := by unfold attributedFunction; says

theorem says_ifOperand (hs : RecSays self) : Says (ifOperand self) := by unfold ifOperand; says

theorem says_ifPart (hs : RecSays self) : Says (ifPart self) := by unfold ifPart; says

theorem says_elseIfExprs (hs : RecSays self) {n : Nat} {a2 : List Node} : Says (elseIfExprs self n a2) := by
  induction n generalizing a2 with
  | zero => exact says_diverge
  | succ n ih => unfold elseIfExprs; says

theorem says_expectIfElse (hs : RecSays self) {a1 : TokRef} : Says (expectIfElse self a1) := by unfold expectIfElse; says

theorem says_skipBrace {a1 : Bool} : Says (skipBrace a1) := by unfold skipBrace; says

theorem says_doubleBrace {t : TokRef} : Says (doubleBrace t) := by unfold doubleBrace; says

theorem says_interpLoop (hs : RecSays self) {a1 : TokRef} {n : Nat} {a2 : TokRef} {a3 : List Node} : Says (interpLoop self a1 n a2 a3) := by
  induction n generalizing a2 a3 with
  | zero => exact says_diverge
  | succ n ih => unfold interpLoop; says

theorem says_expectInterpolated (hs : RecSays self) {a1 : TokRef} : Says (expectInterpolated self a1) := by unfold expectInterpolated; says

theorem says_parseUnary (hs : RecSays self) {a1 : TokRef} : Says (parseUnary self c a1) := by unfold parseUnary; says

theorem says_prefixExpression (hs : RecSays self) : Says (prefixExpression self c) := by unfold prefixExpression; says

theorem says_interpolated (hs : RecSays self) {k : InterpKind} : Says (interpolated self k) := by unfold interpolated; says

theorem says_primaryBase (hs : RecSays self) : Says (primaryBase self c) := by unfold primaryBase; says

theorem says_parsePrimary (hs : RecSays self) : Says (parsePrimary self c) := by unfold parsePrimary; says

theorem says_rhsLoop (hs : RecSays self) {a1 : Nat} {a2 : TokRef} {n : Nat} {a4 : Node} : Says (rhsLoop self c a1 a2 n a4) := by
  induction n generalizing a4 with
  | zero => exact says_diverge
  | succ n ih => unfold rhsLoop; says

theorem says_climbLoop (hs : RecSays self) {a1 : Nat} {n : Nat} {a3 : Node} : Says (climbLoop self c a1 n a3) := by
  induction n generalizing a3 with
  | zero => exact says_diverge
  | succ n ih => unfold climbLoop; says

theorem says_parseClimb (hs : RecSays self) {a1 : Node} {a2 : Nat} : Says (parseClimb self c a1 a2) := by unfold parseClimb; says

theorem says_parseExpression (hs : RecSays self) : Says (parseExpression self c) := by unfold parseExpression; says

theorem says_functionNameLoop {n : Nat} {a2 : Punctuated TokRef} : Says (functionNameLoop n a2) := by
  induction n generalizing a2 with
  | zero => exact says_diverge
  | succ n ih => unfold functionNameLoop; says

theorem says_expectFunctionName : Says (expectFunctionName) := by unfold expectFunctionName; says

theorem says_expectFunctionDeclaration (hs : RecSays self) {a1 : List Node} {a2 : TokRef} : Says (expectFunctionDeclaration self c a1 a2) := by unfold expectFunctionDeclaration; says

theorem says_expectLocalFunction (hs : RecSays self) {a1 : List Node} {a2 : TokRef} {a3 : TokRef} : Says (expectLocalFunction self c a1 a2 a3) := by unfold expectLocalFunction; says

theorem says_expectLocalAssignment (hs : RecSays self) {a1 : TokRef} : Says (expectLocalAssignment self c a1) := by unfold expectLocalAssignment; says

theorem says_localStmt (hs : RecSays self) : Says (localStmt self c) := by unfold localStmt; says

theorem says_blockOrEmpty (hs : RecSays self) {a1 : String} (_hm : Proper a1) {a2 : TokRef} : Says (blockOrEmpty self c a1 a2) := by unfold blockOrEmpty; says

theorem says_numericForRest (hs : RecSays self) {a1 : TokRef} {a2 : Name} {a3 : TokRef} {a4 : Node} {a5 : TokRef} {a6 : Node} {a7 : Option (TokRef × Node)} : Says (numericForRest self c a1 a2 a3 a4 a5 a6 a7) := by unfold numericForRest; says

theorem says_expectNumericFor (hs : RecSays self) {a1 : TokRef} {a2 : Name} : Says (expectNumericFor self c a1 a2) := by unfold expectNumericFor; says

theorem says_genericFor (hs : RecSays self) {a1 : TokRef} {a2 : Punctuated Name} : Says (genericFor self c a1 a2) := by unfold genericFor; says

theorem says_expectFor (hs : RecSays self) {a1 : TokRef} : Says (expectFor self c a1) := by unfold expectFor; says

theorem says_expectRepeat (hs : RecSays self) {a1 : TokRef} : Says (expectRepeat self c a1) := by unfold expectRepeat; says

theorem says_expectWhile (hs : RecSays self) {a1 : TokRef} : Says (expectWhile self c a1) := by unfold expectWhile; says

theorem says_elseIfLoop (hs : RecSays self) {a1 : Node} {n : Nat} {a3 : List Node} : Says (elseIfLoop self c a1 n a3) := by
  induction n generalizing a3 with
  | zero => exact says_diverge
  | succ n ih => unfold elseIfLoop; says

theorem says_elsePart (hs : RecSays self) : Says (elsePart self) := by unfold elsePart; says

theorem says_expectIf (hs : RecSays self) {a1 : TokRef} : Says (expectIf self c a1) := by unfold expectIf; says

theorem says_parseCompound (hs : RecSays self) {a1 : Node} : Says (parseCompound self c a1) := by unfold parseCompound; says

theorem says_varsLoop (hs : RecSays self) {n : Nat} {a2 : Punctuated Node} : Says (varsLoop self c n a2) := by
  induction n generalizing a2 with
  | zero => exact says_diverge
  | succ n ih => unfold varsLoop; says

theorem says_assignment (hs : RecSays self) {a1 : Node} : Says (assignment self c a1) := by unfold assignment; says

theorem says_typeDeclarationRest (hs : RecSays self) {a1 : TokRef} {a2 : TokRef} {a3 : Option Node} : Says (typeDeclarationRest self c a1 a2 a3) := by unfold typeDeclarationRest; says

theorem says_expectTypeDeclaration (hs : RecSays self) {a1 : TokRef} : Says (expectTypeDeclaration self c a1) := by unfold expectTypeDeclaration; says

theorem says_expectTypeFunction (hs : RecSays self) {a1 : TokRef} {a2 : TokRef} : Says (expectTypeFunction self c a1 a2) := by unfold expectTypeFunction; says

theorem says_typeStmt (hs : RecSays self) {a1 : TokRef} : Says (typeStmt self c a1) := by unfold typeStmt; says

theorem says_exportStmt (hs : RecSays self) {a1 : TokRef} : Says (exportStmt self c a1) := by unfold exportStmt; says

theorem says_contextual (hs : RecSays self) {a1 : Pre} {a2 : List Node} {a3 : TokRef} : Says (contextual self c a1 a2 a3) := by unfold contextual; says

theorem says_expressionStmt (hs : RecSays self) : Says (expressionStmt self c) := by unfold expressionStmt; says

theorem says_gotoStmt : Says (gotoStmt c) := by unfold gotoStmt; says

theorem says_labelStmt : Says (labelStmt c) := by unfold labelStmt; says

theorem says_attributedStmt (hs : RecSays self) : Says (attributedStmt self c) := by unfold attributedStmt; says

theorem says_doStmt (hs : RecSays self) : Says (doStmt self c) := by unfold doStmt; says

theorem says_parseStmt (hs : RecSays self) : Says (parseStmt self c) := by unfold parseStmt; says

theorem says_parseLastStmt (hs : RecSays self) : Says (parseLastStmt self) := by unfold parseLastStmt; says

theorem says_blockEnd (hs : RecSays self) {a1 : List (Node × Option TokRef)} : Says (blockEnd self a1) := by unfold blockEnd; says

theorem says_blockLoop (hs : RecSays self) {n : Nat} {a2 : List (Node × Option TokRef)} : Says (blockLoop self c n a2) := by
  induction n generalizing a2 with
  | zero => exact says_diverge
  | succ n ih => unfold blockLoop; says

theorem says_parseBlock (hs : RecSays self) : Says (parseBlock self c) := by unfold parseBlock; says

theorem says_parsers (n : Nat) : RecSays (parsers c n) := by
  induction n with
  | zero => exact ⟨says_diverge, says_diverge, says_diverge, says_diverge, says_diverge, says_diverge⟩
  | succ n ih =>
    exact ⟨says_parseBlock ih, says_parseExpression ih, says_parsePrimary ih, says_parseClimb ih, says_parseType ih,
      says_parseTypeOrPack ih⟩

theorem says_topBlock : Says (topBlock c) := fun ts r hr => (says_parsers _).block ts r hr

end FM.Parser.Says
