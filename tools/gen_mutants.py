"""Writes tools/mutants.json: realistic wrong programs, as textual edits of the model."""
import json
M = []
def m(id, file, deff, old, new, edit, claim, tightened=()):
    M.append(dict(id=id, file="Model/" + file, **{"def": deff}, old=old, new=new, edit=edit, claim=claim, tightened=list(tightened)))

L = "Lexer.lean"
m("M01", L, "FM.identLoop", "if isIdentStart ch || isDigit ch then identLoop", "if isIdentStart ch then identLoop",
  "identifiers stop at digits", "C10: `x1` is one identifier token")
m("M02", L, "FM.wsLoop", "(acc ++ [ch], ⟨e.bytes + ch.utf8Size, e.line, e.character⟩, ⟨r, p.advance ch⟩)",
  "(acc ++ [ch], ⟨e.bytes + ch.utf8Size, e.line + 1, 1⟩, ⟨r, p.advance ch⟩)",
  "whitespace ends on the next line", "C03: end positions")
m("M03", L, "FM.wsLoop", "(acc ++ [ch, '\\n'],", "(acc ++ ['\\n'],", "carriage return dropped from whitespace", "C01: tokenizing is lossless")
m("M04", L, "FM.numberLoop", "if hit then eatInvalidNumber start (ch :: r) p number\n      else numberLoop", "if false then eatInvalidNumber start (ch :: r) p number\n      else numberLoop",
  "second decimal point accepted", "C15: at most one point in a number")
m("M05", L, "FM.stringLoop", "else if next = quote then (lit, false, ⟨r, p.advance next⟩)", "else if next = quote then (lit ++ [next], false, ⟨r, p.advance next⟩)",
  "closing quote kept in the literal", "C01, C02: tokens print as the source")
m("M06", L, "FM.closeEqLoop", "  | 0, r, p => (0, ⟨r, p⟩)\n  | _ + 1, [], p", "  | 0, r, p => (0, ⟨r.tail, p⟩)\n  | _ + 1, [], p",
  "one character skipped after the closing equal signs", "C01, C13")
m("M07", L, "FM.bodyLoop", "if n < blocks then\n        bodyLoop", "if n + 1 < blocks then\n        bodyLoop",
  "long brackets close with one equal sign too few", "C13: a long bracket ends at the first closing bracket of its level")
m("M08", L, "FM.lineLoop", "if ch = '\\n' then (comment, ⟨ch :: r, p⟩) else", "if ch = '\\n' then (comment ++ [ch], ⟨r, p.advance ch⟩) else",
  "newline made part of a line comment", "C09: newlines belong to whitespace (comment text)")
m("M09", L, "FM.readTilde", "if c.hasAny [.lua53] then symTok start .tilde s", "if c.hasAny [] then symTok start .tilde s",
  "`~` available in every version", "C12: symbols of inactive versions are not produced")
m("M10", L, "FM.readDot", "if headIs isDigit s.rest then readNumber c start ['.'] s", "if headIs isDigit s.rest then readNumber c start [] s",
  "point dropped from `.5`", "C01, C02")
m("M11", L, "FM.processNext", "else .ok (some (.ok ⟨start, start, .eof⟩), { l with sentEof := true })", "else .ok (some (.ok ⟨start, start, .eof⟩), l)",
  "Eof not remembered", "C05, C06: Eof once; termination")
m("M12", L, "FM.collectTrailing", "if t.type.endsLine then .ok ([t], l')", "if false then .ok ([t], l')",
  "trailing trivia runs over the end of the line", "C09: trailing trivia ends with the line")
m("M13", L, "FM.collectTrailing", "else .ok ([], { l' with src := l.src, sentEof := l.sentEof })\n        | (_, l')", "else .ok ([], l')\n        | (_, l')",
  "position not reset after a token that is not trivia", "C01: nothing is lost")
m("M14", L, "FM.leadingLoop", "let errors := some (errors.getD [] ++ es)\n        if t.type.isTrivia then leadingLoop c fuel l' (leading ++ [t]) errors",
  "let errors := some es\n        if t.type.isTrivia then leadingLoop c fuel l' (leading ++ [t]) none",
  "errors of an unclosed comment forgotten", "C14, C20: errors are reported")
m("M15", L, "FM.Lexer.consume", ".ok (some n, ⟨l, x.peeked, p⟩)", ".ok (some n, ⟨l, p, x.peeked⟩)",
  "current and peeked token swapped", "C08: streaming API is a cursor")
m("M16", L, "FM.readSection", "{ l with src := s, braces := .interpolatedString :: l.braces })\n  | (lit, .backtick",
  "{ l with src := s })\n  | (lit, .backtick", "opening brace of an interpolation not remembered", "C41: sections nest")
m("M17", "Token.lean", "FM.TokenType.display", "c!\"[\" ++ List.replicate depth '=' ++ c!\"[\" ++ literal ++ c!\"]\" ++ List.replicate depth '=' ++ c!\"]\"\n    else",
  "c!\"[\" ++ List.replicate depth '=' ++ c!\"[\" ++ literal ++ c!\"]]\"\n    else", "long strings close without equal signs", "C01")
m("M18", "Token.lean", "FM.TokRef.display", "t.leading.flatMap Token.display ++ t.token.display ++ t.trailing.flatMap Token.display",
  "t.leading.flatMap Token.display ++ t.token.display", "trailing trivia not printed", "C01")
m("M19", "Config.lean", "FM.LuaVersion.has", None, None, "", "")
P = "Punctuated.lean"
m("M20", P, "FM.Punctuated.pushPunctuated", "((p.push (.punctuated lastPair.intoValue punctuation)).push (.new value none))",
  "((p.push (.punctuated value punctuation)).push (.new lastPair.intoValue none))", "values swapped", "C34: push_punctuated")
m("M21", P, "FM.Punctuated.pop", "(p.pairs.getLast?, ⟨p.pairs.dropLast⟩)", "(p.pairs.head?, ⟨p.pairs.tail⟩)", "pop takes the first pair", "C33")
m("M22", P, "FM.Punctuated.forEachMut", "⟨p.pairs.map (Pair.modifyValue f)⟩", "⟨p.pairs.dropLast.map (Pair.modifyValue f) ++ p.pairs.getLast?.toList⟩",
  "the last value is not visited", "C33: iter_mut")
O = "Ast/Operators.lean"
m("M23", O, "FM.BinOp.level", "| .ampersand => 6\n  | .tilde => 5", "| .ampersand => 5\n  | .tilde => 6", "precedences of `&` and `~` swapped", "C24")
m("M24", O, "FM.BinOp.isRightAssociativeToken", "|| t.token.type == .symbol .twoDots", "", "`..` not right associative for tokens", "C24")
m("M25", O, "FM.BinOp.accept", "if c.hasAny o.gates then some o else none", "some o", "operators of inactive versions accepted", "C24")
N = "Ast/Node.lean"
m("M26", N, "FM.Tokens.backF", None, None, "", "")
m("M27", N, "FM.Node.similar", "| .tok a, .tok b => a.token.type == b.token.type", "| .tok a, .tok b => a.token.type.kind == b.token.type.kind",
  "tokens compared by kind only", "C28: similar trees have the same token types")
m("M28", N, "FM.Ends.lastStop", "| e :: es => (Ends.lastStop es).or e.stop", "| e :: es => e.stop.or (Ends.lastStop es)", "end of the first field", "C27: range")
m("M29", N, "FM.Ends.maxStop", "some (if x.bytes ≤ y.bytes then y else x)", "some (if x.bytes ≤ y.bytes then x else y)", "minimum instead of maximum", "C27: range of a statement with its semicolon")
V = "Ast/Visit.lean"
m("M30", V, "FM.TokRef.visitMut", "let trailing ← visitTokens v t.trailing\n", "let trailing := t.trailing\n", "trailing trivia not visited", "C31, C32")
m("M31", V, "FM.TokRef.visitMut", "let leading ← visitTokens v t.leading\n  let token ← t.token.visitMut v", "let token ← t.token.visitMut v\n  let leading ← visitTokens v t.leading",
  "the token is visited before its leading trivia", "C31: order of visits; C32")
m("M32", V, "FM.Ast.visit", "a.nodes.visit ++ a.eof.visit", "a.nodes.visit", "Eof not visited", "C30, C42")
m("M16b", L, "FM.readSection", "{ l with src := s, braces := .interpolatedString :: l.braces })\n  | (lit, .backtick",
  "{ l with src := s })\n  | (lit, .backtick", "opening brace of an interpolation not remembered (again, after C41 was tightened)", "C41: sections nest",
  ["sections_nest", "brace_closes_brace"])
m("M31b", V, "FM.TokRef.visitMut", "let leading ← visitTokens v t.leading\n  let token ← t.token.visitMut v", "let token ← t.token.visitMut v\n  let leading ← visitTokens v t.leading",
  "the token is visited before its leading trivia (again, after C31 was tightened)", "C31: order of visits", ["token_visitor_in_order"])
E = "Parser/Expr.lean"
S = "Parser/Stmt.lean"
T = "Parser/Types.lean"
Q = "Parser/Parse.lean"
R = "Parser/State.lean"
m("M33", E, "FM.Parser.rhsLoop", "(if level < next then level + 1 else level)", "(level + 1)", "right associative operators climb one level higher", "C23, C44: `a ^ b ^ c` and `a .. b .. c` group to the right")
m("M34", E, "FM.Parser.parseUnary", "self.climb e UnOp.precedence", "self.climb e 0", "unary operators take the whole rest of the expression", "C23: unary operators bind tighter than `*`")
m("M35", E, "FM.Parser.climbLoop", "if level < precedence then return .value lhs", "if level ≤ precedence then return .value lhs", "wrong boundary in precedence climbing", "C44: `a * b` inside a higher level is still read; operators of level 0 (`or`)")
m("M36", E, "FM.Parser.parsePrefix", "return .value (.expr (.node .exprParens [span left right, e]))", "return .value (.expr e)", "parentheses around an expression are thrown away", "C18, C19, C43")
m("M37", E, "FM.Parser.ctorLoop", "takeIf (fun t => is .comma t || is .semicolon t)", "takeIf (fun t => is .comma t)", "`;` does not separate table fields", "C44: every program of the grammar is accepted")
m("M38", E, "FM.Parser.parseArguments", "else if t.isString then return .value (.node .argsString [.tok (← take)])\n    else return .notFound", "else return .notFound", "calls with a string argument not parsed", "C44; parse_suffix relies on it (C21)")
m("M39", E, "FM.Parser.expectExpressionKey", "[span left right, key, .tok equal, value]", "[span left right, value, .tok equal, key]", "key and value of a table field swapped", "C18, C19: tokens in order")
m("M40", E, "FM.Parser.paramsLoop", "| none => closeParams (parameters.push (.end parameter)) types", "| none => closeParams parameters types", "the last parameter of a function is dropped", "C18, C19")
m("M41", S, "FM.Parser.functionNameLoop", "else if is .colon middle then return .value (functionNameNode names (some (middle, name)))", "else if is .colon middle then return .value (functionNameNode names none)", "the method name of a function is dropped", "C18, C19")
m("M42", S, "FM.Parser.parseStmt", "else if is .kRepeat t then expectRepeat self c (← take)\n", "", "`repeat` not recognised", "C44")
m("M43", S, "FM.Parser.expectRepeat", "[.tok repeat_, b.node, .tok until_, e]", "[.tok repeat_, Blk.empty.node, .tok until_, e]", "the body of `repeat` is dropped", "C18, C19")
m("M44", S, "FM.Parser.elseIfLoop", "(parts ++ [.node .elseIf [.tok token, condition', .tok then_, b.node]])", "([.node .elseIf [.tok token, condition', .tok then_, b.node]] ++ parts)", "`elseif` parts in reverse order", "C18, C19")
m("M45", S, "FM.Parser.numericForRest", "optTok (step.map (·.1)), optNode (step.map (·.2))", "optTok none, optNode none", "the step of a numeric `for` is dropped", "C18, C19")
m("M46", S, "FM.Parser.varsLoop", "          tokenError t \"can't assign to the result of a call\"\n          return some vars", "          match vars.pushPunctuated (varNode p suffixes) comma with\n          | .returned _ vars => varsLoop self c n vars\n          | .panicked _ => panic", "`a, f() = 1` accepted", "C43: accepted sources conform to the grammar")
m("M47", S, "FM.Parser.parseLastStmt", "return .value (.node .lastBreak [.tok t], ← consumeIf .semicolon)", "return .value (.node .lastBreak [.tok t], none)", "`;` after `break` not consumed", "C44")
m("M48", S, "FM.Parser.gotoStmt", "(.node .gotoStmt [.tok token, .tok name])", "(.node .gotoStmt [.tok name, .tok token])", "label printed before `goto`", "C18, C19")
m("M49", S, "FM.Parser.labelStmt", "match ← require .twoColons \"expected `::` after label\" with", "match ← consumeIf .twoColons with", "a label without closing `::` accepted silently", "C36/C37: an Ast of an accepted source has no invented tokens; C43")
m("M50", Q, "FM.Parser.lateStatement", "if hasLast then", "if false then", "statements after the last statement accepted", "C35, C43")
m("M51", Q, "FM.Parser.Blk.merge", "⟨b.stmts ++ other.stmts, b.last.or other.last⟩", "⟨other.stmts ++ b.stmts, b.last.or other.last⟩", "later statements in front", "C18, C19")
m("M52", R, "FM.Parser.dropTrailing", "    tokenError p msg\n    return rest.push (.end v)", "    return rest.push (.end v)", "trailing commas dropped silently", "C18, C19, C43")
m("M53", R, "FM.Parser.oneOrMore", "else return .value (← dropTrailing \"trailing commas are not allowed\" values)", "else return .value values", "trailing commas accepted", "C43")
m("M54", E, "FM.Parser.parseSuffix", "else if is .leftParen t || is .leftBrace t || t.isString then callSuffix self c", "else if (t.leading.isEmpty && is .leftParen t) || is .leftBrace t || t.isString then callSuffix self c", "a call must be on the line of its function", "C45: formatting does not influence parsing; C44")
m("M55", T, "FM.Parser.genericListParam", "if seenPack || is .ellipsis t then", "if is .ellipsis t then", "generic types accepted after generic packs", "C43 with Luau")
m("M56", T, "FM.Parser.stringKeyField", None, None, "", "")
m("M57", T, "FM.Parser.suffixLoop", "suffixLoop self c n { x with isUnion := true } (some (.node .tyOptional [ty, .tok q]))", "suffixLoop self c n { x with isUnion := true } (some ty)", "`?` after a type dropped", "C18, C19 with Luau")
m("M58", L, "FM.readEqual", None, None, "", "")
m("M59", Q, "FM.Parser.skipToken", "else .ok (.next { s with toks := rest, errs := s.errs ++ [.ast t.token unexpectedToken none] })\n  | .recovered", "else .ok (.next { s with toks := rest })\n  | .recovered", "unexpected tokens skipped without an error", "C18, C19, C43")
m("M60", E, "FM.Parser.unaryOp", "if is .minus t then some .minus", "if is .minus t then some .not", "wrong operator for `-`", "C23/C43: the kind of an operator fits its token")
m("M61", S, "FM.Parser.expressionStmt", "if lastIsCall suffixes then", "if !suffixes.isEmpty then", "`a.b` accepted as a statement", "C43")
m("M62", E, "FM.Parser.primaryBase", "is .kTrue t || is .kFalse t || is .kNil t || is .ellipsis t", "is .kTrue t || is .kFalse t || is .kNil t", "`...` is no expression", "C44")
V = "Ast/Visit.lean"
B = "Ast/Build.lean"
W = "Ast/Builders.lean"
m("M63", L, "FM.exponentLoop", "if isDigit ch || (c.luau && ch == '_') then exponentLoop", "if isDigit ch then exponentLoop", "no `_` in exponents with Luau", "C51: `1e1_0` is one number with Luau")
m("M64", L, "FM.hexLoop", "else if ch = '.' && c.lua52 then", "else if ch = '.' then", "hexadecimal fractions in every version", "C51: `0x1.8` is no number in Lua 5.1")
m("M65", L, "FM.binaryLoop", "if ch = '0' ∨ ch = '1' ∨ ch = '_' then", "if ch = '0' ∨ ch = '1' then", "no `_` in binary numbers", "C51")
m("M66", L, "FM.readLuajitSuffix", "if !headIs isL r then eatInvalidNumber", "if headIs isL r then eatInvalidNumber", "`1ULL` rejected, `1U` accepted", "C51: suffixes of LuaJIT numbers")
m("M67", L, "FM.stringLoop", "else if next = '\\\\' then stringLoop c quote r (p.advance next) (lit ++ ['\\\\']) true z", "else if next = '\\\\' then stringLoop c quote r (p.advance next) (lit ++ ['\\\\']) false z", "escaped quotes end a string", "C51, C14")
m("M68", L, "FM.readSlash", "if c.hasAny [.lua53, .luau, .cfxlua] then\n    match s.consume '/'", "if c.hasAny [.lua53, .luau] then\n    match s.consume '/'", "no `//` with cfxlua alone", "C51, C12")
m("M69", L, "FM.readAngle", "if c.hasAny [.cfxlua] then\n        match s.consume '='", "if c.hasAny [.lua53] then\n        match s.consume '='", "`<<=` in Lua 5.3", "C51, C12")
m("M70", L, "FM.readMinus", "match s.consume '>' with\n        | (true, s) => symTok start .thinArrow s", "match s.consume '>' with\n        | (true, s) => symTok start .minus s", "`->` read as a minus sign", "C02, C51")
m("M71", L, "FM.processNext", "if l.braces.head? = some .interpolatedString then .ok (readSection l' start .middle .end_)", "if l.braces.head? = some .interpolatedString then .ok (readSection l start .middle .end_)", "the brace of an interpolation stays open", "C41, C51")
m("M72", L, "FM.readGated (call for `:`)", "readGated c [.lua52, .luau, .luajit] ':' .twoColons", "readGated c [.lua52, .luau] ':' .twoColons", "no `::` with LuaJIT", "C51: the symbols of the versions")
m("M73", L, "FM.readOther", "else if ch = '&' ∧ (c.lua53 ∨ c.luau) then", "else if ch = '&' ∧ c.lua53 then", "no `&` with Luau", "C51, C12")
m("M74", L, "FM.readIdent", "    (match Symbol.fromStr c identifier with\n     | some y => .symbol y\n     | none => .identifier identifier) s", "    (.identifier identifier) s", "keywords are names", "C10, C51")
m("M75", L, "FM.sectionLoop", "else if ch = '{' then (lit, .brace, ⟨r, p.advance ch⟩)", "else if ch = '{' && !z then (lit, .brace, ⟨r, p.advance ch⟩)", "no interpolation after an escape", "C51: interpolated strings")
m("M76", L, "FM.quoteType", "else if quote = '`' && c.feat.cfxlua then some .backtick", "else if quote = '`' then some .backtick", "backtick strings in every build", "C07 (witness of the panic), C51")
m("M77", V, "FM.rebuildNode", "pure (.node .typeInst [.spanOf o p, .spanOf i j, types])", "pure (.node .typeInst [.spanOf i p, .spanOf o j, types])", "the opening brackets of a type instantiation swapped by mutable visitors", "C29, C31, C52")
m("M78", V, "FM.MutVisitor.around", "    let n ← parts\n    v.leave b n", "    let m ← parts\n    let _ ← v.leave b m\n    pure m", "the result of `visit_x_end` not used", "C52: what the hooks return ends up in the tree")
m("M79", V, "FM.Kind.hook", "| .binOp _ | .interpSegment => none", "| .binOp _ | .interpSegment | .typeSpec => none", "`visit_type_specifier` never called", "C52: hooks are called once per node")
m("M80", V, "FM.Kind.hook", "| k => k.cat.map fun c => (.enter c, .leave c)", "| k => k.cat.map fun c => (.enter c, .enter c)", "`visit_x` called at the end of nodes", "C42, C52")
m("M81", V, "FM.Kind.visitLayout", "| .funcBody => some [.child 0, .opening 1, .bareNames 2 none 3, .closing 1, .child 4, .child 5, .child 6]", "| .funcBody => some [.child 0, .opening 1, .bareNames 2 none 3, .closing 1, .child 5, .child 6]", "the return type of a function not visited", "C30, C52")
m("M82", V, "FM.Kind.visitLayout", "  | k => k.layout", "  | .indexBrackets => none\n  | k => k.layout", "`ContainedSpan` of an index visited as a whole", "C30, C52: order of the visited tokens")
m("M83", V, "FM.rebuildNode (numericFor)", "    let index ← index.go\n    let type ← type.go\n", "    let type ← type.go\n    let index ← index.go\n", "the type of a loop variable visited before it", "C31, C52: order of the calls")
m("M84", B, "FM.Build.genericFor", "(basic f c!\" in \")", "(basic f c!\"in \")", "no space before `in`", "C49: nodes made by constructors can be read back")
m("M85", B, "FM.Build.numericFor", "start, .tok cm, stop, absent", "stop, .tok cm, start, absent", "start and end of a numeric `for` swapped", "C49")
m("M86", B, "FM.Build.functionCall", ".node .vec [.node .suffixCall [.node .callAnonymous [args]]]", ".node .vec []", "a call without arguments made", "C49")
m("M87", B, "FM.Build.localFunction", "(basic f c!\"function \").bind fun t => (funcBody f)", "(basic f c!\"function\").bind fun t => (funcBody f)", "no space after `function`", "C49")
m("M88", W, "FM.setters", "⟨.genericFor, c!\"with_names\", 1, (.punct .tok)⟩", "⟨.genericFor, c!\"with_names\", 3, (.punct .tok)⟩", "with_names sets the expressions", "C48")
m("M89", W, "FM.getters", "⟨.localAssignment, c!\"names\", 2, .whole⟩", "⟨.localAssignment, c!\"names\", 5, .whole⟩", "names shows the expressions", "C48")
m("M90", T, "FM.Parser.genericListParam", "if seenPack || is .ellipsis t then", "if is .ellipsis t then", "generic types accepted after generic packs (again, with C50)", "C43, C50 with Luau")
m("M91", T, "FM.Parser.indexerField", "          if hasIndexer then\n", "          if false then\n", "several indexers accepted", "C43, C50 with Luau")
m("M92", T, "FM.Parser.functionTypeRest", "let force := force || arguments.pairs.any fun p => p.value.name.isSome", "let force := force", "`(a: T)` taken as a type in parentheses, dropping the name", "C18, C19, C50 with Luau")
m("M93", T, "FM.Parser.suffixLoop", "          if x.isUnion then\n            tokenError t \"cannot mix union and intersection types\"\n            return .moved\n          else\n            let p ← take\n            suffixLoop self c n { x with types := x.types.push (.new ty (some p)), isIntersection := true } none", "            let p ← take\n            suffixLoop self c n { x with types := x.types.push (.new ty (some p)), isIntersection := true, isUnion := false } none", "`A | B & C` read as an intersection", "C43, C50 with Luau")
m("M94", T, "FM.Parser.plainField", "if fields.isEmpty && !hasIndexer then", "if !hasIndexer then", "an array type after fields drops the fields", "C18, C19, C50 with Luau")
m("M95", T, "FM.Parser.expectTypeInstantiation", "[span outer0 outer1, arrows, generics]", "[span outer0 outer0, arrows, generics]", "closing bracket of a type instantiation replaced by the opening one", "C18, C19 with Luau")
V2 = "Ast/Saved.lean"
SH = "Ast/Shapes.lean"
SE = "SavedErrors.lean"
A = "Api.lean"
VC = "Ast/VisitChanging.lean"
m("M96", V2, "FM.Token.save", '(c!"end_position", t.stop.save)', '(c!"end_position", t.start.save)', "the end of a token stored as its start", "C56, C57")
m("M97", V2, "FM.TokenType.save", "(if depth = 0 then []", "(if depth ≤ 1 then []", "depth 1 of `[=[ ]=]` left out like depth 0", "C57")
m("M98", V2, "FM.Skip.test", "  | .allNone, n => n.fields.all Node.isAbsent", "  | .allNone, n => n.fields.any Node.isAbsent", "lists of annotations left out if one is None", "C57")
m("M99", V2, "FM.load", "fun p => .node .pairPunct [n, .tok p]", "fun p => .node .pairEnd [n]", "separators dropped when reading", "C56")
m("M100", SH, "FM.Kind.shape", '.plain c!"start_end_comma", .plain c!"end", .plain c!"end_step_comma"', '.plain c!"start_end_comma", .plain c!"start", .plain c!"end_step_comma"', "two fields of a numeric for stored under one name", "C56")
m("M101", SE, "FM.TokErrType.load", 'else if name = c!"InvalidNumber" then some .invalidNumber', 'else if name = c!"InvalidNumber" then some .unclosedString', "an invalid number read as an unclosed string", "C56")
m("M102", SE, "FM.Parser.Err.save", '      | some r => [(c!"range", saveRange r)]))]', '      | some _ => []))]', "the range of a syntax error not stored", "C56")
m("M103", SE, "FM.LexRes.save", '.map [(c!"Recovered", .seq [item a, .seq (es.map TokErr.save)])]', '.map [(c!"Ok", item a)]', "the errors of a recovered result not stored", "C56")
m("M104", V2, "FM.saveFields", "if s.gate.on f && !s.skip.test c then", "if s.gate.on f && (s.skip == .none || !s.skip.test c) then", "absent options stored as null instead of left out", "C56 (equivalent: null is read as None)")
m("M105", A, "FM.ExprIter.next", "if i.index ≥ i.segments.length then", "if i.index > i.segments.length then", "index one past the end", "C48: the iterator never panics")
m("M106", A, "FM.ExprIter.next", "⟨i.segments, i.index + 1⟩", "⟨i.segments, i.index + 2⟩", "every second expression skipped", "C48")
m("M107", A, "FM.LexRes.unwrapErrors", "  | .ok _ => .panic", "  | .ok _ => .ok []", "no panic without errors", "C58")
m("M108", A, "FM.LexRes.unwrap", "  | .ok a => .ok a\n  | _ => .panic", "  | .ok a | .recovered a _ => .ok a\n  | _ => .panic", "unwrap ignores errors of recovered results", "C58")
m("M109", A, "FM.Punctuated.fromIter", "⟨pairs⟩", "⟨pairs.reverse⟩", "collecting reverses the pairs", "C33")
m("M110", A, "FM.displayOptPunct", "show_ p.1 ++ displayOption TokRef.display p.2", "displayOption TokRef.display p.2 ++ show_ p.1", "semicolons printed before statements", "C48")
m("M111", A, "FM.Ast.withEof", "{ a with eof := eof }", "a", "with_eof keeps the old token", "C48")
m("M112", VC, "FM.Node.visitChanging", "      callHook (v.leave b n) n", "      callHook (v.leave a n) n", "visit_x_end hook replaced by visit_x of the same node", "C55")
m("M113", VC, "FM.Node.visitChanging", "      let n ← match n with\n", "      let n ← match Node.node k cs with\n", "parts of the old node visited instead of those of the new one", "C55")
m("M114", VC, "FM.Ast.visitChanging", "let eof ← callHook (v.eof a.eof) a.eof", "let eof := a.eof", "end of file not visited", "C55")
m("M115", VC, "FM.Node.visitChanging", "      let n ← callHook (v.enter a (.node k cs)) (.node k cs)\n", "      let n ← callHook (v.enter a (.node k cs)) (.node k cs)\n      let n ← callHook (v.enter a n) n\n", "visit_x called twice", "C55")
m("M116", B, "FM.Build.elseIfExpr", '(symbol f c!" then ")', '(symbol f c!" then")', "no space after `then` in elseif expressions", "C49")
m("M117", B, "FM.Build.typeFunction", '(basic f c!"function ").bind fun t => .ok (.node .typeFunction', '(basic f c!"function").bind fun t => .ok (.node .typeFunction', "no space after `function` in type functions", "C49")
m("M118", B, "FM.Build.typeDecl", "[.tok (word c!\"type\"), .tok name, absent, .tok t, definition]", "[.tok (word c!\"type\"), .tok name, absent, .tok t, absent]", "the type of a type declaration forgotten", "C49")
m("M119", B, "FM.Build.typeInst", "[span l r, span l' r', noItems]", "[span l r', span l' r, noItems]", "brackets of a type instantiation crossed (same texts)", "C49 (equivalent: all positions are null)")
m("M120", N, "FM.Kind.ends", "  | .pairPunct => ⟨(Ends.nth es 0).start, (Ends.nth es 1).stop.or (Ends.nth es 0).stop⟩", "  | .pairPunct => ⟨(Ends.nth es 0).start, (Ends.nth es 0).stop⟩", "ranges of pairs end before the separator", "C27")
m("M121", N, "FM.Ends.minStart", "if y.bytes < x.bytes then y else x", "if x.bytes < y.bytes then y else x", "tuples start at the later part", "C27")
m("M122", R, "FM.Parser.tokenErrorRanged", "(start.token.start, stop.token.stop)", "(start.token.start, stop.token.start)", "ranges of errors end where the last token starts", "C53")
m("M123", "Errors.lean", "FM.Parser.Err.range", "r.getD (t.start, t.stop)", "r.getD (t.start, t.start)", "default range of a syntax error is empty", "C53")
m("M124", L, "FM.startsTrailing", "ch == '#' || ", "", "`#` no longer starts trailing trivia", "C09 (equivalent: `#` is never trivia there)")
m("M125", L, "FM.collectTrailing", "            if t.type.endsLine then .ok ([t], l')\n", "            if t.type.endsLine then .ok ([], { l' with src := l.src })\n", "the end of the line given to the next token", "C09, C54")
m("M126", L, "FM.processFirstWithTrivia", "{ t with leading := shebang :: t.leading }", "{ t with leading := t.leading ++ [shebang] }", "the #! line put behind the leading trivia", "C01, C09")
m("M127", V2, "FM.Stored.missing", "  | .vec _ => if s.default then some (.node .vec []) else none", "  | .vec _ => some (.node .vec [])", "every missing list read as empty", "C56: what exactly can be read back")
m("M128", V2, "FM.TokRef.load", "pure ⟨leading, token, trailing⟩", "pure ⟨trailing, token, leading⟩", "leading and trailing trivia swapped", "C56")
m("M129", S, "FM.Parser.blockOrEmpty", "| none => return (.empty, ← basicSymbol c c!\"end\")", "| none => return (.empty, ← basicSymbol c c!\"do\")", "a loop whose body is broken gets `do` for `end`", "C59")
m("M130", S, "FM.Parser.genericFor", "return some (genericForNode c for_ names in_ es do_ .empty end_)", "return some (genericForNode c for_ names in_ es end_ .empty do_)", "made `do` and `end` of an unfinished loop swapped", "C59")
m("M131", R, "FM.Parser.newWhile", "let d ← basicSymbol c c!\" do\\n\"", "let d ← basicSymbol c c!\" then\\n\"", "`then` in a while loop made for a broken one", "C59")
m("M132", S, "FM.Parser.expectIf", "let end_ ← requireOr c .kEnd \"expected `end` to conclude `if`\" c!\"end\"", "let end_ ← requireOr c .kEnd \"expected `end` to conclude `if`\" c!\"then\"", "a missing `end` replaced by `then`", "C59")
m("M133", E, "FM.Parser.interpBroken", ".tok (if segments.isEmpty then first else interpolatedEnd)", ".tok first", "the last part of a broken interpolated string is its first part again", "C59, or tokens counted twice (C58)")
m("M134", E, "FM.Parser.unfinishedBody", "let right ← basicSymbol c c!\")\"", "let right ← basicSymbol c c!\"(\"", "wrong bracket made for an unfinished parameter list", "C59")
m("M135", E, "FM.Parser.paramsLoop", "let types := if c.feat.luau then types ++ [optNode name.typeSpec] else types", "let types := if c.feat.luau then types ++ [optNode name.typeSpec, optNode name.typeSpec] else types", "types of parameters pushed twice", "C58: as many types as parameters; C18")
m("M136", R, "FM.Parser.require", "  | .other t => tokenError t msg; return none\n  | .fatal => return none\n\n/-- `ParserState::require_with_reference_token`", "  | .other _ => return none\n  | .fatal => return none\n\n/-- `ParserState::require_with_reference_token`", "a missing token not reported", "C20: sources without errors are in the language")
m("M137", E, "FM.Parser.closeArguments", "match ← requireWithToken .rightParen \"expected `)` to close function call\" left with\n  | some right =>", "match ← consumeIf .rightParen with\n  | some right =>", "a missing `)` of a call not reported", "C18, C20")
m("M138", S, "FM.Parser.expectLocalFunction", ".tok local_, .tok token, .tok name, body]", ".tok token, .tok local_, .tok name, body]", "`local` and `function` swapped", "C18, C59")
m("M139", S, "FM.Parser.parseStmt", "else if (c.feat.lua52 || c.feat.luajit || c.feat.cfxlua) && is .kGoto t then gotoStmt c", "else if is .kGoto t then gotoStmt c", "`goto` tokens looked at in every build (equivalent: the tokenizer makes none there)", "C07 (equivalent)")
m("M140", S, "FM.Parser.parseStmt", "else if (c.lua52 || c.luajit) && is .twoColons t then labelStmt c", "else if is .twoColons t then labelStmt c", "labels accepted in every version", "C50, C60 (Luau, where `::` is a token)")
m("M141", S, "FM.Parser.localNode", "[.tok local_, typeSpecs c names, nameNodes names, attrs c names, optTok equal, punct es]", "[.tok local_, attrs c names, nameNodes names, typeSpecs c names, optTok equal, punct es]", "types and attributes of local names swapped", "C18, C50")
m("M142", S, "FM.Parser.expectNumericFor", "| .value step => numericForRest self c for_ index equal start comma stop (some (comma', step))", "| .value step => numericForRest self c for_ index equal start comma' stop (some (comma, step))", "the commas of a numeric for swapped", "C18, C21")
m("M143", Q, "FM.Parser.finish", "  | .ok t :: _ => if t.isEof then .ok ⟨⟨s.val.node, t⟩, s.errs, s.silent⟩ else .panic", "  | .ok t :: _ => if t.isEof then .ok ⟨⟨s.val.node, ⟨[], t.token, []⟩⟩, s.errs, s.silent⟩ else .panic", "comments at the end of the file lost", "C18")
m("M144", E, "FM.Parser.varargType", "if ← currentIs TokRef.isIdent then peekIs (is .ellipsis) else return false", "return false", "`...: T...` not read as a pack", "C50 with Luau")
m("M145", E, "FM.Parser.methodSuffix", "return .value (methodNode colon name types args)", "return .value (methodNode name colon types args)", "`:` and the method name swapped", "C18, C59")
m("M146", S, "FM.Parser.contextual", "else if isNamed c!\"continue\" token then return", "else if isNamed c!\"continue\" token || isNamed c!\"skip\" token then return", "`skip` taken as `continue`", "C50, C59")
m("M147", S, "FM.Parser.elsePart", "    | .value b => return some (token, b)", "    | .value b => if b.stmts.isEmpty && b.last.isNone then return none else return some (token, b)", "an empty `else` dropped", "C18, C21")
m("M148", E, "FM.Parser.doubleBrace", "      tokenError b \"unexpected double brace, try \\\\{ if you meant to escape\"\n", "", "`{{` accepted in interpolated strings, its second brace dropped", "C18, C20")
m("M149", Q, "FM.Parser.mainStep", "  | .recovered _ _ :: _ => moreStatements c hasLast s", "  | .recovered t es :: rest => if t.isEof then .ok (.stop s) else .ok (.next { s with toks := rest, errs := s.errs ++ es.map .tokenizer })", "tokens with errors skipped between statements", "C58: tokens lost without being counted")
m("M150", L, "FM.hexLoop", "else if (ch = 'p' || ch = 'P') && c.lua52 then", "else if (ch = 'p' || ch = 'P') && c.lua52 && !c.lua54 then", "binary exponents no longer read in Lua 5.4", "C60, C51")
m("M151", L, "FM.stringLoop", "(if c.lua52 || c.luau then true else z)", "(if (c.lua52 && !c.lua53) || c.luau then true else z)", "`\\z` forgotten in Lua 5.3", "C60, C51")
m("M152", S, "FM.Parser.parseStmt", "else if (c.lua52 || c.luajit) && is .twoColons t then labelStmt c", "else if ((c.lua52 && !c.lua53) || c.luajit) && is .twoColons t then labelStmt c", "labels refused in Lua 5.3", "C60, C50")
T = "Parser/Types.lean"
PR = ["Verif.Props.Recovery"]
LU = ["Verif.Props.Complete", "Verif.Props.Parsed", "Verif.Props.Nesting", "Verif.Props.Kept"]
def mt(id, file, d, old, new, edit, claim, targets):
    m(id, file, d, old, new, edit, claim, [])
    M[-1]["targets"] = targets
mt("M153", Q, "FM.Parser.lastUnexpected", "  | some (.ast _ additional _) => additional == unexpectedToken", "  | some (.ast _ _ _) => false", "the last error is never taken for one about a stray token", "C68: stray tokens in a row are reported once", PR)
mt("M154", Q, "FM.Parser.skipToken", "    if t.isEof then .ok (.stop s)\n    else if lastUnexpected s.errs", "    if lastUnexpected s.errs", "the end of the file is not looked for before a token is skipped", "C68: never about the end of the file", PR)
mt("M155", Q, "FM.Parser.skipToken", "errs := s.errs ++ [.ast t.token unexpectedToken none] })", "errs := s.errs ++ [.ast errorToken.token unexpectedToken none] })", "the error names a made up token", "C68: about tokens of the source", PR)
mt("M156", Q, "FM.Parser.lateStatement", ".ok [.ast t.token \"unexpected statement after last statement\" none]", ".ok [.ast t.token unexpectedToken none]", "the wrong message for a statement behind the last one", "C68: stray tokens in a row are reported once", PR)
mt("M157", R, "FM.Parser.require", "  | .other t => tokenError t msg; return none", "  | .other t => tokenError t \"\"; return none", "the message of a missing token is lost", "C68: every error has a message", PR)
mt("M158", Q, "FM.Parser.skipToken", "errs := s.errs ++ [.ast t.token unexpectedToken none] })\n  | .recovered", "errs := .ast t.token unexpectedToken none :: s.errs })\n  | .recovered", "the error is put in front of the others", "C68: in the order of the source", PR)
mt("M159", "Errors.lean", "FM.TokErr.display", "decimal e.range.1.line ++ c!\":\" ++ decimal e.range.1.character ++ c!\" to \"", "decimal e.range.1.character ++ c!\":\" ++ decimal e.range.1.line ++ c!\" to \"", "line and character swapped when printing", "C53: what is printed says where the error is", ["Verif.Props.Errors"])
mt("M160", "Errors.lean", "FM.Parser.Err.display", "  | .tokenizer e => c!\"error occurred while tokenizing: \" ++ e.display", "  | .tokenizer e => c!\"error occurred while tokenizing: \" ++ e.error.display", "positions not printed", "C53: what is printed says where the error is", ["Verif.Props.Errors"])
mt("M161", "Token.lean", "FM.Token.cmp", "def Token.cmp (a b : Token) : Ordering := a.start.cmp b.start", "def Token.cmp (a b : Token) : Ordering := b.start.cmp a.start", "tokens compared the wrong way round", "C38: tokens are ordered as in the source", ["Verif.Props.Order"])
mt("M162", "Token.lean", "FM.Position.cmp", "compare a.bytes b.bytes", "compare a.line b.line", "positions compared by line only", "C38: tokens are ordered as in the source", ["Verif.Props.Order"])
mt("M163", "Config.lean", "FM.LuaVersion.only", "  | .lua54 => ⟨Ver.lua52.bit ||| Ver.lua53.bit ||| Ver.lua54.bit⟩", "  | .lua54 => ⟨Ver.lua52.bit ||| Ver.lua54.bit⟩", "Lua 5.4 without 5.3", "C17: later versions include the earlier ones", ["Verif.Props.Versions"])
mt("M164", "Config.lean", "FM.LuaVersion.default", "Ver.lua54.bit ||| Ver.luajit.bit⟩", "Ver.lua54.bit⟩", "LuaJIT forgotten in the default version", "C17: the default has all versions but CfxLua", ["Verif.Props.Versions"])
mt("M165", "Config.lean", "FM.LuaVersion.has", "  f.has v && (a.bitfield &&& v.bit != 0#8)", "  (a.bitfield &&& v.bit != 0#8)", "a version is active although its feature is not compiled", "C17: a version is only active with its feature", ["Verif.Props.Versions"])
mt("M166", "Ast/Node.lean", "FM.Node.surroundingTrivia", "(b.1.map TokRef.trailing).getD []", "(b.1.map TokRef.leading).getD []", "leading trivia of the last token instead of trailing", "C39: surrounding trivia", ["Verif.Props.Trees", "Verif.Props.Parsed"])
mt("M167", "Ast/Node.lean", "FM.Tokens.backF", "Tokens.backF fuel (n.items.reverse ++ ts)", "Tokens.backF fuel (n.items ++ ts)", "iterating from the back goes through nodes from the front", "C26: tokens from the back are those from the front reversed", ["Verif.Props.Trees"])
mt("M168", "Ast/Node.lean", "FM.Node.range", "  | some a, some b => some (a, b)\n  | _, _ => none", "  | some a, some b => some (b, a)\n  | _, _ => none", "start and end of a range swapped", "C27: the range of a node", ["Verif.Props.Trees", "Verif.Props.Parsed"])
mt("M169", "Ast/Node.lean", "FM.Node.similars", "c.similar c' && Node.similars cs cs'\n  | _, _ => false", "c.similar c' && Node.similars cs cs'\n  | _, _ => true", "lists are compared up to the shorter one (zip)", "C28: similar nodes", ["Verif.Props.Trees"])
mt("M170", "Punctuated.lean", "FM.Pair.map", "def map (f : α → β) : Pair α → Pair β\n  | .end v => .end (f v)\n  | .punctuated v p => .punctuated (f v) p", "def map (f : α → β) : Pair α → Pair β\n  | .end v => .end (f v)\n  | .punctuated v _ => .end (f v)", "map drops the punctuation", "C33: map keeps punctuation", ["Verif.Props.Punctuated"])
mt("M171", "Punctuated.lean", "FM.Punctuated.push", "⟨p.pairs ++ [pair]⟩", "⟨pair :: p.pairs⟩", "push at the front", "C33: push appends", ["Verif.Props.Punctuated"])
mt("M172", "Api.lean", "FM.TokenType.tabs", "(List.replicate n '\\t')", "(List.replicate (n + 1) '\\t')", "one tab too many", "C58: spaces and tabs", ["Verif.Props.Api"])
mt("M173", "Api.lean", "FM.joinVec", "string ++ show_ item", "show_ item ++ string", "items joined in reverse", "C58: joining", ["Verif.Props.Api"])
mt("M174", "Token.lean", "FM.LexRes.new", "if errors.isEmpty then .ok a else .recovered a errors", "if errors.length ≤ 1 then .ok a else .recovered a errors", "a single error is lost", "C58: results say whether there were errors", ["Verif.Props.Api", "Verif.Props.Tokenizer"])
mt("M175", T, "FM.Parser.tableAccess", "    if ← peekIs (is .colon) then return none", "    if ← peekIs (is .comma) then return none", "`read` as a name of a field is taken as the access modifier", "C50: Luau programs are accepted", LU)
mt("M176", T, "FM.Parser.suffixLoop", "        else if is .ampersand t then\n          if x.isUnion then\n            tokenError t \"cannot mix union and intersection types\"\n            return .moved\n          else\n            let p ← take", "        else if is .ampersand t then\n          if false then\n            tokenError t \"cannot mix union and intersection types\"\n            return .moved\n          else\n            let p ← take", "unions and intersections can be mixed", "C21: parsing does not panic (the end of parse_type_suffix does)", ["Verif.Props.Parsing"])
mt("M177", T, "FM.Parser.moduleType", "return .value (.node .tyModule [.tok name, .tok punctuation, .node .idxBasic [.tok base]])", "return .value (.node .tyModule [.tok base, .tok punctuation, .node .idxBasic [.tok name]])", "module and type swapped", "C18: what is accepted is printed back", ["Verif.Props.Source", "Verif.Props.Kept"])
mt("M178", T, "FM.Parser.attributesLoop", "attributesLoop n (attributes ++ [.node .luauAttr [.tok at_, .tok name]])", "attributesLoop n [.node .luauAttr [.tok at_, .tok name]]", "only the last attribute is kept", "C18: what is accepted is printed back", ["Verif.Props.Source", "Verif.Props.Kept"])
mt("M179", T, "FM.Parser.argumentName", "    if ← peekIs (is .colon) then\n      let name ← take", "    if ← peekIs (is .comma) then\n      let name ← take", "`a: T` in a function type not recognised", "C50: Luau programs are accepted", LU)
mt("M180", T, "FM.Parser.forceNameWithAttributes", "  if c.lua54 || c.cfxlua then", "  if c.lua54 then", "CfxLua forgotten (equivalent: it implies 5.4)", "none", ["Verif.Props.Complete"])
M = [x for x in M if x["old"] is not None]
PB = ["Verif.Props.Before"]
mt("M181", Q, "FM.Parser.Blk.merge", "⟨b.stmts ++ other.stmts, b.last.or other.last⟩", "⟨other.stmts ++ b.stmts, b.last.or other.last⟩", "merged blocks in the wrong order", "C69: the tree starts with the statements in front of the error", PB)
mt("M182", Q, "FM.Parser.moreStatements", ".ok (.next ⟨s.val.merge b, r.toks", ".ok (.next ⟨b, r.toks", "the statements so far replaced by the new ones", "C69: statements are only added", PB)
mt("M183", S, "FM.Parser.blockLoop", "    | .moved => if stmts.isEmpty then return .moved else blockEnd self stmts", "    | .moved => return .moved", "a statement that cannot be finished drops the ones before it", "C69: statements in front of an error are kept", PB)
mt("M184", Q, "FM.Parser.skipToken", "    else .ok (.next { s with toks := rest, errs := s.errs ++ [.ast t.token unexpectedToken none] })\n  | .recovered", "    else .ok (.next { s with val := ⟨s.val.stmts.dropLast, s.val.last⟩, toks := rest, errs := s.errs ++ [.ast t.token unexpectedToken none] })\n  | .recovered", "the statement in front of a stray token is dropped", "C69: statements in front of an error are kept", PB)
mt("M185", S, "FM.Parser.blockEnd", "  | _ => return .value ⟨stmts, none⟩", "  | _ => return .value ⟨stmts.dropLast, none⟩", "the last statement of a block without a last statement is dropped", "C69, C50", PB)
mt("M186", S, "FM.Parser.blockLoop", "blockLoop self c n (stmts ++ [(s, semicolon)])", "blockLoop self c n (stmts ++ [(s, none)])", "semicolons are read but not kept", "C69: exactly the statements, with their semicolons", PB)
PL = ["Verif.Props.Alike"]
mt("M187", "Parser/State.lean", "FM.TokRef.isIdent", "t.token.type.kind == .identifier", "t.token.type.kind == .identifier && t.token.type != .identifier c!\"self\"", "a name is not taken for a name", "C70: it does not matter which name it is", PL)
mt("M188", "Parser/State.lean", "FM.TokRef.isNumber", "t.token.type.kind == .number", "t.token.type.kind == .number && t.token.type != .number c!\"0\"", "the number 0 is not taken for a number", "C70: it does not matter which number it is", PL)
mt("M189", "Parser/State.lean", "FM.TokRef.isString", "t.token.type.kind == .stringLiteral", "t.token.type.kind == .stringLiteral && t.token.display.length != 2", "the empty string is not taken for a string", "C70: it does not matter which string it is", PL)
mt("M190", Q, "FM.Parser.skipToken", "    else if lastUnexpected s.errs then .ok (.next { s with toks := rest })", "    else if lastUnexpected s.errs || t.token.type == .number c!\"0\" then .ok (.next { s with toks := rest })", "some stray numbers are not reported", "C70: the errors are at the same tokens", PL)
mt("M191", S, "FM.Parser.isNamed", "t.token.type == .identifier name", "t.token.type == .identifier name || t.token.type == .identifier c!\"goto\"", "another name means something", "C70: only the six names mean something", PL)
FE = ["Verif.Props.FirstError", "Verif.Props.References"]
mt("M192", "Lexer.lean", "FM.readTilde", "    else (.fatal [⟨.invalidSymbol ['~'], (start, s.pos)⟩], s)", "    else (.fatal [⟨.invalidSymbol ['~'], (s.pos, s.pos)⟩], s)", "the error about ~ starts after it", "C71: the first error starts where no token can be read", FE)
mt("M193", "Lexer.lean", "FM.commentToken", "[⟨.unclosedComment, (start, r.2.2.pos)⟩]", "[⟨.unclosedComment, (r.2.2.pos, r.2.2.pos)⟩]", "the error about an unclosed comment starts at its end", "C71: the first error starts where no token can be read", FE)
mt("M194", "Lexer.lean", "FM.leadingLoop", "        let errors := some (errors.getD [] ++ es)", "        let errors := some es", "the error of a comment is lost when the next token has one", "C71: the first error is the first place", FE)
mt("M195", "Lexer.lean", "FM.leadingLoop", "        if t.type.isTrivia then leadingLoop c fuel l' (leading ++ [t]) errors\n        else .ok (.token leading t errors, l')\n      | (some (.fatal es)", "        if t.type.isTrivia then leadingLoop c fuel l' (leading ++ [t]) none\n        else .ok (.token leading t errors, l')\n      | (some (.fatal es)", "errors of trivia are dropped when more trivia follow", "C71: the tokenizer reports an error where no token can be read", FE)
mt("M196", "Errors.lean", "FM.TokErr.position", "def TokErr.position (e : TokErr) : Position := e.range.1", "def TokErr.position (e : TokErr) : Position := e.range.2", "position is where the error ends", "C71: the position of the first error", FE)
mt("M197", "Token.lean", "FM.TokRef.withToken", "{ t with token := k }", "{ t with token := k, trailing := [] }", "with_token drops the trailing trivia", "C48: what is printed around the token stays", FE)
mt("M198", "Punctuated.lean", "FM.Punctuated.extend", "⟨p.pairs ++ more⟩", "⟨more ++ p.pairs⟩", "extend puts the pairs in front", "C33: extending is pushing", FE)
mt("M199", "Token.lean", "FM.TokRef.cmp", "def TokRef.cmp (a b : TokRef) : Ordering := a.token.cmp b.token", "def TokRef.cmp (a b : TokRef) : Ordering := ((a.leading.head?.getD a.token).cmp b.token).swap", "references compared the wrong way round", "C38: references are ordered as in the source", FE)
CO = ["Verif.Props.Constructed"]
mt("M200", "Ast/Build.lean", "FM.Build.compoundAssignment", ".node .compoundAssignment [lhs, op, rhs]", ".node .compoundAssignment [rhs, op, lhs]", "sides of a compound assignment swapped", "C49: constructors make nodes of the grammar", CO)
mt("M201", "Ast/Build.lean", "FM.Build.typeUnion", ".node .typeUnion [leading, types]", ".node .typeUnion [.node .absent [], types]", "the leading | of a union is dropped", "C49: constructors make nodes of the grammar", CO)
mt("M202", "Ast/Build.lean", "FM.Build.interpString", ".node .interpString [segments, .tok last]", ".node .interpString [noVec, .tok last]", "the segments of an interpolated string are dropped", "C49: constructors make nodes of the grammar", CO)
mt("M203", "Errors.lean", "FM.Parser.Err.message", "  | .tokenizer e => e.display", "  | .tokenizer e => e.error.display", "the message of a tokenizer error without its position", "C53: what is printed ends with the message", ["Verif.Props.Errors"])
NA = ["Verif.Props.Naming"]
mt("M204", "Ast/Naming.lean", "FM.snakeRest", "'_' :: lower ch :: snakeRest r", "lower ch :: snakeRest r", "no underscore before a capital", "C72: types with different names call different hooks", NA)
mt("M205", "Ast/Naming.lean", "FM.hookEndOf", "++ s ++ c!\"_end\")", "++ s)", "the hook called last has no suffix", "C72: the hooks called first are not those called last", NA)
mt("M206", "Ast/Naming.lean", "FM.lower", "Char.ofNat (ch.toNat + 32)", "Char.ofNat ((ch.toNat - 65) % 16 + 97)", "some capitals become the same letter", "C72: types with different names call different hooks", NA)
mt("M207", "Ast/Naming.lean", "FM.declaredHooks", "(c!\"visit_type_field\", c!\"TypeField\")", "(c!\"visit_type_field\", c!\"TypeFieldKey\")", "a hook declared for another type", "C72: the hooks are declared for their types", NA)
json.dump(M, open("/verif/tools/mutants.json", "w"), indent=1, ensure_ascii=False)
