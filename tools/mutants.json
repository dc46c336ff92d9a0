[
 {
  "id": "M01",
  "file": "Model/Lexer.lean",
  "def": "FM.identLoop",
  "old": "if isIdentStart ch || isDigit ch then identLoop",
  "new": "if isIdentStart ch then identLoop",
  "edit": "identifiers stop at digits",
  "claim": "C10: `x1` is one identifier token",
  "tightened": []
 },
 {
  "id": "M02",
  "file": "Model/Lexer.lean",
  "def": "FM.wsLoop",
  "old": "(acc ++ [ch], ⟨e.bytes + ch.utf8Size, e.line, e.character⟩, ⟨r, p.advance ch⟩)",
  "new": "(acc ++ [ch], ⟨e.bytes + ch.utf8Size, e.line + 1, 1⟩, ⟨r, p.advance ch⟩)",
  "edit": "whitespace ends on the next line",
  "claim": "C03: end positions",
  "tightened": []
 },
 {
  "id": "M03",
  "file": "Model/Lexer.lean",
  "def": "FM.wsLoop",
  "old": "(acc ++ [ch, '\\n'],",
  "new": "(acc ++ ['\\n'],",
  "edit": "carriage return dropped from whitespace",
  "claim": "C01: tokenizing is lossless",
  "tightened": []
 },
 {
  "id": "M04",
  "file": "Model/Lexer.lean",
  "def": "FM.numberLoop",
  "old": "if hit then eatInvalidNumber start (ch :: r) p number\n      else numberLoop",
  "new": "if false then eatInvalidNumber start (ch :: r) p number\n      else numberLoop",
  "edit": "second decimal point accepted",
  "claim": "C15: at most one point in a number",
  "tightened": []
 },
 {
  "id": "M05",
  "file": "Model/Lexer.lean",
  "def": "FM.stringLoop",
  "old": "else if next = quote then (lit, false, ⟨r, p.advance next⟩)",
  "new": "else if next = quote then (lit ++ [next], false, ⟨r, p.advance next⟩)",
  "edit": "closing quote kept in the literal",
  "claim": "C01, C02: tokens print as the source",
  "tightened": []
 },
 {
  "id": "M06",
  "file": "Model/Lexer.lean",
  "def": "FM.closeEqLoop",
  "old": "  | 0, r, p => (0, ⟨r, p⟩)\n  | _ + 1, [], p",
  "new": "  | 0, r, p => (0, ⟨r.tail, p⟩)\n  | _ + 1, [], p",
  "edit": "one character skipped after the closing equal signs",
  "claim": "C01, C13",
  "tightened": []
 },
 {
  "id": "M07",
  "file": "Model/Lexer.lean",
  "def": "FM.bodyLoop",
  "old": "if n < blocks then\n        bodyLoop",
  "new": "if n + 1 < blocks then\n        bodyLoop",
  "edit": "long brackets close with one equal sign too few",
  "claim": "C13: a long bracket ends at the first closing bracket of its level",
  "tightened": []
 },
 {
  "id": "M08",
  "file": "Model/Lexer.lean",
  "def": "FM.lineLoop",
  "old": "if ch = '\\n' then (comment, ⟨ch :: r, p⟩) else",
  "new": "if ch = '\\n' then (comment ++ [ch], ⟨r, p.advance ch⟩) else",
  "edit": "newline made part of a line comment",
  "claim": "C09: newlines belong to whitespace (comment text)",
  "tightened": []
 },
 {
  "id": "M09",
  "file": "Model/Lexer.lean",
  "def": "FM.readTilde",
  "old": "if c.hasAny [.lua53] then symTok start .tilde s",
  "new": "if c.hasAny [] then symTok start .tilde s",
  "edit": "`~` available in every version",
  "claim": "C12: symbols of inactive versions are not produced",
  "tightened": []
 },
 {
  "id": "M10",
  "file": "Model/Lexer.lean",
  "def": "FM.readDot",
  "old": "if headIs isDigit s.rest then readNumber c start ['.'] s",
  "new": "if headIs isDigit s.rest then readNumber c start [] s",
  "edit": "point dropped from `.5`",
  "claim": "C01, C02",
  "tightened": []
 },
 {
  "id": "M11",
  "file": "Model/Lexer.lean",
  "def": "FM.processNext",
  "old": "else .ok (some (.ok ⟨start, start, .eof⟩), { l with sentEof := true })",
  "new": "else .ok (some (.ok ⟨start, start, .eof⟩), l)",
  "edit": "Eof not remembered",
  "claim": "C05, C06: Eof once; termination",
  "tightened": []
 },
 {
  "id": "M12",
  "file": "Model/Lexer.lean",
  "def": "FM.collectTrailing",
  "old": "if t.type.endsLine then .ok ([t], l')",
  "new": "if false then .ok ([t], l')",
  "edit": "trailing trivia runs over the end of the line",
  "claim": "C09: trailing trivia ends with the line",
  "tightened": []
 },
 {
  "id": "M13",
  "file": "Model/Lexer.lean",
  "def": "FM.collectTrailing",
  "old": "else .ok ([], { l' with src := l.src, sentEof := l.sentEof })\n        | (_, l')",
  "new": "else .ok ([], l')\n        | (_, l')",
  "edit": "position not reset after a token that is not trivia",
  "claim": "C01: nothing is lost",
  "tightened": []
 },
 {
  "id": "M14",
  "file": "Model/Lexer.lean",
  "def": "FM.leadingLoop",
  "old": "let errors := some (errors.getD [] ++ es)\n        if t.type.isTrivia then leadingLoop c fuel l' (leading ++ [t]) errors",
  "new": "let errors := some es\n        if t.type.isTrivia then leadingLoop c fuel l' (leading ++ [t]) none",
  "edit": "errors of an unclosed comment forgotten",
  "claim": "C14, C20: errors are reported",
  "tightened": []
 },
 {
  "id": "M15",
  "file": "Model/Lexer.lean",
  "def": "FM.Lexer.consume",
  "old": ".ok (some n, ⟨l, x.peeked, p⟩)",
  "new": ".ok (some n, ⟨l, p, x.peeked⟩)",
  "edit": "current and peeked token swapped",
  "claim": "C08: streaming API is a cursor",
  "tightened": []
 },
 {
  "id": "M16",
  "file": "Model/Lexer.lean",
  "def": "FM.readSection",
  "old": "{ l with src := s, braces := .interpolatedString :: l.braces })\n  | (lit, .backtick",
  "new": "{ l with src := s })\n  | (lit, .backtick",
  "edit": "opening brace of an interpolation not remembered",
  "claim": "C41: sections nest",
  "tightened": []
 },
 {
  "id": "M17",
  "file": "Model/Token.lean",
  "def": "FM.TokenType.display",
  "old": "c!\"[\" ++ List.replicate depth '=' ++ c!\"[\" ++ literal ++ c!\"]\" ++ List.replicate depth '=' ++ c!\"]\"\n    else",
  "new": "c!\"[\" ++ List.replicate depth '=' ++ c!\"[\" ++ literal ++ c!\"]]\"\n    else",
  "edit": "long strings close without equal signs",
  "claim": "C01",
  "tightened": []
 },
 {
  "id": "M18",
  "file": "Model/Token.lean",
  "def": "FM.TokRef.display",
  "old": "t.leading.flatMap Token.display ++ t.token.display ++ t.trailing.flatMap Token.display",
  "new": "t.leading.flatMap Token.display ++ t.token.display",
  "edit": "trailing trivia not printed",
  "claim": "C01",
  "tightened": []
 },
 {
  "id": "M20",
  "file": "Model/Punctuated.lean",
  "def": "FM.Punctuated.pushPunctuated",
  "old": "((p.push (.punctuated lastPair.intoValue punctuation)).push (.new value none))",
  "new": "((p.push (.punctuated value punctuation)).push (.new lastPair.intoValue none))",
  "edit": "values swapped",
  "claim": "C34: push_punctuated",
  "tightened": []
 },
 {
  "id": "M21",
  "file": "Model/Punctuated.lean",
  "def": "FM.Punctuated.pop",
  "old": "(p.pairs.getLast?, ⟨p.pairs.dropLast⟩)",
  "new": "(p.pairs.head?, ⟨p.pairs.tail⟩)",
  "edit": "pop takes the first pair",
  "claim": "C33",
  "tightened": []
 },
 {
  "id": "M22",
  "file": "Model/Punctuated.lean",
  "def": "FM.Punctuated.forEachMut",
  "old": "⟨p.pairs.map (Pair.modifyValue f)⟩",
  "new": "⟨p.pairs.dropLast.map (Pair.modifyValue f) ++ p.pairs.getLast?.toList⟩",
  "edit": "the last value is not visited",
  "claim": "C33: iter_mut",
  "tightened": []
 },
 {
  "id": "M23",
  "file": "Model/Ast/Operators.lean",
  "def": "FM.BinOp.level",
  "old": "| .ampersand => 6\n  | .tilde => 5",
  "new": "| .ampersand => 5\n  | .tilde => 6",
  "edit": "precedences of `&` and `~` swapped",
  "claim": "C24",
  "tightened": []
 },
 {
  "id": "M24",
  "file": "Model/Ast/Operators.lean",
  "def": "FM.BinOp.isRightAssociativeToken",
  "old": "|| t.token.type == .symbol .twoDots",
  "new": "",
  "edit": "`..` not right associative for tokens",
  "claim": "C24",
  "tightened": []
 },
 {
  "id": "M25",
  "file": "Model/Ast/Operators.lean",
  "def": "FM.BinOp.accept",
  "old": "if c.hasAny o.gates then some o else none",
  "new": "some o",
  "edit": "operators of inactive versions accepted",
  "claim": "C24",
  "tightened": []
 },
 {
  "id": "M27",
  "file": "Model/Ast/Node.lean",
  "def": "FM.Node.similar",
  "old": "| .tok a, .tok b => a.token.type == b.token.type",
  "new": "| .tok a, .tok b => a.token.type.kind == b.token.type.kind",
  "edit": "tokens compared by kind only",
  "claim": "C28: similar trees have the same token types",
  "tightened": []
 },
 {
  "id": "M28",
  "file": "Model/Ast/Node.lean",
  "def": "FM.Ends.lastStop",
  "old": "| e :: es => (Ends.lastStop es).or e.stop",
  "new": "| e :: es => e.stop.or (Ends.lastStop es)",
  "edit": "end of the first field",
  "claim": "C27: range",
  "tightened": []
 },
 {
  "id": "M29",
  "file": "Model/Ast/Node.lean",
  "def": "FM.Ends.maxStop",
  "old": "some (if x.bytes ≤ y.bytes then y else x)",
  "new": "some (if x.bytes ≤ y.bytes then x else y)",
  "edit": "minimum instead of maximum",
  "claim": "C27: range of a statement with its semicolon",
  "tightened": []
 },
 {
  "id": "M30",
  "file": "Model/Ast/Visit.lean",
  "def": "FM.TokRef.visitMut",
  "old": "let trailing ← visitTokens v t.trailing\n",
  "new": "let trailing := t.trailing\n",
  "edit": "trailing trivia not visited",
  "claim": "C31, C32",
  "tightened": []
 },
 {
  "id": "M31",
  "file": "Model/Ast/Visit.lean",
  "def": "FM.TokRef.visitMut",
  "old": "let leading ← visitTokens v t.leading\n  let token ← t.token.visitMut v",
  "new": "let token ← t.token.visitMut v\n  let leading ← visitTokens v t.leading",
  "edit": "the token is visited before its leading trivia",
  "claim": "C31: order of visits; C32",
  "tightened": []
 },
 {
  "id": "M32",
  "file": "Model/Ast/Visit.lean",
  "def": "FM.Ast.visit",
  "old": "a.nodes.visit ++ a.eof.visit",
  "new": "a.nodes.visit",
  "edit": "Eof not visited",
  "claim": "C30, C42",
  "tightened": []
 },
 {
  "id": "M16b",
  "file": "Model/Lexer.lean",
  "def": "FM.readSection",
  "old": "{ l with src := s, braces := .interpolatedString :: l.braces })\n  | (lit, .backtick",
  "new": "{ l with src := s })\n  | (lit, .backtick",
  "edit": "opening brace of an interpolation not remembered (again, after C41 was tightened)",
  "claim": "C41: sections nest",
  "tightened": [
   "sections_nest",
   "brace_closes_brace"
  ]
 },
 {
  "id": "M31b",
  "file": "Model/Ast/Visit.lean",
  "def": "FM.TokRef.visitMut",
  "old": "let leading ← visitTokens v t.leading\n  let token ← t.token.visitMut v",
  "new": "let token ← t.token.visitMut v\n  let leading ← visitTokens v t.leading",
  "edit": "the token is visited before its leading trivia (again, after C31 was tightened)",
  "claim": "C31: order of visits",
  "tightened": [
   "token_visitor_in_order"
  ]
 },
 {
  "id": "M33",
  "file": "Model/Parser/Expr.lean",
  "def": "FM.Parser.rhsLoop",
  "old": "(if level < next then level + 1 else level)",
  "new": "(level + 1)",
  "edit": "right associative operators climb one level higher",
  "claim": "C23, C44: `a ^ b ^ c` and `a .. b .. c` group to the right",
  "tightened": []
 },
 {
  "id": "M34",
  "file": "Model/Parser/Expr.lean",
  "def": "FM.Parser.parseUnary",
  "old": "self.climb e UnOp.precedence",
  "new": "self.climb e 0",
  "edit": "unary operators take the whole rest of the expression",
  "claim": "C23: unary operators bind tighter than `*`",
  "tightened": []
 },
 {
  "id": "M35",
  "file": "Model/Parser/Expr.lean",
  "def": "FM.Parser.climbLoop",
  "old": "if level < precedence then return .value lhs",
  "new": "if level ≤ precedence then return .value lhs",
  "edit": "wrong boundary in precedence climbing",
  "claim": "C44: `a * b` inside a higher level is still read; operators of level 0 (`or`)",
  "tightened": []
 },
 {
  "id": "M36",
  "file": "Model/Parser/Expr.lean",
  "def": "FM.Parser.parsePrefix",
  "old": "return .value (.expr (.node .exprParens [span left right, e]))",
  "new": "return .value (.expr e)",
  "edit": "parentheses around an expression are thrown away",
  "claim": "C18, C19, C43",
  "tightened": []
 },
 {
  "id": "M37",
  "file": "Model/Parser/Expr.lean",
  "def": "FM.Parser.ctorLoop",
  "old": "takeIf (fun t => is .comma t || is .semicolon t)",
  "new": "takeIf (fun t => is .comma t)",
  "edit": "`;` does not separate table fields",
  "claim": "C44: every program of the grammar is accepted",
  "tightened": []
 },
 {
  "id": "M38",
  "file": "Model/Parser/Expr.lean",
  "def": "FM.Parser.parseArguments",
  "old": "else if t.isString then return .value (.node .argsString [.tok (← take)])\n    else return .notFound",
  "new": "else return .notFound",
  "edit": "calls with a string argument not parsed",
  "claim": "C44; parse_suffix relies on it (C21)",
  "tightened": []
 },
 {
  "id": "M39",
  "file": "Model/Parser/Expr.lean",
  "def": "FM.Parser.expectExpressionKey",
  "old": "[span left right, key, .tok equal, value]",
  "new": "[span left right, value, .tok equal, key]",
  "edit": "key and value of a table field swapped",
  "claim": "C18, C19: tokens in order",
  "tightened": []
 },
 {
  "id": "M40",
  "file": "Model/Parser/Expr.lean",
  "def": "FM.Parser.paramsLoop",
  "old": "| none => closeParams (parameters.push (.end parameter)) types",
  "new": "| none => closeParams parameters types",
  "edit": "the last parameter of a function is dropped",
  "claim": "C18, C19",
  "tightened": []
 },
 {
  "id": "M41",
  "file": "Model/Parser/Stmt.lean",
  "def": "FM.Parser.functionNameLoop",
  "old": "else if is .colon middle then return .value (functionNameNode names (some (middle, name)))",
  "new": "else if is .colon middle then return .value (functionNameNode names none)",
  "edit": "the method name of a function is dropped",
  "claim": "C18, C19",
  "tightened": []
 },
 {
  "id": "M42",
  "file": "Model/Parser/Stmt.lean",
  "def": "FM.Parser.parseStmt",
  "old": "else if is .kRepeat t then expectRepeat self c (← take)\n",
  "new": "",
  "edit": "`repeat` not recognised",
  "claim": "C44",
  "tightened": []
 },
 {
  "id": "M43",
  "file": "Model/Parser/Stmt.lean",
  "def": "FM.Parser.expectRepeat",
  "old": "[.tok repeat_, b.node, .tok until_, e]",
  "new": "[.tok repeat_, Blk.empty.node, .tok until_, e]",
  "edit": "the body of `repeat` is dropped",
  "claim": "C18, C19",
  "tightened": []
 },
 {
  "id": "M44",
  "file": "Model/Parser/Stmt.lean",
  "def": "FM.Parser.elseIfLoop",
  "old": "(parts ++ [.node .elseIf [.tok token, condition', .tok then_, b.node]])",
  "new": "([.node .elseIf [.tok token, condition', .tok then_, b.node]] ++ parts)",
  "edit": "`elseif` parts in reverse order",
  "claim": "C18, C19",
  "tightened": []
 },
 {
  "id": "M45",
  "file": "Model/Parser/Stmt.lean",
  "def": "FM.Parser.numericForRest",
  "old": "optTok (step.map (·.1)), optNode (step.map (·.2))",
  "new": "optTok none, optNode none",
  "edit": "the step of a numeric `for` is dropped",
  "claim": "C18, C19",
  "tightened": []
 },
 {
  "id": "M46",
  "file": "Model/Parser/Stmt.lean",
  "def": "FM.Parser.varsLoop",
  "old": "          tokenError t \"can't assign to the result of a call\"\n          return some vars",
  "new": "          match vars.pushPunctuated (varNode p suffixes) comma with\n          | .returned _ vars => varsLoop self c n vars\n          | .panicked _ => panic",
  "edit": "`a, f() = 1` accepted",
  "claim": "C43: accepted sources conform to the grammar",
  "tightened": []
 },
 {
  "id": "M47",
  "file": "Model/Parser/Stmt.lean",
  "def": "FM.Parser.parseLastStmt",
  "old": "return .value (.node .lastBreak [.tok t], ← consumeIf .semicolon)",
  "new": "return .value (.node .lastBreak [.tok t], none)",
  "edit": "`;` after `break` not consumed",
  "claim": "C44",
  "tightened": []
 },
 {
  "id": "M48",
  "file": "Model/Parser/Stmt.lean",
  "def": "FM.Parser.gotoStmt",
  "old": "(.node .gotoStmt [.tok token, .tok name])",
  "new": "(.node .gotoStmt [.tok name, .tok token])",
  "edit": "label printed before `goto`",
  "claim": "C18, C19",
  "tightened": []
 },
 {
  "id": "M49",
  "file": "Model/Parser/Stmt.lean",
  "def": "FM.Parser.labelStmt",
  "old": "match ← require .twoColons \"expected `::` after label\" with",
  "new": "match ← consumeIf .twoColons with",
  "edit": "a label without closing `::` accepted silently",
  "claim": "C36/C37: an Ast of an accepted source has no invented tokens; C43",
  "tightened": []
 },
 {
  "id": "M50",
  "file": "Model/Parser/Parse.lean",
  "def": "FM.Parser.lateStatement",
  "old": "if hasLast then",
  "new": "if false then",
  "edit": "statements after the last statement accepted",
  "claim": "C35, C43",
  "tightened": []
 },
 {
  "id": "M51",
  "file": "Model/Parser/Parse.lean",
  "def": "FM.Parser.Blk.merge",
  "old": "⟨b.stmts ++ other.stmts, b.last.or other.last⟩",
  "new": "⟨other.stmts ++ b.stmts, b.last.or other.last⟩",
  "edit": "later statements in front",
  "claim": "C18, C19",
  "tightened": []
 },
 {
  "id": "M52",
  "file": "Model/Parser/State.lean",
  "def": "FM.Parser.dropTrailing",
  "old": "    tokenError p msg\n    return rest.push (.end v)",
  "new": "    return rest.push (.end v)",
  "edit": "trailing commas dropped silently",
  "claim": "C18, C19, C43",
  "tightened": []
 },
 {
  "id": "M53",
  "file": "Model/Parser/State.lean",
  "def": "FM.Parser.oneOrMore",
  "old": "else return .value (← dropTrailing \"trailing commas are not allowed\" values)",
  "new": "else return .value values",
  "edit": "trailing commas accepted",
  "claim": "C43",
  "tightened": []
 },
 {
  "id": "M54",
  "file": "Model/Parser/Expr.lean",
  "def": "FM.Parser.parseSuffix",
  "old": "else if is .leftParen t || is .leftBrace t || t.isString then callSuffix self c",
  "new": "else if (t.leading.isEmpty && is .leftParen t) || is .leftBrace t || t.isString then callSuffix self c",
  "edit": "a call must be on the line of its function",
  "claim": "C45: formatting does not influence parsing; C44",
  "tightened": []
 },
 {
  "id": "M55",
  "file": "Model/Parser/Types.lean",
  "def": "FM.Parser.genericListParam",
  "old": "if seenPack || is .ellipsis t then",
  "new": "if is .ellipsis t then",
  "edit": "generic types accepted after generic packs",
  "claim": "C43 with Luau",
  "tightened": []
 },
 {
  "id": "M57",
  "file": "Model/Parser/Types.lean",
  "def": "FM.Parser.suffixLoop",
  "old": "suffixLoop self c n { x with isUnion := true } (some (.node .tyOptional [ty, .tok q]))",
  "new": "suffixLoop self c n { x with isUnion := true } (some ty)",
  "edit": "`?` after a type dropped",
  "claim": "C18, C19 with Luau",
  "tightened": []
 },
 {
  "id": "M59",
  "file": "Model/Parser/Parse.lean",
  "def": "FM.Parser.skipToken",
  "old": "else .ok (.next { s with toks := rest, errs := s.errs ++ [.ast t.token unexpectedToken none] })\n  | .recovered",
  "new": "else .ok (.next { s with toks := rest })\n  | .recovered",
  "edit": "unexpected tokens skipped without an error",
  "claim": "C18, C19, C43",
  "tightened": []
 },
 {
  "id": "M60",
  "file": "Model/Parser/Expr.lean",
  "def": "FM.Parser.unaryOp",
  "old": "if is .minus t then some .minus",
  "new": "if is .minus t then some .not",
  "edit": "wrong operator for `-`",
  "claim": "C23/C43: the kind of an operator fits its token",
  "tightened": []
 },
 {
  "id": "M61",
  "file": "Model/Parser/Stmt.lean",
  "def": "FM.Parser.expressionStmt",
  "old": "if lastIsCall suffixes then",
  "new": "if !suffixes.isEmpty then",
  "edit": "`a.b` accepted as a statement",
  "claim": "C43",
  "tightened": []
 },
 {
  "id": "M62",
  "file": "Model/Parser/Expr.lean",
  "def": "FM.Parser.primaryBase",
  "old": "is .kTrue t || is .kFalse t || is .kNil t || is .ellipsis t",
  "new": "is .kTrue t || is .kFalse t || is .kNil t",
  "edit": "`...` is no expression",
  "claim": "C44",
  "tightened": []
 },
 {
  "id": "M63",
  "file": "Model/Lexer.lean",
  "def": "FM.exponentLoop",
  "old": "if isDigit ch || (c.luau && ch == '_') then exponentLoop",
  "new": "if isDigit ch then exponentLoop",
  "edit": "no `_` in exponents with Luau",
  "claim": "C51: `1e1_0` is one number with Luau",
  "tightened": []
 },
 {
  "id": "M64",
  "file": "Model/Lexer.lean",
  "def": "FM.hexLoop",
  "old": "else if ch = '.' && c.lua52 then",
  "new": "else if ch = '.' then",
  "edit": "hexadecimal fractions in every version",
  "claim": "C51: `0x1.8` is no number in Lua 5.1",
  "tightened": []
 },
 {
  "id": "M65",
  "file": "Model/Lexer.lean",
  "def": "FM.binaryLoop",
  "old": "if ch = '0' ∨ ch = '1' ∨ ch = '_' then",
  "new": "if ch = '0' ∨ ch = '1' then",
  "edit": "no `_` in binary numbers",
  "claim": "C51",
  "tightened": []
 },
 {
  "id": "M66",
  "file": "Model/Lexer.lean",
  "def": "FM.readLuajitSuffix",
  "old": "if !headIs isL r then eatInvalidNumber",
  "new": "if headIs isL r then eatInvalidNumber",
  "edit": "`1ULL` rejected, `1U` accepted",
  "claim": "C51: suffixes of LuaJIT numbers",
  "tightened": []
 },
 {
  "id": "M67",
  "file": "Model/Lexer.lean",
  "def": "FM.stringLoop",
  "old": "else if next = '\\\\' then stringLoop c quote r (p.advance next) (lit ++ ['\\\\']) true z",
  "new": "else if next = '\\\\' then stringLoop c quote r (p.advance next) (lit ++ ['\\\\']) false z",
  "edit": "escaped quotes end a string",
  "claim": "C51, C14",
  "tightened": []
 },
 {
  "id": "M68",
  "file": "Model/Lexer.lean",
  "def": "FM.readSlash",
  "old": "if c.hasAny [.lua53, .luau, .cfxlua] then\n    match s.consume '/'",
  "new": "if c.hasAny [.lua53, .luau] then\n    match s.consume '/'",
  "edit": "no `//` with cfxlua alone",
  "claim": "C51, C12",
  "tightened": []
 },
 {
  "id": "M69",
  "file": "Model/Lexer.lean",
  "def": "FM.readAngle",
  "old": "if c.hasAny [.cfxlua] then\n        match s.consume '='",
  "new": "if c.hasAny [.lua53] then\n        match s.consume '='",
  "edit": "`<<=` in Lua 5.3",
  "claim": "C51, C12",
  "tightened": []
 },
 {
  "id": "M70",
  "file": "Model/Lexer.lean",
  "def": "FM.readMinus",
  "old": "match s.consume '>' with\n        | (true, s) => symTok start .thinArrow s",
  "new": "match s.consume '>' with\n        | (true, s) => symTok start .minus s",
  "edit": "`->` read as a minus sign",
  "claim": "C02, C51",
  "tightened": []
 },
 {
  "id": "M71",
  "file": "Model/Lexer.lean",
  "def": "FM.processNext",
  "old": "if l.braces.head? = some .interpolatedString then .ok (readSection l' start .middle .end_)",
  "new": "if l.braces.head? = some .interpolatedString then .ok (readSection l start .middle .end_)",
  "edit": "the brace of an interpolation stays open",
  "claim": "C41, C51",
  "tightened": []
 },
 {
  "id": "M72",
  "file": "Model/Lexer.lean",
  "def": "FM.readGated (call for `:`)",
  "old": "readGated c [.lua52, .luau, .luajit] ':' .twoColons",
  "new": "readGated c [.lua52, .luau] ':' .twoColons",
  "edit": "no `::` with LuaJIT",
  "claim": "C51: the symbols of the versions",
  "tightened": []
 },
 {
  "id": "M73",
  "file": "Model/Lexer.lean",
  "def": "FM.readOther",
  "old": "else if ch = '&' ∧ (c.lua53 ∨ c.luau) then",
  "new": "else if ch = '&' ∧ c.lua53 then",
  "edit": "no `&` with Luau",
  "claim": "C51, C12",
  "tightened": []
 },
 {
  "id": "M74",
  "file": "Model/Lexer.lean",
  "def": "FM.readIdent",
  "old": "    (match Symbol.fromStr c identifier with\n     | some y => .symbol y\n     | none => .identifier identifier) s",
  "new": "    (.identifier identifier) s",
  "edit": "keywords are names",
  "claim": "C10, C51",
  "tightened": []
 },
 {
  "id": "M75",
  "file": "Model/Lexer.lean",
  "def": "FM.sectionLoop",
  "old": "else if ch = '{' then (lit, .brace, ⟨r, p.advance ch⟩)",
  "new": "else if ch = '{' && !z then (lit, .brace, ⟨r, p.advance ch⟩)",
  "edit": "no interpolation after an escape",
  "claim": "C51: interpolated strings",
  "tightened": []
 },
 {
  "id": "M76",
  "file": "Model/Lexer.lean",
  "def": "FM.quoteType",
  "old": "else if quote = '`' && c.feat.cfxlua then some .backtick",
  "new": "else if quote = '`' then some .backtick",
  "edit": "backtick strings in every build",
  "claim": "C07 (witness of the panic), C51",
  "tightened": []
 },
 {
  "id": "M77",
  "file": "Model/Ast/Visit.lean",
  "def": "FM.rebuildNode",
  "old": "pure (.node .typeInst [.spanOf o p, .spanOf i j, types])",
  "new": "pure (.node .typeInst [.spanOf i p, .spanOf o j, types])",
  "edit": "the opening brackets of a type instantiation swapped by mutable visitors",
  "claim": "C29, C31, C52",
  "tightened": []
 },
 {
  "id": "M78",
  "file": "Model/Ast/Visit.lean",
  "def": "FM.MutVisitor.around",
  "old": "    let n ← parts\n    v.leave b n",
  "new": "    let m ← parts\n    let _ ← v.leave b m\n    pure m",
  "edit": "the result of `visit_x_end` not used",
  "claim": "C52: what the hooks return ends up in the tree",
  "tightened": []
 },
 {
  "id": "M79",
  "file": "Model/Ast/Visit.lean",
  "def": "FM.Kind.hook",
  "old": "| .binOp _ | .interpSegment => none",
  "new": "| .binOp _ | .interpSegment | .typeSpec => none",
  "edit": "`visit_type_specifier` never called",
  "claim": "C52: hooks are called once per node",
  "tightened": []
 },
 {
  "id": "M80",
  "file": "Model/Ast/Visit.lean",
  "def": "FM.Kind.hook",
  "old": "| k => k.cat.map fun c => (.enter c, .leave c)",
  "new": "| k => k.cat.map fun c => (.enter c, .enter c)",
  "edit": "`visit_x` called at the end of nodes",
  "claim": "C42, C52",
  "tightened": []
 },
 {
  "id": "M81",
  "file": "Model/Ast/Visit.lean",
  "def": "FM.Kind.visitLayout",
  "old": "| .funcBody => some [.child 0, .opening 1, .bareNames 2 none 3, .closing 1, .child 4, .child 5, .child 6]",
  "new": "| .funcBody => some [.child 0, .opening 1, .bareNames 2 none 3, .closing 1, .child 5, .child 6]",
  "edit": "the return type of a function not visited",
  "claim": "C30, C52",
  "tightened": []
 },
 {
  "id": "M82",
  "file": "Model/Ast/Visit.lean",
  "def": "FM.Kind.visitLayout",
  "old": "  | k => k.layout",
  "new": "  | .indexBrackets => none\n  | k => k.layout",
  "edit": "`ContainedSpan` of an index visited as a whole",
  "claim": "C30, C52: order of the visited tokens",
  "tightened": []
 },
 {
  "id": "M83",
  "file": "Model/Ast/Visit.lean",
  "def": "FM.rebuildNode (numericFor)",
  "old": "    let index ← index.go\n    let type ← type.go\n",
  "new": "    let type ← type.go\n    let index ← index.go\n",
  "edit": "the type of a loop variable visited before it",
  "claim": "C31, C52: order of the calls",
  "tightened": []
 },
 {
  "id": "M84",
  "file": "Model/Ast/Build.lean",
  "def": "FM.Build.genericFor",
  "old": "(basic f c!\" in \")",
  "new": "(basic f c!\"in \")",
  "edit": "no space before `in`",
  "claim": "C49: nodes made by constructors can be read back",
  "tightened": []
 },
 {
  "id": "M85",
  "file": "Model/Ast/Build.lean",
  "def": "FM.Build.numericFor",
  "old": "start, .tok cm, stop, absent",
  "new": "stop, .tok cm, start, absent",
  "edit": "start and end of a numeric `for` swapped",
  "claim": "C49",
  "tightened": []
 },
 {
  "id": "M86",
  "file": "Model/Ast/Build.lean",
  "def": "FM.Build.functionCall",
  "old": ".node .vec [.node .suffixCall [.node .callAnonymous [args]]]",
  "new": ".node .vec []",
  "edit": "a call without arguments made",
  "claim": "C49",
  "tightened": []
 },
 {
  "id": "M87",
  "file": "Model/Ast/Build.lean",
  "def": "FM.Build.localFunction",
  "old": "(basic f c!\"function \").bind fun t => (funcBody f)",
  "new": "(basic f c!\"function\").bind fun t => (funcBody f)",
  "edit": "no space after `function`",
  "claim": "C49",
  "tightened": []
 },
 {
  "id": "M88",
  "file": "Model/Ast/Builders.lean",
  "def": "FM.setters",
  "old": "⟨.genericFor, c!\"with_names\", 1, (.punct .tok)⟩",
  "new": "⟨.genericFor, c!\"with_names\", 3, (.punct .tok)⟩",
  "edit": "with_names sets the expressions",
  "claim": "C48",
  "tightened": []
 },
 {
  "id": "M89",
  "file": "Model/Ast/Builders.lean",
  "def": "FM.getters",
  "old": "⟨.localAssignment, c!\"names\", 2, .whole⟩",
  "new": "⟨.localAssignment, c!\"names\", 5, .whole⟩",
  "edit": "names shows the expressions",
  "claim": "C48",
  "tightened": []
 },
 {
  "id": "M90",
  "file": "Model/Parser/Types.lean",
  "def": "FM.Parser.genericListParam",
  "old": "if seenPack || is .ellipsis t then",
  "new": "if is .ellipsis t then",
  "edit": "generic types accepted after generic packs (again, with C50)",
  "claim": "C43, C50 with Luau",
  "tightened": []
 },
 {
  "id": "M91",
  "file": "Model/Parser/Types.lean",
  "def": "FM.Parser.indexerField",
  "old": "          if hasIndexer then\n",
  "new": "          if false then\n",
  "edit": "several indexers accepted",
  "claim": "C43, C50 with Luau",
  "tightened": []
 },
 {
  "id": "M92",
  "file": "Model/Parser/Types.lean",
  "def": "FM.Parser.functionTypeRest",
  "old": "let force := force || arguments.pairs.any fun p => p.value.name.isSome",
  "new": "let force := force",
  "edit": "`(a: T)` taken as a type in parentheses, dropping the name",
  "claim": "C18, C19, C50 with Luau",
  "tightened": []
 },
 {
  "id": "M93",
  "file": "Model/Parser/Types.lean",
  "def": "FM.Parser.suffixLoop",
  "old": "          if x.isUnion then\n            tokenError t \"cannot mix union and intersection types\"\n            return .moved\n          else\n            let p ← take\n            suffixLoop self c n { x with types := x.types.push (.new ty (some p)), isIntersection := true } none",
  "new": "            let p ← take\n            suffixLoop self c n { x with types := x.types.push (.new ty (some p)), isIntersection := true, isUnion := false } none",
  "edit": "`A | B & C` read as an intersection",
  "claim": "C43, C50 with Luau",
  "tightened": []
 },
 {
  "id": "M94",
  "file": "Model/Parser/Types.lean",
  "def": "FM.Parser.plainField",
  "old": "if fields.isEmpty && !hasIndexer then",
  "new": "if !hasIndexer then",
  "edit": "an array type after fields drops the fields",
  "claim": "C18, C19, C50 with Luau",
  "tightened": []
 },
 {
  "id": "M95",
  "file": "Model/Parser/Types.lean",
  "def": "FM.Parser.expectTypeInstantiation",
  "old": "[span outer0 outer1, arrows, generics]",
  "new": "[span outer0 outer0, arrows, generics]",
  "edit": "closing bracket of a type instantiation replaced by the opening one",
  "claim": "C18, C19 with Luau",
  "tightened": []
 },
 {
  "id": "M96",
  "file": "Model/Ast/Saved.lean",
  "def": "FM.Token.save",
  "old": "(c!\"end_position\", t.stop.save)",
  "new": "(c!\"end_position\", t.start.save)",
  "edit": "the end of a token stored as its start",
  "claim": "C56, C57",
  "tightened": []
 },
 {
  "id": "M97",
  "file": "Model/Ast/Saved.lean",
  "def": "FM.TokenType.save",
  "old": "(if depth = 0 then []",
  "new": "(if depth ≤ 1 then []",
  "edit": "depth 1 of `[=[ ]=]` left out like depth 0",
  "claim": "C57",
  "tightened": []
 },
 {
  "id": "M98",
  "file": "Model/Ast/Saved.lean",
  "def": "FM.Skip.test",
  "old": "  | .allNone, n => n.fields.all Node.isAbsent",
  "new": "  | .allNone, n => n.fields.any Node.isAbsent",
  "edit": "lists of annotations left out if one is None",
  "claim": "C57",
  "tightened": []
 },
 {
  "id": "M99",
  "file": "Model/Ast/Saved.lean",
  "def": "FM.load",
  "old": "fun p => .node .pairPunct [n, .tok p]",
  "new": "fun p => .node .pairEnd [n]",
  "edit": "separators dropped when reading",
  "claim": "C56",
  "tightened": []
 },
 {
  "id": "M100",
  "file": "Model/Ast/Shapes.lean",
  "def": "FM.Kind.shape",
  "old": ".plain c!\"start_end_comma\", .plain c!\"end\", .plain c!\"end_step_comma\"",
  "new": ".plain c!\"start_end_comma\", .plain c!\"start\", .plain c!\"end_step_comma\"",
  "edit": "two fields of a numeric for stored under one name",
  "claim": "C56",
  "tightened": []
 },
 {
  "id": "M101",
  "file": "Model/SavedErrors.lean",
  "def": "FM.TokErrType.load",
  "old": "else if name = c!\"InvalidNumber\" then some .invalidNumber",
  "new": "else if name = c!\"InvalidNumber\" then some .unclosedString",
  "edit": "an invalid number read as an unclosed string",
  "claim": "C56",
  "tightened": []
 },
 {
  "id": "M102",
  "file": "Model/SavedErrors.lean",
  "def": "FM.Parser.Err.save",
  "old": "      | some r => [(c!\"range\", saveRange r)]))]",
  "new": "      | some _ => []))]",
  "edit": "the range of a syntax error not stored",
  "claim": "C56",
  "tightened": []
 },
 {
  "id": "M103",
  "file": "Model/SavedErrors.lean",
  "def": "FM.LexRes.save",
  "old": ".map [(c!\"Recovered\", .seq [item a, .seq (es.map TokErr.save)])]",
  "new": ".map [(c!\"Ok\", item a)]",
  "edit": "the errors of a recovered result not stored",
  "claim": "C56",
  "tightened": []
 },
 {
  "id": "M104",
  "file": "Model/Ast/Saved.lean",
  "def": "FM.saveFields",
  "old": "if s.gate.on f && !s.skip.test c then",
  "new": "if s.gate.on f && (s.skip == .none || !s.skip.test c) then",
  "edit": "absent options stored as null instead of left out",
  "claim": "C56 (equivalent: null is read as None)",
  "tightened": []
 },
 {
  "id": "M105",
  "file": "Model/Api.lean",
  "def": "FM.ExprIter.next",
  "old": "if i.index ≥ i.segments.length then",
  "new": "if i.index > i.segments.length then",
  "edit": "index one past the end",
  "claim": "C48: the iterator never panics",
  "tightened": []
 },
 {
  "id": "M106",
  "file": "Model/Api.lean",
  "def": "FM.ExprIter.next",
  "old": "⟨i.segments, i.index + 1⟩",
  "new": "⟨i.segments, i.index + 2⟩",
  "edit": "every second expression skipped",
  "claim": "C48",
  "tightened": []
 },
 {
  "id": "M107",
  "file": "Model/Api.lean",
  "def": "FM.LexRes.unwrapErrors",
  "old": "  | .ok _ => .panic",
  "new": "  | .ok _ => .ok []",
  "edit": "no panic without errors",
  "claim": "C58",
  "tightened": []
 },
 {
  "id": "M108",
  "file": "Model/Api.lean",
  "def": "FM.LexRes.unwrap",
  "old": "  | .ok a => .ok a\n  | _ => .panic",
  "new": "  | .ok a | .recovered a _ => .ok a\n  | _ => .panic",
  "edit": "unwrap ignores errors of recovered results",
  "claim": "C58",
  "tightened": []
 },
 {
  "id": "M109",
  "file": "Model/Api.lean",
  "def": "FM.Punctuated.fromIter",
  "old": "⟨pairs⟩",
  "new": "⟨pairs.reverse⟩",
  "edit": "collecting reverses the pairs",
  "claim": "C33",
  "tightened": []
 },
 {
  "id": "M110",
  "file": "Model/Api.lean",
  "def": "FM.displayOptPunct",
  "old": "show_ p.1 ++ displayOption TokRef.display p.2",
  "new": "displayOption TokRef.display p.2 ++ show_ p.1",
  "edit": "semicolons printed before statements",
  "claim": "C48",
  "tightened": []
 },
 {
  "id": "M111",
  "file": "Model/Api.lean",
  "def": "FM.Ast.withEof",
  "old": "{ a with eof := eof }",
  "new": "a",
  "edit": "with_eof keeps the old token",
  "claim": "C48",
  "tightened": []
 },
 {
  "id": "M112",
  "file": "Model/Ast/VisitChanging.lean",
  "def": "FM.Node.visitChanging",
  "old": "      callHook (v.leave b n) n",
  "new": "      callHook (v.leave a n) n",
  "edit": "visit_x_end hook replaced by visit_x of the same node",
  "claim": "C55",
  "tightened": []
 },
 {
  "id": "M113",
  "file": "Model/Ast/VisitChanging.lean",
  "def": "FM.Node.visitChanging",
  "old": "      let n ← match n with\n",
  "new": "      let n ← match Node.node k cs with\n",
  "edit": "parts of the old node visited instead of those of the new one",
  "claim": "C55",
  "tightened": []
 },
 {
  "id": "M114",
  "file": "Model/Ast/VisitChanging.lean",
  "def": "FM.Ast.visitChanging",
  "old": "let eof ← callHook (v.eof a.eof) a.eof",
  "new": "let eof := a.eof",
  "edit": "end of file not visited",
  "claim": "C55",
  "tightened": []
 },
 {
  "id": "M115",
  "file": "Model/Ast/VisitChanging.lean",
  "def": "FM.Node.visitChanging",
  "old": "      let n ← callHook (v.enter a (.node k cs)) (.node k cs)\n",
  "new": "      let n ← callHook (v.enter a (.node k cs)) (.node k cs)\n      let n ← callHook (v.enter a n) n\n",
  "edit": "visit_x called twice",
  "claim": "C55",
  "tightened": []
 },
 {
  "id": "M116",
  "file": "Model/Ast/Build.lean",
  "def": "FM.Build.elseIfExpr",
  "old": "(symbol f c!\" then \")",
  "new": "(symbol f c!\" then\")",
  "edit": "no space after `then` in elseif expressions",
  "claim": "C49",
  "tightened": []
 },
 {
  "id": "M117",
  "file": "Model/Ast/Build.lean",
  "def": "FM.Build.typeFunction",
  "old": "(basic f c!\"function \").bind fun t => .ok (.node .typeFunction",
  "new": "(basic f c!\"function\").bind fun t => .ok (.node .typeFunction",
  "edit": "no space after `function` in type functions",
  "claim": "C49",
  "tightened": []
 },
 {
  "id": "M118",
  "file": "Model/Ast/Build.lean",
  "def": "FM.Build.typeDecl",
  "old": "[.tok (word c!\"type\"), .tok name, absent, .tok t, definition]",
  "new": "[.tok (word c!\"type\"), .tok name, absent, .tok t, absent]",
  "edit": "the type of a type declaration forgotten",
  "claim": "C49",
  "tightened": []
 },
 {
  "id": "M119",
  "file": "Model/Ast/Build.lean",
  "def": "FM.Build.typeInst",
  "old": "[span l r, span l' r', noItems]",
  "new": "[span l r', span l' r, noItems]",
  "edit": "brackets of a type instantiation crossed (same texts)",
  "claim": "C49 (equivalent: all positions are null)",
  "tightened": []
 },
 {
  "id": "M120",
  "file": "Model/Ast/Node.lean",
  "def": "FM.Kind.ends",
  "old": "  | .pairPunct => ⟨(Ends.nth es 0).start, (Ends.nth es 1).stop.or (Ends.nth es 0).stop⟩",
  "new": "  | .pairPunct => ⟨(Ends.nth es 0).start, (Ends.nth es 0).stop⟩",
  "edit": "ranges of pairs end before the separator",
  "claim": "C27",
  "tightened": []
 },
 {
  "id": "M121",
  "file": "Model/Ast/Node.lean",
  "def": "FM.Ends.minStart",
  "old": "if y.bytes < x.bytes then y else x",
  "new": "if x.bytes < y.bytes then y else x",
  "edit": "tuples start at the later part",
  "claim": "C27",
  "tightened": []
 },
 {
  "id": "M122",
  "file": "Model/Parser/State.lean",
  "def": "FM.Parser.tokenErrorRanged",
  "old": "(start.token.start, stop.token.stop)",
  "new": "(start.token.start, stop.token.start)",
  "edit": "ranges of errors end where the last token starts",
  "claim": "C53",
  "tightened": []
 },
 {
  "id": "M123",
  "file": "Model/Errors.lean",
  "def": "FM.Parser.Err.range",
  "old": "r.getD (t.start, t.stop)",
  "new": "r.getD (t.start, t.start)",
  "edit": "default range of a syntax error is empty",
  "claim": "C53",
  "tightened": []
 },
 {
  "id": "M124",
  "file": "Model/Lexer.lean",
  "def": "FM.startsTrailing",
  "old": "ch == '#' || ",
  "new": "",
  "edit": "`#` no longer starts trailing trivia",
  "claim": "C09 (equivalent: `#` is never trivia there)",
  "tightened": []
 },
 {
  "id": "M125",
  "file": "Model/Lexer.lean",
  "def": "FM.collectTrailing",
  "old": "            if t.type.endsLine then .ok ([t], l')\n",
  "new": "            if t.type.endsLine then .ok ([], { l' with src := l.src })\n",
  "edit": "the end of the line given to the next token",
  "claim": "C09, C54",
  "tightened": []
 },
 {
  "id": "M126",
  "file": "Model/Lexer.lean",
  "def": "FM.processFirstWithTrivia",
  "old": "{ t with leading := shebang :: t.leading }",
  "new": "{ t with leading := t.leading ++ [shebang] }",
  "edit": "the #! line put behind the leading trivia",
  "claim": "C01, C09",
  "tightened": []
 },
 {
  "id": "M127",
  "file": "Model/Ast/Saved.lean",
  "def": "FM.Stored.missing",
  "old": "  | .vec _ => if s.default then some (.node .vec []) else none",
  "new": "  | .vec _ => some (.node .vec [])",
  "edit": "every missing list read as empty",
  "claim": "C56: what exactly can be read back",
  "tightened": []
 },
 {
  "id": "M128",
  "file": "Model/Ast/Saved.lean",
  "def": "FM.TokRef.load",
  "old": "pure ⟨leading, token, trailing⟩",
  "new": "pure ⟨trailing, token, leading⟩",
  "edit": "leading and trailing trivia swapped",
  "claim": "C56",
  "tightened": []
 },
 {
  "id": "M129",
  "file": "Model/Parser/Stmt.lean",
  "def": "FM.Parser.blockOrEmpty",
  "old": "| none => return (.empty, ← basicSymbol c c!\"end\")",
  "new": "| none => return (.empty, ← basicSymbol c c!\"do\")",
  "edit": "a loop whose body is broken gets `do` for `end`",
  "claim": "C59",
  "tightened": []
 },
 {
  "id": "M130",
  "file": "Model/Parser/Stmt.lean",
  "def": "FM.Parser.genericFor",
  "old": "return some (genericForNode c for_ names in_ es do_ .empty end_)",
  "new": "return some (genericForNode c for_ names in_ es end_ .empty do_)",
  "edit": "made `do` and `end` of an unfinished loop swapped",
  "claim": "C59",
  "tightened": []
 },
 {
  "id": "M131",
  "file": "Model/Parser/State.lean",
  "def": "FM.Parser.newWhile",
  "old": "let d ← basicSymbol c c!\" do\\n\"",
  "new": "let d ← basicSymbol c c!\" then\\n\"",
  "edit": "`then` in a while loop made for a broken one",
  "claim": "C59",
  "tightened": []
 },
 {
  "id": "M132",
  "file": "Model/Parser/Stmt.lean",
  "def": "FM.Parser.expectIf",
  "old": "let end_ ← requireOr c .kEnd \"expected `end` to conclude `if`\" c!\"end\"",
  "new": "let end_ ← requireOr c .kEnd \"expected `end` to conclude `if`\" c!\"then\"",
  "edit": "a missing `end` replaced by `then`",
  "claim": "C59",
  "tightened": []
 },
 {
  "id": "M133",
  "file": "Model/Parser/Expr.lean",
  "def": "FM.Parser.interpBroken",
  "old": ".tok (if segments.isEmpty then first else interpolatedEnd)",
  "new": ".tok first",
  "edit": "the last part of a broken interpolated string is its first part again",
  "claim": "C59, or tokens counted twice (C58)",
  "tightened": []
 },
 {
  "id": "M134",
  "file": "Model/Parser/Expr.lean",
  "def": "FM.Parser.unfinishedBody",
  "old": "let right ← basicSymbol c c!\")\"",
  "new": "let right ← basicSymbol c c!\"(\"",
  "edit": "wrong bracket made for an unfinished parameter list",
  "claim": "C59",
  "tightened": []
 },
 {
  "id": "M135",
  "file": "Model/Parser/Expr.lean",
  "def": "FM.Parser.paramsLoop",
  "old": "let types := if c.feat.luau then types ++ [optNode name.typeSpec] else types",
  "new": "let types := if c.feat.luau then types ++ [optNode name.typeSpec, optNode name.typeSpec] else types",
  "edit": "types of parameters pushed twice",
  "claim": "C58: as many types as parameters; C18",
  "tightened": []
 },
 {
  "id": "M136",
  "file": "Model/Parser/State.lean",
  "def": "FM.Parser.require",
  "old": "  | .other t => tokenError t msg; return none\n  | .fatal => return none\n\n/-- `ParserState::require_with_reference_token`",
  "new": "  | .other _ => return none\n  | .fatal => return none\n\n/-- `ParserState::require_with_reference_token`",
  "edit": "a missing token not reported",
  "claim": "C20: sources without errors are in the language",
  "tightened": []
 },
 {
  "id": "M137",
  "file": "Model/Parser/Expr.lean",
  "def": "FM.Parser.closeArguments",
  "old": "match ← requireWithToken .rightParen \"expected `)` to close function call\" left with\n  | some right =>",
  "new": "match ← consumeIf .rightParen with\n  | some right =>",
  "edit": "a missing `)` of a call not reported",
  "claim": "C18, C20",
  "tightened": []
 },
 {
  "id": "M138",
  "file": "Model/Parser/Stmt.lean",
  "def": "FM.Parser.expectLocalFunction",
  "old": ".tok local_, .tok token, .tok name, body]",
  "new": ".tok token, .tok local_, .tok name, body]",
  "edit": "`local` and `function` swapped",
  "claim": "C18, C59",
  "tightened": []
 },
 {
  "id": "M139",
  "file": "Model/Parser/Stmt.lean",
  "def": "FM.Parser.parseStmt",
  "old": "else if (c.feat.lua52 || c.feat.luajit || c.feat.cfxlua) && is .kGoto t then gotoStmt c",
  "new": "else if is .kGoto t then gotoStmt c",
  "edit": "`goto` tokens looked at in every build (equivalent: the tokenizer makes none there)",
  "claim": "C07 (equivalent)",
  "tightened": []
 },
 {
  "id": "M140",
  "file": "Model/Parser/Stmt.lean",
  "def": "FM.Parser.parseStmt",
  "old": "else if (c.lua52 || c.luajit) && is .twoColons t then labelStmt c",
  "new": "else if is .twoColons t then labelStmt c",
  "edit": "labels accepted in every version",
  "claim": "C50, C60 (Luau, where `::` is a token)",
  "tightened": []
 },
 {
  "id": "M141",
  "file": "Model/Parser/Stmt.lean",
  "def": "FM.Parser.localNode",
  "old": "[.tok local_, typeSpecs c names, nameNodes names, attrs c names, optTok equal, punct es]",
  "new": "[.tok local_, attrs c names, nameNodes names, typeSpecs c names, optTok equal, punct es]",
  "edit": "types and attributes of local names swapped",
  "claim": "C18, C50",
  "tightened": []
 },
 {
  "id": "M142",
  "file": "Model/Parser/Stmt.lean",
  "def": "FM.Parser.expectNumericFor",
  "old": "| .value step => numericForRest self c for_ index equal start comma stop (some (comma', step))",
  "new": "| .value step => numericForRest self c for_ index equal start comma' stop (some (comma, step))",
  "edit": "the commas of a numeric for swapped",
  "claim": "C18, C21",
  "tightened": []
 },
 {
  "id": "M143",
  "file": "Model/Parser/Parse.lean",
  "def": "FM.Parser.finish",
  "old": "  | .ok t :: _ => if t.isEof then .ok ⟨⟨s.val.node, t⟩, s.errs, s.silent⟩ else .panic",
  "new": "  | .ok t :: _ => if t.isEof then .ok ⟨⟨s.val.node, ⟨[], t.token, []⟩⟩, s.errs, s.silent⟩ else .panic",
  "edit": "comments at the end of the file lost",
  "claim": "C18",
  "tightened": []
 },
 {
  "id": "M144",
  "file": "Model/Parser/Expr.lean",
  "def": "FM.Parser.varargType",
  "old": "if ← currentIs TokRef.isIdent then peekIs (is .ellipsis) else return false",
  "new": "return false",
  "edit": "`...: T...` not read as a pack",
  "claim": "C50 with Luau",
  "tightened": []
 },
 {
  "id": "M145",
  "file": "Model/Parser/Expr.lean",
  "def": "FM.Parser.methodSuffix",
  "old": "return .value (methodNode colon name types args)",
  "new": "return .value (methodNode name colon types args)",
  "edit": "`:` and the method name swapped",
  "claim": "C18, C59",
  "tightened": []
 },
 {
  "id": "M146",
  "file": "Model/Parser/Stmt.lean",
  "def": "FM.Parser.contextual",
  "old": "else if isNamed c!\"continue\" token then return",
  "new": "else if isNamed c!\"continue\" token || isNamed c!\"skip\" token then return",
  "edit": "`skip` taken as `continue`",
  "claim": "C50, C59",
  "tightened": []
 },
 {
  "id": "M147",
  "file": "Model/Parser/Stmt.lean",
  "def": "FM.Parser.elsePart",
  "old": "    | .value b => return some (token, b)",
  "new": "    | .value b => if b.stmts.isEmpty && b.last.isNone then return none else return some (token, b)",
  "edit": "an empty `else` dropped",
  "claim": "C18, C21",
  "tightened": []
 },
 {
  "id": "M148",
  "file": "Model/Parser/Expr.lean",
  "def": "FM.Parser.doubleBrace",
  "old": "      tokenError b \"unexpected double brace, try \\\\{ if you meant to escape\"\n",
  "new": "",
  "edit": "`{{` accepted in interpolated strings, its second brace dropped",
  "claim": "C18, C20",
  "tightened": []
 },
 {
  "id": "M149",
  "file": "Model/Parser/Parse.lean",
  "def": "FM.Parser.mainStep",
  "old": "  | .recovered _ _ :: _ => moreStatements c hasLast s",
  "new": "  | .recovered t es :: rest => if t.isEof then .ok (.stop s) else .ok (.next { s with toks := rest, errs := s.errs ++ es.map .tokenizer })",
  "edit": "tokens with errors skipped between statements",
  "claim": "C58: tokens lost without being counted",
  "tightened": []
 },
 {
  "id": "M150",
  "file": "Model/Lexer.lean",
  "def": "FM.hexLoop",
  "old": "else if (ch = 'p' || ch = 'P') && c.lua52 then",
  "new": "else if (ch = 'p' || ch = 'P') && c.lua52 && !c.lua54 then",
  "edit": "binary exponents no longer read in Lua 5.4",
  "claim": "C60, C51",
  "tightened": []
 },
 {
  "id": "M151",
  "file": "Model/Lexer.lean",
  "def": "FM.stringLoop",
  "old": "(if c.lua52 || c.luau then true else z)",
  "new": "(if (c.lua52 && !c.lua53) || c.luau then true else z)",
  "edit": "`\\z` forgotten in Lua 5.3",
  "claim": "C60, C51",
  "tightened": []
 },
 {
  "id": "M152",
  "file": "Model/Parser/Stmt.lean",
  "def": "FM.Parser.parseStmt",
  "old": "else if (c.lua52 || c.luajit) && is .twoColons t then labelStmt c",
  "new": "else if ((c.lua52 && !c.lua53) || c.luajit) && is .twoColons t then labelStmt c",
  "edit": "labels refused in Lua 5.3",
  "claim": "C60, C50",
  "tightened": []
 },
 {
  "id": "M153",
  "file": "Model/Parser/Parse.lean",
  "def": "FM.Parser.lastUnexpected",
  "old": "  | some (.ast _ additional _) => additional == unexpectedToken",
  "new": "  | some (.ast _ _ _) => false",
  "edit": "the last error is never taken for one about a stray token",
  "claim": "C68: stray tokens in a row are reported once",
  "tightened": [],
  "targets": [
   "Verif.Props.Recovery"
  ]
 },
 {
  "id": "M154",
  "file": "Model/Parser/Parse.lean",
  "def": "FM.Parser.skipToken",
  "old": "    if t.isEof then .ok (.stop s)\n    else if lastUnexpected s.errs",
  "new": "    if lastUnexpected s.errs",
  "edit": "the end of the file is not looked for before a token is skipped",
  "claim": "C68: never about the end of the file",
  "tightened": [],
  "targets": [
   "Verif.Props.Recovery"
  ]
 },
 {
  "id": "M155",
  "file": "Model/Parser/Parse.lean",
  "def": "FM.Parser.skipToken",
  "old": "errs := s.errs ++ [.ast t.token unexpectedToken none] })",
  "new": "errs := s.errs ++ [.ast errorToken.token unexpectedToken none] })",
  "edit": "the error names a made up token",
  "claim": "C68: about tokens of the source",
  "tightened": [],
  "targets": [
   "Verif.Props.Recovery"
  ]
 },
 {
  "id": "M156",
  "file": "Model/Parser/Parse.lean",
  "def": "FM.Parser.lateStatement",
  "old": ".ok [.ast t.token \"unexpected statement after last statement\" none]",
  "new": ".ok [.ast t.token unexpectedToken none]",
  "edit": "the wrong message for a statement behind the last one",
  "claim": "C68: stray tokens in a row are reported once",
  "tightened": [],
  "targets": [
   "Verif.Props.Recovery"
  ]
 },
 {
  "id": "M157",
  "file": "Model/Parser/State.lean",
  "def": "FM.Parser.require",
  "old": "  | .other t => tokenError t msg; return none",
  "new": "  | .other t => tokenError t \"\"; return none",
  "edit": "the message of a missing token is lost",
  "claim": "C68: every error has a message",
  "tightened": [],
  "targets": [
   "Verif.Props.Recovery"
  ]
 },
 {
  "id": "M158",
  "file": "Model/Parser/Parse.lean",
  "def": "FM.Parser.skipToken",
  "old": "errs := s.errs ++ [.ast t.token unexpectedToken none] })\n  | .recovered",
  "new": "errs := .ast t.token unexpectedToken none :: s.errs })\n  | .recovered",
  "edit": "the error is put in front of the others",
  "claim": "C68: in the order of the source",
  "tightened": [],
  "targets": [
   "Verif.Props.Recovery"
  ]
 },
 {
  "id": "M159",
  "file": "Model/Errors.lean",
  "def": "FM.TokErr.display",
  "old": "decimal e.range.1.line ++ c!\":\" ++ decimal e.range.1.character ++ c!\" to \"",
  "new": "decimal e.range.1.character ++ c!\":\" ++ decimal e.range.1.line ++ c!\" to \"",
  "edit": "line and character swapped when printing",
  "claim": "C53: what is printed says where the error is",
  "tightened": [],
  "targets": [
   "Verif.Props.Errors"
  ]
 },
 {
  "id": "M160",
  "file": "Model/Errors.lean",
  "def": "FM.Parser.Err.display",
  "old": "  | .tokenizer e => c!\"error occurred while tokenizing: \" ++ e.display",
  "new": "  | .tokenizer e => c!\"error occurred while tokenizing: \" ++ e.error.display",
  "edit": "positions not printed",
  "claim": "C53: what is printed says where the error is",
  "tightened": [],
  "targets": [
   "Verif.Props.Errors"
  ]
 },
 {
  "id": "M161",
  "file": "Model/Token.lean",
  "def": "FM.Token.cmp",
  "old": "def Token.cmp (a b : Token) : Ordering := a.start.cmp b.start",
  "new": "def Token.cmp (a b : Token) : Ordering := b.start.cmp a.start",
  "edit": "tokens compared the wrong way round",
  "claim": "C38: tokens are ordered as in the source",
  "tightened": [],
  "targets": [
   "Verif.Props.Order"
  ]
 },
 {
  "id": "M162",
  "file": "Model/Token.lean",
  "def": "FM.Position.cmp",
  "old": "compare a.bytes b.bytes",
  "new": "compare a.line b.line",
  "edit": "positions compared by line only",
  "claim": "C38: tokens are ordered as in the source",
  "tightened": [],
  "targets": [
   "Verif.Props.Order"
  ]
 },
 {
  "id": "M163",
  "file": "Model/Config.lean",
  "def": "FM.LuaVersion.only",
  "old": "  | .lua54 => ⟨Ver.lua52.bit ||| Ver.lua53.bit ||| Ver.lua54.bit⟩",
  "new": "  | .lua54 => ⟨Ver.lua52.bit ||| Ver.lua54.bit⟩",
  "edit": "Lua 5.4 without 5.3",
  "claim": "C17: later versions include the earlier ones",
  "tightened": [],
  "targets": [
   "Verif.Props.Versions"
  ]
 },
 {
  "id": "M164",
  "file": "Model/Config.lean",
  "def": "FM.LuaVersion.default",
  "old": "Ver.lua54.bit ||| Ver.luajit.bit⟩",
  "new": "Ver.lua54.bit⟩",
  "edit": "LuaJIT forgotten in the default version",
  "claim": "C17: the default has all versions but CfxLua",
  "tightened": [],
  "targets": [
   "Verif.Props.Versions"
  ]
 },
 {
  "id": "M165",
  "file": "Model/Config.lean",
  "def": "FM.LuaVersion.has",
  "old": "  f.has v && (a.bitfield &&& v.bit != 0#8)",
  "new": "  (a.bitfield &&& v.bit != 0#8)",
  "edit": "a version is active although its feature is not compiled",
  "claim": "C17: a version is only active with its feature",
  "tightened": [],
  "targets": [
   "Verif.Props.Versions"
  ]
 },
 {
  "id": "M166",
  "file": "Model/Ast/Node.lean",
  "def": "FM.Node.surroundingTrivia",
  "old": "(b.1.map TokRef.trailing).getD []",
  "new": "(b.1.map TokRef.leading).getD []",
  "edit": "leading trivia of the last token instead of trailing",
  "claim": "C39: surrounding trivia",
  "tightened": [],
  "targets": [
   "Verif.Props.Trees",
   "Verif.Props.Parsed"
  ]
 },
 {
  "id": "M167",
  "file": "Model/Ast/Node.lean",
  "def": "FM.Tokens.backF",
  "old": "Tokens.backF fuel (n.items.reverse ++ ts)",
  "new": "Tokens.backF fuel (n.items ++ ts)",
  "edit": "iterating from the back goes through nodes from the front",
  "claim": "C26: tokens from the back are those from the front reversed",
  "tightened": [],
  "targets": [
   "Verif.Props.Trees"
  ]
 },
 {
  "id": "M168",
  "file": "Model/Ast/Node.lean",
  "def": "FM.Node.range",
  "old": "  | some a, some b => some (a, b)\n  | _, _ => none",
  "new": "  | some a, some b => some (b, a)\n  | _, _ => none",
  "edit": "start and end of a range swapped",
  "claim": "C27: the range of a node",
  "tightened": [],
  "targets": [
   "Verif.Props.Trees",
   "Verif.Props.Parsed"
  ]
 },
 {
  "id": "M169",
  "file": "Model/Ast/Node.lean",
  "def": "FM.Node.similars",
  "old": "c.similar c' && Node.similars cs cs'\n  | _, _ => false",
  "new": "c.similar c' && Node.similars cs cs'\n  | _, _ => true",
  "edit": "lists are compared up to the shorter one (zip)",
  "claim": "C28: similar nodes",
  "tightened": [],
  "targets": [
   "Verif.Props.Trees"
  ]
 },
 {
  "id": "M170",
  "file": "Model/Punctuated.lean",
  "def": "FM.Pair.map",
  "old": "def map (f : α → β) : Pair α → Pair β\n  | .end v => .end (f v)\n  | .punctuated v p => .punctuated (f v) p",
  "new": "def map (f : α → β) : Pair α → Pair β\n  | .end v => .end (f v)\n  | .punctuated v _ => .end (f v)",
  "edit": "map drops the punctuation",
  "claim": "C33: map keeps punctuation",
  "tightened": [],
  "targets": [
   "Verif.Props.Punctuated"
  ]
 },
 {
  "id": "M171",
  "file": "Model/Punctuated.lean",
  "def": "FM.Punctuated.push",
  "old": "⟨p.pairs ++ [pair]⟩",
  "new": "⟨pair :: p.pairs⟩",
  "edit": "push at the front",
  "claim": "C33: push appends",
  "tightened": [],
  "targets": [
   "Verif.Props.Punctuated"
  ]
 },
 {
  "id": "M172",
  "file": "Model/Api.lean",
  "def": "FM.TokenType.tabs",
  "old": "(List.replicate n '\\t')",
  "new": "(List.replicate (n + 1) '\\t')",
  "edit": "one tab too many",
  "claim": "C58: spaces and tabs",
  "tightened": [],
  "targets": [
   "Verif.Props.Api"
  ]
 },
 {
  "id": "M173",
  "file": "Model/Api.lean",
  "def": "FM.joinVec",
  "old": "string ++ show_ item",
  "new": "show_ item ++ string",
  "edit": "items joined in reverse",
  "claim": "C58: joining",
  "tightened": [],
  "targets": [
   "Verif.Props.Api"
  ]
 },
 {
  "id": "M174",
  "file": "Model/Token.lean",
  "def": "FM.LexRes.new",
  "old": "if errors.isEmpty then .ok a else .recovered a errors",
  "new": "if errors.length ≤ 1 then .ok a else .recovered a errors",
  "edit": "a single error is lost",
  "claim": "C58: results say whether there were errors",
  "tightened": [],
  "targets": [
   "Verif.Props.Api",
   "Verif.Props.Tokenizer"
  ]
 },
 {
  "id": "M175",
  "file": "Model/Parser/Types.lean",
  "def": "FM.Parser.tableAccess",
  "old": "    if ← peekIs (is .colon) then return none",
  "new": "    if ← peekIs (is .comma) then return none",
  "edit": "`read` as a name of a field is taken as the access modifier",
  "claim": "C50: Luau programs are accepted",
  "tightened": [],
  "targets": [
   "Verif.Props.Complete",
   "Verif.Props.Parsed",
   "Verif.Props.Nesting",
   "Verif.Props.Kept"
  ]
 },
 {
  "id": "M176",
  "file": "Model/Parser/Types.lean",
  "def": "FM.Parser.suffixLoop",
  "old": "        else if is .ampersand t then\n          if x.isUnion then\n            tokenError t \"cannot mix union and intersection types\"\n            return .moved\n          else\n            let p ← take",
  "new": "        else if is .ampersand t then\n          if false then\n            tokenError t \"cannot mix union and intersection types\"\n            return .moved\n          else\n            let p ← take",
  "edit": "unions and intersections can be mixed",
  "claim": "C21: parsing does not panic (the end of parse_type_suffix does)",
  "tightened": [],
  "targets": [
   "Verif.Props.Parsing"
  ]
 },
 {
  "id": "M177",
  "file": "Model/Parser/Types.lean",
  "def": "FM.Parser.moduleType",
  "old": "return .value (.node .tyModule [.tok name, .tok punctuation, .node .idxBasic [.tok base]])",
  "new": "return .value (.node .tyModule [.tok base, .tok punctuation, .node .idxBasic [.tok name]])",
  "edit": "module and type swapped",
  "claim": "C18: what is accepted is printed back",
  "tightened": [],
  "targets": [
   "Verif.Props.Source",
   "Verif.Props.Kept"
  ]
 },
 {
  "id": "M178",
  "file": "Model/Parser/Types.lean",
  "def": "FM.Parser.attributesLoop",
  "old": "attributesLoop n (attributes ++ [.node .luauAttr [.tok at_, .tok name]])",
  "new": "attributesLoop n [.node .luauAttr [.tok at_, .tok name]]",
  "edit": "only the last attribute is kept",
  "claim": "C18: what is accepted is printed back",
  "tightened": [],
  "targets": [
   "Verif.Props.Source",
   "Verif.Props.Kept"
  ]
 },
 {
  "id": "M179",
  "file": "Model/Parser/Types.lean",
  "def": "FM.Parser.argumentName",
  "old": "    if ← peekIs (is .colon) then\n      let name ← take",
  "new": "    if ← peekIs (is .comma) then\n      let name ← take",
  "edit": "`a: T` in a function type not recognised",
  "claim": "C50: Luau programs are accepted",
  "tightened": [],
  "targets": [
   "Verif.Props.Complete",
   "Verif.Props.Parsed",
   "Verif.Props.Nesting",
   "Verif.Props.Kept"
  ]
 },
 {
  "id": "M180",
  "file": "Model/Parser/Types.lean",
  "def": "FM.Parser.forceNameWithAttributes",
  "old": "  if c.lua54 || c.cfxlua then",
  "new": "  if c.lua54 then",
  "edit": "CfxLua forgotten (equivalent: it implies 5.4)",
  "claim": "none",
  "tightened": [],
  "targets": [
   "Verif.Props.Complete"
  ]
 },
 {
  "id": "M181",
  "file": "Model/Parser/Parse.lean",
  "def": "FM.Parser.Blk.merge",
  "old": "⟨b.stmts ++ other.stmts, b.last.or other.last⟩",
  "new": "⟨other.stmts ++ b.stmts, b.last.or other.last⟩",
  "edit": "merged blocks in the wrong order",
  "claim": "C69: the tree starts with the statements in front of the error",
  "tightened": [],
  "targets": [
   "Verif.Props.Before"
  ]
 },
 {
  "id": "M182",
  "file": "Model/Parser/Parse.lean",
  "def": "FM.Parser.moreStatements",
  "old": ".ok (.next ⟨s.val.merge b, r.toks",
  "new": ".ok (.next ⟨b, r.toks",
  "edit": "the statements so far replaced by the new ones",
  "claim": "C69: statements are only added",
  "tightened": [],
  "targets": [
   "Verif.Props.Before"
  ]
 },
 {
  "id": "M183",
  "file": "Model/Parser/Stmt.lean",
  "def": "FM.Parser.blockLoop",
  "old": "    | .moved => if stmts.isEmpty then return .moved else blockEnd self stmts",
  "new": "    | .moved => return .moved",
  "edit": "a statement that cannot be finished drops the ones before it",
  "claim": "C69: statements in front of an error are kept",
  "tightened": [],
  "targets": [
   "Verif.Props.Before"
  ]
 },
 {
  "id": "M184",
  "file": "Model/Parser/Parse.lean",
  "def": "FM.Parser.skipToken",
  "old": "    else .ok (.next { s with toks := rest, errs := s.errs ++ [.ast t.token unexpectedToken none] })\n  | .recovered",
  "new": "    else .ok (.next { s with val := ⟨s.val.stmts.dropLast, s.val.last⟩, toks := rest, errs := s.errs ++ [.ast t.token unexpectedToken none] })\n  | .recovered",
  "edit": "the statement in front of a stray token is dropped",
  "claim": "C69: statements in front of an error are kept",
  "tightened": [],
  "targets": [
   "Verif.Props.Before"
  ]
 },
 {
  "id": "M185",
  "file": "Model/Parser/Stmt.lean",
  "def": "FM.Parser.blockEnd",
  "old": "  | _ => return .value ⟨stmts, none⟩",
  "new": "  | _ => return .value ⟨stmts.dropLast, none⟩",
  "edit": "the last statement of a block without a last statement is dropped",
  "claim": "C69, C50",
  "tightened": [],
  "targets": [
   "Verif.Props.Before"
  ]
 },
 {
  "id": "M186",
  "file": "Model/Parser/Stmt.lean",
  "def": "FM.Parser.blockLoop",
  "old": "blockLoop self c n (stmts ++ [(s, semicolon)])",
  "new": "blockLoop self c n (stmts ++ [(s, none)])",
  "edit": "semicolons are read but not kept",
  "claim": "C69: exactly the statements, with their semicolons",
  "tightened": [],
  "targets": [
   "Verif.Props.Before"
  ]
 },
 {
  "id": "M187",
  "file": "Model/Parser/State.lean",
  "def": "FM.TokRef.isIdent",
  "old": "t.token.type.kind == .identifier",
  "new": "t.token.type.kind == .identifier && t.token.type != .identifier c!\"self\"",
  "edit": "a name is not taken for a name",
  "claim": "C70: it does not matter which name it is",
  "tightened": [],
  "targets": [
   "Verif.Props.Alike"
  ]
 },
 {
  "id": "M188",
  "file": "Model/Parser/State.lean",
  "def": "FM.TokRef.isNumber",
  "old": "t.token.type.kind == .number",
  "new": "t.token.type.kind == .number && t.token.type != .number c!\"0\"",
  "edit": "the number 0 is not taken for a number",
  "claim": "C70: it does not matter which number it is",
  "tightened": [],
  "targets": [
   "Verif.Props.Alike"
  ]
 },
 {
  "id": "M189",
  "file": "Model/Parser/State.lean",
  "def": "FM.TokRef.isString",
  "old": "t.token.type.kind == .stringLiteral",
  "new": "t.token.type.kind == .stringLiteral && t.token.display.length != 2",
  "edit": "the empty string is not taken for a string",
  "claim": "C70: it does not matter which string it is",
  "tightened": [],
  "targets": [
   "Verif.Props.Alike"
  ]
 },
 {
  "id": "M190",
  "file": "Model/Parser/Parse.lean",
  "def": "FM.Parser.skipToken",
  "old": "    else if lastUnexpected s.errs then .ok (.next { s with toks := rest })",
  "new": "    else if lastUnexpected s.errs || t.token.type == .number c!\"0\" then .ok (.next { s with toks := rest })",
  "edit": "some stray numbers are not reported",
  "claim": "C70: the errors are at the same tokens",
  "tightened": [],
  "targets": [
   "Verif.Props.Alike"
  ]
 },
 {
  "id": "M191",
  "file": "Model/Parser/Stmt.lean",
  "def": "FM.Parser.isNamed",
  "old": "t.token.type == .identifier name",
  "new": "t.token.type == .identifier name || t.token.type == .identifier c!\"goto\"",
  "edit": "another name means something",
  "claim": "C70: only the six names mean something",
  "tightened": [],
  "targets": [
   "Verif.Props.Alike"
  ]
 },
 {
  "id": "M192",
  "file": "Model/Lexer.lean",
  "def": "FM.readTilde",
  "old": "    else (.fatal [⟨.invalidSymbol ['~'], (start, s.pos)⟩], s)",
  "new": "    else (.fatal [⟨.invalidSymbol ['~'], (s.pos, s.pos)⟩], s)",
  "edit": "the error about ~ starts after it",
  "claim": "C71: the first error starts where no token can be read",
  "tightened": [],
  "targets": [
   "Verif.Props.FirstError",
   "Verif.Props.References"
  ]
 },
 {
  "id": "M193",
  "file": "Model/Lexer.lean",
  "def": "FM.commentToken",
  "old": "[⟨.unclosedComment, (start, r.2.2.pos)⟩]",
  "new": "[⟨.unclosedComment, (r.2.2.pos, r.2.2.pos)⟩]",
  "edit": "the error about an unclosed comment starts at its end",
  "claim": "C71: the first error starts where no token can be read",
  "tightened": [],
  "targets": [
   "Verif.Props.FirstError",
   "Verif.Props.References"
  ]
 },
 {
  "id": "M194",
  "file": "Model/Lexer.lean",
  "def": "FM.leadingLoop",
  "old": "        let errors := some (errors.getD [] ++ es)",
  "new": "        let errors := some es",
  "edit": "the error of a comment is lost when the next token has one",
  "claim": "C71: the first error is the first place",
  "tightened": [],
  "targets": [
   "Verif.Props.FirstError",
   "Verif.Props.References"
  ]
 },
 {
  "id": "M195",
  "file": "Model/Lexer.lean",
  "def": "FM.leadingLoop",
  "old": "        if t.type.isTrivia then leadingLoop c fuel l' (leading ++ [t]) errors\n        else .ok (.token leading t errors, l')\n      | (some (.fatal es)",
  "new": "        if t.type.isTrivia then leadingLoop c fuel l' (leading ++ [t]) none\n        else .ok (.token leading t errors, l')\n      | (some (.fatal es)",
  "edit": "errors of trivia are dropped when more trivia follow",
  "claim": "C71: the tokenizer reports an error where no token can be read",
  "tightened": [],
  "targets": [
   "Verif.Props.FirstError",
   "Verif.Props.References"
  ]
 },
 {
  "id": "M196",
  "file": "Model/Errors.lean",
  "def": "FM.TokErr.position",
  "old": "def TokErr.position (e : TokErr) : Position := e.range.1",
  "new": "def TokErr.position (e : TokErr) : Position := e.range.2",
  "edit": "position is where the error ends",
  "claim": "C71: the position of the first error",
  "tightened": [],
  "targets": [
   "Verif.Props.FirstError",
   "Verif.Props.References"
  ]
 },
 {
  "id": "M197",
  "file": "Model/Token.lean",
  "def": "FM.TokRef.withToken",
  "old": "{ t with token := k }",
  "new": "{ t with token := k, trailing := [] }",
  "edit": "with_token drops the trailing trivia",
  "claim": "C48: what is printed around the token stays",
  "tightened": [],
  "targets": [
   "Verif.Props.FirstError",
   "Verif.Props.References"
  ]
 },
 {
  "id": "M198",
  "file": "Model/Punctuated.lean",
  "def": "FM.Punctuated.extend",
  "old": "⟨p.pairs ++ more⟩",
  "new": "⟨more ++ p.pairs⟩",
  "edit": "extend puts the pairs in front",
  "claim": "C33: extending is pushing",
  "tightened": [],
  "targets": [
   "Verif.Props.FirstError",
   "Verif.Props.References"
  ]
 },
 {
  "id": "M199",
  "file": "Model/Token.lean",
  "def": "FM.TokRef.cmp",
  "old": "def TokRef.cmp (a b : TokRef) : Ordering := a.token.cmp b.token",
  "new": "def TokRef.cmp (a b : TokRef) : Ordering := ((a.leading.head?.getD a.token).cmp b.token).swap",
  "edit": "references compared the wrong way round",
  "claim": "C38: references are ordered as in the source",
  "tightened": [],
  "targets": [
   "Verif.Props.FirstError",
   "Verif.Props.References"
  ]
 },
 {
  "id": "M200",
  "file": "Model/Ast/Build.lean",
  "def": "FM.Build.compoundAssignment",
  "old": ".node .compoundAssignment [lhs, op, rhs]",
  "new": ".node .compoundAssignment [rhs, op, lhs]",
  "edit": "sides of a compound assignment swapped",
  "claim": "C49: constructors make nodes of the grammar",
  "tightened": [],
  "targets": [
   "Verif.Props.Constructed"
  ]
 },
 {
  "id": "M201",
  "file": "Model/Ast/Build.lean",
  "def": "FM.Build.typeUnion",
  "old": ".node .typeUnion [leading, types]",
  "new": ".node .typeUnion [.node .absent [], types]",
  "edit": "the leading | of a union is dropped",
  "claim": "C49: constructors make nodes of the grammar",
  "tightened": [],
  "targets": [
   "Verif.Props.Constructed"
  ]
 },
 {
  "id": "M202",
  "file": "Model/Ast/Build.lean",
  "def": "FM.Build.interpString",
  "old": ".node .interpString [segments, .tok last]",
  "new": ".node .interpString [noVec, .tok last]",
  "edit": "the segments of an interpolated string are dropped",
  "claim": "C49: constructors make nodes of the grammar",
  "tightened": [],
  "targets": [
   "Verif.Props.Constructed"
  ]
 },
 {
  "id": "M203",
  "file": "Model/Errors.lean",
  "def": "FM.Parser.Err.message",
  "old": "  | .tokenizer e => e.display",
  "new": "  | .tokenizer e => e.error.display",
  "edit": "the message of a tokenizer error without its position",
  "claim": "C53: what is printed ends with the message",
  "tightened": [],
  "targets": [
   "Verif.Props.Errors"
  ]
 },
 {
  "id": "M204",
  "file": "Model/Ast/Naming.lean",
  "def": "FM.snakeRest",
  "old": "'_' :: lower ch :: snakeRest r",
  "new": "lower ch :: snakeRest r",
  "edit": "no underscore before a capital",
  "claim": "C72: types with different names call different hooks",
  "tightened": [],
  "targets": [
   "Verif.Props.Naming"
  ]
 },
 {
  "id": "M205",
  "file": "Model/Ast/Naming.lean",
  "def": "FM.hookEndOf",
  "old": "++ s ++ c!\"_end\")",
  "new": "++ s)",
  "edit": "the hook called last has no suffix",
  "claim": "C72: the hooks called first are not those called last",
  "tightened": [],
  "targets": [
   "Verif.Props.Naming"
  ]
 },
 {
  "id": "M206",
  "file": "Model/Ast/Naming.lean",
  "def": "FM.lower",
  "old": "Char.ofNat (ch.toNat + 32)",
  "new": "Char.ofNat ((ch.toNat - 65) % 16 + 97)",
  "edit": "some capitals become the same letter",
  "claim": "C72: types with different names call different hooks",
  "tightened": [],
  "targets": [
   "Verif.Props.Naming"
  ]
 },
 {
  "id": "M207",
  "file": "Model/Ast/Naming.lean",
  "def": "FM.declaredHooks",
  "old": "(c!\"visit_type_field\", c!\"TypeField\")",
  "new": "(c!\"visit_type_field\", c!\"TypeFieldKey\")",
  "edit": "a hook declared for another type",
  "claim": "C72: the hooks are declared for their types",
  "tightened": [],
  "targets": [
   "Verif.Props.Naming"
  ]
 }
]