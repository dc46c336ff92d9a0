import Verif.Model.Parser.Stmt

/-!
# Parsing a source (ast/parser_structs.rs 287–399, lib.rs 92–111)
-/

namespace FM.Parser

/-- The parser functions with recursion to the given depth.  Every recursive call happens after a token has been
consumed, so a depth of the number of tokens is enough (Proofs/Parser/Safe). -/
def parsers (c : Cfg) : Nat → Rec
  | 0 => ⟨diverge, diverge, diverge, fun _ _ => diverge, diverge, diverge⟩
  | n + 1 => ⟨parseBlock (parsers c n) c, parseExpression (parsers c n) c, parsePrimary (parsers c n) c,
      parseClimb (parsers c n) c, parseType (parsers c n) c, parseTypeOrPack (parsers c n) c⟩

/-- `parse_block` on all that remains. -/
def topBlock (c : Cfg) : M (Res Blk) := fun ts => (parsers c (ts.length + 1)).block ts

/-- `Block::merge_blocks` (ast/mod.rs 110–116). -/
def Blk.merge (b other : Blk) : Blk := ⟨b.stmts ++ other.stmts, b.last.or other.last⟩

/-- `UNEXPECTED_TOKEN_ERROR` (ast/parser_structs.rs 288). -/
def unexpectedToken : String := "unexpected token, this needs to be a statement"

/-- `errors.last()` is an "unexpected token" error (ast/parser_structs.rs 317–325). -/
def lastUnexpected (errs : List Err) : Bool :=
  match errs.getLast? with
  | some (.ast _ additional _) => additional == unexpectedToken
  | _ => false

/-- The state of the loop of `parse_fallible`: `val` is the block, `errs` are all errors so far. -/
abbrev St := Run Blk

/-- What one iteration does: `break` or go on, or a panic. -/
inductive Step where
  | stop (s : St)
  | next (s : St)
  deriving Repr

/-- The iteration after a block without statements (ast/parser_structs.rs 308–336).  Its last statement, if any, is
dropped. -/
def skipToken (s : St) : Outcome Step :=
  match s.toks with
  | .ok t :: rest =>
    if t.isEof then .ok (.stop s)
    else if lastUnexpected s.errs then .ok (.next { s with toks := rest })
    else .ok (.next { s with toks := rest, errs := s.errs ++ [.ast t.token unexpectedToken none] })
  | .recovered t es :: rest =>
    if t.isEof then .ok (.stop s)
    else if lastUnexpected (s.errs ++ es.map .tokenizer) then
      .ok (.next { s with toks := rest, errs := s.errs ++ es.map .tokenizer })
    else .ok (.next { s with toks := rest, errs := s.errs ++ es.map .tokenizer ++ [.ast t.token unexpectedToken none] })
  | .fatal es :: rest => .ok (.next { s with toks := rest, errs := s.errs ++ es.map .tokenizer })
  | [] => .panic

/-- The error for statements after the last one (ast/parser_structs.rs 338–343). -/
def lateStatement (hasLast : Bool) (b : Blk) : Outcome (List Err) :=
  if hasLast then
    match (Tokens.next b.node.items).1 with
    | some t => .ok [.ast t.token "unexpected statement after last statement" none]
    | none => .panic
  else .ok []

/-- The iteration on a token that is not the end (ast/parser_structs.rs 307–346). -/
def moreStatements (c : Cfg) (hasLast : Bool) (s : St) : Outcome Step :=
  match topBlock c s.toks with
  | .ok r =>
    match r.val with
    | .value b =>
      if b.stmts.isEmpty then skipToken ⟨s.val, r.toks, s.errs ++ r.errs, s.silent + r.silent⟩
      else
        match lateStatement hasLast b with
        | .ok es => .ok (.next ⟨s.val.merge b, r.toks, s.errs ++ r.errs ++ es, s.silent + r.silent⟩)
        | .panic => .panic
        | .diverge => .diverge
    | _ => .ok (.next ⟨s.val, r.toks, s.errs ++ r.errs, s.silent + r.silent⟩)
  | .panic => .panic
  | .diverge => .diverge

/-- One iteration of the loop of `parse_fallible` (ast/parser_structs.rs 301–358). -/
def mainStep (c : Cfg) (hasLast : Bool) (s : St) : Outcome Step :=
  match s.toks with
  | .ok t :: _ => if t.isEof then .ok (.stop s) else moreStatements c hasLast s
  | .recovered _ _ :: _ => moreStatements c hasLast s
  | .fatal es :: rest => .ok (.next { s with toks := rest, errs := s.errs ++ es.map .tokenizer })
  | [] => .ok (.stop s)

/-- The loop of `parse_fallible` (ast/parser_structs.rs 300–359). -/
def mainLoop (c : Cfg) (hasLast : Bool) : Nat → St → Outcome St
  | 0, _ => .diverge
  | n + 1, s =>
    match mainStep c hasLast s with
    | .ok (.stop s) => .ok s
    | .ok (.next s) => mainLoop c hasLast n s
    | .panic => .panic
    | .diverge => .diverge

/-- `AstResult` (ast/parser_structs.rs 260–263); `silent` is the ghost counter of State.lean. -/
structure AstResult where
  ast : Ast
  errors : List Err
  silent : Nat
  deriving Repr

/-- The end of `parse_fallible` (ast/parser_structs.rs 361–382), with its debug assertion. -/
def finish (s : St) : Outcome AstResult :=
  match s.toks with
  | .ok t :: _ => if t.isEof then .ok ⟨⟨s.val.node, t⟩, s.errs, s.silent⟩ else .panic
  | .recovered t es :: _ =>
    if t.isEof then .ok ⟨⟨s.val.node, t⟩, s.errs ++ es.map .tokenizer, s.silent⟩ else .panic
  | .fatal _ :: _ => .panic
  | [] => .panic

/-- The first block (ast/parser_structs.rs 293–296). -/
def firstBlock : Res Blk → Blk
  | .value b => b
  | _ => .empty

/-- `AstResult::parse_fallible` (ast/parser_structs.rs 287–383) on the results of the tokenizer. -/
def parseTokens (c : Cfg) (ts : Toks) : Outcome AstResult :=
  match topBlock c ts with
  | .ok r =>
    match mainLoop c (firstBlock r.val).last.isSome (r.toks.length + 1) ⟨firstBlock r.val, r.toks, r.errs, r.silent⟩ with
    | .ok s => finish s
    | .panic => .panic
    | .diverge => .diverge
  | .panic => .panic
  | .diverge => .diverge

end FM.Parser

namespace FM

/-- `full_moon::parse_fallible` (lib.rs 109–111). -/
def parseFallible (c : Cfg) (source : Text) : Outcome Parser.AstResult :=
  (lexAll c source).bind (Parser.parseTokens c)

/-- `AstResult::into_result` (ast/parser_structs.rs 386–399). -/
def Parser.AstResult.intoResult (r : Parser.AstResult) : Except (List Parser.Err) Ast :=
  if r.errors.isEmpty then .ok r.ast else .error r.errors

/-- `full_moon::parse` (lib.rs 92–94) when `c.ver` is `LuaVersion::new()`. -/
def parse (c : Cfg) (source : Text) : Outcome (Except (List Parser.Err) Ast) :=
  (parseFallible c source).bind fun r => .ok r.intoResult

end FM
