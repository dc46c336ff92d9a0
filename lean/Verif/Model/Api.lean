import Verif.Model.Ast.Builders
import Verif.Model.Parser.Parse
import Verif.Model.Punctuated

/-!
# Small functions of the public interface
-/

namespace FM

/-- `TokenType::spaces` (tokenizer/structs.rs 381–385). -/
def TokenType.spaces (n : Nat) : TokenType := .whitespace (List.replicate n ' ')

/-- `TokenType::tabs` (tokenizer/structs.rs 388–392). -/
def TokenType.tabs (n : Nat) : TokenType := .whitespace (List.replicate n '\t')

/-- `LexerResult::unwrap` (tokenizer/lexer.rs 1524–1529). -/
def LexRes.unwrap {α : Type} : LexRes α → Outcome α
  | .ok a => .ok a
  | _ => .panic

/-- `LexerResult::unwrap_errors` (tokenizer/lexer.rs 1532–1537). -/
def LexRes.unwrapErrors {α : Type} : LexRes α → Outcome (List TokErr)
  | .fatal es | .recovered _ es => .ok es
  | .ok _ => .panic

/-- `AstResult::into_ast` (ast/parser_structs.rs 278–280); `ast` (270–272) returns a reference to the same. -/
def Parser.AstResult.intoAst (r : Parser.AstResult) : Ast := r.ast

/-- `AstResult::errors` (ast/parser_structs.rs 283–285). -/
def Parser.AstResult.allErrors (r : Parser.AstResult) : List Parser.Err := r.errors

/-- `Ast::with_nodes` (ast/mod.rs 2448–2450). -/
def Ast.withNodes (a : Ast) (nodes : Node) : Ast := { a with nodes := nodes }

/-- `Ast::with_eof` (ast/mod.rs 2453–2455). -/
def Ast.withEof (a : Ast) (eof : TokRef) : Ast := { a with eof := eof }

/-- `CompoundOp::token` (ast/compound.rs 46–68), and likewise `BinOp::token` and `UnOp::token` (ast/mod.rs 2369–2376): the only
field. -/
def Node.operatorToken : Node → Option TokRef
  | .node _ [.tok t] => Option.some t
  | _ => Option.none

/-- `ExpressionsIterator` (ast/luau.rs 1189–1192). -/
structure ExprIter where
  segments : List Node
  index : Nat

/-- The expression of a segment of an interpolated string (ast/luau.rs 1168–1171). -/
def segmentExpression : Node → Node
  | .node _ [_, e] => e
  | n => n

/-- `InterpolatedString::expressions` (ast/luau.rs 1139–1144). -/
def Node.expressions : Node → ExprIter
  | .node .interpString [.node .vec segments, _] => ⟨segments, 0⟩
  | _ => ⟨[], 0⟩

/-- `ExpressionsIterator::next` (ast/luau.rs 1197–1206); indexing past the end panics. -/
def ExprIter.next (i : ExprIter) : Outcome (Option Node × ExprIter) :=
  if i.index ≥ i.segments.length then .ok (none, i)
  else
    match i.segments[i.index]? with
    | some s => .ok (some (segmentExpression s), ⟨i.segments, i.index + 1⟩)
    | none => .panic

/-- The answers of the first `n` calls of `next` (ast/luau.rs 1197–1206). -/
def ExprIter.answers : Nat → ExprIter → Outcome (List (Option Node))
  | 0, _ => .ok []
  | n + 1, i => i.next.bind fun (a, i) => (ExprIter.answers n i).bind fun as => .ok (a :: as)

namespace Punctuated
variable {α : Type}

/-- `FromIterator` (ast/punctuated.rs 263–269). -/
def fromIter (pairs : List (Pair α)) : Punctuated α := ⟨pairs⟩

/-- `Punctuated::into_pairs` (ast/punctuated.rs 110–112); `pairs` (146–148) are references to the same. -/
def intoPairs (p : Punctuated α) : List (Pair α) := p.pairs

/-- Running `f` on every item of `pairs_mut()` (ast/punctuated.rs 160–162). -/
def forEachPairMut (f : Pair α → Pair α) (p : Punctuated α) : Punctuated α := ⟨p.pairs.map f⟩

/-- `Default for Punctuated` (ast/punctuated.rs 204–208). -/
def default : Punctuated α := new

end Punctuated

/-- `display_option` (util.rs 22–27). -/
def displayOption {α : Type} (show_ : α → Text) : Option α → Text
  | some x => show_ x
  | none => []

/-- `display_optional_punctuated` (util.rs 29–31). -/
def displayOptPunct {α : Type} (show_ : α → Text) (p : α × Option TokRef) : Text :=
  show_ p.1 ++ displayOption TokRef.display p.2

/-- `display_optional_punctuated_vec` (util.rs 33–41). -/
def displayOptPunctVec {α : Type} (show_ : α → Text) (ps : List (α × Option TokRef)) : Text :=
  ps.foldl (fun string pair => string ++ displayOptPunct show_ pair) []

/-- `join_vec` (util.rs 43–51). -/
def joinVec {α : Type} (show_ : α → Text) (xs : List α) : Text := xs.foldl (fun string item => string ++ show_ item) []

end FM
