import Verif.Model.Api
import Verif.Props.Streaming
import Verif.Props.Punctuated
import Verif.Props.Parsing
import Verif.Proofs.Parser.Kinds
import Verif.Proofs.Parser.Clean

/-!
# Small functions of the public interface: C33, C48, C58
-/

namespace FM.Props
open FM FM.Spec FM.Parser FM.Parser.Clean

/-! ## C58: what results say about errors -/

/-- What a caller learns from a result: `unwrap` and `unwrap_errors` never both return. -/
inductive Says {α : Type} (r : LexRes α) : Prop where
  /-- There is a value, there are no errors, and asking for errors panics. -/
  | value (a : α) (h : r.unwrap = .ok a) (he : r.unwrapErrors = .panic)
  /-- There is at least one error, and asking for a value panics. -/
  | errors (e : TokErr) (es : List TokErr) (h : r.unwrap = .panic) (he : r.unwrapErrors = .ok (e :: es))

/-- **C58.** Each result the tokenizer hands out has either a value and no error, or at least one error; `unwrap` and
`unwrap_errors` panic on exactly the other kind. -/
theorem result_says {c : Cfg} (hc : c.Reachable) {source : Text} {rs : List (LexRes TokRef)} (h : lexAll c source = .ok rs)
    {r : LexRes TokRef} (hr : r ∈ rs) : Says r := by
  cases r with
  | ok t => exact .value t rfl rfl
  | fatal es =>
    cases es with
    | nil => exact absurd rfl (failed_results_have_errors hc h (.inl hr))
    | cons e es => exact .errors e es rfl rfl
  | recovered t es =>
    cases es with
    | nil => exact absurd rfl (failed_results_have_errors hc h (.inr ⟨t, hr⟩))
    | cons e es => exact .errors e es rfl rfl

/-- **C58.** What `collect` returns, after any sequence of calls: if no remaining result has an error, `unwrap` returns
the remaining tokens and `unwrap_errors` panics; otherwise `unwrap` panics and `unwrap_errors` returns the errors.  In
both cases `errors` returns the errors. -/
theorem collected_says {c : Cfg} (hc : c.Reachable) {source : Text} {rs : List (LexRes TokRef)} (h : lexAll c source = .ok rs) :
    ∃ x, Lexer.new c source = .ok x ∧ ∀ calls : List Call, ∃ answers y r,
      runCalls c x calls = .ok (answers, y) ∧ y.collect c = .ok r ∧
      r.errors = errorsOf (remaining rs calls) ∧
      (errorsOf (remaining rs calls) = [] →
        r.unwrap = .ok (flatTokens (remaining rs calls)) ∧ r.unwrapErrors = .panic) ∧
      (errorsOf (remaining rs calls) ≠ [] →
        r.unwrap = .panic ∧ r.unwrapErrors = .ok (errorsOf (remaining rs calls))) := by
  obtain ⟨x, h1, h2⟩ := streaming_is_cursor hc h
  refine ⟨x, h1, fun calls => ?_⟩
  obtain ⟨y, h3, h4⟩ := h2 calls
  refine ⟨_, y, _, h3, h4, ?_⟩
  generalize errorsOf (remaining rs calls) = es
  cases es with
  | nil => exact ⟨rfl, fun _ => ⟨rfl, rfl⟩, fun h => absurd rfl h⟩
  | cons e es => exact ⟨rfl, fun h => (nomatch h), fun _ => ⟨rfl, rfl⟩⟩

/-- Both cases of the two theorems: a source without errors, and one with an error before the last token. -/
example : (∃ rs, lexAll cfg51 c!"x = 1" = .ok rs ∧ rs.length = 4 ∧ errorsOf rs = []) ∧
    ∃ rs, lexAll cfg51 c!"a $ b" = .ok rs ∧ rs.length = 4 ∧ errorsOf rs ≠ [] ∧
      errorsOf (remaining rs [.consume, .consume]) = [] :=
  ⟨⟨_, rfl, rfl, rfl⟩, ⟨_, rfl, rfl, (fun h => nomatch h), rfl⟩⟩

/-- **C58, partial.** `LexerResult::errors` returns the errors of a result.  Missing: fatal results, for which it
returns none (next theorem). -/
theorem errors_complete_partial {α : Type} (r : LexRes α) (hf : ∀ es, r ≠ .fatal es) :
    r.errors = (match r.unwrapErrors with | .ok es => es | _ => []) := by
  cases r with
  | ok a => rfl
  | fatal es => exact absurd rfl (hf es)
  | recovered a es => rfl

/-- The documentation says that `LexerResult::errors` "returns the errors, if there was any".  A fatal result has errors,
and `errors` returns none: the second result for this source is one. -/
theorem errors_lost : ∃ rs r, lexAll cfg51 c!"a $ b" = .ok rs ∧ rs[1]? = some r ∧
    r.unwrapErrors = .ok [⟨.unexpectedToken '$', ⟨2, 1, 3⟩, ⟨3, 1, 4⟩⟩] ∧ r.errors = [] :=
  ⟨_, _, rfl, rfl, rfl, rfl⟩

/-- The accessors of the result of `parse_fallible`, and `parse`: the tree is returned exactly if there are no errors. -/
theorem ast_result_says {c : Cfg} {source : Text} {r : AstResult} (h : parseFallible c source = .ok r) :
    (r.allErrors = [] → parse c source = .ok (.ok r.intoAst)) ∧
    (r.allErrors ≠ [] → parse c source = .ok (.error r.allErrors)) := by
  unfold parse
  rw [h]
  simp only [AstResult.allErrors, AstResult.intoAst, AstResult.intoResult, Outcome.bind]
  cases r.errors <;> simp

/-- Both cases occur. -/
example : (∃ r, parseFallible cfg51 c!"local x = 1" = .ok r ∧ r.allErrors = []) ∧
    ∃ r, parseFallible cfg51 c!"local = 1" = .ok r ∧ r.allErrors ≠ [] := by
  constructor
  · exact Outcome.run (P := fun r : AstResult => r.allErrors = []) (by decide +kernel)
  · exact Outcome.run (P := fun r : AstResult => r.allErrors ≠ []) (by decide +kernel)

/-! ## Replacing the parts of a tree -/

/-- **C48.** `with_nodes` and `with_eof` replace one part and keep the other, and the replaced part is what is
printed. -/
theorem ast_with (a : Ast) (n : Node) (e : TokRef) :
    (a.withNodes n).nodes = n ∧ (a.withNodes n).eof = a.eof ∧ (a.withEof e).nodes = a.nodes ∧ (a.withEof e).eof = e ∧
    (a.withNodes n).display = n.display ++ a.eof.display ∧ (a.withEof e).display = a.nodes.display ++ e.display ∧
    (a.withNodes n).withEof e = (a.withEof e).withNodes n := ⟨rfl, rfl, rfl, rfl, rfl, rfl, rfl⟩

/-- **C48.** The tokens made by `TokenType::spaces` and `TokenType::tabs` print as that many spaces or tabs. -/
theorem spaces_print (n : Nat) (a b : Position) :
    (Token.mk a b (.spaces n)).display = List.replicate n ' ' ∧ (Token.mk a b (.tabs n)).display = List.replicate n '\t' ∧
    (TokenType.spaces n).isTrivia = true ∧ (TokenType.tabs n).isTrivia = true := ⟨rfl, rfl, rfl, rfl⟩

/-! ## Interpolated strings -/

/-- An interpolated string made of literal parts, each followed by an expression, and a last literal part. -/
def interpolated (segments : List (TokRef × Node)) (last : TokRef) : Node :=
  .node .interpString [.node .vec (segments.map fun s => .node .interpSegment [.tok s.1, s.2]), .tok last]

theorem answers_eq (segments : List (TokRef × Node)) : ∀ (m i : Nat),
    ExprIter.answers m ⟨segments.map fun s => .node .interpSegment [.tok s.1, s.2], i⟩ =
      .ok ((List.range' i m).map fun j => (segments.map Prod.snd)[j]?)
  | 0, _ => rfl
  | m + 1, i => by
    rw [ExprIter.answers, List.range'_succ, List.map_cons]
    by_cases hi : i < segments.length
    · have : (ExprIter.next ⟨segments.map fun s => .node .interpSegment [.tok s.1, s.2], i⟩) =
          .ok ((segments.map Prod.snd)[i]?, ⟨segments.map fun s => .node .interpSegment [.tok s.1, s.2], i + 1⟩) := by
        simp [ExprIter.next, hi, Nat.not_le.mpr hi, segmentExpression]
      simp only [this, Outcome.bind, answers_eq segments m (i + 1)]
    · have : (ExprIter.next ⟨segments.map fun s => .node .interpSegment [.tok s.1, s.2], i⟩) =
          .ok (Option.none, ⟨segments.map fun s => .node .interpSegment [.tok s.1, s.2], i⟩) := by
        simp [ExprIter.next, Nat.le_of_not_lt hi]
      simp only [this, Outcome.bind, answers_eq segments m i]
      have hn : ∀ k m, segments.length ≤ k →
          (List.range' k m).map (fun j => (segments.map Prod.snd)[j]?) = List.replicate m Option.none := by
        intro k m
        induction m generalizing k with
        | zero => intro _; rfl
        | succ m ih =>
          intro hk
          rw [List.range'_succ, List.map_cons, ih (k + 1) (by omega), List.replicate_succ]
          simp [hk]
      rw [hn i m (by omega), hn (i + 1) m (by omega)]
      simp [Nat.le_of_not_lt hi]

/-- **C48.** `InterpolatedString::expressions` yields the expressions between the literal parts, each once and in order,
and nothing after them, however often it is asked; it never panics. -/
theorem interpolated_expressions (segments : List (TokRef × Node)) (last : TokRef) (m : Nat) :
    ExprIter.answers m (interpolated segments last).expressions =
      .ok ((List.range m).map fun j => (segments.map Prod.snd)[j]?) := by
  rw [List.range_eq_range']
  exact answers_eq segments m 0

/-- Every interpolated string of a tree has that form. -/
theorem interpolated_form {R₀ : TokRef → Prop} {n : Node} (h : HasTy R₀ (.cat .interpString) n) :
    ∃ segments last, n = interpolated segments last := by
  obtain ⟨k, cs, hk, hcs, rfl⟩ := hasTy_cat.mp h
  have : k = .interpString := by cases k <;> simp [Kind.cat] at hk <;> rfl
  subst this
  simp only [Kind.sig, hasTys_cons, hasTys_nil] at hcs
  obtain ⟨v, _, hv, ⟨t, _, ht, rfl, rfl⟩, rfl⟩ := hcs
  obtain ⟨ss, hss, rfl⟩ := hasTy_vec.mp hv
  obtain ⟨t, _, rfl⟩ := hasTy_tok.mp ht
  suffices ∃ segments : List (TokRef × Node), ss = segments.map fun s => .node .interpSegment [.tok s.1, s.2] by
    obtain ⟨segments, rfl⟩ := this
    exact ⟨segments, t, rfl⟩
  clear h hv
  induction ss with
  | nil => exact ⟨[], rfl⟩
  | cons s ss ih =>
    obtain ⟨segments, rfl⟩ := ih (fun c hc => hss c (List.mem_cons_of_mem _ hc))
    obtain ⟨k, cs, hk, hcs, rfl⟩ := hasTy_cat.mp (hss s (by simp))
    have : k = .interpSegment := by cases k <;> simp [Kind.cat] at hk <;> rfl
    subst this
    simp only [Kind.sig, hasTys_cons, hasTys_nil] at hcs
    obtain ⟨a, _, ha, ⟨e, _, _, rfl, rfl⟩, rfl⟩ := hcs
    obtain ⟨a, _, rfl⟩ := hasTy_tok.mp ha
    exact ⟨(a, e) :: segments, rfl⟩

/-- An interpolated string with two expressions: two answers, then none. -/
example (a b : Node) (s t u : TokRef) :
    ExprIter.answers 4 (interpolated [(s, a), (t, b)] u).expressions =
      .ok [some a, some b, none, none] := rfl

/-! ## Punctuated sequences and printing -/

/-- **C33.** A sequence built from pairs holds these pairs, and `into_pairs` gives them back; `default` is empty. -/
theorem punctuated_pairs {α : Type} (p : Punctuated α) (ps : List (Pair α)) (f : Pair α → Pair α) :
    contents (Punctuated.fromIter ps) = ps.map Pair.intoTuple ∧ (Punctuated.fromIter ps).intoPairs = ps ∧
    Punctuated.fromIter p.intoPairs = p ∧ contents (Punctuated.default : Punctuated α) = [] ∧
    (p.forEachPairMut f).intoPairs = p.intoPairs.map f := ⟨rfl, rfl, rfl, rfl, rfl⟩

theorem joinVec_eq {α : Type} (f : α → Text) (xs : List α) : joinVec f xs = xs.flatMap f := by
  have : ∀ acc, xs.foldl (fun string item => string ++ f item) acc = acc ++ xs.flatMap f := by
    induction xs with
    | nil => simp
    | cons x xs ih => intro acc; simp [ih]
  exact this []

theorem displayOptPunctVec_eq {α : Type} (f : α → Text) (ps : List (α × Option TokRef)) :
    displayOptPunctVec f ps = ps.flatMap (displayOptPunct f) := joinVec_eq _ ps

/-- A statement and its semicolon. -/
def stmtNode (p : Node × Option TokRef) : Node := .node .tuple [p.1, optTok p.2]

theorem display_stmtNode (p : Node × Option TokRef) : (stmtNode p).display = displayOptPunct Node.display p := by
  obtain ⟨n, o⟩ := p
  cases o <;> simp [stmtNode, Node.display, displayOptPunct, displayOption]

/-- **C48.** A block is printed as the helpers in util.rs say: the statements in order, each with its semicolon, and the
last statement with its own. -/
theorem block_display (stmts : List (Node × Option TokRef)) (last : Option (Node × Option TokRef)) :
    (Node.node .block [.node .vec (stmts.map stmtNode), optNode (last.map stmtNode)]).display =
      displayOptPunctVec Node.display stmts ++ displayOption (displayOptPunct Node.display) last := by
  have hv : ∀ ns : List Node, (ns.flatMap Node.flat).flatMap TokRef.display = ns.flatMap Node.display := by
    intro ns; rw [List.flatMap_assoc]; rfl
  have hd : (stmts.map stmtNode).flatMap Node.display = stmts.flatMap (displayOptPunct Node.display) := by
    rw [List.flatMap_map, List.flatMap_def, List.flatMap_def, List.map_congr_left (fun p _ => display_stmtNode p)]
  rw [displayOptPunctVec_eq, ← hd, ← hv]
  have hl : (optNode (last.map stmtNode)).display = displayOption (displayOptPunct Node.display) last := by
    cases last with
    | none => rfl
    | some p =>
      show (Node.some (stmtNode p)).display = displayOptPunct Node.display p
      rw [← display_stmtNode, Node.display, FM.Parser.Clean.flat_some]; rfl
  rw [← hl]
  simp [Node.display]

end FM.Props
