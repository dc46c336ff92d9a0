import Verif.Proofs.Ast.Tokens
import Verif.Proofs.Ast.Similar
import Verif.Proofs.Ast.Ranges
import Verif.Props.Tokenizer

/-!
# Properties of syntax trees: C25, C26, C27, C28, C39

`HasTy R a n` says that `n` is a tree of the Rust type `a` whose tokens satisfy `R`; every value of that type is
one, and `R` is arbitrary here.
-/

namespace FM.Props
open FM FM.Spec

variable {R : TokRef → Prop} {a : Ty} {n : Node}

/-! ## Examples of trees -/

/-- A token standing after the text `before`, followed by `trailing`. -/
def tokAt (before : Text) (ty : TokenType) (trailing : List TokenType := []) : Node :=
  .tok ⟨[], ⟨position before, endPosition before ty.display, ty⟩, trailing.map .new⟩

/-- `a, b` as `Punctuated<TokenReference>`, standing after `before`. -/
def exNames (before : Text) : Node := .node .punct
  [.node .pairPunct [tokAt before (.identifier c!"a"), tokAt (before ++ c!"a") (.symbol .comma) [.whitespace c!" "]],
   .node .pairEnd [tokAt (before ++ c!"a, ") (.identifier c!"b") [.whitespace c!" "]]]

/-- `1` as an expression. -/
def exOne (before : Text) : Node := .node .exprNumber [tokAt before (.number c!"1")]

/-- `local a, b = 1`. -/
def exLocal : Node := .node .localAssignment
  [tokAt [] (.symbol .kLocal) [.whitespace c!" "], .node .vec [], exNames c!"local ", .node .vec [],
   .node .present [tokAt c!"local a, b " (.symbol .equal) [.whitespace c!" "]],
   .node .punct [.node .pairEnd [exOne c!"local a, b = "]]]

/-- `T` as a type specifier `: T`. -/
def exSpec (before : Text) : Node := .node .typeSpec
  [tokAt before (.symbol .colon), .node .tyBasic [tokAt (before ++ c!":") (.identifier c!"T")]]

/-- `local x:T`, with the type declared before the name in the Rust struct. -/
def exTyped : Node := .node .localAssignment
  [tokAt [] (.symbol .kLocal) [.whitespace c!" "], .node .vec [.node .present [exSpec c!"local x"]],
   .node .punct [.node .pairEnd [tokAt c!"local " (.identifier c!"x")]], .node .vec [], .node .absent [],
   .node .punct []]

/-- `(1)` as an expression. -/
def exParens : Node := .node .exprParens
  [.node .span [tokAt [] (.symbol .leftParen), tokAt c!"(1" (.symbol .rightParen) [.whitespace c!" "]], exOne c!"("]

/-- `[1]` as an index. -/
def exIndex : Node := .node .indexBrackets
  [.node .span [tokAt [] (.symbol .leftBracket), tokAt c!"[1" (.symbol .rightBracket) [.whitespace c!" "]], exOne c!"["]

theorem exLocal_ty : HasTy (fun _ => True) (.cat .localAssignment) exLocal := by
  simp [exLocal, exNames, exOne, tokAt, HasTy, HasTys, AllTy, Kind.cat, Kind.sig]
theorem exTyped_ty : HasTy (fun _ => True) (.cat .localAssignment) exTyped := by
  simp [exTyped, exSpec, tokAt, HasTy, HasTys, AllTy, Kind.cat, Kind.sig]
theorem exParens_ty : HasTy (fun _ => True) (.cat .expr) exParens := by
  simp [exParens, exOne, tokAt, HasTy, HasTys, Kind.cat, Kind.sig]
theorem exIndex_ty : HasTy (fun _ => True) (.cat .index) exIndex := by
  simp [exIndex, exOne, tokAt, HasTy, HasTys, Kind.cat, Kind.sig]

example : exLocal.display = c!"local a, b = 1" ∧ exTyped.display = c!"local x:T" ∧ exParens.display = c!"(1) " := by
  decide

/-! ## C25, C26 -/

/-- The answers of the iterator returned by `tokens()` to a sequence of calls of `next` and `next_back`. -/
def answers : Tokens → List Side → List (Option TokRef)
  | _, [] => []
  | ts, .front :: cs => (Tokens.next ts).1 :: answers (Tokens.next ts).2 cs
  | ts, .back :: cs => (Tokens.nextBack ts).1 :: answers (Tokens.nextBack ts).2 cs

theorem answers_rest (ts : Tokens) (cs : List Side) : answers ts cs = twoEnded ts.rest cs := by
  induction cs generalizing ts with
  | nil => rfl
  | cons s cs ih =>
    cases s with
    | front => obtain ⟨h1, h2⟩ := next_spec ts; simp [answers, twoEnded, h1, ih, h2]
    | back => obtain ⟨h1, h2⟩ := nextBack_spec ts; simp [answers, twoEnded, h1, ih, h2]

/-- **C26.** Whatever the interleaving of `next` and `next_back`, the iterator behaves as one over a fixed list:
fronts are its prefix, backs its reversed suffix, and both ends report exhaustion. -/
theorem tokens_double_ended (n : Node) : ∃ l, ∀ calls, answers n.items calls = twoEnded l calls :=
  ⟨n.tokens, fun calls => by rw [answers_rest, (items_spec n).1]⟩

/-- **C26.** The list of `tokens_double_ended` is the one obtained by calling `next` until it is exhausted. -/
theorem tokens_collect (n : Node) : ∃ l, (∀ calls, answers n.items calls = twoEnded l calls) ∧
    answers n.items (List.replicate (l.length + 1) .front) = l.map some ++ [none] := by
  refine ⟨n.tokens, fun calls => by rw [answers_rest, (items_spec n).1], ?_⟩
  rw [answers_rest, (items_spec n).1]
  induction n.tokens with
  | nil => rfl
  | cons t ts ih => simpa [List.replicate_succ, twoEnded] using ih

/-- **C26.** Nothing is returned twice or lost: after `i` calls of `next` and `j` of `next_back`, in any order, with
`i + j` at most the number of tokens, exactly the middle of the list is left. -/
theorem twoEnded_middle {α : Type} (l : List α) (calls rest : List Side) (h : calls.length ≤ l.length) :
    twoEnded l (calls ++ rest) = twoEnded l calls ++
      twoEnded ((l.drop (calls.count .front)).take (l.length - calls.length)) rest := by
  induction calls generalizing l with
  | nil => simp [twoEnded]
  | cons s cs ih =>
    have hl : cs.length ≤ l.tail.length ∧ cs.length ≤ l.dropLast.length := by
      simp only [List.length_cons] at h; simp; omega
    cases s with
    | front =>
      rw [List.cons_append, twoEnded, twoEnded, ih _ hl.1]
      simp only [List.count_cons_self, List.length_cons, List.length_tail, List.cons_append, List.cons.injEq, true_and]
      congr 2
      rw [← List.drop_one, List.drop_drop, Nat.add_comm 1, show l.length - 1 - cs.length = l.length - (cs.length + 1) by omega]
    | back =>
      rw [List.cons_append, twoEnded, twoEnded, ih _ hl.2]
      have hc : (Side.back :: cs).count .front = cs.count .front := by simp
      have hle : cs.count .front ≤ cs.length := List.count_le_length
      simp only [hc, List.length_cons, List.length_dropLast, List.cons_append, List.cons.injEq, true_and]
      congr 2
      rw [List.dropLast_eq_take, List.drop_take, List.take_take]
      simp only [List.length_cons] at h
      congr 1
      omega

/-- **C25.** The tokens obtained by iterating `tokens()` to exhaustion are those of the printed node, each exactly
once.  `AnnotationsFit` excludes trees with more type specifiers than names, which never print their surplus. -/
theorem tokens_permutation (hty : HasTy R a n) (hfit : AnnotationsFit n) : ∃ l : List TokRef,
    answers n.items (List.replicate (l.length + 1) .front) = l.map some ++ [none] ∧ l.Perm n.flat := by
  obtain ⟨l, h1, h2⟩ := tokens_collect n
  have hl : l = n.tokens := by
    have := h1 (List.replicate (l.length + n.tokens.length + 1) .front)
    rw [answers_rest, (items_spec n).1] at this
    have key : ∀ (l m : List TokRef) k, l.length ≤ k → m.length ≤ k → twoEnded l (List.replicate k .front) =
        twoEnded m (List.replicate k .front) → l = m := by
      intro l m k
      induction k generalizing l m with
      | zero =>
        intro h1 h2 _
        rw [List.eq_nil_of_length_eq_zero (Nat.le_zero.1 h1), List.eq_nil_of_length_eq_zero (Nat.le_zero.1 h2)]
      | succ k ih =>
        intro h1 h2 h
        simp only [List.replicate_succ, twoEnded, List.cons.injEq] at h
        cases l with
        | nil => cases m with
          | nil => rfl
          | cons y m => simp at h
        | cons x l => cases m with
          | nil => simp at h
          | cons y m =>
            simp only [List.head?_cons, Option.some.injEq, List.tail_cons] at h
            rw [h.1, ih l m (by simpa using h1) (by simpa using h2) h.2]
    exact (key _ _ _ (by omega) (by omega) this).symm
  exact ⟨l, h2, List.perm_iff_count.2 fun t => by rw [hl]; exact count_tokens t n ⟨a, hty⟩ hfit⟩

example : AnnotationsFit exTyped ∧ AnnotationsFit exLocal := by
  simp [AnnotationsFit, exTyped, exSpec, exLocal, exNames, exOne, tokAt, Node.Every, Node.Every.everys, annotationsFit,
    Node.children]

/-- In declaration order the type of `local x:T` comes before its name. -/
example : (answers exTyped.items [.front, .back, .front, .back, .front]).map (Option.map TokRef.display) =
    [some c!"local ", some c!"x", some c!":", some c!"T", none] := by decide

/-- Without `AnnotationsFit` the claim fails: the surplus type specifier is iterated but not printed. -/
theorem tokens_permutation_needs_fit : ∃ n, HasTy (fun _ => True) (.cat .localAssignment) n ∧
    ∃ t ∈ n.tokens, t ∉ n.flat := by
  refine ⟨.node .localAssignment [tokAt [] (.symbol .kLocal), .node .vec [.node .present [exSpec []]], .node .punct [],
    .node .vec [], .node .absent [], .node .punct []], ?_, ⟨[], ⟨position [], endPosition [] c!":", .symbol .colon⟩, []⟩, ?_, ?_⟩
  · simp [exSpec, tokAt, HasTy, HasTys, AllTy, Kind.cat, Kind.sig]
  · decide
  · decide

/-! ## C28 -/

/-- **C28.** `similar` compares exactly the trees without positions, trivia and separators of lists. -/
theorem similar_iff_shape {m : Node} (hn : HasTy R a n) (hm : HasTy R a m) :
    n.similar m = true ↔ shape n = shape m := similar_iff n m ⟨a, hn⟩ ⟨a, hm⟩

/-- **C28.** `similar` is reflexive. -/
theorem similar_refl (hn : HasTy R a n) : n.similar n = true := (similar_iff_shape hn hn).2 rfl

/-- **C28.** `similar` is symmetric. -/
theorem similar_symm {m : Node} (hn : HasTy R a n) (hm : HasTy R a m) (h : n.similar m = true) : m.similar n = true :=
  (similar_iff_shape hm hn).2 ((similar_iff_shape hn hm).1 h).symm

/-- **C28.** `similar` is transitive. -/
theorem similar_trans {m k : Node} (hn : HasTy R a n) (hm : HasTy R a m) (hk : HasTy R a k) (h1 : n.similar m = true)
    (h2 : m.similar k = true) : n.similar k = true :=
  (similar_iff_shape hn hk).2 (((similar_iff_shape hn hm).1 h1).trans ((similar_iff_shape hm hk).1 h2))

/-- **C28.** `similar` does not depend on positions and trivia: replacing tokens by tokens of the same type, with
any positions and trivia, gives a similar tree. -/
theorem similar_mapTok {h : TokRef → TokRef} (hh : ∀ t, (h t).token.type = t.token.type) (hn : HasTy R a n)
    (hm : HasTy R a (n.mapTok h)) : n.similar (n.mapTok h) = true :=
  (similar_iff_shape hn hm).2 (shape_mapTok hh n).symm

/-- Two lists that differ only in their separator are similar: separators are ignored. -/
theorem similar_ignores_separators : ∃ n m, HasTy (fun _ => True) (.punct (.cat .expr)) n ∧
    HasTy (fun _ => True) (.punct (.cat .expr)) m ∧ n.similar m = true ∧ n.display ≠ m.display := by
  refine ⟨.node .punct [.node .pairPunct [exOne [], tokAt [] (.symbol .comma)]],
    .node .punct [.node .pairPunct [exOne [], tokAt [] (.symbol .semicolon)]], ?_, ?_, by decide, by decide⟩ <;>
    simp [exOne, tokAt, HasTy, HasTys, AllTy, Kind.cat, Kind.sig]

example : exLocal.similar (exLocal.mapTok bare) = true ∧ exLocal.similar exTyped = false := by decide

/-! ## C39 -/

theorem surroundingTrivia_eq (n : Node) : n.surroundingTrivia =
    ((n.tokens.head?.map TokRef.leading).getD [], (n.tokens.tail.getLast?.map TokRef.trailing).getD []) := by
  obtain ⟨h1, h2⟩ := next_spec n.items
  obtain ⟨h3, -⟩ := nextBack_spec (Tokens.next n.items).2
  simp only [Node.surroundingTrivia, h1, h3, h2, (items_spec n).1]

/-- **C39** (partial: the leading trivia).  The first component of `surrounding_trivia` is the leading trivia of the first
printed token, for every node. -/
theorem surrounding_trivia_leading_partial (hty : HasTy R a n) :
    n.surroundingTrivia.1 = (n.flat.head?.map TokRef.leading).getD [] := by
  rw [surroundingTrivia_eq, head_tokens n ⟨a, hty⟩]

/-- **C39** (partial: nodes with at least two tokens, none of whose parts is printed inside brackets declared before
it).  `surrounding_trivia` is the leading trivia of the first printed token and the trailing trivia of the last
one. -/
theorem surrounding_trivia_partial (hty : HasTy R a n) (hs : Straight n) (h2 : 2 ≤ n.flat.length)
    (hfit : AnnotationsFit n) : n.surroundingTrivia =
      ((n.flat.head?.map TokRef.leading).getD [], (n.flat.getLast?.map TokRef.trailing).getD []) := by
  obtain ⟨e1, e2⟩ := ends_tokens n ⟨a, hty⟩ hs
  have hl : n.tokens.length = n.flat.length :=
    (List.perm_iff_count.2 fun t => count_tokens t n ⟨a, hty⟩ hfit : n.tokens.Perm n.flat).length_eq
  have : n.tokens.tail.getLast? = n.tokens.getLast? := by
    match h : n.tokens with
    | [] => rfl
    | [t] => rw [h] at hl; simp at hl; omega
    | t :: u :: ts => simp [List.getLast?_cons]
  rw [surroundingTrivia_eq, this, e1, e2]

example : Straight exLocal ∧ 2 ≤ exLocal.flat.length ∧ AnnotationsFit exLocal := by
  refine ⟨?_, by decide, ?_⟩
  · simp [Straight, exLocal, exNames, exOne, tokAt, Node.Every, Node.Every.everys, straight, Node.flat, Node.fold,
      Node.folds, arrange, Kind.layout, concat]
  · simp [AnnotationsFit, exLocal, exNames, exOne, tokAt, Node.Every, Node.Every.everys, annotationsFit, Node.children]

/-- **C39 does not hold** for a node with a single token: its trailing trivia is not reported. -/
theorem surrounding_trivia_single : ∃ n, HasTy (fun _ => True) (.cat .expr) n ∧
    n.flat.getLast?.map TokRef.trailing ≠ some n.surroundingTrivia.2 := by
  refine ⟨.node .exprNumber [tokAt [] (.number c!"1") [.whitespace c!" "]], ?_, by decide⟩
  simp [tokAt, HasTy, HasTys, Kind.cat, Kind.sig]

/-- **C39 does not hold** for bracketed nodes: for `(1) ` the trailing trivia reported is that of `1`. -/
theorem surrounding_trivia_brackets : ∃ n, HasTy (fun _ => True) (.cat .expr) n ∧ 2 ≤ n.flat.length ∧
    n.flat.getLast?.map TokRef.trailing ≠ some n.surroundingTrivia.2 :=
  ⟨exParens, exParens_ty, by decide, by decide⟩

/-! ## C27 -/

/-- **C27** (partial: the start).  `range` starts where the first printed token starts; there is a range exactly if the node
has a token.  `Listed` excludes trees in which a list has an element that prints nothing or a semicolon stands before its
statement; a list of options has no range of its own. -/
theorem range_start_partial (ha : a.regular = true) (hty : HasTy R a n) (hl : Listed n) :
    n.range.map Prod.fst = n.flat.head?.map fun t => t.token.start := by
  obtain ⟨h1, h2⟩ := starts n a ha hty hl
  rw [Node.range, h1]
  cases hf : n.flat with
  | nil => rfl
  | cons t ts =>
    obtain ⟨p, hp⟩ := Option.ne_none_iff_exists'.1 (h2 (by simp [hf]))
    simp [hp]

/-- **C27** (partial: nodes that close).  `range` starts where the first printed token starts and ends where the last printed
token ends; it is `None` exactly if the node has no token. -/
theorem range_partial (ha : a.regular = true) (hty : HasTy R a n) (hl : Listed n) (hfit : AnnotationsFit n) (hcl : Closes n) :
    n.range = match n.flat.head?, n.flat.getLast? with
      | some t, some u => some (t.token.start, u.token.stop)
      | _, _ => none := by
  have h1 := (starts n a ha hty hl).1
  have h2 := ends_at hcl a ha hty hl hfit
  rw [Node.range, h1, h2]
  cases hf : n.flat with
  | nil => rfl
  | cons t ts =>
    obtain ⟨u, hu⟩ : ∃ u, (t :: ts).getLast? = some u := ⟨_, List.getLast?_eq_some_getLast (by simp)⟩
    simp [hu]

/-- `local a, b = 1` closes: its last part `1` does. -/
example : Listed exLocal ∧ AnnotationsFit exLocal ∧ Closes exLocal := by
  refine ⟨?_, ?_, ?_⟩
  · simp [Listed, exLocal, exNames, exOne, tokAt, Node.Every, Node.Every.everys, listed, Node.flat, Node.fold, Node.folds,
      arrange, Kind.layout, concat]
  · simp [AnnotationsFit, exLocal, exNames, exOne, tokAt, Node.Every, Node.Every.everys, annotationsFit, Node.children]
  · refine .last (k := .localAssignment) (pre := [_, _, _, _, _]) (post := []) ?_ (by decide) nofun
      (.last (k := .punct) (pre := []) (post := []) trivial (by decide) nofun
        (.last (k := .pairEnd) (pre := []) (post := []) trivial (by decide) nofun
          (.last (k := .exprNumber) (pre := []) (post := []) trivial (by decide) nofun (.tok _))))
    exact .inl (by decide)

example : exLocal.range = some (⟨0, 1, 1⟩, ⟨14, 1, 15⟩) := by decide

/-- **C27 does not hold** for an index `[1]`: its range ends where the expression inside ends. -/
theorem range_index : ∃ n, HasTy (fun _ => True) (.cat .index) n ∧
    n.range.map Prod.snd ≠ n.flat.getLast?.map fun t => t.token.stop :=
  ⟨exIndex, exIndex_ty, by decide⟩

/-- **C27 does not hold** for `local x:T`: its range ends where the name ends, since the type is declared before the
name. -/
theorem range_local : ∃ n, HasTy (fun _ => True) (.cat .localAssignment) n ∧
    n.range.map Prod.snd ≠ n.flat.getLast?.map fun t => t.token.stop :=
  ⟨exTyped, exTyped_ty, by decide⟩

end FM.Props
