import Verif.Props.Order
import Verif.Props.Punctuated
import Verif.Props.FirstError
import Verif.Model.Api
import Verif.Model.Errors
import Verif.Spec.Grammar
import Verif.Proofs.Parser.Kinds

/-!
# Token references, operators and lists as a user handles them (C33, C38, C48, C59, C71)
-/

namespace FM.Props
open FM Spec Parser

/-- **C38.** In an error-free stream the comparison of token references follows their order in the source strictly. -/
theorem references_strictly_ordered {c : Cfg} (hc : c.Reachable) {source : Text} {rs : List (LexRes TokRef)} (h : lexAll c source = .ok rs) (he : errorsOf rs = [])
    {a b d : List TokRef} {x y : TokRef} (hs : tokensOf rs = a ++ x :: (b ++ y :: d)) (hx : x.token.type ≠ .eof) : x.cmp y = .lt := by
  refine tokens_strictly_ordered hc h he (a := a.flatMap TokRef.flat ++ x.leading) (b := x.trailing ++ b.flatMap TokRef.flat ++ y.leading) (d := y.trailing ++ d.flatMap TokRef.flat) ?_ hx
  simp [flatTokens, hs, TokRef.flat]

/-- The references of `x = 1`. -/
example : ∃ rs a b d x y, lexAll cfg51 c!"x = 1" = .ok rs ∧ errorsOf rs = [] ∧ tokensOf rs = a ++ x :: (b ++ y :: d) ∧
    x.token.type = .identifier c!"x" ∧ y.token.type = .number c!"1" := by
  refine ⟨_, [], [_], [_], _, _, rfl, by decide, rfl, rfl, rfl⟩

/-- **C48.** Exchanging the token of a reference exchanges its text and keeps what is printed around it. -/
theorem withToken_display (t : TokRef) (k : Token) :
    ∃ before after, t.display = before ++ t.token.display ++ after ∧ (t.withToken k).display = before ++ k.display ++ after ∧ (t.withToken k).token = k ∧
      (t.withToken k).leading = t.leading ∧ (t.withToken k).trailing = t.trailing :=
  ⟨_, _, rfl, rfl, rfl, rfl, rfl⟩

/-- **C33.** Extending a list is pushing the pairs one after the other, and its values and separators are those of both. -/
theorem extend_pushes {α : Type} (more : List (Pair α)) : ∀ p : Punctuated α, p.extend more = more.foldl Punctuated.push p ∧
    contents (p.extend more) = contents p ++ contents ⟨more⟩ := by
  intro p
  refine ⟨?_, by simp [contents, Punctuated.extend]⟩
  induction more generalizing p with
  | nil => simp [Punctuated.extend]
  | cons x more ih => rw [List.foldl_cons, ← ih]; simp [Punctuated.extend, Punctuated.push]

/-- **C59.** The token of an operator of the grammar is its only token, and is what it is printed as. -/
theorem operator_token {c : Cfg} {k : Cat} (hk : k = .binOp ∨ k = .unOp ∨ k = .compoundOp) {n : Node} (h : Conforms c (.cat k) n) :
    ∃ t s, n.operatorToken = some t ∧ n.flat = [t] ∧ n.display = t.display ∧ t.token.type = .symbol s := by
  cases n with
  | tok t => exact absurd h (by simp [Conforms])
  | node kd cs =>
    obtain ⟨h1, -, h3, -⟩ := h
    have one : ∀ s, ConformsAll c [Part.sym s] cs → ∃ t, cs = [.tok t] ∧ t.token.type = .symbol s := by
      intro s h
      match cs, h with
      | [.tok t], ⟨⟨s', hs, e⟩, _⟩ => exact ⟨t, rfl, by simpa [List.mem_singleton.1 hs] using e⟩
      | [.node _ _], h => exact absurd h.1 (by simp [Conforms])
      | [], h => exact absurd h (by simp [ConformsAll])
      | _ :: _ :: _, h => exact absurd h.2 (by simp [ConformsAll])
    rcases hk with rfl | rfl | rfl <;> cases kd <;> first
      | exact absurd h1 (by decide)
      | obtain ⟨t, rfl, e⟩ := one _ h3
        exact ⟨t, _, rfl, by simp, by simp [Node.display], e⟩

/-- `+` with a space on both sides. -/
example : Conforms cfg51 (.cat .binOp) (.node (.binOp .plus) [.tok ⟨[.new (.whitespace c!" ")], .new (.symbol .plus), [.new (.whitespace c!" ")]⟩]) :=
  ⟨rfl, rfl, ⟨⟨_, by decide, rfl⟩, trivial⟩, trivial⟩

/-- **C71.** The position of the first error. -/
theorem first_error_position {c : Cfg} (hc : c.Reachable) {source : Text} (hs : ¬ HasShebang source) {rs : List (LexRes TokRef)} (h : lexAll c source = .ok rs)
    {tys : List TokenType} {bs : List BraceType} {rest : Text} (hb : MadeOf c [] source tys bs rest) (hk : Stuck c bs rest) :
    (errorsOf rs).head?.map TokErr.position = some (position (written tys)) := by
  obtain ⟨e, es, h1, h2, _⟩ := first_error hc hs h hb hk
  simp [h1, TokErr.position, h2]

end FM.Props
