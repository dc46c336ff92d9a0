import Verif.Spec.Shebang
import Verif.Props.Within

/-!
# Properties of sources with a `#!` line: C64
-/

namespace FM.Props
open FM FM.Spec FM.Parser

variable {c : Cfg} {line rest : Text} {rs : List (LexRes TokRef)} {ast : Ast}

theorem afterLine_noShebang (h : AfterLine rest) : ¬ HasShebang rest := by
  rcases h with rfl | h
  · decide
  · match rest, h with
    | _ :: _, h =>
      cases h
      intro hs
      unfold HasShebang at hs
      simp at hs

/-- **C64, tokens.**  If a source has no tokenizer errors and begins with a line break, or is empty, a `#!` line in front of it
becomes part of the leading trivia of the first token; the tokens and the other trivia stay the same, up to positions. -/
theorem shebang_tokens (hc : c.Reachable) (hline : IsShebang line) (hrest : AfterLine rest) (hl : lexAll c rest = .ok rs) (he : errorsOf rs = []) :
    ∃ rs', lexAll c (line ++ rest) = .ok rs' ∧ errorsOf rs' = [] ∧
      (tokensOf rs').map unplaced = withLine line ((tokensOf rs).map unplaced) := by
  have hno := afterLine_noShebang hrest
  have hk := shebangKept_of_no_shebang hno rs
  have hlex : Lexes c [] rest ((flatTokens rs).map Token.type) := by
    rcases (lexical_grammar hc).1 ⟨rs, hl, he, hk, rfl⟩ with ⟨-, h⟩ | ⟨line', rest', tys, rfl, h, -⟩
    · exact h
    · exact absurd (shebang_append h) hno
  obtain ⟨rs', hl', he', hk', hty⟩ := (lexical_grammar (source := line ++ rest) hc).2
    (.inr ⟨line, rest, _, rfl, hline.1, hline.2, hrest, rfl, hlex⟩)
  refine ⟨rs', hl', he', ?_⟩
  have hatt := clean_attaches hc hl he hk
  have hatt' := clean_attaches hc hl' he' hk'
  have hne : ∃ t ts, tokensOf rs = t :: ts := by
    cases ht : tokensOf rs with
    | nil =>
      rw [flatTokens, ht] at hlex
      cases hlex
    | cons t ts => exact ⟨t, ts, rfl⟩
  obtain ⟨t, ts, ht⟩ := hne
  generalize flatTokens rs = fl at hatt hty
  rw [ht] at hatt ⊢
  cases hatt with
  | @cons leading token more refs h1 h2 h3 =>
    have := Attaches.cons (leading := ⟨⟨0, 0, 0⟩, ⟨0, 0, 0⟩, .shebang line⟩ :: leading) (fun x hx => by
      rcases List.mem_cons.1 hx with rfl | hx
      · rfl
      · exact h1 x hx) h2 h3
    have := attaches_unplaced this hatt' (by rw [hty]; rfl)
    rw [this]
    rfl

/-- Up to positions, the tokens that are left when the trivia are taken away are the same. -/
theorem withLine_plain (line : Text) (ts : List TokRef) : (withLine line ts).map plain = ts.map plain := by
  cases ts with
  | nil => rfl
  | cons t ts => rfl

theorem shebang_plain (hc : c.Reachable) (hline : IsShebang line) (hrest : AfterLine rest) (hl : lexAll c rest = .ok rs) (he : errorsOf rs = []) :
    ∃ rs', lexAll c (line ++ rest) = .ok rs' ∧ errorsOf rs' = [] ∧ rs.map plainRes = rs'.map plainRes ∧
      (tokensOf rs').map unplaced = withLine line ((tokensOf rs).map unplaced) := by
  obtain ⟨rs', hl', he', h⟩ := shebang_tokens hc hline hrest hl he
  refine ⟨rs', hl', he', ?_, h⟩
  have hok := all_ok_of_no_errors he fun es hr => failed_results_have_errors hc hl hr
  have hok' := all_ok_of_no_errors he' fun es hr => failed_results_have_errors hc hl' hr
  have := congrArg (List.map plain) h
  rw [withLine_plain] at this
  simp only [List.map_map, Function.comp_def, plain_unplaced] at this
  rw [hok, hok']
  have := congrArg (List.map LexRes.ok) this
  simp only [List.map_map] at this ⊢
  exact this.symm

/-- **C64.**  A `#!` line in front of a source without tokenizer errors makes no difference to parsing, whatever that does:
trees, errors and their messages only differ in white space, comments and positions. -/
theorem shebang_irrelevant (hc : c.Reachable) (hline : IsShebang line) (hrest : AfterLine rest) (hl : lexAll c rest = .ok rs) (he : errorsOf rs = []) :
    (parseFallible c (line ++ rest)).bind (fun r => .ok (plainResult r)) = (parseFallible c rest).bind (fun r => .ok (plainResult r)) := by
  obtain ⟨rs', hl', -, h, -⟩ := shebang_plain hc hline hrest hl he
  exact formatting_irrelevant hl' hl h.symm

theorem withLine_split {l : Text} {e e' : TokRef} : ∀ {F F' D D' : List TokRef}, F' ++ (D' ++ [e']) = withLine l (F ++ (D ++ [e])) → F'.length = F.length →
    (F = [] → D = []) → F' ++ [e'] = withLine l (F ++ [e])
  | [], [], D, D', h, _, hd => by
    obtain rfl := hd rfl
    simp only [List.nil_append, withLine] at h ⊢
    have : D' = [] := by
      have := congrArg List.length h
      simp only [List.length_append, List.length_cons, List.length_nil] at this
      exact List.length_eq_zero_iff.1 (by omega)
    subst this
    exact h
  | t :: F, t' :: F', D, D', h, hl, _ => by
    simp only [List.cons_append, withLine, List.cons.injEq] at h ⊢
    obtain ⟨h1, h2⟩ := List.append_inj h.2 (by simpa using hl)
    obtain ⟨-, h3⟩ := List.append_inj' h2 rfl
    exact ⟨h.1, by rw [h1, h3]⟩
  | [], _ :: _, _, _, _, hl, _ => by simp at hl
  | _ :: _, [], _, _, _, hl, _ => by simp at hl

theorem display_unplaced (t : TokRef) : (unplaced t).display = t.display := by
  simp [TokRef.display, unplaced, List.flatMap_map, Token.display]
  rfl

/-- A last statement has a token. -/
theorem last_flat {n : Node} (hg : Conforms c (.cat .block) n) (h : HasLast n) : n.flat ≠ [] := by
  obtain ⟨stmts, last, rfl⟩ := h
  rw [Conforms, production, ConformsAll, ConformsAll] at hg
  have h1 := hg.2.2.1.2.1
  rw [Conforms, ConformsAll] at h1
  have h2 := h1.1
  match last, h2 with
  | .node .tuple (m :: xs), h2 =>
    rw [Conforms, ConformsAll] at h2
    have hm : m.flat ≠ [] := by
      have h3 := h2.1
      match m, h3 with
      | .node k cs, h3 =>
        rw [Conforms] at h3
        obtain ⟨hk, -, hall, -⟩ := h3
        have tok : ∀ {x : Term} {ps cs}, ConformsAll c (.tok x :: ps) cs → ∃ t r, cs = .tok t :: r := by
          intro x ps cs h
          match cs, h with
          | .tok t :: r, _ => exact ⟨t, r, rfl⟩
          | .node _ _ :: _, h =>
            rw [ConformsAll] at h
            simp [Conforms] at h
        cases k <;> first | cases hk | skip
        · obtain ⟨t, r, rfl⟩ := tok hall
          simp
        · obtain ⟨t, r, rfl⟩ := tok hall
          simp
        · rw [production] at hall
          match cs, hall with
          | [.node k' ds], hall =>
            rw [ConformsAll, Conforms] at hall
            obtain ⟨⟨hk', -, hall', -⟩, -⟩ := hall
            cases k' <;> first | cases hk' | skip
            obtain ⟨t, r, rfl⟩ := tok hall'
            simp
    simp [hm]

/-- **C64, accepted sources.**  If a program is accepted, it is accepted with a `#!` line too.  The trees are equal up to positions and
trivia; the tokens have the same trivia, but for the line in front of the first one. -/
theorem shebang_accepted (hc : c.Reachable) (hline : IsShebang line) (hrest : AfterLine rest) (h : parseFallible c rest = .ok ⟨ast, [], 0⟩) :
    ∃ ast' : Ast, parseFallible c (line ++ rest) = .ok ⟨ast', [], 0⟩ ∧ ast'.nodes.mapTok bare = ast.nodes.mapTok bare ∧
      (ast'.nodes.flat ++ [ast'.eof]).map unplaced = withLine line ((ast.nodes.flat ++ [ast.eof]).map unplaced) ∧
      ast'.display = line ++ ast.display := by
  obtain ⟨rs, hl, -⟩ := parseFallible_ok h
  obtain ⟨he, hg, -, dropped, h3, h4⟩ := (chosen_iff hc hl).1 h
  obtain ⟨rs', hl', he', hp, ht⟩ := shebang_plain hc hline hrest hl he
  have h1 := formatting_irrelevant hl hl' hp
  rw [h] at h1
  rcases hq : parseFallible c (line ++ rest) with r' | _ | _ <;> rw [hq] at h1 <;> simp only [Outcome.bind, Outcome.ok.injEq, reduceCtorEq] at h1
  have e1 : [] = r'.errors.map plainErr := congrArg (fun r : AstResult => r.errors) h1
  have e2 : ast.nodes.mapTok plain = r'.ast.nodes.mapTok plain := congrArg (fun r : AstResult => r.ast.nodes) h1
  have e3 : 0 = r'.silent := congrArg (fun r : AstResult => r.silent) h1
  have e4 : r'.ast.nodes.mapTok bare = ast.nodes.mapTok bare := by
    rw [← bare_plain, ← mapTok_comp, ← mapTok_comp, e2]
  obtain ⟨ast', es, n⟩ := r'
  obtain rfl : es = [] := List.map_eq_nil_iff.1 e1.symm
  obtain rfl : n = 0 := e3.symm
  obtain ⟨-, -, -, dropped', h3', -⟩ := (chosen_iff hc hl').1 hq
  have hlen : ast'.nodes.flat.length = ast.nodes.flat.length := by
    have := congrArg (fun n : Node => n.flat.length) e4
    simpa only [flat_mapTok, List.length_map] using this
  have htok : (ast'.nodes.flat ++ [ast'.eof]).map unplaced = withLine line ((ast.nodes.flat ++ [ast.eof]).map unplaced) := by
    rw [h3, h3'] at ht
    simp only [List.map_append, List.map_cons, List.map_nil] at ht ⊢
    refine withLine_split ht (by simpa using hlen) fun hnil => ?_
    rcases h4 with rfl | ⟨h4, -⟩
    · rfl
    · exact absurd (List.map_eq_nil_iff.1 hnil) (last_flat hg h4)
  refine ⟨ast', rfl, e4, htok, ?_⟩
  have hd : ∀ a : Ast, a.display = ((a.nodes.flat ++ [a.eof]).map unplaced).flatMap TokRef.display := by
    intro a
    rw [List.flatMap_map]
    simp only [display_unplaced]
    simp [Ast.display, Node.display]
  rw [hd ast', htok, hd ast]
  cases hfl : (ast.nodes.flat ++ [ast.eof]).map unplaced with
  | nil => simp at hfl
  | cons t ts => simp [withLine, TokRef.display, Token.display, TokenType.display]

/-- A program that meets the hypotheses, and one with an error of the parser. -/
example : IsShebang c!"#!/usr/bin/lua" ∧ AfterLine c!"\n\nlocal x = f{1} -- c\nreturn x" ∧
    ∃ r, parseFallible cfg51 c!"\n\nlocal x = f{1} -- c\nreturn x" = .ok r ∧ r.errors.isEmpty = true ∧ r.silent = 0 :=
  ⟨⟨by decide, by decide⟩, .inr rfl, Outcome.run (by decide +kernel)⟩

example : AfterLine c!"\nlocal = 1" ∧ (∃ rs, lexAll cfg51 c!"\nlocal = 1" = .ok rs ∧ errorsOf rs = []) ∧
    ∃ r, parseFallible cfg51 c!"\nlocal = 1" = .ok r ∧ r.errors.isEmpty = false :=
  ⟨.inr rfl, ⟨_, rfl, by decide⟩, Outcome.run (by decide +kernel)⟩

/-- With a tokenizer error in the first token the line does make a difference: the error is not reported any more. -/
theorem shebang_hides_error : ∃ r r', parseFallible cfg51 c!"\n$f(1)" = .ok r ∧ parseFallible cfg51 (c!"#!x" ++ c!"\n$f(1)") = .ok r' ∧
    r.errors.isEmpty = false ∧ r'.errors.isEmpty = true :=
  Outcome.run₂ (by decide +kernel)

end FM.Props
