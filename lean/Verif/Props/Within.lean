import Verif.Proofs.LexSlice
import Verif.Proofs.FlatMap
import Verif.Props.Spacing

/-!
# Properties of the parts of accepted programs: C62, C63
-/

namespace FM.Props
open FM FM.Spec FM.Parser FM.Parser.Clean FM.Parser.Forward

variable {c : Cfg} {source : Text} {ast : Ast}

theorem lexes_noShebang (hc : c.Good) {bs : List BraceType} {s : Text} {tys : List TokenType} (h : Lexes c bs s tys) : ¬ HasShebang s := by
  intro hsh
  have two : ∃ r, s = '#' :: '!' :: r := by
    unfold HasShebang at hsh
    match s, hsh with
    | a :: b :: r, h => simp at h; exact ⟨r, by rw [h.1, h.2]⟩
    | [a], h => simp at h
    | [], h => simp at h
  obtain ⟨r, e⟩ := two
  cases h with
  | eof => cases e
  | @token _ bs' ty rest tys h1 h2 =>
    obtain ⟨t', l1, e1, e2, e3, -⟩ := lexeme_step hc h1 .initial false
    rw [e, processNext_plain (by decide) (by decide) (by decide)] at e1
    simp only [Outcome.ok.injEq, Prod.mk.injEq, Option.some.injEq] at e1
    have : '!' :: r = rest := by
      rw [← e3, ← e1.2]
      rfl
    cases h2 with
    | eof => cases this
    | token k1 _ => exact lexeme_bang hc k1 this.symm

/-- `returnLine` in front, or nothing. -/
def inFront : Bool → List TokRef
  | true => [returnLine]
  | false => []

theorem lexes_inFront (r : Bool) {s : Text} {tys : List TokenType} (h : Lexes c [] s tys) :
    Lexes c [] ((inFront r).flatMap TokRef.display ++ s) (((inFront r).flatMap TokRef.flat).map Token.type ++ tys) := by
  cases r with
  | false => exact h
  | true =>
    have h1 : Lexes c [] (c!"\n" ++ s) (.whitespace c!"\n" :: tys) := .token (ty := .whitespace c!"\n") ⟨.inl rfl, rfl⟩ h
    have h2 : Lexes c [] (Symbol.kReturn.text ++ (c!"\n" ++ s)) (.symbol .kReturn :: .whitespace c!"\n" :: tys) :=
      .token (ty := .symbol .kReturn) ⟨.inl (by decide), fun _ => rfl, fun h => absurd ⟨by decide, by decide, by decide⟩ h, trivial, rfl⟩ h1
    exact h2

theorem attaches_inFront (r : Bool) {ts : List Token} {us : List TokRef} (h : Attaches ts us) :
    Attaches ((inFront r).flatMap TokRef.flat ++ ts) (inFront r ++ us) := by
  cases r with
  | false => exact h
  | true => exact Attaches.cons (leading := []) (token := returnLine.token) (rest := _ :: ts) nofun rfl h

/-- Consecutive tokens of a tree, that stand in a source, are the tokens of their own text, also behind a `return`. -/
theorem tokens_alone (r : Bool) (hc : c.Reachable) (hs : ¬ HasShebang source) {A B C : List TokRef} (hC : C ≠ []) (hB : Above B)
    (h : Tokenizes c source (A ++ (B ++ C))) :
    ∃ us e, lexAll c ((inFront r ++ B).flatMap TokRef.display) = .ok ((us ++ [e]).map .ok) ∧ us.map unplaced = (inFront r ++ B).map unplaced ∧ unplaced e = eofAt := by
  obtain ⟨rs, hl, he, hk, ht⟩ := (tokenizes_iff hc).2 h
  have hok := all_ok_of_no_errors he fun es hr => failed_results_have_errors hc hl hr
  have hsort : ∀ u ∈ A ++ (B ++ C), Sorted u := by
    intro u hu
    obtain ⟨h1, h2, h3, -⟩ := trivia_attachment hc hl (ht ▸ hu)
    exact ⟨h3, h1, h2⟩
  have hlex : Lexes c [] source (((A ++ (B ++ C)).flatMap TokRef.flat).map Token.type) := by
    have : (flatTokens rs).map Token.type = ((A ++ (B ++ C)).flatMap TokRef.flat).map Token.type := by rw [flatTokens, ht]
    rcases (lexical_grammar hc).1 ⟨rs, hl, he, hk, this⟩ with ⟨-, h⟩ | ⟨line, rest, tys, rfl, h, -⟩
    · exact h
    · exact absurd (shebang_append h) hs
  have hslice := lexes_inFront r (lexes_slice hsort hC hB hlex)
  rw [← List.flatMap_append] at hslice
  have hpairs : ∀ a x y b, A ++ (B ++ C) = a ++ x :: y :: b → restOfLine (x.trailing ++ y.flat) = (x.trailing, y.flat) := by
    intro a x y b e
    rw [hok, ht, e] at hl
    exact trivia_divided hc (a := a.map .ok) (b := b.map .ok) (x := .ok x) (by simpa using hl) (.inl rfl)
  have hatt := attaches_inFront r (attaches_slice hC hpairs hsort)
  obtain ⟨rs', hl', he', hk', hty⟩ := (lexical_grammar hc).2 (.inl ⟨lexes_noShebang hc.good hslice, hslice⟩)
  have hok' := all_ok_of_no_errors he' fun es hr => failed_results_have_errors hc hl' hr
  have hatt' := clean_attaches hc hl' he' hk'
  have := attaches_unplaced hatt hatt' (by rw [hty, List.map_append, List.map_append]; rfl)
  rw [← List.append_assoc, List.map_append, List.map_cons, List.map_nil] at this
  obtain ⟨us, es, e1, e2, e3⟩ := List.map_eq_append_iff.1 this
  obtain ⟨e, rest, rfl, e4, e5⟩ := List.map_eq_cons_iff.1 e3
  obtain rfl := List.map_eq_nil_iff.1 e5
  exact ⟨us, e, by rw [hl', ← e1, ← hok'], e2, e4⟩

/-- Read a part of an accepted program by itself: it is a block, possibly behind a `return`. -/
theorem part_alone (r : Bool) (hc : c.Reachable) (hs : ¬ HasShebang source) (h : parseFallible c source = .ok ⟨ast, [], 0⟩)
    {k : Kind} {cs : List Node} {a : Cat} (hm : Within (.node k cs) ast.nodes) (hk : k.cat = some a) (hq : (Part.cat a).quiet = true) {n : Node}
    (hn : n.flat = inFront r ++ (Node.node k cs).flat)
    (hconf : Conforms c (.cat a) (.node k cs) → Conforms c (.cat .block) n)
    (hch : (Node.node k cs).Every Chosen → n.Every Chosen) :
    ReadAs c ((inFront r).flatMap TokRef.display ++ (Node.node k cs).display) n := by
  obtain ⟨h1, h2, dropped, h3, -⟩ := (source_accepted_iff hc hs).1 h
  have hfit : Fit c false ast.nodes := .inl ⟨_, h1, nofun⟩
  have hpart : Conforms c (.cat a) (.node k cs) := conforms_within hm hfit rfl hk
  replace hconf := hconf hpart
  replace hch : c.has .luau = true → n.Every Chosen := fun e => hch (every_within hm (h2 e))
  have hann : AnnotationsFit ast.nodes := Grammatical.annotationsFit (Conforms.every _ _ h1)
  have hty : Typed (fun _ => True) ast.nodes := ⟨_, conf_hasTy _ _ h1⟩
  obtain ⟨A, C, hAC⟩ := flat_infix ⟨_, _, rfl, by rw [hk]; nofun⟩ ast.nodes hty hann hm
  have habove : Above (Node.node k cs).flat :=
    above_tree (c := c) (R₀ := fun _ => True) _ (.inl ⟨_, hpart, fun _ => hq⟩) ⟨_, conf_hasTy _ _ hpart⟩ (every_within hm hann)
  have h4 : Tokenizes c source (A ++ ((Node.node k cs).flat ++ (C ++ (dropped ++ [ast.eof])))) := by
    rw [← hAC] at h3
    simpa [List.append_assoc] using h3
  obtain ⟨us, e, h5, h6, h7⟩ := tokens_alone r hc hs (by simp) habove h4
  rw [← hn] at h6
  have hplain : (us ++ [e]).map plain = n.flat.map plain ++ [plainEof] := by
    have := congrArg (List.map plain) h6
    simp only [List.map_map, Function.comp_def, plain_unplaced] at this
    rw [List.map_append, this]
    have := congrArg plain h7
    rw [plain_unplaced] at this
    simp only [List.map_cons, List.map_nil, this]
    rfl
  have hdisp : (inFront r ++ (Node.node k cs).flat).flatMap TokRef.display = (inFront r).flatMap TokRef.display ++ (Node.node k cs).display := by
    rw [List.flatMap_append]
    rfl
  rw [hdisp] at h5
  obtain ⟨ast', h8, h9⟩ := plain_tokens_accepted hc hconf hch h5 hplain
  refine ⟨ast', h8, h9, ?_⟩
  obtain ⟨-, -, -, dropped', h10, -⟩ := (chosen_iff hc h5).1 h8
  rw [tokensOf_ok] at h10
  have hlen : us.length = ast'.nodes.flat.length := by
    have e1 := congrArg (fun n : Node => n.flat.length) h9
    simp only [flat_mapTok, List.length_map] at e1
    have e2 := congrArg List.length h6
    simp only [List.length_map] at e2
    omega
  obtain ⟨h11, h12⟩ := List.append_inj h10 hlen
  have hd : dropped' = [] := by
    have := congrArg List.length h12
    simp only [List.length_append, List.length_cons, List.length_nil] at this
    exact List.length_eq_zero_iff.1 (by omega)
  subst hd
  simp only [List.nil_append, List.cons.injEq, and_true] at h12
  refine ⟨by rw [← h11, h6], ?_⟩
  have := congrArg TokRef.leading h7
  rw [← h12]
  simpa [unplaced, eofAt] using this

/-- **C62.**  Every block of an accepted program is a program: the text of the body of a function, of a loop or of a branch,
as it stands in the source, is accepted by itself.  It is read as the same block: the trees are equal up to positions and
trivia, and the tokens have the same trivia. -/
theorem blocks_are_programs (hc : c.Reachable) (hs : ¬ HasShebang source) (h : parseFallible c source = .ok ⟨ast, [], 0⟩)
    {b : Node} (hb : Within b ast.nodes) (hk : kindOf b = some .block) : ReadAs c b.display b := by
  cases b with
  | tok t => cases hk
  | node k cs =>
    cases hk
    exact part_alone false hc hs h hb (a := .block) rfl rfl rfl id id

theorem connected_block {l : List Node} (x : Node) (h : l.length ≤ 1) : Connected c .block [.node .vec l, x] := by
  match l, h with
  | [], _ => exact trivial
  | [y], _ => exact trivial

theorem conforms_ofLast {s : Node} (h : Conforms c (.cat .lastStmt) s) : Conforms c (.cat .block) (ofLast s) := by
  rw [ofLast, Conforms]
  refine ⟨rfl, rfl, ?_, connected_block _ (Nat.zero_le _)⟩
  simp only [production, ConformsAll, Conforms, ConformsEach, and_true, true_and]
  exact h

/-- **C62.**  So is every statement. -/
theorem statements_are_programs (hc : c.Reachable) (hs : ¬ HasShebang source) (h : parseFallible c source = .ok ⟨ast, [], 0⟩)
    {s : Node} (hb : Within s ast.nodes) {k : Kind} (hk : kindOf s = some k) (ha : k.cat = some .stmt) : ReadAs c s.display (ofStmt s) := by
  cases s with
  | tok t => cases hk
  | node k' cs =>
    cases hk
    refine part_alone false hc hs h hb ha rfl ?_ ?_ ?_
    · simp [ofStmt, inFront]
    · intro g
      rw [ofStmt, Conforms]
      refine ⟨rfl, rfl, ?_, connected_block _ (Nat.le_refl _)⟩
      simp only [production, ConformsAll, Conforms, ConformsEach, and_true]
      rw [Conforms] at g
      exact g
    · intro g
      generalize Node.node k cs = m at g ⊢
      simp [ofStmt, Node.Every, Node.Every.everys, unasserteds, Chosen, g]

/-- **C62.**  So is every `return`, `break` and `continue`. -/
theorem last_statements_are_programs (hc : c.Reachable) (hs : ¬ HasShebang source) (h : parseFallible c source = .ok ⟨ast, [], 0⟩)
    {s : Node} (hb : Within s ast.nodes) {k : Kind} (hk : kindOf s = some k) (ha : k.cat = some .lastStmt) : ReadAs c s.display (ofLast s) := by
  cases s with
  | tok t => cases hk
  | node k' cs =>
    cases hk
    refine part_alone false hc hs h hb ha rfl ?_ conforms_ofLast ?_
    · simp [ofLast, inFront]
    · intro g
      generalize Node.node k cs = m at g ⊢
      simp [ofLast, Node.Every, Node.Every.everys, unasserteds, Chosen, g]

/-- **C62.**  Every expression of an accepted program, as it stands in the source, can be returned by a program. -/
theorem expressions_can_be_returned (hc : c.Reachable) (hs : ¬ HasShebang source) (h : parseFallible c source = .ok ⟨ast, [], 0⟩)
    {e : Node} (hb : Within e ast.nodes) {k : Kind} (hk : kindOf e = some k) (ha : k.cat = some .expr) :
    ReadAs c (c!"return\n" ++ e.display) (ofExpr e) := by
  cases e with
  | tok t => cases hk
  | node k' cs =>
    cases hk
    refine part_alone true hc hs h hb ha rfl ?_ ?_ ?_
    · simp [ofExpr, ofLast, inFront]
    · intro g
      refine conforms_ofLast ?_
      generalize Node.node k cs = m at g ⊢
      simp only [Conforms, production, ConformsAll, ConformsPairs, and_true]
      exact ⟨rfl, rfl, ⟨rfl, rfl, ⟨⟨.kReturn, List.mem_singleton.2 rfl, rfl⟩, g, by simp [Separated, kindOf]⟩, trivial⟩, trivial⟩
    · intro g
      generalize Node.node k cs = m at g ⊢
      simp [ofExpr, ofLast, Node.Every, Node.Every.everys, unasserteds, Chosen, g]

/-! Instances. -/

/-- All parts of a tree. -/
def partsOf : Node → List Node
  | .tok t => [.tok t]
  | .node k cs => .node k cs :: each cs
where
  each : List Node → List Node
    | [] => []
    | x :: xs => partsOf x ++ each xs

mutual
theorem within_partsOf {b : Node} : (n : Node) → b ∈ partsOf n → Within b n
  | .tok t, h => by
    rw [partsOf, List.mem_singleton] at h
    rw [h]
    exact .self
  | .node k cs, h => by
    rw [partsOf, List.mem_cons] at h
    rcases h with rfl | h
    · exact .self
    · obtain ⟨x, hx, hw⟩ := within_each cs h
      exact .child hx hw
theorem within_each {b : Node} : (cs : List Node) → b ∈ partsOf.each cs → ∃ x ∈ cs, Within b x
  | [], h => by
    rw [partsOf.each] at h
    cases h
  | x :: xs, h => by
    rw [partsOf.each, List.mem_append] at h
    rcases h with h | h
    · exact ⟨x, .head _, within_partsOf x h⟩
    · obtain ⟨y, hy, hw⟩ := within_each xs h
      exact ⟨y, .tail _ hy, hw⟩
end

/-- The texts of the parts of a kind. -/
def textsOf (k : Kind) (n : Node) : List Text := ((partsOf n).filter fun m => kindOf m == some k).map Node.display

theorem part_of_text {k : Kind} {n : Node} {t : Text} (h : t ∈ textsOf k n) : ∃ b, Within b n ∧ kindOf b = some k ∧ b.display = t := by
  obtain ⟨b, h1, h2⟩ := List.mem_map.1 h
  obtain ⟨h3, h4⟩ := List.mem_filter.1 h1
  exact ⟨b, within_partsOf n h3, by simpa using h4, h2⟩

theorem has_part (k : Kind) (t : Text) {source : Text} (h : (parseFallible c source).test (fun r => decide ((r.errors.isEmpty = true ∧ r.silent = 0) ∧ t ∈ textsOf k r.ast.nodes)) = true) :
    ∃ ast : Ast, parseFallible c source = .ok ⟨ast, [], 0⟩ ∧ ∃ b, Within b ast.nodes ∧ kindOf b = some k ∧ b.display = t := by
  obtain ⟨⟨ast, es, n⟩, h1, ⟨h2, h3⟩, h4⟩ := Outcome.run h
  obtain rfl : es = [] := by simpa using h2
  obtain rfl : n = 0 := h3
  exact ⟨ast, h1, part_of_text h4⟩

/-- The text of a part is accepted although nothing is evaluated here but the whole program. -/
theorem part_program {source t : Text} (hc : c.Reachable) (hs : ¬ HasShebang source)
    (h : ∃ ast : Ast, parseFallible c source = .ok ⟨ast, [], 0⟩ ∧ ∃ b, Within b ast.nodes ∧ kindOf b = some .block ∧ b.display = t) :
    ∃ b, b.display = t ∧ ReadAs c t b := by
  obtain ⟨ast, h1, b, h2, h3, rfl⟩ := h
  exact ⟨b, rfl, blocks_are_programs hc hs h1 h2 h3⟩

/-- A branch inside a function. -/
example : ∃ b, b.display = c!"return {x + 1; -x} " ∧ ReadAs cfg51 c!"return {x + 1; -x} " b :=
  part_program (source := c!"local function f(x)\n\t-- note\n\tif x then return {x + 1; -x} end\nend") cfg51_reachable (by decide)
    (has_part .block _ (by decide +kernel))

/-- The comment in front of the first statement of a block belongs to the block. -/
example : ∃ b, b.display = c!"\t-- note\n\tif x then return {x + 1; -x} end\n" ∧ ReadAs cfg51 c!"\t-- note\n\tif x then return {x + 1; -x} end\n" b :=
  part_program (source := c!"local function f(x)\n\t-- note\n\tif x then return {x + 1; -x} end\nend") cfg51_reachable (by decide)
    (has_part .block _ (by decide +kernel))

/-- Luau: braces inside an interpolated string, and a type. -/
example : ∃ b, b.display = c!"\tprint(`a{ {x} }b`, x :: {T})\n" ∧ ReadAs cfgLuauOnly c!"\tprint(`a{ {x} }b`, x :: {T})\n" b :=
  part_program (source := c!"for _, x in t do\n\tprint(`a{ {x} }b`, x :: {T})\nend") cfgLuauOnly_reachable (by decide)
    (has_part .block _ (by decide +kernel))

/-- An expression inside a string. -/
example : ∃ e, e.display = c!"{1}" ∧ ReadAs cfgLuauOnly (c!"return\n" ++ c!"{1}") (ofExpr e) := by
  obtain ⟨ast, h1, e, h2, h3, h4⟩ := has_part (c := cfgLuauOnly) (source := c!"if a then b(`x{y + {1}}z`) break end") .exprTable c!"{1}" (by decide +kernel)
  exact ⟨e, h4, h4 ▸ expressions_can_be_returned cfgLuauOnly_reachable (by decide) h1 h2 h3 rfl⟩

example : ∃ s, s.display = c!"b(`x{y + {1}}z`) " ∧ ReadAs cfgLuauOnly c!"b(`x{y + {1}}z`) " (ofStmt s) := by
  obtain ⟨ast, h1, e, h2, h3, h4⟩ := has_part (c := cfgLuauOnly) (source := c!"if a then b(`x{y + {1}}z`) break end") .stmtCall c!"b(`x{y + {1}}z`) " (by decide +kernel)
  exact ⟨e, h4, h4 ▸ statements_are_programs cfgLuauOnly_reachable (by decide) h1 h2 h3 rfl⟩

example : ∃ s, s.display = c!"break " ∧ ReadAs cfgLuauOnly c!"break " (ofLast s) := by
  obtain ⟨ast, h1, e, h2, h3, h4⟩ := has_part (c := cfgLuauOnly) (source := c!"if a then b(`x{y + {1}}z`) break end") .lastBreak c!"break " (by decide +kernel)
  exact ⟨e, h4, h4 ▸ last_statements_are_programs cfgLuauOnly_reachable (by decide) h1 h2 h3 rfl⟩

/-! ## C63 -/

theorem segment_section {x : Node} (h : Conforms c (.cat .interpSegment) x) : ∃ k, section? x = some k := by
  obtain ⟨k, cs, rfl, hk, -, hall, -⟩ : ∃ k cs, x = .node k cs ∧ k.cat = some .interpSegment ∧ available c k = true ∧
      ConformsAll c (production c.feat k) cs ∧ Connected c k cs := by
    cases x with
    | tok t => simp [Conforms] at h
    | node k cs => rw [Conforms] at h; exact ⟨k, cs, rfl, h⟩
  obtain rfl : k = .interpSegment := by
    revert hk
    cases k <;> first | decide | nofun
  rw [production] at hall
  match cs, hall with
  | [.tok t, e], hall =>
    rw [ConformsAll, Conforms] at hall
    have : t.token.type.kind = .interpolatedString := hall.1
    rw [section?]
    cases ht : t.token.type <;> rw [ht] at this <;> first | exact ⟨_, rfl⟩ | cases this
  | .node _ _ :: _, hall =>
    rw [ConformsAll] at hall
    simp [Conforms] at hall

/-- **C63.**  The sections of an interpolated string of an accepted program: a string without expressions is one token;
otherwise the first section opens the string, the last one ends it, and no section between them ends it.

Full statement: the sections between them start with `}`.  It is false of the code: see `unfinished_string_accepted` and
`string_between_expressions`. -/
theorem interpolated_sections_partial (hc : c.Reachable) (hs : ¬ HasShebang source) (h : parseFallible c source = .ok ⟨ast, [], 0⟩)
    {segments last : Node} (hb : Within (.node .interpString [segments, last]) ast.nodes) :
    (segments.children = [] ∧ section? last = some .simple) ∨
    ∃ s ss, segments.children = s :: ss ∧ section? s = some .begin ∧ section? last = some .end_ ∧ ∀ x ∈ ss, ∃ k, section? x = some k ∧ k ≠ .end_ := by
  obtain ⟨h1, -, -⟩ := (source_accepted_iff hc hs).1 h
  have hpart : Conforms c (.cat .interpString) (.node .interpString [segments, last]) :=
    conforms_within hb (.inl ⟨_, h1, nofun⟩) rfl rfl
  rw [Conforms] at hpart
  obtain ⟨-, -, hall, hcon⟩ := hpart
  rw [production, ConformsAll] at hall
  obtain ⟨ps, rfl, heach⟩ : ∃ ps, segments = .node .vec ps ∧ ConformsEach c (.cat .interpSegment) ps := by
    have g := hall.1
    cases segments with
    | tok t => simp [Conforms] at g
    | node k cs =>
      cases k <;> simp only [Conforms] at g
      exact ⟨cs, rfl, g⟩
  cases ps with
  | nil => exact .inl ⟨rfl, hcon⟩
  | cons s ss =>
    have hcon : section? s = some .begin ∧ (∀ x ∈ ss, section? x ≠ some .end_) ∧ section? last = some .end_ := hcon
    obtain ⟨h2, h3, h4⟩ := hcon
    refine .inr ⟨s, ss, rfl, h2, h4, fun x hx => ?_⟩
    obtain ⟨k, hk⟩ := segment_section (conformsEach_child heach x (.tail _ hx))
    exact ⟨k, hk, fun e => h3 x hx (e ▸ hk)⟩

def segmentCount : Node → Nat
  | .node .interpString [segments, _] => segments.children.length
  | _ => 0

/-- Its hypotheses are met. -/
example : ∃ ast : Ast, parseFallible cfgLuauOnly c!"x = `a{x}b{y}c`" = .ok ⟨ast, [], 0⟩ ∧
    ∃ segments last, Within (.node .interpString [segments, last]) ast.nodes ∧ segments.children.length = 2 := by
  obtain ⟨⟨ast, es, n⟩, h1, ⟨h2, h3⟩, h4⟩ : ∃ r, parseFallible cfgLuauOnly c!"x = `a{x}b{y}c`" = .ok r ∧
    (r.errors.isEmpty = true ∧ r.silent = 0) ∧ (partsOf r.ast.nodes).any (fun m => segmentCount m == 2) = true := Outcome.run (by decide +kernel)
  obtain rfl : es = [] := by simpa using h2
  obtain rfl : n = 0 := h3
  obtain ⟨m, hm, hc⟩ := List.any_eq_true.1 h4
  have hw := within_partsOf _ hm
  unfold segmentCount at hc
  split at hc
  · exact ⟨ast, h1, _, _, hw, by simpa using hc⟩
  · cases hc

/-- An interpolated string may be left unfinished, when another one stands behind its last expression: there are two
opening sections and one that ends. -/
theorem unfinished_string_accepted : ∃ r, parseFallible cfgLuauOnly c!"x = `a{x`b{y}`" = .ok r ∧ r.errors.isEmpty = true ∧ r.silent = 0 ∧
    r.ast.display = c!"x = `a{x`b{y}`" ∧ textsOf .interpString r.ast.nodes = [c!"`a{x`b{y}`"] ∧ textsOf .interpSegment r.ast.nodes = [c!"`a{x", c!"`b{y"] :=
  Outcome.run (by decide +kernel)

/-- Two expressions may stand in one pair of braces, with a string between them. -/
theorem string_between_expressions : ∃ r, parseFallible cfgLuauOnly c!"x = `a{x`b`y}c`" = .ok r ∧ r.errors.isEmpty = true ∧ r.silent = 0 ∧
    r.ast.display = c!"x = `a{x`b`y}c`" ∧ textsOf .interpString r.ast.nodes = [c!"`a{x`b`y}c`"] ∧ textsOf .interpSegment r.ast.nodes = [c!"`a{x", c!"`b`y"] :=
  Outcome.run (by decide +kernel)

end FM.Props
