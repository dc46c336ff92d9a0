import Verif.Spec.Append
import Verif.Proofs.Append
import Verif.Props.Shebang

/-!
# Properties of programs one behind the other: C65
-/

namespace FM.Props
open FM FM.Spec FM.Parser FM.Parser.Clean FM.Parser.Forward

variable {c : Cfg} {A B : Text} {a b : Ast}

/-- What the tokenizer finds in a source without errors and `#!` line. -/
theorem tokenized (hc : c.Reachable) {source : Text} {F : List TokRef} {e : TokRef} (hs : ¬ HasShebang source) (h : Tokenizes c source (F ++ [e])) :
    e.token.type = .eof ∧ e.trailing = [] ∧ (∀ u ∈ F ++ [e], Sorted u) ∧ Attaches ((F ++ [e]).flatMap TokRef.flat) (F ++ [e]) ∧
      Lexes c [] source ((F.flatMap TokRef.flat).map Token.type ++ e.leading.map Token.type ++ [.eof]) := by
  obtain ⟨rs, hl, he, hk, ht⟩ := (tokenizes_iff hc).2 h
  obtain ⟨init, t, h1, h2, h3, -⟩ := eof_once_last hc hl hk
  rw [ht] at h1
  obtain ⟨rfl, h4⟩ := List.append_inj' h1 rfl
  simp only [List.cons.injEq, and_true] at h4
  subst h4
  refine ⟨h2, h3, fun u hu => ?_, ?_, ?_⟩
  · obtain ⟨h1, h2, h3, -⟩ := trivia_attachment hc hl (ht ▸ hu)
    exact ⟨h3, h1, h2⟩
  · have := clean_attaches hc hl he hk
    rwa [flatTokens, ht] at this
  · rcases (lexical_grammar hc).1 ⟨rs, hl, he, hk, rfl⟩ with ⟨-, h⟩ | ⟨line, rest, tys, rfl, h, -⟩
    · rw [flatTokens, ht] at h
      simpa [TokRef.flat, h2, h3] using h
    · exact absurd (shebang_append h) hs

/-- The tokens of two sources, the first of which ends with a line break, one behind the other. -/
theorem tokens_append (hc : c.Reachable) (hsA : ¬ HasShebang A) (hsB : ¬ HasShebang B) {F G : List TokRef} {e f : TokRef}
    (hA : Tokenizes c A (F ++ [e])) (hB : Tokenizes c B (G ++ [f])) (hG : Above G) (hend : A = [] ∨ A.getLast? = some '\n') :
    ∃ us : List TokRef, lexAll c (A ++ B) = .ok (us.map .ok) ∧ us.map unplaced = (F ++ behind e.leading (G ++ [f])).map unplaced := by
  obtain ⟨a1, a2, a3, a4, a5⟩ := tokenized hc hsA hA
  obtain ⟨b1, b2, b3, b4, b5⟩ := tokenized hc hsB hB
  obtain ⟨ta, bs', h1, -, h2, h3⟩ := lexes_append hc.good a5 hend
  obtain ⟨rfl, -⟩ := List.append_inj' h1 rfl
  have h4 := h3 (lexes_behind (fun u hu => b3 u (by simp [hu])) hG (bs := bs') (lead := f.leading.map Token.type) (by
    intro x hx
    obtain ⟨y, hy, rfl⟩ := List.mem_map.1 hx
    exact (b3 f (by simp)).2.1 y hy) b5)
  obtain ⟨rs, hl, he, hk, hty⟩ := (lexical_grammar hc).2 (.inl ⟨lexes_noShebang hc.good h4, h4⟩)
  have hok := all_ok_of_no_errors he fun es hr => failed_results_have_errors hc hl hr
  refine ⟨tokensOf rs, by rw [hl, ← hok], ?_⟩
  have hatt' := clean_attaches hc hl he hk
  obtain ⟨us₀, l, h5, h6⟩ := attaches_append a1 a4 (ts₀ := F.flatMap TokRef.flat ++ e.leading) (by simp [TokRef.flat, a2]) (by
    rcases h2 with h2 | ⟨ty, h2, h7⟩
    · exact .inl (by simpa using h2)
    · rw [← List.map_append, List.getLast?_map] at h2
      cases hq : (F.flatMap TokRef.flat ++ e.leading).getLast? with
      | none => rw [hq] at h2; cases h2
      | some x =>
        rw [hq] at h2
        cases h2
        exact .inr ⟨x, rfl, h7⟩)
  obtain ⟨rfl, h7⟩ := List.append_inj' h5 rfl
  simp only [List.cons.injEq, and_true] at h7
  have hl' : e.leading = l := by rw [h7]
  subst hl'
  cases hq : G ++ [f] with
  | nil => simp at hq
  | cons u us' =>
    rw [hq] at b4
    have h8 := h6 b4
    refine attaches_unplaced h8 hatt' ?_
    rw [hty, ← hq]
    simp [TokRef.flat, b1, b2]

theorem block_shape {n : Node} (h : Conforms c (.cat .block) n) : ∃ ss last, n = .node .block [.node .vec ss, last] ∧ (last = .node .absent [] ∨ HasLast n) ∧
    ConformsEach c (.pair (.cat .stmt) (.opt (.sym .semicolon))) ss ∧ Conforms c (.opt (.pair (.cat .lastStmt) (.opt (.sym .semicolon)))) last ∧ distincts ss := by
  cases n with
  | tok t => simp [Conforms] at h
  | node k cs =>
    rw [Conforms] at h
    obtain ⟨hk, -, hall, hcon⟩ := h
    obtain rfl : k = .block := by
      revert hk
      cases k <;> first | decide | nofun
    rw [production] at hall
    match cs, hall with
    | [x, y], hall =>
      rw [ConformsAll, ConformsAll] at hall
      obtain ⟨h1, h2, -⟩ := hall
      obtain ⟨ss, rfl, h3⟩ : ∃ ss, x = .node .vec ss ∧ ConformsEach c (.pair (.cat .stmt) (.opt (.sym .semicolon))) ss := by
        cases x with
        | tok t => simp [Conforms] at h1
        | node k cs =>
          cases k <;> simp only [Conforms] at h1
          exact ⟨cs, rfl, h1⟩
      refine ⟨ss, y, rfl, ?_, h3, h2, hcon⟩
      cases y with
      | tok t => simp [Conforms] at h2
      | node k cs =>
        cases k <;> simp only [Conforms] at h2
        · exact .inl (by rw [h2])
        · match cs, h2 with
          | [z], _ => exact .inr ⟨_, _, rfl⟩

theorem conformsEach_append {p : Part} : ∀ {as bs : List Node}, ConformsEach c p as → ConformsEach c p bs → ConformsEach c p (as ++ bs)
  | [], _, _, h => h
  | a :: as, bs, h, h' => by
    rw [ConformsEach] at h
    rw [List.cons_append, ConformsEach]
    exact ⟨h.1, conformsEach_append h.2 h'⟩

theorem distincts_append : ∀ {as bs : List Node}, distincts as → distincts bs → (∀ x y, bs.head? = some y → distinct x y) → distincts (as ++ bs)
  | [], _, _, h, _ => h
  | [x], [], h, _, _ => h
  | [x], y :: bs, _, h, hb => ⟨hb x y rfl, h⟩
  | x :: y :: as, bs, h, h', hb => ⟨h.1, distincts_append (as := y :: as) h.2 h' hb⟩

theorem unasserteds_append : ∀ {as bs : List Node}, unasserteds as → unasserteds bs → (∀ x y, bs.head? = some y → unasserted x y) → unasserteds (as ++ bs)
  | [], _, _, h, _ => h
  | [x], [], h, _, _ => h
  | [x], y :: bs, _, h, hb => ⟨hb x y rfl, h⟩
  | x :: y :: as, bs, h, h', hb => ⟨h.1, unasserteds_append (as := y :: as) h.2 h' hb⟩

theorem first_any {p : TokRef → Bool} {ss : List Node} {y last : Node} (hy : ss.head? = some y)
    (h : (Node.node .block [.node .vec ss, last]).flat.head?.any p = false) : y.flat.head?.any p = false := by
  match ss, hy with
  | x :: ss, hy =>
    cases hy
    cases hf : y.flat with
    | nil => rfl
    | cons t ts =>
      simp [hf] at h
      simpa using h

/-- Blocks that are joined conform to the grammar. -/
theorem conforms_joined {m n : Node} (hm : Conforms c (.cat .block) m) (hn : Conforms c (.cat .block) n) (hlast : ¬ HasLast m) (hp : startsParen n = false) :
    Conforms c (.cat .block) (joined m n) ∧ (joined m n).flat = m.flat ++ n.flat := by
  obtain ⟨as, l, rfl, h1, h2, h3, h4⟩ := block_shape hm
  obtain ⟨bs, l', rfl, -, g2, g3, g4⟩ := block_shape hn
  obtain rfl := h1.resolve_right hlast
  refine ⟨?_, by simp [joined]⟩
  rw [joined, Conforms, production, ConformsAll, ConformsAll, ConformsAll]
  refine ⟨rfl, rfl, ⟨?_, g3, trivial⟩, ?_⟩
  · rw [Conforms]
    exact conformsEach_append h2 g2
  · refine distincts_append h4 g4 fun x y hy => ?_
    unfold distinct
    split
    · exact fun _ _ => first_any hy hp
    · trivial

theorem everys_append {P : Kind → List Node → Prop} : ∀ {as bs : List Node}, Node.Every.everys P as → Node.Every.everys P bs → Node.Every.everys P (as ++ bs)
  | [], _, _, h => h
  | a :: as, bs, h, h' => by
    rw [Node.Every.everys] at h
    rw [List.cons_append, Node.Every.everys]
    exact ⟨h.1, everys_append h.2 h'⟩

theorem chosen_joined {m n : Node} (hm : Conforms c (.cat .block) m) (hn : Conforms c (.cat .block) n) (hlast : ¬ HasLast m) (hp : startsTok (tokenIs .twoColons) n = false)
    (h1 : m.Every Chosen) (h2 : n.Every Chosen) : (joined m n).Every Chosen := by
  obtain ⟨as, l, rfl, h3, -⟩ := block_shape hm
  obtain ⟨bs, l', rfl, -⟩ := block_shape hn
  obtain rfl := h3.resolve_right hlast
  rw [joined]
  rw [Node.Every, Node.Every.everys, Node.Every.everys, Node.Every] at h1 h2 ⊢
  obtain ⟨h4, ⟨h5, h6⟩, h7⟩ := h1
  obtain ⟨g4, ⟨g5, g6⟩, g7⟩ := h2
  refine ⟨unasserteds_append h4 g4 fun x y hy => ?_, ⟨trivial, everys_append h6 g6⟩, g7⟩
  unfold unasserted
  split
  · exact fun _ _ => first_any hy hp
  · trivial

/-- **C65.**  If two programs are accepted, the first one ends with a line break and has no last statement (`return`, `break`, …), and the second
one does not start with `(` nor, in Luau, with `::`, then the text of the first one followed by the text of the second one is accepted.  It
has the statements of the one, then those of the other; the tokens have the same trivia, and what stands at the end of the first file stands
in front of the first token of the second one. -/
theorem programs_append (hc : c.Reachable) (hsA : ¬ HasShebang A) (hsB : ¬ HasShebang B)
    (hA : parseFallible c A = .ok ⟨a, [], 0⟩) (hB : parseFallible c B = .ok ⟨b, [], 0⟩) (hend : A = [] ∨ A.getLast? = some '\n')
    (hlast : ¬ HasLast a.nodes) (hall : Tokenizes c B (b.nodes.flat ++ [b.eof]))
    (hparen : startsParen b.nodes = false) (hcolons : c.has .luau = true → startsTok (tokenIs .twoColons) b.nodes = false) :
    ∃ ab : Ast, parseFallible c (A ++ B) = .ok ⟨ab, [], 0⟩ ∧ ab.nodes.mapTok bare = (joined a.nodes b.nodes).mapTok bare ∧
      (ab.nodes.flat ++ [ab.eof]).map unplaced = (a.nodes.flat ++ behind a.eof.leading (b.nodes.flat ++ [b.eof])).map unplaced := by
  obtain ⟨a1, a2, dropped, a3, a4⟩ := (source_accepted_iff hc hsA).1 hA
  obtain rfl : dropped = [] := a4.resolve_right fun h => hlast h.1
  rw [List.nil_append] at a3
  obtain ⟨b1, b2, -⟩ := (source_accepted_iff hc hsB).1 hB
  have habove : Above b.nodes.flat :=
    above_tree (c := c) (R₀ := fun _ => True) _ (.inl ⟨_, b1, fun _ => rfl⟩) ⟨_, conf_hasTy _ _ b1⟩ (Grammatical.annotationsFit (Conforms.every _ _ b1))
  obtain ⟨us, h1, h2⟩ := tokens_append hc hsA hsB a3 hall habove hend
  obtain ⟨h3, h4⟩ := conforms_joined a1 b1 hlast hparen
  have hb : b.eof.token.type = .eof := (tokenized hc hsB hall).1
  have hplain : us.map plain = (joined a.nodes b.nodes).flat.map plain ++ [plainEof] := by
    have := congrArg (List.map plain) h2
    simp only [List.map_map, Function.comp_def, plain_unplaced] at this
    rw [show us.map plain = us.map fun x => plain x from rfl, this, h4]
    have hpe : plain b.eof = plainEof := by
      simp [plain, plainEof, hb]
      nofun
    have hpb : (behind a.eof.leading (b.nodes.flat ++ [b.eof])).map plain = (b.nodes.flat ++ [b.eof]).map plain := by
      cases b.nodes.flat ++ [b.eof] <;> rfl
    rw [show (a.nodes.flat ++ behind a.eof.leading (b.nodes.flat ++ [b.eof])).map (fun x => plain x) =
      a.nodes.flat.map plain ++ (behind a.eof.leading (b.nodes.flat ++ [b.eof])).map plain from List.map_append, hpb]
    simp [hpe]
  obtain ⟨ab, h5, h6⟩ := plain_tokens_accepted hc h3 (fun e => chosen_joined a1 b1 hlast (hcolons e) (a2 e) (b2 e)) h1 hplain
  refine ⟨ab, h5, h6, ?_⟩
  obtain ⟨-, -, -, dropped', h7, -⟩ := (chosen_iff hc h1).1 h5
  rw [tokensOf_ok] at h7
  have hlen : us.length = ab.nodes.flat.length + 1 := by
    have e1 := congrArg (fun n : Node => n.flat.length) h6
    simp only [flat_mapTok, List.length_map] at e1
    have e2 := congrArg List.length hplain
    simp only [List.length_map, List.length_append, List.length_cons, List.length_nil] at e2
    omega
  have hd : dropped' = [] := by
    have := congrArg List.length h7
    simp only [List.length_append, List.length_cons, List.length_nil] at this
    exact List.length_eq_zero_iff.1 (by omega)
  subst hd
  rw [List.nil_append] at h7
  rw [← h7, h2]

theorem lexAll_tokenizes (hc : c.Reachable) {source : Text} {r : AstResult} (hs : ¬ HasShebang source) (h : parseFallible c source = .ok r) (hr : (r.errors.isEmpty = true ∧ r.silent = 0))
    (hlast : r.ast.nodes.flat.length + 1 = (match lexAll c source with | .ok rs => (tokensOf rs).length | _ => 0)) :
    Tokenizes c source (r.ast.nodes.flat ++ [r.ast.eof]) := by
  obtain ⟨ast, es, n⟩ := r
  obtain rfl : es = [] := by simpa using hr.1
  obtain rfl : n = 0 := hr.2
  obtain ⟨rs, hl, -⟩ := parseFallible_ok h
  obtain ⟨he, -, -, dropped, h3, -⟩ := (chosen_iff hc hl).1 h
  rw [hl] at hlast
  have : dropped = [] := by
    have := congrArg List.length h3
    simp only [List.length_append, List.length_cons, List.length_nil] at this
    dsimp only at hlast
    exact List.length_eq_zero_iff.1 (by omega)
  subst this
  exact (tokenizes_iff hc).1 ⟨rs, hl, he, shebangKept_of_no_shebang hs rs, by simpa using h3⟩

def hasLast : Node → Bool
  | .node .block [_, .node .present [_]] => true
  | _ => false

theorem hasLast_sound {n : Node} (h : hasLast n = false) : ¬ HasLast n := by
  rintro ⟨s, l, rfl⟩
  cases h

/-- Two programs that meet the hypotheses, the second one with a last statement, and trivia at the end of the first one. -/
example : ∃ r r', parseFallible cfg51 c!"local x = f -- c\n-- d\n" = .ok r ∧ parseFallible cfg51 c!" g{x}\nreturn x" = .ok r' ∧
    (r.errors.isEmpty = true ∧ r.silent = 0) ∧ (r'.errors.isEmpty = true ∧ r'.silent = 0) ∧ hasLast r.ast.nodes = false ∧ hasLast r'.ast.nodes = true ∧
    r'.ast.nodes.flat.length + 1 = (match lexAll cfg51 c!" g{x}\nreturn x" with | .ok rs => (tokensOf rs).length | _ => 0) ∧
    startsParen r'.ast.nodes = false ∧ startsTok (tokenIs .twoColons) r'.ast.nodes = false ∧ r.ast.eof.leading ≠ [] :=
  Outcome.run₂ (by decide +kernel)

/-- So do two programs of Luau, the first of which leaves a brace open for the tokenizer (C63). -/
example : ∃ r r', parseFallible cfgLuauOnly c!"x = `a{x`b{y}`\n" = .ok r ∧ parseFallible cfgLuauOnly c!"local t: {T} = { `{x}` }" = .ok r' ∧
    (r.errors.isEmpty = true ∧ r.silent = 0) ∧ (r'.errors.isEmpty = true ∧ r'.silent = 0) ∧ hasLast r.ast.nodes = false ∧
    r'.ast.nodes.flat.length + 1 = (match lexAll cfgLuauOnly c!"local t: {T} = { `{x}` }" with | .ok rs => (tokensOf rs).length | _ => 0) ∧
    startsParen r'.ast.nodes = false ∧ startsTok (tokenIs .twoColons) r'.ast.nodes = false :=
  Outcome.run₂ (by decide +kernel)

/-- The condition on `(` is needed: two statements become one. -/
theorem paren_continues : ∃ r r', parseFallible cfg51 c!"(g or h)()" = .ok r ∧ parseFallible cfg51 (c!"x = f\n" ++ c!"(g or h)()") = .ok r' ∧
    (r.errors.isEmpty = true ∧ r.silent = 0) ∧ (r'.errors.isEmpty = true ∧ r'.silent = 0) ∧
    textsOf .stmtCall r.ast.nodes = [c!"(g or h)()"] ∧ textsOf .stmtCall r'.ast.nodes = [] ∧ textsOf .exprCall r'.ast.nodes = [c!"f\n(g or h)()"] :=
  Outcome.run₂ (by decide +kernel)

/-- So is the one on `::`: in Luau, together with Lua 5.2, a label behind an expression is taken for the start of a type assertion. -/
theorem label_continues : ∃ r r', parseFallible allCfg c!"::l::" = .ok r ∧ parseFallible allCfg (c!"x = f\n" ++ c!"::l::") = .ok r' ∧
    (r.errors.isEmpty = true ∧ r.silent = 0) ∧ r'.errors.isEmpty = false :=
  Outcome.run₂ (by decide +kernel)

/-- So is the line break. -/
theorem no_line_break : ∃ r r', parseFallible cfg51 c!"z = 2" = .ok r ∧ parseFallible cfg51 (c!"x = y" ++ c!"z = 2") = .ok r' ∧
    (r.errors.isEmpty = true ∧ r.silent = 0) ∧ r'.errors.isEmpty = false :=
  Outcome.run₂ (by decide +kernel)

end FM.Props
