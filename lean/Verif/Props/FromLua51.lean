import Verif.Proofs.FromLua51Lex
import Verif.Props.Later

/-!
# Programs of Lua 5.1 in Luau: C61
-/

namespace FM.Props
open FM FM.Spec FM.Parser

variable {c c' : Cfg} {source : Text} {rs : List (LexRes TokRef)} {ast : Ast}

/-- **C61.**  A program that is accepted as Lua 5.1 is accepted as Luau, with the same tree but for the listed type of `...`,
if no name becomes a keyword, no number is directly followed by a character with which it would go on, and there is no
string in backticks. -/
theorem luau_accepts_lua51 (hc : c.Reachable) (hc' : c'.Reachable) (h : AddsLuau c c') (hs : ¬ HasShebang source)
    (hl : lexAll c source = .ok rs) (hk : KeepsLuau c c' ((flatTokens rs).map Token.type))
    (hp : parseFallible c source = .ok ⟨ast, [], 0⟩) : parseFallible c' source = .ok ⟨⟨luauTree ast.nodes, ast.eof⟩, [], 0⟩ := by
  obtain ⟨h1, -, dropped, ⟨tys, h2, h3⟩, h4⟩ := (source_accepted_iff hc hs).1 hp
  have htys : tys = (flatTokens rs).map Token.type := by
    obtain ⟨rs', hl', -, -, e⟩ := (lexical_grammar hc).2 h2
    rw [hl] at hl'
    cases hl'
    exact e.symm
  have h2 : Lexes c [] source tys := by
    rcases h2 with ⟨_, h2⟩ | ⟨line, rest, tys', e, hsh, -, -, -, -⟩
    · exact h2
    · refine absurd ?_ hs
      subst e
      match line, hsh with
      | [], hsh => cases hsh
      | [_], hsh => cases hsh
      | a :: b :: line, hsh => simpa [HasShebang] using hsh
  have hb := h.before
  have hap : Apart false tys := by
    refine attaches_apart h3 ?_
    have ho := hb.ok ast.nodes (.cat .block) rfl h1
    have hd : (Info.mk false false false).Ok (c.has .lua53) (typesOf dropped) := by
      rcases h4 with rfl | ⟨-, n, semi, h5, rfl, -⟩
      · exact Info.ok_nil _ _
      · exact (hb.ok _ _ (by cases c.has .lua53 <;> rfl) h5).le (by cases c.has .lua53 <;> rfl)
    have he : (Info.mk true true false).Ok (c.has .lua53) (typesOf [ast.eof]) := ⟨trivial, nofun, nofun, nofun⟩
    have := (ho.append hd (k := ⟨true, false, false⟩) rfl).append he (k := ⟨true, true, false⟩) rfl
    rw [h.lua51] at this
    simpa [typesOf] using this.apart
  have quiet : ∀ t ∈ ast.nodes.flat ++ (dropped ++ [ast.eof]), t.token.type ≠ .symbol .twoColons := by
    intro t ht e
    have h5 := attaches_types h3
    have h6 : (TokenType.symbol .twoColons) ∈ typesOf (ast.nodes.flat ++ (dropped ++ [ast.eof])) := by
      rw [← e]; exact List.mem_map.2 ⟨t, ht, rfl⟩
    rw [← h5] at h6
    obtain ⟨u, hu, hu'⟩ := List.mem_map.1 h6
    have h7 : TokenType.symbol .twoColons ∈ tys := by
      rw [← place_types [] tys, ← hu']
      exact List.mem_map.2 ⟨u, (List.mem_filter.1 hu).1, rfl⟩
    have := h.gates (lexes_enabled h2 h7)
    cases this
  have hq : Quiet ast.nodes := fun t ht => quiet t (List.mem_append.2 (.inl (Forward.conf_mem_flat h1 ht)))
  have hg := h.grown ast.nodes hq (.cat .block) rfl h1
  refine (source_accepted_iff hc' hs).2 ⟨hg.conf, fun _ => Forward.every_mono hg.every fun _ _ h => h.2, dropped, ⟨tys, .inl ⟨hs, ?_⟩, ?_⟩, ?_⟩
  · exact h.lexes h2 (htys ▸ hk) hap (by simp)
  · show Attaches _ ((luauTree ast.nodes).flat ++ (dropped ++ [ast.eof]))
    rw [hg.like.flat]; exact h3
  · refine h4.imp id ?_
    rintro ⟨hl, n, semi, h5, rfl, -, -⟩
    have hq' : Quiet (.node .tuple [n, semi]) := fun t ht =>
      quiet t (List.mem_append.2 (.inr (List.mem_append.2 (.inl (Forward.conf_mem_flat h5 ht)))))
    have hg' := h.grown _ hq' _ rfl h5
    have e : luauTree (.node .tuple [n, semi]) = .node .tuple [luauTree n, luauTree semi] := by rw [luauTree_other (by decide)]; rfl
    refine ⟨?_, luauTree n, luauTree semi, e ▸ hg'.conf, e ▸ hg'.like.flat, fun hcont => ?_, fun _ => ?_⟩
    · obtain ⟨stmts, last, e⟩ := hl
      exact ⟨luauTree stmts, luauTree last, by rw [e]; simp [luauTree_other]⟩
    · exfalso
      rw [Conforms] at h5
      obtain ⟨x, _, e, hx, -⟩ := conformsAll_cons h5
      cases e
      obtain ⟨k, cs, rfl, -, hav, -⟩ := conforms_cat hx
      have hf := h.far hav
      simp only [isOne, kindOf] at hcont
      cases k <;> first | (cases hf; done) | (cases hcont; done)
    · rw [← e]; exact Forward.every_mono hg'.every fun _ _ h => h.2

/-- No function has `...` among its parameters. -/
def NoVarargs (n : Node) : Prop := n.Every fun k cs =>
  ∀ generics parens params types result block end_, k = .funcBody → cs = [generics, parens, params, types, result, block, end_] →
    ∀ p ∈ params.children, namedParam p = true

theorem luauTree_same (n : Node) : NoVarargs n → luauTree n = n := by
  induction n using Node.induct with
  | ht t => intro _; exact luauTree_tok t
  | hn k cs ih =>
    intro h
    obtain ⟨h1, h2⟩ := Clean.every_node.1 h
    have e : cs.map luauTree = cs := by
      conv => rhs; rw [← List.map_id cs]
      exact List.map_congr_left fun x hx => ih x hx (h2 x hx)
    rw [luauTree_node, e]
    congr 1
    unfold bodyParts
    split
    · rename_i g s ps ts r b d
      have hp := h1 g s ps ts r b d rfl rfl
      cases ts with
      | tok t => rfl
      | node k ts => rw [allTypes, if_pos (List.all_eq_true.2 hp)]
    · rfl

/-- If no function has `...` as parameter, the tree is the same. -/
theorem luau_same_tree (hc : c.Reachable) (hc' : c'.Reachable) (h : AddsLuau c c') (hs : ¬ HasShebang source)
    (hl : lexAll c source = .ok rs) (hk : KeepsLuau c c' ((flatTokens rs).map Token.type)) (hv : NoVarargs ast.nodes)
    (hp : parseFallible c source = .ok ⟨ast, [], 0⟩) : parseFallible c' source = .ok ⟨ast, [], 0⟩ := by
  have := luau_accepts_lua51 hc hc' h hs hl hk hp
  rwa [luauTree_same _ hv] at this

/-! Programs and versions that meet the conditions. -/

theorem plain51_luau : AddsLuau plain51 (only .luau) := ⟨rfl, by intro v; cases v <;> rfl, rfl⟩
theorem plain51_all : AddsLuau plain51 allCfg := ⟨rfl, by intro v; cases v <;> rfl, by decide⟩

/-- `type`, `export` and `continue` as names, operators next to each other, braces, numbers, a function with `...`. -/
def luaProgram : Text := c!"type = {1, 0x1F; [2] = -3 % -a .. 'b'} export 'x' function continue(a, ...) local x, y = a < -1, # ... return x end"

example : ∃ r rs, parseFallible plain51 luaProgram = .ok r ∧ lexAll plain51 luaProgram = .ok rs ∧
    KeepsLuau plain51 (only .luau) ((flatTokens rs).map Token.type) ∧ KeepsLuau plain51 allCfg ((flatTokens rs).map Token.type) ∧
    r.errors.isEmpty = true ∧ r.silent = 0 ∧ luauTree r.ast.nodes ≠ r.ast.nodes := by
  obtain ⟨r, h1, h2, h3, h4⟩ : ∃ r, parseFallible plain51 luaProgram = .ok r ∧ r.errors.isEmpty = true ∧ r.silent = 0 ∧
    ((luauTree r.ast.nodes).size == r.ast.nodes.size) = false := Outcome.run (by decide +kernel)
  obtain ⟨rs, h5, h6, h7⟩ : ∃ rs, lexAll plain51 luaProgram = .ok rs ∧ keepsLuau plain51 (only .luau) ((flatTokens rs).map Token.type) = true ∧
    keepsLuau plain51 allCfg ((flatTokens rs).map Token.type) = true := Outcome.run (by decide +kernel)
  exact ⟨r, rs, h1, h5, keepsLuau_sound _ h6, keepsLuau_sound _ h7, h2, h3, fun e => by rw [e] at h4; simp at h4⟩

/-- No function has `...`, as a test. -/
def noVarargs : Node → Bool
  | .tok _ => true
  | .node k cs => named k cs && all cs
where
  named : Kind → List Node → Bool
    | .funcBody, [_, _, params, _, _, _, _] => params.children.all namedParam
    | _, _ => true
  all : List Node → Bool
    | [] => true
    | n :: ns => noVarargs n && all ns

theorem noVarargs_all : ∀ cs : List Node, noVarargs.all cs = cs.all noVarargs
  | [] => rfl
  | _ :: cs => by rw [noVarargs.all, noVarargs_all cs]; rfl

theorem noVarargs_sound (n : Node) : noVarargs n = true → NoVarargs n := by
  induction n using Node.induct with
  | ht t => intro _; trivial
  | hn k cs ih =>
    intro h
    rw [noVarargs, noVarargs_all, Bool.and_eq_true] at h
    refine Clean.every_node.2 ⟨?_, fun x hx => ih x hx (List.all_eq_true.1 h.2 x hx)⟩
    rintro g s ps ts r b d rfl rfl
    exact List.all_eq_true.1 h.1

example : ∃ r rs, parseFallible plain51 c!"local function f(a, b) return a .. b end" = .ok r ∧
    lexAll plain51 c!"local function f(a, b) return a .. b end" = .ok rs ∧
    KeepsLuau plain51 (only .luau) ((flatTokens rs).map Token.type) ∧ NoVarargs r.ast.nodes ∧ r.errors.isEmpty = true ∧ r.silent = 0 := by
  obtain ⟨r, h1, h2, h3, h4⟩ : ∃ r, parseFallible plain51 c!"local function f(a, b) return a .. b end" = .ok r ∧
    r.errors.isEmpty = true ∧ r.silent = 0 ∧ noVarargs r.ast.nodes = true := Outcome.run (by decide +kernel)
  obtain ⟨rs, h5, h6⟩ : ∃ rs, lexAll plain51 c!"local function f(a, b) return a .. b end" = .ok rs ∧
    keepsLuau plain51 (only .luau) ((flatTokens rs).map Token.type) = true := Outcome.run (by decide +kernel)
  exact ⟨r, rs, h1, h5, keepsLuau_sound _ h6, noVarargs_sound _ h4, h2, h3⟩

/-! The conditions are needed. -/

/-- `1_` is a number and a name in Lua 5.1 and one number in Luau. -/
theorem underscore_goes_on : ∃ r r', parseFallible plain51 c!"x = 1_ = 2" = .ok r ∧ r.errors.isEmpty = true ∧
    parseFallible (only .luau) c!"x = 1_ = 2" = .ok r' ∧ r'.errors.isEmpty = false := by
  obtain ⟨r, r', h1, h2, h3, h4⟩ : ∃ r r', parseFallible plain51 c!"x = 1_ = 2" = .ok r ∧
    parseFallible (only .luau) c!"x = 1_ = 2" = .ok r' ∧ r.errors.isEmpty = true ∧ r'.errors.isEmpty = false := Outcome.run₂ (by decide +kernel)
  exact ⟨r, r', h1, h3, h2, h4⟩

/-- `0b1` is a number and a name in Lua 5.1 and one number in Luau. -/
theorem binary_goes_on : ∃ r r', parseFallible plain51 c!"x = 0b1 = 2" = .ok r ∧ r.errors.isEmpty = true ∧
    parseFallible (only .luau) c!"x = 0b1 = 2" = .ok r' ∧ r'.errors.isEmpty = false := by
  obtain ⟨r, r', h1, h2, h3, h4⟩ : ∃ r r', parseFallible plain51 c!"x = 0b1 = 2" = .ok r ∧
    parseFallible (only .luau) c!"x = 0b1 = 2" = .ok r' ∧ r.errors.isEmpty = true ∧ r'.errors.isEmpty = false := Outcome.run₂ (by decide +kernel)
  exact ⟨r, r', h1, h3, h2, h4⟩

/-- A string in backticks, which builds with CfxLua read in Lua 5.1, starts an interpolated expression in Luau. -/
theorem backticks_interpolate : ∃ r r', parseFallible plain51 c!"x = `{`" = .ok r ∧ r.errors.isEmpty = true ∧
    parseFallible (only .luau) c!"x = `{`" = .ok r' ∧ r'.errors.isEmpty = false := by
  obtain ⟨r, r', h1, h2, h3, h4⟩ : ∃ r r', parseFallible plain51 c!"x = `{`" = .ok r ∧
    parseFallible (only .luau) c!"x = `{`" = .ok r' ∧ r.errors.isEmpty = true ∧ r'.errors.isEmpty = false := Outcome.run₂ (by decide +kernel)
  exact ⟨r, r', h1, h3, h2, h4⟩

end FM.Props
