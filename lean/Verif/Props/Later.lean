import Verif.Proofs.LaterLex
import Verif.Props.Source

/-!
# Later versions: C60
-/

namespace FM.Props
open FM FM.Spec FM.Parser

variable {c c' : Cfg} {source : Text} {rs : List (LexRes TokRef)} {ast : Ast}

/-- **C60.**  A program that is accepted is accepted, with the same tree, when further versions other than Luau are active,
if no name becomes a keyword and no number is directly followed by a character with which it would go on. -/
theorem later_version (hc : c.Reachable) (hc' : c'.Reachable) (h : Later c c') (hs : ¬ HasShebang source)
    (hl : lexAll c source = .ok rs) (hk : Keeps c c' ((flatTokens rs).map Token.type))
    (hp : parseFallible c source = .ok ⟨ast, [], 0⟩) : parseFallible c' source = .ok ⟨ast, [], 0⟩ := by
  obtain ⟨h1, -, dropped, ⟨tys, h2, h3⟩, h4⟩ := (source_accepted_iff hc hs).1 hp
  have hlu : c.has .luau = false := h.same.trans h.luau
  have htys : tys = (flatTokens rs).map Token.type := by
    obtain ⟨rs', hl', -, -, e⟩ := (lexical_grammar hc).2 h2
    rw [hl] at hl'
    cases hl'
    exact e.symm
  have hap : c.has .cfxlua = false → Apart (c.has .lua53) tys := by
    intro hx
    have hb : Before c := ⟨hlu, hx, (reach53 hc).1⟩
    refine attaches_apart h3 ?_
    have ho := hb.ok ast.nodes (.cat .block) rfl h1
    have hd : (Info.mk false false false).Ok (c.has .lua53) (typesOf dropped) := by
      rcases h4 with rfl | ⟨-, n, semi, h5, rfl, -⟩
      · exact Info.ok_nil _ _
      · exact (hb.ok _ _ (by cases c.has .lua53 <;> rfl) h5).le (by cases c.has .lua53 <;> rfl)
    have he : (Info.mk true true false).Ok (c.has .lua53) (typesOf [ast.eof]) := ⟨trivial, nofun, nofun, nofun⟩
    have := (ho.append hd (k := ⟨true, false, false⟩) rfl).append he (k := ⟨true, true, false⟩) rfl
    simpa [typesOf] using this.apart
  refine (source_accepted_iff hc' hs).2 ⟨h.conforms _ _ h1, fun hx => ?_, dropped, ⟨tys, ?_, h3⟩, ?_⟩
  · rw [h.luau] at hx; cases hx
  · rcases h2 with ⟨_, h2⟩ | ⟨line, rest, tys', e, hsh, -, -, -, -⟩
    · exact .inl ⟨hs, h.lexes hc h2 (htys ▸ hk) hap⟩
    · refine absurd ?_ hs
      subst e
      match line, hsh with
      | [], hsh => cases hsh
      | [_], hsh => cases hsh
      | a :: b :: line, hsh => simpa [HasShebang] using hsh
  · refine h4.imp id ?_
    rintro ⟨hl, n, semi, h5, h6, h7, -⟩
    exact ⟨hl, n, semi, h.conforms _ _ h5, h6, h7, fun hx => by rw [h.luau] at hx; cases hx⟩

/-- From Lua 5.2 on a later version of PUC Lua, or CfxLua, accepts every program with the same tree. -/
theorem from_lua52_on (hc : c.Reachable) (hc' : c'.Reachable) (h : Later c c') (hv : c.has .lua52 = true)
    (hj : c'.has .luajit = c.has .luajit) (hs : ¬ HasShebang source) (hp : parseFallible c source = .ok ⟨ast, [], 0⟩) :
    parseFallible c' source = .ok ⟨ast, [], 0⟩ := by
  obtain ⟨rs, hl, -⟩ := parseFallible_ok hp
  refine later_version hc hc' h hs hl ⟨fun x _ hr => ?_, fun a t u b _ => ?_⟩ hp
  · exact hr.imp id fun hr => ⟨hr.1, .inl hv⟩
  · cases u.display <;> simp [startsWith, goesOn, hv, hj]

/-! Programs and versions that meet the conditions. -/

/-- Everything compiled in, and one of the versions active. -/
def only (v : Ver) : Cfg := ⟨⟨true, true, true, true, true, true⟩, .only v⟩

/-- Everything compiled in, and Lua 5.1 active. -/
def plain51 : Cfg := ⟨⟨true, true, true, true, true, true⟩, .lua51⟩

theorem only_reachable (v : Ver) : (only v).Reachable := ⟨by cases v <;> decide, .only v (by cases v <;> rfl)⟩
theorem plain51_reachable : plain51.Reachable := ⟨by decide, .lua51⟩

theorem plain51_later {v : Ver} (hv : v ≠ .luau) : Later plain51 (only v) := by
  cases v <;> first | exact absurd rfl hv | exact ⟨rfl, by intro w; cases w <;> decide, by decide⟩

theorem only53_cfxlua : Later (only .lua53) (only .cfxlua) := ⟨rfl, by intro w; cases w <;> decide, by decide⟩

example : ∃ r rs, parseFallible plain51 c!"local x = a/b < -c ; y = {'p\\\nq'} f:g(y[1]) if x >= y then return 0x1F .. z end" = .ok r ∧
    lexAll plain51 c!"local x = a/b < -c ; y = {'p\\\nq'} f:g(y[1]) if x >= y then return 0x1F .. z end" = .ok rs ∧
    Keeps plain51 (only .luajit) ((flatTokens rs).map Token.type) ∧ Keeps plain51 (only .cfxlua) ((flatTokens rs).map Token.type) ∧ r.errors.isEmpty = true ∧ r.silent = 0 := by
  obtain ⟨r, h1, h2, h3⟩ : ∃ r, parseFallible plain51 c!"local x = a/b < -c ; y = {'p\\\nq'} f:g(y[1]) if x >= y then return 0x1F .. z end" = .ok r ∧
    r.errors.isEmpty = true ∧ r.silent = 0 := Outcome.run (by decide +kernel)
  obtain ⟨rs, h4, h5, h6⟩ : ∃ rs, lexAll plain51 c!"local x = a/b < -c ; y = {'p\\\nq'} f:g(y[1]) if x >= y then return 0x1F .. z end" = .ok rs ∧
    keeps plain51 (only .luajit) ((flatTokens rs).map Token.type) = true ∧ keeps plain51 (only .cfxlua) ((flatTokens rs).map Token.type) = true := Outcome.run (by decide +kernel)
  exact ⟨r, rs, h1, h4, keeps_sound _ h5, keeps_sound _ h6, h2, h3⟩

example : ∃ r, parseFallible (only .lua53) c!"::l:: local x = a//b << c | d goto l" = .ok r ∧ r.errors.isEmpty = true ∧ r.silent = 0 ∧
    (only .lua53).has .lua52 = true ∧ (only .cfxlua).has .luajit = (only .lua53).has .luajit := by
  obtain ⟨r, h1, h2, h3⟩ : ∃ r, parseFallible (only .lua53) c!"::l:: local x = a//b << c | d goto l" = .ok r ∧
    r.errors.isEmpty = true ∧ r.silent = 0 := Outcome.run (by decide +kernel)
  exact ⟨r, h1, h2, h3, rfl, rfl⟩

/-! The conditions are needed: without one of them a program that is accepted may be refused later. -/

/-- `goto` is a name in Lua 5.1 and a keyword from Lua 5.2 on and in LuaJIT. -/
theorem goto_becomes_keyword : ∃ r r', parseFallible plain51 c!"goto = 1" = .ok r ∧ r.errors.isEmpty = true ∧
    parseFallible (only .lua52) c!"goto = 1" = .ok r' ∧ r'.errors.isEmpty = false := by
  obtain ⟨r, r', h1, h2, h3, h4⟩ : ∃ r r', parseFallible plain51 c!"goto = 1" = .ok r ∧
    parseFallible (only .lua52) c!"goto = 1" = .ok r' ∧ r.errors.isEmpty = true ∧ r'.errors.isEmpty = false := Outcome.run₂ (by decide +kernel)
  exact ⟨r, r', h1, h3, h2, h4⟩

/-- `0x1..y` is a concatenation in Lua 5.1 and starts with a malformed number from Lua 5.2 on. -/
theorem hex_point_goes_on : ∃ r r', parseFallible plain51 c!"x = 0x1..y" = .ok r ∧ r.errors.isEmpty = true ∧
    parseFallible (only .lua52) c!"x = 0x1..y" = .ok r' ∧ r'.errors.isEmpty = false := by
  obtain ⟨r, r', h1, h2, h3, h4⟩ : ∃ r r', parseFallible plain51 c!"x = 0x1..y" = .ok r ∧
    parseFallible (only .lua52) c!"x = 0x1..y" = .ok r' ∧ r.errors.isEmpty = true ∧ r'.errors.isEmpty = false := Outcome.run₂ (by decide +kernel)
  exact ⟨r, r', h1, h3, h2, h4⟩

/-- `1i` is a number and a name in Lua 5.1 and one number in LuaJIT. -/
theorem suffix_goes_on : ∃ r r', parseFallible plain51 c!"x = 1i = 2" = .ok r ∧ r.errors.isEmpty = true ∧
    parseFallible (only .luajit) c!"x = 1i = 2" = .ok r' ∧ r'.errors.isEmpty = false := by
  obtain ⟨r, r', h1, h2, h3, h4⟩ : ∃ r r', parseFallible plain51 c!"x = 1i = 2" = .ok r ∧
    parseFallible (only .luajit) c!"x = 1i = 2" = .ok r' ∧ r.errors.isEmpty = true ∧ r'.errors.isEmpty = false := Outcome.run₂ (by decide +kernel)
  exact ⟨r, r', h1, h3, h2, h4⟩

end FM.Props
