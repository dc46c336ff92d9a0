import Verif.Model.Ast.Operators
import Verif.Spec.Operators
import Verif.Props.Tokenizer

/-!
# Properties of operators: C24
-/

namespace FM.Props
open FM FM.Spec

theorem BinOp.mem_all (o : BinOp) : o ∈ BinOp.all := by cases o <;> decide

theorem BinOp.symbol_inj {o o' : BinOp} (h : o.symbol = o'.symbol) : o = o' := by
  cases o <;> cases o' <;> first | rfl | cases h

theorem BinOp.ofSymbol_some {f : Features} {s : Symbol} {o : BinOp} :
    BinOp.ofSymbol f s = some o ↔ o.symbol = s ∧ o.compiled f = true := by
  unfold BinOp.ofSymbol
  constructor
  · intro h
    have := List.find?_some h
    simpa using this
  · rintro ⟨rfl, hc⟩
    cases hf : BinOp.all.find? (fun o' => o'.symbol == o.symbol && o'.compiled f) with
    | none =>
      have := List.find?_eq_none.1 hf o (BinOp.mem_all o)
      simp [hc] at this
    | some o' =>
      have := List.find?_some hf
      simp only [Bool.and_eq_true, beq_iff_eq] at this
      rw [BinOp.symbol_inj this.1]

theorem BinOp.accept_some {c : Cfg} {t : TokRef} {o : BinOp} :
    BinOp.accept c t = some o ↔ t.token.type = .symbol o.symbol ∧ o.compiled c.feat = true ∧ c.hasAny o.gates = true := by
  unfold BinOp.accept
  constructor
  · intro h
    split at h
    · rename_i s hs
      split at h
      · rename_i o' ho
        split at h
        · cases h
          obtain ⟨h1, h2⟩ := BinOp.ofSymbol_some.1 ho
          exact ⟨h1 ▸ hs, h2, by assumption⟩
        · cases h
      · cases h
    · cases h
  · rintro ⟨h1, h2, h3⟩
    simp only [h1, BinOp.ofSymbol_some.2 ⟨rfl, h2⟩, h3, if_true]

theorem BinOp.row_level (o : BinOp) : row o.symbol.text + 1 = o.level := by cases o <;> decide

theorem BinOp.of_manual (s : Symbol) (h : manual.any (·.contains s.text) = true) : ∃ o : BinOp, o.symbol = s := by
  have : ∀ s ∈ Symbol.all, manual.any (·.contains s.text) = true → ∃ o ∈ BinOp.all, o.symbol = s := by decide +kernel
  obtain ⟨o, -, ho⟩ := this s (Symbol.mem_all s) h
  exact ⟨o, ho⟩

theorem BinOp.binaryIn_eq (c : Cfg) (o : BinOp) : binaryIn c o.symbol.text = c.hasAny o.gates := by
  have h1 : manual.any (·.contains o.symbol.text) = true := by cases o <;> decide
  unfold binaryIn
  rw [h1, Bool.true_and]
  cases o <;> first
    | exact if_neg (by decide) ▸ if_neg (by decide) ▸ rfl
    | (rw [if_pos (by decide)]; simp [Cfg.hasAny, BinOp.gates])
    | (rw [if_neg (by decide), if_pos (by decide)]; simp [Cfg.hasAny, BinOp.gates])
    | (rw [if_neg (by decide), if_neg (by decide)]; rfl)

theorem Cfg.compiled_of_hasAny {c : Cfg} {o : BinOp} (h : c.hasAny o.gates = true) : o.compiled c.feat = true := by
  simp only [Cfg.hasAny, BinOp.compiled, Bool.or_eq_true, List.any_eq_true] at h ⊢
  rcases h with h | ⟨v, hv, h⟩
  · exact .inl h
  · exact .inr ⟨v, hv, by simp only [Cfg.has, LuaVersion.has, Bool.and_eq_true] at h; exact h.1⟩

/-- **C24.** The parser reads a token as a binary operator exactly if it is an operator the manual lists for one
of the active versions. -/
theorem binop_accept_iff {c : Cfg} {t : TokRef} :
    (∃ o, BinOp.accept c t = some o) ↔ ∃ s, t.token.type = .symbol s ∧ binaryIn c s.text = true := by
  constructor
  · rintro ⟨o, h⟩
    obtain ⟨h1, -, h3⟩ := BinOp.accept_some.1 h
    exact ⟨_, h1, by rw [BinOp.binaryIn_eq, h3]⟩
  · rintro ⟨s, hs, hb⟩
    have hm : manual.any (·.contains s.text) = true := by
      unfold binaryIn at hb
      exact (Bool.and_eq_true _ _ ▸ hb).1
    obtain ⟨o, rfl⟩ := BinOp.of_manual s hm
    rw [BinOp.binaryIn_eq] at hb
    exact ⟨o, BinOp.accept_some.2 ⟨hs, Cfg.compiled_of_hasAny hb, hb⟩⟩

/-- **C24.** On an operator read by the parser, `precedence` does not panic, agrees with `precedence_of_token` and
is the row of the operator in the manual's table, counted from 1. -/
theorem binop_precedence {c : Cfg} {t : TokRef} {o : BinOp} (h : BinOp.accept c t = some o) :
    o.precedence c.feat t = .ok (row t.token.type.display + 1) ∧
    BinOp.precedenceOfToken c.feat t = some (row t.token.type.display + 1) := by
  obtain ⟨h1, h2, -⟩ := BinOp.accept_some.1 h
  have hp : BinOp.precedenceOfToken c.feat t = some (row t.token.type.display + 1) := by
    simp only [BinOp.precedenceOfToken, h1, BinOp.ofSymbol_some.2 ⟨rfl, h2⟩, Option.map_some, TokenType.display]
    rw [BinOp.row_level]
  exact ⟨by simp only [BinOp.precedence, hp], hp⟩

/-- **C24.** Every pair of operators is ordered as in the manual, unary operators included. -/
theorem binop_order {c : Cfg} {t u : TokRef} {o p : BinOp} (ht : BinOp.accept c t = some o)
    (hu : BinOp.accept c u = some p) :
    ∃ m n, o.precedence c.feat t = .ok m ∧ p.precedence c.feat u = .ok n ∧
      (m < n ↔ row t.token.type.display < row u.token.type.display) ∧
      (m = n ↔ row t.token.type.display = row u.token.type.display) ∧
      (m < UnOp.precedence ↔ row t.token.type.display < unaryRow) ∧ m ≠ UnOp.precedence := by
  refine ⟨_, _, (binop_precedence ht).1, (binop_precedence hu).1, by omega, by omega, ?_, ?_⟩
  · have : unaryRow + 1 = UnOp.precedence := by decide
    omega
  · obtain ⟨h1, -, -⟩ := BinOp.accept_some.1 ht
    rw [h1]
    show row o.symbol.text + 1 ≠ _
    rw [BinOp.row_level]
    cases o <;> decide

/-- **C24.** Exactly `..` and `^` are right associative, by variant and by token. -/
theorem binop_associativity {c : Cfg} {t : TokRef} {o : BinOp} (h : BinOp.accept c t = some o) :
    (o.isRightAssociative = true ↔ t.token.type.display = c!".." ∨ t.token.type.display = c!"^") ∧
    BinOp.isRightAssociativeToken t = o.isRightAssociative := by
  obtain ⟨h1, -, -⟩ := BinOp.accept_some.1 h
  unfold BinOp.isRightAssociativeToken
  rw [h1]
  cases o <;> decide

/-- **C24.** `precedence_of_token` is defined exactly on the operators that exist with the compiled features. -/
theorem precedence_of_token_iff {f : Features} {t : TokRef} :
    (∃ n, BinOp.precedenceOfToken f t = some n) ↔ ∃ o : BinOp, t.token.type = .symbol o.symbol ∧ o.compiled f = true := by
  unfold BinOp.precedenceOfToken
  constructor
  · rintro ⟨n, h⟩
    split at h
    · rename_i s hs
      cases ho : BinOp.ofSymbol f s with
      | none => rw [ho] at h; cases h
      | some o =>
        obtain ⟨h1, h2⟩ := BinOp.ofSymbol_some.1 ho
        exact ⟨o, h1 ▸ hs, h2⟩
    · cases h
  · rintro ⟨o, h1, h2⟩
    exact ⟨o.level, by simp [h1, BinOp.ofSymbol_some.2 ⟨rfl, h2⟩]⟩

/-- Every operator of the table is read by the parser in some version, so the theorems above are about all of
them. -/
example : ∀ o ∈ BinOp.all, BinOp.accept allCfg ⟨[], .new (.symbol o.symbol), []⟩ = some o := by decide

example : BinOp.precedence allCfg.feat .twoDots ⟨[], .new (.symbol .twoDots), []⟩ = .ok 8 := rfl

/-- A `BinOp` built by hand around another token makes `precedence` panic. -/
theorem binop_precedence_panics : ∃ f o t, BinOp.precedence f o t = .panic :=
  ⟨allCfg.feat, .plus, ⟨[], .new (.symbol .comma), []⟩, rfl⟩

/-- **C24.** With Lua 5.3 compiled in but not active, `&` has a precedence although the parser does not take it as
an operator. -/
theorem precedence_of_inactive_operator : ∃ c t, c.Reachable ∧ BinOp.accept c t = none ∧
    BinOp.precedenceOfToken c.feat t = some 6 :=
  ⟨⟨allCfg.feat, LuaVersion.only .luau⟩, ⟨[], .new (.symbol .ampersand), []⟩,
    ⟨by decide, .only .luau rfl⟩, rfl, rfl⟩

end FM.Props
