import Verif.Spec.Parsing
import Verif.Proofs.Parser.Safe
import Verif.Props.Tokenizer

/-! Helper lemmas: parsing a source. -/

namespace FM.Parser
open FM.Spec

/-- The tokens an Ast of the stream `rs` may have. -/
def Allowed (c : Cfg) (rs : List (LexRes TokRef)) (t : TokRef) : Prop := t ∈ tokensOf rs ∨ Phantom c t

instance (c : Cfg) (rs : List (LexRes TokRef)) : Phantoms c (Allowed c rs) := ⟨fun _ h => .inr h⟩

theorem mem_tokensOf_iff {rs : List (LexRes TokRef)} {t : TokRef} : t ∈ tokensOf rs ↔ ∃ x ∈ rs, tok? x = some t := by
  simp only [tokensOf, List.mem_filterMap]
  constructor <;> rintro ⟨x, hx, h⟩ <;> refine ⟨x, hx, ?_⟩ <;> cases x <;> simp_all [tok?]

theorem isEof_iff {t : TokRef} : t.isEof = true ↔ t.token.type = .eof := by
  unfold TokRef.isEof
  cases t.token.type <;> simp [TokenType.kind]

theorem good_of_lexAll {c : Cfg} (hc : c.Reachable) {source : Text} {rs : List (LexRes TokRef)}
    (h : lexAll c source = .ok rs) : rs = [] ∧ HasShebang source ∨ Good c (Allowed c rs) rs := by
  rcases lexAll_eof hc.good h with h0 | ⟨init, t, h1, h2, -, h4, r, h5, h6⟩
  · exact .inl h0
  refine .inr ⟨fun x hx t ht => ?_, ?_⟩
  · have hm : t ∈ tokensOf rs := mem_tokensOf_iff.2 ⟨x, hx, ht⟩
    refine ⟨.inl hm, fun s hs => Props.symbols_enabled hc h (x := t.token) ?_ hs⟩
    exact List.mem_flatMap.2 ⟨t, hm, by simp [TokRef.flat]⟩
  · have hne : rs ≠ [] := by rintro rfl; simp at h5
    have hrs : rs.dropLast ++ [r] = rs := by
      have := List.dropLast_concat_getLast hne
      rw [List.getLast?_eq_some_getLast hne, Option.some.injEq] at h5
      rw [← h5]; exact this
    have hr : tok? r = some t := by rcases h6 with rfl | ⟨es, rfl⟩ <;> rfl
    refine ⟨rs.dropLast, r, t, hrs.symm, hr, isEof_iff.2 h2, fun y hy u hu => ?_⟩
    have : tokensOf rs.dropLast ++ [t] = init ++ [t] := by
      rw [← h1]; conv => rhs; rw [← hrs]
      rw [tokensOf, tokensOf, List.filterMap_append]
      rcases h6 with rfl | ⟨es, rfl⟩ <;> rfl
    have hi : tokensOf rs.dropLast = init := List.append_cancel_right this
    have := h4 u (hi ▸ mem_tokensOf_iff.2 ⟨y, hy, hu⟩)
    cases he : u.isEof with
    | false => rfl
    | true => exact absurd (isEof_iff.1 he) this

/-- The parser on the tokens of a source. -/
theorem parse_cases {c : Cfg} (hc : c.Reachable) {source : Text} {rs : List (LexRes TokRef)}
    (h : lexAll c source = .ok rs) :
    match parseTokens c rs with
    | .ok r => HasTy (Allowed c rs) (.cat .block) r.ast.nodes ∧
        (∃ pre x, rs = pre ++ [x] ∧ tok? x = some r.ast.eof ∧ r.ast.eof.isEof = true) ∧
        r.errors.filterMap Err.tokErr? = errorsOf rs ∧ (∀ e ∈ r.errors, e.Known (Allowed c rs)) ∧ (c.luau = false → r.silent = 0)
    | .panic => PanicOK c rs ∨ rs = [] ∧ HasShebang source
    | .diverge => False := by
  rcases good_of_lexAll hc h with ⟨rfl, hs⟩ | hg
  · exact .inr ⟨rfl, hs⟩
  · have := parseTokens_spec hg
    split at this <;> rename_i h' <;> first | (rw [h']; exact ⟨this.1.1, this.2⟩) | (rw [h']; exact .inl this) | exact this.elim

/-- Every node of every tree the parser returns is lawful. -/
theorem parse_lawful {c : Cfg} (hc : c.Reachable) {source : Text} {rs : List (LexRes TokRef)} (h : lexAll c source = .ok rs)
    {r : AstResult} (hr : parseTokens c rs = .ok r) : r.ast.nodes.Every (lawful c) := by
  rcases good_of_lexAll hc h with ⟨rfl, hs⟩ | hg
  · cases hr
  · have := parseTokens_spec hg
    rw [hr] at this
    exact this.1.2

theorem parseFallible_ok {c : Cfg} {source : Text} {r : AstResult} (h : parseFallible c source = .ok r) :
    ∃ rs, lexAll c source = .ok rs ∧ parseTokens c rs = .ok r := by
  unfold parseFallible at h
  cases hl : lexAll c source with
  | ok rs => rw [hl] at h; exact ⟨rs, rfl, h⟩
  | panic => rw [hl] at h; cases h
  | diverge => rw [hl] at h; cases h

/-- A phantom, described. -/
def inventedB (t : TokRef) : Bool := decide (t.display ∈ inventedTexts) && decide (t.token.start ∈ inventedStarts)

def okAnd (p : TokRef → Bool) : Outcome (Except TokErrType TokRef) → Bool
  | .ok (.ok t) => p t
  | _ => true

theorem invented_lua51 : ∀ text ∈ [c!"(", c!")", c!"\nend", c!"if ", c!" then", c!"while ", c!" do\n", c!"end\n", c!"do\n",
    c!"end", c!"do", c!"...", c!">", c!"}", c!"]", c!"="], ∀ a b d e g i,
    okAnd inventedB (symbolSpecific ⟨⟨a, b, d, e, g, i⟩, .lua51⟩ text) = true := by
  decide +kernel

theorem invented_default : ∀ a b d e g i,
    okAnd inventedB (symbolSpecific ⟨⟨a, b, d, e, g, i⟩, .default⟩ c!"::") = true := by
  decide +kernel

theorem Phantom.invented {c : Cfg} {t : TokRef} (h : Phantom c t) : Invented t := by
  have key : inventedB t = true := by
    rcases h with ⟨v, text, ⟨rfl, h⟩ | ⟨rfl, rfl, -⟩, h'⟩ | rfl | rfl
    · have := invented_lua51 text h c.feat.luau c.feat.lua52 c.feat.lua53 c.feat.lua54 c.feat.luajit c.feat.cfxlua
      rw [show (⟨c.feat.luau, c.feat.lua52, c.feat.lua53, c.feat.lua54, c.feat.luajit, c.feat.cfxlua⟩ : Features) = c.feat from rfl,
        h'] at this
      exact this
    · have := invented_default c.feat.luau c.feat.lua52 c.feat.lua53 c.feat.lua54 c.feat.luajit c.feat.cfxlua
      rw [show (⟨c.feat.luau, c.feat.lua52, c.feat.lua53, c.feat.lua54, c.feat.luajit, c.feat.cfxlua⟩ : Features) = c.feat from rfl,
        h'] at this
      exact this
    · decide
    · decide
  simpa [inventedB, Invented] using key

end FM.Parser
