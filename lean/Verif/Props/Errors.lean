import Verif.Proofs.PrintedErrors
import Verif.Model.Errors
import Verif.Props.Parsing
import Verif.Props.Tokenizer
import Verif.Props.Order

/-!
# What an error says about where it is: C53
-/

namespace FM.Props
open FM FM.Spec FM.Parser

variable {c : Cfg} {source : Text} {rs : List (LexRes TokRef)} {r : AstResult}

/-- The position after some prefix of the source. -/
def StartsIn (source : Text) (p : Position) : Prop := ∃ before after, source = before ++ after ∧ p = position before

/-- The end position of some slice of the source. -/
def EndsIn (source : Text) (p : Position) : Prop :=
  ∃ before w after, source = before ++ w ++ after ∧ p = endPosition before w

/-- The range from the start of one token to the end of another, both of the source or invented. -/
def Between (rs : List (LexRes TokRef)) (p : Position × Position) : Prop :=
  ∃ a b, (a ∈ tokensOf rs ∨ Invented a) ∧ (b ∈ tokensOf rs ∨ Invented b) ∧ p = (a.token.start, b.token.stop)

/-- **C53** (partial).  The range of every reported error: that of a tokenizer error covers a nonempty part of the source,
that of a syntax error goes from the start of one token to the end of another, each a token of the source or one
invented by error recovery.  Missing: that it starts before it ends, and that both are in the source, which is not so
(`error_range_inverted`). -/
theorem error_ranges_partial (hc : c.Reachable) (hl : lexAll c source = .ok rs) (h : parseFallible c source = .ok r) :
    ∀ e ∈ r.errors, (∃ te, e = .tokenizer te ∧ ErrorIn source te ∧ e.range = te.range) ∨
      (∃ t m p, e = .ast t m p) ∧ Between rs e.range := by
  have htok := tokenizer_errors_reported hc hl h
  obtain ⟨rs', hl', h⟩ := parseFallible_ok h
  rw [hl] at hl'
  cases hl'
  have := parse_cases hc hl
  rw [h] at this
  intro e he
  cases e with
  | tokenizer te =>
    refine .inl ⟨te, rfl, ?_, rfl⟩
    have hte : te ∈ errorsOf rs := by
      rw [← htok]
      exact List.mem_filterMap.2 ⟨_, he, rfl⟩
    obtain ⟨before, w, after, h1, h2, h3, h4⟩ := errors_point_into_source hc hl hte
    exact ⟨before, w, after, h1, h2, Prod.ext h3 h4⟩
  | ast t m p =>
    refine .inr ⟨⟨t, m, p, rfl⟩, ?_⟩
    obtain ⟨u, hu, rfl, hp⟩ := this.2.2.2.1 _ he
    cases p with
    | none => exact ⟨u, u, hu.imp_right Phantom.invented, hu.imp_right Phantom.invented, rfl⟩
    | some p =>
      obtain ⟨a, b, ha, hb, hab⟩ := hp p rfl
      exact ⟨a, b, ha.imp_right Phantom.invented, hb.imp_right Phantom.invented, hab⟩

/-- The token of a reference stands at its place. -/
theorem placed_token {before after : Text} {ts us : List Token} {x : Token} (h : Placed c before (ts ++ x :: us) after) :
    x.start = position (before ++ text ts) ∧ x.stop = endPosition (before ++ text ts) x.display := by
  induction ts generalizing before with
  | nil =>
    simp only [List.nil_append, Placed] at h
    simpa [text] using ⟨h.1, h.2.1⟩
  | cons t ts ih =>
    have := ih h.2.2.2
    simpa [text, List.append_assoc] using this

/-- The token of a reference that was returned without an error. -/
theorem ok_token_at (hc : c.Reachable) (hl : lexAll c source = .ok rs) {t : TokRef} (ht : .ok t ∈ rs) :
    ∃ before after, source = before ++ t.token.display ++ after ∧ t.token.start = position before ∧
      t.token.stop = endPosition before t.token.display := by
  obtain ⟨before, after, h1, h2⟩ := ok_token_is_slice hc hl ht
  have hf : t.flat = t.leading ++ t.token :: t.trailing := by simp [TokRef.flat]
  rw [hf] at h2
  obtain ⟨h3, h4⟩ := placed_token h2
  refine ⟨before ++ text t.leading, text t.trailing ++ after, ?_, h3, h4⟩
  rw [h1]
  have : t.display = text t.flat := by simp [TokRef.display, TokRef.flat, text]
  rw [this, hf]
  simp [text]

/-- **C53** (partial).  Every error starts at a position of the source, or where an invented token claims to start. -/
theorem error_starts_partial (hc : c.Reachable) (hl : lexAll c source = .ok rs) (h : parseFallible c source = .ok r) :
    ∀ e ∈ r.errors, StartsIn source e.range.1 ∨ e.range.1 ∈ inventedStarts := by
  intro e he
  rcases error_ranges_partial hc hl h e he with ⟨te, rfl, ⟨before, w, after, h1, -, h2⟩, -⟩ | ⟨-, a, b, ha, -, hab⟩
  · exact .inl ⟨before, w ++ after, by rw [h1, List.append_assoc], by simp [Err.range, h2]⟩
  · rw [hab]
    rcases ha with ha | ha
    · have hx : a.token ∈ flatTokens rs := List.mem_flatMap.2 ⟨a, ha, by simp [TokRef.flat]⟩
      obtain ⟨before, after, h1, h2, -⟩ := every_token_is_slice hc hl hx
      exact .inl ⟨before, after, h1, h2⟩
    · exact .inr ha.2

/-- **C53** (partial).  If the tokenizer reports no error, every error ends where a slice of the source does, or where an
invented token claims to end. -/
theorem error_ends_partial (hc : c.Reachable) (hl : lexAll c source = .ok rs) (h : parseFallible c source = .ok r)
    (hok : ∀ x ∈ rs, ∃ t, x = .ok t) :
    ∀ e ∈ r.errors, EndsIn source e.range.2 ∨ ∃ t, Invented t ∧ e.range.2 = t.token.stop := by
  intro e he
  rcases error_ranges_partial hc hl h e he with ⟨te, rfl, ⟨before, w, after, h1, -, h2⟩, -⟩ | ⟨-, a, b, -, hb, hab⟩
  · exfalso
    have hte : te ∈ errorsOf rs := by
      rw [← tokenizer_errors_reported hc hl h]
      exact List.mem_filterMap.2 ⟨_, he, rfl⟩
    obtain ⟨x, hx, hte⟩ := List.mem_flatMap.1 hte
    obtain ⟨t, rfl⟩ := hok x hx
    cases hte
  · rw [hab]
    rcases hb with hb | hb
    · rcases mem_tokensOf.1 hb with hb | ⟨es, hb⟩
      · obtain ⟨before, after, h1, h2, h3⟩ := ok_token_at hc hl hb
        exact .inl ⟨before, _, after, h1, h3⟩
      · obtain ⟨t, ht⟩ := hok _ hb
        cases ht
    · exact .inr ⟨b, hb, rfl⟩

/-- **C53.** An error that says nothing else is where its token is; if the tokenizer returned that token without an error,
this is the part of the source the token was read from. -/
theorem error_default_range (hc : c.Reachable) (hl : lexAll c source = .ok rs) {t : TokRef} (ht : .ok t ∈ rs) (m : String) :
    ∃ before after, source = before ++ t.token.display ++ after ∧
      (Err.ast t.token m none).range = (position before, endPosition before t.token.display) ∧
      (Err.ast t.token m none).range.2.bytes = (Err.ast t.token m none).range.1.bytes + utf8Len t.token.display := by
  obtain ⟨before, after, h1, h2, h3⟩ := ok_token_at hc hl ht
  refine ⟨before, after, h1, Prod.ext h2 h3, ?_⟩
  show t.token.stop.bytes = t.token.start.bytes + _
  rw [h2, h3]
  simp only [endPosition]
  split <;> simp [position, utf8Len_append]

/-- **C53 does not hold**: an error may end before it starts, since the range of a block that is not closed may end at an
invented token. -/
theorem error_range_inverted : ∃ r, parseFallible cfg51 c!"do local x = {" = .ok r ∧
    ∃ e ∈ r.errors, e.range.2.bytes < e.range.1.bytes :=
  Outcome.run (by decide +kernel)

/-- The error in `x = {{; do}` is said to be at the first character, where an invented token
claims to be. -/
example : ∃ r, parseFallible cfg51 c!"x = {{; do}" = .ok r ∧ ∃ e ∈ r.errors, e.range.1 = ⟨0, 1, 1⟩ :=
  Outcome.run (by decide +kernel)

example : ∃ r, parseFallible cfg51 c!"while x do f(1" = .ok r ∧ r.errors.map (fun e => (e.range.1.bytes, e.range.2.bytes)) =
    [(12, 13), (11, 14)] :=
  Outcome.run (by decide +kernel)

/-! ## What is printed -/

/-- The lines and characters where an error starts and ends. -/
def place (e : Err) : (Nat × Nat) × (Nat × Nat) :=
  ((e.range.1.line, e.range.1.character), (e.range.2.line, e.range.2.character))

/-- The text printed for a tokenizer error tells where it starts and ends. -/
theorem printed_tokenizer_error {e e' : TokErr} (h : (Err.tokenizer e).display = (Err.tokenizer e').display) :
    place (.tokenizer e) = place (.tokenizer e') ∧ e.error.display = e'.error.display := by
  have h := List.append_cancel_right (List.append_cancel_left h)
  simp only [List.append_assoc, List.cons_append, List.nil_append] at h
  obtain ⟨h, e4⟩ := decimal_cancel (x := ':') rfl (a := e.error.display ++ [' ', '('] ++ decimal e.range.1.line ++ [':'] ++ decimal e.range.1.character ++ [' ', 't', 'o', ' '] ++ decimal e.range.2.line)
    (a' := e'.error.display ++ [' ', '('] ++ decimal e'.range.1.line ++ [':'] ++ decimal e'.range.1.character ++ [' ', 't', 'o', ' '] ++ decimal e'.range.2.line) (by simpa using h)
  obtain ⟨h, e3⟩ := decimal_cancel (x := ' ') rfl (a := e.error.display ++ [' ', '('] ++ decimal e.range.1.line ++ [':'] ++ decimal e.range.1.character ++ [' ', 't', 'o'])
    (a' := e'.error.display ++ [' ', '('] ++ decimal e'.range.1.line ++ [':'] ++ decimal e'.range.1.character ++ [' ', 't', 'o']) (by simpa using h)
  have h := List.append_cancel_right h
  obtain ⟨h, e2⟩ := decimal_cancel (x := ':') rfl (a := e.error.display ++ [' ', '('] ++ decimal e.range.1.line)
    (a' := e'.error.display ++ [' ', '('] ++ decimal e'.range.1.line) (by simpa using h)
  obtain ⟨h, e1⟩ := decimal_cancel (x := '(') rfl (a := e.error.display ++ [' ']) (a' := e'.error.display ++ [' ']) (by simpa using h)
  exact ⟨by simp only [place, Err.range, e1, e2, e3, e4], List.append_cancel_right h⟩

/-- A tokenizer error is printed with the line and the character where it starts, and those where it ends, in this order. -/
theorem printed_place (e : TokErr) : ∃ w, (Err.tokenizer e).display = w ++ c!" (" ++ (toString (place (.tokenizer e)).1.1).toList ++ c!":" ++
    (toString (place (.tokenizer e)).1.2).toList ++ c!" to " ++ (toString (place (.tokenizer e)).2.1).toList ++ c!":" ++ (toString (place (.tokenizer e)).2.2).toList ++ c!")" :=
  ⟨c!"error occurred while tokenizing: " ++ e.error.display, by simp only [Err.display, TokErr.display, place, Err.range, decimal, List.append_assoc]; rfl⟩

/-- A syntax error is printed with its token, the line and the character where it starts, and those where it ends, in this order. -/
theorem printed_syntax_place (t : Token) (m : String) (r : Option (Position × Position)) : ∃ v w, (Err.ast t m r).display = v ++ t.display ++ c!"`. (starting from line " ++
    (toString (place (.ast t m r)).1.1).toList ++ c!", character " ++ (toString (place (.ast t m r)).1.2).toList ++ c!" and ending on line " ++
    (toString (place (.ast t m r)).2.1).toList ++ c!", character " ++ (toString (place (.ast t m r)).2.2).toList ++ w :=
  ⟨c!"error occurred while creating ast: unexpected token `", c!")\nadditional information: " ++ m.toList, by
    simp only [Err.display, place, decimal, List.append_assoc]; rfl⟩

/-- What is printed for an error ends with its message. -/
theorem printed_message (e : Err) : e.message <:+ e.display := by
  cases e with
  | ast t m r => exact ⟨_, rfl⟩
  | tokenizer e => exact ⟨_, rfl⟩

/-- Tokenizer errors that differ in their place are printed differently. -/
example : place (.tokenizer ⟨.unclosedString, ⟨0, 1, 11⟩, ⟨9, 1, 20⟩⟩) ≠ place (.tokenizer ⟨.unclosedString, ⟨0, 1, 1⟩, ⟨9, 1, 20⟩⟩) := by decide
example : (Err.tokenizer ⟨.unclosedString, ⟨0, 1, 11⟩, ⟨9, 1, 20⟩⟩).display = c!"error occurred while tokenizing: unclosed string (1:11 to 1:20)" := by decide

/-- The text printed for a syntax error tells, if the message is known, where it starts and ends, and the token. -/
theorem printed_syntax_error {t t' : Token} {m : String} {r r' : Option (Position × Position)} (h : (Err.ast t m r).display = (Err.ast t' m r').display) :
    place (.ast t m r) = place (.ast t' m r') ∧ t.display = t'.display := by
  have h : _ ++ c!")\nadditional information: " ++ m.toList = _ ++ c!")\nadditional information: " ++ m.toList := h
  have h := List.append_cancel_right (List.append_cancel_right h)
  simp only [List.append_assoc] at h
  have h := List.append_cancel_left h
  generalize hp : (Err.ast t m r).range = p at h
  generalize hq : (Err.ast t' m r').range = q at h
  obtain ⟨p1, p2⟩ := p
  obtain ⟨q1, q2⟩ := q
  obtain ⟨h, e4⟩ := decimal_cancel (x := ' ') rfl
    (a := t.display ++ (c!"`. (starting from line " ++ (decimal p1.line ++ (c!", character " ++ (decimal p1.character ++ (c!" and ending on line " ++ (decimal p2.line ++ c!", character")))))))
    (a' := t'.display ++ (c!"`. (starting from line " ++ (decimal q1.line ++ (c!", character " ++ (decimal q1.character ++ (c!" and ending on line " ++ (decimal q2.line ++ c!", character")))))))
    (by simpa using h)
  have h : (t.display ++ (c!"`. (starting from line " ++ (decimal p1.line ++ (c!", character " ++ (decimal p1.character ++ (c!" and ending on line" ++ ' ' :: decimal p2.line)))))) ++ c!", character" =
      (t'.display ++ (c!"`. (starting from line " ++ (decimal q1.line ++ (c!", character " ++ (decimal q1.character ++ (c!" and ending on line" ++ ' ' :: decimal q2.line)))))) ++ c!", character" := by
    simpa using h
  have h := List.append_cancel_right h
  obtain ⟨h, e3⟩ := decimal_cancel (x := ' ') rfl
    (a := t.display ++ (c!"`. (starting from line " ++ (decimal p1.line ++ (c!", character " ++ (decimal p1.character ++ c!" and ending on line")))))
    (a' := t'.display ++ (c!"`. (starting from line " ++ (decimal q1.line ++ (c!", character " ++ (decimal q1.character ++ c!" and ending on line"))))) (by simpa using h)
  have h : (t.display ++ (c!"`. (starting from line " ++ (decimal p1.line ++ (c!", character" ++ ' ' :: decimal p1.character)))) ++ c!" and ending on line" =
      (t'.display ++ (c!"`. (starting from line " ++ (decimal q1.line ++ (c!", character" ++ ' ' :: decimal q1.character)))) ++ c!" and ending on line" := by
    simpa using h
  have h := List.append_cancel_right h
  obtain ⟨h, e2⟩ := decimal_cancel (x := ' ') rfl (a := t.display ++ (c!"`. (starting from line " ++ (decimal p1.line ++ c!", character")))
    (a' := t'.display ++ (c!"`. (starting from line " ++ (decimal q1.line ++ c!", character"))) (by simpa using h)
  have h : (t.display ++ (c!"`. (starting from line" ++ ' ' :: decimal p1.line)) ++ c!", character" = (t'.display ++ (c!"`. (starting from line" ++ ' ' :: decimal q1.line)) ++ c!", character" := by
    simpa using h
  have h := List.append_cancel_right h
  obtain ⟨h, e1⟩ := decimal_cancel (x := ' ') rfl (a := t.display ++ c!"`. (starting from line") (a' := t'.display ++ c!"`. (starting from line") (by simpa using h)
  refine ⟨?_, List.append_cancel_right h⟩
  simp only [place, hp, hq, e1, e2, e3, e4]

/-- The two kinds of errors are printed differently. -/
theorem printed_kinds {e : TokErr} {t : Token} {m : String} {r : Option (Position × Position)} : (Err.tokenizer e).display ≠ (Err.ast t m r).display := by
  intro h
  have h := congrArg (List.take 22) h
  simp [Err.display] at h

end FM.Props
