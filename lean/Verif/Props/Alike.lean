import Verif.Proofs.Parser.AlikeParse
import Verif.Proofs.Relabel
import Verif.Props.Spacing

/-!
# Properties of sources with other names, numbers and strings: C70
-/

namespace FM.Props
open FM FM.Spec FM.Parser

variable {c : Cfg} {source source' : Text} {rs rs' : List (LexRes TokRef)} {r : AstResult} {ast : Ast} {ts ts' : List TokRef} {e : TokRef} {σ : Text → Text}

/-- **C70.**  If the tokens of two sources only differ in white space, comments, positions and in which names, numbers and
strings they are, then parsing does the same on both, whatever it does: the trees have the same form, there are as many
errors, with the same messages and at the same tokens. -/
theorem names_irrelevant (hl : lexAll c source = .ok rs) (hl' : lexAll c source' = .ok rs')
    (h : rs.map faintRes = rs'.map faintRes) :
    (parseFallible c source).bind (fun r => .ok (faintResult r)) = (parseFallible c source').bind (fun r => .ok (faintResult r)) := by
  have h1 := Alike.same_parseTokens (c := c) (ts := rs) (ts' := rs') h
  unfold parseFallible
  rw [hl, hl']
  show (parseTokens c rs).bind _ = (parseTokens c rs').bind _
  cases hp : parseTokens c rs <;> cases hq : parseTokens c rs' <;> rw [hp, hq] at h1 <;>
    simp only [Alike.strip_out_ok, Alike.strip_out_panic, Alike.strip_out_diverge, Outcome.ok.injEq, reduceCtorEq] at h1 <;>
    simp only [Outcome.bind, Outcome.ok.injEq]
  exact h1

/-- **C70, for accepted sources.**  If one of the sources is accepted, then the other one is accepted too, and the trees
have the same form. -/
theorem accepted_alike (hl : lexAll c source = .ok rs) (hl' : lexAll c source' = .ok rs')
    (h : rs.map faintRes = rs'.map faintRes) (hp : parse c source = .ok (.ok ast)) :
    ∃ ast' : Ast, parse c source' = .ok (.ok ast') ∧ ast'.nodes.mapTok faint = ast.nodes.mapTok faint := by
  have h1 := names_irrelevant hl hl' h
  obtain ⟨r, hr, he, rfl⟩ := parse_ok_iff.1 hp
  rw [hr] at h1
  rcases hq : parseFallible c source' with r' | _ | _ <;> rw [hq] at h1 <;> simp only [Outcome.bind, Outcome.ok.injEq, reduceCtorEq] at h1
  have h2 : r.errors.map faintErr = r'.errors.map faintErr := congrArg (fun r : AstResult => r.errors) h1
  refine ⟨r'.ast, parse_ok_iff.2 ⟨r', hq, ?_, rfl⟩, (congrArg (fun r : AstResult => r.ast.nodes) h1).symm⟩
  rw [he] at h2
  exact List.map_eq_nil_iff.1 h2.symm

/-- Whether a source is accepted. -/
def accepts (c : Cfg) (source : Text) : Bool := match parse c source with
  | .ok (.ok _) => true
  | _ => false

theorem faded_rename (h1 : ∀ x ∈ specialNames, σ x = x) (h2 : ∀ x, x ∉ specialNames → σ x ∉ specialNames) (ty : TokenType) :
    faded (renamedType σ ty) = faded ty := by
  cases ty with
  | identifier x =>
    show TokenType.identifier (anonymous (σ x)) = .identifier (anonymous x)
    unfold anonymous
    by_cases hx : x ∈ specialNames
    · rw [h1 x hx]
    · rw [if_neg hx, if_neg (h2 x hx)]
  | _ => rfl

/-- **C70, where the tokens are.**  If one of the sources is accepted and nothing is skipped, then the tree of the other
one has its tokens at the same places: whatever is done with the tokens, if it makes the tokens of the sources equal, it
makes the trees equal. -/
theorem tokens_same_places (hc : c.Reachable) (hl : lexAll c source = .ok rs) (hl' : lexAll c source' = .ok rs')
    (h : rs.map faintRes = rs'.map faintRes) (hr : parseFallible c source = .ok r) (he : r.errors = []) (hs : r.silent = 0) :
    ∃ r', parseFallible c source' = .ok r' ∧ r'.errors = [] ∧ r'.silent = 0 ∧
      ∀ f g : TokRef → TokRef, (tokensOf rs).map f = (tokensOf rs').map g → r.ast.nodes.mapTok f = r'.ast.nodes.mapTok g := by
  have h1 := names_irrelevant hl hl' h
  rw [hr] at h1
  rcases hq : parseFallible c source' with r' | _ | _ <;> rw [hq] at h1 <;> simp only [Outcome.bind, Outcome.ok.injEq, reduceCtorEq] at h1
  have h2 : r.errors.map faintErr = r'.errors.map faintErr := congrArg (fun r : AstResult => r.errors) h1
  have h3 : r.ast.nodes.mapTok faint = r'.ast.nodes.mapTok faint := congrArg (fun r : AstResult => r.ast.nodes) h1
  have h4 : r.silent = r'.silent := congrArg (a₁ := faintResult r) (a₂ := faintResult r') (fun r : AstResult => r.silent) h1
  rw [he] at h2
  have he' : r'.errors = [] := List.map_eq_nil_iff.1 h2.symm
  refine ⟨r', rfl, he', h4 ▸ hs, fun f g hfg => ?_⟩
  obtain ⟨d, ht, -⟩ := accepted_tokens_partial hc hl hr he hs
  obtain ⟨d', ht', -⟩ := accepted_tokens_partial hc hl' hq he' (h4 ▸ hs)
  obtain ⟨R, hty⟩ := parsed_typed hc hr
  refine Relabel.determined hty (Grammatical.annotationsFit (accepted_every hc hr he hs)) h3 ?_
  have h5 := congrArg (fun n : Node => n.flat.length) h3
  simp only [flat_mapTok, List.length_map] at h5
  rw [ht, ht', List.map_append (f := f), List.map_append (f := g)] at hfg
  exact (List.append_inj hfg (by simp [h5])).1

theorem faint_of_faded : ∀ {ts ts' : List TokRef}, (∀ t ∈ ts, ¬ Interpolated t.token.type) →
    ts'.map (fun t => faded t.token.type) = ts.map (fun t => faded t.token.type) →
    (ts.map LexRes.ok).map faintRes = (ts'.map LexRes.ok).map faintRes
  | [], [], _, _ => rfl
  | [], _ :: _, _, h => by cases h
  | _ :: _, [], _, h => by cases h
  | t :: ts, t' :: ts', hi, h => by
    simp only [List.map_cons, List.cons.injEq] at h ⊢
    refine ⟨?_, faint_of_faded (fun t ht => hi t (.tail _ ht)) h.2⟩
    have hk : t.token.type.kind ≠ .interpolatedString := by
      intro hk
      refine hi t (.head _) ?_
      cases hx : t.token.type <;> rw [hx] at hk <;> first | exact ⟨_, _, rfl⟩ | cases hk
    have hk' : t'.token.type.kind ≠ .interpolatedString := by
      rw [← Alike.kind_faded, h.1, Alike.kind_faded]; exact hk
    show LexRes.ok (faint t) = .ok (faint t')
    unfold faint
    rw [h.1]
    simp [hk, hk']

/-- **C70, for names.**  Names can be replaced by other names throughout: if a source without interpolated strings is
accepted and nothing is skipped, then every source whose tokens are those of the first one with the names replaced is
accepted too, and its tree is the tree of the first one with the names replaced.  It does not matter whether different
names stay different.  Names that mean something to the parser must be kept, and not be used for others. -/
theorem accepted_renamed (hc : c.Reachable) (h1 : ∀ x ∈ specialNames, σ x = x) (h2 : ∀ x, x ∉ specialNames → σ x ∉ specialNames)
    (hl : lexAll c source = .ok (ts.map .ok)) (hl' : lexAll c source' = .ok (ts'.map .ok))
    (hi : ∀ t ∈ ts, ¬ Interpolated t.token.type) (h : ts'.map bare = ts.map (renamed σ))
    (hr : parseFallible c source = .ok r) (he : r.errors = []) (hs : r.silent = 0) :
    ∃ r', parseFallible c source' = .ok r' ∧ r'.errors = [] ∧ r'.ast.nodes.mapTok bare = r.ast.nodes.mapTok (renamed σ) := by
  have hf : (ts.map LexRes.ok).map faintRes = (ts'.map LexRes.ok).map faintRes := by
    refine faint_of_faded hi ?_
    have h3 := congrArg (List.map fun t : TokRef => faded t.token.type) h
    simpa [Function.comp_def, bare, renamed, faded_rename h1 h2] using h3
  obtain ⟨r', h3, h4, -, h5⟩ := tokens_same_places hc hl hl' hf hr he hs
  exact ⟨r', h3, h4, (h5 (renamed σ) bare (by rw [tokensOf_ok, tokensOf_ok, h])).symm⟩

/-- A program and the same with other names. -/
example : ∃ rs rs', lexAll cfg51 c!"local a, b = f(a)" = .ok rs ∧ lexAll cfg51 c!"local count,count=g(count)" = .ok rs' ∧
    (tokensOf rs').map bare = (tokensOf rs).map (renamed fun x => if x = c!"f" then c!"g" else c!"count") :=
  Outcome.run₂ (by decide +kernel)

/-- **C70, for texts.**  Take a source without interpolated strings that is accepted without skipping anything, and
exchange its names, numbers and strings for others, each occurrence for itself.  Every text that prints the new tokens,
with white space and comments between them (as few as any two neighbours allow), is accepted, and its tree is that of the
source with the tokens exchanged: whatever function takes the old tokens to the new ones, takes the old tree to the new
one. -/
theorem exchanged_words (hc : c.Reachable) (hl : lexAll c source = .ok (ts.map .ok)) (hi : ∀ t ∈ ts, ¬ Interpolated t.token.type)
    (hr : parseFallible c source = .ok r) (he : r.errors = []) (hs : r.silent = 0)
    {tys : List TokenType} (h : (tys ++ [TokenType.eof]).map faded = ts.map fun t => faded t.token.type)
    {f s : Text} (hf : Filler c f) (hs' : Laid c tys s) :
    ∃ r', parseFallible c (f ++ s) = .ok r' ∧ r'.errors = [] ∧
      ∀ new : TokRef → TokRef, ts.map new = (tys ++ [TokenType.eof]).map bareOf → r'.ast.nodes.mapTok bare = r.ast.nodes.mapTok new := by
  obtain ⟨us, h8, h9⟩ := lexAll_chain (laid_chain hc hs').1 hf
  have hfa : (ts.map LexRes.ok).map faintRes = (us.map LexRes.ok).map faintRes := by
    refine faint_of_faded hi ?_
    rw [← h, ← h9, List.map_map]
    rfl
  obtain ⟨r', h3, h4, -, h5⟩ := tokens_same_places hc hl h8 hfa hr he hs
  refine ⟨r', h3, h4, fun new hn => (h5 new bare ?_).symm⟩
  rw [tokensOf_ok, tokensOf_ok, hn, ← h9, List.map_map]
  rfl

/-- **C70, for texts with other names.**  A source without interpolated strings that is accepted without skipping anything can be written
down with other names, with a space behind each token: the text is accepted, and its tree is that of the source with the
names replaced.  The new names must be names, that is, be read as names. -/
theorem renamed_text (hc : c.Reachable) (h1 : ∀ x ∈ specialNames, σ x = x) (h2 : ∀ x, x ∉ specialNames → σ x ∉ specialNames)
    (h3 : ∀ t ∈ ts, ∀ x, t.token.type = .identifier x → ReadsAs c (σ x) [.identifier (σ x)])
    (hsb : ¬ HasShebang source) (hl : lexAll c source = .ok ((ts ++ [e]).map .ok))
    (hi : ∀ t ∈ ts, ¬ Interpolated t.token.type)
    (hr : parseFallible c source = .ok r) (he : r.errors = []) (hs : r.silent = 0) :
    ∃ r', parseFallible c (spaced (ts.map fun t => renamedType σ t.token.type)) = .ok r' ∧ r'.errors = [] ∧
      r'.ast.nodes.mapTok bare = r.ast.nodes.mapTok (renamed σ) := by
  have hno : errorsOf ((ts ++ [e]).map LexRes.ok) = [] := errorsOf_ok _
  obtain ⟨init, e', h4, h5, -, h6, -⟩ := eof_once_last hc hl fun h => absurd h hsb
  rw [tokensOf_ok] at h4
  obtain ⟨rfl, h7⟩ := List.append_inj' h4 rfl
  obtain rfl : e = e' := List.singleton_inj.1 h7
  have hal : ∀ ty ∈ ts.map (fun t => renamedType σ t.token.type), Alone c ty := by
    intro ty hty
    obtain ⟨t, ht, rfl⟩ := List.mem_map.1 hty
    have ha : Alone c t.token.type := read_token_alone hc hl hno hsb (t := t) (by rw [tokensOf_ok]; exact List.mem_append_left _ ht) (h6 t ht)
      fun x k e => hi t ht ⟨x, k, e⟩
    cases hx : t.token.type with
    | identifier x => exact ⟨fun ⟨_, _, e⟩ => (by cases e), h3 t ht x hx⟩
    | _ => rw [hx] at ha; exact ha
  have hi' : ∀ t ∈ ts ++ [e], ¬ Interpolated t.token.type := by
    intro t ht
    rcases List.mem_append.1 ht with ht | ht
    · exact hi t ht
    · rw [List.mem_singleton.1 ht, h5]
      rintro ⟨_, _, h⟩
      cases h
  obtain ⟨r', h8, h9, h10⟩ := exchanged_words hc hl hi' hr he hs (tys := ts.map fun t => renamedType σ t.token.type) (f := [])
    (by simp [h5, faded_rename h1 h2, Function.comp_def]) .nil (laid_spaced hal)
  refine ⟨r', h8, h9, h10 (renamed σ) ?_⟩
  simp only [List.map_append, List.map_map, List.map_cons, List.map_nil, renamed, h5]
  rfl

/-- Exchanged names, numbers and strings, each occurrence for itself. -/
example : ∃ rs rs', lexAll cfg51 c!"f(a, a, 1, 1, '')" = .ok rs ∧ lexAll cfg51 c!"g(x, y, 0xF, .5e1, [[ ]])" = .ok rs' ∧
    (((tokensOf rs').dropLast.map fun t => t.token.type) ++ [TokenType.eof]).map faded = (tokensOf rs).map fun t => faded t.token.type :=
  Outcome.run₂ (by decide +kernel)

/-- The new name of all names of this program. -/
example : ReadsAs cfg51 c!"count" [.identifier c!"count"] := ⟨by decide, Outcome.run (by decide +kernel)⟩
example : ∃ rs r, lexAll cfg51 c!"local a, b = f(a)" = .ok rs ∧ parseFallible cfg51 c!"local a, b = f(a)" = .ok r ∧
    r.errors.isEmpty = true ∧ r.silent = 0 ∧
    spaced ((tokensOf rs).dropLast.map fun t => renamedType (fun x => if x ∈ specialNames then x else c!"count") t.token.type) =
      c!"local count , count = count ( count ) " :=
  Outcome.run₂ (by decide +kernel)

/-- Two programs with different names, numbers and strings. -/
example : ∃ rs rs', lexAll cfg51 c!"local a = f(1, 'x') return {a; b = c}" = .ok rs ∧
    lexAll cfg51 c!"local result = result(0x2F, [==[\n]==])\nreturn { x; x = x }" = .ok rs' ∧
    rs.map faintRes = rs'.map faintRes ∧ rs.map plainRes ≠ rs'.map plainRes :=
  Outcome.run₂ (by decide +kernel)

/-- Two programs with an error. -/
example : ∃ rs rs', lexAll cfg51 c!"f(a" = .ok rs ∧ lexAll cfg51 c!"print(text" = .ok rs' ∧ rs.map faintRes = rs'.map faintRes :=
  Outcome.run₂ (by decide +kernel)

/-- A replacement of names that is allowed. -/
example : (∀ x ∈ specialNames, (fun x => if x = c!"a" then c!"b" else x) x = x) ∧
    ∀ x, x ∉ specialNames → (fun x => if x = c!"a" then c!"b" else x) x ∉ specialNames := by
  refine ⟨by decide, fun x hx => ?_⟩
  dsimp only
  split
  · decide
  · exact hx

/-- Each of the names that are kept means something: there is a Luau program that is accepted with this name and rejected
with another one in its place. -/
theorem special_names_matter : ∀ w ∈ specialNames, ∃ before other after, other ∉ specialNames ∧
    accepts cfgLuau (before ++ w ++ after) = true ∧ accepts cfgLuau (before ++ other ++ after) = false := by
  intro w hw
  simp only [specialNames, List.mem_cons, List.not_mem_nil, or_false] at hw
  rcases hw with rfl | rfl | rfl | rfl | rfl | rfl
  · exact ⟨[], c!"kind", c!" a = b", by decide +kernel⟩
  · exact ⟨[], c!"public", c!" type a = b", by decide +kernel⟩
  · exact ⟨[], c!"proceed", [], by decide +kernel⟩
  · exact ⟨c!"type a = { ", c!"need", c!" b: c }", by decide +kernel⟩
  · exact ⟨c!"type a = { ", c!"right", c!" b: c }", by decide +kernel⟩
  · exact ⟨c!"type a = ", c!"kindof", c!"(b)", by decide +kernel⟩

end FM.Props
