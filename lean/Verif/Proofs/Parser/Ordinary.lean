import Verif.Proofs.Parser.ForwardBlock
import Verif.Proofs.Ast.Tokens
import Verif.Spec.Tokens

/-! Helper lemmas: the tokens of trees that conform to the grammar. -/

namespace FM.Parser.Forward
open FM.Spec FM.Parser FM.Parser.Clean

variable {c : Cfg}

/-- The type of the nodes of a part of a production. -/
def partTy : Part → Ty
  | .tok _ => .tok
  | .span _ _ => .span
  | .cat a => .cat a
  | .type => .cat .typeInfo
  | .opt p => .opt (partTy p)
  | .many p | .some p => .vec (partTy p)
  | .list p _ _ => .punct (partTy p)
  | .pair p q => .tup (partTy p) (partTy q)

theorem production_sig (f : Features) (k : Kind) : (production f k).map partTy = k.sig := by cases k <;> rfl

mutual
theorem conf_hasTy : ∀ (n : Node) (p : Part), Conforms c p n → HasTy (fun _ => True) (partTy p) n
  | .tok _, p, h => by cases p <;> simp [Conforms] at h; simp [partTy, HasTy]
  | .node k cs, p, h => by
    unfold Conforms at h
    split at h
    · cases ‹Node.node k cs = .tok _›
    · cases ‹Node.node k cs = _›; exact confAll_hasTys cs _ h
    · cases ‹Node.node k cs = _›
      refine ⟨h.1, ?_⟩
      rw [← production_sig c.feat]
      exact confAll_hasTys cs _ h.2.2.1
    · cases ‹Node.node k cs = _›
      refine ⟨h.1, ?_⟩
      rw [← production_sig c.feat]
      exact confAll_hasTys cs _ h.2.2.2.1
    · cases ‹Node.node k cs = _›; exact h
    · cases ‹Node.node k cs = _›; exact confAll_hasTys cs _ h
    · cases ‹Node.node k cs = _›; exact confEach_allTy cs _ h
    · cases ‹Node.node k cs = _›; exact confEach_allTy cs _ h.1
    · cases ‹Node.node k cs = _›; exact confPairs_allTy cs _ _ h.1
    · cases ‹Node.node k cs = _›; exact confAll_hasTys cs _ h
    · exact h.elim
theorem confAll_hasTys : ∀ (ns : List Node) (ps : List Part), ConformsAll c ps ns → HasTys (fun _ => True) (ps.map partTy) ns
  | [], [], _ => trivial
  | [], p :: ps, h => by simp [ConformsAll] at h
  | n :: ns, [], h => by simp [ConformsAll] at h
  | n :: ns, p :: ps, h => by
    rw [ConformsAll] at h
    exact ⟨conf_hasTy n p h.1, confAll_hasTys ns ps h.2⟩
theorem confEach_allTy : ∀ (ns : List Node) (p : Part), ConformsEach c p ns → AllTy (fun _ => True) (partTy p) ns
  | [], _, _ => trivial
  | n :: ns, p, h => by
    rw [ConformsEach] at h
    exact ⟨conf_hasTy n p h.1, confEach_allTy ns p h.2⟩
theorem confPairs_allTy : ∀ (ns : List Node) (p : Part) (seps : List Symbol), ConformsPairs c p seps ns →
    AllTy (fun _ => True) (.pair (partTy p)) ns
  | [], _, _, _ => trivial
  | .tok t :: ns, p, seps, h => by simp [ConformsPairs] at h
  | .node k cs :: ns, p, seps, h => by
    unfold ConformsPairs at h
    split at h
    · cases ‹Node.node k cs :: ns = []›
    · cases ‹Node.node k cs :: ns = _›
      exact ⟨confAll_hasTys cs _ h.1, confPairs_allTy ns _ _ h.2⟩
    · cases ‹Node.node k cs :: ns = _›
      exact ⟨confAll_hasTys cs _ h.1, confPairs_allTy ns _ _ h.2⟩
    · exact h.elim
end

/-- Every token of a tree of the grammar is printed. -/
theorem conf_mem_flat {p : Part} {n : Node} (h : Conforms c p n) {t : TokRef} (ht : t ∈ n.tokens) : t ∈ n.flat := by
  have h1 := Grammatical.annotationsFit (Conforms.every n p h)
  have := count_tokens t n ⟨_, conf_hasTy n p h⟩ h1
  rw [← List.count_pos_iff] at ht ⊢
  omega

theorem every_and {P Q : Kind → List Node → Prop} {n : Node} (h : n.Every P) (h' : n.Every Q) : n.Every fun k cs => P k cs ∧ Q k cs := by
  induction n using Node.induct with
  | ht t => trivial
  | hn k cs ih =>
    rw [every_node] at h h' ⊢
    exact ⟨⟨h.1, h'.1⟩, fun x hx => ih x hx (h.2 x hx) (h'.2 x hx)⟩

theorem every_mono {P Q : Kind → List Node → Prop} {n : Node} (h : n.Every P) (hpq : ∀ k cs, P k cs → Q k cs) : n.Every Q := by
  induction n using Node.induct with
  | ht t => trivial
  | hn k cs ih =>
    rw [every_node] at h ⊢
    exact ⟨hpq _ _ h.1, fun x hx => ih x hx (h.2 x hx)⟩

theorem every_true {P : Kind → List Node → Prop} {n : Node} (h : ∀ k cs, P k cs) : n.Every P := by
  induction n using Node.induct with
  | ht t => trivial
  | hn k cs ih => exact every_node.2 ⟨h _ _, ih⟩

/-- Trees of the grammar whose symbols are those of the active version. -/
theorem ordinary_of {p : Part} {n : Node} (h : Conforms c p n)
    (he : ∀ t ∈ n.flat, ∀ s, t.token.type = .symbol s → Enabled c s) : n.Every fun k _ => ordinary c k := by
  replace he : ∀ t ∈ n.tokens, ∀ s, t.token.type = .symbol s → Enabled c s := fun t ht => he t (conf_mem_flat h ht)
  have hg := Conforms.every n p h
  clear h
  induction n using Node.induct with
  | ht t => trivial
  | hn k cs ih =>
    rw [every_node] at hg ⊢
    rw [Node.tokens_node] at he
    refine ⟨?_, fun x hx => ih x hx (fun t ht => he t (List.mem_flatMap.2 ⟨x, hx, ht⟩)) (hg.2 x hx)⟩
    have key : ∀ s, (∃ ps, production c.feat k = .sym s :: ps) → k.cat ≠ none → Enabled c s := by
      intro s ⟨ps, hs⟩ hk
      have h1 := (hg.1.1 hk).2
      rw [hs] at h1
      match cs, h1 with
      | [], h1 => simp [ConformsAll] at h1
      | .node _ _ :: _, h1 => simp [ConformsAll, Conforms] at h1
      | .tok t :: ns, h1 =>
        simp only [ConformsAll, Conforms, Term.Is] at h1
        obtain ⟨⟨s', hs', h2⟩, -⟩ := h1
        obtain rfl := List.mem_singleton.1 hs'
        exact he t (by simp) _ h2
    cases k with
    | luauAttr =>
      have := key .atSign ⟨_, rfl⟩ (by simp [Kind.cat])
      rcases this with h | ⟨v, hv, h⟩
      · cases h
      · obtain rfl := List.mem_singleton.1 hv
        exact h
    | compoundOp o =>
      have := key (compoundSymbol o) ⟨_, rfl⟩ (by simp [Kind.cat])
      have h0 : introducedBy (compoundSymbol o).text ≠ [] := by cases o <;> decide
      have hl : Ver.luau ∈ introducedBy (compoundSymbol o).text → luauOp o = true := by cases o <;> decide
      have hx : Ver.cfxlua ∈ introducedBy (compoundSymbol o).text → cfxOp o = true := by cases o <;> decide
      have hv' : ∀ v ∈ introducedBy (compoundSymbol o).text, v = .luau ∨ v = .cfxlua := by cases o <;> decide
      rcases this with h | ⟨v, hv, h⟩
      · exact absurd h h0
      · rcases hv' v hv with rfl | rfl
        · exact .inl ⟨h, hl hv⟩
        · exact .inr ⟨h, hx hv⟩
    | _ => trivial

/-- So do their nodes. -/
theorem fits_of {p : Part} {n : Node} (h : Conforms c p n) (he : ∀ t ∈ n.flat, ∀ s, t.token.type = .symbol s → Enabled c s)
    (hl : c.has .luau = true → n.Every Chosen) : Fits c p n := by
  refine ⟨h, every_and (ordinary_of h he) ?_⟩
  cases hc : c.has .luau with
  | true => exact every_mono (hl hc) fun _ _ h _ => h
  | false => exact every_true fun k cs h => by rw [Cfg.luau, hc] at h; cases h

end FM.Parser.Forward
