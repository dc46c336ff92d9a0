import Verif.Proofs.Parser.Forward
import Verif.Spec.Luau

/-! Helper lemmas: the shape of the nodes of the grammar. -/

namespace FM.Parser.Forward
open FM.Spec FM.Parser FM.Parser.Clean

variable {c : Cfg} {α β : Type}

/-! ## Nodes with a token -/

/-- The parts of productions that always have a token. -/
def solid : Part → Bool
  | .tok _ | .span _ _ => true
  | .cat a => a.solid
  | _ => false

theorem solid_production (f : Features) (k : Kind) (a : Cat) (h : k.cat = some a) (ha : a.solid = true) :
    ∃ x ∈ production f k, solid x = true := by
  cases k <;> first
    | (cases h; done)
    | (cases h; cases ha; done)
    | (cases h; exact ⟨_, .head _, rfl⟩)
    | (cases h; exact ⟨_, .tail _ (.head _), rfl⟩)
    | (cases h; exact ⟨_, .tail _ (.tail _ (.head _)), rfl⟩)

theorem confAll_mem : ∀ {ps : List Part} {cs : List Node}, ConformsAll c ps cs → ∀ {p : Part}, p ∈ ps → ∃ n ∈ cs, Conforms c p n
  | [], _, _, _, hp => by cases hp
  | p :: ps, [], h, _, _ => by simp [ConformsAll] at h
  | p :: ps, n :: ns, h, q, hq => by
    rw [confAll_cons] at h
    rcases List.mem_cons.1 hq with rfl | hq
    · exact ⟨n, by simp, h.1⟩
    · obtain ⟨m, hm, hc⟩ := confAll_mem h.2 hq
      exact ⟨m, by simp [hm], hc⟩

theorem conf_tokens_ne (n : Node) : ∀ p : Part, solid p = true → Conforms c p n → n.tokens ≠ [] := by
  induction n using Node.induct with
  | ht t => simp
  | hn k cs ih =>
    intro p hp h
    cases p with
    | tok x => simp [Conforms] at h
    | span a b =>
      cases k <;> simp only [Conforms] at h
      obtain ⟨x, y, rfl, hx, hy⟩ := confAll_two h
      cases x with
      | tok t => simp
      | node => simp [Conforms] at hx
    | cat a =>
      rw [conf_cat] at h
      obtain ⟨x, hx, hxs⟩ := solid_production c.feat k a h.1 hp
      obtain ⟨m, hm, h⟩ := confAll_mem h.2.2.1 hx
      have := ih m hm x hxs h
      rw [Node.tokens_node]
      intro h0
      rw [List.flatMap_eq_nil_iff] at h0
      exact this (h0 m hm)
    | _ => cases hp

/-! ## Nodes of the grammar -/

/-- The compound assignments of Luau. -/
def luauOp : CompoundOp → Bool
  | .doubleLessThanEqual | .doubleGreaterThanEqual | .ampersandEqual | .pipeEqual => false
  | _ => true

/-- The compound assignments of CfxLua. -/
def cfxOp : CompoundOp → Bool
  | .doubleSlashEqual | .percentEqual | .twoDotsEqual => false
  | _ => true

/-- The symbols of the active version. -/
def ordinary (c : Cfg) : Kind → Prop
  | .luauAttr => c.luau = true
  | .compoundOp o => (c.luau = true ∧ luauOp o = true) ∨ (c.cfxlua = true ∧ cfxOp o = true)
  | _ => True

/-- The condition on the nodes of programs. -/
def Fine (c : Cfg) (k : Kind) (cs : List Node) : Prop := ordinary c k ∧ (c.luau = true → Chosen k cs)

/-- A node of the grammar. -/
def Fits (c : Cfg) (p : Part) (n : Node) : Prop := Conforms c p n ∧ n.Every (Fine c)

/-- Nodes of the grammar. -/
def FitsAll (c : Cfg) (ps : List Part) (ns : List Node) : Prop := ConformsAll c ps ns ∧ Node.Every.everys (Fine c) ns

theorem Fits.tokens {a : Cat} {n : Node} (h : Fits c (.cat a) n) (ha : a.solid = true) : n.tokens ≠ [] := conf_tokens_ne n (.cat a) ha h.1

theorem fitsAll_cons {p : Part} {ps : List Part} {ns : List Node} (h : FitsAll c (p :: ps) ns) :
    ∃ n ns', ns = n :: ns' ∧ Fits c p n ∧ FitsAll c ps ns' := by
  obtain ⟨h1, h2⟩ := h
  cases ns with
  | nil => simp [ConformsAll] at h1
  | cons n ns => exact ⟨n, ns, rfl, ⟨(confAll_cons.1 h1).1, h2.1⟩, (confAll_cons.1 h1).2, h2.2⟩

theorem fitsAll_nil {ns : List Node} (h : FitsAll c [] ns) : ns = [] := by
  cases ns with
  | nil => rfl
  | cons n ns => simp [FitsAll, ConformsAll] at h

theorem fits_one {p : Part} {ns : List Node} (h : FitsAll c [p] ns) : ∃ n, ns = [n] ∧ Fits c p n := by
  obtain ⟨n, ns, rfl, h1, h'⟩ := fitsAll_cons h
  cases fitsAll_nil h'
  exact ⟨n, rfl, h1⟩

theorem fits_two {p q : Part} {ns : List Node} (h : FitsAll c [p, q] ns) : ∃ n m, ns = [n, m] ∧ Fits c p n ∧ Fits c q m := by
  obtain ⟨n, ns, rfl, h1, h2⟩ := fitsAll_cons h
  obtain ⟨m, rfl, h3⟩ := fits_one h2
  exact ⟨n, m, rfl, h1, h3⟩

theorem fits_three {p q r : Part} {ns : List Node} (h : FitsAll c [p, q, r] ns) :
    ∃ x y z, ns = [x, y, z] ∧ Fits c p x ∧ Fits c q y ∧ Fits c r z := by
  obtain ⟨n, ns, rfl, h1, h2⟩ := fitsAll_cons h
  obtain ⟨x, y, rfl, h3⟩ := fits_two h2
  exact ⟨n, x, y, rfl, h1, h3⟩

theorem fits_four {p q r s : Part} {ns : List Node} (h : FitsAll c [p, q, r, s] ns) :
    ∃ x y z w, ns = [x, y, z, w] ∧ Fits c p x ∧ Fits c q y ∧ Fits c r z ∧ Fits c s w := by
  obtain ⟨n, ns, rfl, h1, h2⟩ := fitsAll_cons h
  obtain ⟨x, y, z, rfl, h3⟩ := fits_three h2
  exact ⟨n, x, y, z, rfl, h1, h3⟩

theorem fits_cat {a : Cat} {n : Node} (h : Fits c (.cat a) n) : ∃ k cs, n = .node k cs ∧ k.cat = some a ∧ available c k = true ∧
    FitsAll c (production c.feat k) cs ∧ Connected c k cs ∧ Fine c k cs := by
  obtain ⟨h1, h2⟩ := h
  cases n with
  | tok t => simp [Conforms] at h1
  | node k cs =>
    rw [conf_cat] at h1
    exact ⟨k, cs, rfl, h1.1, h1.2.1, ⟨h1.2.2.1, h2.2⟩, h1.2.2.2, h2.1⟩

theorem fits_tok {x : Term} {n : Node} (h : Fits c (.tok x) n) : ∃ t, n = .tok t ∧ x.Is t := by
  obtain ⟨h1, -⟩ := h
  cases n with
  | tok t => exact ⟨t, rfl, conf_tok.1 h1⟩
  | node k cs => simp [Conforms] at h1

theorem fits_sym {s : Symbol} {n : Node} (h : Fits c (.sym s) n) : ∃ t, n = .tok t ∧ t.token.type = .symbol s := by
  obtain ⟨t, rfl, h1⟩ := fits_tok h
  exact ⟨t, rfl, is_iff.1 (Is_sym.1 h1)⟩

theorem fits_name {n : Node} (h : Fits c .name n) : ∃ t x, n = .tok t ∧ t.token.type = .identifier x := by
  obtain ⟨t, rfl, x, h⟩ := fits_tok h
  exact ⟨t, x, rfl, h⟩

theorem fits_span {a b : Symbol} {n : Node} (h : Fits c (.span a b) n) : ∃ o e, n = span o e ∧ o.token.type = .symbol a ∧ e.token.type = .symbol b := by
  obtain ⟨h1, h2⟩ := h
  cases n with
  | tok t => simp [Conforms] at h1
  | node k cs =>
    cases k <;> simp only [Conforms] at h1
    obtain ⟨x, y, rfl, hx, hy⟩ := fits_two (c := c) ⟨h1, h2.2⟩
    obtain ⟨o, rfl, ho⟩ := fits_sym hx
    obtain ⟨e, rfl, he⟩ := fits_sym hy
    exact ⟨o, e, rfl, ho, he⟩

theorem fits_opt {p : Part} {n : Node} (h : Fits c (.opt p) n) : n = .none ∨ ∃ m, n = .some m ∧ Fits c p m := by
  obtain ⟨h1, h2⟩ := h
  cases n with
  | tok t => simp [Conforms] at h1
  | node k cs =>
    cases k <;> simp only [Conforms] at h1
    · subst h1; exact .inl rfl
    · obtain ⟨x, rfl, hx⟩ := fits_one (c := c) ⟨h1, h2.2⟩
      exact .inr ⟨x, rfl, hx⟩

theorem fits_optTok {x : Term} {n : Node} (h : Fits c (.opt (.tok x)) n) : ∃ o, n = optTok o ∧ ∀ t, o = some t → x.Is t := by
  rcases fits_opt h with rfl | ⟨m, rfl, hm⟩
  · exact ⟨none, rfl, nofun⟩
  · obtain ⟨t, rfl, h1⟩ := fits_tok hm
    exact ⟨some t, rfl, by rintro _ ⟨⟩; exact h1⟩

theorem fits_many {p : Part} {n : Node} (h : Fits c (.many p) n) : ∃ ns, n = vec ns ∧ ∀ x ∈ ns, Fits c p x := by
  obtain ⟨h1, h2⟩ := h
  cases n with
  | tok t => simp [Conforms] at h1
  | node k cs =>
    cases k <;> simp only [Conforms] at h1
    exact ⟨cs, rfl, fun x hx => ⟨confEach_iff.1 h1 x hx, (every_node.1 h2).2 x hx⟩⟩

theorem fits_some {p : Part} {n : Node} (h : Fits c (.some p) n) : ∃ ns, n = vec ns ∧ ns ≠ [] ∧ ∀ x ∈ ns, Fits c p x := by
  obtain ⟨h1, h2⟩ := h
  cases n with
  | tok t => simp [Conforms] at h1
  | node k cs =>
    cases k <;> simp only [Conforms] at h1
    exact ⟨cs, rfl, h1.2, fun x hx => ⟨confEach_iff.1 h1.1 x hx, (every_node.1 h2).2 x hx⟩⟩

theorem fits_optVec {p : Part} {n : Node} (h : Fits c (.opt (.some p)) n) : ∃ ns, n = optVec ns ∧ ∀ x ∈ ns, Fits c p x := by
  rcases fits_opt h with rfl | ⟨m, rfl, hm⟩
  · exact ⟨[], rfl, nofun⟩
  · obtain ⟨ns, rfl, hne, h1⟩ := fits_some hm
    refine ⟨ns, ?_, h1⟩
    cases ns with
    | nil => exact absurd rfl hne
    | cons n ns => rfl

theorem fits_pair {p q : Part} {n : Node} (h : Fits c (.pair p q) n) : ∃ x y, n = .node .tuple [x, y] ∧ Fits c p x ∧ Fits c q y := by
  obtain ⟨h1, h2⟩ := h
  cases n with
  | tok t => simp [Conforms] at h1
  | node k cs =>
    cases k <;> simp only [Conforms] at h1
    obtain ⟨x, y, rfl, h⟩ := fits_two (c := c) ⟨h1, h2.2⟩
    exact ⟨x, y, rfl, h⟩

theorem fits_pairs {p : Part} {seps : List Symbol} : ∀ {ns : List Node}, ConformsPairs c p seps ns → (∀ n ∈ ns, n.Every (Fine c)) →
    ∃ ps : List (Pair Node), ns = ps.map pairNode ∧ ∀ x ∈ ps, Fits c p x.value ∧ ∀ t, x.punctuation = some t → (Term.sym seps).Is t
  | [], _, _ => ⟨[], rfl, nofun⟩
  | .tok t :: ns, h, _ => by simp [ConformsPairs] at h
  | .node k cs :: ns, h, he => by
    have hc := (every_node.1 (he _ (.head _))).2
    cases k <;> simp only [ConformsPairs] at h
    · obtain ⟨ps, rfl, hps⟩ := fits_pairs h.2 fun n hn => he n (.tail _ hn)
      obtain ⟨v, rfl, hv⟩ := fits_one (c := c) ⟨h.1, everys_iff.2 hc⟩
      refine ⟨.end v :: ps, rfl, fun x hx => ?_⟩
      rcases List.mem_cons.1 hx with rfl | hx
      · exact ⟨hv, by simp [Pair.punctuation]⟩
      · exact hps x hx
    · obtain ⟨ps, rfl, hps⟩ := fits_pairs h.2 fun n hn => he n (.tail _ hn)
      obtain ⟨v, t, rfl, hv, ht⟩ := fits_two (c := c) ⟨h.1, everys_iff.2 hc⟩
      obtain ⟨t, rfl, ht'⟩ := fits_tok ht
      refine ⟨.punctuated v t :: ps, rfl, fun x hx => ?_⟩
      rcases List.mem_cons.1 hx with rfl | hx
      · exact ⟨hv, by rintro _ ⟨⟩; exact ht'⟩
      · exact hps x hx

theorem fits_list {p : Part} {seps : List Symbol} {style : FM.Spec.Style} {n : Node} (h : Fits c (.list p seps style) n) :
    ∃ ps : Punctuated Node, n = punct ps ∧ PEl (Fits c p) seps ps ∧ Sep style ps := by
  obtain ⟨h1, h2⟩ := h
  cases n with
  | tok t => simp [Conforms] at h1
  | node k cs =>
    cases k <;> simp only [Conforms] at h1
    obtain ⟨ps, rfl, hps⟩ := fits_pairs h1.1 (every_node.1 h2).2
    exact ⟨⟨ps⟩, rfl, hps, separated_iff.1 h1.2⟩

theorem not_fits {a : Cat} {n : Node} (h : ∀ k : Kind, k.cat = some a → available c k = false ∨ ∀ cs, ¬ Fine c k cs) : ¬ Fits c (.cat a) n := by
  intro hn
  obtain ⟨k, cs, rfl, hk, ha, -, -, ho⟩ := fits_cat hn
  rcases h k hk with h | h
  · rw [ha] at h; cases h
  · exact h cs ho

theorem fits_type {n : Node} (h : Fits c .type n) : Fits c (.cat .typeInfo) n ∧ variadic n = false := by
  obtain ⟨h1, h2⟩ := h
  refine ⟨⟨conf_type_cat h1, h2⟩, ?_⟩
  cases n with
  | tok t => rfl
  | node k cs =>
    simp only [Conforms] at h1
    have := h1.2.1
    cases k <;> first | rfl | cases this

theorem not_luau {a : Cat} {n : Node} (hl : c.luau = false) (h : Fits c (.cat a) n)
    (ha : ∀ k : Kind, k.cat = some a → k ∈ luauKinds ∨ k = .luauAttr) : False := by
  refine not_fits (fun k hk => ?_) h
  rcases ha k hk with hk | rfl
  · refine .inl ?_
    simp only [luauKinds, List.mem_cons, List.not_mem_nil, or_false] at hk
    rcases hk with rfl | rfl | rfl | rfl | rfl | rfl | rfl | rfl | rfl | rfl | rfl | rfl <;> simpa using hl
  · exact .inr fun cs h => by have := h.1; rw [ordinary, hl] at this; cases this

theorem luau_of {a : Cat} {n : Node} (h : Fits c (.cat a) n) (ha : ∀ k : Kind, k.cat = some a → k ∈ luauKinds ∨ k = .luauAttr) :
    c.luau = true := by
  cases hl : c.luau with
  | true => rfl
  | false => exact (not_luau hl h ha).elim

end FM.Parser.Forward
