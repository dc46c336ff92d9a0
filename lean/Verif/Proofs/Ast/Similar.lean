import Verif.Proofs.Ast.Basic

/-!
# `similar` compares shapes
-/

namespace FM
open Spec

variable {R₀ : TokRef → Prop}

theorem unpunctuate_go (cs : List Node) : unpunctuate.go cs = cs.map unpunctuate := by
  induction cs with
  | nil => rfl
  | cons c cs ih => simp [unpunctuate.go, ih]

theorem unpunctuate_node {k : Kind} (h : k ≠ .pairPunct) (cs : List Node) :
    unpunctuate (.node k cs) = .node k (cs.map unpunctuate) := by
  cases k <;> simp_all [unpunctuate, unpunctuate_go]

@[simp] theorem shape_tok (t : TokRef) : shape (.tok t) = .tok (bare t) := by simp [shape, unpunctuate]

theorem shape_node {k : Kind} (h : k ≠ .pairPunct) (cs : List Node) : shape (.node k cs) = .node k (cs.map shape) := by
  simp [shape, unpunctuate_node h]

theorem shape_pair (v : Node) (cs : List Node) : shape (.node .pairPunct (v :: cs)) = .node .pairEnd [shape v] := by
  simp [shape, unpunctuate]

theorem bare_inj {a b : TokRef} : bare a = bare b ↔ a.token.type = b.token.type := by
  constructor
  · intro h; simpa [bare] using congrArg (fun t => t.token.type) h
  · intro h; simp [bare, h]

theorem Typed.pair {k : Kind} {cs : List Node} (h : Typed R₀ (.node k cs)) (hk : k.isPair = true) :
    ∃ v cs', cs = v :: cs' ∧ shape (.node k cs) = .node .pairEnd [shape v] := by
  obtain ⟨a, h⟩ := h
  cases k <;> simp only [Kind.isPair, Bool.false_eq_true] at hk
  · cases a <;> simp [HasTy, Kind.cat] at h
    obtain ⟨v, _, rfl⟩ := h
    exact ⟨v, [], rfl, shape_node (by decide) _⟩
  · cases a <;> simp [HasTy, Kind.cat] at h
    obtain ⟨v, _, cs, ⟨t, _, h⟩, rfl⟩ := h
    exact ⟨v, _, rfl, shape_pair _ _⟩

theorem similars_iff {cs cs' : List Node} (ih : ∀ c ∈ cs, ∀ m ∈ cs', (c.similar m = true ↔ shape c = shape m)) :
    Node.similars cs cs' = true ↔ cs.map shape = cs'.map shape := by
  induction cs generalizing cs' with
  | nil => cases cs' <;> simp [Node.similars]
  | cons c cs ihc =>
    cases cs' with
    | nil => simp [Node.similars]
    | cons c' cs' =>
      have := ih c List.mem_cons_self c' List.mem_cons_self
      have := ihc (cs' := cs') fun d hd m hm => ih d (List.mem_cons_of_mem _ hd) m (List.mem_cons_of_mem _ hm)
      simp [Node.similars, *]

theorem similar_iff (n : Node) : ∀ m, Typed R₀ n → Typed R₀ m → (n.similar m = true ↔ shape n = shape m) := by
  induction n using Node.induct with
  | ht t =>
    intro m _ hm
    cases m with
    | tok u => simp [Node.similar, bare_inj]
    | node k cs =>
      have : (Node.tok t).similar (.node k cs) = false := by rw [Node.similar] <;> simp
      rw [this]
      by_cases hk : k.isPair
      · obtain ⟨v, _, rfl, e⟩ := hm.pair hk
        simp [e]
      · have : k ≠ .pairPunct := by rintro rfl; simp [Kind.isPair] at hk
        simp [shape_node this]
  | hn k cs ih =>
    intro m hn hm
    cases m with
    | tok u =>
      have : (Node.node k cs).similar (.tok u) = false := by rw [Node.similar] <;> simp
      rw [this]
      by_cases hk : k.isPair
      · obtain ⟨v, _, rfl, e⟩ := hn.pair hk
        simp [e]
      · have : k ≠ .pairPunct := by rintro rfl; simp [Kind.isPair] at hk
        simp [shape_node this]
    | node k' cs' =>
      have hc := hn.children
      have hc' := hm.children
      rw [Node.similar]
      by_cases hk : k.isPair <;> by_cases hk' : k'.isPair
      · obtain ⟨v, _, rfl, e⟩ := hn.pair hk
        obtain ⟨v', _, rfl, e'⟩ := hm.pair hk'
        have := ih v List.mem_cons_self v' (hc v List.mem_cons_self) (hc' v' List.mem_cons_self)
        simp [hk, hk', e, e', Node.similarHead, this]
      · obtain ⟨v, _, rfl, e⟩ := hn.pair hk
        have h1 : k' ≠ .pairPunct := by rintro rfl; simp [Kind.isPair] at hk'
        have h2 : k' ≠ .pairEnd := by rintro rfl; simp [Kind.isPair] at hk'
        have h3 : k ≠ k' := by rintro rfl; exact hk' hk
        simp [hk, hk', e, shape_node h1, h3, Ne.symm h2]
      · obtain ⟨v, _, rfl, e⟩ := hm.pair hk'
        have h1 : k ≠ .pairPunct := by rintro rfl; simp [Kind.isPair] at hk
        have h2 : k ≠ .pairEnd := by rintro rfl; simp [Kind.isPair] at hk
        have h3 : k ≠ k' := by rintro rfl; exact hk hk'
        simp [hk, hk', e, shape_node h1, h3, h2]
      · have h1 : k ≠ .pairPunct := by rintro rfl; simp [Kind.isPair] at hk
        have h1' : k' ≠ .pairPunct := by rintro rfl; simp [Kind.isPair] at hk'
        have := similars_iff (cs := cs) (cs' := cs') fun c hm m hm' => ih c hm m (hc c hm) (hc' m hm')
        simp [hk, hk', shape_node h1, shape_node h1', this]

theorem shape_mapTok {h : TokRef → TokRef} (hh : ∀ t, (h t).token.type = t.token.type) (n : Node) :
    shape (n.mapTok h) = shape n := by
  rw [shape, shape]
  congr 1
  induction n using Node.induct with
  | ht t => simp [bare, hh]
  | hn k cs ih =>
    simp only [Node.mapTok_node, List.map_map, Node.node.injEq, true_and]
    exact List.map_congr_left fun c hc => ih c hc

end FM
