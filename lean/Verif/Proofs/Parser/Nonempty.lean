import Verif.Proofs.Parser.Tactics

/-! Helper lemmas: nodes with at least one token. -/

namespace FM.Parser
open FM.Spec

variable {c : Cfg} {K : TokRef → Prop} {α β : Type}

/-- The Rust types all of whose values have a token. -/
def _root_.FM.Cat.solid : Cat → Bool
  | .block | .typeInfo | .typeUnion | .typeIntersection | .typeArg | .functionName => false
  | _ => true

/-- The types of fields that always have a token. -/
def _root_.FM.Ty.solid : Ty → Bool
  | .tok | .span => true
  | .cat a => a.solid
  | _ => false

theorem solid_sig (k : Kind) (a : Cat) (h : k.cat = some a) (ha : a.solid = true) : ∃ x ∈ k.sig, x.solid = true := by
  cases k <;> first
    | (cases h; done)
    | (cases h; cases ha; done)
    | (cases h; exact ⟨_, .head _, rfl⟩)
    | (cases h; exact ⟨_, .tail _ (.head _), rfl⟩)
    | (cases h; exact ⟨_, .tail _ (.tail _ (.head _)), rfl⟩)

theorem HasTys.mem {as : List Ty} {cs : List Node} (h : HasTys K as cs) {a : Ty} (ha : a ∈ as) : ∃ n ∈ cs, HasTy K a n := by
  induction as generalizing cs with
  | nil => simp at ha
  | cons b as ih =>
    obtain ⟨n, cs, hn, hcs, rfl⟩ := hasTys_cons.1 h
    rcases List.mem_cons.1 ha with rfl | ha
    · exact ⟨n, by simp, hn⟩
    · obtain ⟨m, hm, h⟩ := ih hcs ha
      exact ⟨m, by simp [hm], h⟩

theorem tokens_ne (n : Node) : ∀ a : Ty, a.solid = true → HasTy K a n → n.tokens ≠ [] := by
  induction n using Node.induct with
  | ht t => simp
  | hn k cs ih =>
    intro a ha h
    cases a with
    | tok => simp at h
    | span => obtain ⟨o, e, -, -, h⟩ := hasTy_span.1 h; cases h; simp
    | cat a =>
      obtain ⟨hk, hs⟩ := hasTy_cat_node.1 h
      obtain ⟨x, hx, hxs⟩ := solid_sig k a hk ha
      obtain ⟨m, hm, h⟩ := HasTys.mem hs hx
      have := ih m hm x hxs h
      rw [Node.tokens_node]
      intro h0
      rw [List.flatMap_eq_nil_iff] at h0
      exact this (h0 m hm)
    | _ => cases ha

theorem tokens_known (n : Node) : Typed K n → ∀ t ∈ n.tokens, K t := by
  induction n using Node.induct with
  | ht t =>
    rintro ⟨a, h⟩ u hu
    simp at hu; subst hu
    cases a <;> simp_all [HasTy]
  | hn k cs ih =>
    intro h t ht
    rw [Node.tokens_node, List.mem_flatMap] at ht
    obtain ⟨m, hm, ht⟩ := ht
    exact ih m hm (h.cases.1 m hm) t ht

theorem wp_firstToken {n : Node} {ts : Toks} {Q : TokRef → Toks → Prop} (hn : n.tokens ≠ []) (hk : Typed K n)
    (h : ∀ t, K t → Q t ts) : wp c K (firstToken n) ts Q := by
  have h1 := (next_spec n.items).1
  rw [(items_spec n).1] at h1
  unfold firstToken
  split
  · rename_i t ht
    rw [ht] at h1
    exact wp_pure (h t (tokens_known n hk t (List.mem_of_head? h1.symm)))
  · rename_i ht
    rw [ht] at h1
    exact absurd (List.head?_eq_none_iff.1 h1.symm) hn

theorem wp_lastToken {n : Node} {ts : Toks} {Q : TokRef → Toks → Prop} (hn : n.tokens ≠ []) (hk : Typed K n)
    (h : ∀ t, K t → Q t ts) : wp c K (lastToken n) ts Q := by
  have h1 := (nextBack_spec n.items).1
  rw [(items_spec n).1] at h1
  unfold lastToken
  split
  · rename_i t ht
    rw [ht] at h1
    exact wp_pure (h t (tokens_known n hk t (List.mem_of_getLast? h1.symm)))
  · rename_i ht
    rw [ht] at h1
    exact absurd (List.getLast?_eq_none_iff.1 h1.symm) hn

theorem wp_nodeRange {n : Node} {ts : Toks} {Q : TokRef × TokRef → Toks → Prop} (hn : n.tokens ≠ []) (hk : Typed K n)
    (h : ∀ t, K t.1 → K t.2 → Q t ts) : wp c K (nodeRange n) ts Q := by
  obtain ⟨h1, h2⟩ := next_spec n.items
  rw [(items_spec n).1] at h1 h2
  unfold nodeRange
  split
  · rename_i t rest ht
    rw [ht] at h1 h2
    have hkt := tokens_known n hk t (List.mem_of_head? h1.symm)
    refine wp_pure (h _ hkt ?_)
    cases hb : (Tokens.nextBack rest).1 with
    | none => exact hkt
    | some u =>
      refine tokens_known n hk u (List.mem_of_mem_tail (List.mem_of_getLast? ?_))
      rw [← h2, ← hb]
      exact (nextBack_spec rest).1.symm
  · rename_i ht
    rw [ht] at h1
    exact absurd (List.head?_eq_none_iff.1 h1.symm) hn

end FM.Parser
