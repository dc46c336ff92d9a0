import Verif.Proofs.FlatMap
import Verif.Proofs.Ast.Tokens

/-! Helper lemmas: trees of the same form are determined by their printed tokens. -/

namespace FM.Relabel
open FM FM.Spec

/-! ## Pairs of tokens as tokens -/

/-- A token as a list of tokens. -/
def listed (t : TokRef) : List Token :=
  ⟨⟨t.leading.length, 0, 0⟩, ⟨0, 0, 0⟩, .eof⟩ :: t.token :: (t.leading ++ t.trailing)

/-- The token again. -/
def unlisted : List Token → TokRef
  | n :: k :: l => ⟨l.take n.start.bytes, k, l.drop n.start.bytes⟩
  | _ => ⟨[], ⟨⟨0, 0, 0⟩, ⟨0, 0, 0⟩, .eof⟩, []⟩

theorem unlisted_listed (t : TokRef) : unlisted (listed t) = t := by
  simp [listed, unlisted]

/-- Two tokens. -/
def both (t u : TokRef) : TokRef := ⟨listed t, ⟨⟨0, 0, 0⟩, ⟨0, 0, 0⟩, .eof⟩, listed u⟩
def left (t : TokRef) : TokRef := unlisted t.leading
def right (t : TokRef) : TokRef := unlisted t.trailing

theorem left_both (t u : TokRef) : left (both t u) = t := unlisted_listed t
theorem right_both (t u : TokRef) : right (both t u) = u := unlisted_listed u

/-- Two trees of the same form come from one tree. -/
theorem zipped {a : TokRef → TokRef} : ∀ (n n' : Node), n.mapTok a = n'.mapTok a → ∃ m : Node, n = m.mapTok left ∧ n' = m.mapTok right := by
  intro n
  induction n using Node.induct with
  | ht t =>
    intro n' h
    cases n' with
    | tok u => exact ⟨.tok (both t u), by simp [left_both], by simp [right_both]⟩
    | node k cs => simp at h
  | hn k cs ih =>
    intro n' h
    cases n' with
    | tok u => simp at h
    | node k' cs' =>
      simp only [Node.mapTok_node, Node.node.injEq] at h
      obtain ⟨rfl, h⟩ := h
      have key : ∀ cs cs' : List Node, (∀ c ∈ cs, ∀ n' : Node, c.mapTok a = n'.mapTok a → ∃ m : Node, c = m.mapTok left ∧ n' = m.mapTok right) →
          cs.map (Node.mapTok a) = cs'.map (Node.mapTok a) →
          ∃ ms : List Node, cs = ms.map (Node.mapTok left) ∧ cs' = ms.map (Node.mapTok right) := by
        intro cs
        induction cs with
        | nil =>
          intro cs' _ h
          cases cs' with
          | nil => exact ⟨[], rfl, rfl⟩
          | cons _ _ => simp at h
        | cons c cs ih =>
          intro cs' hc h
          cases cs' with
          | nil => simp at h
          | cons c' cs' =>
            simp only [List.map_cons, List.cons.injEq] at h
            obtain ⟨m, rfl, rfl⟩ := hc c (.head _) c' h.1
            obtain ⟨ms, rfl, rfl⟩ := ih cs' (fun c h => hc c (.tail _ h)) h.2
            exact ⟨m :: ms, rfl, rfl⟩
      obtain ⟨ms, rfl, rfl⟩ := key cs cs' ih h
      exact ⟨.node k ms, by simp, by simp⟩

/-! ## Types -/

mutual
theorem hasTy {R : TokRef → Prop} {f : TokRef → TokRef} : ∀ (n : Node) (a : Ty), HasTy R a (n.mapTok f) → HasTy (fun _ => True) a n
  | .tok t, a, h => by cases a <;> simp [HasTy] at h ⊢
  | .node k cs, a, h => by
    rw [Node.mapTok_node] at h
    unfold HasTy at h ⊢
    split at h
    all_goals first
      | exact h.elim
      | (rename_i h2; obtain ⟨rfl, rfl⟩ := Node.node.inj h2
         first
           | exact ⟨h.1, hasTys _ _ h.2⟩
           | exact hasTys _ _ h
           | exact allTy _ _ h
           | exact List.map_eq_nil_iff.1 h)
      | (rename_i h2; cases h2)
theorem hasTys {R : TokRef → Prop} {f : TokRef → TokRef} :
    ∀ (ns : List Node) (as : List Ty), HasTys R as (ns.map (Node.mapTok f)) → HasTys (fun _ => True) as ns
  | [], [], _ => by simp
  | [], _ :: _, h => by simp at h
  | _ :: _, [], h => by simp at h
  | n :: ns, a :: as, h => by
    rw [List.map_cons, HasTys] at h
    rw [HasTys]
    exact ⟨hasTy n a h.1, hasTys ns as h.2⟩
theorem allTy {R : TokRef → Prop} {f : TokRef → TokRef} :
    ∀ (ns : List Node) (a : Ty), AllTy R a (ns.map (Node.mapTok f)) → AllTy (fun _ => True) a ns
  | [], _, _ => by rw [AllTy]; trivial
  | n :: ns, a, h => by
    rw [List.map_cons, AllTy] at h
    rw [AllTy]
    exact ⟨hasTy n a h.1, allTy ns a h.2⟩
end

theorem children_mapTok (f : TokRef → TokRef) (n : Node) : (n.mapTok f).children.length = n.children.length := by
  cases n <;> simp

theorem fits {f : TokRef → TokRef} {n : Node} (h : AnnotationsFit (n.mapTok f)) : AnnotationsFit n := by
  unfold AnnotationsFit at h ⊢
  induction n using Node.induct with
  | ht t => trivial
  | hn k cs ih =>
    rw [Node.mapTok_node, Node.every_node] at h
    rw [Node.every_node]
    refine ⟨?_, fun c hc => ih c hc (h.2 _ (List.mem_map_of_mem hc))⟩
    have h1 := h.1
    unfold annotationsFit
    split
    all_goals first
      | trivial
      | simpa [annotationsFit, children_mapTok] using h1

theorem mapTok_congr {f g : TokRef → TokRef} {n : Node} (h : ∀ t ∈ n.tokens, f t = g t) : n.mapTok f = n.mapTok g := by
  induction n using Node.induct with
  | ht t => simp [h t (by simp)]
  | hn k cs ih =>
    rw [Node.mapTok_node, Node.mapTok_node]
    refine congrArg (Node.node k) (List.map_congr_left fun c hc => ih c hc fun t ht => h t ?_)
    rw [Node.tokens_node]
    exact List.mem_flatMap.2 ⟨c, hc, ht⟩

theorem mapTok_mapTok (f g : TokRef → TokRef) (n : Node) : (n.mapTok f).mapTok g = n.mapTok (g ∘ f) := by
  induction n using Node.induct with
  | ht t => rfl
  | hn k cs ih =>
    simp only [Node.mapTok_node, List.map_map, Node.node.injEq, true_and]
    exact List.map_congr_left ih

/-- Trees of the same form whose printed tokens agree, agree. -/
theorem determined {R : TokRef → Prop} {ty : Ty} {a f g : TokRef → TokRef} {n n' : Node} (hty : HasTy R ty n) (hfit : AnnotationsFit n)
    (h : n.mapTok a = n'.mapTok a) (hfg : n.flat.map f = n'.flat.map g) : n.mapTok f = n'.mapTok g := by
  obtain ⟨m, rfl, rfl⟩ := zipped n n' h
  rw [flat_mapTok, flat_mapTok, List.map_map, List.map_map, List.map_inj_left] at hfg
  rw [mapTok_mapTok, mapTok_mapTok]
  refine mapTok_congr fun t ht => hfg t ?_
  have hc := count_tokens t m ⟨ty, hasTy m ty hty⟩ (fits hfit)
  have : 0 < m.tokens.count t := List.count_pos_iff.2 ht
  exact List.count_pos_iff.1 (hc ▸ this)

end FM.Relabel
