import Verif.Spec.Within
import Verif.Proofs.Ast.Tokens
import Verif.Proofs.Parser.Ordinary

/-!
# The tokens of a part of a tree stand together
-/

namespace FM
open Spec

variable {R₀ : TokRef → Prop}

/-- Nodes whose tokens stand together: children, and elements of lists. -/
inductive Near (cs : List Node) : Node → Prop where
  | child {x} : x ∈ cs → Near cs x
  | item {ts x} : .node .vec ts ∈ cs → x ∈ ts → Near cs x
  | pair {ps j ys x} : .node .punct ps ∈ cs → .node j ys ∈ ps → (j = .pairEnd ∨ j = .pairPunct) → x ∈ ys → Near cs x

theorem part_zero (l : List Node) : part (l.map Node.flat) 0 = [] ∨ ∃ x ∈ l, part (l.map Node.flat) 0 = x.flat := by
  cases l with
  | nil => exact .inl rfl
  | cons x l => exact .inr ⟨x, by simp, rfl⟩

/-- The pieces of a list of names with annotations. -/
theorem names_pieces {a : Ty} : ∀ {ps as bs : List Node}, (∀ p ∈ ps, HasTy R₀ (.pair a) p) → as.length ≤ ps.length → bs.length ≤ ps.length →
    ∃ L : List (List TokRef), flatNames ps as bs = L.flatten ∧
      (∀ l ∈ L, l = [] ∨ (∃ p ∈ ps, ∃ x ∈ p.children, l = x.flat) ∨ (∃ x ∈ as, l = x.flat) ∨ ∃ x ∈ bs, l = x.flat) ∧
      (∀ p ∈ ps, ∀ x ∈ p.children, x.flat ∈ L) ∧ (∀ x ∈ as, x.flat ∈ L) ∧ ∀ x ∈ bs, x.flat ∈ L
  | [], as, bs, _, ha, hb => by
    obtain rfl := List.eq_nil_of_length_eq_zero (Nat.le_zero.1 ha)
    obtain rfl := List.eq_nil_of_length_eq_zero (Nat.le_zero.1 hb)
    exact ⟨[], rfl, nofun, nofun, nofun, nofun⟩
  | p :: ps, as, bs, hp, ha, hb => by
    obtain ⟨L, h1, h2, h3, h4, h5⟩ := names_pieces (ps := ps) (as := as.tail) (bs := bs.tail) (fun q hq => hp q (.tail _ hq))
      (by simp at ha ⊢; omega) (by simp at hb ⊢; omega)
    have e : flatNames (p :: ps) as bs = part (p.children.map Node.flat) 0 ++ (part (as.map Node.flat) 0 ++
        (part (bs.map Node.flat) 0 ++ (part (p.children.map Node.flat) 1 ++ flatNames ps as.tail bs.tail))) := by
      simp [flatNames, joinNames, List.append_assoc]
    have hd : ∃ u v, part (p.children.map Node.flat) 0 = u ∧ part (p.children.map Node.flat) 1 = v ∧
        (∃ x ∈ p.children, u = x.flat) ∧ (v = [] ∨ ∃ x ∈ p.children, v = x.flat) ∧ ∀ x ∈ p.children, x.flat = u ∨ x.flat = v := by
      rcases hasTy_pair.1 (hp p (.head _)) with ⟨x, _, rfl⟩ | ⟨x, t, _, _, rfl⟩
      · exact ⟨_, _, rfl, rfl, ⟨x, by simp, rfl⟩, .inl rfl, by simp [part]⟩
      · exact ⟨_, _, rfl, rfl, ⟨x, by simp, rfl⟩, .inr ⟨.tok t, by simp, rfl⟩, by simp [part]⟩
    obtain ⟨u, v, e1, e2, hu, hv, huv⟩ := hd
    have hl : ∀ l : List Node, ∀ x ∈ l, x.flat = part (l.map Node.flat) 0 ∨ x ∈ l.tail := by
      intro l x hx
      cases l with
      | nil => cases hx
      | cons y l =>
        rcases List.mem_cons.1 hx with rfl | hx
        · exact .inl rfl
        · exact .inr hx
    refine ⟨u :: part (as.map Node.flat) 0 :: part (bs.map Node.flat) 0 :: v :: L, ?_, ?_, ?_, ?_, ?_⟩
    · rw [e, e1, e2, h1]; simp
    · intro l hm
      simp only [List.mem_cons] at hm
      rcases hm with rfl | rfl | rfl | rfl | hm
      · obtain ⟨x, hx, e⟩ := hu
        exact .inr (.inl ⟨p, .head _, x, hx, e⟩)
      · rcases part_zero as with e | ⟨x, hx, e⟩
        · exact .inl e
        · exact .inr (.inr (.inl ⟨x, hx, e⟩))
      · rcases part_zero bs with e | ⟨x, hx, e⟩
        · exact .inl e
        · exact .inr (.inr (.inr ⟨x, hx, e⟩))
      · rcases hv with e | ⟨x, hx, e⟩
        · exact .inl e
        · exact .inr (.inl ⟨p, .head _, x, hx, e⟩)
      · rcases h2 l hm with h | ⟨q, hq, h⟩ | ⟨x, hx, h⟩ | ⟨x, hx, h⟩
        · exact .inl h
        · exact .inr (.inl ⟨q, .tail _ hq, h⟩)
        · exact .inr (.inr (.inl ⟨x, List.mem_of_mem_tail hx, h⟩))
        · exact .inr (.inr (.inr ⟨x, List.mem_of_mem_tail hx, h⟩))
    · intro q hq x hx
      rcases List.mem_cons.1 hq with rfl | hq
      · rcases huv x hx with e | e <;> simp [e]
      · simp [h3 q hq x hx]
    · intro x hx
      rcases hl as x hx with e | e
      · simp [e]
      · simp [h4 x e]
    · intro x hx
      rcases hl bs x hx with e | e
      · simp [e]
      · simp [h5 x e]

/-- A node that is part of a production by itself. -/
def IsCat (m : Node) : Prop := ∃ k cs, m = .node k cs ∧ k.cat ≠ none

theorem Spec.Within.of_span {m : Node} {o c : TokRef} (h : Within m (.spanOf (.tok o) (.tok c))) (hm : IsCat m) : False := by
  obtain ⟨k, cs, rfl, hk⟩ := hm
  cases h with
  | self => exact hk rfl
  | child hx h =>
    simp only [List.mem_cons, List.not_mem_nil, or_false] at hx
    rcases hx with rfl | rfl <;> cases h

theorem Spec.Within.of_tok {m : Node} {t : TokRef} (h : Within m (.tok t)) (hm : IsCat m) : False := by
  obtain ⟨k, cs, rfl, hk⟩ := hm
  cases h

theorem Spec.Within.of_vec {m : Node} {ts : List Node} (h : Within m (.node .vec ts)) (hm : IsCat m) : ∃ x ∈ ts, Within m x := by
  obtain ⟨k, cs, rfl, hk⟩ := hm
  cases h with
  | self => exact absurd rfl hk
  | child hx h => exact ⟨_, hx, h⟩

theorem Spec.Within.of_pairs {m : Node} {ps : List Node} {a : Ty} (hp : ∀ p ∈ ps, HasTy R₀ (.pair a) p) (h : Within m (.node .punct ps)) (hm : IsCat m) :
    ∃ j ys, .node j ys ∈ ps ∧ (j = .pairEnd ∨ j = .pairPunct) ∧ ∃ x ∈ ys, Within m x := by
  obtain ⟨k, cs, rfl, hk⟩ := hm
  cases h with
  | self => exact absurd rfl hk
  | child hx h =>
    rcases hasTy_pair.1 (hp _ hx) with ⟨y, _, rfl⟩ | ⟨y, t, _, _, rfl⟩
    · cases h with
      | self => exact absurd rfl hk
      | child hy h => exact ⟨_, _, hx, .inl rfl, _, hy, h⟩
    · cases h with
      | self => exact absurd rfl hk
      | child hy h => exact ⟨_, _, hx, .inr rfl, _, hy, h⟩

/-- The tokens of a node, in pieces: the tokens of its parts, and the two of a pair of brackets. -/
theorem flat_pieces {k : Kind} {cs : List Node} (hty : Typed R₀ (.node k cs)) (hfit : annotationsFit k cs) :
    ∃ L : List (List TokRef), (Node.node k cs).flat = L.flatten ∧
      (∀ l ∈ L, l = [] ∨ (∃ o c, Node.spanOf (.tok o) (.tok c) ∈ cs ∧ (l = [o] ∨ l = [c])) ∨ ∃ x, Near cs x ∧ l = x.flat) ∧
      ∀ x ∈ cs, ∀ m, Within m x → IsCat m → ∃ y, Near cs y ∧ Within m y ∧ y.flat ∈ L := by
  -- pieces that are children or brackets
  have simple : ∀ L : List (List TokRef), (Node.node k cs).flat = L.flatten →
      (∀ l ∈ L, (∃ o c, Node.spanOf (.tok o) (.tok c) ∈ cs ∧ (l = [o] ∨ l = [c])) ∨ ∃ x ∈ cs, l = x.flat) →
      (∀ x ∈ cs, (∃ o c, x = Node.spanOf (.tok o) (.tok c)) ∨ x.flat ∈ L) →
      ∃ L : List (List TokRef), (Node.node k cs).flat = L.flatten ∧
        (∀ l ∈ L, l = [] ∨ (∃ o c, Node.spanOf (.tok o) (.tok c) ∈ cs ∧ (l = [o] ∨ l = [c])) ∨ ∃ x, Near cs x ∧ l = x.flat) ∧
        ∀ x ∈ cs, ∀ m, Within m x → IsCat m → ∃ y, Near cs y ∧ Within m y ∧ y.flat ∈ L := by
    intro L h1 h2 h3
    refine ⟨L, h1, fun l hl => ?_, fun x hx m hw hm => ?_⟩
    · rcases h2 l hl with h | ⟨x, hx, e⟩
      · exact .inr (.inl h)
      · exact .inr (.inr ⟨x, .child hx, e⟩)
    · rcases h3 x hx with ⟨o, c, rfl⟩ | h
      · exact (hw.of_span hm).elim
      · exact ⟨x, .child hx, hw, h⟩
  cases hty.view with
  | plain hl =>
    refine simple (cs.map Node.flat) (by rw [Node.flat_plain hl, List.flatMap_def]) ?_ ?_
    · intro l hm
      obtain ⟨x, hx, rfl⟩ := List.mem_map.1 hm
      exact .inr ⟨x, hx, rfl⟩
    · exact fun x hx => .inr (List.mem_map.2 ⟨x, hx, rfl⟩)
  | wrap hk o c x =>
    refine simple [[o], x.flat, [c]] (by rw [flat_wrap hk]; simp) ?_ ?_
    · simp only [List.mem_cons, List.not_mem_nil, or_false]
      rintro l (rfl | rfl | rfl)
      · exact .inl ⟨o, c, .inl rfl, .inl rfl⟩
      · exact .inr ⟨x, .inr rfl, rfl⟩
      · exact .inl ⟨o, c, .inl rfl, .inr rfl⟩
    · simp only [List.mem_cons, List.not_mem_nil, or_false]
      rintro y (rfl | rfl)
      · exact .inl ⟨o, c, rfl⟩
      · simp
  | wrapSecond hk b o c x =>
    refine simple [b.flat, [o], x.flat, [c]] (by rw [flat_wrapSecond hk]; simp) ?_ ?_
    · simp only [List.mem_cons, List.not_mem_nil, or_false]
      rintro l (rfl | rfl | rfl | rfl)
      · exact .inr ⟨b, .inl rfl, rfl⟩
      · exact .inl ⟨o, c, .inr (.inl rfl), .inl rfl⟩
      · exact .inr ⟨x, .inr (.inr rfl), rfl⟩
      · exact .inl ⟨o, c, .inr (.inl rfl), .inr rfl⟩
    · simp only [List.mem_cons, List.not_mem_nil, or_false]
      rintro y (rfl | rfl | rfl)
      · simp
      · exact .inl ⟨o, c, rfl⟩
      · simp
  | fieldExprKey o c x e v =>
    refine simple [[o], x.flat, [c], [e], v.flat] (by rw [flat_fieldExprKey]; simp) ?_ ?_
    · simp only [List.mem_cons, List.not_mem_nil, or_false]
      rintro l (rfl | rfl | rfl | rfl | rfl)
      · exact .inl ⟨o, c, .inl rfl, .inl rfl⟩
      · exact .inr ⟨x, .inr (.inl rfl), rfl⟩
      · exact .inl ⟨o, c, .inl rfl, .inr rfl⟩
      · exact .inr ⟨.tok e, .inr (.inr (.inl rfl)), rfl⟩
      · exact .inr ⟨v, .inr (.inr (.inr rfl)), rfl⟩
    · simp only [List.mem_cons, List.not_mem_nil, or_false]
      rintro y (rfl | rfl | rfl | rfl)
      · exact .inl ⟨o, c, rfl⟩
      all_goals simp
  | tyArray o c a x =>
    refine simple [[o], a.flat, x.flat, [c]] (by rw [flat_tyArray]; simp) ?_ ?_
    · simp only [List.mem_cons, List.not_mem_nil, or_false]
      rintro l (rfl | rfl | rfl | rfl)
      · exact .inl ⟨o, c, .inl rfl, .inl rfl⟩
      · exact .inr ⟨a, .inr (.inl rfl), rfl⟩
      · exact .inr ⟨x, .inr (.inr rfl), rfl⟩
      · exact .inl ⟨o, c, .inl rfl, .inr rfl⟩
    · simp only [List.mem_cons, List.not_mem_nil, or_false]
      rintro y (rfl | rfl | rfl)
      · exact .inl ⟨o, c, rfl⟩
      all_goals simp
  | tyCallback g o c x a r =>
    refine simple [g.flat, [o], x.flat, [c], [a], r.flat] (by rw [flat_tyCallback]; simp) ?_ ?_
    · simp only [List.mem_cons, List.not_mem_nil, or_false]
      rintro l (rfl | rfl | rfl | rfl | rfl | rfl)
      · exact .inr ⟨g, .inl rfl, rfl⟩
      · exact .inl ⟨o, c, .inr (.inl rfl), .inl rfl⟩
      · exact .inr ⟨x, .inr (.inr (.inl rfl)), rfl⟩
      · exact .inl ⟨o, c, .inr (.inl rfl), .inr rfl⟩
      · exact .inr ⟨.tok a, .inr (.inr (.inr (.inl rfl))), rfl⟩
      · exact .inr ⟨r, .inr (.inr (.inr (.inr rfl))), rfl⟩
    · simp only [List.mem_cons, List.not_mem_nil, or_false]
      rintro y (rfl | rfl | rfl | rfl | rfl)
      · simp
      · exact .inl ⟨o, c, rfl⟩
      all_goals simp
  | typeInst o p i j x =>
    refine simple [[o], [i], x.flat, [j], [p]] (by rw [flat_typeInst]; simp) ?_ ?_
    · simp only [List.mem_cons, List.not_mem_nil, or_false]
      rintro l (rfl | rfl | rfl | rfl | rfl)
      · exact .inl ⟨o, p, .inl rfl, .inl rfl⟩
      · exact .inl ⟨i, j, .inr (.inl rfl), .inl rfl⟩
      · exact .inr ⟨x, .inr (.inr rfl), rfl⟩
      · exact .inl ⟨i, j, .inr (.inl rfl), .inr rfl⟩
      · exact .inl ⟨o, p, .inl rfl, .inr rfl⟩
    · simp only [List.mem_cons, List.not_mem_nil, or_false]
      rintro y (rfl | rfl | rfl)
      · exact .inl ⟨o, p, rfl⟩
      · exact .inl ⟨i, j, rfl⟩
      · simp
  | numericFor f i e s c t c' p d b n ty =>
    refine simple [f.flat, i.flat, ty.flat, e.flat, s.flat, c.flat, t.flat, c'.flat, p.flat, d.flat, b.flat, n.flat] (by rw [flat_numericFor]; simp) ?_ ?_
    · simp only [List.mem_cons, List.not_mem_nil, or_false]
      rintro l (rfl | rfl | rfl | rfl | rfl | rfl | rfl | rfl | rfl | rfl | rfl | rfl)
      all_goals exact .inr ⟨_, by simp, rfl⟩
    · simp only [List.mem_cons, List.not_mem_nil, or_false]
      rintro y (rfl | rfl | rfl | rfl | rfl | rfl | rfl | rfl | rfl | rfl | rfl | rfl)
      all_goals simp
  | genericFor f ps i e d b n ts hp ht =>
    obtain ⟨L, h1, h2, h3, -, h5⟩ := names_pieces (as := []) (bs := ts) hp (Nat.zero_le _) hfit
    refine ⟨[f] :: L ++ [i.flat, e.flat, d.flat, b.flat, [n]], by rw [flat_genericFor]; simp [h1], ?_, ?_⟩
    · intro l hm
      simp only [List.mem_cons, List.cons_append, List.mem_append, List.not_mem_nil, or_false] at hm
      rcases hm with rfl | hm | rfl | rfl | rfl | rfl | rfl
      · exact .inr (.inr ⟨.tok f, .child (by simp), rfl⟩)
      · rcases h2 l hm with h | ⟨p, hq, x, hx, e⟩ | ⟨x, hx, e⟩ | ⟨x, hx, e⟩
        · exact .inl h
        · refine .inr (.inr ⟨x, ?_, e⟩)
          rcases hasTy_pair.1 (hp p hq) with ⟨y, _, rfl⟩ | ⟨y, t, _, _, rfl⟩
          · exact .pair (ps := ps) (by simp) hq (.inl rfl) hx
          · exact .pair (ps := ps) (by simp) hq (.inr rfl) hx
        · cases hx
        · exact .inr (.inr ⟨x, .item (ts := ts) (by simp) hx, e⟩)
      · exact .inr (.inr ⟨i, .child (by simp), rfl⟩)
      · exact .inr (.inr ⟨e, .child (by simp), rfl⟩)
      · exact .inr (.inr ⟨d, .child (by simp), rfl⟩)
      · exact .inr (.inr ⟨b, .child (by simp), rfl⟩)
      · exact .inr (.inr ⟨.tok n, .child (by simp), rfl⟩)
    · intro x hx m hw hm
      simp only [List.mem_cons, List.not_mem_nil, or_false] at hx
      rcases hx with rfl | rfl | rfl | rfl | rfl | rfl | rfl | rfl
      · exact (hw.of_tok hm).elim
      · obtain ⟨j, ys, h6, h7, x, hx, h8⟩ := hw.of_pairs hp hm
        exact ⟨x, .pair (ps := ps) (by simp) h6 h7 hx, h8, by simp [h3 _ h6 x hx]⟩
      · exact ⟨_, .child (by simp), hw, by simp⟩
      · exact ⟨_, .child (by simp), hw, by simp⟩
      · exact ⟨_, .child (by simp), hw, by simp⟩
      · exact ⟨_, .child (by simp), hw, by simp⟩
      · exact (hw.of_tok hm).elim
      · obtain ⟨x, hx, h8⟩ := hw.of_vec hm
        exact ⟨x, .item (ts := ts) (by simp) hx, h8, by simp [h5 x hx]⟩
  | funcBody g o c ps ts r b n hp ht =>
    obtain ⟨L, h1, h2, h3, -, h5⟩ := names_pieces (as := []) (bs := ts) hp (Nat.zero_le _) hfit
    refine ⟨g.flat :: [o] :: L ++ [[c], r.flat, b.flat, [n]], by rw [flat_funcBody]; simp [h1], ?_, ?_⟩
    · intro l hm
      simp only [List.mem_cons, List.cons_append, List.mem_append, List.not_mem_nil, or_false] at hm
      rcases hm with rfl | rfl | hm | rfl | rfl | rfl | rfl
      · exact .inr (.inr ⟨g, .child (by simp), rfl⟩)
      · exact .inr (.inl ⟨o, c, by simp, .inl rfl⟩)
      · rcases h2 l hm with h | ⟨p, hq, x, hx, e⟩ | ⟨x, hx, e⟩ | ⟨x, hx, e⟩
        · exact .inl h
        · refine .inr (.inr ⟨x, ?_, e⟩)
          rcases hasTy_pair.1 (hp p hq) with ⟨y, _, rfl⟩ | ⟨y, t, _, _, rfl⟩
          · exact .pair (ps := ps) (by simp) hq (.inl rfl) hx
          · exact .pair (ps := ps) (by simp) hq (.inr rfl) hx
        · cases hx
        · exact .inr (.inr ⟨x, .item (ts := ts) (by simp) hx, e⟩)
      · exact .inr (.inl ⟨o, c, by simp, .inr rfl⟩)
      · exact .inr (.inr ⟨r, .child (by simp), rfl⟩)
      · exact .inr (.inr ⟨b, .child (by simp), rfl⟩)
      · exact .inr (.inr ⟨.tok n, .child (by simp), rfl⟩)
    · intro x hx m hw hm
      simp only [List.mem_cons, List.not_mem_nil, or_false] at hx
      rcases hx with rfl | rfl | rfl | rfl | rfl | rfl | rfl
      · exact ⟨_, .child (by simp), hw, by simp⟩
      · exact (hw.of_span hm).elim
      · obtain ⟨j, ys, h6, h7, x, hx, h8⟩ := hw.of_pairs hp hm
        exact ⟨x, .pair (ps := ps) (by simp) h6 h7 hx, h8, by simp [h3 _ h6 x hx]⟩
      · obtain ⟨x, hx, h8⟩ := hw.of_vec hm
        exact ⟨x, .item (ts := ts) (by simp) hx, h8, by simp [h5 x hx]⟩
      · exact ⟨_, .child (by simp), hw, by simp⟩
      · exact ⟨_, .child (by simp), hw, by simp⟩
      · exact (hw.of_tok hm).elim
  | localAssignment l ts ps as e x hp ht ha =>
    obtain ⟨L, h1, h2, h3, h4, h5⟩ := names_pieces (as := as) (bs := ts) hp hfit.2 hfit.1
    refine ⟨[l] :: L ++ [e.flat, x.flat], by rw [flat_localAssignment]; simp [h1], ?_, ?_⟩
    · intro l' hm
      simp only [List.mem_cons, List.cons_append, List.mem_append, List.not_mem_nil, or_false] at hm
      rcases hm with rfl | hm | rfl | rfl
      · exact .inr (.inr ⟨.tok l, .child (by simp), rfl⟩)
      · rcases h2 l' hm with h | ⟨p, hq, x, hx, e⟩ | ⟨x, hx, e⟩ | ⟨x, hx, e⟩
        · exact .inl h
        · refine .inr (.inr ⟨x, ?_, e⟩)
          rcases hasTy_pair.1 (hp p hq) with ⟨y, _, rfl⟩ | ⟨y, t, _, _, rfl⟩
          · exact .pair (ps := ps) (by simp) hq (.inl rfl) hx
          · exact .pair (ps := ps) (by simp) hq (.inr rfl) hx
        · exact .inr (.inr ⟨x, .item (ts := as) (by simp) hx, e⟩)
        · exact .inr (.inr ⟨x, .item (ts := ts) (by simp) hx, e⟩)
      · exact .inr (.inr ⟨e, .child (by simp), rfl⟩)
      · exact .inr (.inr ⟨x, .child (by simp), rfl⟩)
    · intro y hx m hw hm
      simp only [List.mem_cons, List.not_mem_nil, or_false] at hx
      rcases hx with rfl | rfl | rfl | rfl | rfl | rfl
      · exact (hw.of_tok hm).elim
      · obtain ⟨x, hx, h8⟩ := hw.of_vec hm
        exact ⟨x, .item (ts := ts) (by simp) hx, h8, by simp [h5 x hx]⟩
      · obtain ⟨j, ys, h6, h7, x, hx, h8⟩ := hw.of_pairs hp hm
        exact ⟨x, .pair (ps := ps) (by simp) h6 h7 hx, h8, by simp [h3 _ h6 x hx]⟩
      · obtain ⟨x, hx, h8⟩ := hw.of_vec hm
        exact ⟨x, .item (ts := as) (by simp) hx, h8, by simp [h4 x hx]⟩
      · exact ⟨_, .child (by simp), hw, by simp⟩
      · exact ⟨_, .child (by simp), hw, by simp⟩

/-- Nearness does not leave what holds of every part. -/
theorem Near.reach {P : Node → Prop} {cs : List Node} {x : Node} (h : Near cs x) (h1 : ∀ c ∈ cs, P c) (h2 : ∀ c ∈ cs, ∀ d ∈ c.children, P d)
    (h3 : ∀ c ∈ cs, ∀ d ∈ c.children, ∀ e ∈ d.children, P e) : P x := by
  cases h with
  | child h => exact h1 _ h
  | item h hx => exact h2 _ h _ hx
  | pair h hp _ hx => exact h3 _ h _ hp _ hx

/-- The tokens of a part stand together. -/
theorem flat_infix {m : Node} (hm : IsCat m) (n : Node) : Typed R₀ n → AnnotationsFit n → Within m n → m.flat <:+: n.flat := by
  induction n using Node.induct3 with
  | ht t => intro _ _ h; exact (h.of_tok hm).elim
  | hn k cs ih1 ih2 ih3 =>
    intro hty hfit hw
    cases hw with
    | self => exact List.infix_rfl
    | child hx hw =>
      obtain ⟨hfit, hfits⟩ := (Node.every_node _ _ _).1 hfit
      obtain ⟨L, h1, -, h3⟩ := flat_pieces hty hfit
      obtain ⟨y, hy, hyw, hyl⟩ := h3 _ hx _ hw hm
      rw [h1]
      refine List.IsInfix.trans ?_ (List.infix_of_mem_flatten hyl)
      have ht : ∀ c ∈ cs, Typed R₀ c := hty.cases.1
      have tc : ∀ {n : Node}, Typed R₀ n → ∀ d ∈ n.children, Typed R₀ d := by
        intro n h d hd
        cases n with
        | tok t => cases hd
        | node k cs => exact h.cases.1 d hd
      exact hy.reach (P := fun y => Typed R₀ y → AnnotationsFit y → Within m y → m.flat <:+: y.flat) ih1 ih2 ih3
        (hy.reach ht (fun c hc => tc (ht c hc)) fun c hc d hd => tc (tc (ht c hc) d hd))
        (hy.reach (P := AnnotationsFit) hfits (fun c hc => Node.Every.children (hfits c hc)) fun c hc d hd => Node.Every.children (Node.Every.children (hfits c hc) d hd))
        hyw

end FM
