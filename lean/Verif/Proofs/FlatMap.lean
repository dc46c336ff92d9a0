import Verif.Proofs.Ast.Basic

/-!
# The tokens of a tree whose tokens are replaced
-/

namespace FM

def R.map {α β : Type} (f : α → β) (r : R α) : R β := ⟨r.all.map f, r.parts.map (List.map f), r.parts2.map (List.map (List.map f))⟩

theorem partOf_map {α β : Type} (f : α → β) : ∀ (l : List (List α)) (i : Nat), part (l.map (List.map f)) i = (part l i).map f
  | [], _ => rfl
  | _ :: _, 0 => rfl
  | _ :: l, i + 1 => partOf_map f l i

theorem nthOf_map {α β : Type} (f : α → β) : ∀ (l : List (R α)) (i : Nat), R.nth (l.map (R.map f)) i = R.map f (R.nth l i)
  | [], _ => rfl
  | _ :: _, 0 => rfl
  | _ :: l, i + 1 => nthOf_map f l i

theorem joinedNames_map {α β : Type} (f : α → β) (b : Bool) : ∀ (ps : List (List (List α))) (as bs : List (List α)),
    joinNames b (ps.map (List.map (List.map f))) (as.map (List.map f)) (bs.map (List.map f)) = (joinNames b ps as bs).map f
  | [], _, _ => rfl
  | p :: ps, as, bs => by
    simp only [List.map_cons, joinNames, partOf_map, ← List.map_tail, joinedNames_map f b ps, List.map_append]
    cases b <;> simp [partOf_map]

theorem elemsOf_map {α β : Type} (f : α → β) (l : List (R α)) (i : Option Nat) : R.elems (l.map (R.map f)) i = (R.elems l i).map (List.map f) := by
  cases i with
  | none => rfl
  | some i => simp only [R.elems, nthOf_map]; rfl

theorem slotRun_map {α β : Type} (f : α → β) (l : List (R α)) (s : Slot) : Slot.run (l.map (R.map f)) s = (Slot.run l s).map f := by
  cases s with
  | child i => simp only [Slot.run, nthOf_map]; rfl
  | opening i => simp only [Slot.run, nthOf_map]; exact partOf_map f _ _
  | closing i => simp only [Slot.run, nthOf_map]; exact partOf_map f _ _
  | names n a b => simp only [Slot.run, nthOf_map, elemsOf_map]; exact joinedNames_map f _ _ _ _
  | bareNames n a b => simp only [Slot.run, nthOf_map, elemsOf_map]; exact joinedNames_map f _ _ _ _

theorem arranged_map {α β : Type} (f : α → β) (s : Option (List Slot)) (l : List (R α)) : arrange s (l.map (R.map f)) = (arrange s l).map f := by
  cases s with
  | none =>
    simp only [arrange, concat, List.flatMap_map, List.map_flatMap]
    rfl
  | some s =>
    simp only [arrange, List.map_flatMap]
    congr 1
    funext x
    exact slotRun_map f l x

theorem foldsOf_map {β : Type} (leaf : TokRef → List β) (alg : Kind → List (R β) → List β) : ∀ cs : List Node, Node.folds leaf alg cs = cs.map (Node.fold leaf alg)
  | [] => rfl
  | c :: cs => by rw [Node.folds, foldsOf_map leaf alg cs]; rfl

theorem fold_mapTok (f : TokRef → TokRef) (n : Node) :
    (n.mapTok f).fold (fun t => [t]) (fun k rs => arrange k.layout rs) = R.map f (n.fold (fun t => [t]) fun k rs => arrange k.layout rs) := by
  induction n using Node.induct with
  | ht t => rfl
  | hn k cs ih =>
    rw [Node.mapTok_node]
    have e : (cs.map (Node.mapTok f)).map (Node.fold (fun t => [t]) fun k rs => arrange k.layout rs) =
        (cs.map (Node.fold (fun t => [t]) fun k rs => arrange k.layout rs)).map (R.map f) := by
      rw [List.map_map, List.map_map]
      exact List.map_congr_left ih
    simp only [Node.fold, foldsOf_map, e]
    simp only [R.map, R.mk.injEq, List.map_map]
    refine ⟨?_, rfl, rfl⟩
    rw [← List.map_map]
    exact arranged_map f _ _

/-- The tokens of a tree are replaced in place. -/
theorem flat_mapTok (f : TokRef → TokRef) (n : Node) : (n.mapTok f).flat = n.flat.map f := by
  show ((n.mapTok f).fold _ _).all = _
  rw [fold_mapTok]
  rfl

end FM
