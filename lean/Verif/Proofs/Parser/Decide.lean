import Verif.Spec.Luau
import Verif.Spec.Grammar

/-! Helper lemmas: the conditions of the grammar can be computed. -/

namespace FM.Spec
open FM

instance (x : Term) (t : TokRef) : Decidable (x.Is t) :=
  match x with
  | .sym ss => inferInstanceAs (Decidable (∃ s ∈ ss, t.token.type = .symbol s))
  | .word ws => inferInstanceAs (Decidable (∃ x ∈ ws, t.token.type = .identifier x))
  | .name => decidable_of_iff (t.token.type.kind = .identifier) (by
      cases h : t.token.type <;> simp [Term.Is, TokenType.kind, h])
  | .nameOrNil => decidable_of_iff (t.token.type.kind = .identifier ∨ t.token.type = .symbol .kNil) (by
      cases h : t.token.type <;> simp [Term.Is, TokenType.kind, h])
  | .string => inferInstanceAs (Decidable (_ = _))
  | .number => inferInstanceAs (Decidable (_ = _))
  | .interp => inferInstanceAs (Decidable (_ = _))

instance decSome {α : Type} {P : α → Prop} [∀ x, Decidable (P x)] : (o : Option α) → Decidable (∀ x, o = some x → P x)
  | none => isTrue nofun
  | some a => decidable_of_iff (P a) ⟨fun h _ e => by cases e; exact h, fun h => h a rfl⟩

instance decPair {α β : Type} {P : α → β → Prop} [∀ x y, Decidable (P x y)] : (o : Option (α × β)) → Decidable (∀ x y, o = some (x, y) → P x y)
  | none => isTrue nofun
  | some (a, b) => decidable_of_iff (P a b) ⟨fun h _ _ e => by cases e; exact h, fun h => h a b rfl⟩

instance (a b : Node) : Decidable (distinct a b) := by unfold distinct; split <;> infer_instance

instance decDistincts : (l : List Node) → Decidable (distincts l)
  | [] => isTrue trivial
  | [_] => isTrue trivial
  | a :: b :: l => have := decDistincts (b :: l); inferInstanceAs (Decidable (_ ∧ _))

instance (a b : Node) : Decidable (unasserted a b) := by unfold unasserted; split <;> infer_instance

instance decUnasserteds : (l : List Node) → Decidable (unasserteds l)
  | [] => isTrue trivial
  | [_] => isTrue trivial
  | a :: b :: l => have := decUnasserteds (b :: l); inferInstanceAs (Decidable (_ ∧ _))

instance (o : Text) (e : Edge) : Decidable (keepsLeft o e) := by unfold keepsLeft; split <;> infer_instance
instance (o : Text) (p : Text) : Decidable (keepsRight o p) := by unfold keepsRight; infer_instance

instance (c : Cfg) (k : Kind) (cs : List Node) : Decidable (Connected c k cs) := by
  unfold Connected
  split <;> first
    | infer_instance
    | (split <;> infer_instance)

instance (style : Style) (pairs : List Node) : Decidable (Separated style pairs) := by
  unfold Separated
  infer_instance

instance (lead list : Node) : Decidable (Members lead list) :=
  decidable_of_iff ((∀ m ∈ elements list, isOne [.tyUnion, .tyIntersection] m = false ∧ list? m = false) ∧
    (∀ m ∈ (elements list).dropLast, openCallback m = false) ∧ (∀ m ∈ (elements list).tail, single m = true) ∧
    (isOne [.absent] lead = false → ∀ m ∈ elements list, single m = true) ∧ (isOne [.absent] lead = true → 2 ≤ (elements list).length))
    ⟨fun ⟨a, b, c, d, e⟩ => ⟨a, b, c, d, e⟩, fun ⟨a, b, c, d, e⟩ => ⟨a, b, c, d, e⟩⟩

instance (specs : Node) : Decidable (singles specs) := by unfold singles; infer_instance

instance (k : Kind) (cs : List Node) : Decidable (Chosen k cs) := by
  unfold Chosen
  split <;> infer_instance

mutual
/-- `Conforms`, computed. -/
def conforms (c : Cfg) : Part → Node → Bool
  | .tok x, .tok t => decide (x.Is t)
  | .span o e, .node .span cs => conformsAll c [.sym o, .sym e] cs
  | .cat a, .node k cs => k.cat == some a && available c k && conformsAll c (production c.feat k) cs && decide (Connected c k cs)
  | .type, .node k cs => k.cat == some .typeInfo && isPack k == false && available c k &&
    conformsAll c (production c.feat k) cs && decide (Connected c k cs)
  | .opt _, .node .absent cs => cs.isEmpty
  | .opt p, .node .present cs => conformsAll c [p] cs
  | .many p, .node .vec cs => conformsEach c p cs
  | .some p, .node .vec cs => conformsEach c p cs && !cs.isEmpty
  | .list p seps style, .node .punct cs => conformsPairs c p seps cs && decide (Separated style cs)
  | .pair p q, .node .tuple cs => conformsAll c [p, q] cs
  | _, _ => false
def conformsAll (c : Cfg) : List Part → List Node → Bool
  | [], [] => true
  | p :: ps, n :: ns => conforms c p n && conformsAll c ps ns
  | _, _ => false
def conformsEach (c : Cfg) : Part → List Node → Bool
  | _, [] => true
  | p, n :: ns => conforms c p n && conformsEach c p ns
def conformsPairs (c : Cfg) : Part → List Symbol → List Node → Bool
  | _, _, [] => true
  | p, seps, .node .pairEnd cs :: ns => conformsAll c [p] cs && conformsPairs c p seps ns
  | p, seps, .node .pairPunct cs :: ns => conformsAll c [p, .tok (.sym seps)] cs && conformsPairs c p seps ns
  | _, _, _ => false
end

mutual
theorem conforms_sound {c : Cfg} : ∀ (p : Part) (n : Node), conforms c p n = true → Conforms c p n
  | p, .tok t, h => by
    cases p <;> simp [conforms] at h
    simpa [Conforms] using h
  | p, .node k cs, h => by
    unfold conforms at h
    split at h
    · cases ‹Node.node k cs = .tok _›
    · cases ‹Node.node k cs = _›; exact conformsAll_sound _ cs h
    · cases ‹Node.node k cs = _›
      simp only [Bool.and_eq_true, beq_iff_eq, decide_eq_true_eq] at h
      exact ⟨h.1.1.1, h.1.1.2, conformsAll_sound _ cs h.1.2, h.2⟩
    · cases ‹Node.node k cs = _›
      simp only [Bool.and_eq_true, beq_iff_eq, decide_eq_true_eq] at h
      exact ⟨h.1.1.1.1, h.1.1.1.2, h.1.1.2, conformsAll_sound _ cs h.1.2, h.2⟩
    · cases ‹Node.node k cs = _›; exact List.isEmpty_iff.1 h
    · cases ‹Node.node k cs = _›; exact conformsAll_sound _ cs h
    · cases ‹Node.node k cs = _›; exact conformsEach_sound _ cs h
    · cases ‹Node.node k cs = _›
      simp only [Bool.and_eq_true, Bool.not_eq_true', List.isEmpty_eq_false_iff] at h
      exact ⟨conformsEach_sound _ cs h.1, h.2⟩
    · cases ‹Node.node k cs = _›
      simp only [Bool.and_eq_true, decide_eq_true_eq] at h
      exact ⟨conformsPairs_sound _ _ cs h.1, h.2⟩
    · cases ‹Node.node k cs = _›; exact conformsAll_sound _ cs h
    · cases h
theorem conformsAll_sound {c : Cfg} : ∀ (ps : List Part) (ns : List Node), conformsAll c ps ns = true → ConformsAll c ps ns
  | [], [], _ => by simp [ConformsAll]
  | [], _ :: _, h => by simp [conformsAll] at h
  | _ :: _, [], h => by simp [conformsAll] at h
  | p :: ps, n :: ns, h => by
    simp only [conformsAll, Bool.and_eq_true] at h
    rw [ConformsAll]
    exact ⟨conforms_sound p n h.1, conformsAll_sound ps ns h.2⟩
theorem conformsEach_sound {c : Cfg} : ∀ (p : Part) (ns : List Node), conformsEach c p ns = true → ConformsEach c p ns
  | _, [], _ => by simp [ConformsEach]
  | p, n :: ns, h => by
    simp only [conformsEach, Bool.and_eq_true] at h
    rw [ConformsEach]
    exact ⟨conforms_sound p n h.1, conformsEach_sound p ns h.2⟩
theorem conformsPairs_sound {c : Cfg} : ∀ (p : Part) (seps : List Symbol) (ns : List Node), conformsPairs c p seps ns = true → ConformsPairs c p seps ns
  | _, _, [], _ => by simp [ConformsPairs]
  | p, seps, .tok t :: ns, h => by simp [conformsPairs] at h
  | p, seps, .node k cs :: ns, h => by
    unfold conformsPairs at h
    split at h
    · cases ‹Node.node k cs :: ns = []›
    · cases ‹Node.node k cs :: ns = _›
      simp only [Bool.and_eq_true] at h
      rw [ConformsPairs]
      exact ⟨conformsAll_sound _ cs h.1, conformsPairs_sound _ _ ns h.2⟩
    · cases ‹Node.node k cs :: ns = _›
      simp only [Bool.and_eq_true] at h
      rw [ConformsPairs]
      exact ⟨conformsAll_sound _ cs h.1, conformsPairs_sound _ _ ns h.2⟩
    · cases h
end

mutual
/-- `Chosen` of all nodes, computed. -/
def chosen : Node → Bool
  | .tok _ => true
  | .node k cs => decide (Chosen k cs) && chosens cs
def chosens : List Node → Bool
  | [] => true
  | n :: ns => chosen n && chosens ns
end

mutual
theorem chosen_sound : ∀ n : Node, chosen n = true → n.Every Chosen
  | .tok _, _ => trivial
  | .node k cs, h => by
    simp only [chosen, Bool.and_eq_true, decide_eq_true_eq] at h
    rw [Node.Every]
    exact ⟨h.1, chosens_sound cs h.2⟩
theorem chosens_sound : ∀ ns : List Node, chosens ns = true → Node.Every.everys Chosen ns
  | [], _ => trivial
  | n :: ns, h => by
    simp only [chosens, Bool.and_eq_true] at h
    exact ⟨chosen_sound n h.1, chosens_sound ns h.2⟩
end

end FM.Spec
