import Verif.Proofs.Ast.Ranges
import Verif.Proofs.Ast.Positions
import Verif.Proofs.Parser.Ordinary

/-! Helper lemmas: the lists of trees of the grammar, and the order of their tokens. -/

namespace FM.Spec
open FM.Parser

variable {c : Cfg} {R₀ : TokRef → Prop}

/-- What conforms to the part has a token. -/
def Part.solid : Part → Bool
  | .tok _ | .span .. | .type => true
  | .cat a => a != .block
  | .opt _ | .many _ => false
  | .some p => p.solid
  | .list p _ style => style == .nonempty && p.solid
  | .pair p q => p.solid || q.solid

def Part.isOpt : Part → Bool
  | .opt _ => true
  | _ => false

/-- The elements of lists in the part have tokens, or they are optional. -/
def Part.fine : Part → Bool
  | .many p | .some p => (p.solid || p.isOpt) && p.fine
  | .list p _ _ => p.solid && p.fine
  | .opt p => p.fine
  | .pair p q => p.fine && q.fine
  | _ => true

theorem production_fine (f : Features) (k : Kind) : ∀ p ∈ production f k, p.fine = true := by
  rw [← List.all_eq_true]
  cases k <;> rfl

theorem production_solid (f : Features) {k : Kind} {a : Cat} (h : k.cat = some a) (ha : a ≠ .block) :
    ∃ p ∈ production f k, p.solid = true := by
  rw [← List.any_eq_true]
  cases k <;> first | rfl | cases h
  exact absurd rfl ha

theorem conformsAll_mem : ∀ {ps : List Part} {cs : List Node}, ConformsAll c ps cs → ∀ p ∈ ps, ∃ x ∈ cs, Conforms c p x
  | [], _, _ => nofun
  | q :: ps, [], h => by rw [ConformsAll] at h; exact h.elim; all_goals simp
  | q :: ps, x :: cs, h => by
    rw [ConformsAll] at h
    intro p hp
    rcases List.mem_cons.1 hp with rfl | hp
    · exact ⟨x, by simp, h.1⟩
    · obtain ⟨y, hy, h⟩ := conformsAll_mem h.2 p hp
      exact ⟨y, by simp [hy], h⟩

theorem conformsAll_child : ∀ {ps : List Part} {cs : List Node}, ConformsAll c ps cs → ∀ x ∈ cs, ∃ p ∈ ps, Conforms c p x
  | [], [], _ => nofun
  | [], x :: cs, h => by rw [ConformsAll] at h; exact h.elim; all_goals simp
  | q :: ps, [], h => nofun
  | q :: ps, x :: cs, h => by
    rw [ConformsAll] at h
    intro y hy
    rcases List.mem_cons.1 hy with rfl | hy
    · exact ⟨q, by simp, h.1⟩
    · obtain ⟨p, hp, h⟩ := conformsAll_child h.2 y hy
      exact ⟨p, by simp [hp], h⟩

theorem conformsEach_child {p : Part} : ∀ {cs : List Node}, ConformsEach c p cs → ∀ x ∈ cs, Conforms c p x
  | [], _ => nofun
  | y :: cs, h => by
    rw [ConformsEach] at h
    intro x hx
    rcases List.mem_cons.1 hx with rfl | hx
    · exact h.1
    · exact conformsEach_child h.2 x hx

theorem conformsPairs_child {p : Part} {seps : List Symbol} : ∀ {cs : List Node}, ConformsPairs c p seps cs → ∀ x ∈ cs,
    (∃ y, x = .node .pairEnd [y] ∧ Conforms c p y) ∨ ∃ y t, x = .node .pairPunct [y, .tok t] ∧ Conforms c p y
  | [], _ => nofun
  | y :: cs, h => by
    intro x hx
    have hh : ((∃ z, y = .node .pairEnd [z] ∧ Conforms c p z) ∨ ∃ z t, y = .node .pairPunct [z, .tok t] ∧ Conforms c p z) ∧
        ConformsPairs c p seps cs := by
      unfold ConformsPairs at h
      split at h
      · cases ‹y :: cs = []›
      · rename_i ds ns heq
        cases heq
        refine ⟨.inl ?_, h.2⟩
        match ds, h.1 with
        | [z], h => simp [ConformsAll] at h; exact ⟨z, rfl, h⟩
        | [], h => simp [ConformsAll] at h
        | _ :: _ :: _, h => simp [ConformsAll] at h
      · rename_i ds ns heq
        cases heq
        refine ⟨.inr ?_, h.2⟩
        match ds, h.1 with
        | [z, .tok t], h => simp [ConformsAll] at h; exact ⟨z, t, rfl, h.1⟩
        | [z, .node k es], h => simp [ConformsAll, Conforms] at h
        | [], h => simp [ConformsAll] at h
        | [_], h => simp [ConformsAll] at h
        | _ :: _ :: _ :: _, h => simp [ConformsAll] at h
      · exact h.elim
    rcases List.mem_cons.1 hx with rfl | hx
    · exact hh.1
    · exact conformsPairs_child hh.2 x hx

/-- What conforms to a solid part has a token. -/
theorem solid_tokens (n : Node) : ∀ p : Part, p.solid = true → Conforms c p n → n.tokens ≠ [] := by
  induction n using Node.induct3 with
  | ht t => intros; simp
  | hn k cs ih ih2 _ =>
    intro p hp h
    have key : (∃ x ∈ cs, ∃ q : Part, q.solid = true ∧ Conforms c q x) → (Node.node k cs).tokens ≠ [] := by
      rintro ⟨x, hx, q, hq, hc⟩ h
      rw [Node.tokens_node, List.flatMap_eq_nil_iff] at h
      exact ih x hx q hq hc (h x hx)
    have all : ∀ {ps : List Part}, ConformsAll c ps cs → (∃ q ∈ ps, q.solid = true) → (Node.node k cs).tokens ≠ [] := by
      rintro ps h ⟨q, hq, hs⟩
      obtain ⟨x, hx, h⟩ := conformsAll_mem h q hq
      exact key ⟨x, hx, q, hs, h⟩
    unfold Conforms at h
    split at h
    · cases ‹Node.node k cs = .tok _›
    · cases ‹Node.node k cs = _›; exact all h ⟨_, List.mem_cons_self, rfl⟩
    · cases ‹Node.node k cs = _›
      refine all h.2.2.1 (production_solid c.feat h.1 ?_)
      simpa [Part.solid] using hp
    · cases ‹Node.node k cs = _›; exact all h.2.2.2.1 (production_solid c.feat h.1 (by simp))
    · simp [Part.solid] at hp
    · simp [Part.solid] at hp
    · simp [Part.solid] at hp
    · rename_i q ds heq
      cases heq
      obtain ⟨x, cs, rfl⟩ := List.exists_cons_of_ne_nil h.2
      exact key ⟨x, by simp, q, by simpa [Part.solid] using hp, conformsEach_child h.1 x (by simp)⟩
    · rename_i q seps style ds heq
      cases heq
      simp [Part.solid] at hp
      obtain ⟨x, ds, rfl⟩ := List.exists_cons_of_ne_nil (h.2.2.1 hp.1)
      rw [Node.tokens_node, Ne, List.flatMap_eq_nil_iff]
      intro hno
      have hno := hno x (by simp)
      rcases conformsPairs_child h.1 x (by simp) with ⟨y, rfl, hy⟩ | ⟨y, t, rfl, hy⟩
      · refine ih2 (.node .pairEnd [y]) (by simp) y (by simp [Node.children]) q hp.2 hy ?_
        rw [Node.tokens_node] at hno
        simpa using hno
      · rw [Node.tokens_node] at hno
        simp at hno
    · rename_i p q ds heq
      cases heq
      refine all h ?_
      simp [Part.solid] at hp
      rcases hp with hp | hp
      · exact ⟨p, by simp, hp⟩
      · exact ⟨q, by simp, hp⟩
    · exact h.elim

theorem solid_flat {p : Part} (hp : p.solid = true) {n : Node} (h : Conforms c p n) : n.flat ≠ [] := by
  obtain ⟨t, l, e⟩ := List.exists_cons_of_ne_nil (solid_tokens n p hp h)
  exact List.ne_nil_of_mem (Forward.conf_mem_flat h (t := t) (by simp [e]))

/-- The elements of the lists of trees of the grammar have tokens. -/
def full (k : Kind) (cs : List Node) : Prop :=
  k = .vec ∨ k = .punct ∨ k = .pairPunct →
    (∀ c ∈ cs, c.flat ≠ []) ∨ ∀ c ∈ cs, ∃ ds, c = .node .absent ds ∨ c = .node .present ds

theorem full_other {k : Kind} (h : k ≠ .vec ∧ k ≠ .punct ∧ k ≠ .pairPunct) (cs : List Node) : full k cs := by
  rintro (rfl | rfl | rfl) <;> simp at h

theorem conf_full (n : Node) : ∀ p : Part, p.fine = true → Conforms c p n → n.Every full := by
  induction n using Node.induct3 with
  | ht t => intros; trivial
  | hn k cs ih ih2 _ =>
    intro p hp h
    rw [Node.every_node]
    have all : ∀ {ps : List Part}, (∀ q ∈ ps, q.fine = true) → ConformsAll c ps cs → ∀ x ∈ cs, x.Every full := by
      intro ps hq h x hx
      obtain ⟨q, hm, h⟩ := conformsAll_child h x hx
      exact ih x hx q (hq q hm) h
    unfold Conforms at h
    split at h
    · cases ‹Node.node k cs = .tok _›
    · cases ‹Node.node k cs = _›
      exact ⟨full_other (by simp) _, all (by simp [Part.fine]) h⟩
    · cases ‹Node.node k cs = _›
      refine ⟨full_other ?_ _, all (production_fine _ _) h.2.2.1⟩
      refine ⟨?_, ?_, ?_⟩ <;> rintro rfl <;> cases h.1
    · cases ‹Node.node k cs = _›
      refine ⟨full_other ?_ _, all (production_fine _ _) h.2.2.2.1⟩
      refine ⟨?_, ?_, ?_⟩ <;> rintro rfl <;> cases h.1
    · cases ‹Node.node k cs = _›
      subst h
      exact ⟨full_other (by simp) _, nofun⟩
    · rename_i q ds heq
      cases heq
      exact ⟨full_other (by simp) _, all (ps := [q]) (by simpa [Part.fine] using hp) h⟩
    · rename_i q ds heq
      cases heq
      simp [Part.fine] at hp
      refine ⟨fun _ => ?_, fun x hx => ih x hx q hp.2 (conformsEach_child h x hx)⟩
      rcases hp.1 with hq | hq
      · exact .inl fun x hx => solid_flat hq (conformsEach_child h x hx)
      · refine .inr fun x hx => ?_
        have hx := conformsEach_child h x hx
        cases q <;> simp [Part.isOpt] at hq
        unfold Conforms at hx
        split at hx <;> first | exact ⟨_, .inl rfl⟩ | exact ⟨_, .inr rfl⟩ | exact hx.elim | (rename_i heq _; cases heq) | (rename_i heq; cases heq)
    · rename_i q ds heq
      cases heq
      simp [Part.fine] at hp
      refine ⟨fun _ => ?_, fun x hx => ih x hx q hp.2 (conformsEach_child h.1 x hx)⟩
      rcases hp.1 with hq | hq
      · exact .inl fun x hx => solid_flat hq (conformsEach_child h.1 x hx)
      · refine .inr fun x hx => ?_
        have hx := conformsEach_child h.1 x hx
        cases q <;> simp [Part.isOpt] at hq
        unfold Conforms at hx
        split at hx <;> first | exact ⟨_, .inl rfl⟩ | exact ⟨_, .inr rfl⟩ | exact hx.elim | (rename_i heq _; cases heq) | (rename_i heq; cases heq)
    · rename_i q seps style ds heq
      cases heq
      simp [Part.fine] at hp
      refine ⟨fun _ => .inl fun x hx => ?_, fun x hx => ?_⟩
      · rcases conformsPairs_child h.1 x hx with ⟨y, rfl, hy⟩ | ⟨y, t, rfl, hy⟩
        · rw [Node.flat_plain rfl]
          simpa using solid_flat hp.1 hy
        · rw [Node.flat_plain rfl]
          simp
      · rcases conformsPairs_child h.1 x hx with ⟨y, rfl, hy⟩ | ⟨y, t, rfl, hy⟩
        · rw [Node.every_node]
          refine ⟨full_other (by simp) _, fun z hz => ?_⟩
          simp at hz
          subst hz
          exact ih2 _ hx z (by simp [Node.children]) q hp.2 hy
        · rw [Node.every_node]
          refine ⟨fun _ => .inl fun z hz => ?_, fun z hz => ?_⟩
          · simp at hz
            rcases hz with rfl | rfl
            · exact solid_flat hp.1 hy
            · simp
          · simp at hz
            rcases hz with rfl | rfl
            · exact ih2 _ hx z (by simp [Node.children]) q hp.2 hy
            · trivial
    · rename_i p q ds heq
      cases heq
      exact ⟨full_other (by simp) _, all (ps := [p, q]) (by simpa [Part.fine] using hp) h⟩
    · exact h.elim

/-! ## The order of tokens -/

theorem flatNames_sub {a : Ty} : ∀ {ps as bs : List Node}, (∀ p ∈ ps, HasTy R₀ (.pair a) p) →
    (ps.flatMap Node.flat).Sublist (flatNames ps as bs) ∧
    (as.length ≤ ps.length → (as.flatMap Node.flat).Sublist (flatNames ps as bs)) ∧
    (bs.length ≤ ps.length → (bs.flatMap Node.flat).Sublist (flatNames ps as bs))
  | [], as, bs, _ => by
    refine ⟨by simp, fun h => ?_, fun h => ?_⟩
    · rw [List.eq_nil_of_length_eq_zero (Nat.le_zero.1 h)]; simp
    · rw [List.eq_nil_of_length_eq_zero (Nat.le_zero.1 h)]; simp
  | p :: ps, as, bs, hp => by
    have ih := flatNames_sub (ps := ps) (as := as.tail) (bs := bs.tail) fun q hq => hp q (by simp [hq])
    have e : flatNames (p :: ps) as bs = part (p.children.map Node.flat) 0 ++ (part (as.map Node.flat) 0 ++
        (part (bs.map Node.flat) 0 ++ (part (p.children.map Node.flat) 1 ++ flatNames ps as.tail bs.tail))) := by
      simp [flatNames, joinNames, List.append_assoc]
    have hd : p.flat = part (p.children.map Node.flat) 0 ++ part (p.children.map Node.flat) 1 := by
      rcases hasTy_pair.1 (hp p (by simp)) with ⟨x, _, rfl⟩ | ⟨x, t, _, _, rfl⟩ <;>
        rw [Node.flat_plain rfl] <;> simp [Node.children, part]
    have hl : ∀ (l : List Node), l.flatMap Node.flat = part (l.map Node.flat) 0 ++ l.tail.flatMap Node.flat := by
      intro l; cases l <;> simp [part]
    rw [e, List.flatMap_cons, hd]
    refine ⟨?_, fun h => ?_, fun h => ?_⟩
    · rw [List.append_assoc]
      refine (List.Sublist.refl _).append ?_
      exact (((List.Sublist.refl _).append ih.1).trans (List.sublist_append_right _ _)).trans (List.sublist_append_right _ _)
    · rw [hl as]
      refine .trans ((List.Sublist.refl _).append ?_) (List.sublist_append_right _ _)
      exact ((ih.2.1 (by simp at h ⊢; omega)).trans (List.sublist_append_right _ _)).trans (List.sublist_append_right _ _)
    · rw [hl bs]
      refine .trans (.trans ((List.Sublist.refl _).append ?_) (List.sublist_append_right _ _)) (List.sublist_append_right _ _)
      exact (ih.2.2 (by simp at h ⊢; omega)).trans (List.sublist_append_right _ _)

/-- A member of a concatenation is a sublist of it. -/
syntax "sub" : tactic
macro_rules
  | `(tactic| sub) => `(tactic| first
    | exact List.Sublist.refl _
    | assumption
    | exact List.sublist_append_left _ _
    | (refine List.Sublist.trans ?_ (List.sublist_append_left _ _); assumption)
    | (refine List.Sublist.trans ?_ (List.sublist_append_right _ _); sub)
    | (refine List.Sublist.cons _ ?_; sub))

theorem span_sub {o e : TokRef} {l : List TokRef} (h : e ∈ l) (g : List TokRef) : [o, e].Sublist (g ++ o :: l) :=
  .trans (.cons_cons o (List.singleton_sublist.2 h)) (List.sublist_append_right _ _)

/-- The tokens of a part are among those of the node, in the same order. -/
theorem child_sub {k : Kind} {cs : List Node} (hty : Typed R₀ (.node k cs)) (hfit : annotationsFit k cs) :
    ∀ x ∈ cs, x.flat.Sublist (Node.node k cs).flat := by
  have nil : ∀ (a b : List TokRef), (a.Sublist b) → ∀ c, a.Sublist (c ++ b) := fun a b h c => h.trans (List.sublist_append_right _ _)
  cases hty.view with
  | plain hl =>
    intro x hx
    rw [Node.flat_plain hl]
    obtain ⟨s, t, rfl⟩ := List.append_of_mem hx
    rw [List.flatMap_append, List.flatMap_cons]
    exact (List.sublist_append_left _ _).trans (List.sublist_append_right _ _)
  | wrap hk o c x =>
    rw [flat_wrap hk]
    simp only [List.forall_mem_cons, flat_span]
    exact ⟨span_sub (by simp) [], by sub, nofun⟩
  | wrapSecond hk b o c x =>
    rw [flat_wrapSecond hk]
    simp only [List.forall_mem_cons, flat_span]
    exact ⟨by sub, span_sub (by simp) _, by sub, nofun⟩
  | fieldExprKey o c x e v =>
    rw [flat_fieldExprKey]
    simp only [List.forall_mem_cons, flat_span]
    exact ⟨span_sub (by simp) [], by sub, by sub, by sub, nofun⟩
  | tyArray o c a x =>
    rw [flat_tyArray]
    simp only [List.forall_mem_cons, flat_span]
    exact ⟨span_sub (by simp) [], by sub, by sub, nofun⟩
  | tyCallback g o c x a r =>
    rw [flat_tyCallback]
    simp only [List.forall_mem_cons, flat_span]
    exact ⟨by sub, span_sub (by simp) _, by sub, by sub, by sub, nofun⟩
  | typeInst o p i j x =>
    rw [flat_typeInst]
    simp only [List.forall_mem_cons, flat_span]
    exact ⟨span_sub (by simp) [], span_sub (by simp) [o], by sub, nofun⟩
  | numericFor f i e s c t c' p d b n ty =>
    rw [flat_numericFor]
    simp only [List.forall_mem_cons]
    exact ⟨by sub, by sub, by sub, by sub, by sub, by sub, by sub, by sub, by sub, by sub, by sub, by sub, nofun⟩
  | genericFor f ps i e d b n ts hp ht =>
    have hfit : ts.length ≤ ps.length := hfit
    obtain ⟨h1, -, h3⟩ := flatNames_sub (as := []) (bs := ts) hp
    have h3 := h3 hfit
    rw [flat_genericFor]
    simp only [List.forall_mem_cons, flat_punct, flat_vec]
    exact ⟨by sub, by sub, by sub, by sub, by sub, by sub, by sub, by sub, nofun⟩
  | funcBody g o c ps ts r b n hp ht =>
    have hfit : ts.length ≤ ps.length := hfit
    obtain ⟨h1, -, h3⟩ := flatNames_sub (as := []) (bs := ts) hp
    have h3 := h3 hfit
    rw [flat_funcBody]
    simp only [List.forall_mem_cons, flat_punct, flat_vec, flat_span]
    exact ⟨by sub, span_sub (by simp) _, by sub, by sub, by sub, by sub, by sub, nofun⟩
  | localAssignment l ts ps as e x hp ht ha =>
    have hfit : ts.length ≤ ps.length ∧ as.length ≤ ps.length := hfit
    obtain ⟨h1, h2, h3⟩ := flatNames_sub (as := as) (bs := ts) hp
    have h2 := h2 hfit.2
    have h3 := h3 hfit.1
    rw [flat_localAssignment]
    simp only [List.forall_mem_cons, flat_punct, flat_vec]
    exact ⟨by sub, by sub, by sub, by sub, by sub, by sub, nofun⟩

/-- In a tree whose tokens are in order the components of every pair are. -/
theorem ordered_every (n : Node) : Typed R₀ n → AnnotationsFit n → Ordered n.flat →
    n.Every fun k cs => k = .tuple → Ordered (cs.flatMap Node.flat) := by
  induction n using Node.induct with
  | ht t => intros; trivial
  | hn k cs ih =>
    intro hty hfit ho
    have hfit := (Node.every_node _ _ _).1 hfit
    refine (Node.every_node _ _ _).2 ⟨?_, fun x hx => ih x hx (hty.cases.1 x hx) (hfit.2 x hx) (ho.sublist (child_sub hty hfit.1 x hx))⟩
    rintro rfl
    rwa [Node.flat_plain rfl] at ho

/-- Trees of the grammar whose tokens are in order. -/
theorem conf_listed {p : Part} (hp : p.fine = true) {n : Node} (h : Conforms c p n) (ho : Ordered n.flat) : Listed n := by
  have h1 := conf_full n p hp h
  have h2 := ordered_every n ⟨_, Forward.conf_hasTy n p h⟩ (Grammatical.annotationsFit (Conforms.every n p h)) ho
  clear h ho hp
  induction n using Node.induct with
  | ht t => trivial
  | hn k cs ih =>
    rw [Node.every_node] at h1 h2
    exact (Node.every_node _ _ _).2 ⟨⟨h1.1, h2.1⟩, fun x hx => ih x hx (h1.2 x hx) (h2.2 x hx)⟩

theorem endPosition_bytes (v w : Text) : (endPosition v w).bytes = utf8Len (v ++ w) := by
  unfold endPosition
  split <;> rfl

theorem utf8Len_append' (a b : Text) : utf8Len (a ++ b) = utf8Len a + utf8Len b := by
  induction a with
  | nil => simp [utf8Len]
  | cons x a ih => simp [utf8Len, ih, Nat.add_assoc]

theorem positioned_le : ∀ {l : List Token} {v : Text}, Positioned v l → ∀ t ∈ l, utf8Len v ≤ t.start.bytes ∧ t.start.bytes ≤ t.stop.bytes
  | [], _, _ => nofun
  | x :: l, v, h => by
    intro t ht
    obtain ⟨h1, h2, h3⟩ := h
    rcases List.mem_cons.1 ht with rfl | ht
    · rw [h1, h2, endPosition_bytes, utf8Len_append']
      exact ⟨Nat.le_refl _, Nat.le_add_right _ _⟩
    · have := positioned_le h3 t ht
      rw [utf8Len_append'] at this
      omega

/-- Tokens that stand one after the other are in order. -/
theorem positioned_ordered : ∀ {ts : List TokRef} {v : Text}, Positioned v (allTokens ts) → Ordered ts
  | [], _, _ => .nil
  | t :: ts, v, h => by
    rw [allTokens, List.flatMap_cons, TokRef.flat] at h
    rw [List.append_assoc, positioned_append, List.cons_append] at h
    obtain ⟨-, h1, h2, h3⟩ := h
    rw [positioned_append] at h3
    refine .cons ?_ (positioned_ordered h3.2)
    intro u hu
    have hm : u.token ∈ allTokens ts := List.mem_flatMap.2 ⟨u, hu, by simp [TokRef.flat]⟩
    have := positioned_le h3.2 u.token hm
    rw [h1, h2, endPosition_bytes]
    simp only [position]
    rw [utf8Len_append' (_ ++ _)] at this
    constructor
    · rw [utf8Len_append'] at this; omega
    · omega

end FM.Spec
