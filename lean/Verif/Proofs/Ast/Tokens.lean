import Verif.Proofs.Ast.View

/-!
# Token iteration: `tokens` lists the printed tokens, from both ends
-/

namespace FM
open Spec

variable {R₀ : TokRef → Prop}

/-! ## Names with annotations -/

theorem count_joinNames (t : TokRef) : ∀ (ps : List (List (List TokRef))) (as bs : List (List TokRef)),
    as.length ≤ ps.length → bs.length ≤ ps.length → (∀ p ∈ ps, p.length ≤ 2) →
    (joinNames true ps as bs).count t = ps.flatten.flatten.count t + as.flatten.count t + bs.flatten.count t
  | [], as, bs, ha, hb, _ => by
    simp at ha hb; simp [ha, hb, joinNames]
  | p :: ps, as, bs, ha, hb, hp => by
    have ih := count_joinNames t ps as.tail bs.tail (by simp at ha ⊢; omega) (by simp at hb ⊢; omega)
      fun q hq => hp q (List.mem_cons_of_mem _ hq)
    have h1 : (part as 0).count t + as.tail.flatten.count t = as.flatten.count t := by cases as <;> simp [part]
    have h2 : (part bs 0).count t + bs.tail.flatten.count t = bs.flatten.count t := by cases bs <;> simp [part]
    have h3 : (part p 0).count t + (part p 1).count t = p.flatten.count t := by
      have := hp p List.mem_cons_self
      match p, this with
      | [], _ => simp [part]
      | [a], _ => simp [part]
      | [a, b], _ => simp [part]
    simp only [joinNames, if_true, List.count_append, List.flatten_cons, List.flatten_append, ih]
    omega

/-- The parts of the pairs of a list of names make up its tokens. -/
theorem punct_parts {a : Ty} {cs : List Node} (h : ∀ c ∈ cs, HasTy R₀ (.pair a) c) :
    ((cs.map fun c => c.children.map Node.flat).flatten.flatten = cs.flatMap Node.flat) ∧
    (∀ p ∈ cs.map fun c => c.children.map Node.flat, p.length ≤ 2) := by
  induction cs with
  | nil => simp
  | cons c cs ih =>
    have ih := ih fun d hd => h d (List.mem_cons_of_mem _ hd)
    have hc := h c List.mem_cons_self
    rcases hasTy_pair.1 hc with ⟨x, _, rfl⟩ | ⟨x, t, _, _, rfl⟩
    · refine ⟨?_, ?_⟩
      · simp [ih.1, Node.flat_plain (show Kind.pairEnd.layout = none from rfl)]
      · intro p hp
        rcases List.mem_cons.1 hp with rfl | hp
        · simp
        · exact ih.2 p hp
    · refine ⟨?_, ?_⟩
      · simp [ih.1, Node.flat_plain (show Kind.pairPunct.layout = none from rfl)]
      · intro p hp
        rcases List.mem_cons.1 hp with rfl | hp
        · simp
        · exact ih.2 p hp

theorem count_flatNames (t : TokRef) {a : Ty} {ps as bs : List Node} (hp : ∀ p ∈ ps, HasTy R₀ (.pair a) p)
    (ha : as.length ≤ ps.length) (hb : bs.length ≤ ps.length) :
    (flatNames ps as bs).count t =
      (ps.flatMap Node.flat).count t + (as.flatMap Node.flat).count t + (bs.flatMap Node.flat).count t := by
  obtain ⟨h1, h2⟩ := punct_parts hp
  rw [flatNames, count_joinNames t _ _ _ (by simpa using ha) (by simpa using hb) h2, h1]
  simp [List.flatMap_def]

/-! ## C25 -/

theorem count_flatMap_congr {f g : Node → List TokRef} {t : TokRef} {cs : List Node}
    (h : ∀ c ∈ cs, (f c).count t = (g c).count t) : (cs.flatMap f).count t = (cs.flatMap g).count t := by
  induction cs with
  | nil => rfl
  | cons c cs ih =>
    simp [h c List.mem_cons_self, ih fun d hd => h d (List.mem_cons_of_mem _ hd)]

theorem count_tokens (t : TokRef) (n : Node) : Typed R₀ n → AnnotationsFit n → n.tokens.count t = n.flat.count t := by
  induction n using Node.induct with
  | ht u => intros; rfl
  | hn k cs ih =>
    intro hty hfit
    obtain ⟨hfit, hfits⟩ := (Node.every_node _ _ _).1 hfit
    have hall : (Node.node k cs).tokens.count t = (cs.flatMap Node.flat).count t := by
      rw [Node.tokens_node]
      exact count_flatMap_congr fun c hc => ih c hc (hty.cases.1 c hc) (hfits c hc)
    rw [hall]
    clear hall ih hfits
    cases hty.view with
    | plain hl => rw [Node.flat_plain hl]
    | wrap hk o c x => rw [flat_wrap hk]; simp [List.count_cons]
    | wrapSecond hk b o c x => rw [flat_wrapSecond hk]; simp [List.count_cons]
    | fieldExprKey o c x e v => rw [flat_fieldExprKey]; simp [List.count_cons]; omega
    | tyArray o c a x => rw [flat_tyArray]; simp [List.count_cons]; omega
    | tyCallback g o c x a r => rw [flat_tyCallback]; simp [List.count_cons]; omega
    | typeInst o p i j x => rw [flat_typeInst]; simp [List.count_cons]; omega
    | numericFor => rw [flat_numericFor]; simp; omega
    | genericFor f ps i e d b n ts hp ht =>
      rw [flat_genericFor]
      have := count_flatNames t (as := []) (bs := ts) hp (Nat.zero_le _) hfit
      simp [flat_vec, flat_punct, List.count_cons] at this ⊢; omega
    | funcBody g o c ps ts r b n hp ht =>
      rw [flat_funcBody]
      have := count_flatNames t (as := []) (bs := ts) hp (Nat.zero_le _) hfit
      simp [flat_vec, flat_punct, List.count_cons] at this ⊢; omega
    | localAssignment l ts ps as e x hp ht ha =>
      rw [flat_localAssignment]
      have := count_flatNames t (as := as) (bs := ts) hp hfit.2 hfit.1
      simp [flat_vec, flat_punct, List.count_cons] at this ⊢; omega

/-! ## Printed tokens are tokens of the tree -/

theorem mem_joinNames {t : TokRef} : ∀ {ps : List (List (List TokRef))} {as bs : List (List TokRef)},
    t ∈ joinNames true ps as bs → t ∈ ps.flatten.flatten ∨ t ∈ as.flatten ∨ t ∈ bs.flatten
  | [], _, _, h => by simp [joinNames] at h
  | p :: ps, as, bs, h => by
    have hp : ∀ {l : List (List TokRef)} {i : Nat}, t ∈ part l i → t ∈ l.flatten := by
      intro l
      induction l with
      | nil => intro i h; simp [part] at h
      | cons x l ih =>
        intro i h
        cases i with
        | zero => simp [part] at h; simp [h]
        | succ i => simp only [part] at h; simp only [List.flatten_cons, List.mem_append]; exact .inr (ih h)
    have ht : ∀ {l : List (List TokRef)}, t ∈ l.tail.flatten → t ∈ l.flatten := by
      intro l h
      cases l with
      | nil => simp at h
      | cons x l => simp only [List.tail_cons] at h; simp only [List.flatten_cons, List.mem_append]; exact .inr h
    simp only [joinNames, if_true, List.mem_append] at h
    simp only [List.flatten_cons, List.flatten_append, List.mem_append]
    rcases h with (((h | h) | h) | h) | h
    · exact .inl (.inl (hp h))
    · exact .inr (.inl (hp h))
    · exact .inr (.inr (hp h))
    · exact .inl (.inl (hp h))
    · rcases mem_joinNames h with h | h | h
      · exact .inl (.inr h)
      · exact .inr (.inl (ht h))
      · exact .inr (.inr (ht h))

theorem mem_flatNames {t : TokRef} {a : Ty} {ps as bs : List Node} (hp : ∀ p ∈ ps, HasTy R₀ (.pair a) p)
    (h : t ∈ flatNames ps as bs) :
    (∃ n ∈ ps, t ∈ n.flat) ∨ (∃ n ∈ as, t ∈ n.flat) ∨ ∃ n ∈ bs, t ∈ n.flat := by
  obtain ⟨h1, -⟩ := punct_parts hp
  have h := mem_joinNames h
  rw [h1] at h
  simpa [List.mem_flatMap, ← List.flatMap_def] using h

theorem mem_flat (t : TokRef) (n : Node) : Typed R₀ n → t ∈ n.flat → t ∈ n.tokens := by
  induction n using Node.induct with
  | ht u => intro _ h; exact h
  | hn k cs ih =>
    intro hty h
    have key : ∀ c ∈ cs, t ∈ c.flat → t ∈ (Node.node k cs).tokens := fun c hc h => by
      rw [Node.tokens_node]; exact List.mem_flatMap.2 ⟨c, hc, ih c hc (hty.cases.1 c hc) h⟩
    have span : ∀ o c, Node.spanOf (.tok o) (.tok c) ∈ cs → t = o ∨ t = c → t ∈ (Node.node k cs).tokens :=
      fun o c hc h => key _ hc (by simpa using h)
    clear ih
    cases hty.view with
    | plain hl =>
      rw [Node.flat_plain hl] at h
      obtain ⟨c, hc, h⟩ := List.mem_flatMap.1 h
      exact key c hc h
    | wrap hk o c x =>
      rw [flat_wrap hk] at h; simp only [List.mem_cons, List.mem_append, List.not_mem_nil, or_false] at h
      rcases h with h | h | h
      · exact span o c (by simp) (.inl h)
      · exact key x (by simp) h
      · exact span o c (by simp) (.inr h)
    | wrapSecond hk b o c x =>
      rw [flat_wrapSecond hk] at h; simp only [List.mem_cons, List.mem_append, List.not_mem_nil, or_false] at h
      rcases h with h | h | h | h
      · exact key b (by simp) h
      · exact span o c (by simp) (.inl h)
      · exact key x (by simp) h
      · exact span o c (by simp) (.inr h)
    | fieldExprKey o c x e v =>
      rw [flat_fieldExprKey] at h; simp only [List.mem_cons, List.mem_append] at h
      rcases h with h | h | h | h | h
      · exact span o c (by simp) (.inl h)
      · exact key x (by simp) h
      · exact span o c (by simp) (.inr h)
      · exact key (.tok e) (by simp) h
      · exact key v (by simp) h
    | tyArray o c a x =>
      rw [flat_tyArray] at h; simp only [List.mem_cons, List.mem_append, List.not_mem_nil, or_false] at h
      rcases h with h | h | h | h
      · exact span o c (by simp) (.inl h)
      · exact key a (by simp) h
      · exact key x (by simp) h
      · exact span o c (by simp) (.inr h)
    | tyCallback g o c x a r =>
      rw [flat_tyCallback] at h; simp only [List.mem_cons, List.mem_append] at h
      rcases h with h | h | h | h | h | h
      · exact key g (by simp) h
      · exact span o c (by simp) (.inl h)
      · exact key x (by simp) h
      · exact span o c (by simp) (.inr h)
      · exact key (.tok a) (by simp) h
      · exact key r (by simp) h
    | typeInst o p i j x =>
      rw [flat_typeInst] at h; simp only [List.mem_cons, List.mem_append, List.not_mem_nil, or_false] at h
      rcases h with h | h | h | h | h
      · exact span o p (by simp) (.inl h)
      · exact span i j (by simp) (.inl h)
      · exact key x (by simp) h
      · exact span i j (by simp) (.inr h)
      · exact span o p (by simp) (.inr h)
    | numericFor =>
      rw [flat_numericFor] at h; simp only [List.mem_append] at h
      rcases h with h | h | h | h | h | h | h | h | h | h | h | h <;> exact key _ (by simp) h
    | genericFor f ps i e d b n ts hp ht =>
      rw [flat_genericFor] at h; simp only [List.mem_append] at h
      rcases h with h | h | h | h | h | h | h
      · exact key _ (by simp) h
      · rcases mem_flatNames hp h with ⟨m, hm, h⟩ | ⟨m, hm, h⟩ | ⟨m, hm, h⟩
        · exact key (.node .punct ps) (by simp) (by rw [flat_punct]; exact List.mem_flatMap.2 ⟨m, hm, h⟩)
        · simp at hm
        · exact key (.node .vec ts) (by simp) (by rw [flat_vec]; exact List.mem_flatMap.2 ⟨m, hm, h⟩)
      all_goals exact key _ (by simp) h
    | funcBody g o c ps ts r b n hp ht =>
      rw [flat_funcBody] at h; simp only [List.mem_cons, List.mem_append] at h
      rcases h with h | h | h | h | h | h | h
      · exact key _ (by simp) h
      · exact span o c (by simp) (.inl h)
      · rcases mem_flatNames hp h with ⟨m, hm, h⟩ | ⟨m, hm, h⟩ | ⟨m, hm, h⟩
        · exact key (.node .punct ps) (by simp) (by rw [flat_punct]; exact List.mem_flatMap.2 ⟨m, hm, h⟩)
        · simp at hm
        · exact key (.node .vec ts) (by simp) (by rw [flat_vec]; exact List.mem_flatMap.2 ⟨m, hm, h⟩)
      · exact span o c (by simp) (.inr h)
      all_goals exact key _ (by simp) h
    | localAssignment l ts ps as e x hp ht ha =>
      rw [flat_localAssignment] at h; simp only [List.mem_append] at h
      rcases h with h | h | h | h
      · exact key _ (by simp) h
      · rcases mem_flatNames hp h with ⟨m, hm, h⟩ | ⟨m, hm, h⟩ | ⟨m, hm, h⟩
        · exact key (.node .punct ps) (by simp) (by rw [flat_punct]; exact List.mem_flatMap.2 ⟨m, hm, h⟩)
        · exact key (.node .vec as) (by simp) (by rw [flat_vec]; exact List.mem_flatMap.2 ⟨m, hm, h⟩)
        · exact key (.node .vec ts) (by simp) (by rw [flat_vec]; exact List.mem_flatMap.2 ⟨m, hm, h⟩)
      all_goals exact key _ (by simp) h

/-! ## C26 -/

/-- The tokens an item still yields. -/
def Item.rest : Item → List TokRef
  | .more n => n.tokens
  | .ref t => [t]

def Tokens.rest (ts : Tokens) : List TokRef := ts.flatMap Item.rest

@[simp] theorem Tokens.rest_nil : Tokens.rest [] = [] := rfl
@[simp] theorem Tokens.rest_cons (i : Item) (ts : Tokens) : Tokens.rest (i :: ts) = i.rest ++ Tokens.rest ts := rfl
@[simp] theorem Tokens.rest_append (ts us : Tokens) : Tokens.rest (ts ++ us) = ts.rest ++ us.rest := by
  simp [Tokens.rest]
@[simp] theorem Tokens.weight_nil : Tokens.weight [] = 0 := rfl
@[simp] theorem Tokens.weight_cons (i : Item) (ts : Tokens) : Tokens.weight (i :: ts) = i.weight + ts.weight := rfl
@[simp] theorem Tokens.weight_append (ts us : Tokens) : Tokens.weight (ts ++ us) = ts.weight + us.weight := by
  simp [Tokens.weight]
@[simp] theorem Tokens.weight_reverse (ts : Tokens) : Tokens.weight ts.reverse = ts.weight := by
  simp [Tokens.weight, List.sum_reverse]

theorem Item.rest_of (n : Node) : (Item.of n).rest = n.tokens := by cases n <;> rfl

theorem Item.weight_of (n : Node) : (Item.of n).weight ≤ 2 * n.size := by
  cases n <;> simp [Item.of, Item.weight]

theorem Node.size_pos (n : Node) : 0 < n.size := by cases n <;> simp <;> omega

theorem items_spec (n : Node) : Tokens.rest n.items = n.tokens ∧ Tokens.weight n.items < 2 * n.size := by
  induction n using Node.induct with
  | ht t => exact ⟨rfl, by simp [Node.items, Item.weight]⟩
  | hn k cs ih =>
    rw [Node.items]
    split
    · have : Tokens.rest (Node.itemss cs) = cs.flatMap Node.tokens ∧
          Tokens.weight (Node.itemss cs) ≤ 2 * Node.size.sizes cs := by
        induction cs with
        | nil => exact ⟨rfl, by simp [Node.itemss]⟩
        | cons c cs ihc =>
          have := ih c List.mem_cons_self
          have := ihc fun d hd => ih d (List.mem_cons_of_mem _ hd)
          simp only [Node.itemss, Tokens.rest_append, Tokens.weight_append, List.flatMap_cons, Node.size.sizes]
          refine ⟨by simp_all, ?_⟩
          omega
      simp [this]; omega
    · have : Tokens.rest (cs.map Item.of) = cs.flatMap Node.tokens ∧
          Tokens.weight (cs.map Item.of) ≤ 2 * Node.size.sizes cs := by
        clear ih
        induction cs with
        | nil => simp
        | cons c cs ihc =>
          have := Item.weight_of c
          simp [Item.rest_of, ihc]
          omega
      simp [this]; omega

theorem nextF_spec : ∀ (fuel : Nat) (ts : Tokens), Tokens.weight ts < fuel →
    (Tokens.nextF fuel ts).1 = ts.rest.head? ∧ (Tokens.nextF fuel ts).2.rest = ts.rest.tail
  | 0, _, h => absurd h (Nat.not_lt_zero _)
  | _ + 1, [], _ => ⟨rfl, rfl⟩
  | _ + 1, .ref t :: ts, _ => ⟨rfl, rfl⟩
  | fuel + 1, .more n :: ts, h => by
    have hi := items_spec n
    have ih := nextF_spec fuel (n.items ++ ts) (by simp [Item.weight] at h ⊢; omega)
    simpa [Tokens.nextF, Item.rest, hi.1] using ih

/-- `next` takes the first token. -/
theorem next_spec (ts : Tokens) : (Tokens.next ts).1 = ts.rest.head? ∧ (Tokens.next ts).2.rest = ts.rest.tail :=
  nextF_spec _ ts (Nat.lt_succ_self _)

theorem backF_spec : ∀ (fuel : Nat) (ts : Tokens), Tokens.weight ts < fuel →
    (Tokens.backF fuel ts).1 = (Tokens.rest ts.reverse).getLast? ∧
      Tokens.rest (Tokens.backF fuel ts).2.reverse = (Tokens.rest ts.reverse).dropLast
  | 0, _, h => absurd h (Nat.not_lt_zero _)
  | _ + 1, [], _ => ⟨rfl, rfl⟩
  | _ + 1, .ref t :: ts, _ => by simp [Tokens.backF, Item.rest]
  | fuel + 1, .more n :: ts, h => by
    have hi := items_spec n
    have ih := backF_spec fuel (n.items.reverse ++ ts) (by simp [Item.weight] at h ⊢; omega)
    simpa [Tokens.backF, Item.rest, hi.1] using ih

/-- `next_back` takes the last token. -/
theorem nextBack_spec (ts : Tokens) :
    (Tokens.nextBack ts).1 = ts.rest.getLast? ∧ (Tokens.nextBack ts).2.rest = ts.rest.dropLast := by
  have := backF_spec (Tokens.weight ts + 1) ts.reverse (by simp)
  simpa [Tokens.nextBack] using this

end FM
