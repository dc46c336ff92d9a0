import Verif.Proofs.Ast.Basic
import Verif.Spec.Events

/-!
# Immutable visitors
-/

namespace FM
open Spec

/-! ## Layouts commute with maps of lists -/

section
variable {α β : Type} (h : List α → List β) (h0 : h [] = []) (ha : ∀ a b, h (a ++ b) = h a ++ h b)

def R.lift (r : R α) : R β := ⟨h r.all, r.parts.map h, r.parts2.map (List.map h)⟩

include h0 in
theorem R.nth_lift : ∀ (rs : List (R α)) (i : Nat), R.nth (rs.map (R.lift h)) i = R.lift h (R.nth rs i)
  | [], i => by simp [R.nth, R.lift, R.empty, h0]
  | r :: rs, 0 => rfl
  | r :: rs, i + 1 => R.nth_lift rs i

include h0 in
theorem part_lift : ∀ (ps : List (List α)) (i : Nat), part (ps.map h) i = h (part ps i)
  | [], i => by simp [part, h0]
  | r :: rs, 0 => rfl
  | r :: rs, i + 1 => part_lift rs i

include h0 ha in
theorem joinNames_lift (comma : Bool) : ∀ (ps : List (List (List α))) (as bs : List (List α)),
    joinNames comma (ps.map (List.map h)) (as.map h) (bs.map h) = h (joinNames comma ps as bs)
  | [], _, _ => by simp [joinNames, h0]
  | p :: ps, as, bs => by
    have ih := joinNames_lift comma ps as.tail bs.tail
    simp only [List.map_tail, List.map_cons, joinNames, ha, part_lift h h0] at ih ⊢
    rw [ih]
    cases comma <;> simp [part_lift h h0, h0]

include h0 ha in
theorem arrange_lift (l : Option (List Slot)) (rs : List (R α)) :
    arrange l (rs.map (R.lift h)) = h (arrange l rs) := by
  have hf : ∀ {γ : Type} (f : γ → List α) (l : List γ), l.flatMap (fun x => h (f x)) = h (l.flatMap f) := by
    intro γ f l
    induction l with
    | nil => simp [h0]
    | cons x l ih => simp [ih, ha]
  cases l with
  | none =>
    simp only [arrange, concat, List.flatMap_map]
    exact hf R.all rs
  | some l =>
    simp only [arrange]
    rw [← hf]
    congr 1
    funext s
    cases s with
    | child i => simp [Slot.run, R.nth_lift h h0, R.lift]
    | opening i => simp [Slot.run, R.nth_lift h h0, R.lift, part_lift h h0]
    | closing i => simp [Slot.run, R.nth_lift h h0, R.lift, part_lift h h0]
    | names n a b =>
      cases a <;> simp only [Slot.run, R.elems, R.nth_lift h h0, R.lift] <;>
        first | exact joinNames_lift h h0 ha _ _ [] _ | exact joinNames_lift h h0 ha _ _ _ _
    | bareNames n a b =>
      cases a <;> simp only [Slot.run, R.elems, R.nth_lift h h0, R.lift] <;>
        first | exact joinNames_lift h h0 ha _ _ [] _ | exact joinNames_lift h h0 ha _ _ _ _

theorem R.of_lift (g : Node → List α) (n : Node) : (R.of g n).lift h = R.of (fun m => h (g m)) n := by
  simp [R.of, R.lift, Function.comp_def]
end

theorem R.of_congr {β : Type} {g g' : Node → List β} {n : Node} (h : g n = g' n) (h1 : ∀ c ∈ n.children, g c = g' c)
    (h2 : ∀ c ∈ n.children, ∀ d ∈ c.children, g d = g' d) : R.of g n = R.of g' n := by
  simp only [R.of, h, R.mk.injEq, true_and]
  exact ⟨List.map_congr_left h1, List.map_congr_left fun c hc => List.map_congr_left (h2 c hc)⟩

/-! ## Tokens seen -/

theorem seen_append (a b : List Ev) : seen (a ++ b) = seen a ++ seen b := by simp [seen]

/-- The tokens of references that have a hook. -/
def hooked (ts : List TokRef) : List Token := (allTokens ts).filter hasHook

theorem hooked_append (a b : List TokRef) : hooked (a ++ b) = hooked a ++ hooked b := by simp [hooked, allTokens]

theorem seen_token (t : Token) : seen t.visit = [t].filter hasHook := by
  have : t.type.noHook = !hasHook t := by
    unfold TokenType.noHook hasHook; cases t.type <;> rfl
  rw [Token.visit, this]
  cases h : hasHook t <;> simp [seen, List.filterMap_cons, byKind, h]

theorem seen_tokens (ts : List Token) : seen (ts.flatMap Token.visit) = ts.filter hasHook := by
  induction ts with
  | nil => rfl
  | cons t ts ih => simp [seen_append, seen_token, ih, List.filter_cons]; split <;> simp

theorem seen_ref (t : TokRef) : seen t.visit = hooked [t] := by
  simp only [TokRef.visit, List.cons_append]
  rw [show ∀ l, seen (Ev.token t.token :: l) = seen l from fun l => rfl]
  simp only [seen_append, seen_tokens, seen_token]
  simp [hooked, allTokens, TokRef.flat, List.filter_cons]
  by_cases h : t.token.type = .eof <;> cases hasHook t.token <;> simp [h, seen, List.filterMap_cons, byKind]

theorem seen_hook (k : Kind) (rs : List (R Ev)) : seen (k.visit rs) = seen (arrange k.visitLayout rs) := by
  unfold Kind.visit
  split
  · rename_i a b h
    have ha : byKind a = none ∧ byKind b = none := by
      cases k <;> simp only [Kind.hook, Kind.cat, Option.map, Option.some.injEq, Prod.mk.injEq, reduceCtorEq] at h <;>
        (obtain ⟨rfl, rfl⟩ := h; exact ⟨rfl, rfl⟩)
    simp [seen, List.filterMap_cons, ha]
  · rfl

theorem seen_node (k : Kind) (cs : List Node) : seen (Node.node k cs).visit =
    arrange k.visitLayout (cs.map (R.of fun n => seen n.visit)) := by
  rw [Node.visit_node, seen_hook, ← arrange_lift seen rfl seen_append, List.map_map]
  congr 1
  exact List.map_congr_left fun c _ => (R.of_lift seen Node.visit c)

theorem joinNames_bare {β : Type} : ∀ (ps : List (List (List β))) (as bs : List (List β)),
    (∀ p ∈ ps, p.length ≤ 1) → joinNames false ps as bs = joinNames true ps as bs
  | [], _, _, _ => rfl
  | p :: ps, as, bs, h => by
    have : part p 1 = [] := by
      have := h p List.mem_cons_self
      rcases p with _ | ⟨a, _ | ⟨b, l⟩⟩
      · rfl
      · rfl
      · simp at this
    simp [joinNames, this, joinNames_bare ps as.tail bs.tail fun q hq => h q (List.mem_cons_of_mem _ hq)]

theorem arrange_visitable {β : Type} {k : Kind} {cs : List Node} (h : visitable k cs) (g : Node → List β)
    (hk : k = .funcBody ∨ k = .genericFor ∨ k = .localAssignment → cs.length = k.sig.length) :
    arrange k.visitLayout (cs.map (R.of g)) = arrange k.layout (cs.map (R.of g)) := by
  cases k <;> try rfl
  case funcBody =>
    have := hk (.inl rfl)
    simp only [Kind.sig, List.length_cons, List.length_nil] at this
    rcases cs with _ | ⟨a, _ | ⟨b, _ | ⟨c, _ | ⟨d, _ | ⟨e, _ | ⟨f, _ | ⟨i, _ | ⟨j, l⟩⟩⟩⟩⟩⟩⟩⟩ <;> simp at this
    have h : ∀ p ∈ c.children, p.children.length ≤ 1 := h
    simp [arrange, Kind.visitLayout, Kind.layout, Slot.run, R.nth, R.of, R.elems]
    rw [joinNames_bare]
    simpa using h
  case genericFor =>
    have := hk (.inr (.inl rfl))
    simp only [Kind.sig, List.length_cons, List.length_nil] at this
    rcases cs with _ | ⟨a, _ | ⟨c, _ | ⟨b, _ | ⟨d, _ | ⟨e, _ | ⟨f, _ | ⟨i, _ | ⟨j, _ | ⟨m, l⟩⟩⟩⟩⟩⟩⟩⟩⟩ <;> simp at this
    have h : ∀ p ∈ c.children, p.children.length ≤ 1 := h
    simp [arrange, Kind.visitLayout, Kind.layout, Slot.run, R.nth, R.of, R.elems]
    rw [joinNames_bare]
    simpa using h
  case localAssignment =>
    have := hk (.inr (.inr rfl))
    simp only [Kind.sig, List.length_cons, List.length_nil] at this
    rcases cs with _ | ⟨a, _ | ⟨b, _ | ⟨c, _ | ⟨d, _ | ⟨e, _ | ⟨f, _ | ⟨i, l⟩⟩⟩⟩⟩⟩⟩ <;> simp at this
    have h : ∀ p ∈ c.children, p.children.length ≤ 1 := h
    simp [arrange, Kind.visitLayout, Kind.layout, Slot.run, R.nth, R.of, R.elems]
    rw [joinNames_bare]
    simpa using h
  case typeInst => exact h.elim

theorem HasTys.length {R₀ : TokRef → Prop} {as : List Ty} {cs : List Node} (h : HasTys R₀ as cs) :
    cs.length = as.length := by
  induction as generalizing cs with
  | nil => simp_all
  | cons a as ih =>
    obtain ⟨c, cs, hc, hcs, rfl⟩ := hasTys_cons.1 h
    simp [ih hcs]

theorem seen_visit {R₀ : TokRef → Prop} (n : Node) : Typed R₀ n → Visitable n → seen n.visit = hooked n.flat := by
  induction n using Node.induct3 with
  | ht t => intros; exact seen_ref t
  | hn k cs ih ih2 ih3 =>
    intro hty hv
    obtain ⟨hv, hvs⟩ := (Node.every_node _ _ _).1 hv
    rw [seen_node, Node.flat_node]
    rw [show cs.map (R.of fun n => seen n.visit) = cs.map (R.of fun n => hooked n.flat) from
      List.map_congr_left fun c hc => R.of_congr (ih c hc (hty.cases.1 c hc) (hvs c hc))
        (fun d hd => ih2 c hc d hd ((hty.cases.1 c hc).children d hd) ((hvs c hc).children d hd))
        (fun d hd e he => ih3 c hc d hd e he (((hty.cases.1 c hc).children d hd).children e he)
          (((hvs c hc).children d hd).children e he))]
    rw [show cs.map (R.of fun n => hooked n.flat) = (cs.map (R.of Node.flat)).map (R.lift hooked) by
      rw [List.map_map]; exact List.map_congr_left fun c _ => (R.of_lift hooked Node.flat c).symm]
    rw [arrange_lift hooked rfl hooked_append, arrange_visitable hv]
    intro hk
    refine (hty.cases.2 ?_).length
    rcases hk with rfl | rfl | rfl <;> rfl

/-! ## Nesting -/

/-- Calls that leave the open nodes as they are. -/
def Neutral (es : List Ev) : Prop := ∀ open_ rest, nested open_ (es ++ rest) = nested open_ rest

theorem Neutral.nil : Neutral [] := fun _ _ => rfl
theorem Neutral.append {a b : List Ev} (ha : Neutral a) (hb : Neutral b) : Neutral (a ++ b) :=
  fun o r => by rw [List.append_assoc, ha, hb]
theorem Neutral.flatMap {γ : Type} {f : γ → List Ev} {l : List γ} (h : ∀ x ∈ l, Neutral (f x)) :
    Neutral (l.flatMap f) := by
  induction l with
  | nil => exact .nil
  | cons x l ih => exact (h x List.mem_cons_self).append (ih fun y hy => h y (List.mem_cons_of_mem _ hy))

theorem neutral_token (t : Token) : Neutral t.visit := by
  intro o r
  rw [Token.visit]
  split <;> simp [nested]

theorem neutral_ref (t : TokRef) : Neutral t.visit := by
  rw [TokRef.visit]
  have he : Neutral (if t.token.type = .eof then [Ev.eof t] else []) := by
    split
    · intro o r; simp [nested]
    · exact .nil
  refine .append (.append (.append (.append (a := [_]) ?_ he) ?_) ?_) ?_
  · intro o r; simp [nested]
  · exact .flatMap fun t _ => neutral_token t
  · exact neutral_token _
  · exact .flatMap fun t _ => neutral_token t

/-- All results of a child are neutral. -/
structure R.Neutral (r : R Ev) : Prop where
  all : FM.Neutral r.all
  parts : ∀ p ∈ r.parts, FM.Neutral p
  parts2 : ∀ ps ∈ r.parts2, ∀ p ∈ ps, FM.Neutral p

theorem R.neutral_nth {rs : List (R Ev)} (h : ∀ r ∈ rs, r.Neutral) (i : Nat) : (R.nth rs i).Neutral := by
  induction rs generalizing i with
  | nil => exact ⟨.nil, by simp [R.nth, R.empty], by simp [R.nth, R.empty]⟩
  | cons r rs ih =>
    cases i with
    | zero => exact h r List.mem_cons_self
    | succ i => exact ih (fun s hs => h s (List.mem_cons_of_mem _ hs)) i

theorem neutral_part {ps : List (List Ev)} (h : ∀ p ∈ ps, Neutral p) (i : Nat) : Neutral (part ps i) := by
  induction ps generalizing i with
  | nil => exact .nil
  | cons r rs ih =>
    cases i with
    | zero => exact h r List.mem_cons_self
    | succ i => exact ih (fun s hs => h s (List.mem_cons_of_mem _ hs)) i

theorem neutral_joinNames (comma : Bool) : ∀ (ps : List (List (List Ev))) (as bs : List (List Ev)),
    (∀ p ∈ ps, ∀ q ∈ p, Neutral q) → (∀ p ∈ as, Neutral p) → (∀ p ∈ bs, Neutral p) →
    Neutral (joinNames comma ps as bs)
  | [], _, _, _, _, _ => .nil
  | p :: ps, as, bs, hp, ha, hb => by
    have hp1 := hp p List.mem_cons_self
    refine .append (.append (.append (.append (neutral_part hp1 0) (neutral_part ha 0)) (neutral_part hb 0)) ?_) ?_
    · split
      · exact neutral_part hp1 1
      · exact .nil
    · exact neutral_joinNames comma ps as.tail bs.tail (fun q hq => hp q (List.mem_cons_of_mem _ hq))
        (fun q hq => ha q (List.mem_of_mem_tail hq)) (fun q hq => hb q (List.mem_of_mem_tail hq))

theorem neutral_arrange (l : Option (List Slot)) {rs : List (R Ev)} (h : ∀ r ∈ rs, r.Neutral) :
    Neutral (arrange l rs) := by
  have hn := R.neutral_nth h
  have he : ∀ a, ∀ p ∈ R.elems rs a, Neutral p := by
    intro a; cases a with
    | none => simp [R.elems]
    | some i => exact (hn i).parts
  cases l with
  | none => exact .flatMap fun r hr => (h r hr).all
  | some l =>
    refine .flatMap fun s _ => ?_
    cases s with
    | child i => exact (hn i).all
    | opening i => exact neutral_part (hn i).parts 0
    | closing i => exact neutral_part (hn i).parts 1
    | names n a b => exact neutral_joinNames _ _ _ _ (hn n).parts2 (he a) (hn b).parts
    | bareNames n a b => exact neutral_joinNames _ _ _ _ (hn n).parts2 (he a) (hn b).parts

theorem Kind.hook_pair (k : Kind) {a b : Ev} (h : k.hook = some (a, b)) :
    (a = .enterSpan ∧ b = .leaveSpan) ∨ ∃ c, a = .enter c ∧ b = .leave c := by
  unfold Kind.hook at h
  split at h
  · cases h
  · cases h
  · cases h; exact .inl ⟨rfl, rfl⟩
  · cases hc : k.cat with
    | none => rw [hc] at h; cases h
    | some c => rw [hc] at h; cases h; exact .inr ⟨c, rfl, rfl⟩

theorem neutral_visit (n : Node) : Neutral n.visit := by
  induction n using Node.induct3 with
  | ht t => exact neutral_ref t
  | hn k cs ih ih2 ih3 =>
    rw [Node.visit_node]
    have hrs : ∀ r ∈ cs.map (R.of Node.visit), r.Neutral := by
      intro r hr
      obtain ⟨c, hc, rfl⟩ := List.mem_map.1 hr
      refine ⟨ih c hc, ?_, ?_⟩
      · intro p hp
        obtain ⟨d, hd, rfl⟩ := List.mem_map.1 hp
        exact ih2 c hc d hd
      · intro ps hps p hp
        obtain ⟨d, hd, rfl⟩ := List.mem_map.1 hps
        obtain ⟨e, he, rfl⟩ := List.mem_map.1 hp
        exact ih3 c hc d hd e he
    have ha := neutral_arrange k.visitLayout hrs
    unfold Kind.visit
    split
    · rename_i a b h
      intro o r
      simp only [List.cons_append, List.append_assoc, List.nil_append]
      have hab : (a = .enterSpan ∧ b = .leaveSpan) ∨ ∃ c, a = .enter c ∧ b = .leave c := by
        exact k.hook_pair h
      rcases hab with ⟨rfl, rfl⟩ | ⟨c, rfl, rfl⟩
      · rw [nested, ha]; simp [nested]
      · rw [nested, ha]; simp [nested]
    · exact ha

end FM
