import Verif.Spec.Builders
import Verif.Proofs.Ast.Tokens

/-!
# Properties of accessors and `with_*` methods: C48
-/

namespace FM.Props
open FM FM.Spec

variable {Q : TokRef → Prop} {a : Cat} {s s' : Setter} {g : Getter} {cs : List Node} {v w : Node}

theorem hasTys_length {Q : TokRef → Prop} : ∀ {as : List Ty} {cs : List Node}, HasTys Q as cs → cs.length = as.length
  | [], [], _ => rfl
  | _ :: _, _ :: _, h => congrArg (· + 1) (hasTys_length h.2)
  | [], _ :: _, h => h.elim
  | _ :: _, [], h => h.elim

/-- Every row of the table of `with_*` methods names a field, and its parameter has the type of the field. -/
theorem setters_typed : ∀ s ∈ setters, s.kind.sig[s.field]? = some s.param := by decide +kernel

/-- Every row of the table of accessors names a field. -/
theorem getters_typed : ∀ g ∈ getters, g.field < g.kind.sig.length := by decide +kernel

theorem names_related : ∀ s ∈ setters, ∀ g ∈ getters, g.kind = s.kind → (g.name ∈ accessorsOf s.kind s.name ↔ g.field = s.field) := by
  decide +kernel

/-- What the rows with a view other than the whole field are, by name. -/
theorem views_named : ∀ g ∈ getters,
    (g.view = .eachFirst ↔ g.kind = .block ∧ g.name = c!"stmts") ∧
    (g.view = .optFirst ↔ (g.kind = .block ∧ g.name = c!"last_stmt") ∨ (g.kind = .functionName ∧ g.name = c!"method_colon") ∨
      (g.kind = .genericDeclParam ∧ g.name = c!"equals")) ∧
    (g.view = .optSecond ↔ (g.kind = .functionName ∧ g.name = c!"method_name") ∨ (g.kind = .genericDeclParam ∧ g.name = c!"default_type")) := by
  decide +kernel

def isPairs : Option Ty → Bool
  | some (.vec (.tup _ _)) => true
  | _ => false
def isPair : Option Ty → Bool
  | some (.opt (.tup _ _)) => true
  | _ => false

/-- Every accessor that shows only a part reads a list of pairs or an optional pair. -/
theorem views_typed : ∀ g ∈ getters,
    (g.view = .eachFirst → ∃ x y, g.kind.sig[g.field]? = some (.vec (.tup x y))) ∧
    (g.view = .optFirst ∨ g.view = .optSecond → ∃ x y, g.kind.sig[g.field]? = some (.opt (.tup x y))) := by
  have h : ∀ g ∈ getters, (g.view = .eachFirst → isPairs g.kind.sig[g.field]? = true) ∧
      (g.view = .optFirst ∨ g.view = .optSecond → isPair g.kind.sig[g.field]? = true) := by
    decide +kernel
  intro g hg
  obtain ⟨h1, h2⟩ := h g hg
  constructor
  · intro e
    have := h1 e
    unfold isPairs at this
    split at this
    · exact ⟨_, _, by assumption⟩
    · cases this
  · intro e
    have := h2 e
    unfold isPair at this
    split at this
    · exact ⟨_, _, by assumption⟩
    · cases this

theorem pair_components {x y : Ty} {p : Node} (h : HasTy Q (.tup x y) p) : p.component 0 = firstOf p ∧ p.component 1 = secondOf p := by
  cases p with
  | tok t => simp [HasTy] at h
  | node k ps =>
    cases k <;> simp only [HasTy] at h
    match ps, h with
    | [p, q], _ => exact ⟨rfl, rfl⟩

theorem pairs_components {x y : Ty} : ∀ {ps : List Node}, AllTy Q (.tup x y) ps → ps.map (·.component 0) = ps.map firstOf
  | [], _ => rfl
  | p :: ps, h => by rw [List.map_cons, List.map_cons, (pair_components h.1).1, pairs_components h.2]

theorem component_set {n : Node} {k : Kind} (h : s.field < cs.length) : (s.set (.node k cs) n).component s.field = n := by
  simp [Setter.set, Node.component, Node.fields, h]

theorem component_set_ne {n : Node} {k : Kind} {i : Nat} (h : i ≠ s.field) : (s.set (.node k cs) n).component i = (Node.node k cs).component i := by
  simp [Setter.set, Node.component, Node.fields, h.symm]

/-- **C48.**  A `with_*` method sets what the accessors of that name show, and what any other accessor shows stays as it
was. -/
theorem with_then_get (hs : s ∈ setters) (hg : g ∈ getters) (hk : g.kind = s.kind) (hn : HasTy Q (.cat a) (.node s.kind cs))
    (hv : HasTy Q s.param v) :
    (g.name ∈ accessorsOf s.kind s.name → g.get (s.set (.node s.kind cs) v) = shown g.kind g.name v) ∧
    (g.name ∉ accessorsOf s.kind s.name → g.get (s.set (.node s.kind cs) v) = g.get (.node s.kind cs)) := by
  have hl : s.field < cs.length := by
    rw [hasTys_length hn.2]
    exact (List.getElem?_eq_some_iff.1 (setters_typed s hs)).1
  rw [names_related s hs g hg hk]
  constructor
  · intro e
    unfold Getter.get
    rw [e, component_set hl]
    have hp : g.kind.sig[g.field]? = some s.param := by rw [hk, e]; exact setters_typed s hs
    obtain ⟨n1, n2, n3⟩ := views_named g hg
    obtain ⟨t1, t2⟩ := views_typed g hg
    cases hvw : g.view with
    | whole =>
      have m1 := mt n1.2 (by simp [hvw])
      have m2 := mt n2.2 (by simp [hvw])
      have m3 := mt n3.2 (by simp [hvw])
      change v = shown _ _ v
      unfold shown
      split
      · rw [if_neg m1]
      · rw [if_neg m2, if_neg m3]
      · rfl
    | eachFirst =>
      obtain ⟨x, y, e1⟩ := t1 hvw
      rw [hp] at e1
      have q : s.param = _ := Option.some.inj e1
      have := n1.1 hvw
      rw [q] at hv
      cases v with
      | tok t => simp [HasTy] at hv
      | node k ps =>
        cases k <;> simp only [HasTy] at hv
        simp only [shown, if_pos this, Shows.of, Node.fields, pairs_components hv]
    | optFirst =>
      obtain ⟨x, y, e1⟩ := t2 (.inl hvw)
      rw [hp] at e1
      have q : s.param = _ := Option.some.inj e1
      have := n2.1 hvw
      rw [q] at hv
      cases v with
      | tok t => simp [HasTy] at hv
      | node k ps =>
        cases k <;> simp only [HasTy] at hv
        · subst hv; rfl
        · match ps, hv with
          | [p], hv => simp only [shown, if_pos this, Shows.of, (pair_components hv.1).1]
    | optSecond =>
      obtain ⟨x, y, e1⟩ := t2 (.inr hvw)
      rw [hp] at e1
      have q : s.param = _ := Option.some.inj e1
      have := n3.1 hvw
      have m2 := mt n2.2 (by simp [hvw])
      rw [q] at hv
      cases v with
      | tok t => simp [HasTy] at hv
      | node k ps =>
        cases k <;> simp only [HasTy] at hv
        · subst hv; rfl
        · match ps, hv with
          | [p], hv => simp only [shown, if_pos this, if_neg m2, Shows.of, (pair_components hv.1).2]
  · intro e
    unfold Getter.get
    rw [component_set_ne e]

/-- **C48, visible.**  Whatever a `with_*` method sets, there is an accessor that shows it. -/
theorem with_visible (hs : s ∈ setters) : accessorsOf s.kind s.name ≠ [] ∧
    ∀ x ∈ accessorsOf s.kind s.name, ∃ g ∈ getters, g.kind = s.kind ∧ g.name = x := by
  revert s
  decide +kernel

/-- **C48, types.**  The result is a node of the same type, if the value has the type of the parameter. -/
theorem with_typed (hs : s ∈ setters) (hn : HasTy Q (.cat a) (.node s.kind cs)) (hv : HasTy Q s.param v) :
    HasTy Q (.cat a) (s.set (.node s.kind cs) v) := by
  refine ⟨hn.1, ?_⟩
  have h1 := setters_typed s hs
  have h2 := hn.2
  clear hn
  generalize s.kind.sig = as at h1 h2
  generalize s.field = i at h1
  induction cs generalizing as i with
  | nil => exact h2
  | cons c cs ih =>
    cases as with
    | nil => exact h2.elim
    | cons x as =>
      cases i with
      | zero => cases h1; exact ⟨hv, h2.2⟩
      | succ i => exact ⟨h2.1, ih as h2.2 i h1⟩

/-- **C48, the last call wins.** -/
theorem with_with (n : Node) : s.set (s.set n v) w = s.set n w := by
  cases n with
  | tok t => rfl
  | node k cs => simp [Setter.set]

theorem fields_distinct : ∀ s ∈ setters, ∀ s' ∈ setters, s.kind = s'.kind → s.field = s'.field → s = s' := by decide +kernel

/-- **C48, the order of calls does not matter.** -/
theorem with_comm (hs : s ∈ setters) (hs' : s' ∈ setters) (hk : s.kind = s'.kind) (hne : s.name ≠ s'.name) (n : Node) :
    s.set (s'.set n w) v = s'.set (s.set n v) w := by
  have : s.field ≠ s'.field := fun e => hne (congrArg _ (fields_distinct s hs s' hs' hk e))
  cases n with
  | tok t => rfl
  | node k cs => simp [Setter.set, List.set_comm _ _ this]

/-! ## Printing -/

/-- The fields a step of a layout looks at. -/
def mentions (i : Nat) : Slot → Bool
  | .child j | .opening j | .closing j => i == j
  | .names n a b | .bareNames n a b => i == n || a == some i || i == b

theorem nth_set_ne {β : Type} {i j : Nat} (h : i ≠ j) (rs : List (R β)) (r : R β) : R.nth (rs.set i r) j = R.nth rs j := by
  induction rs generalizing i j with
  | nil => rfl
  | cons x rs ih =>
    cases i <;> cases j <;> simp only [List.set, R.nth] <;> first | exact absurd rfl h | exact ih (by omega)

theorem nth_set {β : Type} {i : Nat} (rs : List (R β)) (r : R β) (h : i < rs.length) : R.nth (rs.set i r) i = r := by
  induction rs generalizing i with
  | nil => cases h
  | cons x rs ih =>
    cases i with
    | zero => rfl
    | succ i => exact ih (Nat.lt_of_succ_lt_succ h)

theorem run_set {β : Type} {i : Nat} {l : Slot} (h : mentions i l = false) (rs : List (R β)) (r : R β) : l.run (rs.set i r) = l.run rs := by
  cases l with
  | child j => simp only [mentions, beq_eq_false_iff_ne] at h; simp only [Slot.run, nth_set_ne h]
  | opening j => simp only [mentions, beq_eq_false_iff_ne] at h; simp only [Slot.run, nth_set_ne h]
  | closing j => simp only [mentions, beq_eq_false_iff_ne] at h; simp only [Slot.run, nth_set_ne h]
  | names n a b =>
    simp only [mentions, Bool.or_eq_false_iff, beq_eq_false_iff_ne] at h
    have : R.elems (rs.set i r) a = R.elems rs a := by
      cases a with
      | none => rfl
      | some j => simp only [R.elems]; rw [nth_set_ne]; rintro rfl; exact h.1.2 rfl
    simp only [Slot.run, nth_set_ne h.1.1, nth_set_ne h.2, this]
  | bareNames n a b =>
    simp only [mentions, Bool.or_eq_false_iff, beq_eq_false_iff_ne] at h
    have : R.elems (rs.set i r) a = R.elems rs a := by
      cases a with
      | none => rfl
      | some j => simp only [R.elems]; rw [nth_set_ne]; rintro rfl; exact h.1.2 rfl
    simp only [Slot.run, nth_set_ne h.1.1, nth_set_ne h.2, this]

theorem folds_set {β : Type} (leaf : TokRef → List β) (alg : Kind → List (R β) → List β) (cs : List Node) (i : Nat) (v : Node) :
    Node.folds leaf alg (cs.set i v) = (Node.folds leaf alg cs).set i (Node.fold leaf alg v) := by
  induction cs generalizing i with
  | nil => rfl
  | cons c cs ih =>
    cases i with
    | zero => rfl
    | succ i => simp only [List.set, Node.folds, ih]

theorem folds_length {β : Type} (leaf : TokRef → List β) (alg : Kind → List (R β) → List β) (cs : List Node) :
    (Node.folds leaf alg cs).length = cs.length := by
  induction cs with
  | nil => rfl
  | cons c cs ih => simp only [Node.folds, List.length_cons, ih]

/-- The layout prints the field in one piece, and nothing else depends on it. -/
def inOnePiece (i : Nat) : Option (List Slot) → Bool
  | none => true
  | some slots => match slots.dropWhile (fun l => !mentions i l) with
    | .child j :: q => i == j && q.all (fun l => !mentions i l)
    | _ => false

theorem layouts_in_one_piece : ∀ s ∈ setters, ¬ Scattered s.kind s.param s.name → inOnePiece s.field s.kind.layout = true := by decide +kernel

theorem arrange_set {β : Type} {i : Nat} {layout : Option (List Slot)} (h : inOnePiece i layout = true) (rs : List (R β)) (hi : i < rs.length) :
    ∃ pre post, ∀ r, arrange layout (rs.set i r) = pre ++ r.all ++ post := by
  cases layout with
  | none =>
    refine ⟨concat (rs.take i), concat (rs.drop (i + 1)), fun r => ?_⟩
    simp only [arrange, concat, List.set_eq_take_append_cons_drop, if_pos hi, List.flatMap_append, List.flatMap_cons, List.append_assoc]
  | some slots =>
    unfold inOnePiece at h
    have hsp := List.takeWhile_append_dropWhile (p := fun l => !mentions i l) (l := slots)
    have htk : ∀ l ∈ slots.takeWhile (fun l => !mentions i l), mentions i l = false := by
      intro l hl
      have := List.all_eq_true.1 (List.all_takeWhile (l := slots) (p := fun l => !mentions i l)) l hl
      simpa using this
    simp only at h
    split at h
    · rename_i j q hd
      simp only [Bool.and_eq_true, beq_iff_eq, List.all_eq_true, Bool.not_eq_true'] at h
      obtain ⟨rfl, hq⟩ := h
      rw [hd] at hsp
      generalize slots.takeWhile (fun l => !mentions i l) = p at hsp htk
      subst hsp
      have fm : ∀ {l : List Slot} (r : R β), (∀ x ∈ l, mentions i x = false) → l.flatMap (Slot.run (rs.set i r)) = l.flatMap (Slot.run rs) := by
        intro l r hl
        induction l with
        | nil => rfl
        | cons x l ih =>
          rw [List.flatMap_cons, List.flatMap_cons, run_set (hl x (.head _)), ih fun y hy => hl y (.tail _ hy)]
      refine ⟨p.flatMap (Slot.run rs), q.flatMap (Slot.run rs), fun r => ?_⟩
      simp only [arrange, List.flatMap_append, List.flatMap_cons, fm r htk, fm r hq, Slot.run, nth_set rs r hi, List.append_assoc]
    · cases h

/-- **C48, printing.**  A `with_*` method replaces the text of the part and keeps the rest of the text of the node, except
for brackets and for lists of names and their annotations. -/
theorem with_prints (hs : s ∈ setters) (hn : HasTy Q (.cat a) (.node s.kind cs)) (hsc : ¬ Scattered s.kind s.param s.name) :
    ∃ pre post, (Node.node s.kind cs).display = pre ++ ((Node.node s.kind cs).component s.field).display ++ post ∧
      ∀ v, (s.set (.node s.kind cs) v).display = pre ++ v.display ++ post := by
  have hl : s.field < cs.length := by
    rw [hasTys_length hn.2]
    exact (List.getElem?_eq_some_iff.1 (setters_typed s hs)).1
  obtain ⟨pre, post, h⟩ := arrange_set (layouts_in_one_piece s hs hsc)
    (Node.folds (fun t => [t]) (fun k rs => arrange k.layout rs) cs) (i := s.field) (by rw [folds_length]; exact hl)
  have key : ∀ v, (s.set (.node s.kind cs) v).display = pre.flatMap TokRef.display ++ v.display ++ post.flatMap TokRef.display := by
    intro v
    have := h (Node.fold (fun t => [t]) (fun k rs => arrange k.layout rs) v)
    rw [← folds_set] at this
    simp only [Setter.set, Node.display, Node.flat, Node.fold, this, List.flatMap_append]
  refine ⟨_, _, ?_, key⟩
  rw [← key]
  congr 1
  simp [Setter.set, Node.component, Node.fields, hl]

/-! ## Nothing is hidden -/

/-- **C48, nothing is hidden.**  Two nodes of the same type for which all accessors show the same are equal. -/
theorem accessors_show_all {k : Kind} {ds : List Node} (hk : ∃ g ∈ getters, g.kind = k) (hn : HasTy Q (.cat a) (.node k cs)) (hm : HasTy Q (.cat a) (.node k ds))
    (h : ∀ g ∈ getters, g.kind = k → g.get (.node k cs) = g.get (.node k ds)) : Node.node k cs = Node.node k ds := by
  have cover : ∀ g ∈ getters, ∀ i < g.kind.sig.length, (∃ g' ∈ getters, g'.kind = g.kind ∧ g'.field = i ∧ g'.view = .whole) ∨
      (isPair g.kind.sig[i]? = true ∧ (∃ g' ∈ getters, g'.kind = g.kind ∧ g'.field = i ∧ g'.view = .optFirst) ∧
        ∃ g' ∈ getters, g'.kind = g.kind ∧ g'.field = i ∧ g'.view = .optSecond) := by decide +kernel
  obtain ⟨g0, hg0, rfl⟩ := hk
  have l1 := hasTys_length hn.2
  have l2 := hasTys_length hm.2
  congr 1
  have hty : ∀ {cs : List Node} {as : List Ty}, HasTys Q as cs → ∀ i (hi : i < cs.length) x, as[i]? = some x → HasTy Q x cs[i] := by
    intro cs
    induction cs with
    | nil => intro as h i hi; cases hi
    | cons c cs ih =>
      intro as h i hi x hx
      cases as with
      | nil => exact h.elim
      | cons a as =>
        cases i with
        | zero => cases hx; exact h.1
        | succ i => exact ih h.2 i (Nat.lt_of_succ_lt_succ hi) x hx
  apply List.ext_getElem (l1.trans l2.symm)
  intro i h1 h2
  have comp : ∀ {cs : List Node} (hi : i < cs.length), (Node.node g0.kind cs).component i = cs[i] := by
    intro cs hi
    simp [Node.component, Node.fields, hi]
  rcases cover g0 hg0 i (l1 ▸ h1) with ⟨g, hg, hk, hf, hv⟩ | ⟨hp, ⟨g, hg, hk, hf, hv⟩, g', hg', hk', hf', hv'⟩
  · have := h g hg hk
    unfold Getter.get at this
    rw [hf, hv, comp h1, comp h2] at this
    exact this
  · have e1 := h g hg hk
    have e2 := h g' hg' hk'
    unfold Getter.get at e1 e2
    rw [hf, hv, comp h1, comp h2] at e1
    rw [hf', hv', comp h1, comp h2] at e2
    unfold isPair at hp
    split at hp
    · rename_i x y hx
      have t1 := hty hn.2 i h1 _ hx
      have t2 := hty hm.2 i h2 _ hx
      revert e1 e2 t1 t2
      generalize cs[i] = u
      generalize ds[i] = v
      intro e1 e2 t1 t2
      have shape : ∀ u, HasTy Q (.opt (.tup x y)) u → u = .node .absent [] ∨ ∃ p q, u = .node .present [.node .tuple [p, q]] := by
        intro u hu
        cases u with
        | tok t => simp [HasTy] at hu
        | node k ps =>
          cases k <;> simp only [HasTy] at hu
          · exact .inl (by rw [hu])
          · match ps, hu with
            | [p], hu =>
              have := hu.1
              cases p with
              | tok t => simp [HasTy] at this
              | node k qs =>
                cases k <;> simp only [HasTy] at this
                match qs, this with
                | [p, q], _ => exact .inr ⟨p, q, rfl⟩
      rcases shape u t1 with rfl | ⟨p, q, rfl⟩ <;> rcases shape v t2 with rfl | ⟨p', q', rfl⟩
      · rfl
      · simp [Shows.of] at e1
      · simp [Shows.of] at e1
      · simp [Shows.of, Node.component, Node.fields] at e1 e2
        rw [e1, e2]
    · cases hp

/-! ## Instances -/

/-- `for i = 1, 2 do end`: a node of the type, a method of it and two accessors. -/
example : ∃ s ∈ setters, ∃ g ∈ getters, ∃ g' ∈ getters, g.kind = s.kind ∧ g'.kind = s.kind ∧ g.name ∈ accessorsOf s.kind s.name ∧
    g'.name ∉ accessorsOf s.kind s.name ∧ ¬ Scattered s.kind s.param s.name :=
  ⟨⟨.doBlock, c!"with_block", 1, .cat .block⟩, by decide +kernel, ⟨.doBlock, c!"block", 1, .whole⟩, by decide +kernel,
    ⟨.doBlock, c!"end_token", 2, .whole⟩, by decide +kernel, by decide +kernel⟩

/-- `do end` has the type of the node. -/
example : HasTy (fun _ => True) (.cat .doBlock) (.node .doBlock [.tok ⟨[], .new (.symbol .kDo), []⟩, .node .block [.node .vec [], .node .absent []],
    .tok ⟨[], .new (.symbol .kEnd), []⟩]) := by
  simp [HasTy, AllTy, Kind.cat, Kind.sig]

end FM.Props
