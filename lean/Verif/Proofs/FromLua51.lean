import Verif.Spec.FromLua51
import Verif.Proofs.Adjacent
import Verif.Proofs.Parser.Ordinary

/-!
# The trees of programs of Lua 5.1 in Luau
-/

namespace FM.Spec
open FM FM.Parser

variable {c c' : Cfg}

/-! ## The tree with all types -/

theorem luauTrees_eq : ∀ cs : List Node, luauTree.luauTrees cs = cs.map luauTree
  | [] => rfl
  | c :: cs => by rw [luauTree.luauTrees, luauTrees_eq cs]; rfl

theorem luauTree_tok (t : TokRef) : luauTree (.tok t) = .tok t := by rw [luauTree]

theorem luauTree_node (k : Kind) (cs : List Node) : luauTree (.node k cs) = .node k (bodyParts k (cs.map luauTree)) := by
  rw [luauTree, luauTrees_eq]

theorem bodyParts_other {k : Kind} (h : k ≠ .funcBody) (cs : List Node) : bodyParts k cs = cs := by
  unfold bodyParts; split
  · exact absurd rfl h
  · rfl

theorem luauTree_other {k : Kind} (h : k ≠ .funcBody) (cs : List Node) : luauTree (.node k cs) = .node k (cs.map luauTree) := by
  rw [luauTree_node, bodyParts_other h]

@[simp] theorem kindOf_luau (n : Node) : kindOf (luauTree n) = kindOf n := by
  cases n with
  | tok t => rw [luauTree_tok]
  | node k cs => rw [luauTree_node]; rfl

theorem kindOf_allTypes (ps n : Node) : kindOf (allTypes ps n) = kindOf n := by
  cases n with
  | tok t => rfl
  | node k cs => rw [allTypes]; split <;> rfl

theorem kinds_bodyParts (k : Kind) (cs : List Node) : (bodyParts k cs).map kindOf = cs.map kindOf := by
  unfold bodyParts
  split
  · simp [kindOf_allTypes]
  · rfl

theorem kinds_luau (n : Node) : (luauTree n).children.map kindOf = n.children.map kindOf := by
  cases n with
  | tok t => rw [luauTree_tok]
  | node k cs =>
    rw [luauTree_node]
    show (bodyParts k (cs.map luauTree)).map kindOf = cs.map kindOf
    rw [kinds_bodyParts, List.map_map]
    exact List.map_congr_left fun x _ => kindOf_luau x

theorem length_luau (n : Node) : (luauTree n).children.length = n.children.length := by
  have := congrArg List.length (kinds_luau n)
  simpa using this

theorem last_luau (n : Node) : (luauTree n).children.getLast?.bind kindOf = n.children.getLast?.bind kindOf := by
  have h : ∀ l : List Node, l.getLast?.bind kindOf = (l.map kindOf).getLast?.join := by
    intro l; rw [List.getLast?_map]; cases l.getLast? <;> rfl
  rw [h, h, kinds_luau]

theorem nil_luau (n : Node) : (luauTree n).children = [] ↔ n.children = [] := by
  rw [← List.length_eq_zero_iff, length_luau, List.length_eq_zero_iff]

@[simp] theorem namedParam_luau (n : Node) : namedParam (luauTree n) = namedParam n := by
  have h : ∀ l : List Node, l.head?.bind kindOf = (l.map kindOf).head?.join := by
    intro l; cases l <;> rfl
  unfold namedParam
  rw [h, h, kinds_luau]

/-- Only `luauTree` makes a node with these children. -/
theorem luau_inv {n : Node} {k : Kind} {ds : List Node} (h : luauTree n = .node k ds) (hk : k ≠ .funcBody) :
    ∃ cs, n = .node k cs ∧ ds = cs.map luauTree := by
  cases n with
  | tok t => rw [luauTree_tok] at h; cases h
  | node k' cs =>
    rw [luauTree_node] at h
    cases h
    exact ⟨cs, rfl, bodyParts_other hk _⟩

/-! ## Tokens -/

/-- The tree and the one with all types print the same, at the first levels too. -/
structure Like (n m : Node) : Prop where
  flat : m.flat = n.flat
  parts : m.children.map Node.flat = n.children.map Node.flat
  parts2 : kindOf n ≠ some .funcBody → m.children.map (fun x => x.children.map Node.flat) = n.children.map fun x => x.children.map Node.flat

theorem Like.tok (t : TokRef) : Like (.tok t) (luauTree (.tok t)) := by rw [luauTree_tok]; exact ⟨rfl, rfl, fun _ => rfl⟩

theorem Like.ofEq {n : Node} (h : Like n (luauTree n)) (hk : kindOf n ≠ some .funcBody) : R.of Node.flat (luauTree n) = R.of Node.flat n := by
  unfold R.of
  rw [h.flat, h.parts, h.parts2 hk]

theorem Like.node {k : Kind} {cs : List Node} (hk : k ≠ .funcBody) (h : ∀ x ∈ cs, Like x (luauTree x))
    (hl : k.layout = none ∨ ∀ x ∈ cs, kindOf x ≠ some .funcBody) : Like (.node k cs) (luauTree (.node k cs)) := by
  rw [luauTree_other hk]
  refine ⟨?_, ?_, fun _ => ?_⟩
  · rcases hl with hl | hl
    · rw [Node.flat_plain hl, Node.flat_plain hl, List.flatMap_map]
      rw [List.flatMap_def, List.flatMap_def]
      congr 1
      exact List.map_congr_left fun x hx => (h x hx).flat
    · rw [Node.flat_node, Node.flat_node, List.map_map]
      congr 1
      exact List.map_congr_left fun x hx => (h x hx).ofEq (hl x hx)
  · show (cs.map luauTree).map Node.flat = cs.map Node.flat
    rw [List.map_map]
    exact List.map_congr_left fun x hx => (h x hx).flat
  · show (cs.map luauTree).map _ = cs.map _
    rw [List.map_map]
    exact List.map_congr_left fun x hx => (h x hx).parts

theorem joinNames_absent {β : Type} (b : Bool) : ∀ (ps : List (List (List β))) (as bs : List (List β)),
    joinNames b ps as (bs ++ [[]]) = joinNames b ps as bs
  | [], _, _ => by simp [joinNames]
  | p :: ps, as, [] => by
    simp only [joinNames, List.nil_append, List.tail_cons, List.tail_nil]
    rfl
  | p :: ps, as, b' :: bs => by
    simp only [joinNames, List.cons_append, List.tail_cons, joinNames_absent b ps as.tail bs]
    rfl

theorem Like.body {g s ps ts r b e : Node} (hg : Like g (luauTree g)) (hs : Like s (luauTree s)) (hp : Like ps (luauTree ps))
    (ht : Like ts (luauTree ts)) (hr : Like r (luauTree r)) (hb : Like b (luauTree b)) (he : Like e (luauTree e))
    (hkp : kindOf ps ≠ some .funcBody) (hts : kindOf ts = some .vec) :
    Like (.node .funcBody [g, s, ps, ts, r, b, e]) (luauTree (.node .funcBody [g, s, ps, ts, r, b, e])) := by
  have h1 : (allTypes (luauTree ps) (luauTree ts)).flat = ts.flat ∧
      ((allTypes (luauTree ps) (luauTree ts)).children.map Node.flat = ts.children.map Node.flat ∨
        (allTypes (luauTree ps) (luauTree ts)).children.map Node.flat = ts.children.map Node.flat ++ [[]]) := by
    cases ts with
    | tok t => cases hts
    | node k cs =>
      cases hts
      rw [luauTree_other (by decide)] at ht ⊢
      rw [allTypes]
      split
      · exact ⟨ht.flat, .inl ht.parts⟩
      · have h3 := ht.flat
        have h4 := ht.parts
        simp only [Node.children] at h4
        rw [Node.flat_plain rfl, Node.flat_plain rfl] at h3 ⊢
        refine ⟨?_, .inr ?_⟩
        · rw [List.flatMap_append, h3]; simp
        · show (cs.map luauTree ++ [_]).map Node.flat = cs.map Node.flat ++ [[]]
          rw [List.map_append, h4]; simp
  have hk : luauTree (.node .funcBody [g, s, ps, ts, r, b, e]) = .node .funcBody [luauTree g, luauTree s, luauTree ps,
      allTypes (luauTree ps) (luauTree ts), luauTree r, luauTree b, luauTree e] := by
    rw [luauTree_node]; rfl
  rw [hk]
  refine ⟨?_, ?_, fun h => absurd rfl h⟩
  · rw [Node.flat_node, Node.flat_node]
    have hpp := hp.parts2 hkp
    simp only [arrange, Kind.layout, Slot.run, R.nth, R.of, R.elems, List.map_cons, List.map_nil, List.flatMap_cons, List.flatMap_nil,
      hg.flat, hs.parts, hr.flat, hb.flat, he.flat, hpp]
    congr 3
    rcases h1.2 with h | h
    · rw [h]
    · rw [h, joinNames_absent]
  · simp only [Node.children, List.map_cons, List.map_nil, hg.flat, hs.flat, hp.flat, h1.1, hr.flat, hb.flat, he.flat]

/-! ## Parts of productions -/

/-- A part of a production without types. -/
def Part.plain : Part → Bool
  | .cat a => !farCats.contains a
  | .opt p | .many p | .some p | .list p _ _ => p.plain
  | .pair p q => p.plain && q.plain
  | .type => false
  | .tok _ | .span _ _ => true

theorem plain_production (f : Features) (k : Kind) (a : Cat) (h : k.cat = some a) (ha : farCats.contains a = false)
    (hk : far false k = false) : (production f k).all Part.plain = true := by
  obtain ⟨f1, f2, f3, f4, f5, f6⟩ := f
  cases k with
  | binOp o => cases h; cases o <;> rfl
  | unOp o => cases h; cases o <;> rfl
  | compoundOp o => cases h; cases ha
  | _ => first | (cases h; done) | (cases h; first | (cases ha; done) | (cases hk; done) | (cases f6 <;> rfl))

theorem conforms_body {p : Part} {n : Node} (h : Conforms c p n) (hp : p ≠ .cat .funcBody) : kindOf n ≠ some .funcBody := by
  cases n with
  | tok t => simp [kindOf]
  | node k cs =>
    intro e
    simp only [kindOf, Option.some.injEq] at e
    subst e
    cases p <;> simp only [Conforms] at h
    · cases h.1; exact hp rfl
    · cases h.1

theorem layout_body (f : Features) (k : Kind) (h : k.layout ≠ none) : Part.cat .funcBody ∉ production f k := by
  obtain ⟨f1, f2, f3, f4, f5, f6⟩ := f
  cases k <;> first | (exact absurd rfl h) | (cases f6 <;> simp [production] <;> done)

theorem all_body {ps : List Part} : ∀ {cs : List Node}, ConformsAll c ps cs → Part.cat .funcBody ∉ ps → ∀ x ∈ cs, kindOf x ≠ some .funcBody := by
  induction ps with
  | nil => intro cs h _ x hx; obtain rfl := conformsAll_nil h; cases hx
  | cons p ps ih =>
    intro cs h hp x hx
    obtain ⟨y, ys, rfl, hy, h⟩ := conformsAll_cons h
    rcases List.mem_cons.1 hx with rfl | hx
    · exact conforms_body hy fun e => hp (by simp [e])
    · exact ih h (fun h' => hp (by simp [h'])) x hx

/-! ## The functions of the grammar -/

theorem map_eq_two {cs : List Node} {f : Node → Node} {x y : Node} (h : [x, y] = cs.map f) : ∃ a b, cs = [a, b] ∧ x = f a ∧ y = f b := by
  match cs, h with
  | [a, b], h => cases h; exact ⟨a, b, rfl, rfl, rfl⟩

theorem map_eq_one {cs : List Node} {f : Node → Node} {x : Node} (h : [x] = cs.map f) : ∃ a, cs = [a] ∧ x = f a := by
  match cs, h with
  | [a], h => cases h; exact ⟨a, rfl, rfl⟩

theorem map_eq_three {cs : List Node} {f : Node → Node} {x y z : Node} (h : [x, y, z] = cs.map f) :
    ∃ a b c, cs = [a, b, c] ∧ x = f a ∧ y = f b ∧ z = f c := by
  match cs, h with
  | [a, b, c], h => cases h; exact ⟨a, b, c, rfl, rfl, rfl, rfl⟩

theorem callable_luau (n : Node) : callable (luauTree n) = callable n := by
  fun_induction callable n with
  | case1 a b r ih => rw [luauTree_other (by decide)]; exact ih
  | case2 a e ih => rw [luauTree_other (by decide)]; exact ih
  | case3 a b d e f g x ih =>
    rw [luauTree_other (by decide), List.map_cons, luauTree_other (by decide)]; exact ih
  | case4 cs => rw [luauTree_other (by decide)]; rfl
  | case5 cs => rw [luauTree_other (by decide)]; rfl
  | case6 cs => rw [luauTree_other (by decide)]; rfl
  | case7 n h1 h2 h3 h4 h5 h6 =>
    unfold callable
    split
    · rename_i e
      obtain ⟨cs, rfl, hd⟩ := luau_inv e (by decide)
      obtain ⟨x, y, z, rfl, -⟩ := map_eq_three hd
      exact absurd rfl (h1 _ _ _)
    · rename_i e
      obtain ⟨cs, rfl, hd⟩ := luau_inv e (by decide)
      obtain ⟨x, y, rfl, -⟩ := map_eq_two hd
      exact absurd rfl (h2 _ _)
    · rename_i e
      obtain ⟨cs, rfl, hd⟩ := luau_inv e (by decide)
      obtain ⟨x, rfl, hx⟩ := map_eq_one hd
      obtain ⟨ds, rfl, hd⟩ := luau_inv hx.symm (by decide)
      match ds, hd with
      | [_, _, _, _, _, _, _], _ => exact absurd rfl (h3 _ _ _ _ _ _ _)
    · rename_i e
      obtain ⟨cs, rfl, -⟩ := luau_inv e (by decide)
      exact absurd rfl (h4 _)
    · rename_i e
      obtain ⟨cs, rfl, -⟩ := luau_inv e (by decide)
      exact absurd rfl (h5 _)
    · rename_i e
      obtain ⟨cs, rfl, -⟩ := luau_inv e (by decide)
      exact absurd rfl (h6 _)
    · rfl

theorem children_luau {n : Node} (h : kindOf n ≠ some .funcBody) : (luauTree n).children = n.children.map luauTree := by
  cases n with
  | tok t => rw [luauTree_tok]; rfl
  | node k cs => rw [luauTree_other (by simpa [kindOf] using h)]; rfl

theorem kind_of_luau {n : Node} {k : Kind} {ds : List Node} (h : luauTree n = .node k ds) : kindOf n = some k := by
  rw [← kindOf_luau, h]; rfl

theorem lastCallable_luau {n : Node} (h : kindOf n = some .punct) (hp : ∀ x ∈ n.children, kindOf x ≠ some .funcBody) :
    lastCallable (luauTree n) = lastCallable n := by
  unfold lastCallable
  rw [children_luau (by rw [h]; decide), List.getLast?_map]
  cases hl : n.children.getLast? with
  | none => rfl
  | some x =>
    simp only [Option.map_some, children_luau (hp x (List.mem_of_getLast? hl)), List.head?_map, Option.any_map]
    cases x.children.head? with
    | none => rfl
    | some y => exact callable_luau y

theorem pairs_body {p : Part} {seps : List Symbol} : ∀ {ds : List Node}, ConformsPairs c p seps ds → ∀ x ∈ ds, kindOf x ≠ some .funcBody
  | [], _, x, hx => by cases hx
  | .tok t :: ds, h, x, hx => by simp [ConformsPairs] at h
  | .node k cs :: ds, h, x, hx => by
    unfold ConformsPairs at h
    split at h
    · rename_i e; cases e
    · rename_i e; cases e
      rcases List.mem_cons.1 hx with rfl | hx
      · simp [kindOf]
      · exact pairs_body h.2 x hx
    · rename_i e; cases e
      rcases List.mem_cons.1 hx with rfl | hx
      · simp [kindOf]
      · exact pairs_body h.2 x hx
    · exact h.elim

theorem conforms_cat {a : Cat} {n : Node} (h : Conforms c (.cat a) n) : ∃ k cs, n = .node k cs ∧ k.cat = some a ∧ available c k = true ∧
    ConformsAll c (production c.feat k) cs ∧ Connected c k cs := by
  cases n with
  | tok t => simp [Conforms] at h
  | node k cs => rw [Conforms] at h; exact ⟨k, cs, rfl, h⟩

theorem lastCallable_list {p : Part} {seps : List Symbol} {style : Style} {n : Node} (h : Conforms c (.list p seps style) n) :
    lastCallable (luauTree n) = lastCallable n := by
  obtain ⟨ds, rfl, h, -⟩ := conforms_list h
  exact lastCallable_luau rfl (pairs_body h)

theorem endsCallable_luau (hc : Before c) {n : Node} (h : Conforms c (.cat .stmt) n) : endsCallable (luauTree n) = endsCallable n := by
  obtain ⟨k, cs, rfl, h1, h2, h3, -⟩ := conforms_cat h
  have hf := hc.far h2
  clear h h2
  cases k with
  | stmtAssignment =>
    obtain ⟨x, _, rfl, hx, h3⟩ := conformsAll_cons h3
    obtain rfl := conformsAll_nil h3
    obtain ⟨k, cs, rfl, h1, -, h3, -⟩ := conforms_cat hx
    cases k <;> cases h1
    obtain ⟨x, _, rfl, -, h3⟩ := conformsAll_cons h3
    obtain ⟨y, _, rfl, -, h3⟩ := conformsAll_cons h3
    obtain ⟨z, _, rfl, hz, h3⟩ := conformsAll_cons h3
    obtain rfl := conformsAll_nil h3
    rw [luauTree_other (by decide), List.map_cons, luauTree_other (by decide)]
    exact lastCallable_list hz
  | stmtLocalAssignment =>
    obtain ⟨x, _, rfl, hx, h3⟩ := conformsAll_cons h3
    obtain rfl := conformsAll_nil h3
    obtain ⟨k, cs, rfl, h1, -, h3, -⟩ := conforms_cat hx
    cases k <;> cases h1
    obtain ⟨x, _, rfl, -, h3⟩ := conformsAll_cons h3
    obtain ⟨y, _, rfl, -, h3⟩ := conformsAll_cons h3
    obtain ⟨y, _, rfl, -, h3⟩ := conformsAll_cons h3
    obtain ⟨y, _, rfl, -, h3⟩ := conformsAll_cons h3
    obtain ⟨y, _, rfl, -, h3⟩ := conformsAll_cons h3
    obtain ⟨z, _, rfl, hz, h3⟩ := conformsAll_cons h3
    obtain rfl := conformsAll_nil h3
    rw [luauTree_other (by decide), List.map_cons, luauTree_other (by decide)]
    exact lastCallable_list hz
  | stmtRepeat =>
    obtain ⟨x, _, rfl, hx, h3⟩ := conformsAll_cons h3
    obtain rfl := conformsAll_nil h3
    obtain ⟨k, cs, rfl, h1, -, h3, -⟩ := conforms_cat hx
    cases k <;> cases h1
    obtain ⟨x, _, rfl, -, h3⟩ := conformsAll_cons h3
    obtain ⟨y, _, rfl, -, h3⟩ := conformsAll_cons h3
    obtain ⟨y, _, rfl, -, h3⟩ := conformsAll_cons h3
    obtain ⟨z, _, rfl, hz, h3⟩ := conformsAll_cons h3
    obtain rfl := conformsAll_nil h3
    rw [luauTree_other (by decide), List.map_cons, luauTree_other (by decide)]
    exact callable_luau z
  | stmtCompound => cases hf
  | _ => first | (cases h1; done) | (rw [luauTree_other (by decide)]; rfl)

theorem opText_luau {n : Node} (h : Conforms c (.cat .binOp) n) : opText (luauTree n) = opText n := by
  obtain ⟨k, cs, rfl, h1, -, h3, -⟩ := conforms_cat h
  cases k <;> cases h1
  obtain ⟨x, _, rfl, hx, h3⟩ := conformsAll_cons h3
  obtain rfl := conformsAll_nil h3
  obtain ⟨t, s, rfl, -⟩ := conforms_sym hx
  rw [luauTree_other (by simp), List.map_cons, List.map_nil, luauTree_tok]

theorem edges_luau (hc : Before c) (n : Node) : Conforms c (.cat .expr) n → rightEdge (luauTree n) = rightEdge n ∧ leftEdge (luauTree n) = leftEdge n := by
  induction n using Node.induct with
  | ht t => intro _; rw [luauTree_tok]; exact ⟨rfl, rfl⟩
  | hn k cs ih =>
    intro h
    rw [Conforms] at h
    obtain ⟨h1, h2, h3, -⟩ := h
    have hf := hc.far h2
    clear h2
    cases k with
    | exprBinary =>
      obtain ⟨x, _, rfl, hx, h3⟩ := conformsAll_cons h3
      obtain ⟨y, _, rfl, hy, h3⟩ := conformsAll_cons h3
      obtain ⟨z, _, rfl, hz, h3⟩ := conformsAll_cons h3
      obtain rfl := conformsAll_nil h3
      rw [luauTree_other (by decide)]
      simp only [List.map_cons, List.map_nil, rightEdge, leftEdge, opText_luau hy, (ih x (by simp) hx).2, (ih z (by simp) hz).1, and_self]
    | exprUnary =>
      obtain ⟨y, _, rfl, hy, h3⟩ := conformsAll_cons h3
      obtain ⟨z, _, rfl, hz, h3⟩ := conformsAll_cons h3
      obtain rfl := conformsAll_nil h3
      rw [luauTree_other (by decide)]
      simp only [List.map_cons, List.map_nil, rightEdge, leftEdge, (ih z (by simp) hz).1, and_self]
    | exprIf => cases hf
    | _ => first | (cases h1; done) | (rw [luauTree_other (by decide)]; exact ⟨rfl, rfl⟩)

theorem parenthesised_luau {n : Node} (h : Conforms c (.cat .var) n) : parenthesised (luauTree n) = parenthesised n := by
  obtain ⟨k, cs, rfl, h1, -, h3, -⟩ := conforms_cat h
  cases k <;> cases h1
  · obtain ⟨x, _, rfl, hx, h3⟩ := conformsAll_cons h3
    obtain rfl := conformsAll_nil h3
    obtain ⟨k, cs, rfl, h1, -, h3, -⟩ := conforms_cat hx
    cases k <;> cases h1
    obtain ⟨x, _, rfl, -, h3⟩ := conformsAll_cons h3
    obtain ⟨y, _, rfl, -, h3⟩ := conformsAll_cons h3
    obtain rfl := conformsAll_nil h3
    rw [luauTree_other (by decide), List.map_cons, luauTree_other (by decide)]
    show (luauTree y).children.isEmpty = y.children.isEmpty
    rw [Bool.eq_iff_iff, List.isEmpty_iff, List.isEmpty_iff, nil_luau]
  · rw [luauTree_other (by decide)]; rfl

/-! ## Absent annotations -/

theorem opt_dead (hc : Before c) {a : Cat} (ha : deadCats.contains a = true) {n : Node} (h : Conforms c (.opt (.cat a)) n) : n = .node .absent [] := by
  cases n with
  | tok t => simp [Conforms] at h
  | node k cs =>
    cases k <;> simp only [Conforms] at h
    · rw [h]
    · obtain ⟨x, _, rfl, hx, h⟩ := conformsAll_cons h
      exact (hc.dead ha hx).elim

theorem each_dead (hc : Before c) {a : Cat} (ha : deadCats.contains a = true) : ∀ {ts : List Node}, ConformsEach c (.opt (.cat a)) ts →
    ∀ x ∈ ts, x = .node .absent []
  | [], _, x, hx => by cases hx
  | t :: ts, h, x, hx => by
    rw [ConformsEach] at h
    rcases List.mem_cons.1 hx with rfl | hx
    · exact opt_dead hc ha h.1
    · exact each_dead hc ha h.2 x hx

@[simp] theorem absent_luau : luauTree (.node .absent []) = .node .absent [] := by rw [luauTree_other (by decide)]; rfl

theorem lastType_none : ∀ n : Node, n.Every (fun k cs => k ≠ .exprAssertion ∧ Chosen k cs) → lastType n = none := by
  intro n
  fun_induction lastType n with
  | case1 a b t => intro h; exact absurd rfl (Clean.every_node.1 h).1.1
  | case2 a b r ih => intro h; exact ih ((Clean.every_node.1 h).2 r (by simp))
  | case3 a e ih => intro h; exact ih ((Clean.every_node.1 h).2 e (by simp))
  | case4 a b d e f g x ih => intro h; exact ih ((Clean.every_node.1 ((Clean.every_node.1 h).2 _ (List.mem_singleton.2 rfl))).2 x (by simp))
  | case5 => intro _; rfl

theorem unasserteds_of : ∀ {l : List Node}, (∀ x ∈ l, startsTok (tokenIs .twoColons) x = false) → unasserteds l
  | [], _ => trivial
  | [_], _ => trivial
  | a :: b :: l, h => ⟨by unfold unasserted; split <;> first | trivial | exact fun _ _ => h b (by simp), unasserteds_of fun x hx => h x (by simp [List.mem_cons.1 hx])⟩

/-! ## The whole tree -/

theorem AddsLuau.more (h : AddsLuau c c') {v : Ver} (hv : c.has v = true) : c'.has v = true := by rw [h.lua51] at hv; cases hv

theorem AddsLuau.any (h : AddsLuau c c') {vs : List Ver} (hv : c.hasAny vs = true) : c'.hasAny vs = true := by
  simp only [Cfg.hasAny, Bool.or_eq_true, List.any_eq_true] at hv ⊢
  exact hv.imp id fun ⟨v, h1, h2⟩ => ⟨v, h1, h.more h2⟩

theorem AddsLuau.before (h : AddsLuau c c') : Before c := ⟨h.lua51 _, h.lua51 _, fun h' => by rw [h.lua51] at h'; cases h'⟩

theorem AddsLuau.available (h : AddsLuau c c') {k : Kind} (hk : available c k = true) : available c' k = true := by
  unfold Spec.available at hk ⊢
  split at hk
  all_goals first
    | (simp only [Bool.or_eq_true] at hk ⊢; exact hk.imp h.more h.more)
    | exact h.more hk
    | exact h.any hk
    | (simp only [h.feat]; exact hk)
    | exact hk
    | skip
  simp only [Bool.or_eq_true] at hk ⊢
  exact hk.imp id h.more

theorem AddsLuau.far (h : AddsLuau c c') {k : Kind} (hk : Spec.available c k = true) : Spec.far false k = false := by
  have := h.before.far hk
  rwa [h.lua51] at this

theorem all_shape {ps : List Part} {cs : List Node} (h : ConformsAll c ps cs) : cs.length = ps.length := by
  induction ps generalizing cs with
  | nil => obtain rfl := conformsAll_nil h; rfl
  | cons p ps ih => obtain ⟨x, xs, rfl, -, h⟩ := conformsAll_cons h; simp [ih h]

theorem distincts_luau {ds : List Node} (hs : ∀ x ∈ ds, ∀ s e, x = .node .tuple [s, e] → endsCallable (luauTree s) = endsCallable s)
    (hf : ∀ x ∈ ds, (luauTree x).flat = x.flat) (h : distincts ds) : distincts (ds.map luauTree) := by
  induction ds with
  | nil => trivial
  | cons a ds ih =>
    have ih := ih (fun x hx => hs x (by simp [hx])) (fun x hx => hf x (by simp [hx]))
    cases ds with
    | nil => trivial
    | cons b ds =>
      refine ⟨?_, ih h.2⟩
      have h1 := h.1
      unfold distinct
      split
      · rename_i s e next he
        obtain ⟨cs, rfl, hd⟩ := luau_inv he (by decide)
        obtain ⟨x, y, rfl, rfl, rfl⟩ := map_eq_two hd
        rw [kindOf_luau, hs _ (by simp) x y rfl]
        unfold startsParen
        rw [hf b (by simp)]
        exact h1
      · trivial

theorem filter_last {α : Type} {f : α → Bool} : ∀ {l : List α}, (∀ x ∈ l.dropLast, f x = true) → l.all f = false → (l.filter f).length + 1 = l.length
  | [], _, h => by cases h
  | [a], _, h => by simp_all
  | a :: b :: l, h, h' => by
    have h1 := h a (by simp)
    have := filter_last (l := b :: l) (fun x hx => h x (by simp [hx])) (by simpa [h1] using h')
    rw [List.filter_cons_of_pos h1, List.length_cons, this]
    rfl

/-- The parts that hold for the children of a node. -/
structure Grown (c' : Cfg) (p : Part) (n : Node) : Prop where
  conf : Conforms c' p (luauTree n)
  like : Like n (luauTree n)
  every : (luauTree n).Every fun k cs => k ≠ .exprAssertion ∧ Chosen k cs

abbrev Quiet (n : Node) : Prop := ∀ t ∈ n.tokens, t.token.type ≠ .symbol .twoColons

theorem Quiet.child {k : Kind} {cs : List Node} (h : Quiet (.node k cs)) {x : Node} (hx : x ∈ cs) : Quiet x := fun t ht =>
  h t (by rw [Node.tokens_node]; exact List.mem_flatMap.2 ⟨x, hx, ht⟩)

theorem Quiet.starts {p : Part} {n : Node} (h : Quiet n) (hp : Conforms c p n) (hf : (luauTree n).flat = n.flat) :
    startsTok (tokenIs .twoColons) (luauTree n) = false := by
  unfold startsTok
  rw [hf]
  cases hh : n.flat.head? with
  | none => rfl
  | some t =>
    have := h t (mem_flat t n ⟨_, Forward.conf_hasTy n p hp⟩ (List.mem_of_head? hh))
    simpa [tokenIs] using this

theorem each_mem {p : Part} : ∀ {ds : List Node}, ConformsEach c p ds → ∀ x ∈ ds, Conforms c p x
  | [], _, x, hx => by cases hx
  | d :: ds, h, x, hx => by
    rw [ConformsEach] at h
    rcases List.mem_cons.1 hx with rfl | hx
    · exact h.1
    · exact each_mem h.2 x hx

theorem Like.each {k : Kind} {ds : List Node} (hk : k ≠ .funcBody) (h : Like (.node k ds) (luauTree (.node k ds))) :
    ∀ x ∈ ds, (luauTree x).flat = x.flat := by
  have := h.parts
  rw [luauTree_other hk] at this
  simp only [Node.children, List.map_map] at this
  intro x hx
  have := List.map_inj_left.1 this x hx
  exact this

theorem stmts_each {ds : List Node} (hc : Before c) (h : ConformsEach c (.pair (.cat .stmt) (.opt (.sym .semicolon))) ds) :
    ∀ x ∈ ds, ∀ s e, x = .node .tuple [s, e] → endsCallable (luauTree s) = endsCallable s := by
  intro x hx s e he
  have := each_mem h x hx
  subst he
  rw [Conforms] at this
  obtain ⟨y, _, e, hy, -⟩ := conformsAll_cons this
  cases e
  exact endsCallable_luau hc hy

theorem AddsLuau.connected (h : AddsLuau c c') {k : Kind} {a : Cat} {cs : List Node} (hk : k.cat = some a) (ha : farCats.contains a = false)
    (hb : k ≠ .funcBody) (hall : ConformsAll c (production c.feat k) cs) (hl : ∀ x ∈ cs, Like x (luauTree x)) (hn : Connected c k cs) :
    Connected c' k (cs.map luauTree) := by
  cases k with
  | block =>
    obtain ⟨x, _, rfl, hx, hall⟩ := conformsAll_cons hall
    obtain ⟨y, _, rfl, hy, hall⟩ := conformsAll_cons hall
    obtain rfl := conformsAll_nil hall
    obtain ⟨ds, rfl, hx⟩ := conforms_many hx
    have h1 := (hl (.node .vec ds) (by simp)).each (by decide)
    simp only [List.map_cons, List.map_nil, luauTree_other (show Kind.vec ≠ .funcBody by decide)]
    exact distincts_luau (stmts_each h.before hx) h1 hn
  | exprBinary =>
    obtain ⟨x, _, rfl, hx, hall⟩ := conformsAll_cons hall
    obtain ⟨y, _, rfl, hy, hall⟩ := conformsAll_cons hall
    obtain ⟨z, _, rfl, hz, hall⟩ := conformsAll_cons hall
    obtain rfl := conformsAll_nil hall
    simp only [List.map_cons, List.map_nil, Connected, opText_luau hy, (edges_luau h.before x hx).1, (edges_luau h.before z hz).2]
    exact hn
  | exprUnary =>
    obtain ⟨x, _, rfl, hx, hall⟩ := conformsAll_cons hall
    obtain ⟨z, _, rfl, hz, hall⟩ := conformsAll_cons hall
    obtain rfl := conformsAll_nil hall
    simp only [List.map_cons, List.map_nil, Connected, (edges_luau h.before z hz).2]
    exact hn
  | exprVar =>
    obtain ⟨x, _, rfl, hx, hall⟩ := conformsAll_cons hall
    obtain rfl := conformsAll_nil hall
    simp only [List.map_cons, List.map_nil, Connected, parenthesised_luau hx]
    exact hn
  | prefixExpr =>
    obtain ⟨x, _, rfl, hx, hall⟩ := conformsAll_cons hall
    obtain rfl := conformsAll_nil hall
    simp only [List.map_cons, List.map_nil, Connected, kindOf_luau]
    exact hn
  | functionCall =>
    obtain ⟨x, _, rfl, hx, hall⟩ := conformsAll_cons hall
    obtain ⟨z, _, rfl, hz, hall⟩ := conformsAll_cons hall
    obtain rfl := conformsAll_nil hall
    simp only [List.map_cons, List.map_nil, Connected, last_luau]
    exact hn
  | varExpr =>
    obtain ⟨x, _, rfl, hx, hall⟩ := conformsAll_cons hall
    obtain ⟨z, _, rfl, hz, hall⟩ := conformsAll_cons hall
    obtain rfl := conformsAll_nil hall
    simp only [List.map_cons, List.map_nil, Connected, last_luau, nil_luau, kindOf_luau]
    exact hn
  | ifBlock =>
    match cs, all_shape hall with
    | [_, _, _, _, _, _, _, _], _ =>
      simp only [List.map_cons, List.map_nil, Connected, kindOf_luau]
      exact hn
  | numericFor =>
    match cs, all_shape hall with
    | [_, _, _, _, _, _, _, _, _, _, _, _], _ =>
      simp only [List.map_cons, List.map_nil, Connected, kindOf_luau]
      exact hn
  | localAssignment =>
    match cs, all_shape hall with
    | [_, _, _, _, _, _], _ =>
      simp only [List.map_cons, List.map_nil, Connected, kindOf_luau, nil_luau, length_luau, h.feat]
      exact hn
  | genericFor =>
    match cs, all_shape hall with
    | [_, _, _, _, _, _, _, _], _ =>
      simp only [List.map_cons, List.map_nil, Connected, length_luau, h.feat]
      exact hn
  | funcBody => exact absurd rfl hb
  | interpString => cases hk; cases ha
  | _ => exact trivial

theorem dead_map (hc : Before c) {n : Node} (h : Conforms c (.many (.opt (.cat .typeSpec))) n) :
    ∃ ts, n = .node .vec ts ∧ luauTree n = n ∧ ∀ x ∈ ts, x = .node .absent [] := by
  obtain ⟨ts, rfl, h⟩ := conforms_many h
  have h1 := each_dead hc (by decide) h
  refine ⟨ts, rfl, ?_, h1⟩
  rw [luauTree_other (by decide)]
  congr 1
  conv => rhs; rw [← List.map_id ts]
  refine List.map_congr_left fun x hx => ?_
  rw [h1 x hx]; simp

theorem AddsLuau.chosen (h : AddsLuau c c') {k : Kind} {a : Cat} {cs : List Node} (hk : k.cat = some a) (ha : farCats.contains a = false)
    (hb : k ≠ .funcBody) (hf : Spec.far false k = false) (hall : ConformsAll c (production c.feat k) cs) (hl : ∀ x ∈ cs, Like x (luauTree x))
    (hq : Quiet (.node k cs)) (he : ∀ x ∈ cs, (luauTree x).Every fun k cs => k ≠ .exprAssertion ∧ Chosen k cs) :
    k ≠ .exprAssertion ∧ Chosen k (cs.map luauTree) := by
  refine ⟨fun e => (by subst e; cases hf), ?_⟩
  cases k with
  | block =>
    obtain ⟨x, _, rfl, hx, hall⟩ := conformsAll_cons hall
    obtain ⟨y, _, rfl, hy, hall⟩ := conformsAll_cons hall
    obtain rfl := conformsAll_nil hall
    obtain ⟨ds, rfl, hx⟩ := conforms_many hx
    have h1 := (hl (.node .vec ds) (by simp)).each (by decide)
    simp only [List.map_cons, List.map_nil, luauTree_other (show Kind.vec ≠ .funcBody by decide)]
    refine unasserteds_of fun z hz => ?_
    obtain ⟨w, hw, rfl⟩ := List.mem_map.1 hz
    have hq1 : Quiet (.node .vec ds) := hq.child (by simp)
    exact (hq1.child hw).starts (each_mem hx w hw) (h1 w hw)
  | exprBinary =>
    match cs, all_shape hall with
    | [l, _, _], _ =>
      intro t ht
      rw [lastType_none _ (he l (by simp))] at ht
      cases ht
  | localAssignment =>
    obtain ⟨x, _, rfl, hx, hall⟩ := conformsAll_cons hall
    obtain ⟨y, _, rfl, hy, hall⟩ := conformsAll_cons hall
    obtain ⟨x, _, rfl, -, hall⟩ := conformsAll_cons hall
    obtain ⟨x, _, rfl, -, hall⟩ := conformsAll_cons hall
    obtain ⟨x, _, rfl, -, hall⟩ := conformsAll_cons hall
    obtain ⟨x, _, rfl, -, hall⟩ := conformsAll_cons hall
    obtain rfl := conformsAll_nil hall
    obtain ⟨ts, rfl, e, h1⟩ := dead_map h.before hy
    simp only [List.map_cons, List.map_nil, e]
    refine ⟨fun s hs t ht => ?_, fun p hp => .inl ?_⟩
    · rw [h1 s hs] at ht; cases ht
    · rw [h1 p.1 (List.of_mem_zip hp).1]; rfl
  | genericFor =>
    obtain ⟨x, _, rfl, -, hall⟩ := conformsAll_cons hall
    obtain ⟨x, _, rfl, -, hall⟩ := conformsAll_cons hall
    obtain ⟨x, _, rfl, -, hall⟩ := conformsAll_cons hall
    obtain ⟨x, _, rfl, -, hall⟩ := conformsAll_cons hall
    obtain ⟨x, _, rfl, -, hall⟩ := conformsAll_cons hall
    obtain ⟨x, _, rfl, -, hall⟩ := conformsAll_cons hall
    obtain ⟨x, _, rfl, -, hall⟩ := conformsAll_cons hall
    obtain ⟨y, _, rfl, hy, hall⟩ := conformsAll_cons hall
    obtain rfl := conformsAll_nil hall
    obtain ⟨ts, rfl, e, h1⟩ := dead_map h.before hy
    simp only [List.map_cons, List.map_nil, e]
    intro s hs t ht
    rw [h1 s hs] at ht; cases ht
  | numericFor =>
    obtain ⟨x, _, rfl, -, hall⟩ := conformsAll_cons hall
    obtain ⟨x, _, rfl, -, hall⟩ := conformsAll_cons hall
    obtain ⟨x, _, rfl, -, hall⟩ := conformsAll_cons hall
    obtain ⟨x, _, rfl, -, hall⟩ := conformsAll_cons hall
    obtain ⟨x, _, rfl, -, hall⟩ := conformsAll_cons hall
    obtain ⟨x, _, rfl, -, hall⟩ := conformsAll_cons hall
    obtain ⟨x, _, rfl, -, hall⟩ := conformsAll_cons hall
    obtain ⟨x, _, rfl, -, hall⟩ := conformsAll_cons hall
    obtain ⟨x, _, rfl, -, hall⟩ := conformsAll_cons hall
    obtain ⟨x, _, rfl, -, hall⟩ := conformsAll_cons hall
    obtain ⟨x, _, rfl, -, hall⟩ := conformsAll_cons hall
    obtain ⟨y, _, rfl, hy, hall⟩ := conformsAll_cons hall
    obtain rfl := conformsAll_nil hall
    obtain rfl := opt_dead h.before (by decide) hy
    simp only [List.map_cons, List.map_nil, absent_luau]
    intro t ht; cases ht
  | funcBody => exact absurd rfl hb
  | compoundOp o => exact trivial
  | binOp o => exact trivial
  | unOp o => exact trivial
  | _ => first | exact trivial | (cases hf; done) | (cases hk; cases ha; done)

theorem vec_every {ts : List Node} (h : ∀ x ∈ ts, x = .node .absent []) :
    (Node.node .vec ts).Every fun k cs => k ≠ .exprAssertion ∧ Chosen k cs :=
  Clean.every_node.2 ⟨⟨by decide, trivial⟩, fun x hx => by rw [h x hx]; exact Clean.every_node.2 ⟨⟨by decide, trivial⟩, by simp⟩⟩

theorem vec_conforms {ts : List Node} (h : ∀ x ∈ ts, x = .node .absent []) (p : Part) : Conforms c' (.many (.opt p)) (.node .vec ts) := by
  rw [Conforms]
  induction ts with
  | nil => simp [ConformsEach]
  | cons t ts ih => rw [ConformsEach, h t (by simp)]; exact ⟨by simp [Conforms], ih fun x hx => h x (by simp [hx])⟩

theorem AddsLuau.body (h : AddsLuau c c') {cs : List Node} (hall : ConformsAll c (production c.feat .funcBody) cs) (hn : Connected c .funcBody cs)
    (hg : ∀ x ∈ cs, ∀ p, p.plain = true → Conforms c p x → Grown c' p x) : Grown c' (.cat .funcBody) (.node .funcBody cs) := by
  obtain ⟨g, _, rfl, h1, hall⟩ := conformsAll_cons hall
  obtain ⟨s, _, rfl, h2, hall⟩ := conformsAll_cons hall
  obtain ⟨ps, _, rfl, h3, hall⟩ := conformsAll_cons hall
  obtain ⟨ts, _, rfl, h4, hall⟩ := conformsAll_cons hall
  obtain ⟨r, _, rfl, h5, hall⟩ := conformsAll_cons hall
  obtain ⟨b, _, rfl, h6, hall⟩ := conformsAll_cons hall
  obtain ⟨e, _, rfl, h7, hall⟩ := conformsAll_cons hall
  obtain rfl := conformsAll_nil hall
  have g1 := hg g (by simp) _ (by decide) h1
  have g2 := hg s (by simp) _ (by decide) h2
  have g3 := hg ps (by simp) _ (by decide) h3
  have g4 := hg ts (by simp) _ (by decide) h4
  have g5 := hg r (by simp) _ (by decide) h5
  have g6 := hg b (by simp) _ (by decide) h6
  have g7 := hg e (by simp) _ (by decide) h7
  obtain rfl := opt_dead h.before (by decide) h1
  obtain rfl := opt_dead h.before (by decide) h5
  obtain ⟨ts, rfl, et, h4⟩ := dead_map h.before h4
  obtain ⟨ds, rfl, h3', -⟩ := conforms_list h3
  have hc1 : (luauTree (.node .punct ds)).children = ds.map luauTree := children_luau (by simp [kindOf])
  have key : ∃ us, allTypes (luauTree (.node .punct ds)) (.node .vec ts) = .node .vec us ∧ (∀ x ∈ us, x = .node .absent []) ∧ us.length = ds.length := by
    have hfeat : c.feat.luau = true := by rw [← h.feat]; exact Cfg.feat_of_has h.luau
    obtain ⟨hn1, hn2⟩ := hn
    simp only [Cfg.luau, h.lua51, hfeat, Node.children, Bool.false_eq_true, if_false, if_true] at hn1 hn2
    have hall : (ds.map luauTree).all namedParam = ds.all namedParam := by
      rw [List.all_map]; congr 1; funext x; exact namedParam_luau x
    rw [allTypes, hc1, hall]
    split
    · rename_i ha
      refine ⟨ts, rfl, h4, ?_⟩
      rw [hn2, List.filter_eq_self.2 (List.all_eq_true.1 ha)]
    · rename_i ha
      refine ⟨_, rfl, fun x hx => ?_, ?_⟩
      · rcases List.mem_append.1 hx with hx | hx
        · exact h4 x hx
        · exact List.mem_singleton.1 hx
      · rw [List.length_append, hn2]
        exact filter_last hn1 (by simpa using ha)
  obtain ⟨us, eu, hu1, hu2⟩ := key
  have hk : luauTree (.node .funcBody [.node .absent [], s, .node .punct ds, .node .vec ts, .node .absent [], b, e]) = .node .funcBody
      [.node .absent [], luauTree s, luauTree (.node .punct ds), .node .vec us, .node .absent [], luauTree b, luauTree e] := by
    rw [luauTree_node]
    simp only [List.map_cons, List.map_nil, bodyParts, et, eu, absent_luau]
  have c1 := g1.conf
  have e1 := g1.every
  rw [absent_luau] at c1 e1
  have c5 := g5.conf
  rw [absent_luau] at c5
  refine ⟨?_, Like.body g1.like g2.like g3.like g4.like g5.like g6.like g7.like (by simp [kindOf]) rfl, ?_⟩
  · rw [hk, Conforms]
    refine ⟨rfl, rfl, ?_, ?_⟩
    · show ConformsAll c' [_, _, _, _, _, _, _] _
      simp only [ConformsAll]
      exact ⟨c1, g2.conf, g3.conf, vec_conforms hu1 _, c5, g6.conf, g7.conf, trivial⟩
    · have hn1 := hn.1
      refine ⟨?_, ?_⟩
      · rw [hc1, ← List.map_dropLast]
        intro p hp
        obtain ⟨q, hq, rfl⟩ := List.mem_map.1 hp
        rw [namedParam_luau]; exact hn1 q hq
      · rw [hc1, List.length_map, Cfg.luau, h.luau, if_pos rfl]; exact hu2
  · rw [hk]
    refine Clean.every_node.2 ⟨⟨by decide, ?_⟩, ?_⟩
    · refine ⟨by simp [genericParams], fun p hp t ht => ?_, fun t ht => by cases ht⟩
      rw [hu1 _ (List.of_mem_zip hp).2] at ht; cases ht
    · simp only [List.mem_cons, List.not_mem_nil, or_false]
      rintro x (rfl | rfl | rfl | rfl | rfl | rfl | rfl)
      · exact e1
      · exact g2.every
      · exact g3.every
      · exact vec_every hu1
      · exact e1
      · exact g6.every
      · exact g7.every

theorem grown_all {ps : List Part} {cs : List Node} (h : ConformsAll c ps cs) (hp : ps.all Part.plain = true)
    (ih : ∀ x ∈ cs, ∀ p, p.plain = true → Conforms c p x → Grown c' p x) :
    ConformsAll c' ps (cs.map luauTree) ∧ ∀ x ∈ cs, Like x (luauTree x) ∧ (luauTree x).Every fun k cs => k ≠ .exprAssertion ∧ Chosen k cs := by
  induction ps generalizing cs with
  | nil => obtain rfl := conformsAll_nil h; simp [ConformsAll]
  | cons p ps ihp =>
    obtain ⟨x, xs, rfl, hx, h⟩ := conformsAll_cons h
    rw [List.all_cons, Bool.and_eq_true] at hp
    have h1 := ih x (by simp) p hp.1 hx
    have h2 := ihp h hp.2 fun y hy => ih y (by simp [hy])
    rw [List.map_cons, ConformsAll]
    refine ⟨⟨h1.conf, h2.1⟩, fun y hy => ?_⟩
    rcases List.mem_cons.1 hy with rfl | hy
    · exact ⟨h1.like, h1.every⟩
    · exact h2.2 y hy

theorem grown_each {p : Part} {cs : List Node} (h : ConformsEach c p cs) (hp : p.plain = true)
    (ih : ∀ x ∈ cs, ∀ p, p.plain = true → Conforms c p x → Grown c' p x) :
    ConformsEach c' p (cs.map luauTree) ∧ ∀ x ∈ cs, Like x (luauTree x) ∧ (luauTree x).Every fun k cs => k ≠ .exprAssertion ∧ Chosen k cs := by
  induction cs with
  | nil => simp [ConformsEach]
  | cons x xs ihx =>
    rw [ConformsEach] at h
    have h1 := ih x (by simp) p hp h.1
    have h2 := ihx h.2 fun y hy => ih y (by simp [hy])
    rw [List.map_cons, ConformsEach]
    refine ⟨⟨h1.conf, h2.1⟩, fun y hy => ?_⟩
    rcases List.mem_cons.1 hy with rfl | hy
    · exact ⟨h1.like, h1.every⟩
    · exact h2.2 y hy

theorem grown_struct {k : Kind} {cs : List Node} (hk : k ∈ [Kind.absent, .present, .vec, .tuple, .punct, .pairEnd, .pairPunct, .span])
    (h : ∀ x ∈ cs, Like x (luauTree x) ∧ (luauTree x).Every fun k cs => k ≠ .exprAssertion ∧ Chosen k cs) :
    luauTree (.node k cs) = .node k (cs.map luauTree) ∧ Like (.node k cs) (luauTree (.node k cs)) ∧
      (luauTree (.node k cs)).Every fun k cs => k ≠ .exprAssertion ∧ Chosen k cs := by
  have h1 : k ≠ .funcBody ∧ k.layout = none ∧ k ≠ .exprAssertion ∧ Chosen k (cs.map luauTree) := by
    simp only [List.mem_cons, List.not_mem_nil, or_false] at hk
    rcases hk with rfl | rfl | rfl | rfl | rfl | rfl | rfl | rfl <;> exact ⟨by decide, rfl, by decide, trivial⟩
  refine ⟨luauTree_other h1.1 _, Like.node h1.1 (fun x hx => (h x hx).1) (.inl h1.2.1), ?_⟩
  rw [luauTree_other h1.1]
  refine Clean.every_node.2 ⟨h1.2.2, fun x hx => ?_⟩
  obtain ⟨y, hy, rfl⟩ := List.mem_map.1 hx
  exact (h y hy).2

theorem grown_pairs {p : Part} {seps : List Symbol} {cs : List Node} (h : ConformsPairs c p seps cs) (hp : p.plain = true)
    (ih : ∀ x ∈ cs, ∀ y ∈ x.children, ∀ p, p.plain = true → Conforms c p y → Grown c' p y) :
    ConformsPairs c' p seps (cs.map luauTree) ∧ ∀ x ∈ cs, Like x (luauTree x) ∧ (luauTree x).Every fun k cs => k ≠ .exprAssertion ∧ Chosen k cs := by
  induction cs with
  | nil => simp [ConformsPairs]
  | cons d ds ihd =>
    have hd1 := ih d (by simp)
    have hd2 := fun h => ihd h fun x hx => ih x (by simp [hx])
    unfold ConformsPairs at h
    split at h
    · rename_i e; cases e
    · rename_i e; cases e
      have h1 := grown_all h.1 (by simp [hp]) hd1
      have h2 := hd2 h.2
      obtain ⟨h3, h4⟩ := grown_struct (k := .pairEnd) (by decide) h1.2
      rw [List.map_cons, h3, ConformsPairs]
      refine ⟨⟨h1.1, h2.1⟩, fun y hy => ?_⟩
      rcases List.mem_cons.1 hy with rfl | hy
      · exact h4
      · exact h2.2 y hy
    · rename_i e; cases e
      have h1 := grown_all h.1 (by simp [hp, Part.plain]) hd1
      have h2 := hd2 h.2
      obtain ⟨h3, h4⟩ := grown_struct (k := .pairPunct) (by decide) h1.2
      rw [List.map_cons, h3, ConformsPairs]
      refine ⟨⟨h1.1, h2.1⟩, fun y hy => ?_⟩
      rcases List.mem_cons.1 hy with rfl | hy
      · exact h4
      · exact h2.2 y hy
    · exact h.elim

theorem separated_luau {style : Style} {cs : List Node} (h : Separated style cs) : Separated style (cs.map luauTree) := by
  obtain ⟨h1, h2, h3⟩ := h
  refine ⟨?_, fun h => by simpa using h2 h, fun h p hp => ?_⟩
  · rw [← List.map_dropLast]
    intro p hp
    obtain ⟨q, hq, rfl⟩ := List.mem_map.1 hp
    rw [kindOf_luau]; exact h1 q hq
  · rw [List.getLast?_map, Option.map_eq_some_iff] at hp
    obtain ⟨q, hq, rfl⟩ := hp
    rw [kindOf_luau]; exact h3 h q hq

theorem AddsLuau.grown (h : AddsLuau c c') (n : Node) : Quiet n → ∀ p : Part, p.plain = true → Conforms c p n → Grown c' p n := by
  induction n using Node.induct3 with
  | ht t =>
    intro _ p _ hp
    refine ⟨?_, Like.tok t, by rw [luauTree_tok]; trivial⟩
    rw [luauTree_tok]
    cases p <;> simp only [Conforms] at hp ⊢
    exact hp
  | hn k cs ih ih2 _ =>
    intro hq p hpl hp
    have ih : ∀ x ∈ cs, ∀ p, p.plain = true → Conforms c p x → Grown c' p x := fun x hx => ih x hx (hq.child hx)
    have ih2 : ∀ x ∈ cs, ∀ y ∈ x.children, ∀ p, p.plain = true → Conforms c p y → Grown c' p y := by
      intro x hx y hy
      refine ih2 x hx y hy ?_
      have := hq.child hx
      cases x with
      | tok t => cases hy
      | node k ds => exact this.child hy
    unfold Conforms at hp
    split at hp
    · cases ‹Node.node k cs = .tok _›
    · cases ‹Node.node k cs = _›
      obtain ⟨h1, h2⟩ := grown_all hp rfl ih
      obtain ⟨h3, h4, h5⟩ := grown_struct (k := .span) (by decide) h2
      exact ⟨by rw [h3, Conforms]; exact h1, h4, h5⟩
    · cases ‹Node.node k cs = _›
      rename_i a
      obtain ⟨hk, hav, hall, hn⟩ := hp
      have ha : farCats.contains a = false := by simpa [Part.plain] using hpl
      by_cases hb : k = .funcBody
      · subst hb; cases hk
        exact h.body hall hn ih
      · obtain ⟨h1, h2⟩ := grown_all hall (plain_production c.feat k a hk ha (h.far hav)) ih
        have hl : ∀ x ∈ cs, Like x (luauTree x) := fun x hx => (h2 x hx).1
        refine ⟨?_, ?_, ?_⟩
        · rw [luauTree_other hb, Conforms, h.feat]
          exact ⟨hk, h.available hav, h1, h.connected hk ha hb hall hl hn⟩
        · refine Like.node hb hl ?_
          by_cases hlay : k.layout = none
          · exact .inl hlay
          · exact .inr (all_body hall (layout_body c.feat k hlay))
        · rw [luauTree_other hb]
          refine Clean.every_node.2 ⟨h.chosen hk ha hb (h.far hav) hall hl hq fun x hx => (h2 x hx).2, fun x hx => ?_⟩
          obtain ⟨y, hy, rfl⟩ := List.mem_map.1 hx
          exact (h2 y hy).2
    · cases hpl
    · cases ‹Node.node k cs = _›
      subst hp
      obtain ⟨h3, h4, h5⟩ := grown_struct (k := .absent) (cs := []) (by decide) (by simp)
      exact ⟨by rw [h3, Conforms]; rfl, h4, h5⟩
    · rename_i heq; cases heq
      obtain ⟨h1, h2⟩ := grown_all hp (by simpa [Part.plain] using hpl) ih
      obtain ⟨h3, h4, h5⟩ := grown_struct (k := .present) (by decide) h2
      exact ⟨by rw [h3, Conforms]; exact h1, h4, h5⟩
    · rename_i heq; cases heq
      obtain ⟨h1, h2⟩ := grown_each hp (by simpa [Part.plain] using hpl) ih
      obtain ⟨h3, h4, h5⟩ := grown_struct (k := .vec) (by decide) h2
      exact ⟨by rw [h3, Conforms]; exact h1, h4, h5⟩
    · rename_i heq; cases heq
      obtain ⟨h1, h2⟩ := grown_each hp.1 (by simpa [Part.plain] using hpl) ih
      obtain ⟨h3, h4, h5⟩ := grown_struct (k := .vec) (by decide) h2
      exact ⟨by rw [h3, Conforms]; exact ⟨h1, by simpa using hp.2⟩, h4, h5⟩
    · rename_i heq; cases heq
      obtain ⟨h1, h2⟩ := grown_pairs hp.1 (by simpa [Part.plain] using hpl) ih2
      obtain ⟨h3, h4, h5⟩ := grown_struct (k := .punct) (by decide) h2
      exact ⟨by rw [h3, Conforms]; exact ⟨h1, separated_luau hp.2⟩, h4, h5⟩
    · rename_i heq; cases heq
      obtain ⟨h1, h2⟩ := grown_all hp (by simpa [Part.plain] using hpl) ih
      obtain ⟨h3, h4, h5⟩ := grown_struct (k := .tuple) (by decide) h2
      exact ⟨by rw [h3, Conforms]; exact h1, h4, h5⟩
    · exact hp.elim

end FM.Spec
