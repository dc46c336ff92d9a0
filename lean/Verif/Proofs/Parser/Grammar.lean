import Verif.Spec.Accepted
import Verif.Spec.Saved
import Verif.Proofs.Parser.CleanExpr
import Verif.Proofs.Ast.Basic

/-! Helper lemmas: trees that conform to the grammar. -/

namespace FM.Spec
open FM.Parser

variable {c : Cfg}

/-- What conforming to the grammar says about one node. -/
def Grammatical (c : Cfg) (k : Kind) (cs : List Node) : Prop :=
  (k.cat ≠ none → available c k = true ∧ ConformsAll c (production c.feat k) cs) ∧ Connected c k cs

/-- What conforming to the grammar says about the children of a node. -/
theorem Conforms.node {p : Part} {k : Kind} {cs : List Node} (h : Conforms c p (.node k cs)) :
    Grammatical c k cs ∧ (cs = [] ∨ (∃ ps, ConformsAll c ps cs) ∨ (∃ q, ConformsEach c q cs) ∨ ∃ q seps, ConformsPairs c q seps cs) := by
  unfold Conforms at h
  split at h
  · cases ‹Node.node k cs = .tok _›
  · cases ‹Node.node k cs = _›; exact ⟨⟨nofun, trivial⟩, .inr (.inl ⟨_, h⟩)⟩
  · cases ‹Node.node k cs = _›; exact ⟨⟨fun _ => ⟨h.2.1, h.2.2.1⟩, h.2.2.2⟩, .inr (.inl ⟨_, h.2.2.1⟩)⟩
  · cases ‹Node.node k cs = _›; exact ⟨⟨fun _ => ⟨h.2.2.1, h.2.2.2.1⟩, h.2.2.2.2⟩, .inr (.inl ⟨_, h.2.2.2.1⟩)⟩
  · cases ‹Node.node k cs = _›; exact ⟨⟨nofun, trivial⟩, .inl h⟩
  · cases ‹Node.node k cs = _›; exact ⟨⟨nofun, trivial⟩, .inr (.inl ⟨_, h⟩)⟩
  · cases ‹Node.node k cs = _›; exact ⟨⟨nofun, trivial⟩, .inr (.inr (.inl ⟨_, h⟩))⟩
  · cases ‹Node.node k cs = _›; exact ⟨⟨nofun, trivial⟩, .inr (.inr (.inl ⟨_, h.1⟩))⟩
  · cases ‹Node.node k cs = _›; exact ⟨⟨nofun, trivial⟩, .inr (.inr (.inr ⟨_, _, h.1⟩))⟩
  · cases ‹Node.node k cs = _›; exact ⟨⟨nofun, trivial⟩, .inr (.inl ⟨_, h⟩)⟩
  · exact h.elim

theorem ConformsPairs.head {p : Part} {seps : List Symbol} {n : Node} {ns : List Node} (h : ConformsPairs c p seps (n :: ns)) :
    (∃ k cs ps, n = .node k cs ∧ Grammatical c k cs ∧ ConformsAll c ps cs) ∧ ConformsPairs c p seps ns := by
  unfold ConformsPairs at h
  split at h
  · cases ‹n :: ns = []›
  · cases ‹n :: ns = _›; exact ⟨⟨_, _, _, rfl, ⟨nofun, trivial⟩, h.1⟩, h.2⟩
  · cases ‹n :: ns = _›; exact ⟨⟨_, _, _, rfl, ⟨nofun, trivial⟩, h.1⟩, h.2⟩
  · exact h.elim

mutual
theorem Conforms.every : ∀ (n : Node) (p : Part), Conforms c p n → n.Every (Grammatical c)
  | .tok _, _, _ => trivial
  | .node k cs, p, h => by
    obtain ⟨h1, h2⟩ := h.node
    refine ⟨h1, ?_⟩
    rcases h2 with h2 | ⟨ps, h2⟩ | ⟨q, h2⟩ | ⟨q, seps, h2⟩
    · subst h2; trivial
    · exact ConformsAll.every cs ps h2
    · exact ConformsEach.every cs q h2
    · exact ConformsPairs.every cs q seps h2
theorem ConformsAll.every : ∀ (ns : List Node) (ps : List Part), ConformsAll c ps ns → Node.Every.everys (Grammatical c) ns
  | [], _, _ => trivial
  | n :: ns, [], h => by rw [ConformsAll] at h; exact h.elim; all_goals simp
  | n :: ns, p :: ps, h => by
    rw [ConformsAll] at h
    exact ⟨Conforms.every n p h.1, ConformsAll.every ns ps h.2⟩
theorem ConformsEach.every : ∀ (ns : List Node) (p : Part), ConformsEach c p ns → Node.Every.everys (Grammatical c) ns
  | [], _, _ => trivial
  | n :: ns, p, h => by
    rw [ConformsEach] at h
    exact ⟨Conforms.every n p h.1, ConformsEach.every ns p h.2⟩
theorem ConformsPairs.every : ∀ (ns : List Node) (p : Part) (seps : List Symbol), ConformsPairs c p seps ns → Node.Every.everys (Grammatical c) ns
  | [], _, _, _ => trivial
  | .tok t :: ns, p, seps, h => by
    obtain ⟨⟨_, _, _, h1, _⟩, _⟩ := h.head
    cases h1
  | .node k cs :: ns, p, seps, h => by
    obtain ⟨⟨k', cs', ps, h1, h2, h3⟩, h4⟩ := h.head
    obtain ⟨rfl, rfl⟩ := Node.node.inj h1
    exact ⟨⟨h2, ConformsAll.every cs ps h3⟩, ConformsPairs.every ns p seps h4⟩
end

theorem Every.imp {p q : Kind → List Node → Prop} (h : ∀ k cs, (∀ x ∈ cs, x.Every p) → p k cs → q k cs) : ∀ {n : Node}, n.Every p → n.Every q := by
  intro n
  induction n using Node.rec (motive_2 := fun ns => (∀ x ∈ ns, x.Every p) → ∀ x ∈ ns, x.Every q) with
  | tok t => intro _; trivial
  | node k cs ih =>
    intro hn
    rw [Node.every_node] at hn ⊢
    exact ⟨h k cs hn.2 hn.1, ih hn.2⟩
  | nil => rename_i hx; cases hx
  | cons n ns ih1 ih2 =>
    rename_i hns x hx
    rcases List.mem_cons.1 hx with rfl | hx
    · exact ih1 (hns _ (List.mem_cons_self ..))
    · exact ih2 (fun y hy => hns y (List.mem_cons_of_mem _ hy)) x hx

/-! ## Operators -/

theorem confAll_three {p1 p2 p3 : Part} {cs : List Node} (h : ConformsAll c [p1, p2, p3] cs) :
    ∃ a b d, cs = [a, b, d] ∧ Conforms c p1 a ∧ Conforms c p2 b ∧ Conforms c p3 d := by
  match cs, h with
  | [], h => simp [ConformsAll] at h
  | [_], h => simp [ConformsAll] at h
  | [_, _], h => simp [ConformsAll] at h
  | [a, b, d], h => simp only [ConformsAll, and_true] at h; exact ⟨a, b, d, rfl, h⟩
  | _ :: _ :: _ :: _ :: _, h => simp [ConformsAll] at h

theorem confAll_two {p1 p2 : Part} {cs : List Node} (h : ConformsAll c [p1, p2] cs) :
    ∃ a b, cs = [a, b] ∧ Conforms c p1 a ∧ Conforms c p2 b := by
  match cs, h with
  | [], h => simp [ConformsAll] at h
  | [_], h => simp [ConformsAll] at h
  | [a, b], h => simp only [ConformsAll, and_true] at h; exact ⟨a, b, rfl, h⟩
  | _ :: _ :: _ :: _, h => simp [ConformsAll] at h

theorem confAll_one {p1 : Part} {cs : List Node} (h : ConformsAll c [p1] cs) : ∃ a, cs = [a] ∧ Conforms c p1 a := by
  match cs, h with
  | [], h => simp [ConformsAll] at h
  | [a], h => simp only [ConformsAll, and_true] at h; exact ⟨a, rfl, h⟩
  | _ :: _ :: _, h => simp [ConformsAll] at h

theorem confEach {p : Part} : ∀ {cs : List Node}, ConformsEach c p cs → ∀ x ∈ cs, Conforms c p x
  | [], _ => nofun
  | x :: cs, h => by
    rw [ConformsEach] at h
    intro y hy
    rcases List.mem_cons.1 hy with rfl | hy
    · exact h.1
    · exact confEach h.2 y hy

theorem conf_many {p : Part} {n : Node} (h : Conforms c (.many p) n) : ∃ cs, n = .node .vec cs ∧ ∀ x ∈ cs, Conforms c p x := by
  unfold Conforms at h
  split at h
  all_goals first | (cases ‹Part.many p = _›; done) | skip
  · rename_i cs heq
    cases heq
    exact ⟨cs, rfl, confEach h⟩
  · exact h.elim

theorem conf_pair {p q : Part} {n : Node} (h : Conforms c (.pair p q) n) : ∃ a b, n = .node .tuple [a, b] ∧ Conforms c p a ∧ Conforms c q b := by
  unfold Conforms at h
  split at h
  all_goals first | (cases ‹Part.pair p q = _›; done) | skip
  · rename_i heq
    cases heq
    obtain ⟨a, b, rfl, h1⟩ := confAll_two h
    exact ⟨a, b, rfl, h1⟩
  · exact h.elim

theorem conf_opt {p : Part} {n : Node} (h : Conforms c (.opt p) n) : n = .node .absent [] ∨ ∃ a, n = .node .present [a] ∧ Conforms c p a := by
  unfold Conforms at h
  split at h
  all_goals first | (cases ‹Part.opt p = _›; done) | skip
  · subst h; exact .inl rfl
  · rename_i heq
    cases heq
    obtain ⟨a, rfl, h1⟩ := confAll_one h
    exact .inr ⟨a, rfl, h1⟩
  · exact h.elim

theorem binOp_row {n : Node} (h : Conforms c (.cat .binOp) n) :
    row (opText n) ≤ 9 ∨ row (opText n) = 11 ∧ rightAssociative (opText n) = true := by
  cases n with
  | tok t => simp [Conforms] at h
  | node k cs =>
    rw [Conforms] at h
    obtain ⟨h1, -, h2, -⟩ := h
    cases k <;> first | (cases h1; done) | skip
    rename_i o
    obtain ⟨a, rfl, h3⟩ := confAll_one h2
    cases a with
    | node k cs => simp [Conforms] at h3
    | tok t =>
      rw [Conforms] at h3
      obtain ⟨s, hs, ht⟩ := h3
      obtain rfl := List.mem_singleton.1 hs
      have : opText (.node (.binOp o) [.tok t]) = o.symbol.text := by
        simp [opText, Token.display, ht, TokenType.display]
      rw [this]
      cases o <;> decide +kernel

theorem keepsLeft_trans {op p : Text} {e : Edge} (h1 : keepsLeft op (.binary p)) (h2 : keepsLeft p e) : keepsLeft op e := by
  unfold keepsLeft at *
  cases e with
  | binary q =>
    simp only at *
    rcases h1 with h1 | ⟨h1, h3⟩ <;> rcases h2 with h2 | ⟨h2, h4⟩
    · left; omega
    · left; omega
    · left; omega
    · exact .inr ⟨h1.trans h2, h3⟩
  | unary => simp only at *; omega
  | open_ => exact h2

theorem operators_left : ∀ {n : Node}, n.Every (Grammatical c) → ∀ {op : Text}, (∀ e ∈ rightEdge n, keepsLeft op e) → ∀ e ∈ operators n, keepsLeft op e
  | n, hn, op, h, e, he => by
    unfold operators at he
    split at he
    · rename_i l o r
      rw [Node.every_node] at hn
      have hc : (∀ e ∈ rightEdge l, keepsLeft (opText o) e) ∧ _ := hn.1.2
      rw [rightEdge] at h
      have ho := h _ (List.mem_cons_self ..)
      rcases List.mem_cons.1 he with rfl | he
      · exact ho
      · rcases List.mem_append.1 he with he | he
        · exact keepsLeft_trans ho (operators_left (hn.2 l (by simp)) hc.1 e he)
        · exact operators_left (hn.2 r (by simp)) (fun e he => h e (List.mem_cons_of_mem _ he)) e he
    · rename_i u x
      rw [Node.every_node] at hn
      rw [rightEdge] at h
      rcases List.mem_cons.1 he with rfl | he
      · exact h _ (List.mem_cons_self ..)
      · exact operators_left (hn.2 x (by simp)) (fun e he => h e (List.mem_cons_of_mem _ he)) e he
    · cases he

theorem operators_above : ∀ {n : Node}, n.Every (Grammatical c) → ∀ {m : Nat}, m ≤ 10 → (∀ p ∈ leftEdge n, m < row p) → ∀ p, .binary p ∈ operators n → m < row p
  | n, hn, m, hm, h, p, hp => by
    unfold operators at hp
    split at hp
    · rename_i l o r
      rw [Node.every_node] at hn
      have hc : _ ∧ ∀ p ∈ leftEdge r, keepsRight (opText o) p := hn.1.2
      rw [leftEdge] at h
      have ho := h _ (List.mem_cons_self ..)
      rcases List.mem_cons.1 hp with hp | hp
      · cases hp; exact ho
      · rcases List.mem_append.1 hp with hp | hp
        · exact operators_above (hn.2 l (by simp)) hm (fun e he => h e (List.mem_cons_of_mem _ he)) p hp
        · refine operators_above (hn.2 r (by simp)) hm (fun e he => ?_) p hp
          have := hc.2 e he
          unfold keepsRight at this
          omega
    · rename_i u x
      rw [Node.every_node] at hn
      have hc : ∀ p ∈ leftEdge x, unaryRow < row p := hn.1.2
      rcases List.mem_cons.1 hp with hp | hp
      · cases hp
      · refine operators_above (hn.2 x (by simp)) hm (fun e he => ?_) p hp
        have := hc e he
        have : unaryRow = 10 := by decide
        omega
    · cases hp

theorem operators_right : ∀ {n : Node}, n.Every (Grammatical c) → ∀ {op : Text}, (row op ≤ 9 ∨ row op = 11 ∧ rightAssociative op = true) →
    (∀ p ∈ leftEdge n, keepsRight op p) → ∀ p, .binary p ∈ operators n → keepsRight op p
  | n, hn, op, hop, h, p, hp => by
    unfold operators at hp
    split at hp
    · rename_i l o r
      rw [Node.every_node] at hn
      have hc : _ ∧ ∀ p ∈ leftEdge r, keepsRight (opText o) p := hn.1.2
      rw [leftEdge] at h
      have ho := h _ (List.mem_cons_self ..)
      rcases List.mem_cons.1 hp with hp | hp
      · cases hp; exact ho
      · rcases List.mem_append.1 hp with hp | hp
        · exact operators_right (hn.2 l (by simp)) hop (fun e he => h e (List.mem_cons_of_mem _ he)) p hp
        · refine operators_right (hn.2 r (by simp)) hop (fun e he => ?_) p hp
          have := hc.2 e he
          unfold keepsRight at this ho ⊢
          rcases ho with h1 | ⟨h1, h3⟩ <;> rcases this with h2 | ⟨h2, h4⟩
          · left; omega
          · left; omega
          · left; omega
          · exact .inr ⟨h1.trans h2, h3⟩
    · rename_i u x
      rw [Node.every_node] at hn
      have hc : ∀ p ∈ leftEdge x, unaryRow < row p := hn.1.2
      have hu : unaryRow = 10 := by decide
      rcases List.mem_cons.1 hp with hp | hp
      · cases hp
      · have := operators_above (hn.2 x (by simp)) (Nat.le_of_eq hu) hc p hp
        unfold keepsRight
        have h3 : row op < row p ∨ row op = row p ∧ row op = 11 := by omega
        rcases h3 with h3 | ⟨h3, h4⟩
        · exact .inl h3
        · exact .inr ⟨h3, (hop.resolve_left (by omega)).2⟩
    · cases hp

theorem Grammatical.precedence {n : Node} (h : n.Every (Grammatical c)) : n.Every precedence := by
  refine Every.imp (fun k cs hcs hk => ?_) h
  unfold Spec.precedence
  split
  · rename_i l o r
    have hc : (∀ e ∈ rightEdge l, keepsLeft (opText o) e) ∧ ∀ p ∈ leftEdge r, keepsRight (opText o) p := hk.2
    obtain ⟨a, b, d, he, -, hb, -⟩ := confAll_three (hk.1 (by simp [Kind.cat])).2
    cases he
    refine ⟨fun p hp => ?_, fun hu => ?_, fun p hp => ?_⟩
    · exact operators_left (hcs l (by simp)) hc.1 _ hp
    · exact operators_left (hcs l (by simp)) hc.1 _ hu
    · exact operators_right (hcs r (by simp)) (binOp_row hb) hc.2 p hp
  · rename_i u e
    exact fun p hp => operators_above (hcs e (by simp)) (m := unaryRow) (by decide) hk.2 p hp
  · trivial

/-! ## Blocks -/

theorem Grammatical.blockForm {n : Node} (h : n.Every (Grammatical c)) : n.Every blockForm := by
  refine Every.imp (fun k cs hcs hk => ?_) h
  unfold Spec.blockForm
  split
  · obtain ⟨a, b, rfl, h1, h2⟩ := confAll_two (hk.1 (by simp [Kind.cat])).2
    obtain ⟨ss, rfl, h3⟩ := conf_many h1
    refine ⟨ss, b, rfl, fun s hs => ?_, ?_⟩
    · obtain ⟨a, semi, rfl, h4, -⟩ := conf_pair (h3 s hs)
      cases a with
      | tok t => simp [Conforms] at h4
      | node k x => rw [Conforms] at h4; exact ⟨k, x, semi, rfl, h4.1⟩
    · rcases conf_opt h2 with rfl | ⟨d, rfl, h4⟩
      · exact .inl rfl
      · obtain ⟨a, semi, rfl, h5, -⟩ := conf_pair h4
        cases a with
        | tok t => simp [Conforms] at h5
        | node k x =>
          rw [Conforms] at h5
          refine .inr ⟨k, x, semi, rfl, ?_⟩
          have h6 := h5.1
          cases k <;> first | (cases h6; done) | simp
  · trivial

/-! ## Annotations -/

theorem Grammatical.annotationsFit {n : Node} (h : n.Every (Grammatical c)) : AnnotationsFit n := by
  refine Every.imp (fun k cs hcs hk => ?_) h
  unfold Spec.annotationsFit
  split
  · have h1 := hk.2.2
    split at h1
    · omega
    · split at h1
      · rw [h1]; exact List.length_filter_le ..
      · omega
  · have h1 : _ = _ := hk.2
    split at h1 <;> omega
  · have h1 := hk.2.2
    refine ⟨?_, ?_⟩
    · have := h1.1; split at this <;> omega
    · have := h1.2; split at this <;> omega
  · trivial

theorem Grammatical.annotationsCompiled {n : Node} (h : n.Every (Grammatical c)) : AnnotationsCompiled c.feat n := by
  have nil : ∀ {x : Node}, x.children.length = 0 → x.children = [] := fun h => List.eq_nil_of_length_eq_zero h
  refine Every.imp (fun k cs hcs hk => ?_) h
  unfold Spec.annotationsCompiled
  split
  · intro hf
    have h1 := hk.2.2
    rw [if_neg (fun hl => by rw [Clean.luau_feat hl] at hf; cases hf), if_neg (by simp [hf])] at h1
    exact nil h1
  · intro hf
    have h1 : _ = _ := hk.2
    rw [if_neg (by simp [hf])] at h1
    exact nil h1
  · have h1 := hk.2.2
    refine ⟨fun hf => nil ?_, fun hf => nil ?_⟩
    · rw [h1.1, if_neg (by simp [hf])]
    · rw [h1.2, if_neg (by simp [hf])]
  · trivial

/-- A category of constructs that do not exist has no members. -/
theorem conf_unavailable {a : Cat} {n : Node} (h : ∀ k : Kind, k.cat = some a → available c k = false) : ¬ Conforms c (.cat a) n := by
  intro hn
  cases n with
  | tok t => simp [Conforms] at hn
  | node k cs =>
    rw [Clean.conf_cat] at hn
    have := h k hn.1
    rw [hn.2.1] at this
    cases this

theorem luau_unavailable (hf : c.feat.luau = false) {a : Cat} (ha : a ∈ [Cat.luauAttr, .typeInst, .typeSpec, .genericDecl]) :
    ∀ k : Kind, k.cat = some a → available c k = false := by
  have hl : c.luau = false := by
    cases h : c.luau with
    | false => rfl
    | true => rw [Clean.luau_feat h] at hf; cases hf
  intro k hk
  simp only [List.mem_cons, List.not_mem_nil, or_false] at ha
  rcases ha with rfl | rfl | rfl | rfl <;> cases k <;> first | (cases hk; done) | simp [available, luauKinds, hl, hf]

theorem Grammatical.fieldsCompiled {n : Node} (h : n.Every (Grammatical c)) : FieldsCompiled c.feat n := by
  have nil : ∀ {x : Node}, x.children.length = 0 → x.children = [] := fun h => List.eq_nil_of_length_eq_zero h
  have many : c.feat.luau = false → ∀ {a : Cat} {x : Node}, a ∈ [Cat.luauAttr, .typeInst, .typeSpec, .genericDecl] →
      Conforms c (.many (.cat a)) x → x.children = [] := by
    intro hf a x ha hx
    obtain ⟨cs, rfl, h⟩ := conf_many hx
    cases cs with
    | nil => rfl
    | cons y ys => exact (conf_unavailable (luau_unavailable hf ha) (h y (by simp))).elim
  have opt : c.feat.luau = false → ∀ {a : Cat} {x : Node}, a ∈ [Cat.luauAttr, .typeInst, .typeSpec, .genericDecl] →
      Conforms c (.opt (.cat a)) x → x.children = [] := by
    intro hf a x ha hx
    rcases conf_opt hx with rfl | ⟨y, rfl, h⟩
    · rfl
    · exact (conf_unavailable (luau_unavailable hf ha) h).elim
  refine Every.imp (fun k cs hcs hk => ?_) h
  unfold Spec.fieldsCompiled
  split
  · intro hf
    have h1 := (hk.1 nofun).2
    exact many hf (by simp) h1.1
  · intro hf
    have h1 := (hk.1 nofun).2
    exact many hf (by simp) h1.1
  · intro hf
    have h1 := (hk.1 nofun).2
    exact many hf (by simp) h1.1
  · intro hf
    have h1 := (hk.1 nofun).2
    exact opt hf (by simp) h1.2.2.1
  · intro hf
    have h1 := (hk.1 nofun).2
    exact opt hf (by simp) h1.2.2.2.2.2.2.2.2.2.2.2.1
  · intro hf
    have h1 : _ = _ := hk.2
    rw [if_neg (by simp [hf])] at h1
    exact nil h1
  · intro hf
    have h1 := hk.2.2
    have h2 := (hk.1 nofun).2
    rw [if_neg (fun hl => by rw [Clean.luau_feat hl] at hf; cases hf), if_neg (by simp [hf])] at h1
    exact ⟨opt hf (by simp) h2.1, nil h1, opt hf (by simp) h2.2.2.2.2.1⟩
  · have h1 := hk.2.2
    refine ⟨fun hf => nil ?_, fun hf => nil ?_⟩
    · rw [h1.1, if_neg (by simp [hf])]
    · rw [h1.2, if_neg (by simp [hf])]
  · trivial

theorem Grammatical.annotationsFull (hl : c.feat.luau = true → c.luau = true) {n : Node} (h : n.Every (Grammatical c)) :
    AnnotationsFull c.feat n := by
  refine Every.imp (fun k cs hcs hk => ?_) h
  unfold Spec.annotationsFull
  split
  · intro hf
    have h1 := hk.2.2
    rwa [if_pos (hl hf)] at h1
  · intro hf
    have h1 : _ = _ := hk.2
    rwa [if_pos hf] at h1
  · have h1 := hk.2.2
    refine ⟨fun hf => ?_, fun hf => ?_⟩
    · rw [h1.1, if_pos hf]
    · rw [h1.2, if_pos hf]
  · trivial

end FM.Spec
