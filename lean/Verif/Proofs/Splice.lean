import Verif.Spec.Exchange
import Verif.Proofs.Within
import Verif.Proofs.Exchange
import Verif.Proofs.Append
import Verif.Proofs.LexSlice

/-!
# The tokens of a tree with an exchanged block
-/

namespace FM
open Spec

variable {c : Cfg} {R₀ : TokRef → Prop}

/-- `l'` is `l` with `xs` in the middle of it exchanged for `ys`. -/
def Splice {α : Type} (xs ys l l' : List α) : Prop := ∃ F G, l = F ++ (xs ++ G) ∧ l' = F ++ (ys ++ G)

theorem Splice.self {α : Type} (xs ys : List α) : Splice xs ys xs ys := ⟨[], [], by simp, by simp⟩

theorem Splice.left {α : Type} {xs ys l l' : List α} (a : List α) : Splice xs ys l l' → Splice xs ys (a ++ l) (a ++ l') := by
  rintro ⟨F, G, rfl, rfl⟩
  exact ⟨a ++ F, G, by simp, by simp⟩

theorem Splice.cons {α : Type} {xs ys l l' : List α} (a : α) (h : Splice xs ys l l') : Splice xs ys (a :: l) (a :: l') := h.left [a]

theorem Splice.right {α : Type} {xs ys l l' : List α} (b : List α) : Splice xs ys l l' → Splice xs ys (l ++ b) (l' ++ b) := by
  rintro ⟨F, G, rfl, rfl⟩
  exact ⟨F, G ++ b, by simp, by simp⟩

theorem names_split (p : Node) (ps as bs : List Node) :
    flatNames (p :: ps) as bs = part (p.children.map Node.flat) 0 ++ (part (as.map Node.flat) 0 ++
        (part (bs.map Node.flat) 0 ++ (part (p.children.map Node.flat) 1 ++ flatNames ps as.tail bs.tail))) := by
  simp [flatNames, joinNames, List.append_assoc]

theorem names_second {xs ys : List TokRef} {m m' : Node} {a : List Node} (h : Splice xs ys m.flat m'.flat) :
    ∀ {ps as b : List Node}, (b ++ m :: a).length ≤ ps.length → Splice xs ys (flatNames ps as (b ++ m :: a)) (flatNames ps as (b ++ m' :: a))
  | [], _, b, hl => by simp at hl
  | p :: ps, as, [], _ => by
    rw [names_split, names_split]
    exact ((h.right _).left _).left _
  | p :: ps, as, n :: b, hl => by
    rw [names_split, names_split]
    refine Splice.left _ (Splice.left _ (Splice.left _ (Splice.left _ ?_)))
    exact names_second h (ps := ps) (as := as.tail) (b := b) (by simp at hl ⊢; omega)

theorem names_first {xs ys : List TokRef} {m m' : Node} {a : List Node} (h : Splice xs ys m.flat m'.flat) :
    ∀ {ps bs b : List Node}, (b ++ m :: a).length ≤ ps.length → Splice xs ys (flatNames ps (b ++ m :: a) bs) (flatNames ps (b ++ m' :: a) bs)
  | [], _, b, hl => by simp at hl
  | p :: ps, bs, [], _ => by
    rw [names_split, names_split]
    exact (h.right _).left _
  | p :: ps, bs, n :: b, hl => by
    rw [names_split, names_split]
    refine Splice.left _ (Splice.left _ (Splice.left _ (Splice.left _ ?_)))
    exact names_first h (ps := ps) (bs := bs.tail) (b := b) (by simp at hl ⊢; omega)

theorem names_value {xs ys : List TokRef} {j : Kind} {m m' : Node} {a u v : List Node} (h : Splice xs ys m.flat m'.flat) (hv : (u ++ m :: v).length ≤ 2) :
    ∀ {b as bs : List Node}, Splice xs ys (flatNames (b ++ .node j (u ++ m :: v) :: a) as bs) (flatNames (b ++ .node j (u ++ m' :: v) :: a) as bs)
  | [], as, bs => by
    rw [List.nil_append, List.nil_append, names_split, names_split]
    match u, hv with
    | [], _ =>
      cases v with
      | nil => exact h.right _
      | cons v vs => exact h.right _
    | [w], _ => exact ((((h.right _).left _).left _).left _)
    | w :: w' :: u, hv => simp at hv
  | p :: b, as, bs => by
    rw [List.cons_append, List.cons_append, names_split, names_split]
    exact Splice.left _ (Splice.left _ (Splice.left _ (Splice.left _ (names_value h hv))))

/-- One child is exchanged. -/
def Inner (x y n n' : Node) (P : Node → Node → Prop) : Prop :=
  (n = x ∧ n' = y) ∨ ∃ k b m m' a, n = .node k (b ++ m :: a) ∧ n' = .node k (b ++ m' :: a) ∧ P m m'

theorem Spec.Exchanged.splice {x y n n' : Node} (hx : kindOf x = some .block) (h : Exchanged x y n n') :
    Typed R₀ n → AnnotationsFit n →
      Splice x.flat y.flat n.flat n'.flat ∧
      Inner x y n n' (fun m m' => Splice x.flat y.flat m.flat m'.flat ∧ Inner x y m m' fun m m' => Splice x.flat y.flat m.flat m'.flat) := by
  obtain ⟨xs, rfl⟩ := kindOf_block hx
  induction h with
  | here => exact fun _ _ => ⟨.self _ _, .inl ⟨rfl, rfl⟩⟩
  | @inside k before after m m' hex ih =>
    intro hty hann
    obtain ⟨hann, hanns⟩ := (Node.every_node _ _ _).1 hann
    obtain ⟨h1, h2⟩ := ih (hty.cases.1 m (by simp)) (hanns m (by simp))
    refine ⟨?_, .inr ⟨k, before, m, m', after, rfl, rfl, h1, ?_⟩⟩
    rotate_left
    · rcases h2 with h2 | ⟨k, b, z, z', a, e, e', h3, -⟩
      · exact .inl h2
      · exact .inr ⟨k, b, z, z', a, e, e', h3⟩
    have tok : ∀ {t : TokRef}, m ≠ .tok t := by
      rintro t rfl
      cases hex
    have span : ∀ {o c : TokRef}, m ≠ .spanOf (.tok o) (.tok c) := by
      rintro o c rfl
      rw [Node.spanOf] at hex
      generalize e : Node.node .span [.tok o, .tok c] = s at hex
      cases hex with
      | here => cases e
      | @inside k b a m m' hex =>
        injection e with e1 e2
        match b, e2 with
        | [], e2 => injection e2 with e3 e4; subst e3; cases hex
        | [_], e2 => injection e2 with e3 e4; injection e4 with e5 e6; subst e5; cases hex
        | _ :: _ :: b, e2 => simp at e2
    have vec : ∀ {ts : List Node}, m = .node .vec ts → ∃ b z z' a, ts = b ++ z :: a ∧ m' = .node .vec (b ++ z' :: a) ∧ Splice (Node.node .block xs).flat y.flat z.flat z'.flat := by
      rintro ts rfl
      rcases h2 with ⟨h2, -⟩ | ⟨k, b, z, z', a, e, e', h3, -⟩
      · cases h2
      · injection e with e1 e2
        subst e1
        exact ⟨b, z, z', a, e2, e', h3⟩
    have punct : ∀ {ps : List Node} {q : Ty}, m = .node .punct ps → (∀ p ∈ ps, HasTy R₀ (.pair q) p) → ∃ b j u z v z' a, ps = b ++ .node j (u ++ z :: v) :: a ∧
        m' = .node .punct (b ++ .node j (u ++ z' :: v) :: a) ∧ (u ++ z :: v).length ≤ 2 ∧ Splice (Node.node .block xs).flat y.flat z.flat z'.flat := by
      rintro ps q rfl hp
      rcases h2 with ⟨h2, -⟩ | ⟨k, b, p, p', a, e, e', -, h4⟩
      · cases h2
      · injection e with e1 e2
        subst e1 e2
        have hq := hp p (by simp)
        rcases h4 with ⟨rfl, -⟩ | ⟨j, u, z, z', v, rfl, rfl, h5⟩
        · rcases hasTy_pair.1 hq with ⟨_, _, e⟩ | ⟨_, _, _, _, e⟩ <;> cases e
        · refine ⟨b, j, u, z, v, z', a, rfl, e', ?_, h5⟩
          rcases hasTy_pair.1 hq with ⟨w, _, e⟩ | ⟨w, t, _, _, e⟩
          · injection e with _ e; rw [e]; simp
          · injection e with _ e; rw [e]; simp
    generalize hcs : before ++ m :: after = cs at hty hann
    cases hty.view with
    | plain hl =>
      rw [Node.flat_plain hl, Node.flat_plain hl, ← hcs]
      simp only [List.flatMap_append, List.flatMap_cons]
      exact (h1.right _).left _
    | wrap hk o c x =>
      match before, hcs with
      | [], hcs => injection hcs with e1 e2; exact absurd e1 span
      | [_], hcs =>
        simp only [List.cons_append, List.nil_append, List.cons.injEq] at hcs
        obtain ⟨rfl, rfl, rfl⟩ := hcs
        rw [List.cons_append, List.nil_append, flat_wrap hk, flat_wrap hk]
        exact (h1.right _).cons _
      | _ :: _ :: b, hcs => simp at hcs
    | wrapSecond hk b o c x =>
      match before, hcs with
      | [], hcs =>
        simp only [List.nil_append, List.cons.injEq] at hcs
        obtain ⟨rfl, rfl⟩ := hcs
        rw [List.nil_append, flat_wrapSecond hk, flat_wrapSecond hk]
        exact h1.right _
      | [_], hcs =>
        simp only [List.cons_append, List.nil_append, List.cons.injEq] at hcs
        exact absurd hcs.2.1 span
      | [_, _], hcs =>
        simp only [List.cons_append, List.nil_append, List.cons.injEq] at hcs
        obtain ⟨rfl, rfl, rfl, rfl⟩ := hcs
        rw [List.cons_append, List.cons_append, List.nil_append, flat_wrapSecond hk, flat_wrapSecond hk]
        exact ((h1.right _).cons _).left _
      | _ :: _ :: _ :: b, hcs => simp at hcs
    | fieldExprKey o c x e v =>
      match before, hcs with
      | [], hcs => injection hcs with e1 e2; exact absurd e1 span
      | [_], hcs =>
        simp only [List.cons_append, List.nil_append, List.cons.injEq] at hcs
        obtain ⟨rfl, rfl, rfl⟩ := hcs
        rw [List.cons_append, List.nil_append, flat_fieldExprKey, flat_fieldExprKey]
        exact (h1.right _).cons _
      | [_, _], hcs =>
        simp only [List.cons_append, List.nil_append, List.cons.injEq] at hcs
        exact absurd hcs.2.2.1 tok
      | [_, _, _], hcs =>
        simp only [List.cons_append, List.nil_append, List.cons.injEq] at hcs
        obtain ⟨rfl, rfl, rfl, rfl, rfl⟩ := hcs
        rw [List.cons_append, List.cons_append, List.cons_append, List.nil_append, flat_fieldExprKey, flat_fieldExprKey]
        exact (((h1.left _).cons _).left _).cons _
      | _ :: _ :: _ :: _ :: b, hcs => simp at hcs
    | tyArray o c x v =>
      match before, hcs with
      | [], hcs => injection hcs with e1 e2; exact absurd e1 span
      | [_], hcs =>
        simp only [List.cons_append, List.nil_append, List.cons.injEq] at hcs
        obtain ⟨rfl, rfl, rfl⟩ := hcs
        rw [List.cons_append, List.nil_append, flat_tyArray, flat_tyArray]
        exact (h1.right _).cons _
      | [_, _], hcs =>
        simp only [List.cons_append, List.nil_append, List.cons.injEq] at hcs
        obtain ⟨rfl, rfl, rfl, rfl⟩ := hcs
        rw [List.cons_append, List.cons_append, List.nil_append, flat_tyArray, flat_tyArray]
        exact ((h1.right _).left _).cons _
      | _ :: _ :: _ :: b, hcs => simp at hcs
    | tyCallback g o c x a r =>
      match before, hcs with
      | [], hcs =>
        simp only [List.nil_append, List.cons.injEq] at hcs
        obtain ⟨rfl, rfl⟩ := hcs
        rw [List.nil_append, flat_tyCallback, flat_tyCallback]
        exact h1.right _
      | [_], hcs =>
        simp only [List.cons_append, List.nil_append, List.cons.injEq] at hcs
        exact absurd hcs.2.1 span
      | [_, _], hcs =>
        simp only [List.cons_append, List.nil_append, List.cons.injEq] at hcs
        obtain ⟨rfl, rfl, rfl, rfl⟩ := hcs
        rw [List.cons_append, List.cons_append, List.nil_append, flat_tyCallback, flat_tyCallback]
        exact ((h1.right _).cons _).left _
      | [_, _, _], hcs =>
        simp only [List.cons_append, List.nil_append, List.cons.injEq] at hcs
        exact absurd hcs.2.2.2.1 tok
      | [_, _, _, _], hcs =>
        simp only [List.cons_append, List.nil_append, List.cons.injEq] at hcs
        obtain ⟨rfl, rfl, rfl, rfl, rfl, rfl⟩ := hcs
        rw [List.cons_append, List.cons_append, List.cons_append, List.cons_append, List.nil_append, flat_tyCallback, flat_tyCallback]
        exact ((((h1.left _).cons _).left _).cons _).left _
      | _ :: _ :: _ :: _ :: _ :: b, hcs => simp at hcs
    | typeInst o p i j x =>
      match before, hcs with
      | [], hcs => injection hcs with e1 e2; exact absurd e1 span
      | [_], hcs =>
        simp only [List.cons_append, List.nil_append, List.cons.injEq] at hcs
        exact absurd hcs.2.1 span
      | [_, _], hcs =>
        simp only [List.cons_append, List.nil_append, List.cons.injEq] at hcs
        obtain ⟨rfl, rfl, rfl, rfl⟩ := hcs
        rw [List.cons_append, List.cons_append, List.nil_append, flat_typeInst, flat_typeInst]
        exact ((h1.right _).cons _).cons _
      | _ :: _ :: _ :: b, hcs => simp at hcs
    | numericFor f i e s c t c' p d b n ty =>
      match before, hcs with
      | [], hcs =>
        cases hcs
        rw [List.nil_append, flat_numericFor, flat_numericFor]; exact h1.right _
      | [_], hcs =>
        cases hcs
        simp only [List.cons_append, List.nil_append]; rw [flat_numericFor, flat_numericFor]; exact (h1.right _).left _
      | [_, _], hcs =>
        cases hcs
        simp only [List.cons_append, List.nil_append]; rw [flat_numericFor, flat_numericFor]; exact (((h1.right _).left _).left _).left _
      | [_, _, _], hcs =>
        cases hcs
        simp only [List.cons_append, List.nil_append]; rw [flat_numericFor, flat_numericFor]; exact ((((h1.right _).left _).left _).left _).left _
      | [_, _, _, _], hcs =>
        cases hcs
        simp only [List.cons_append, List.nil_append]; rw [flat_numericFor, flat_numericFor]; exact (((((h1.right _).left _).left _).left _).left _).left _
      | [_, _, _, _, _], hcs =>
        cases hcs
        simp only [List.cons_append, List.nil_append]; rw [flat_numericFor, flat_numericFor]
        exact ((((((h1.right _).left _).left _).left _).left _).left _).left _
      | [_, _, _, _, _, _], hcs =>
        cases hcs
        simp only [List.cons_append, List.nil_append]; rw [flat_numericFor, flat_numericFor]
        exact (((((((h1.right _).left _).left _).left _).left _).left _).left _).left _
      | [_, _, _, _, _, _, _], hcs =>
        cases hcs
        simp only [List.cons_append, List.nil_append]; rw [flat_numericFor, flat_numericFor]
        exact ((((((((h1.right _).left _).left _).left _).left _).left _).left _).left _).left _
      | [_, _, _, _, _, _, _, _], hcs =>
        cases hcs
        simp only [List.cons_append, List.nil_append]; rw [flat_numericFor, flat_numericFor]
        exact (((((((((h1.right _).left _).left _).left _).left _).left _).left _).left _).left _).left _
      | [_, _, _, _, _, _, _, _, _], hcs =>
        cases hcs
        simp only [List.cons_append, List.nil_append]; rw [flat_numericFor, flat_numericFor]
        exact ((((((((((h1.right _).left _).left _).left _).left _).left _).left _).left _).left _).left _).left _
      | [_, _, _, _, _, _, _, _, _, _], hcs =>
        cases hcs
        simp only [List.cons_append, List.nil_append]; rw [flat_numericFor, flat_numericFor]
        exact ((((((((((h1.left _).left _).left _).left _).left _).left _).left _).left _).left _).left _).left _
      | [_, _, _, _, _, _, _, _, _, _, _], hcs =>
        cases hcs
        simp only [List.cons_append, List.nil_append]; rw [flat_numericFor, flat_numericFor]; exact ((h1.right _).left _).left _
      | _ :: _ :: _ :: _ :: _ :: _ :: _ :: _ :: _ :: _ :: _ :: _ :: b, hcs => simp at hcs
    | genericFor f ps i e d b n ts hp ht =>
      match before, hcs with
      | [], hcs => injection hcs with e1 e2; exact absurd e1 tok
      | [_], hcs =>
        simp only [List.cons_append, List.nil_append, List.cons.injEq] at hcs
        obtain ⟨rfl, h3, rfl⟩ := hcs
        obtain ⟨b, j, u, z, v, z', a, rfl, rfl, h4, h5⟩ := punct h3 hp
        simp only [List.cons_append, List.nil_append]; rw [flat_genericFor, flat_genericFor]
        exact ((names_value h5 h4).right _).left _
      | [_, _], hcs =>
        cases hcs
        simp only [List.cons_append, List.nil_append]; rw [flat_genericFor, flat_genericFor]
        exact ((h1.right _).left _).left _
      | [_, _, _], hcs =>
        cases hcs
        simp only [List.cons_append, List.nil_append]; rw [flat_genericFor, flat_genericFor]
        exact (((h1.right _).left _).left _).left _
      | [_, _, _, _], hcs =>
        cases hcs
        simp only [List.cons_append, List.nil_append]; rw [flat_genericFor, flat_genericFor]
        exact ((((h1.right _).left _).left _).left _).left _
      | [_, _, _, _, _], hcs =>
        cases hcs
        simp only [List.cons_append, List.nil_append]; rw [flat_genericFor, flat_genericFor]
        exact (((((h1.right _).left _).left _).left _).left _).left _
      | [_, _, _, _, _, _], hcs =>
        simp only [List.cons_append, List.nil_append, List.cons.injEq] at hcs
        exact absurd hcs.2.2.2.2.2.2.1 tok
      | [_, _, _, _, _, _, _], hcs =>
        simp only [List.cons_append, List.nil_append, List.cons.injEq] at hcs
        obtain ⟨rfl, rfl, rfl, rfl, rfl, rfl, rfl, h3, rfl⟩ := hcs
        obtain ⟨b, z, z', a, rfl, rfl, h5⟩ := vec h3
        simp only [List.cons_append, List.nil_append]; rw [flat_genericFor, flat_genericFor]
        exact ((names_second h5 hann).right _).left _
      | _ :: _ :: _ :: _ :: _ :: _ :: _ :: _ :: b, hcs => simp at hcs
    | funcBody g o c ps ts r b n hp ht =>
      match before, hcs with
      | [], hcs =>
        cases hcs
        rw [List.nil_append, flat_funcBody, flat_funcBody]; exact h1.right _
      | [_], hcs =>
        simp only [List.cons_append, List.nil_append, List.cons.injEq] at hcs
        exact absurd hcs.2.1 span
      | [_, _], hcs =>
        simp only [List.cons_append, List.nil_append, List.cons.injEq] at hcs
        obtain ⟨rfl, rfl, h3, rfl⟩ := hcs
        obtain ⟨b, j, u, z, v, z', a, rfl, rfl, h4, h5⟩ := punct h3 hp
        simp only [List.cons_append, List.nil_append]; rw [flat_funcBody, flat_funcBody]
        exact (((names_value h5 h4).right _).cons _).left _
      | [_, _, _], hcs =>
        simp only [List.cons_append, List.nil_append, List.cons.injEq] at hcs
        obtain ⟨rfl, rfl, rfl, h3, rfl⟩ := hcs
        obtain ⟨b, z, z', a, rfl, rfl, h5⟩ := vec h3
        simp only [List.cons_append, List.nil_append]; rw [flat_funcBody, flat_funcBody]
        exact (((names_second h5 hann).right _).cons _).left _
      | [_, _, _, _], hcs =>
        cases hcs
        simp only [List.cons_append, List.nil_append]; rw [flat_funcBody, flat_funcBody]
        exact ((((h1.right _).cons _).left _).cons _).left _
      | [_, _, _, _, _], hcs =>
        cases hcs
        simp only [List.cons_append, List.nil_append]; rw [flat_funcBody, flat_funcBody]
        exact (((((h1.right _).left _).cons _).left _).cons _).left _
      | [_, _, _, _, _, _], hcs =>
        simp only [List.cons_append, List.nil_append, List.cons.injEq] at hcs
        exact absurd hcs.2.2.2.2.2.2.1 tok
      | _ :: _ :: _ :: _ :: _ :: _ :: _ :: b, hcs => simp at hcs
    | localAssignment l ts ps as e x hp ht ha =>
      match before, hcs with
      | [], hcs => injection hcs with e1 e2; exact absurd e1 tok
      | [_], hcs =>
        simp only [List.cons_append, List.nil_append, List.cons.injEq] at hcs
        obtain ⟨rfl, h3, rfl⟩ := hcs
        obtain ⟨b, z, z', a, rfl, rfl, h5⟩ := vec h3
        simp only [List.cons_append, List.nil_append]; rw [flat_localAssignment, flat_localAssignment]
        exact ((names_second h5 hann.1).right _).left _
      | [_, _], hcs =>
        simp only [List.cons_append, List.nil_append, List.cons.injEq] at hcs
        obtain ⟨rfl, rfl, h3, rfl⟩ := hcs
        obtain ⟨b, j, u, z, v, z', a, rfl, rfl, h4, h5⟩ := punct h3 hp
        simp only [List.cons_append, List.nil_append]; rw [flat_localAssignment, flat_localAssignment]
        exact ((names_value h5 h4).right _).left _
      | [_, _, _], hcs =>
        simp only [List.cons_append, List.nil_append, List.cons.injEq] at hcs
        obtain ⟨rfl, rfl, rfl, h3, rfl⟩ := hcs
        obtain ⟨b, z, z', a, rfl, rfl, h5⟩ := vec h3
        simp only [List.cons_append, List.nil_append]; rw [flat_localAssignment, flat_localAssignment]
        exact ((names_first h5 hann.2).right _).left _
      | [_, _, _, _], hcs =>
        cases hcs
        simp only [List.cons_append, List.nil_append]; rw [flat_localAssignment, flat_localAssignment]
        exact ((h1.right _).left _).left _
      | [_, _, _, _, _], hcs =>
        cases hcs
        simp only [List.cons_append, List.nil_append]; rw [flat_localAssignment, flat_localAssignment]
        exact ((h1.left _).left _).left _
      | _ :: _ :: _ :: _ :: _ :: _ :: b, hcs => simp at hcs

/-! ## The text -/

abbrev textOf (tys : List TokenType) : Text := tys.flatMap TokenType.display

theorem display_types (us : List TokRef) : us.flatMap TokRef.display = textOf ((us.flatMap TokRef.flat).map Token.type) := by
  rw [textOf, List.flatMap_map, List.flatMap_assoc]
  congr 1
  funext u
  simp [TokRef.display, TokRef.flat, Token.display]
  rfl

/-- Tokens without strings leave no string open. -/
theorem runBraces_normal : ∀ {ts : List TokRef} {bs bs' : List BraceType}, (∀ t ∈ ts, ¬ Interpolated t.token.type) → runBraces ts bs = some bs' →
    .interpolatedString ∉ bs → .interpolatedString ∉ bs'
  | [], _, _, _, h, hb => by cases h; exact hb
  | t :: ts, bs, bs', hi, h, hb => by
    rw [runBraces] at h
    obtain ⟨b1, h1, h2⟩ := Option.bind_eq_some_iff.1 h
    refine runBraces_normal (fun u hu => hi u (.tail _ hu)) h2 ?_
    have ht := hi t (.head _)
    unfold stepBraces at h1
    split at h1
    · cases h1
      simpa using hb
    · split at h1
      · cases h1
      · cases h1
        exact fun hm => hb (List.mem_of_mem_tail hm)
    · rename_i e; exact absurd ⟨_, _, e⟩ ht
    · rename_i e; exact absurd ⟨_, _, e⟩ ht
    · rename_i e; exact absurd ⟨_, _, e⟩ ht
    · cases h1
      exact hb

/-- Without strings, the open braces are the same as before. -/
theorem Above.same {ts : List TokRef} (ha : Above ts) (hi : ∀ t ∈ ts, ¬ Interpolated t.token.type) {bs bs' : List BraceType} (h : runBraces ts bs = some bs') :
    ∀ base, runBraces ts base = some base := by
  obtain ⟨j, -, h2⟩ := ha _ _ h
  have := runBraces_normal hi (h2 []) (by simp)
  cases j with
  | zero => exact h2
  | succ j => simp [strings, List.replicate_succ] at this

/-- The text of some tokens in the middle of a text exchanged for that of others. -/
theorem lexes_spliced (hc : c.Good) {tF tX tG tY tF' tH : List TokenType} {s s' : Text} (hA : Lexes c [] s (tF ++ (tX ++ (tG ++ [.eof]))))
    (hB : Lexes c [] s' (tF' ++ (tY ++ tH))) (hH : tH ≠ [])
    (hX : c.has .luau = true → ∀ bs bs', runTypes tX bs = some bs' → ∀ base, runTypes tX base = some base)
    (hY : c.has .luau = true → ∀ bs bs', runTypes tY bs = some bs' → ∀ base, runTypes tY base = some base)
    (eF : textOf tF = [] ∨ (textOf tF).getLast? = some '\n') (eY : textOf tY = [] ∨ (textOf tY).getLast? = some '\n') :
    s = textOf tF ++ (textOf tX ++ textOf tG) ∧ Lexes c [] (textOf tF ++ (textOf tY ++ textOf tG)) (tF ++ (tY ++ (tG ++ [.eof]))) ∧
      (tF = [] ∨ ∃ ty, tF.getLast? = some ty ∧ EndsLine ty) ∧ (tY = [] ∨ ∃ ty, tY.getLast? = some ty ∧ EndsLine ty) := by
  obtain ⟨b1, r1, e1, h1, k1⟩ := lexes_drop (by simp) hA
  obtain ⟨b2, r2, e2, h2, k2⟩ := lexes_drop (by simp) h1
  obtain ⟨b3, r3, e3, h3, k3⟩ := lexes_drop (by simp) h2
  have e4 : r3 = [] := by
    cases h3 with
    | eof => rfl
    | token _ h => cases h
  have f1 := lexes_take (base := []) (by simp) hA fun hl => by rw [k1 hl]; simp
  obtain ⟨ta, b1', g1, g2, g3, g4⟩ := lexes_append hc f1 eF
  obtain ⟨rfl, -⟩ := List.append_inj' g1 rfl
  obtain ⟨b4, r4, -, h4, k4⟩ := lexes_drop (by simp [hH]) hB
  obtain ⟨b5, r5, -, h5, k5⟩ := lexes_drop hH h4
  have f2 := lexes_take (base := b1') hH h4 fun hl => by rw [hY hl _ _ (k5 hl)]; simp
  obtain ⟨ta', b6, g5, g6, g7, g8⟩ := lexes_append hc f2 eY
  obtain ⟨rfl, -⟩ := List.append_inj' g5 rfl
  have f3 := lexes_take (base := b6) (tys := [.eof]) (by simp) h2 fun hl => by
    have q1 : b1' = b1 := Option.some.inj ((g2 hl).symm.trans (k1 hl))
    have q2 : b6 = b1' := Option.some.inj ((g6 hl).symm.trans (hY hl _ _ (k5 hl) _))
    have q3 : b2 = b1 := Option.some.inj ((k2 hl).symm.trans (hX hl _ _ (k2 hl) _))
    rw [q2, q1, ← q3, k3 hl]
    simp
  refine ⟨by rw [e1, e2, e3, e4, List.append_nil], g4 (g8 f3), g3, g7⟩

/-- The token references of the text. -/
theorem attaches_spliced {F X Y G F' H : List TokRef} (hG : G ≠ []) (hH : H ≠ [])
    (pA : ∀ a x y b, F ++ (X ++ G) = a ++ x :: y :: b → restOfLine (x.trailing ++ y.flat) = (x.trailing, y.flat)) (sA : ∀ u ∈ F ++ (X ++ G), Sorted u)
    (pB : ∀ a x y b, F' ++ (Y ++ H) = a ++ x :: y :: b → restOfLine (x.trailing ++ y.flat) = (x.trailing, y.flat)) (sB : ∀ u ∈ F' ++ (Y ++ H), Sorted u)
    (hlast : ∀ u, G.getLast? = some u → u.trailing = [])
    (eF : F.flatMap TokRef.flat = [] ∨ ∃ x, (F.flatMap TokRef.flat).getLast? = some x ∧ EndsLine x.type)
    (eY : Y.flatMap TokRef.flat = [] ∨ ∃ x, (Y.flatMap TokRef.flat).getLast? = some x ∧ EndsLine x.type) :
    Attaches ((F ++ (Y ++ G)).flatMap TokRef.flat) (F ++ (Y ++ G)) := by
  have a1 : Attaches (G.flatMap TokRef.flat) G := by
    refine attaches_of _ (fun a x y b e => pA (F ++ (X ++ a)) x y b (by rw [e]; simp)) (fun u hu => ?_) hlast
    obtain ⟨g1, g2, g3⟩ := sA u (by simp [hu])
    exact ⟨g1, fun x hx => (List.mem_append.1 hx).elim (g2 x) (g3 x)⟩
  have step : ∀ {U V : List TokRef}, V ≠ [] → Attaches (U.flatMap TokRef.flat ++ [eofAt.token]) (U ++ [eofAt]) →
      (U.flatMap TokRef.flat = [] ∨ ∃ x, (U.flatMap TokRef.flat).getLast? = some x ∧ EndsLine x.type) → Attaches (V.flatMap TokRef.flat) V →
      Attaches ((U ++ V).flatMap TokRef.flat) (U ++ V) := by
    intro U V hV h1 h2 h3
    obtain ⟨us, l, h4, h5⟩ := attaches_append rfl h1 rfl h2
    obtain ⟨rfl, h6⟩ := List.append_inj' h4 rfl
    cases V with
    | nil => exact absurd rfl hV
    | cons v V =>
      have := h5 h3
      have hl : l = [] := by
        have h7 := (List.cons.inj h6).1
        exact (congrArg TokRef.leading h7).symm
      subst hl
      rw [List.flatMap_append]
      exact this
  have a2 := step hG (attaches_slice hH pB sB) eY a1
  exact step (by simp [hG]) (attaches_slice (A := []) (B := F) (C := X ++ G) (by simp [hG]) pA sA) eF a2

end FM
