import Verif.Proofs.Parser.FormatParse
import Verif.Props.Parsed

/-!
# Properties of differently formatted sources: C45
-/

namespace FM.Props
open FM FM.Spec FM.Parser

variable {c : Cfg} {source source' : Text} {rs rs' : List (LexRes TokRef)} {r : AstResult} {ast : Ast}

/-- **C45.**  If the tokens of two sources only differ in white space, comments and positions, then parsing does the same
on both, whatever it does: the trees, the errors and their messages only differ in white space, comments and positions. -/
theorem formatting_irrelevant (hl : lexAll c source = .ok rs) (hl' : lexAll c source' = .ok rs')
    (h : rs.map plainRes = rs'.map plainRes) :
    (parseFallible c source).bind (fun r => .ok (plainResult r)) = (parseFallible c source').bind (fun r => .ok (plainResult r)) := by
  have h1 := Format.same_parseTokens (c := c) (ts := rs) (ts' := rs') h
  unfold parseFallible
  rw [hl, hl']
  show (parseTokens c rs).bind _ = (parseTokens c rs').bind _
  cases hp : parseTokens c rs <;> cases hq : parseTokens c rs' <;> rw [hp, hq] at h1 <;>
    simp only [Format.strip_out_ok, Format.strip_out_panic, Format.strip_out_diverge, Outcome.ok.injEq, reduceCtorEq] at h1 <;>
    simp only [Outcome.bind, Outcome.ok.injEq]
  exact h1

theorem mapTok_comp (f g : TokRef → TokRef) (n : Node) : (n.mapTok f).mapTok g = n.mapTok (g ∘ f) := by
  have key : ∀ n : Node, (n.mapTok f).mapTok g = n.mapTok (g ∘ f) := by
    intro n
    refine Node.rec (motive_1 := fun n => (n.mapTok f).mapTok g = n.mapTok (g ∘ f))
      (motive_2 := fun cs => Node.mapTok.mapToks g (Node.mapTok.mapToks f cs) = Node.mapTok.mapToks (g ∘ f) cs) ?_ ?_ ?_ ?_ n
    · intro t
      rfl
    · intro k cs h
      exact congrArg (Node.node k) h
    · rfl
    · intro a as h1 h2
      show _ :: _ = _ :: _
      rw [h1, h2]
  exact key n

theorem bare_plain : bare ∘ plain = bare := rfl

mutual
theorem _root_.FM.HasTy.any {R : TokRef → Prop} : ∀ (n : Node) (a : Ty), HasTy R a n → HasTy (fun _ => True) a n
  | .tok t, a, h => by cases a <;> simp [HasTy] at h ⊢
  | .node k cs, a, h => by
    unfold HasTy at h ⊢
    split at h
    all_goals first
      | exact h.elim
      | exact h
      | (rename_i h2; obtain ⟨rfl, rfl⟩ := Node.node.inj h2
         first | exact ⟨h.1, HasTys.any _ _ h.2⟩ | exact HasTys.any _ _ h | exact AllTy.any _ _ h | exact h)
      | (rename_i h2; cases h2)
theorem _root_.FM.HasTys.any {R : TokRef → Prop} : ∀ (ns : List Node) (as : List Ty), HasTys R as ns → HasTys (fun _ => True) as ns
  | [], [], _ => by simp
  | [], _ :: _, h => by simp [HasTys] at h
  | _ :: _, [], h => by simp [HasTys] at h
  | n :: ns, a :: as, h => by
    rw [HasTys] at h ⊢
    exact ⟨HasTy.any n a h.1, HasTys.any ns as h.2⟩
theorem _root_.FM.AllTy.any {R : TokRef → Prop} : ∀ (ns : List Node) (a : Ty), AllTy R a ns → AllTy (fun _ => True) a ns
  | [], _, _ => by rw [AllTy]; trivial
  | n :: ns, a, h => by
    rw [AllTy] at h ⊢
    exact ⟨HasTy.any n a h.1, AllTy.any ns a h.2⟩
end

/-- **C45, for accepted sources.**  If the tokens of two sources only differ in white space, comments and positions and
one of them is accepted, then the other one is accepted too, the trees are equal up to white space, comments and
positions, and `similar` finds them similar. -/
theorem accepted_reformatted (hc : c.Reachable) (hl : lexAll c source = .ok rs) (hl' : lexAll c source' = .ok rs')
    (h : rs.map plainRes = rs'.map plainRes) (hp : parse c source = .ok (.ok ast)) :
    ∃ ast' : Ast, parse c source' = .ok (.ok ast') ∧ ast'.nodes.mapTok bare = ast.nodes.mapTok bare ∧
      ast.nodes.similar ast'.nodes = true := by
  have h1 := formatting_irrelevant hl hl' h
  obtain ⟨r, hr, he, rfl⟩ := parse_ok_iff.1 hp
  rw [hr] at h1
  rcases hq : parseFallible c source' with r' | _ | _ <;> rw [hq] at h1 <;> simp only [Outcome.bind, Outcome.ok.injEq, reduceCtorEq] at h1
  have h2 : r.errors.map plainErr = r'.errors.map plainErr := congrArg (fun r : AstResult => r.errors) h1
  have h3 : r.ast.nodes.mapTok plain = r'.ast.nodes.mapTok plain := congrArg (fun r : AstResult => r.ast.nodes) h1
  have h4 : r'.ast.nodes.mapTok bare = r.ast.nodes.mapTok bare := by
    rw [← bare_plain, ← mapTok_comp, ← mapTok_comp, h3]
  refine ⟨r'.ast, parse_ok_iff.2 ⟨r', hq, ?_, rfl⟩, h4, ?_⟩
  · rw [he] at h2
    exact List.map_eq_nil_iff.1 h2.symm
  · obtain ⟨R, ht⟩ := parsed_typed hc hr
    obtain ⟨R', ht'⟩ := parsed_typed hc hq
    refine (similar_iff_shape (ht.any _ _) (ht'.any _ _)).2 ?_
    unfold shape
    rw [h4]

/-- Two formats of a program. -/
example : ∃ rs rs', lexAll cfg51 c!"local a=f(1)--[[x]]return{a;b=c}" = .ok rs ∧
    lexAll cfg51 c!"-- x\nlocal a = f ( 1 )\n\nreturn {\n\ta ; -- first\n\tb = c\n}\n" = .ok rs' ∧
    rs.map plainRes = rs'.map plainRes ∧ rs ≠ rs' :=
  Outcome.run₂ (by decide +kernel)

/-- A program with an error. -/
example : ∃ rs rs', lexAll cfg51 c!"f(" = .ok rs ∧ lexAll cfg51 c!"f -- x\n  (" = .ok rs' ∧ rs.map plainRes = rs'.map plainRes :=
  Outcome.run₂ (by decide +kernel)

/-- The exception: a space between the braces of an interpolated string changes the result. -/
theorem double_brace_depends_on_space : ∃ r r', parseFallible cfgLuau c!"x = `{{1}}`" = .ok r ∧
    parseFallible cfgLuau c!"x = `{ {1} }`" = .ok r' ∧ r.errors.isEmpty = false ∧ r'.errors.isEmpty = true :=
  Outcome.run₂ (by decide +kernel)

end FM.Props
