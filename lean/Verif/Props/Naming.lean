import Verif.Model.Ast.Naming
import Verif.Spec.Events

/-!
# Every hook belongs to one type of node: C72
-/

namespace FM.Props
open FM Spec

/-- The name of a type: a capital letter, and no underscore. -/
def IsTypeName : Text → Prop
  | [] => False
  | ch :: r => isUpper ch = true ∧ '_' ∉ r

theorem isUpper_nat {ch : Char} (h : isUpper ch = true) : 65 ≤ ch.toNat ∧ ch.toNat ≤ 90 := by
  simp only [isUpper, Bool.and_eq_true, decide_eq_true_eq, Char.le_def, UInt32.le_iff_toNat_le] at h
  exact h

theorem lower_nat {ch : Char} (h : isUpper ch = true) : (lower ch).toNat = ch.toNat + 32 := by
  obtain ⟨h1, h2⟩ := isUpper_nat h
  have hv : (ch.toNat + 32).isValidChar := .inl (by omega)
  simp only [lower, h, if_true, Char.ofNat, hv, dif_pos]
  rfl

theorem lower_inj {x y : Char} (hx : isUpper x = true) (hy : isUpper y = true) (h : lower x = lower y) : x = y := by
  have := lower_nat hx
  have := lower_nat hy
  rw [h] at *
  exact Char.toNat_inj.1 (by omega)

theorem snakeRest_inj : ∀ {a b : Text}, '_' ∉ a → '_' ∉ b → snakeRest a = snakeRest b → a = b
  | [], [], _, _, _ => rfl
  | [], y :: b, _, _, h => by
    simp only [snakeRest] at h
    split at h <;> cases h
  | x :: a, [], _, _, h => by
    simp only [snakeRest] at h
    split at h <;> cases h
  | x :: a, y :: b, ha, hb, h => by
    simp only [List.mem_cons, not_or] at ha hb
    simp only [snakeRest] at h
    split at h <;> split at h <;> simp only [List.cons.injEq, true_and] at h
    · rename_i h1 h2
      rw [lower_inj h1 h2 h.1, snakeRest_inj ha.2 hb.2 h.2]
    · exact absurd h.1 hb.1
    · exact absurd h.1.symm ha.1
    · rw [h.1, snakeRest_inj ha.2 hb.2 h.2]

theorem snakeRest_append (a b : Text) : snakeRest (a ++ b) = snakeRest a ++ snakeRest b := by
  induction a with
  | nil => rfl
  | cons x a ih => simp only [List.cons_append, snakeRest, ih]; split <;> rfl

/-- Making the name of a hook fails for the empty name only, which no type has. -/
theorem hook_name_made (type : Text) : (∃ h, hookOf type = .ok h) ↔ type ≠ [] := by
  cases type <;> simp [hookOf, snakeCase]

/-- **C72, for every type a user of the derive macro may write**: types with different names call different hooks. -/
theorem hooks_of_types_differ {a b : Text} (ha : IsTypeName a) (hb : IsTypeName b) :
    (hookOf a = hookOf b ↔ a = b) ∧ (hookEndOf a = hookEndOf b ↔ a = b) := by
  match a, b, ha, hb with
  | x :: a, y :: b, ha, hb =>
    have key : lower x :: snakeRest a = lower y :: snakeRest b → x :: a = y :: b := by
      intro h
      simp only [List.cons.injEq] at h
      rw [lower_inj ha.1 hb.1 h.1, snakeRest_inj ha.2 hb.2 h.2]
    refine ⟨⟨fun h => ?_, fun h => by rw [h]⟩, ⟨fun h => ?_, fun h => by rw [h]⟩⟩
    · simp only [hookOf, snakeCase, Outcome.bind, Outcome.ok.injEq] at h
      exact key (List.append_cancel_left h)
    · simp only [hookEndOf, snakeCase, Outcome.bind, Outcome.ok.injEq] at h
      exact key (List.append_cancel_left (List.append_cancel_right h))

/-- **C72**: the hook called first for one type is the one called last for another only if its name is that of the other
followed by `End`. -/
theorem hooks_first_last {a b : Text} (ha : IsTypeName a) (hb : IsTypeName b) : hookOf a = hookEndOf b ↔ a = b ++ c!"End" := by
  have hend : hookEndOf b = hookOf (b ++ c!"End") := by
    match b, hb with
    | y :: b, hb =>
      have e : snakeRest c!"End" = c!"_end" := by decide
      simp only [hookEndOf, hookOf, snakeCase, Outcome.bind, List.cons_append, snakeRest_append, e, List.append_assoc]
  have hb' : IsTypeName (b ++ c!"End") := by
    match b, hb with
    | y :: b, hb => exact ⟨hb.1, by simpa using hb.2⟩
  rw [hend]
  exact (hooks_of_types_differ ha hb').1

/-- All names of node types are names of this form. -/
theorem typeName_ok (k : Cat) : IsTypeName k.typeName := by
  cases k <;> exact ⟨by decide, by decide⟩

/-- All node types. -/
def allCats : List Cat := [.block, .lastStmt, .ret, .field, .tableCtor, .anonFunc, .expr, .stmt, .prefix, .index, .args, .numericFor, .genericFor, .ifBlock, .elseIf, .whileBlock, .repeatBlock, .methodCall, .call, .funcBody, .param, .suffix, .varExpr, .var, .assignment, .localFunction, .localAssignment, .doBlock, .functionCall, .functionName, .functionDecl, .binOp, .unOp, .attribute, .gotoStmt, .label, .compoundAssignment, .compoundOp, .typeInfo, .typeUnion, .typeIntersection, .indexedType, .typeField, .typeFieldKey, .typeAssertion, .typeDecl, .genericParam, .genericDeclParam, .genericDecl, .typeSpec, .typeArg, .exportedTypeDecl, .typeFunction, .exportedTypeFunction, .ifExpr, .elseIfExpr, .interpString, .interpSegment, .luauAttr, .typeInst]

theorem mem_allCats (k : Cat) : k ∈ allCats := by
  cases k <;> decide

theorem typeName_inj {k k' : Cat} (h : k.typeName = k'.typeName) : k = k' := by
  have f : ∀ k : Cat, allCats.find? (fun x => x.typeName == k.typeName) = some k := by
    intro k
    cases k <;> rfl
  have h1 := f k
  rw [h, f k'] at h1
  exact (Option.some.inj h1).symm

/-- **C72**: the visitor traits have the hooks that nodes of a type call, they are given nodes of this type, and no
other node type calls them. -/
theorem hook_declared (k : Cat) (hk : hasHooks k = true) :
    ∃ h, hookOf k.typeName = .ok h ∧ (h, k.typeName) ∈ declaredHooks ∧ (∀ t, (h, t) ∈ declaredHooks → t = k.typeName) ∧
      h ∉ declaredTokenHooks ∧ ∀ k', hookOf k'.typeName = .ok h → k' = k := by
  have facts : ∀ k ∈ allCats, hasHooks k = true → ∃ h ∈ declaredHooks.map Prod.fst, hookOf k.typeName = .ok h ∧ (h, k.typeName) ∈ declaredHooks ∧
      (∀ r ∈ declaredHooks, r.1 = h → r.2 = k.typeName) ∧ h ∉ declaredTokenHooks := by decide +kernel
  obtain ⟨h, _, h1, h2, h3, h4⟩ := facts k (mem_allCats k) hk
  refine ⟨h, h1, h2, fun t ht => h3 _ ht rfl, h4, fun k' hk' => ?_⟩
  exact typeName_inj ((hooks_of_types_differ (typeName_ok k') (typeName_ok k)).1.1 (hk'.trans h1.symm))

/-- **C72**: the hooks called first are not those called last. -/
theorem hooks_not_both (k k' : Cat) : hookOf k.typeName ≠ hookEndOf k'.typeName := by
  intro h
  have e := (hooks_first_last (typeName_ok k) (typeName_ok k')).1 h
  have facts : ∀ k ∈ allCats, k.typeName.reverse.take 3 ≠ c!"dnE" := by decide +kernel
  exact facts k (mem_allCats k) (by rw [e]; simp)

/-- **Where the traits have more**: these four hooks are not named after a node type.  `visit_token_reference` and `visit_eof`
are called for tokens; the other two are never called (C52). -/
theorem hooks_not_named {h t : Text} (hm : (h, t) ∈ declaredHooks) :
    (∀ k : Cat, hookOf k.typeName ≠ .ok h) ↔ h ∈ [c!"visit_anonymous_call", c!"visit_contained_span", c!"visit_eof", c!"visit_token_reference"] := by
  have facts : ∀ r ∈ declaredHooks, (∀ k ∈ allCats, hookOf k.typeName ≠ .ok r.1) ↔
      r.1 ∈ [c!"visit_anonymous_call", c!"visit_contained_span", c!"visit_eof", c!"visit_token_reference"] := by decide +kernel
  rw [← facts _ hm]
  exact ⟨fun h k _ => h k, fun h k => h k (mem_allCats k)⟩

/-! ## Non-vacuity -/

example : IsTypeName c!"IfExpression" ∧ hookOf c!"IfExpression" = .ok c!"visit_if_expression" ∧ hookEndOf c!"If" = .ok c!"visit_if_end" := by
  refine ⟨⟨by decide, by decide⟩, rfl, rfl⟩

/-- Without the condition on names the claim would be wrong. -/
example : hookOf c!"FunctionArgs" = hookOf c!"Function_args" := rfl

/-- A type `IfEnd` would share a hook with `If`. -/
example : hookOf c!"IfEnd" = hookEndOf c!"If" := rfl

end FM.Props
