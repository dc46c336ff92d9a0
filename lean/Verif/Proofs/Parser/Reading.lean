import Verif.Proofs.Parser.KindsLuau

/-! Helper lemmas: names for the conditions on the nodes that have more than one reading. -/

namespace FM.Parser
open FM.Spec

/-- No type of the list starts with `|` or `&`. -/
def Unled (types : Node) : Prop := ∀ m ∈ elements types, led m = false

/-- No type of the list is optional. -/
def NoOptional (types : Node) : Prop := ∀ m ∈ elements types, isOne [.tyOptional] m = false

/-- All but the last type of the list are single types. -/
def TupleOk (types : Node) : Prop :=
  (∀ m ∈ (elements types).dropLast, single m = true) ∧ ∀ m, (elements types).getLast? = some m → single m = true ∨ variadic m = true

/-- No parameter has a default. -/
def NoDefaults (generics : Node) : Prop := ∀ p ∈ genericParams generics, hasDefault p = false

/-- All but the last argument have single types. -/
def ArgsOk (args : Node) : Prop :=
  (∀ m ∈ (elements args).dropLast, ∀ t b, argType m = some (t, b) → single t = true) ∧
  ∀ m, (elements args).getLast? = some m → ∀ t b, argType m = some (t, b) → single t = true ∨ b = true ∧ variadic t = true

/-- The type does not start with what would be taken for an access modifier. -/
def NoAccess (access t : Node) : Prop :=
  isOne [.absent] access = true → startsTok (fun x => tokenNamed c!"read" x || tokenNamed c!"write" x) t = false

/-- There is at most one indexer. -/
def OneIndexer (fields : Node) : Prop := ((elements fields).filter indexer).length ≤ 1

/-- The type is a string if it starts with one. -/
def KeyOk (t : Node) : Prop := startsTok (fun x => x.token.type.kind == .stringLiteral) t = true → isOne [.tyString] t = true

/-- Packs and defaults come last. -/
def Ordered (list : Node) : Prop :=
  (elements list).Pairwise fun a b => (packParam a = true → packParam b = true) ∧ (hasDefault a = true → hasDefault b = true)

/-- The default belongs to the parameter. -/
def DefaultOk (p d : Node) : Prop := Chosen .genericDeclParam [p, d]

/-- The types of parameters. -/
def SpecsOk (params types : Node) : Prop := ∀ p ∈ params.children.zip types.children, ∀ t, specType p.2 = some t →
  single t = true ∨ namedParam p.1 = false ∧ isOne [.tyGenericPack] t = true

/-- The type does not start with `|` or `&`. -/
def ResultOk (result : Node) : Prop := ∀ t, specType result = some t → led t = false

/-- A variable has a type or an attribute. -/
def OneAnnotation (types attributes : Node) : Prop :=
  ∀ p ∈ types.children.zip attributes.children, isOne [.absent] p.1 = true ∨ isOne [.absent] p.2 = true

/-- The type is a single type. -/
def SpecOk (spec : Node) : Prop := ∀ t, specType spec = some t → single t = true

/-- The operator does not continue the type at the end of its left operand. -/
def OpOk (l o : Node) : Prop := ∀ t, lastType l = some t → opText o ≠ c!"|" ∧ opText o ≠ c!"&" ∧ (opText o = c!"<" → endsName t = false)

/-- The brace of the expression is not part of a double brace. -/
def BraceOk (t : TokRef) (e : Node) : Prop := t.trailing = [] → startsTok (tokenIs .leftBrace) e = false

variable {a b d e f g h i j k l m : Node} {t : TokRef}

@[simp] theorem chosen_tyOptional : Chosen .tyOptional [a, b] = (isOne [.tyUnion, .tyIntersection] a = false ∧ openCallback a = false ∧ list? a = false) := rfl
@[simp] theorem chosen_typeUnion : Chosen .typeUnion [a, b] = Members a b := rfl
@[simp] theorem chosen_typeIntersection : Chosen .typeIntersection [a, b] = (Members a b ∧ NoOptional b) := rfl
@[simp] theorem chosen_tyBasic : Chosen .tyBasic [a] = (startsTok (tokenNamed c!"typeof") a = false) := rfl
@[simp] theorem chosen_tyModule : Chosen .tyModule [a, b, d] = (startsTok (tokenNamed c!"typeof") a = false) := rfl
@[simp] theorem chosen_tyGeneric : Chosen .tyGeneric [a, b, d] = (startsTok (tokenNamed c!"typeof") a = false ∧ Unled d) := rfl
@[simp] theorem chosen_idxGeneric : Chosen .idxGeneric [a, b, d] = Unled d := rfl
@[simp] theorem chosen_typeInst : Chosen .typeInst [a, b, d] = Unled d := rfl
@[simp] theorem chosen_tyTuple : Chosen .tyTuple [a, b] = TupleOk b := rfl
@[simp] theorem chosen_tyCallback : Chosen .tyCallback [a, b, d, e, f] = (NoDefaults a ∧ led f = false ∧ ArgsOk d) := rfl
@[simp] theorem chosen_tyVariadic : Chosen .tyVariadic [a, b] = (single b = true) := rfl
@[simp] theorem chosen_tyArray : Chosen .tyArray [a, b, d] = (single d = true ∧ NoAccess b d) := rfl
@[simp] theorem chosen_tyTable : Chosen .tyTable [a, b] = OneIndexer b := rfl
@[simp] theorem chosen_typeField : Chosen .typeField [a, b, d, e] = (single e = true) := rfl
@[simp] theorem chosen_keyIndex : Chosen .keyIndex [a, b] = (single b = true ∧ KeyOk b) := rfl
@[simp] theorem chosen_typeAssertion : Chosen .typeAssertion [a, b] = (single b = true) := rfl
@[simp] theorem chosen_typeDecl : Chosen .typeDecl [a, b, d, e, f] = (single f = true) := rfl
@[simp] theorem chosen_genericDecl : Chosen .genericDecl [a, b] = Ordered b := rfl
@[simp] theorem chosen_genericDeclParam : Chosen .genericDeclParam [a, b] = DefaultOk a b := rfl
@[simp] theorem chosen_funcBody : Chosen .funcBody [a, b, d, e, f, g, h] = (NoDefaults a ∧ SpecsOk d e ∧ ResultOk f) := rfl
@[simp] theorem chosen_localAssignment : Chosen .localAssignment [a, b, d, e, f, g] = (singles b ∧ OneAnnotation b e) := rfl
@[simp] theorem chosen_genericFor : Chosen .genericFor [a, b, d, e, f, g, h, i] = singles i := rfl
@[simp] theorem chosen_numericFor : Chosen .numericFor [a, b, d, e, f, g, h, i, j, k, l, m] = SpecOk m := rfl
@[simp] theorem chosen_exprAssertion : Chosen .exprAssertion [a, b] = (isOne [.exprBinary, .exprAssertion] a = false ∧ innerAsserts a = false) := rfl
@[simp] theorem chosen_exprBinary : Chosen .exprBinary [a, b, d] = OpOk a b := rfl
@[simp] theorem chosen_interpSegment : Chosen .interpSegment [.tok t, a] = BraceOk t a := rfl
@[simp] theorem chosen_block : Chosen .block [a, b] = unasserteds a.children := rfl

end FM.Parser
