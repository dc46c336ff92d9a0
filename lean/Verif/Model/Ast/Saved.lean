import Verif.Model.Ast.Shapes
import Verif.Model.Ast.Builders

/-!
# Storing trees with serde

What `Serialize` writes and what `Deserialize` reads, as serde's derives generate them, in a format that describes itself
(JSON, YAML, ...): maps, sequences, strings, numbers and null.  The derives are not in /repo; their documented behaviour is
modelled here:
* a struct is a map from field names; a field is left out if it has `skip_serializing_if` and the test holds;
* reading a struct ignores unknown fields, refuses a field that occurs twice, and refuses a field that is missing, except
  that a missing `Option` is `None` and a missing field with `#[serde(default)]` is the default;
* a variant is a map with one entry, from its name to its field or fields;  a variant without fields is its name;
* `#[serde(tag = "type")]` stores the name of the variant as one more field.
Reading a struct from a sequence, which the derives also allow, is left out: it is not what is written.  Symbols and
variants that exist only with a feature are read regardless of the features.
-/

namespace FM

/-- What a self-describing format can hold. -/
inductive Val where
  | null
  | num (n : Nat)
  | str (s : Text)
  | seq (xs : List Val)
  | map (entries : List (Text × Val))

namespace Val

/-- The values stored under a name. -/
def under (name : Text) (m : List (Text × Val)) : List Val := (m.filter (·.1 == name)).map (·.2)

/-- A field that must be there, once. -/
def field (name : Text) : Val → Option Val
  | .map m =>
    match under name m with
    | [v] => some v
    | _ => none
  | _ => none

/-- A number. -/
def toNum : Val → Option Nat
  | .num n => some n
  | _ => none

/-- A string. -/
def toStr : Val → Option Text
  | .str s => some s
  | _ => none

/-- Reading a `Vec`. -/
def toList {α : Type} (item : Val → Option α) : Val → Option (List α)
  | .seq vs => vs.mapM item
  | _ => none

end Val

/-! ## Tokens -/

/-- `Serialize for Position` (tokenizer/structs.rs 852–858). -/
def Position.save (p : Position) : Val :=
  .map [(c!"bytes", .num p.bytes), (c!"line", .num p.line), (c!"character", .num p.character)]

/-- `Deserialize for Position` (tokenizer/structs.rs 852–858). -/
def Position.load (v : Val) : Option Position := do
  let bytes ← (← v.field c!"bytes").toNum
  let line ← (← v.field c!"line").toNum
  let character ← (← v.field c!"character").toNum
  pure ⟨bytes, line, character⟩

/-- The names of the variants of `StringLiteralQuoteType` (tokenizer/structs.rs 891–903). -/
def Quote.serdeName : Quote → Text
  | .brackets => c!"Brackets"
  | .double => c!"Double"
  | .single => c!"Single"
  | .backtick => c!"Backtick"

/-- `Deserialize for StringLiteralQuoteType` (tokenizer/structs.rs 891–903). -/
def Quote.load (v : Val) : Option Quote := do
  let s ← v.toStr
  [Quote.brackets, .double, .single, .backtick].find? (·.serdeName == s)

/-- The names of the variants of `InterpolatedStringKind` (tokenizer/structs.rs 183–197). -/
def InterpKind.serdeName : InterpKind → Text
  | .begin => c!"Begin"
  | .middle => c!"Middle"
  | .end_ => c!"End"
  | .simple => c!"Simple"

/-- `Deserialize for InterpolatedStringKind` (tokenizer/structs.rs 183–197). -/
def InterpKind.load (v : Val) : Option InterpKind := do
  let s ← v.toStr
  [InterpKind.begin, .middle, .end_, .simple].find? (·.serdeName == s)

/-- `Deserialize for Symbol`: `#[serde(rename = $string)]` (tokenizer/structs.rs 35). -/
def Symbol.load (v : Val) : Option Symbol := do
  let s ← v.toStr
  Symbol.all.find? (·.text == s)

/-- `Serialize for TokenType` (tokenizer/structs.rs 238–322): `#[serde(tag = "type")]`, and `multi_line_depth` is left out if
it is zero (`is_usize_zero`, tokenizer/structs.rs 233–235).  `ShortString` is a string (short_string.rs 11–12, 16–59). -/
def TokenType.save : TokenType → Val
  | .eof => .map [(c!"type", .str c!"Eof")]
  | .identifier t => .map [(c!"type", .str c!"Identifier"), (c!"identifier", .str t)]
  | .multiLineComment blocks comment =>
    .map [(c!"type", .str c!"MultiLineComment"), (c!"blocks", .num blocks), (c!"comment", .str comment)]
  | .number t => .map [(c!"type", .str c!"Number"), (c!"text", .str t)]
  | .shebang line => .map [(c!"type", .str c!"Shebang"), (c!"line", .str line)]
  | .singleLineComment comment => .map [(c!"type", .str c!"SingleLineComment"), (c!"comment", .str comment)]
  | .stringLiteral literal depth quote =>
    .map ([(c!"type", .str c!"StringLiteral"), (c!"literal", .str literal)] ++
      (if depth = 0 then [] else [(c!"multi_line_depth", .num depth)]) ++ [(c!"quote_type", .str quote.serdeName)])
  | .symbol s => .map [(c!"type", .str c!"Symbol"), (c!"symbol", .str s.text)]
  | .whitespace characters => .map [(c!"type", .str c!"Whitespace"), (c!"characters", .str characters)]
  | .interpolated literal kind =>
    .map [(c!"type", .str c!"InterpolatedString"), (c!"literal", .str literal), (c!"kind", .str kind.serdeName)]
  | .cStyleComment comment => .map [(c!"type", .str c!"CStyleComment"), (c!"comment", .str comment)]

/-- `Deserialize for TokenType` (tokenizer/structs.rs 238–322).  `multi_line_depth` (283–288) has no `default`: it must be
there. -/
def TokenType.load (v : Val) : Option TokenType := do
  let text := fun name => (v.field name).bind Val.toStr
  let number := fun name => (v.field name).bind Val.toNum
  let name ← text c!"type"
  if name = c!"Eof" then pure .eof
  else if name = c!"Identifier" then return .identifier (← text c!"identifier")
  else if name = c!"MultiLineComment" then return .multiLineComment (← number c!"blocks") (← text c!"comment")
  else if name = c!"Number" then return .number (← text c!"text")
  else if name = c!"Shebang" then return .shebang (← text c!"line")
  else if name = c!"SingleLineComment" then return .singleLineComment (← text c!"comment")
  else if name = c!"StringLiteral" then
    return .stringLiteral (← text c!"literal") (← number c!"multi_line_depth") (← (v.field c!"quote_type").bind Quote.load)
  else if name = c!"Symbol" then return .symbol (← (v.field c!"symbol").bind Symbol.load)
  else if name = c!"Whitespace" then return .whitespace (← text c!"characters")
  else if name = c!"InterpolatedString" then
    return .interpolated (← text c!"literal") (← (v.field c!"kind").bind InterpKind.load)
  else if name = c!"CStyleComment" then return .cStyleComment (← text c!"comment")
  else none

/-- `Serialize for Token` (tokenizer/structs.rs 428–434). -/
def Token.save (t : Token) : Val :=
  .map [(c!"start_position", t.start.save), (c!"end_position", t.stop.save), (c!"token_type", t.type.save)]

/-- `Deserialize for Token` (tokenizer/structs.rs 428–434). -/
def Token.load (v : Val) : Option Token := do
  let start ← Position.load (← v.field c!"start_position")
  let stop ← Position.load (← v.field c!"end_position")
  let type ← TokenType.load (← v.field c!"token_type")
  pure ⟨start, stop, type⟩

/-- `Serialize for TokenReference` (tokenizer/structs.rs 588–594). -/
def TokRef.save (t : TokRef) : Val :=
  .map [(c!"leading_trivia", .seq (t.leading.map Token.save)), (c!"token", t.token.save),
    (c!"trailing_trivia", .seq (t.trailing.map Token.save))]

/-- `Deserialize for TokenReference` (tokenizer/structs.rs 588–594). -/
def TokRef.load (v : Val) : Option TokRef := do
  let leading ← (← v.field c!"leading_trivia").toList Token.load
  let token ← Token.load (← v.field c!"token")
  let trailing ← (← v.field c!"trailing_trivia").toList Token.load
  pure ⟨leading, token, trailing⟩

/-! ## Nodes -/

/-- `Option::is_none`. -/
def Node.isAbsent : Node → Bool
  | .node .absent _ => true
  | _ => false

/-- The tests of `skip_serializing_if` (util.rs 10–20). -/
def Skip.test : Skip → Node → Bool
  | .never, _ => false
  | .none, n => n.isAbsent
  | .allNone, n => n.fields.all Node.isAbsent
  | .someAllNone, n => n.fields.all Node.isAbsent && !n.fields.isEmpty

/-- The entries of a struct: the fields that exist and are not left out. -/
def saveFields (f : Features) : List Stored → List Node → List Val → List (Text × Val)
  | s :: ss, c :: cs, v :: vs =>
    if s.gate.on f && !s.skip.test c then (s.name, v) :: saveFields f ss cs vs else saveFields f ss cs vs
  | _, _, _ => []

/-- The first value. -/
def headVal (vs : List Val) : Val := vs.headD .null

/-- What a node is stored as, given what its fields are stored as.  `Punctuated` (ast/punctuated.rs 30–38), `Pair`
(ast/punctuated.rs 338–350) and `ContainedSpan` (ast/span.rs 21–25) are derived too. -/
def Kind.save (f : Features) (k : Kind) (cs : List Node) (vs : List Val) : Val :=
  match k with
  | .absent => .null
  | .present => headVal vs
  | .vec | .tuple => .seq vs
  | .punct => .map [(c!"pairs", .seq vs)]
  | .pairEnd => .map [(c!"End", headVal vs)]
  | .pairPunct => .map [(c!"Punctuated", .seq vs)]
  | .span => .map [(c!"tokens", .seq vs)]
  | k =>
    match k.shape with
    | .struct fields => .map (saveFields f fields cs vs)
    | .newtype name => .map [(name, headVal vs)]
    | .fields name fields => .map [(name, .map (saveFields f fields cs vs))]
    | .container => .null

mutual
/-- `Serialize` for every node type. -/
def Node.save (f : Features) : Node → Val
  | .tok t => t.save
  | .node k cs => k.save f cs (Node.saves f cs)
def Node.saves (f : Features) : List Node → List Val
  | [] => []
  | c :: cs => c.save f :: Node.saves f cs
end

/-- `None` or no elements: what the model has for a field whose feature is not compiled in. -/
def Ty.empty : Ty → Node
  | .opt _ => .node .absent []
  | _ => .node .vec []

/-- What a missing field is read as: `None` for an `Option`, an empty `Vec` if there is a default, otherwise an error. -/
def Stored.missing (s : Stored) : Ty → Option Node
  | .opt _ => some (.node .absent [])
  | .vec _ => if s.default then some (.node .vec []) else none
  | _ => none

/-- The name of a variant. -/
def Shape.name : Shape → Option Text
  | .newtype name | .fields name _ => some name
  | _ => none

/-- The variant of a type with the given name. -/
def Cat.variant (c : Cat) (name : Text) : Option Kind := c.kinds.find? (·.shape.name == some name)

/-- The struct that is the type, if it is not an enum. -/
def Cat.struct (c : Cat) : Option (Kind × List Stored) :=
  match c.kinds with
  | [k] =>
    match k.shape with
    | .struct fields => some (k, fields)
    | _ => none
  | _ => none

theorem Val.under_lt {name : Text} {m : List (Text × Val)} {v : Val} (h : v ∈ Val.under name m) : sizeOf v < sizeOf m := by
  obtain ⟨⟨a, w⟩, hp, rfl⟩ := List.mem_map.1 h
  have := List.sizeOf_lt_of_mem (List.mem_filter.1 hp).1
  simp only [Prod.mk.sizeOf_spec] at this
  show sizeOf w < _
  omega

mutual
/-- `Deserialize` for every type of Model/Ast/Kinds.lean. -/
def load (f : Features) : Ty → Val → Option Node
  | .tok, v => (TokRef.load v).map .tok
  | .span, v => do
    match ← v.field c!"tokens" with
    | .seq [a, b] => return .node .span [.tok (← TokRef.load a), .tok (← TokRef.load b)]
    | _ => none
  | .opt _, .null => some (.node .absent [])
  | .opt a, v => (load f a v).map fun n => .node .present [n]
  | .vec a, .seq vs => (loadAll f a vs).map (.node .vec)
  | .tup a b, .seq [x, y] => (load f a x).bind fun n => (load f b y).map fun m => .node .tuple [n, m]
  | .punct a, .map m =>
    match h : Val.under c!"pairs" m with
    | [.seq vs] => (loadAll f (.pair a) vs).map (.node .punct)
    | _ => none
  | .pair a, .map [(name, v)] =>
    if name = c!"End" then (load f a v).map fun n => .node .pairEnd [n]
    else if name = c!"Punctuated" then
      match v with
      | .seq [x, y] => (load f a x).bind fun n => (TokRef.load y).map fun p => .node .pairPunct [n, .tok p]
      | _ => none
    else none
  | .cat c, .map m =>
    match c.struct with
    | some (k, fields) => (loadFields f fields k.sig m).map (.node k)
    | none =>
      match m with
      | [(name, v)] =>
        match c.variant name with
        | some k =>
          match k.shape, k.sig, v with
          | .newtype _, [a], v => (load f a v).map fun n => .node k [n]
          | .fields _ fields, as, .map m => (loadFields f fields as m).map (.node k)
          | _, _, _ => none
        | none => none
      | _ => none
  | _, _ => none
termination_by a v => (sizeOf v, sizeOf a)
decreasing_by
  all_goals first
    | (simp_wf; omega)
    | (have := Val.under_lt (v := .seq vs) (by rw [h]; simp); simp_wf; simp at this; omega)
    | (apply Prod.Lex.right; simp_wf; omega)
/-- Reading the elements of a `Vec`. -/
def loadAll (f : Features) : Ty → List Val → Option (List Node)
  | _, [] => some []
  | a, v :: vs => (load f a v).bind fun n => (loadAll f a vs).map (n :: ·)
termination_by _ vs => (sizeOf vs, 0)
/-- Reading the fields of a struct. -/
def loadFields (f : Features) : List Stored → List Ty → List (Text × Val) → Option (List Node)
  | s :: ss, a :: as, m =>
    (if s.gate.on f then
      match h : Val.under s.name m with
      | [] => s.missing a
      | [v] => load f a v
      | _ => none
    else some a.empty).bind fun n => (loadFields f ss as m).map (n :: ·)
  | [], [], _ => some []
  | _, _, _ => none
termination_by ss _ m => (sizeOf m, ss.length)
decreasing_by
  · exact Prod.Lex.left _ _ (Val.under_lt (by rw [h]; simp))
  · exact Prod.Lex.right _ (by simp)
end

/-- `Serialize for Ast` (ast/mod.rs 2439–2444). -/
def Ast.save (f : Features) (a : Ast) : Val := .map [(c!"nodes", a.nodes.save f), (c!"eof", a.eof.save)]

/-- `Deserialize for Ast` (ast/mod.rs 2439–2444). -/
def Ast.load (f : Features) (v : Val) : Option Ast := do
  let nodes ← FM.load f (.cat .block) (← v.field c!"nodes")
  let eof ← TokRef.load (← v.field c!"eof")
  pure ⟨nodes, eof⟩

end FM
