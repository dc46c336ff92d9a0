import Verif.Model.Ast.Visit

/-!
# Mutable visitors in full (visitors.rs 93–153, 165–240)

`MutVisitor` is about visitors whose `visit_x` hooks leave the node as it is.  Here they may return another node, whose
parts are then visited.  A visit need not end then; it runs with fuel, and its state is `none` once the fuel is used up.
-/

namespace FM

variable {σ : Type}

/-- A `VisitorMut` with state `σ` (visitors.rs 93–153, hooks 242–345). -/
structure ChangingVisitor (σ : Type) extends TokenVisitor σ where
  /-- `visit_x` -/
  enter : Ev → Node → StateM σ Node := fun _ n => pure n
  /-- `visit_x_end` -/
  leave : Ev → Node → StateM σ Node := fun _ n => pure n

/-- A hook is called, unless the fuel is used up. -/
def callHook {α : Type} (m : StateM σ α) (default : α) : StateM (Option σ) α
  | none => (default, none)
  | some s => ((m s).1, some (m s).2)

/-- The parts of a node. -/
def Node.parts : Node → List Node
  | .tok _ => []
  | .node _ cs => cs

/-- What a rebuild needs to know of a child. -/
def Vm.at (g : Node → StateM σ Node) (n : Node) : Vm σ := ⟨g n, n.parts.map g, n.parts.map fun c => c.parts.map g⟩

/-- `VisitMut::visit_mut` (full-moon-derive/src/visit.rs 175–206 and the impls of ast/visitors.rs, for example 256–281 and
309–332, of ast/luau_visitors.rs, for example 288–317 and 388–405, and ast/luau.rs 1181–1186): `visit_x`, the parts of what it returned, `visit_x_end`.  References, boxes, vectors, options and
pairs visit what they hold (visitors.rs 172–240). -/
def Node.visitChanging (f : Features) (v : ChangingVisitor σ) : Nat → Node → StateM (Option σ) Node
  | 0, n => fun _ => (n, Option.none)
  | _ + 1, .tok t => callHook (do let t ← t.visitMut v.toTokenVisitor; pure (.tok t)) (.tok t)
  | fuel + 1, .node k cs =>
    match k.hook with
    | Option.none => rebuildNode f k (cs.map (Vm.at (Node.visitChanging f v fuel)))
    | Option.some (a, b) => do
      let n ← callHook (v.enter a (.node k cs)) (.node k cs)
      let n ← match n with
        | .node k cs => rebuildNode f k (cs.map (Vm.at (Node.visitChanging f v fuel)))
        | .tok t => pure (.tok t)
      callHook (v.leave b n) n

/-- `VisitorMut::visit_ast` (visitors.rs 97–107). -/
def Ast.visitChanging (f : Features) (v : ChangingVisitor σ) (fuel : Nat) (a : Ast) : StateM (Option σ) Ast := do
  let nodes ← a.nodes.visitChanging f v fuel
  let eof ← callHook (v.eof a.eof) a.eof
  pure ⟨nodes, eof⟩

/-- A visitor whose `visit_x` hooks leave the node as it is. -/
def MutVisitor.changing (v : MutVisitor σ) : ChangingVisitor σ where
  toTokenVisitor := v.toTokenVisitor
  enter e n := do v.enter e n; pure n
  leave := v.leave

end FM
