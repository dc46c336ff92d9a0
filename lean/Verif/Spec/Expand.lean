import Verif.Spec.Events
import Verif.Model.Ast.VisitChanging

/-!
# Specification: replacing nodes from the root downwards
-/

namespace FM.Spec

/-- `pre` done to a node.  Node types without hooks keep their nodes. -/
def start (pre : Cat → Node → Node) (k : Kind) (n : Node) : Node :=
  match k.cat with
  | some c => if hasHooks c then pre c n else n
  | none => n

/-- The nodes of two lists, one by one. -/
def Pairwise (E : Node → Node → Prop) (cs ds : List Node) : Prop :=
  cs.length = ds.length ∧ ∀ p ∈ cs.zip ds, E p.1 p.2

/-- `m` is what becomes of `n` if every node is replaced by its image under `pre` first, and then the parts of that image
are treated alike; this takes at most `d` levels. -/
inductive ExpandsIn (pre : Cat → Node → Node) : Nat → Node → Node → Prop
  | tok (d : Nat) (t : TokRef) : ExpandsIn pre (d + 1) (.tok t) (.tok t)
  | node (d : Nat) (k : Kind) (cs : List Node) (k' : Kind) (cs' ds : List Node)
      (replaced : start pre k (.node k cs) = .node k' cs')
      (length : cs'.length = ds.length) (parts : ∀ p ∈ cs'.zip ds, ExpandsIn pre d p.1 p.2) :
      ExpandsIn pre (d + 1) (.node k cs) (.node k' ds)

/-- `m` is what becomes of `n` if every node is replaced by its image under `pre`, from the root downwards. -/
def Expands (pre : Cat → Node → Node) (n m : Node) : Prop := ∃ d, ExpandsIn pre d n m

/-- `pre` replaces nodes by nodes of the same type. -/
def KeepsTypes (R : TokRef → Prop) (pre : Cat → Node → Node) : Prop :=
  ∀ c n, HasTy R (.cat c) n → HasTy R (.cat c) (pre c n)

/-- A mutable visitor that overrides `visit_x` hooks with `pre`, `visit_x_end` hooks with `g`, and `visit_token` with `h`. -/
def replacer (pre : Cat → Node → Node) (h : Token → Token) (g : Cat → Node → Node) : ChangingVisitor Unit where
  toTokenVisitor := (rewriter h g).toTokenVisitor
  enter e n := match e with
    | .enter c => pure (pre c n)
    | _ => pure n
  leave := (rewriter h g).leave

/-- The visit of `n` by `v`, started in the state `s`, ends with the node `m` and in the state `t`. -/
def VisitEnds {σ : Type} (f : Features) (v : ChangingVisitor σ) (n : Node) (s : σ) (m : Node) (t : σ) : Prop :=
  ∃ fuel, n.visitChanging f v fuel (some s) = (m, some t)

end FM.Spec
