/-
Vocabulary for the graph properties: the segments of a tree, the tree invariant, and
the graphs that can be built with `Append`.
-/
import Verif.Model.Graph
import Verif.Props.C24

namespace Tok

mutual
/-- The segments of a node and of everything below it, parents first. -/
def Node.all : Node → List Segment
  | .mk s ns => s :: Node.allList ns
/-- The segments of a list of nodes. -/
def Node.allList : List Node → List Segment
  | [] => []
  | n :: ns => Node.all n ++ Node.allList ns
end

/-- The segments strictly below a node. -/
def Node.under (n : Node) : List Segment := Node.allList n.nodes

mutual
/-- A node and all nodes below it, parents first. -/
def Node.every : Node → List Node
  | .mk s ns => .mk s ns :: Node.everyList ns
/-- All nodes of a list of trees. -/
def Node.everyList : List Node → List Node
  | [] => []
  | n :: ns => Node.every n ++ Node.everyList ns
end

/-- `a` ends before `b` starts and neither covers the other. -/
def Apart (a b : Token) : Prop := a.to ≤ b.frm ∧ a.covers b = false ∧ b.covers a = false

/-- Every node covers its children; siblings are disjoint and in text order. -/
inductive Tree : Node → Prop
  | mk {s : Segment} {ns : List Node} : s.tok.Ordered → (∀ n ∈ ns, Tree n) →
      (∀ n ∈ ns, s.tok.covers n.tok = true) → ns.Pairwise (fun a b => Apart a.tok b.tok) → Tree (.mk s ns)

/-- `Append` returns `ok` and leaves the graph `g'`. -/
def Graph.Appends (g : Graph) (seg : Segment) (ok : Bool) (g' : Graph) : Prop :=
  ∃ fuel, g.append fuel seg = .ret (ok, g')

/-- The graph `g` results from `NewGraph(name)` by some calls of `Append` with ordered
tokens; `acc` are the segments for which `Append` returned true, last one first. -/
inductive Graph.Built (name : Bytes) : List Segment → Graph → Prop
  | new : Graph.Built name [] (Graph.new name)
  | accept {acc : List Segment} {g g' : Graph} {seg : Segment} : Graph.Built name acc g → seg.tok.Ordered →
      g.Appends seg true g' → Graph.Built name (seg :: acc) g'
  | refuse {acc : List Segment} {g g' : Graph} {seg : Segment} : Graph.Built name acc g → seg.tok.Ordered →
      g.Appends seg false g' → Graph.Built name acc g'

mutual
/-- The paths from the root to the nodes of a tree, every node before those below it and those in order; each node on a path comes with its
number among the children of its parent, beginning at 1. -/
def Node.paths (above : List (Nat × Segment)) (i : Nat) : Node → List (List (Nat × Segment))
  | .mk s ns => (above ++ [(i, s)]) :: Node.pathsList (above ++ [(i, s)]) 1 ns
/-- The same for the children with the numbers from `i` on. -/
def Node.pathsList (above : List (Nat × Segment)) (i : Nat) : List Node → List (List (Nat × Segment))
  | [] => []
  | n :: ns => Node.paths above i n ++ Node.pathsList above (i + 1) ns
end

/-- The line of a flame stack for a path: number, point and segment of each node on it with semicolons between them, a space, the length of the
last segment and a line break. -/
def pathLine (p : List (Nat × Segment)) : Bytes :=
  b!";".intercalate (p.map fun x => natDigits x.1 ++ b!"." ++ x.2.string) ++ b!" " ++
    itoa ((p.getLast?.map (·.2.tok.len)).getD 0) ++ b!"\n"

end Tok
