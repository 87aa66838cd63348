/-
/repo/graph.go with its pointers.

Model/Graph represents the nodes of a graph as a tree and a mutation as a new tree.  Here `rankNodes` and `Append` are transcribed with a
memory of nodes, so that two nodes can have the same child, a node can be below itself, and the loop sees what the recursive calls do to
the node it is running over.
-/
import Verif.Model.Graph
import Verif.Model.Scanner

namespace Tok

/-- graph.go:13-16 `Node` at its address.  `kids` is the slice `Nodes`; graph.go:59, 74, 77, 78 make a new one for every assignment, so
slices need no identity. -/
structure PNode where
  seg : Segment
  kids : List Nat
  deriving Repr, DecidableEq

/-- The nodes by address. -/
abbrev NodeMem := Nat → PNode

/-- The embedded `Token` of the node at an address. -/
def NodeMem.tok (m : NodeMem) (p : Nat) : Token := (m p).seg.tok

/-- graph.go:40-42, the comparison of `nodeByPos`. -/
def NodeMem.less (m : NodeMem) (p q : Nat) : Bool := (m.tok p).before (m.tok q)

/-- The loop of graph.go:61-76 from the index `i` on, and the code after it; `kept` is the local variable `nodes`.  The first argument bounds
the number of rounds: `a.Nodes` is read anew in each round. -/
def rankLoopP (rank : NodeMem → Nat → Nat → Exec (Bool × NodeMem)) (a b : Nat) : Nat → Nat → List Nat → NodeMem → Exec (Bool × NodeMem)
  | 0, _, _, _ => .timeout
  | n + 1, i, kept, m =>
    match (m a).kids[i]? with
    | none => .ret (true, upd m a ⟨(m a).seg, sortStable m.less (kept ++ [b])⟩)
    | some c =>
      if (m.tok b).covers (m.tok c) then do
        let (ok, m) ← rank m b c
        if !ok then pure (false, m) else rankLoopP rank a b n (i + 1) kept m
      else if (m.tok b).clashes (m.tok c) then .ret (false, m)
      else if (m.tok c).covers (m.tok b) then rank m c b
      else rankLoopP rank a b n (i + 1) (kept ++ [c]) m

/-- graph.go:55-82 `rankNodes`, with a bound on the recursion depth and the rounds of a loop. -/
def rankP : Nat → NodeMem → Nat → Nat → Exec (Bool × NodeMem)
  | 0, _, _, _ => .timeout
  | n + 1, m, a, b =>
    if (m.tok a).clashes (m.tok b) then .ret (false, m)
    else rankLoopP (rankP n) a b n 0 [] m

/-- graph.go:51-53 `Graph`, with the memory and the next free address. -/
structure PGraph where
  mem : NodeMem
  next : Nat
  root : Nat

namespace PGraph

/-- graph.go:153-157 `NewGraph`. -/
def new (name : Bytes) : PGraph := ⟨fun _ => ⟨⟨name, ⟨0, 0⟩⟩, []⟩, 1, 0⟩

/-- `g.Root.Token = t`. -/
def setTok (m : NodeMem) (p : Nat) (t : Token) : NodeMem := upd m p ⟨⟨(m p).seg.info, t⟩, (m p).kids⟩

/-- graph.go:85-100 `Append`. -/
def append (fuel : Nat) (g : PGraph) (seg : Segment) : Exec (Bool × PGraph) := do
  let n := g.next
  let m : NodeMem := upd g.mem n ⟨seg, []⟩
  let bkp := m.tok g.root
  let m : NodeMem :=
    if !(m.tok g.root).covers (m.tok n) then
      if (m g.root).kids.length > 0 then setTok m g.root ((m.tok g.root).merge (m.tok n))
      else setTok m g.root (m.tok n)
    else m
  let (ok, m) ← rankP fuel m g.root n
  if !ok then pure (ok, ⟨setTok m g.root bkp, n + 1, g.root⟩) else pure (ok, ⟨m, n + 1, g.root⟩)

/-- The loop of graph.go:146-148. -/
def buildLoop (fuel : Nat) : PGraph → List Segment → Exec PGraph
  | g, [] => .ret g
  | g, v :: vs => do
    let (_, g) ← g.append fuel v
    buildLoop fuel g vs

/-- graph.go:144-150 `BuildGraph`. -/
def build (fuel : Nat) (name : Bytes) (segments : List Segment) : Exec PGraph := buildLoop fuel (new name) segments

end PGraph

end Tok
