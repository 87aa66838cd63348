/-
Model of /repo/graph.go.  The `*Node`s of a graph form a tree, represented
functionally; a mutation of a node is returned as a new node.
-/
import Verif.Model.Sort

namespace Tok

/-- graph.go:13-16 `Node`. -/
inductive Node where
  | mk (seg : Segment) (nodes : List Node)

namespace Node

/-- The embedded `Segment`. -/
def seg : Node → Segment | .mk s _ => s
/-- The field `Nodes`. -/
def nodes : Node → List Node | .mk _ ns => ns
/-- The embedded `Token`. -/
def tok (n : Node) : Token := n.seg.tok
/-- Replacing the field `Nodes`. -/
def setNodes (n : Node) (ns : List Node) : Node := .mk n.seg ns
/-- Replacing the `Token`. -/
def setTok (n : Node) (t : Token) : Node := .mk ⟨n.seg.info, t⟩ n.nodes

mutual
/-- graph.go:19-32 `Equal`. -/
def equal : Node → Node → Bool
  | .mk s ns, .mk s' ns' =>
    if s ≠ s' then false
    else if ns.length ≠ ns'.length then false
    else equals ns ns'
/-- The loop of graph.go:26-30. -/
def equals : List Node → List Node → Bool
  | [], _ => true
  | _ :: _, [] => false
  | n :: ns, n' :: ns' => if !equal n n' then false else equals ns ns'
end

/-- graph.go:40-42, the comparison of `nodeByPos`. -/
def less (a b : Node) : Bool := a.tok.before b.tok

end Node

/-- The result of `rankNodes(a, b)`: the boolean and the two nodes afterwards. -/
abbrev RankRes := Bool × Node × Node

/-- The loop of graph.go:61-76 and the code after it.  `done` are the children of
`a` already looked at, `kept` the local variable `nodes`. -/
def rankLoop (rank : Node → Node → Exec RankRes) (a : Node) :
    List Node → List Node → List Node → Node → Exec RankRes
  | _, kept, [], b => .ret (true, a.setNodes (sortStable Node.less (kept ++ [b])), b)
  | done, kept, c :: rest, b =>
    if b.tok.covers c.tok then do
      let (ok, b, c) ← rank b c
      if !ok then pure (false, a.setNodes (done ++ c :: rest), b)
      else rankLoop rank a (done ++ [c]) kept rest b
    else if b.tok.clashes c.tok then .ret (false, a.setNodes (done ++ c :: rest), b)
    else if c.tok.covers b.tok then do
      let (ok, c, b) ← rank c b
      pure (ok, a.setNodes (done ++ c :: rest), b)
    else rankLoop rank a (done ++ [c]) (kept ++ [c]) rest b

/-- graph.go:55-82 `rankNodes`, with a bound on the recursion depth. -/
def rankNodes : Nat → Node → Node → Exec RankRes
  | 0, _, _ => .timeout
  | fuel + 1, a, b =>
    if a.tok.clashes b.tok then .ret (false, a, b)
    else rankLoop (rankNodes fuel) a [] [] a.nodes b

/-- graph.go:51-53 `Graph`. -/
structure Graph where
  root : Node

namespace Graph

/-- graph.go:153-157 `NewGraph`. -/
def new (name : Bytes) : Graph := ⟨.mk ⟨name, ⟨0, 0⟩⟩ []⟩

/-- graph.go:85-100 `Append`. -/
def append (fuel : Nat) (g : Graph) (seg : Segment) : Exec (Bool × Graph) := do
  let n := Node.mk seg []
  let bkp := g.root.tok
  let root :=
    if !g.root.tok.covers n.tok then
      if g.root.nodes.length > 0 then g.root.setTok (g.root.tok.merge n.tok)
      else g.root.setTok n.tok
    else g.root
  let (ok, root, _) ← rankNodes fuel root n
  if !ok then pure (ok, ⟨root.setTok bkp⟩) else pure (ok, ⟨root⟩)

/-- graph.go:103-105 `Equal`. -/
def equal (g oth : Graph) : Bool := g.root.equal oth.root

/-- The loop of graph.go:146-148. -/
def buildLoop (fuel : Nat) : Graph → List Segment → Exec Graph
  | g, [] => .ret g
  | g, v :: vs => do
    let (_, g) ← g.append fuel v
    buildLoop fuel g vs

/-- graph.go:144-150 `BuildGraph`. -/
def build (fuel : Nat) (name : Bytes) (segments : List Segment) : Exec Graph :=
  buildLoop fuel (new name) segments

end Graph

mutual
/-- graph.go:125-133 `appendLeafs`. -/
def Node.leafs : Node → List Segment
  | .mk s [] => [s]
  | .mk _ (n :: ns) => Node.leafs n ++ Node.leafsList ns
/-- The loop of graph.go:129-131. -/
def Node.leafsList : List Node → List Segment
  | [] => []
  | n :: ns => Node.leafs n ++ Node.leafsList ns
end

/-- graph.go:136-140 `Leafs`. -/
def Graph.leafs (g : Graph) : List Segment := g.root.leafs

mutual
/-- graph.go:107-116 `makeStackLines`. -/
def stackLines (pre : Bytes) (i : Nat) : Node → Bytes
  | .mk s ns =>
    let pre := pre ++ natDigits i ++ b!"." ++ s.string
    pre ++ b!" " ++ itoa s.tok.len ++ b!"\n" ++ stackLinesList (pre ++ b!";") 1 ns
/-- The loop of graph.go:113-115. -/
def stackLinesList (pre : Bytes) (j : Nat) : List Node → Bytes
  | [] => []
  | n :: ns => stackLines pre j n ++ stackLinesList pre (j + 1) ns
end

/-- graph.go:119-123 `FlameStack`. -/
def Graph.flameStack (g : Graph) : Bytes := stackLines [] 1 g.root

end Tok
