/-
The trees that belong to a parse: every pick that has read something is a node, and the picks that its reader made are below it.
-/
import Verif.Spec.Picks
import Verif.Spec.Graph

namespace Tok.Spec

section
variable (G : Env) (O : Reader → St → Bool × St → Prop) (b L : Nat)

/-- `PickTree G O b L r st st' ns`: there is a parse with `r` from the place `st` to the place `st'` of a text of length `L`, and `ns` are the trees
of what its parts pick for the basket `b`, in order, where a pick that goes over nothing makes no node.  `O` tells what comes of a read.  Readers that look
ahead contribute nothing. -/
inductive PickTree : Reader → St → St → List Node → Prop
  | leaf {r st st'} : r.leaf = true → O r st (true, st') → PickTree r st st' []
  | anyHere {r rs st st' ns} : PickTree r st st' ns → PickTree (.any (r :: rs)) st st' ns
  | anyNext {r rs st m st' ns} : O r st (false, m) → PickTree (.any rs) m st' ns → PickTree (.any (r :: rs)) st st' ns
  | at_ {c st m} : O c st (true, m) → PickTree (.at_ c) st ⟨st.rest, m.jan⟩ []
  | not {c st m} : O c st (false, m) → PickTree (.not c) st ⟨(onward st.rest).2, m.jan⟩ []
  | body {c t st m st' j} : Searches O t st m → m.rest ≠ [] → O t m (true, st') →
      O c ⟨st.rest.take (st.rest.length - m.rest.length), st'.jan⟩ (true, ⟨[], j⟩) → PickTree (.body c t) st ⟨m.rest, j⟩ []
  | bodyTail {c t st m st' j ns} : Searches O t st m → m.rest ≠ [] → PickTree t m st' ns →
      O c ⟨st.rest.take (st.rest.length - m.rest.length), st'.jan⟩ (true, ⟨[], j⟩) → PickTree (.bodyTail c t) st ⟨st'.rest, j⟩ ns
  | janusBegin {id nm c st st' ns} : PickTree c st st' ns →
      PickTree (.janusBegin id nm c) st ⟨st'.rest, upd st'.jan id (st.rest.take (st.rest.length - st'.rest.length))⟩ ns
  | many {c st st' ns} : st'.rest.length < st.rest.length → PickTree (.zom c) st st' ns → PickTree (.many c) st st' ns
  | map {f c st st' ns} : PickTree c st st' ns → PickTree (.map f c) st st' ns
  | named {nm c st st' ns} : PickTree c st st' ns → PickTree (.named nm c) st st' ns
  | opt {c st st' ns} : PickTree c st st' ns → PickTree (.opt c) st st' ns
  | optNone {c st st'} : O c st (false, st') → PickTree (.opt c) st st' []
  | pastHere {c st st' ns} : st.rest ≠ [] → PickTree c st st' ns → PickTree (.past c) st st' ns
  | pastNext {c st m st' ns} : st.rest ≠ [] → O c st (false, m) → PickTree (.past c) ⟨(onward m.rest).2, m.jan⟩ st' ns → PickTree (.past c) st st' ns
  | seqNil {st} : PickTree (.seq []) st st []
  | seqCons {r rs st m st' ns ns'} : PickTree r st m ns → PickTree (.seq rs) m st' ns' → PickTree (.seq (r :: rs)) st st' (ns ++ ns')
  | skipNil {sk st st' ns} : PickTree sk st st' ns → PickTree (.skipSeq sk []) st st' ns
  | skipCons {sk r rs st m m' st' ns ns' ns''} : PickTree sk st m ns → PickTree r m m' ns' → PickTree (.skipSeq sk rs) m' st' ns'' →
      PickTree (.skipSeq sk (r :: rs)) st st' (ns ++ ns' ++ ns'')
  | timesNil {k c st} : k ≤ 0 → PickTree (.times k c) st st []
  | timesCons {k c st m st' ns ns'} : 0 ≤ k → PickTree c st m ns → PickTree (.times k c) m st' ns' → PickTree (.times (k + 1) c) st st' (ns ++ ns')
  | to {c st m st'} : Seeks O c st m → O c m (true, st') → PickTree (.to c) st ⟨m.rest, st'.jan⟩ []
  | zomNil {c st st'} : O c st (false, st') → PickTree (.zom c) st st' []
  | zomCons {c st m st' ns ns'} : PickTree c st m ns → PickTree (.zom c) m st' ns' → PickTree (.zom c) st st' (ns ++ ns')
  | pickHere {info c st st' ns} : st'.rest.length < st.rest.length → PickTree c st st' ns →
      PickTree (.pick info b c) st st' [.mk ⟨info, ⟨spot L st, spot L st'⟩⟩ ns]
  | pickEmpty {info c st st' ns} : st.rest.length ≤ st'.rest.length → PickTree c st st' ns → PickTree (.pick info b c) st st' ns
  | pickOther {info k c st st' ns} : k ≠ b → PickTree c st st' ns → PickTree (.pick info k c) st st' ns
  | monitor {info k c st st' ns} : PickTree c st st' ns → PickTree (.monitor info k c) st st' ns
  | rule {i nm c st st' ns} : G[i]? = some ⟨nm, some c⟩ → PickTree c st st' ns → PickTree (.rule i) st st' ns
  | ruleName {c st st' ns} : PickTree c st st' ns → PickTree (.ruleName c) st st' ns
  | grammar {w c st st' ns} : PickTree c st st' ns → PickTree (.grammar w c) st st' ns

end
end Tok.Spec

namespace Tok

mutual
/-- A node with what is below it, where nodes with empty tokens, and what is below them, are left out. -/
def Node.solid : Node → List Node
  | .mk s ns => if s.tok.frm < s.tok.to then [.mk s (Node.solidList ns)] else []
/-- The same for a list of nodes. -/
def Node.solidList : List Node → List Node
  | [] => []
  | n :: ns => Node.solid n ++ Node.solidList ns
end

end Tok
