/-
The segments that belong to a parse: those of the picks that read on the way to its success.
-/
import Verif.Proofs.EatSim
import Verif.Spec.Forever

namespace Tok.Spec

/-- The position of a place in a text of length `L`. -/
def spot (L : Nat) (st : St) : Int := (L : Int) - st.rest.length

section
variable (G : Env) (O : Reader → St → Bool × St → Prop) (b L : Nat)

/-- `Picks G O b L r st st' l`: there is a parse with `r` from the place `st` to the place `st'` of a text of length `L`, and `l` are the segments
that its parts pick for the basket `b`, in order.  `O` tells what comes of a read.  Readers that look ahead contribute nothing. -/
inductive Picks : Reader → St → St → List Segment → Prop
  | leaf {r st st'} : r.leaf = true → O r st (true, st') → Picks r st st' []
  | anyHere {r rs st st' l} : Picks r st st' l → Picks (.any (r :: rs)) st st' l
  | anyNext {r rs st m st' l} : O r st (false, m) → Picks (.any rs) m st' l → Picks (.any (r :: rs)) st st' l
  | at_ {c st m} : O c st (true, m) → Picks (.at_ c) st ⟨st.rest, m.jan⟩ []
  | not {c st m} : O c st (false, m) → Picks (.not c) st ⟨(onward st.rest).2, m.jan⟩ []
  | body {c t st m st' j} : Searches O t st m → m.rest ≠ [] → O t m (true, st') →
      O c ⟨st.rest.take (st.rest.length - m.rest.length), st'.jan⟩ (true, ⟨[], j⟩) → Picks (.body c t) st ⟨m.rest, j⟩ []
  | bodyTail {c t st m st' j l} : Searches O t st m → m.rest ≠ [] → Picks t m st' l →
      O c ⟨st.rest.take (st.rest.length - m.rest.length), st'.jan⟩ (true, ⟨[], j⟩) → Picks (.bodyTail c t) st ⟨st'.rest, j⟩ l
  | janusBegin {id nm c st st' l} : Picks c st st' l →
      Picks (.janusBegin id nm c) st ⟨st'.rest, upd st'.jan id (st.rest.take (st.rest.length - st'.rest.length))⟩ l
  | many {c st st' l} : st'.rest.length < st.rest.length → Picks (.zom c) st st' l → Picks (.many c) st st' l
  | map {f c st st' l} : Picks c st st' l → Picks (.map f c) st st' l
  | named {nm c st st' l} : Picks c st st' l → Picks (.named nm c) st st' l
  | opt {c st st' l} : Picks c st st' l → Picks (.opt c) st st' l
  | optNone {c st st'} : O c st (false, st') → Picks (.opt c) st st' []
  | pastHere {c st st' l} : st.rest ≠ [] → Picks c st st' l → Picks (.past c) st st' l
  | pastNext {c st m st' l} : st.rest ≠ [] → O c st (false, m) → Picks (.past c) ⟨(onward m.rest).2, m.jan⟩ st' l → Picks (.past c) st st' l
  | seqNil {st} : Picks (.seq []) st st []
  | seqCons {r rs st m st' l l'} : Picks r st m l → Picks (.seq rs) m st' l' → Picks (.seq (r :: rs)) st st' (l ++ l')
  | skipNil {sk st st' l} : Picks sk st st' l → Picks (.skipSeq sk []) st st' l
  | skipCons {sk r rs st m m' st' l l' l''} : Picks sk st m l → Picks r m m' l' → Picks (.skipSeq sk rs) m' st' l'' →
      Picks (.skipSeq sk (r :: rs)) st st' (l ++ l' ++ l'')
  | timesNil {k c st} : k ≤ 0 → Picks (.times k c) st st []
  | timesCons {k c st m st' l l'} : 0 ≤ k → Picks c st m l → Picks (.times k c) m st' l' → Picks (.times (k + 1) c) st st' (l ++ l')
  | to {c st m st'} : Seeks O c st m → O c m (true, st') → Picks (.to c) st ⟨m.rest, st'.jan⟩ []
  | zomNil {c st st'} : O c st (false, st') → Picks (.zom c) st st' []
  | zomCons {c st m st' l l'} : Picks c st m l → Picks (.zom c) m st' l' → Picks (.zom c) st st' (l ++ l')
  | pickHere {info c st st' l} : Picks c st st' l → Picks (.pick info b c) st st' (l ++ [⟨info, ⟨spot L st, spot L st'⟩⟩])
  | pickOther {info k c st st' l} : k ≠ b → Picks c st st' l → Picks (.pick info k c) st st' l
  | monitor {info k c st st' l} : Picks c st st' l → Picks (.monitor info k c) st st' l
  | rule {i nm c st st' l} : G[i]? = some ⟨nm, some c⟩ → Picks c st st' l → Picks (.rule i) st st' l
  | ruleName {c st st' l} : Picks c st st' l → Picks (.ruleName c) st st' l
  | grammar {w c st st' l} : Picks c st st' l → Picks (.grammar w c) st st' l

end
end Tok.Spec
