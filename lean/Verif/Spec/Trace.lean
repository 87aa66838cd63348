/-
Reading by rules: what comes of a read, and everything that it tells the outside on the way, also on the ways that lead nowhere.
-/
import Verif.Spec.Picks

namespace Tok.Spec

/-- What a reader tells the outside. -/
inductive Event
  /-- A map function is called with a token. -/
  | map (f : Nat) (t : Token)
  /-- A segment is given to a basket. -/
  | pick (b : Nat) (g : Segment)
  /-- A monitored reader begins to read. -/
  | enter (l : Nat) (info : Bytes) (at_ : Int)
  /-- A monitored reader has read, successfully or not. -/
  | leave (l : Nat) (ok : Bool) (at_ : Int)
  /-- A value reader puts a value into its field. -/
  | store (k : Nat) (v : Cell)

/-- The call of a map function. -/
def Event.mapped : Event → Option (Nat × Token)
  | .map f t => some (f, t)
  | _ => none

/-- The segment for the basket `b`. -/
def Event.picked (b : Nat) : Event → Option Segment
  | .pick k g => if k = b then some g else none
  | _ => none

/-- The value in the field `k`, after one more event. -/
def Event.kept (k : Nat) (v : Cell) : Event → Cell
  | .store j w => if j = k then w else v
  | _ => v

/-- What a reader without parts tells when it reads the text `t`, successfully or not: a value reader puts the value into its field that the method of
a new scanner of this text returns (`ReadBool`, `ReadInt`, `ReadUint`). -/
def stores (r : Reader) (t : Bytes) : List Event :=
  match r with
  | .bool k f => match (Scanner.new t Heap.empty).readBool f with
    | .ret x => [.store k (.bool x.1.1)]
    | _ => []
  | .int k base bits => match (Scanner.new t Heap.empty).readInt base bits with
    | .ret x => [.store k (.int x.1.1)]
    | _ => []
  | .uint k base bits => match (Scanner.new t Heap.empty).readUint base bits with
    | .ret x => [.store k (.uint x.1.1)]
    | _ => []
  | _ => []

/-- The level of the log `l` and its lines (level, name, position), after one more event. -/
def Event.note (l : Nat) (v : Int × List (Int × Bytes × Int)) : Event → Int × List (Int × Bytes × Int)
  | .enter k info p => if k = l then (v.1 + 1, v.2 ++ [(v.1 + 1, info, p)]) else v
  | .leave k _ _ => if k = l then (v.1 - 1, v.2) else v
  | _ => v

/-- The level of a log and what its lines show. -/
def lines (l : Log) : Int × List (Int × Bytes × Int) := (l.level, l.entries.map fun en => (en.level, en.info, en.enterAt))

/-- A failed read goes back to where it began. -/
def backTo (t : Bytes) (x : Bool × St) : Bool × St := if x.1 then x else (false, ⟨t, x.2.jan⟩)

/-- What can go on: a reader reads, or a tail is tried, in vain, at one place after the other. -/
inductive Task
  | read (r : Reader)
  | hunt (t : Reader)

section
variable (G : Env) (O : Reader → St → Bool × St → Prop)

/-- `Trace G O L (.read r) st x es`: reading with `r` at the place `st` of a text of length `L` comes to `x`, success or not and the place behind it,
and tells the events `es` on the way.  `O` says what comes of readers without parts.
`Trace G O L (.hunt t) st (true, m) es`: `t` does not read at `st` nor at the places that follow up to `m`. -/
inductive Trace : Nat → Task → St → Bool × St → List Event → Prop
  | leaf {L r st x} : r.leaf = true → O r st x → Trace L (.read r) st x (stores r st.rest)
  | anyNil {L st} : Trace L (.read (.any [])) st (false, st) []
  | anyHere {L r rs st m es} : Trace L (.read r) st (true, m) es → Trace L (.read (.any (r :: rs))) st (true, m) es
  | anyNext {L r rs st m x es es'} : Trace L (.read r) st (false, m) es → Trace L (.read (.any rs)) m x es' →
      Trace L (.read (.any (r :: rs))) st (backTo st.rest x) (es ++ es')
  | at_ {L c st x es} : Trace L (.read c) st x es → Trace L (.read (.at_ c)) st (x.1, ⟨st.rest, x.2.jan⟩) es
  | notHere {L c st m es} : Trace L (.read c) st (false, m) es → Trace L (.read (.not c)) st (true, ⟨(onward st.rest).2, m.jan⟩) es
  | notFail {L c st m es} : Trace L (.read c) st (true, m) es → Trace L (.read (.not c)) st (false, ⟨st.rest, m.jan⟩) es
  | opt {L c st x es} : Trace L (.read c) st x es → Trace L (.read (.opt c)) st (true, x.2) es
  | zomNil {L c st m es} : Trace L (.read c) st (false, m) es → Trace L (.read (.zom c)) st (true, m) es
  | zomCons {L c st m x es es'} : Trace L (.read c) st (true, m) es → Trace L (.read (.zom c)) m x es' → Trace L (.read (.zom c)) st x (es ++ es')
  | many {L c st m es} : Trace L (.read (.zom c)) st (true, m) es → Trace L (.read (.many c)) st (decide (m.rest.length < st.rest.length), m) es
  | timesNil {L k c st} : k ≤ 0 → Trace L (.read (.times k c)) st (true, st) []
  | timesFail {L k c st m es} : 0 < k → Trace L (.read c) st (false, m) es → Trace L (.read (.times k c)) st (false, m) es
  | timesCons {L k c st m x es es'} : 0 ≤ k → Trace L (.read c) st (true, m) es → Trace L (.read (.times k c)) m x es' →
      Trace L (.read (.times (k + 1) c)) st x (es ++ es')
  | seqNil {L st} : Trace L (.read (.seq [])) st (true, st) []
  | seqFail {L r rs st m es} : Trace L (.read r) st (false, m) es → Trace L (.read (.seq (r :: rs))) st (false, ⟨st.rest, m.jan⟩) es
  | seqCons {L r rs st m x es es'} : Trace L (.read r) st (true, m) es → Trace L (.read (.seq rs)) m x es' →
      Trace L (.read (.seq (r :: rs))) st (backTo st.rest x) (es ++ es')
  | skipFail {L sk rs st m es} : Trace L (.read sk) st (false, m) es → Trace L (.read (.skipSeq sk rs)) st (false, ⟨st.rest, m.jan⟩) es
  | skipNil {L sk st m es} : Trace L (.read sk) st (true, m) es → Trace L (.read (.skipSeq sk [])) st (true, m) es
  | skipStop {L sk r rs st m m' es es'} : Trace L (.read sk) st (true, m) es → Trace L (.read r) m (false, m') es' →
      Trace L (.read (.skipSeq sk (r :: rs))) st (false, ⟨st.rest, m'.jan⟩) (es ++ es')
  | skipCons {L sk r rs st m m' x es es' es''} : Trace L (.read sk) st (true, m) es → Trace L (.read r) m (true, m') es' →
      Trace L (.read (.skipSeq sk rs)) m' x es'' → Trace L (.read (.skipSeq sk (r :: rs))) st (backTo st.rest x) (es ++ (es' ++ es''))
  | pastEnd {L c st} : st.rest = [] → Trace L (.read (.past c)) st (false, st) []
  | pastHere {L c st m es} : st.rest ≠ [] → Trace L (.read c) st (true, m) es → Trace L (.read (.past c)) st (true, m) es
  | pastNext {L c st m x es es'} : st.rest ≠ [] → Trace L (.read c) st (false, m) es → Trace L (.read (.past c)) ⟨(onward m.rest).2, m.jan⟩ x es' →
      Trace L (.read (.past c)) st (backTo st.rest x) (es ++ es')
  | toHere {L c st m es} : Trace L (.read c) st (true, m) es → Trace L (.read (.to c)) st (true, ⟨st.rest, m.jan⟩) es
  | toEnd {L c st m es} : Trace L (.read c) st (false, m) es → (onward m.rest).1 = false → Trace L (.read (.to c)) st (false, ⟨st.rest, m.jan⟩) es
  | toNext {L c st m x es es'} : Trace L (.read c) st (false, m) es → (onward m.rest).1 = true →
      Trace L (.read (.to c)) ⟨(onward m.rest).2, m.jan⟩ x es' → Trace L (.read (.to c)) st (backTo st.rest x) (es ++ es')
  | huntNil {L t st} : Trace L (.hunt t) st (true, st) []
  | huntCons {L t st m x es es'} : st.rest ≠ [] → Trace L (.read t) st (false, m) es → Trace L (.hunt t) ⟨(onward m.rest).2, m.jan⟩ x es' →
      Trace L (.hunt t) st x (es ++ es')
  | bodyEnd {L c t st m es} : Trace L (.hunt t) st (true, m) es → m.rest = [] → Trace L (.read (.body c t)) st (false, ⟨st.rest, m.jan⟩) es
  /-- The first part reads a text of its own: positions in it are counted from its beginning. -/
  | body {L c t st m m' x es es' es''} : Trace L (.hunt t) st (true, m) es → m.rest ≠ [] → Trace L (.read t) m (true, m') es' →
      Trace (st.rest.length - m.rest.length) (.read c) ⟨st.rest.take (st.rest.length - m.rest.length), m'.jan⟩ x es'' →
      Trace L (.read (.body c t)) st (backTo st.rest (x.1 && x.2.rest.isEmpty, ⟨m.rest, x.2.jan⟩)) (es ++ (es' ++ es''))
  | tailEnd {L c t st m es} : Trace L (.hunt t) st (true, m) es → m.rest = [] → Trace L (.read (.bodyTail c t)) st (false, ⟨st.rest, m.jan⟩) es
  | bodyTail {L c t st m m' x es es' es''} : Trace L (.hunt t) st (true, m) es → m.rest ≠ [] → Trace L (.read t) m (true, m') es' →
      Trace (st.rest.length - m.rest.length) (.read c) ⟨st.rest.take (st.rest.length - m.rest.length), m'.jan⟩ x es'' →
      Trace L (.read (.bodyTail c t)) st (backTo st.rest (x.1 && x.2.rest.isEmpty, ⟨m'.rest, x.2.jan⟩)) (es ++ (es' ++ es''))
  | janusBegin {L id nm c st m es} : Trace L (.read c) st (true, m) es →
      Trace L (.read (.janusBegin id nm c)) st (true, ⟨m.rest, upd m.jan id (st.rest.take (st.rest.length - m.rest.length))⟩) es
  | janusFail {L id nm c st m es} : Trace L (.read c) st (false, m) es → Trace L (.read (.janusBegin id nm c)) st (false, ⟨st.rest, m.jan⟩) es
  | map {L f c st m es} : Trace L (.read c) st (true, m) es → Trace L (.read (.map f c)) st (true, m) (es ++ [.map f ⟨spot L st, spot L m⟩])
  | mapFail {L f c st m es} : Trace L (.read c) st (false, m) es → Trace L (.read (.map f c)) st (false, ⟨st.rest, m.jan⟩) es
  | pick {L info b c st m es} : Trace L (.read c) st (true, m) es →
      Trace L (.read (.pick info b c)) st (true, m) (es ++ [.pick b ⟨info, ⟨spot L st, spot L m⟩⟩])
  | pickFail {L info b c st m es} : Trace L (.read c) st (false, m) es → Trace L (.read (.pick info b c)) st (false, ⟨st.rest, m.jan⟩) es
  | monitor {L info l c st x es} : Trace L (.read c) st x es →
      Trace L (.read (.monitor info l c)) st x (.enter l info (spot L st) :: (es ++ [.leave l x.1 (spot L x.2)]))
  | named {L nm c st x es} : Trace L (.read c) st x es → Trace L (.read (.named nm c)) st x es
  | rule {L i nm c st x es} : G[i]? = some ⟨nm, some c⟩ → Trace L (.read c) st x es → Trace L (.read (.rule i)) st x es
  | ruleName {L c st x es} : Trace L (.read c) st x es → Trace L (.read (.ruleName c)) st x es
  | grammar {L w c st x es} : Trace L (.read c) st x es → Trace L (.read (.grammar w c)) st x es

end

end Tok.Spec
