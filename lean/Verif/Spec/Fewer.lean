/-
Picking less.
-/
import Verif.Model.Reader

namespace Tok.Spec

/-- The picks to leave out: those that put segments with certain infos into the basket `basket`. -/
structure Leave where
  basket : Nat
  drop : Bytes → Bool

/-- The pick is left out. -/
def Leave.out (q : Leave) (info : Bytes) (b : Nat) : Bool := b == q.basket && q.drop info

/-- The segments of the other picks. -/
def Leave.rest (q : Leave) (l : List Segment) : List Segment := l.filter fun g => !q.drop g.info

mutual

/-- The reader without these picks. -/
def Reader.fewer (q : Leave) : Reader → Reader
  | .any rs => .any (Reader.fewers q rs)
  | .at_ r => .at_ (Reader.fewer q r)
  | .body b t => .body (Reader.fewer q b) (Reader.fewer q t)
  | .bodyTail b t => .bodyTail (Reader.fewer q b) (Reader.fewer q t)
  | .janusBegin i n r => .janusBegin i n (Reader.fewer q r)
  | .many r => .many (Reader.fewer q r)
  | .map f r => .map f (Reader.fewer q r)
  | .named n r => .named n (Reader.fewer q r)
  | .not r => .not (Reader.fewer q r)
  | .opt r => .opt (Reader.fewer q r)
  | .past r => .past (Reader.fewer q r)
  | .seq rs => .seq (Reader.fewers q rs)
  | .skipSeq sk rs => .skipSeq (Reader.fewer q sk) (Reader.fewers q rs)
  | .times n r => .times n (Reader.fewer q r)
  | .to r => .to (Reader.fewer q r)
  | .zom r => .zom (Reader.fewer q r)
  | .pick i b r => if q.out i b then Reader.fewer q r else .pick i b (Reader.fewer q r)
  | .monitor i l r => .monitor i l (Reader.fewer q r)
  | .ruleName r => .ruleName (Reader.fewer q r)
  | .grammar w r => .grammar w (Reader.fewer q r)
  | r => r

/-- The same for every reader of a list. -/
def Reader.fewers (q : Leave) : List Reader → List Reader
  | [] => []
  | r :: rs => Reader.fewer q r :: Reader.fewers q rs

end

/-- The grammar without these picks. -/
def Env.fewer (q : Leave) (G : Env) : Env := G.map fun rl => ⟨rl.name, rl.reader.map (Reader.fewer q)⟩

/-- The scanners track a basket, this one or another, in which the segments are ordered by their ends and end at the position or before it.  They
differ only in the basket of `q`: the second has none of the segments that are left out, and all others. -/
structure Fewer (q : Leave) (s t : Scanner) : Prop where
  full : t.full = s.full
  pos : t.pos = s.pos
  tracked : ∃ b, s.tracker = some (.basket b) ∧ (s.heap.baskets b).Pairwise (fun a c => a.tok.to ≤ c.tok.to) ∧ ∀ g ∈ s.heap.baskets b, g.tok.to ≤ s.pos
  tracker : t.tracker = s.tracker
  cells : t.heap.cells = s.heap.cells
  janus : t.heap.janus = s.heap.janus
  tracks : t.heap.tracks = s.heap.tracks
  maps : t.heap.maps = s.heap.maps
  logs : t.heap.logs = s.heap.logs
  others : ∀ i, i ≠ q.basket → t.heap.baskets i = s.heap.baskets i
  kept : t.heap.baskets q.basket = q.rest (s.heap.baskets q.basket)

/-- The scanners have no tracker, or one of the client.  They differ only in the basket: the second has none of the segments that are left out, and all
others.  What the tracker of the client was told is not compared. -/
structure FewerApart (q : Leave) (s t : Scanner) : Prop where
  full : t.full = s.full
  pos : t.pos = s.pos
  tracked : ∀ b, s.tracker ≠ some (.basket b)
  tracker : t.tracker = s.tracker
  cells : t.heap.cells = s.heap.cells
  janus : t.heap.janus = s.heap.janus
  maps : t.heap.maps = s.heap.maps
  logs : t.heap.logs = s.heap.logs
  others : ∀ i, i ≠ q.basket → t.heap.baskets i = s.heap.baskets i
  kept : t.heap.baskets q.basket = q.rest (s.heap.baskets q.basket)

/-- A function of the client that does the same on scanners that differ as `R` allows and stand in their text: the same error or none, and scanners that
differ as `R` allows. -/
def DoesSame (R : Scanner → Scanner → Prop) (f : ReadFunc) : Prop := ∀ s t, 0 ≤ s.pos → s.pos ≤ (s.full.length : Int) → R s t →
  match f s, f t with
  | .ret (e, s'), .ret (e', t') => e' = e ∧ R s' t'
  | .panic, .panic => True
  | .timeout, .timeout => True
  | _, _ => False

end Tok.Spec
