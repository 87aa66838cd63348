/-
Leaving out functions that are given to `Map`.
-/
import Verif.Model.Reader

namespace Tok.Spec

mutual

/-- The reader without the `Map`s of certain functions. -/
def Reader.mute (d : Nat → Bool) : Reader → Reader
  | .any rs => .any (Reader.mutes d rs)
  | .at_ r => .at_ (Reader.mute d r)
  | .body b t => .body (Reader.mute d b) (Reader.mute d t)
  | .bodyTail b t => .bodyTail (Reader.mute d b) (Reader.mute d t)
  | .janusBegin i n r => .janusBegin i n (Reader.mute d r)
  | .many r => .many (Reader.mute d r)
  | .map f r => if d f then Reader.mute d r else .map f (Reader.mute d r)
  | .named n r => .named n (Reader.mute d r)
  | .not r => .not (Reader.mute d r)
  | .opt r => .opt (Reader.mute d r)
  | .past r => .past (Reader.mute d r)
  | .seq rs => .seq (Reader.mutes d rs)
  | .skipSeq sk rs => .skipSeq (Reader.mute d sk) (Reader.mutes d rs)
  | .times n r => .times n (Reader.mute d r)
  | .to r => .to (Reader.mute d r)
  | .zom r => .zom (Reader.mute d r)
  | .pick i b r => .pick i b (Reader.mute d r)
  | .monitor i l r => .monitor i l (Reader.mute d r)
  | .ruleName r => .ruleName (Reader.mute d r)
  | .grammar w r => .grammar w (Reader.mute d r)
  | r => r

/-- The same for every reader of a list. -/
def Reader.mutes (d : Nat → Bool) : List Reader → List Reader
  | [] => []
  | r :: rs => Reader.mute d r :: Reader.mutes d rs

end

/-- The grammar without these `Map`s. -/
def Env.mute (d : Nat → Bool) (G : Env) : Env := G.map fun rl => ⟨rl.name, rl.reader.map (Reader.mute d)⟩

/-- The last segment, if there is one, ends at the place `m` or before it. -/
def EndsBy (m : Int) (l : List Segment) : Prop := ∀ g ∈ l.getLast?, g.tok.to ≤ m

/-- The scanner tracks a basket whose last segment ends at the position or before it (`none`), or it tracks none, and the segments of some basket end behind the
text at most at some place (`some`). -/
def InStep (x : Option (Nat × Int)) (s : Scanner) : Prop :=
  match x with
  | none => ∃ b, s.tracker = some (.basket b) ∧ EndsBy s.pos (s.heap.baskets b)
  | some (c, m) => (∀ b, s.tracker ≠ some (.basket b)) ∧ (s.full.length : Int) ≤ m ∧ EndsBy m (s.heap.baskets c)

/-- The scanners differ only in the calls of the functions that are left out, which the second does not have, and in how often the tracker of the client was
told its position. -/
structure Muted (d : Nat → Bool) (s t : Scanner) : Prop where
  full : t.full = s.full
  pos : t.pos = s.pos
  tracker : t.tracker = s.tracker
  cells : t.heap.cells = s.heap.cells
  janus : t.heap.janus = s.heap.janus
  logs : t.heap.logs = s.heap.logs
  baskets : t.heap.baskets = s.heap.baskets
  maps : t.heap.maps = s.heap.maps.filter fun c => !d c.1

/-- The same for a scanner that is in step with its basket. -/
structure MutedStep (d : Nat → Bool) (x : Option (Nat × Int)) (s t : Scanner) : Prop extends Muted d s t where
  ends : InStep x s

end Tok.Spec
