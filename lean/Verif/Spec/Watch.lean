/-
Monitoring fewer readers, and what a log then shows.
-/
import Verif.Spec.Trace

namespace Tok.Spec

mutual

/-- The reader without the `Monitor`s for the log `l` whose names are not in `k`. -/
def Reader.unwatch (l : Nat) (k : Bytes → Bool) : Reader → Reader
  | .any rs => .any (Reader.unwatches l k rs)
  | .at_ r => .at_ (Reader.unwatch l k r)
  | .body b t => .body (Reader.unwatch l k b) (Reader.unwatch l k t)
  | .bodyTail b t => .bodyTail (Reader.unwatch l k b) (Reader.unwatch l k t)
  | .janusBegin i n r => .janusBegin i n (Reader.unwatch l k r)
  | .many r => .many (Reader.unwatch l k r)
  | .map f r => .map f (Reader.unwatch l k r)
  | .named n r => .named n (Reader.unwatch l k r)
  | .not r => .not (Reader.unwatch l k r)
  | .opt r => .opt (Reader.unwatch l k r)
  | .past r => .past (Reader.unwatch l k r)
  | .seq rs => .seq (Reader.unwatches l k rs)
  | .skipSeq sk rs => .skipSeq (Reader.unwatch l k sk) (Reader.unwatches l k rs)
  | .times n r => .times n (Reader.unwatch l k r)
  | .to r => .to (Reader.unwatch l k r)
  | .zom r => .zom (Reader.unwatch l k r)
  | .pick i b r => .pick i b (Reader.unwatch l k r)
  | .monitor i j r => if j = l ∧ k i = false then Reader.unwatch l k r else .monitor i j (Reader.unwatch l k r)
  | .ruleName r => .ruleName (Reader.unwatch l k r)
  | .grammar w r => .grammar w (Reader.unwatch l k r)
  | r => r

/-- The same for every reader of a list. -/
def Reader.unwatches (l : Nat) (k : Bytes → Bool) : List Reader → List Reader
  | [] => []
  | r :: rs => Reader.unwatch l k r :: Reader.unwatches l k rs

end

/-- The grammar without these `Monitor`s. -/
def Env.unwatch (l : Nat) (k : Bytes → Bool) (G : Env) : Env := G.map fun rl => ⟨rl.name, rl.reader.map (Reader.unwatch l k)⟩

/-- Calls of monitored readers: a name, the position, the calls inside, and the calls behind it. -/
inductive Visits
  | none
  | call (info : Bytes) (at_ : Int) (inner rest : Visits)

/-- One row of calls and another behind it. -/
def Visits.append : Visits → Visits → Visits
  | .none, w => w
  | .call i p inner rest, w => .call i p inner (rest.append w)

/-- The calls as lines of a log that stands at the level `n`: a call is one level deeper than the call around it. -/
def Visits.lines : Int → Visits → List (Int × Bytes × Int)
  | _, .none => []
  | n, .call i p inner rest => (n + 1, i, p) :: (inner.lines (n + 1) ++ rest.lines n)

/-- The calls of the names in `k`: the calls inside of another call take its place. -/
def Visits.keep (k : Bytes → Bool) : Visits → Visits
  | .none => .none
  | .call i p inner rest => if k i then .call i p (inner.keep k) (rest.keep k) else (inner.keep k).append (rest.keep k)

end Tok.Spec
