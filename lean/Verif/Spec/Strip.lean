/-
Taking the observing wrappers out of a grammar: Map, Pick, Monitor and Named.
-/
import Verif.Model.Reader

namespace Tok.Spec

/-- The kinds of wrappers to take out. -/
structure Del where
  map : Bool
  pick : Bool
  monitor : Bool
  named : Bool

/-- Nothing but `Monitor`. -/
def Del.onlyMonitor : Del := ⟨false, false, true, false⟩
def Del.all : Del := ⟨true, true, true, true⟩

mutual

/-- The reader without the wrappers. -/
def strip (d : Del) : Reader → Reader
  | .any rs => .any (strips d rs)
  | .at_ r => .at_ (strip d r)
  | .body b t => .body (strip d b) (strip d t)
  | .bodyTail b t => .bodyTail (strip d b) (strip d t)
  | .janusBegin i n r => .janusBegin i n (strip d r)
  | .many r => .many (strip d r)
  | .map f r => if d.map then strip d r else .map f (strip d r)
  | .named n r => if d.named then strip d r else .named n (strip d r)
  | .not r => .not (strip d r)
  | .opt r => .opt (strip d r)
  | .past r => .past (strip d r)
  | .seq rs => .seq (strips d rs)
  | .skipSeq sk rs => .skipSeq (strip d sk) (strips d rs)
  | .times n r => .times n (strip d r)
  | .to r => .to (strip d r)
  | .zom r => .zom (strip d r)
  | .pick i b r => if d.pick then strip d r else .pick i b (strip d r)
  | .monitor i l r => if d.monitor then strip d r else .monitor i l (strip d r)
  | .ruleName r => .ruleName (strip d r)
  | .grammar w r => .grammar w (strip d r)
  | r => r

/-- The same for every reader of a list. -/
def strips (d : Del) : List Reader → List Reader
  | [] => []
  | r :: rs => strip d r :: strips d rs

end

/-- The grammar without the wrappers. -/
def stripEnv (d : Del) (G : Env) : Env := G.map fun rl => ⟨rl.name, rl.reader.map (strip d)⟩

/-- Scanners that differ at most in what the wrappers record: the calls of map functions, the baskets (and what other
trackers were told, as `Map` and `Pick` go back to the start once more after a failure), and the logs (which contain the
names in error messages). -/
structure Alike (d : Del) (s t : Scanner) : Prop where
  full : t.full = s.full
  pos : t.pos = s.pos
  tracker : t.tracker = s.tracker
  cells : t.heap.cells = s.heap.cells
  janus : t.heap.janus = s.heap.janus
  baskets : d.map = false → d.pick = false → t.heap.baskets = s.heap.baskets
  tracks : d.map = false → d.pick = false → t.heap.tracks = s.heap.tracks
  maps : d.map = false → t.heap.maps = s.heap.maps
  logs : d.monitor = false → d.named = false → t.heap.logs = s.heap.logs

/-- The same error; when names are taken out the wording may differ, but not the kind and the position. -/
def ErrAlike (d : Del) : Err → Err → Prop
  | .read m w, .read m' w' => m' = m ∧ (d.named = false → w' = w)
  | .other x, .other x' => d.named = false → x' = x
  | _, _ => False

/-- No error in both cases, or the same error. -/
def ResAlike (d : Del) : Option Err → Option Err → Prop
  | none, none => True
  | some e, some e' => ErrAlike d e e'
  | _, _ => False

end Tok.Spec
