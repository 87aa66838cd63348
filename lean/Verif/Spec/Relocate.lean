/-
Two instances of the same reader.
-/
import Verif.Model.Reader

namespace Tok.Spec

/-- Where the objects of one instance are in the other: Janus pairs, baskets, user-defined trackers, logs, values and map functions.
The functions of `Wrap` may be others, too.  `before` are the calls of map functions made before the second instance is used. -/
structure Places where
  janus : Nat → Nat
  baskets : Nat → Nat
  tracks : Nat → Nat
  logs : Nat → Nat
  cells : Nat → Nat
  maps : Nat → Nat
  wraps : ReadFunc → ReadFunc
  before : List (Nat × Token) := []

/-- Different objects stay different.  (Map functions are only called, so two of them may be the same.) -/
structure Places.Apart (p : Places) : Prop where
  janus : Function.Injective p.janus
  baskets : Function.Injective p.baskets
  tracks : Function.Injective p.tracks
  logs : Function.Injective p.logs
  cells : Function.Injective p.cells

mutual

/-- The same reader, with objects of its own: another instance made by the same calls of the constructors. -/
def Reader.reloc (p : Places) : Reader → Reader
  | .any rs => .any (Reader.relocs p rs)
  | .at_ a => .at_ (Reader.reloc p a)
  | .body a b => .body (Reader.reloc p a) (Reader.reloc p b)
  | .bodyTail a b => .bodyTail (Reader.reloc p a) (Reader.reloc p b)
  | .janusBegin i w a => .janusBegin (p.janus i) w (Reader.reloc p a)
  | .many a => .many (Reader.reloc p a)
  | .map k a => .map (p.maps k) (Reader.reloc p a)
  | .named w a => .named w (Reader.reloc p a)
  | .not a => .not (Reader.reloc p a)
  | .opt a => .opt (Reader.reloc p a)
  | .past a => .past (Reader.reloc p a)
  | .seq rs => .seq (Reader.relocs p rs)
  | .skipSeq a rs => .skipSeq (Reader.reloc p a) (Reader.relocs p rs)
  | .times k a => .times k (Reader.reloc p a)
  | .to a => .to (Reader.reloc p a)
  | .zom a => .zom (Reader.reloc p a)
  | .pick w b a => .pick w (p.baskets b) (Reader.reloc p a)
  | .monitor w l a => .monitor w (p.logs l) (Reader.reloc p a)
  | .rule i => .rule i
  | .ruleName a => .ruleName (Reader.reloc p a)
  | .grammar w a => .grammar w (Reader.reloc p a)
  | .anyRune str => .anyRune str
  | .atEnd => .atEnd
  | .between a b => .between a b
  | .betweenAny a b => .betweenAny a b
  | .bool c w => .bool (p.cells c) w
  | .fold w => .fold w
  | .holey a b h => .holey a b h
  | .int c b k => .int (p.cells c) b k
  | .janusEnd i w => .janusEnd (p.janus i) w
  | .invalid w => .invalid w
  | .lit w => .lit w
  | .match_ w p => .match_ w p
  | .rune c => .rune c
  | .uint c b k => .uint (p.cells c) b k
  | .wrap w g => .wrap w (p.wraps g)

/-- The readers of a list. -/
def Reader.relocs (p : Places) : List Reader → List Reader
  | [] => []
  | r :: rs => Reader.reloc p r :: Reader.relocs p rs

end

/-- The same rule. -/
def Rule.reloc (p : Places) (r : Rule) : Rule := ⟨r.name, r.reader.map (Reader.reloc p)⟩

/-- The tracker of the other instance. -/
def TrackerRef.reloc (p : Places) : TrackerRef → TrackerRef
  | .basket b => .basket (p.baskets b)
  | .custom c => .custom (p.tracks c)

/-- The memory `k` has at the places of the other instance what `h` has at those of the first. -/
structure Placed (p : Places) (h k : Heap) : Prop where
  janus : ∀ i, k.janus (p.janus i) = h.janus i
  baskets : ∀ i, k.baskets (p.baskets i) = h.baskets i
  tracks : ∀ i, k.tracks (p.tracks i) = h.tracks i
  logs : ∀ i, k.logs (p.logs i) = h.logs i
  cells : ∀ i, k.cells (p.cells i) = h.cells i
  maps : k.maps = p.before ++ h.maps.map fun e => (p.maps e.1, e.2)

/-- The same text and position, and such a memory. -/
structure Paired (p : Places) (s t : Scanner) : Prop extends Placed p s.heap t.heap where
  full : t.full = s.full
  pos : t.pos = s.pos
  tracker : t.tracker = s.tracker.map (TrackerRef.reloc p)

/-- The same outcome, and such scanners. -/
def PairedE (p : Places) : Exec (Option Err × Scanner) → Exec (Option Err × Scanner) → Prop
  | .ret (e, s), .ret (e', t) => e' = e ∧ Paired p s t
  | .panic, .panic => True
  | .timeout, .timeout => True
  | _, _ => False

/-- The functions of `Wrap` do on the objects of the other instance what they do on those of the first. -/
def Reader.wrapAlike (p : Places) : Reader → Prop
  | .wrap _ f => ∀ s t, Paired p s t → PairedE p (f s) (p.wraps f t)
  | _ => True

end Tok.Spec
