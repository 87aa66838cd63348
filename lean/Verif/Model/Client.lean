/-
Client programs of the scanner: every exported method of `*Scanner` in
/repo/scanner.go, /repo/scanner_rev.go, /repo/read.go, /repo/token.go and
/repo/error.go as an operation, and programs that call them in any order, inspect
the scanner in between and pass closures to Scope, Trace, Tokenize, Capture and
While.
-/
import Verif.Model.Read

namespace Tok

/-- A method call with its arguments. -/
inductive Op where
  | ifStr (str : Bytes) | ifAny (strs : List Bytes) | to (str : Bytes) | scanString (n : Int)
  | ifFold (str : Bytes) | toFold (str : Bytes)
  | ifRune (r : Rune) | toRune (r : Rune) | whileRune (r : Rune)
  | ifAnyRune (str : Bytes) | toAnyRune (str : Bytes) | whileAnyRune (str : Bytes)
  | ifBetween (min max : Rune) | toBetween (min max : Rune) | whileBetween (min max : Rune)
  | ifMatch (f : Rune → Bool) | toMatch (f : Rune → Bool) | whileMatch (f : Rune → Bool)
  | tail | head | lineCol (tab : Int) | move (n : Int) | moveRunes (n : Int) | atEnd | atStart
  | toMarker (m : Int) | toEnd | toStart | mark | get (t : Token) | since (m : Int)
  | errorFor (name : Bytes) | segmentate (segs : List Segment)
  | revIf (str : Bytes) | revIfAny (strs : List Bytes) | revTo (str : Bytes)
  | revIfFold (str : Bytes) | revToFold (str : Bytes)
  | revIfRune (r : Rune) | revToRune (r : Rune) | revWhileRune (r : Rune)
  | revIfAnyRune (str : Bytes) | revToAnyRune (str : Bytes) | revWhileAnyRune (str : Bytes)
  | revIfBetween (min max : Rune) | revToBetween (min max : Rune) | revWhileBetween (min max : Rune)
  | revIfMatch (f : Rune → Bool) | revToMatch (f : Rune → Bool) | revWhileMatch (f : Rune → Bool)
  | readRune | revReadRune | readBool (format : Bytes) | readInt (base bits : Int) | readUint (base bits : Int)
  | setTracker (t : Option TrackerRef)

/-- The effect of a method call: what it does to the scanner and a success flag.  For
methods that return a value the flag is `true` (or "no error"); the value itself can be
recomputed from the scanner before the call, so nothing is lost for a client. -/
def Op.exec (rt : Rt) : Op → Scanner.ScopeFunc
  | .ifStr str, s => s.ifStr str
  | .ifAny strs, s => s.ifAny strs
  | .to str, s => s.to str
  | .scanString n, s => do let ((_, ok), s) ← s.scanString n; pure (ok, s)
  | .ifFold str, s => s.ifFold rt str
  | .toFold str, s => s.toFold rt str
  | .ifRune r, s => s.ifRune r
  | .toRune r, s => s.toRune r
  | .whileRune r, s => s.whileRune r
  | .ifAnyRune str, s => s.ifAnyRune str
  | .toAnyRune str, s => s.toAnyRune str
  | .whileAnyRune str, s => s.whileAnyRune str
  | .ifBetween min max, s => s.ifBetween min max
  | .toBetween min max, s => s.toBetween min max
  | .whileBetween min max, s => s.whileBetween min max
  | .ifMatch f, s => s.ifMatch f
  | .toMatch f, s => s.toMatch f
  | .whileMatch f, s => s.whileMatch f
  | .tail, s => do let _ ← s.tail; pure (true, s)
  | .head, s => do let _ ← s.head; pure (true, s)
  | .lineCol tab, s => do let _ ← s.lineCol tab; pure (true, s)
  | .move n, s => pure (s.move n)
  | .moveRunes n, s => s.moveRunes n
  | .atEnd, s => pure (s.atEnd, s)
  | .atStart, s => pure (s.atStart, s)
  | .toMarker m, s => pure (s.toMarker m)
  | .toEnd, s => pure s.toEnd
  | .toStart, s => pure s.toStart
  | .mark, s => pure (true, s)
  | .get t, s => do let _ ← s.get t; pure (true, s)
  | .since m, s => do let _ ← s.since m; pure (true, s)
  | .errorFor _, s => pure (true, s)
  | .segmentate segs, s => pure ((s.segmentate segs).2.isNone, s)
  | .revIf str, s => s.revIf str
  | .revIfAny strs, s => s.revIfAny strs
  | .revTo str, s => s.revTo str
  | .revIfFold str, s => s.revIfFold rt str
  | .revToFold str, s => s.revToFold rt str
  | .revIfRune r, s => s.revIfRune r
  | .revToRune r, s => s.revToRune r
  | .revWhileRune r, s => s.revWhileRune r
  | .revIfAnyRune str, s => s.revIfAnyRune str
  | .revToAnyRune str, s => s.revToAnyRune str
  | .revWhileAnyRune str, s => s.revWhileAnyRune str
  | .revIfBetween min max, s => s.revIfBetween min max
  | .revToBetween min max, s => s.revToBetween min max
  | .revWhileBetween min max, s => s.revWhileBetween min max
  | .revIfMatch f, s => s.revIfMatch f
  | .revToMatch f, s => s.revToMatch f
  | .revWhileMatch f, s => s.revWhileMatch f
  | .readRune, s => do let ((_, e), s) ← s.readRune; pure (e.isNone, s)
  | .revReadRune, s => do let ((_, e), s) ← s.revReadRune; pure (e.isNone, s)
  | .readBool format, s => do let ((_, e), s) ← s.readBool format; pure (e.isNone, s)
  | .readInt base bits, s => do let ((_, e), s) ← s.readInt base bits; pure (e.isNone, s)
  | .readUint base bits, s => do let ((_, e), s) ← s.readUint base bits; pure (e.isNone, s)
  | .setTracker t, s => pure (true, { s with tracker := t })

/-- A client program.  After each call it may look at the result and at the scanner to
decide how to go on; `done b` is `return b`.  The closures given to the scope methods
are programs themselves. -/
inductive Prog where
  | done (b : Bool)
  | call (op : Op) (k : Bool → Scanner → Prog)
  | scope (body : Prog) (k : Bool → Scanner → Prog)
  | trace (body : Prog) (k : Bool → Scanner → Prog)
  | tokenize (body : Prog) (k : Bool → Scanner → Prog)
  | capture (body : Prog) (k : Bool → Scanner → Prog)
  | while_ (body : Prog) (k : Bool → Scanner → Prog)

/-- Running a client program; `fuel` bounds the rounds of each `While`. -/
def Prog.run (rt : Rt) (fuel : Nat) : Prog → Scanner.ScopeFunc
  | .done b, s => pure (b, s)
  | .call op k, s => do let (b, s) ← op.exec rt s; (k b s).run rt fuel s
  | .scope body k, s => do let (b, s) ← s.scope (body.run rt fuel); (k b s).run rt fuel s
  | .trace body k, s => do let ((_, b), s) ← s.trace (body.run rt fuel); (k b s).run rt fuel s
  | .tokenize body k, s => do let ((_, b), s) ← s.tokenize (body.run rt fuel); (k b s).run rt fuel s
  | .capture body k, s => do let ((_, b), s) ← s.capture (body.run rt fuel); (k b s).run rt fuel s
  | .while_ body k, s => do let (b, s) ← s.while_ fuel (body.run rt fuel); (k b s).run rt fuel s

end Tok
