/-
Model of /repo/scanner.go, of the run-time objects a scanner can reach
(/repo/tracker.go baskets, /repo/monitor.go logs, the mutable fields of the
readers in /repo/reader.go), and of the scanner methods in /repo/token.go and
/repo/error.go.
-/
import Verif.Model.Token

namespace Tok

/-- monitor.go:9-15 `LogEntry`. -/
structure LogEntry where
  enterAt : Int
  info : Bytes
  level : Int
  exitAt : Int
  err : Option Err
  deriving Repr, DecidableEq

/-- monitor.go:21-24 `Log`.  The slice `Entries` is a list plus what aliasing
needs: its capacity and a generation number that changes whenever `append` moves
the slice to a new backing array, so that an older `*LogEntry` no longer points
into it. -/
structure Log where
  entries : List LogEntry
  cap : Nat
  gen : Nat
  level : Int
  deriving Repr, DecidableEq

/-- A `*LogEntry` into a log's backing array. -/
structure EntryPtr where
  gen : Nat
  idx : Nat
  deriving Repr, DecidableEq

/-- The value of a zero `Log`. -/
def Log.empty : Log := ⟨[], 0, 0, 0⟩

/-- monitor.go:32-41 `Log.Enter`. -/
def Log.enter (rt : Rt) (l : Log) (info : Bytes) (pos : Int) : EntryPtr × Log :=
  let level := l.level + 1
  let i := l.entries.length
  let entries := l.entries ++ [⟨pos, info, level, 0, none⟩]
  if i = l.cap then
    (⟨l.gen + 1, i⟩, ⟨entries, rt.growCap l.cap, l.gen + 1, level⟩)
  else
    (⟨l.gen, i⟩, ⟨entries, l.cap, l.gen, level⟩)

/-- monitor.go:43-47 `Log.Exit`: the write goes through the pointer and is only
seen in `Entries` if the backing array is still the same. -/
def Log.exit (l : Log) (e : EntryPtr) (pos : Int) (err : Option Err) : Log :=
  { l with
    entries := if e.gen = l.gen then
        l.entries.modify e.idx (fun en => { en with exitAt := pos, err := err })
      else l.entries
    level := l.level - 1 }

/-- monitor.go:67-70 `Log.Reset`. -/
def Log.reset (l : Log) : Log := ⟨[], 0, l.gen + 1, 0⟩

/-- The value last stored by a `Bool`, `Int` or `Uint` reader (reader.go:384-387,
468-472, 950-954, field `Value`). -/
inductive Cell where
  | unset
  | bool (b : Bool)
  | int (i : Int)
  | uint (n : Nat)
  deriving Repr, DecidableEq

/-- The mutable objects outside the scanner, each kind indexed by an object id. -/
structure Heap where
  /-- `Basket.segments` (tracker.go:31-33). -/
  baskets : Nat → List Segment
  /-- The markers passed so far to a user-defined `Tracker` (tracker.go:8-10). -/
  tracks : Nat → List Int
  /-- `janusEndReader.reader.str` (reader.go:513-516). -/
  janus : Nat → Bytes
  /-- `Log` objects. -/
  logs : Nat → Log
  /-- The calls of `MapFunc`s so far, in order (reader.go:639-645). -/
  maps : List (Nat × Token)
  /-- The `Value` fields of value readers. -/
  cells : Nat → Cell

/-- The heap before anything happened. -/
def Heap.empty : Heap := ⟨fun _ => [], fun _ => [], fun _ => [], fun _ => Log.empty, [], fun _ => .unset⟩

/-- Replacing the value of one object. -/
def upd {α : Type} (f : Nat → α) (i : Nat) (v : α) : Nat → α := fun j => if j = i then v else f j

/-- A non-nil `Scanner.Tracker`: a basket or a user-defined tracker. -/
inductive TrackerRef where
  | basket (id : Nat)
  | custom (id : Nat)
  deriving Repr, DecidableEq

/-- scanner.go:8-12 `Scanner`, together with the heap it can reach.  `pos` is an
integer because scanner.go:373-382 `ToMarker` does not check its argument. -/
structure Scanner where
  full : Bytes
  pos : Int
  tracker : Option TrackerRef
  heap : Heap

/-- The loop of tracker.go:40-49 `Basket.Update`, run over the reversed slice. -/
def basketCut (m : Int) : List Segment → List Segment
  | [] => []
  | seg :: before => if seg.tok.to ≤ m then seg :: before else basketCut m before

/-- tracker.go:40-49 `Basket.Update`. -/
def basketUpdate (m : Int) (segs : List Segment) : List Segment :=
  (basketCut m segs.reverse).reverse

namespace Scanner

/-- scanner.go:15-20 `NewScanner`, in a given heap. -/
def new (str : Bytes) (h : Heap) : Scanner := ⟨str, 0, none, h⟩

/-- scanner.go:395-397 `Mark`. -/
def mark (s : Scanner) : Int := s.pos

/-- scanner.go:327-329 and 378-380: `if s.Tracker != nil { s.Tracker.Update(s.Mark()) }`. -/
def notify (s : Scanner) : Scanner :=
  match s.tracker with
  | none => s
  | some (.basket id) =>
    { s with heap := { s.heap with
        baskets := upd s.heap.baskets id (basketUpdate s.pos (s.heap.baskets id)) } }
  | some (.custom id) =>
    { s with heap := { s.heap with
        tracks := upd s.heap.tracks id (s.heap.tracks id ++ [s.pos]) } }

/-- scanner.go:321-331 `Move`. -/
def move (s : Scanner) (n : Int) : Bool × Scanner :=
  let npos := s.pos + n
  if 0 > npos || npos > (s.full.length : Int) then (false, s)
  else (true, notify { s with pos := npos })

/-- scanner.go:373-382 `ToMarker`.  The guard `m < 0 && len(s.full) <= m` is kept as
written. -/
def toMarker (s : Scanner) (m : Int) : Bool × Scanner :=
  if m < 0 && (s.full.length : Int) ≤ m then (false, s)
  else (true, notify { s with pos := m })

/-- scanner.go:385-387 `ToEnd`. -/
def toEnd (s : Scanner) : Bool × Scanner := s.toMarker s.full.length

/-- scanner.go:390-392 `ToStart`. -/
def toStart (s : Scanner) : Bool × Scanner := s.toMarker 0

/-- scanner.go:299-301 `Tail`: slicing panics when the position is out of range. -/
def tail (s : Scanner) : Exec Bytes :=
  if 0 ≤ s.pos ∧ s.pos ≤ (s.full.length : Int) then .ret (s.full.drop s.pos.toNat) else .panic

/-- scanner.go:304-306 `Head`. -/
def head (s : Scanner) : Exec Bytes :=
  if 0 ≤ s.pos ∧ s.pos ≤ (s.full.length : Int) then .ret (s.full.take s.pos.toNat) else .panic

/-- scanner.go:358-360 `AtEnd`. -/
def atEnd (s : Scanner) : Bool := decide ((s.full.length : Int) = s.pos)

/-- scanner.go:363-365 `AtStart`. -/
def atStart (s : Scanner) : Bool := decide (s.pos = 0)

/-- token.go:68-70 `Get`: slicing panics when the token does not lie in the text. -/
def get (s : Scanner) (t : Token) : Exec Bytes :=
  if 0 ≤ t.frm ∧ t.frm ≤ t.to ∧ t.to ≤ (s.full.length : Int) then
    .ret ((s.full.drop t.frm.toNat).take (t.to - t.frm).toNat)
  else .panic

/-- token.go:96-98 `Since`. -/
def since (s : Scanner) (m : Int) : Exec Bytes := s.get (makeToken m s.mark)

/-! ### scopes (scanner.go:29-56, token.go:74-116) -/

/-- scanner.go:26 `ScopeFunc`: a closure that may use the scanner. -/
abbrev ScopeFunc := Scanner → Exec (Bool × Scanner)

/-- scanner.go:29-36 `Scope`. -/
def scope (s : Scanner) (f : ScopeFunc) : Exec (Bool × Scanner) := do
  let m := s.mark
  let (res, s) ← f s
  if !res then pure (res, (s.toMarker m).2) else pure (res, s)

/-- scanner.go:39-47 `Trace`. -/
def trace (s : Scanner) (f : ScopeFunc) : Exec ((Bytes × Bool) × Scanner) := do
  let m := s.mark
  let (res, s) ← f s
  let str ← s.since m
  if !res then pure ((str, res), (s.toMarker m).2) else pure ((str, res), s)

/-- The loop of scanner.go:52-53, with a step budget. -/
def whileLoop (f : ScopeFunc) : Nat → Scanner → Exec Scanner
  | 0, _ => .timeout
  | n + 1, s => do
    let (res, s) ← f s
    if res then whileLoop f n s else pure s

/-- scanner.go:50-56 `While`. -/
def while_ (fuel : Nat) (s : Scanner) (f : ScopeFunc) : Exec (Bool × Scanner) := do
  let start := s.mark
  let s ← whileLoop f fuel s
  pure (decide (start < s.mark), s)

/-- token.go:74-82 `Tokenize`. -/
def tokenize (s : Scanner) (f : ScopeFunc) : Exec ((Token × Bool) × Scanner) := do
  let a := s.mark
  let (res, s) ← f s
  let b := s.mark
  let s := if !res then (s.toMarker a).2 else s
  pure ((makeToken a b, res), s)

/-- token.go:101-107 `Capture`. -/
def capture (s : Scanner) (f : ScopeFunc) : Exec ((Bytes × Bool) × Scanner) := do
  let ((t, ok), s) ← s.tokenize f
  if ok then do
    let str ← s.get t
    pure ((str, true), s)
  else pure (([], false), s)

/-! ### strings (scanner.go:61-98) -/

/-- intl.go:39-48 `getPrefix`: the first `n` runes, `false` when the loop ends
before a rune with index `n` is seen. -/
def getPrefix (str : Bytes) (n : Int) : Bytes × Bool :=
  if n < 0 then (str, false)
  else match (rangeStr str)[n.toNat]? with
    | some (i, _) => (str.take i, true)
    | none => (str, false)

/-- intl.go:50-59 `midSubString`. -/
def midSubString (str : Bytes) (from_ : Int) : Bytes :=
  if from_ < 0 then []
  else match (rangeStr str)[from_.toNat]? with
    | some (i, _) => str.drop i
    | none => []

/-- intl.go:61-65 `subStringFrom`. -/
def subStringFrom (str : Bytes) (from_ n : Int) : Bytes :=
  (getPrefix (midSubString str from_) n).1

/-- scanner.go:61-67 `ScanString`. -/
def scanString (s : Scanner) (n : Int) : Exec ((Bytes × Bool) × Scanner) := do
  let t ← s.tail
  let (sub, ok) := getPrefix t n
  if ok then
    let (ok, s) := s.move sub.length
    pure ((sub, ok), s)
  else pure ((sub, ok), s)

/-- scanner.go:72-77 `If`. -/
def ifStr (s : Scanner) (str : Bytes) : Exec (Bool × Scanner) := do
  let t ← s.tail
  if hasPrefix t str then pure (s.move str.length) else pure (false, s)

/-- scanner.go:81-88 `IfAny`. -/
def ifAny (s : Scanner) : List Bytes → Exec (Bool × Scanner)
  | [] => pure (false, s)
  | str :: strs => do
    let (ok, s) ← s.ifStr str
    if ok then pure (true, s) else ifAny s strs

/-- scanner.go:92-98 `To`. -/
def to (s : Scanner) (str : Bytes) : Exec (Bool × Scanner) := do
  let t ← s.tail
  match index t str with
  | some i => pure (s.move i)
  | none => pure (false, s)

/-! ### fold (scanner.go:103-124) -/

/-- scanner.go:103-110 `IfFold`: `s.Tail()[:i]` panics when fewer than `i` bytes are
left. -/
def ifFold (rt : Rt) (s : Scanner) (str : Bytes) : Exec (Bool × Scanner) := do
  let t ← s.tail
  if str.length > t.length then .panic
  else if equalFold rt (t.take str.length) str then pure (s.move str.length)
  else pure (false, s)

/-- The loop of scanner.go:117-122: `n` is the offset, `fuel` bounds the rest. -/
def toFoldLoop (rt : Rt) (str : Bytes) : Nat → Nat → Bytes → Option Nat
  | 0, _, _ => none
  | fuel + 1, n, sub =>
    if sub.length ≥ str.length then
      if equalFold rt (sub.take str.length) str then some n
      else toFoldLoop rt str fuel (n + 1) (sub.drop 1)
    else none

/-- scanner.go:114-124 `ToFold`.  (For `str = ""` the Go loop returns in its first
iteration, so `len+1` iterations are always enough.) -/
def toFold (rt : Rt) (s : Scanner) (str : Bytes) : Exec (Bool × Scanner) := do
  let t ← s.tail
  match toFoldLoop rt str (t.length + 1) 0 t with
  | some n => pure (s.move n)
  | none => pure (false, s)

/-! ### rune (scanner.go:129-162) -/

/-- scanner.go:129-135 `IfRune` (`i == -1` never holds). -/
def ifRune (s : Scanner) (r : Rune) : Exec (Bool × Scanner) := do
  let t ← s.tail
  let (first, i) := decodeRune t
  if first != r then pure (false, s) else pure (s.move i)

/-- scanner.go:140-147 `ToRune`. -/
def toRune (s : Scanner) (r : Rune) : Exec (Bool × Scanner) := do
  let t ← s.tail
  match (rangeStr t).find? (fun iv => iv.2 == r) with
  | some (i, _) => pure (s.move i)
  | none => pure (false, s)

/-- scanner.go:151-162 `WhileRune`. -/
def whileRune (s : Scanner) (r : Rune) : Exec (Bool × Scanner) := do
  let t ← s.tail
  if t.length == 0 then pure (false, s)
  else match (rangeStr t).find? (fun iv => iv.2 != r) with
    | some (i, _) => pure (s.move i)
    | none => pure s.toEnd

/-! ### anyrune (scanner.go:167-202) -/

/-- The loop of scanner.go:168-172 over the runes of `str`. -/
def ifAnyRuneLoop (s : Scanner) : List Rune → Exec (Bool × Scanner)
  | [] => pure (false, s)
  | r :: rs => do
    let (ok, s) ← s.ifRune r
    if ok then pure (true, s) else ifAnyRuneLoop s rs

/-- scanner.go:167-174 `IfAnyRune`. -/
def ifAnyRune (s : Scanner) (str : Bytes) : Exec (Bool × Scanner) := ifAnyRuneLoop s (runesOf str)

/-- scanner.go:178-184 `ToAnyRune`. -/
def toAnyRune (s : Scanner) (str : Bytes) : Exec (Bool × Scanner) := do
  let t ← s.tail
  match indexAny t str with
  | some i => pure (s.move i)
  | none => pure (false, s)

/-- scanner.go:188-202 `WhileAnyRune`. -/
def whileAnyRune (s : Scanner) (str : Bytes) : Exec (Bool × Scanner) := do
  let t ← s.tail
  if t.length == 0 then pure (false, s)
  else match (rangeStr t).find? (fun iv => !containsRune str iv.2) with
    | some (i, _) => if i == 0 then pure (false, s) else pure (s.move i)
    | none => pure (true, s)

/-! ### between (scanner.go:206-251) -/

/-- scanner.go:206-208 `inRange`. -/
def inRange (min val max : Rune) : Bool := decide (min ≤ val) && decide (val ≤ max)

/-- scanner.go:212-221 `IfBetween`. -/
def ifBetween (s : Scanner) (min max : Rune) : Exec (Bool × Scanner) := do
  let t ← s.tail
  if t.length == 0 then pure (false, s)
  else
    let (val, i) := decodeRune t
    if !inRange min val max then pure (false, s) else pure (s.move i)

/-- scanner.go:225-236 `ToBetween`. -/
def toBetween (s : Scanner) (min max : Rune) : Exec (Bool × Scanner) := do
  let t ← s.tail
  if t.length == 0 then pure (false, s)
  else match (rangeStr t).find? (fun iv => inRange min iv.2 max) with
    | some (i, _) => pure (s.move i)
    | none => pure (false, s)

/-- scanner.go:240-251 `WhileBetween`. -/
def whileBetween (s : Scanner) (min max : Rune) : Exec (Bool × Scanner) := do
  let t ← s.tail
  if t.length == 0 then pure (false, s)
  else match (rangeStr t).find? (fun iv => !inRange min iv.2 max) with
    | some (i, _) => pure (s.move i)
    | none => pure s.toEnd

/-! ### match (scanner.go:255-295) -/

/-- scanner.go:259-265 `IfMatch`. -/
def ifMatch (s : Scanner) (check : Rune → Bool) : Exec (Bool × Scanner) := do
  let t ← s.tail
  let (first, i) := decodeRune t
  if i != 0 && check first then pure (s.move i) else pure (false, s)

/-- scanner.go:269-276 `ToMatch`. -/
def toMatch (s : Scanner) (check : Rune → Bool) : Exec (Bool × Scanner) := do
  let t ← s.tail
  match (rangeStr t).find? (fun iv => check iv.2) with
  | some (i, _) => pure (s.move i)
  | none => pure (false, s)

/-- scanner.go:280-295 `WhileMatch`. -/
def whileMatch (s : Scanner) (check : Rune → Bool) : Exec (Bool × Scanner) := do
  let t ← s.tail
  if t.length == 0 then pure (false, s)
  else match (rangeStr t).find? (fun iv => !check iv.2) with
    | some (i, _) => if i == 0 then pure (false, s) else pure (s.move i)
    | none => pure (false, s)

/-! ### state (scanner.go:309-355) -/

/-- scanner.go:309-318 `LineCol`. -/
def lineCol (s : Scanner) (tab : Int) : Exec (Int × Int) := do
  let h ← s.head
  let lines := splitLf (crlfToLf h)
  match lines.getLast? with
  | none => pure (0, 0)
  | some last =>
    let tabs := countTab last
    let n : Int := (last.length - tabs) + tabs * tab
    pure (lines.length, n + 1)

end Scanner

/-- intl.go:9-35 `revItr`, run to exhaustion: the values `(Str, Val)` seen after
each successful `next()`, and the final `Str` when `next()` returned false.  The
first argument bounds the number of steps; `str.length + 1` is always enough. -/
def revItrGo : Nat → Bytes → List (Bytes × Rune) × Bytes
  | 0, str => ([], str)
  | fuel + 1, str =>
    let (val, vi) := decodeLastRune str
    if val == runeError then ([], str)
    else
      let (rest, last) := revItrGo fuel (str.take (str.length - vi))
      ((str, val) :: rest, last)

/-- intl.go:16-31 `makeRevItr` followed by `next()` until it returns false. -/
def revItr (str : Bytes) : List (Bytes × Rune) × Bytes := revItrGo (str.length + 1) str

namespace Scanner

/-- scanner.go:334-355 `MoveRunes`. -/
def moveRunes (s : Scanner) (n : Int) : Exec (Bool × Scanner) :=
  if n > 0 then do
    let t ← s.tail
    match (rangeStr t)[(n - 1).toNat]? with
    | some (i, r) => pure (s.move (i + runeLen r))
    | none => pure (false, s)
  else if n < 0 then do
    let h ← s.head
    match (revItr h).1[(-n - 1).toNat]? with
    | some (str, val) => pure (s.move (-(((h.length : Int) - str.length) + runeLen val)))
    | none => pure (false, s)
  else pure (true, s)

/-! ### errors (error.go:22-32) -/

/-- error.go:22-24 `ErrorFor`. -/
def errorFor (s : Scanner) (name : Bytes) : Err := .read s.mark name

/-- error.go:27-32 `ErrorIfFalse`. -/
def errorIfFalse (s : Scanner) (ok : Bool) (name : Bytes) : Option Err :=
  if !ok then some (.read s.mark name) else none

/-- segment.go:110-113 `Scanner.Segmentate`. -/
def segmentate (s : Scanner) (segments : List Segment) : List Segment × Option Segment :=
  (Segment.mk [] (makeToken 0 s.full.length)).segmentate segments

end Scanner

end Tok
