/-
Model of /repo/reader.go, of the readers of /repo/tracker.go, /repo/monitor.go and
/repo/grammar.go, and of the reader-based methods of /repo/token.go.
-/
import Verif.Model.Read

namespace Tok

/-- The Go type of `func(*Scanner) error` (reader.go:25 `ReadFunc`) and of every
`Read` method; `none` is a nil error. -/
abbrev ReadFunc := Scanner → Exec (Option Err × Scanner)

/-- A `Reader` value: one constructor per struct that implements the interface
(reader.go:28-31).  Mutable fields live in the heap and are named by an id. -/
inductive Reader where
  /-- reader.go:76-111 `anyReader`. -/
  | any (readers : List Reader)
  /-- reader.go:139-149 `anyRuneReader`. -/
  | anyRune (str : Bytes)
  /-- reader.go:157-170 `atReader`. -/
  | at_ (sub : Reader)
  /-- reader.go:179-188 `atEndReader`. -/
  | atEnd
  /-- reader.go:196-218 `betweenReader`. -/
  | between (min max : Rune)
  /-- reader.go:226-261 `betweenAnyReader`; `min[i]`, `max[i]` as pairs. -/
  | betweenAny (ranges : List (Rune × Rune)) (singles : Bytes)
  /-- reader.go:318-343 `bodyReader`. -/
  | body (body tail : Reader)
  /-- reader.go:351-375 `bodyTailReader`. -/
  | bodyTail (body tail : Reader)
  /-- reader.go:384-397 `BoolReader`. -/
  | bool (cell : Nat) (format : Bytes)
  /-- reader.go:419-429 `foldReader`. -/
  | fold (val : Bytes)
  /-- reader.go:443-459 `holeyReader`. -/
  | holey (min max : Rune) (holes : Bytes)
  /-- reader.go:468-482 `IntReader`. -/
  | int (cell : Nat) (base bitSize : Int)
  /-- reader.go:495-511 `janusBeginReader`. -/
  | janusBegin (id : Nat) (name : Bytes) (sub : Reader)
  /-- reader.go:513-528 `janusEndReader`. -/
  | janusEnd (id : Nat) (name : Bytes)
  /-- reader.go:547-557 `invalidReader`. -/
  | invalid (err : Bytes)
  /-- reader.go:586-596 `litReader`. -/
  | lit (str : Bytes)
  /-- reader.go:604-618 `manyReader`. -/
  | many (sub : Reader)
  /-- reader.go:634-649 `mapReader`; the `MapFunc` is named by an id. -/
  | map (fid : Nat) (sub : Reader)
  /-- reader.go:657-668 `matchReader`. -/
  | match_ (what : Bytes) (f : Rune → Bool)
  /-- reader.go:676-687 `namedReader`. -/
  | named (name : Bytes) (sub : Reader)
  /-- reader.go:701-718 `notReader`. -/
  | not (sub : Reader)
  /-- reader.go:726-737 `optReader`. -/
  | opt (sub : Reader)
  /-- reader.go:750-767 `pastReader`. -/
  | past (sub : Reader)
  /-- reader.go:780-790 `runeReader`. -/
  | rune (r : Rune)
  /-- reader.go:798-821 `seqReader`. -/
  | seq (readers : List Reader)
  /-- reader.go:838-868 `skipSeqReader`. -/
  | skipSeq (skip : Reader) (readers : List Reader)
  /-- reader.go:893-909 `timesReader`. -/
  | times (n : Int) (sub : Reader)
  /-- reader.go:917-936 `toReader`. -/
  | to (sub : Reader)
  /-- reader.go:950-964 `UintReader`. -/
  | uint (cell : Nat) (base bitSize : Int)
  /-- reader.go:977-988 `wrapReader`. -/
  | wrap (what : Bytes) (f : ReadFunc)
  /-- reader.go:1002-1014 `zomReader`. -/
  | zom (sub : Reader)
  /-- tracker.go:72-91 `pickReader`. -/
  | pick (info : Bytes) (basket : Nat) (sub : Reader)
  /-- monitor.go:72-87 `monitorReader`. -/
  | monitor (info : Bytes) (log : Nat) (sub : Reader)
  /-- grammar.go:97-122 `*Rule`, an index into the rules of the grammar. -/
  | rule (i : Nat)
  /-- grammar.go:129-140 `ruleNameReader`. -/
  | ruleName (sub : Reader)
  /-- grammar/json.go:69-79, grammar/mxt.go:51-61, grammar/lua.go:220-230: a grammar
  whose `Read` reads `sub` and rewrites a failure to `<what> parse error: <err>`. -/
  | grammar (what : Bytes) (sub : Reader)

/-- grammar.go:97-100 `Rule`; `none` is a nil `Reader`. -/
structure Rule where
  name : Bytes
  reader : Option Reader

/-- The rules that `rule i` readers point to. -/
abbrev Env := List Rule

/-! ### reader-based scanner methods -/

namespace Scanner

/-- reader.go:35-42 `Use` and reader.go:46-53 `UseFunc`. -/
def use (s : Scanner) (f : ReadFunc) : Exec (Option Err × Scanner) := do
  let m := s.mark
  let (err, s) ← f s
  if err.isSome then pure (err, (s.toMarker m).2) else pure (err, s)

/-- reader.go:56-63 `TraceUse` and reader.go:66-73 `TraceUseFunc`. -/
def traceUse (s : Scanner) (f : ReadFunc) : Exec ((Bytes × Option Err) × Scanner) := do
  let m := s.mark
  let (err, s) ← f s
  let s := if err.isSome then (s.toMarker m).2 else s
  let str ← s.since m
  pure ((str, err), s)

/-- token.go:85-93 `TokenizeUse`. -/
def tokenizeUse (s : Scanner) (f : ReadFunc) : Exec ((Token × Option Err) × Scanner) := do
  let a := s.mark
  let (err, s) ← f s
  let s := if err.isSome then (s.toMarker a).2 else s
  let b := s.mark
  pure ((makeToken a b, err), s)

/-- token.go:110-116 `CaptureUse`. -/
def captureUse (s : Scanner) (f : ReadFunc) : Exec ((Bytes × Option Err) × Scanner) := do
  let ((t, err), s) ← s.tokenizeUse f
  if err.isNone then do
    let str ← s.get t
    pure ((str, none), s)
  else pure (([], err), s)

end Scanner

/-! ### What -/

/-- reader.go:205-207 `quoteRune`. -/
def quoteRune (rt : Rt) (r : Rune) : Bytes := trimQuote (quoteRuneToGraphic rt r)

/-- reader.go:209-214 `quoteBetween`. -/
def quoteBetween (rt : Rt) (min max : Rune) : Bytes :=
  if min = max then quoteRuneToGraphic rt min
  else b!"<" ++ quoteRune rt min ++ quoteRune rt max ++ b!">"

/-- reader.go:561 `InvalidReaderMarker`. -/
def invalidReaderMarker : Bytes := b!"::INVALID-READER::"

/-- The loop of reader.go:249-254. -/
def whatRanges (rt : Rt) : List (Rune × Rune) → Bytes
  | [] => []
  | (min, max) :: rest => b!" " ++ quoteRune rt min ++ quoteRune rt max ++ whatRanges rt rest

mutual

/-- The `What` methods; the line ranges are those of the constructors of `Reader`.
A rule without an entry in the environment has an empty name here (`What` on a nil
`*Rule` would panic in Go; `read` panics on it). -/
def Reader.what (rt : Rt) (G : Env) : Reader → Bytes
  | .any rs => b!"[ " ++ join b!" " (Reader.whats rt G rs) ++ b!" ]"
  | .anyRune str => b!"[" ++ quoteToGraphic rt str ++ b!"]"
  | .at_ sub => b!"@" ++ sub.what rt G
  | .atEnd => b!"@END"
  | .between min max => quoteBetween rt min max
  | .betweenAny ranges singles =>
    b!"[<" ++ whatRanges rt ranges
      ++ (if singles != [] then b!" " ++ quoteToGraphic rt singles else []) ++ b!" >]"
  | .body b t => b!"-(" ++ b.what rt G ++ b!"-" ++ t.what rt G ++ b!")-"
  | .bodyTail b t => b!"-(" ++ b.what rt G ++ b!"-+" ++ t.what rt G ++ b!")-"
  | .bool _ format => b!"bool{" ++ quoteToGraphic rt format ++ b!"}"
  | .fold val => b!"~" ++ quoteToGraphic rt val
  | .holey min max holes =>
    b!"(" ++ quoteBetween rt min max ++ b!" - " ++ quoteToGraphic rt holes ++ b!")"
  | .int _ base bitSize => b!"int{" ++ itoa base ++ b!"," ++ itoa bitSize ++ b!"}"
  | .janusBegin _ name sub => b!"$" ++ name ++ b!"<" ++ sub.what rt G
  | .janusEnd _ name => b!"$" ++ name
  | .invalid err => invalidReaderMarker ++ b!"{" ++ err ++ b!"}"
  | .lit str => quoteToGraphic rt str
  | .many sub => b!"+" ++ sub.what rt G
  | .map _ sub => sub.what rt G
  | .match_ what _ => what
  | .named name _ => name
  | .not sub => b!"!" ++ sub.what rt G
  | .opt sub => b!"?" ++ sub.what rt G
  | .past sub => b!"-->" ++ sub.what rt G
  | .rune r => quoteRuneToGraphic rt r
  | .seq rs => join b!" " (Reader.whats rt G rs)
  | .skipSeq skip rs =>
    join b!" " ([b!"(>" ++ skip.what rt G ++ b!">"] ++ Reader.whats rt G rs ++ [b!")"])
  | .times n sub => itoa n ++ b!"*" ++ sub.what rt G
  | .to sub => b!"->" ++ sub.what rt G
  | .uint _ base bitSize => b!"uint{" ++ itoa base ++ b!"," ++ itoa bitSize ++ b!"}"
  | .wrap what _ => what
  | .zom sub => b!"*" ++ sub.what rt G
  | .pick _ _ sub => sub.what rt G
  | .monitor _ _ sub => sub.what rt G
  | .rule i => match G[i]? with
    | some r => r.name
    | none => []
  | .ruleName _ => b!"rulename"
  | .grammar what _ => what

/-- `What` of every reader of a list. -/
def Reader.whats (rt : Rt) (G : Env) : List Reader → List Bytes
  | [] => []
  | r :: rs => r.what rt G :: Reader.whats rt G rs

end

/-! ### loops of the `Read` methods -/

/-- reader.go:80-89 `getDeepest`, with the running value of `deepest`. -/
def getDeepest : Int × Bytes → List Err → Err
  | (m, w), [] => .read m w
  | d, .read m w :: es => getDeepest (if m ≥ d.1 then (m, w) else d) es
  | d, .other _ :: es => getDeepest d es

/-- The loop of reader.go:94-100, with the errors collected so far. -/
def anyLoop (rd : Reader → ReadFunc) : List Reader → List Err → Scanner →
    Exec (Option (List Err) × Scanner)
  | [], errs, s => pure (some errs, s)
  | sub :: rest, errs, s => do
    let (e, s) ← rd sub s
    match e with
    | none => pure (none, s)
    | some e => anyLoop rd rest (errs ++ [e]) s

/-- The loop of reader.go:805-811: the error of the first failing reader. -/
def seqLoop (rd : Reader → ReadFunc) : List Reader → ReadFunc
  | [], s => pure (none, s)
  | sub :: rest, s => do
    let (e, s) ← rd sub s
    match e with
    | none => seqLoop rd rest s
    | some e => pure (some e, s)

/-- The loop of reader.go:846-854, entered with `err == nil`. -/
def skipSeqLoop (rd : Reader → ReadFunc) (skip : Reader) : List Reader → ReadFunc
  | [], s => pure (none, s)
  | sub :: rest, s => do
    let (e, s) ← rd sub s
    match e with
    | some e => pure (some e, s)
    | none => do
      let (e, s) ← rd skip s
      match e with
      | some e => pure (some e, s)
      | none => skipSeqLoop rd skip rest s

/-- The loop of reader.go:899-903 with `n` iterations left. -/
def timesLoop (f : ReadFunc) : Nat → ReadFunc
  | 0, s => pure (none, s)
  | n + 1, s => do
    let (e, s) ← f s
    match e with
    | some e => pure (some e, s)
    | none => timesLoop f n s

/-- The loop `for r.sub.Read(s) == nil {}` of reader.go:610-611 and 1007-1008. -/
def zomLoop (f : ReadFunc) : Nat → Scanner → Exec Scanner
  | 0, _ => .timeout
  | n + 1, s => do
    let (e, s) ← f s
    match e with
    | none => zomLoop f n s
    | some _ => pure s

/-- The loop of reader.go:234-238. -/
def betweenAnyLoop : List (Rune × Rune) → Scanner → Exec (Bool × Scanner)
  | [], s => pure (false, s)
  | (min, max) :: rest, s => do
    let (ok, s) ← s.ifBetween min max
    if ok then pure (true, s) else betweenAnyLoop rest s

/-- The loop of reader.go:325-336 and 358-368; `some t` when it returned nil after a
tail that starts at `t`, `none` when it was left by `break` or the condition. -/
def bodyLoop (body tail : ReadFunc) (m : Int) : Nat → Scanner → Exec (Option Int × Scanner)
  | 0, _ => .timeout
  | n + 1, s =>
    if s.atEnd then pure (none, s)
    else do
      let t := s.mark
      let (e, s) ← tail s
      match e with
      | none => do
        let str ← s.get (makeToken m t)
        let (e, sub) ← (Scanner.new str s.heap).use body
        let s := { s with heap := sub.heap }
        if e.isSome || !sub.atEnd then pure (none, s) else pure (some t, s)
      | some _ => do
        let (_, s) ← s.moveRunes 1
        bodyLoop body tail m n s

/-- The loop of reader.go:756-760; `true` when it returned nil. -/
def pastLoop (f : ReadFunc) : Nat → Scanner → Exec (Bool × Scanner)
  | 0, _ => .timeout
  | n + 1, s =>
    if s.atEnd then pure (false, s)
    else do
      let (e, s) ← f s
      match e with
      | none => pure (true, s)
      | some _ => do
        let (_, s) ← s.moveRunes 1
        pastLoop f n s

/-- The loop of reader.go:923-929; `true` when it returned nil. -/
def toLoop (f : ReadFunc) : Nat → Scanner → Exec (Bool × Scanner)
  | 0, _ => .timeout
  | n + 1, s => do
    let subM := s.mark
    let (e, s) ← f s
    match e with
    | none => pure (true, (s.toMarker subM).2)
    | some _ => do
      let (ok, s) ← s.moveRunes 1
      if ok then toLoop f n s else pure (false, s)

/-- `s.ErrorIfFalse(res, what)` around a scanner call. -/
def ifFalse (what : Bytes) (x : Exec (Bool × Scanner)) : Exec (Option Err × Scanner) := do
  let (ok, s) ← x
  pure (s.errorIfFalse ok what, s)

/-! ### Read -/

/-- The `Read` methods; the line ranges are those of the constructors of `Reader`.
The first argument is the step budget, used up by nested reads and by loop
iterations. -/
def read (rt : Rt) (G : Env) : Nat → Reader → ReadFunc
  | 0, _, _ => .timeout
  | n + 1, r, s =>
    let rd := read rt G n
    let what := r.what rt G
    match r with
    | .any rs => do
      let m := s.mark
      let (errs, s) ← anyLoop rd rs [] s
      match errs with
      | none => pure (none, s)
      | some errs => pure (some (getDeepest (0, []) errs), (s.toMarker m).2)
    | .anyRune str => ifFalse what (s.ifAnyRune str)
    | .at_ sub => do
      let m := s.mark
      let (err, s) ← rd sub s
      pure (err, (s.toMarker m).2)
    | .atEnd => pure (s.errorIfFalse s.atEnd what, s)
    | .between min max => ifFalse what (s.ifBetween min max)
    | .betweenAny ranges singles => do
      let m := s.mark
      let (ok, s) ← betweenAnyLoop ranges s
      if ok then pure (none, s)
      else do
        let (ok, s) ← s.ifAnyRune singles
        if ok then pure (none, s)
        else
          let s := (s.toMarker m).2
          pure (some (s.errorFor what), s)
    | .body b t => do
      let m := s.mark
      let (res, s) ← bodyLoop (rd b) (rd t) m n s
      match res with
      | some t => pure (none, (s.toMarker t).2)
      | none =>
        let s := (s.toMarker m).2
        pure (some (s.errorFor what), s)
    | .bodyTail b t => do
      let m := s.mark
      let (res, s) ← bodyLoop (rd b) (rd t) m n s
      match res with
      | some _ => pure (none, s)
      | none =>
        let s := (s.toMarker m).2
        pure (some (s.errorFor what), s)
    | .bool cell format => do
      let ((v, err), s) ← s.readBool format
      pure (err, { s with heap := { s.heap with cells := upd s.heap.cells cell (.bool v) } })
    | .fold val => ifFalse what (s.ifFold rt val)
    | .holey min max holes => do
      let t ← s.tail
      let (val, i) := decodeRune t
      if Scanner.inRange min val max && !containsRune holes val then
        let (ok, s) := s.move i
        pure (s.errorIfFalse ok what, s)
      else pure (some (s.errorFor what), s)
    | .int cell base bitSize => do
      let ((v, err), s) ← s.readInt base bitSize
      pure (err, { s with heap := { s.heap with cells := upd s.heap.cells cell (.int v) } })
    | .janusBegin id _ sub => do
      let ((t, err), s) ← s.tokenizeUse (rd sub)
      if err.isNone then do
        let str ← s.get t
        pure (err, { s with heap := { s.heap with janus := upd s.heap.janus id str } })
      else pure (err, s)
    | .janusEnd id _ => do
      let str := s.heap.janus id
      let (err, s) ← ifFalse (quoteToGraphic rt str) (s.ifStr str)
      if err.isNone then
        pure (err, { s with heap := { s.heap with janus := upd s.heap.janus id [] } })
      else pure (err, s)
    | .invalid err => pure (some (.other (b!"INVALID-READER: " ++ err)), s)
    | .lit str => ifFalse what (s.ifStr str)
    | .many sub => do
      let start := s.mark
      let s ← zomLoop (rd sub) n s
      pure (s.errorIfFalse (decide (start < s.mark)) what, s)
    | .map fid sub => do
      let ((t, err), s) ← s.tokenizeUse (rd sub)
      if err.isNone then
        pure (err, { s with heap := { s.heap with maps := s.heap.maps ++ [(fid, t)] } })
      else pure (err, s)
    | .match_ w f => ifFalse w (s.ifMatch f)
    | .named _ sub => rd sub s
    | .not sub => do
      let m := s.mark
      let (err, s) ← rd sub s
      let s := (s.toMarker m).2
      if err.isNone then pure (some (s.errorFor (sub.what rt G)), s)
      else do
        let (_, s) ← s.moveRunes 1
        pure (none, s)
    | .opt sub => do
      let (_, s) ← rd sub s
      pure (none, s)
    | .past sub => do
      let m := s.mark
      let (ok, s) ← pastLoop (rd sub) n s
      if ok then pure (none, s)
      else
        let s := (s.toMarker m).2
        pure (some (s.errorFor what), s)
    | .rune c => ifFalse what (s.ifRune c)
    | .seq rs => do
      let m := s.mark
      let (err, s) ← seqLoop rd rs s
      if err.isSome then pure (err, (s.toMarker m).2) else pure (err, s)
    | .skipSeq skip rs => do
      let m := s.mark
      let (err, s) ← rd skip s
      let (err, s) ← if err.isSome then pure (err, s) else skipSeqLoop rd skip rs s
      if err.isSome then pure (err, (s.toMarker m).2) else pure (err, s)
    | .times k sub => timesLoop (rd sub) k.toNat s
    | .to sub => do
      let m := s.mark
      let (ok, s) ← toLoop (rd sub) n s
      if ok then pure (none, s)
      else
        let s := (s.toMarker m).2
        pure (some (s.errorFor what), s)
    | .uint cell base bitSize => do
      let ((v, err), s) ← s.readUint base bitSize
      pure (err, { s with heap := { s.heap with cells := upd s.heap.cells cell (.uint v) } })
    | .wrap _ f => f s
    | .zom sub => do
      let s ← zomLoop (rd sub) n s
      pure (none, s)
    | .pick info basket sub => do
      let ((t, err), s) ← s.tokenizeUse (rd sub)
      if err.isNone then
        pure (err, { s with heap := { s.heap with
          baskets := upd s.heap.baskets basket (s.heap.baskets basket ++ [⟨info, t⟩]) } })
      else pure (err, s)
    | .monitor info log sub => do
      let (entry, l) := (s.heap.logs log).enter rt info s.pos
      let (err, s) ← rd sub { s with heap := { s.heap with logs := upd s.heap.logs log l } }
      pure (err, { s with heap := { s.heap with
        logs := upd s.heap.logs log ((s.heap.logs log).exit entry s.pos err) } })
    | .rule i => match G[i]? with
      | some ⟨_, some sub⟩ => rd sub s
      | _ => .panic
    | .ruleName sub => do
      let (err, s) ← rd sub s
      pure (s.errorIfFalse err.isNone what, s)
    | .grammar w sub => do
      let (err, s) ← rd sub s
      match err with
      | some e => pure (some (.other (w ++ b!" parse error: " ++ e.text)), s)
      | none => pure (none, s)

/-! ### constructors with dynamically typed arguments -/

/-- An `interface{}` argument of a constructor: a rune, a string, a `Reader`, or a
value of another type (whose `%T` name is given). -/
inductive Arg where
  | rune (r : Rune)
  | str (s : Bytes)
  | reader (r : Reader)
  | other (typ : Bytes)

/-- reader.go:10-20 `asReader`. -/
def asReader : Arg → Option Reader
  | .rune r => some (.rune r)
  | .str s => some (.lit s)
  | .reader r => some r
  | .other _ => none

/-- The loop of reader.go:118-124, 827-833 and 875-881; `i` is the number of the
next argument. -/
def argReaders (ctor : Bytes) : Nat → List Arg → Except Bytes (List Reader)
  | _, [] => .ok []
  | i, a :: rest =>
    match asReader a, a with
    | some r, _ => (argReaders ctor (i + 1) rest).map (r :: ·)
    | none, .other typ => .error (b!"invalid " ++ ctor ++ b!" parameter at " ++ natDigits i
        ++ b!": unknown type " ++ typ)
    | none, _ => .error []

/-- reader.go:116-126 `Any`. -/
def mkAny (list : List Arg) : Reader :=
  match argReaders b!"Any" 1 list with
  | .ok rs => .any rs
  | .error e => .invalid e

/-- reader.go:130-136 `AnyFold`. -/
def mkAnyFold (list : List Bytes) : Reader := .any (list.map .fold)

/-- reader.go:825-835 `Seq`. -/
def mkSeq (list : List Arg) : Reader :=
  match argReaders b!"Seq" 1 list with
  | .ok rs => .seq rs
  | .error e => .invalid e

/-- reader.go:873-883 `SkipSeq`. -/
def mkSkipSeq (skip : Reader) (list : List Arg) : Reader :=
  match argReaders b!"SkipSeq" 1 list with
  | .ok rs => .skipSeq skip rs
  | .error e => .invalid e

/-- The shape shared by reader.go:623-629 `Many`, 741-747 `Opt`, 771-777 `Past`,
940-946 `To` and 1019-1025 `Zom`. -/
def mk1 (ctor : Bytes) (k : Reader → Reader) (i : Arg) : Reader :=
  match asReader i, i with
  | some r, _ => k r
  | none, .other typ => .invalid (b!"invalid " ++ ctor ++ b!" parameter: unknown type " ++ typ)
  | none, _ => .invalid []

/-- reader.go:623-629 `Many`. -/
def mkMany : Arg → Reader := mk1 b!"Many" .many
/-- reader.go:741-747 `Opt`. -/
def mkOpt : Arg → Reader := mk1 b!"Opt" .opt
/-- reader.go:771-777 `Past`. -/
def mkPast : Arg → Reader := mk1 b!"Past" .past
/-- reader.go:940-946 `To`. -/
def mkTo : Arg → Reader := mk1 b!"To" .to
/-- reader.go:1019-1025 `Zom`. -/
def mkZom : Arg → Reader := mk1 b!"Zom" .zom

/-- The loop of reader.go:273-282 over the runes of `str`; `none` when a separator
is not `-` or the runes do not come in threes (reader.go:268-270). -/
def parseRanges : List Rune → Option (List (Rune × Rune))
  | [] => some []
  | min :: sep :: max :: rest =>
    if sep = 45 then (parseRanges rest).map ((min, max) :: ·) else none
  | _ => none

/-- reader.go:266-284 `BetweenAny` (the text of the error is not modelled). -/
def mkBetweenAny (str : Bytes) : Reader :=
  match parseRanges (runesOf str) with
  | some ranges => .betweenAny ranges []
  | none => .invalid b!"invalid init string for BetweenAny"

/-- reader.go:290-298 `Set`. -/
def mkSet (ranges singles : Bytes) : Reader :=
  match mkBetweenAny ranges with
  | .betweenAny rs _ => .betweenAny rs singles
  | r => r

/-- The loop of reader.go:308-313. -/
def pairUp : List Rune → Option (List (Rune × Rune))
  | [] => some []
  | min :: max :: rest => (pairUp rest).map ((min, max) :: ·)
  | _ => none

/-- reader.go:302-315 `BuildBetweenAny`. -/
def mkBuildBetweenAny (minMax : List Rune) : Reader :=
  match pairUp minMax with
  | some ranges => .betweenAny ranges []
  | none => .invalid (b!"odd number of min-max values for BetweenAny: " ++ natDigits minMax.length)

/-- reader.go:414-416 `Digit`. -/
def mkDigit : Reader := .between 48 57

/-- reader.go:438-440 `HexDigit`. -/
def mkHexDigit : Reader := mkBuildBetweenAny [48, 57, 97, 102, 65, 70]

/-- reader.go:533-544 `Janus`; the id names the `str` field of the new end reader. -/
def mkJanus (id : Nat) (name : Bytes) (r : Reader) : Reader × Reader :=
  (.janusBegin id name r, .janusEnd id name)

/-- reader.go:696-698 `NL`. -/
def mkNL : Reader := mkAny [.str b!"\n", .str b!"\r\n"]

/-- reader.go:997-999 `WS`. -/
def mkWS : Reader := .anyRune b!" \r\n\t"

/-- reader.go:888-890 `SkipWSSeq`. -/
def mkSkipWSSeq (list : List Arg) : Reader := mkSkipSeq (mkZom (.reader mkWS)) list

/-- reader.go:570-572 `HasInvalidReader`. -/
def hasInvalidReader (str : Bytes) : Bool := contains str invalidReaderMarker

/-- reader.go:576-583 `AnyHasInvalidReader`. -/
def anyHasInvalidReader : List Bytes → Bool
  | [] => false
  | str :: strs => if hasInvalidReader str then true else anyHasInvalidReader strs

/-! ### rules (grammar.go) -/

/-- grammar.go:103-105 `Rule.Map`: the rule's reader is replaced.  (`Map(nil, f)`
would panic only when read; here an absent reader stays absent.) -/
def Rule.map (fid : Nat) (r : Rule) : Rule := { r with reader := r.reader.map (.map fid) }

/-- grammar.go:107-109 `Rule.Monitor`. -/
def Rule.monitor (log : Nat) (r : Rule) : Rule :=
  { r with reader := r.reader.map (.monitor r.name log) }

/-- grammar.go:112-114 `Rule.Pick`. -/
def Rule.pick (basket : Nat) (r : Rule) : Rule :=
  { r with reader := r.reader.map (.pick r.name basket) }

/-- tracker.go:65-69 `Basket.PickWith` for all rules of a grammar. -/
def Env.pickAll (basket : Nat) (G : Env) : Env := G.map (Rule.pick basket)

/-- monitor.go:49-53 `Log.Monitor` for all rules of a grammar. -/
def Env.monitorAll (log : Nat) (G : Env) : Env := G.map (Rule.monitor log)

/-- tracker.go:13-17 `NewBasket`: a fresh basket (an unused id) becomes the tracker. -/
def Scanner.newBasket (s : Scanner) (id : Nat) : Scanner :=
  { s with tracker := some (.basket id),
           heap := { s.heap with baskets := upd s.heap.baskets id [] } }

/-- grammar.go:124-126 `Rule.Rule`. -/
def Rule.line (rt : Rt) (G : Env) (r : Rule) : Exec Bytes :=
  match r.reader with
  | some rd => .ret (r.name ++ b!": " ++ rd.what rt G)
  | none => .panic

/-- grammar.go:148-152 `RuleName`. -/
def mkRuleName : Reader :=
  .ruleName (mkSeq [.reader (mkBetweenAny b!"a-zA-Z"),
    .reader (mkZom (.reader (mkAny [.reader (mkBetweenAny b!"a-zA-Z0-9"),
      .reader (.anyRune b!"+-._")])))])

/-- grammar.go:143-145 `CheckRuleName`. -/
def checkRuleName (rt : Rt) (fuel : Nat) (name : Bytes) : Exec (Option Err) := do
  let (err, _) ← (Scanner.new name Heap.empty).use (read rt [] fuel mkRuleName)
  pure err

/-- grammar.go:75-85 `CheckRules`. -/
def checkRules (rt : Rt) (fuel : Nat) : List Rule → Exec (Option Err)
  | [] => pure none
  | r :: rest => do
    let e ← checkRuleName rt fuel r.name
    match e with
    | some e => pure (some e)
    | none =>
      match r.reader with
      | none => pure (some (.other (b!"the Reader of " ++ r.name ++ b!" is a nil value")))
      | some _ => checkRules rt fuel rest

/-- grammar.go:88-93 `MustCheckRules`. -/
def mustCheckRules (rt : Rt) (fuel : Nat) (rules : List Rule) : Exec Unit := do
  let e ← checkRules rt fuel rules
  match e with
  | some _ => .panic
  | none => pure ()

/-- grammar.go:11-17 `GrammarLines`. -/
def grammarLines (rt : Rt) (G : Env) : List Rule → Exec (List Bytes)
  | [] => pure []
  | r :: rest => do
    let l ← r.line rt G
    let ls ← grammarLines rt G rest
    pure (l :: ls)

end Tok
