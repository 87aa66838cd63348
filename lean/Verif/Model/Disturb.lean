/-
Reading while others use the same memory.
-/
import Verif.Model.Reader

namespace Tok

/-- One call of a `Read` method, with the reads of its parts given: what `read` does in each step, see `read_eq_step`. -/
def readStep (rt : Rt) (G : Env) (rd : Reader → ReadFunc) (n : Nat) (r : Reader) (s : Scanner) : Exec (Option Err × Scanner) :=
  let what := r.what rt G
  match r with
  | .any rs => do
    let m := s.mark
    let (errs, s) ← anyLoop rd rs [] s
    match errs with
    | none => pure (none, s)
    | some errs => pure (some (getDeepest (0, []) errs), (s.toMarker m).2)
  | .anyRune str => ifFalse what (s.ifAnyRune str)
  | .at_ sub => do
    let m := s.mark
    let (err, s) ← rd sub s
    pure (err, (s.toMarker m).2)
  | .atEnd => pure (s.errorIfFalse s.atEnd what, s)
  | .between min max => ifFalse what (s.ifBetween min max)
  | .betweenAny ranges singles => do
    let m := s.mark
    let (ok, s) ← betweenAnyLoop ranges s
    if ok then pure (none, s)
    else do
      let (ok, s) ← s.ifAnyRune singles
      if ok then pure (none, s)
      else
        let s := (s.toMarker m).2
        pure (some (s.errorFor what), s)
  | .body b t => do
    let m := s.mark
    let (res, s) ← bodyLoop (rd b) (rd t) m n s
    match res with
    | some t => pure (none, (s.toMarker t).2)
    | none =>
      let s := (s.toMarker m).2
      pure (some (s.errorFor what), s)
  | .bodyTail b t => do
    let m := s.mark
    let (res, s) ← bodyLoop (rd b) (rd t) m n s
    match res with
    | some _ => pure (none, s)
    | none =>
      let s := (s.toMarker m).2
      pure (some (s.errorFor what), s)
  | .bool cell format => do
    let ((v, err), s) ← s.readBool format
    pure (err, { s with heap := { s.heap with cells := upd s.heap.cells cell (.bool v) } })
  | .fold val => ifFalse what (s.ifFold rt val)
  | .holey min max holes => do
    let t ← s.tail
    let (val, i) := decodeRune t
    if Scanner.inRange min val max && !containsRune holes val then
      let (ok, s) := s.move i
      pure (s.errorIfFalse ok what, s)
    else pure (some (s.errorFor what), s)
  | .int cell base bitSize => do
    let ((v, err), s) ← s.readInt base bitSize
    pure (err, { s with heap := { s.heap with cells := upd s.heap.cells cell (.int v) } })
  | .janusBegin id _ sub => do
    let ((t, err), s) ← s.tokenizeUse (rd sub)
    if err.isNone then do
      let str ← s.get t
      pure (err, { s with heap := { s.heap with janus := upd s.heap.janus id str } })
    else pure (err, s)
  | .janusEnd id _ => do
    let str := s.heap.janus id
    let (err, s) ← ifFalse (quoteToGraphic rt str) (s.ifStr str)
    if err.isNone then
      pure (err, { s with heap := { s.heap with janus := upd s.heap.janus id [] } })
    else pure (err, s)
  | .invalid err => pure (some (.other (b!"INVALID-READER: " ++ err)), s)
  | .lit str => ifFalse what (s.ifStr str)
  | .many sub => do
    let start := s.mark
    let s ← zomLoop (rd sub) n s
    pure (s.errorIfFalse (decide (start < s.mark)) what, s)
  | .map fid sub => do
    let ((t, err), s) ← s.tokenizeUse (rd sub)
    if err.isNone then
      pure (err, { s with heap := { s.heap with maps := s.heap.maps ++ [(fid, t)] } })
    else pure (err, s)
  | .match_ w f => ifFalse w (s.ifMatch f)
  | .named _ sub => rd sub s
  | .not sub => do
    let m := s.mark
    let (err, s) ← rd sub s
    let s := (s.toMarker m).2
    if err.isNone then pure (some (s.errorFor (sub.what rt G)), s)
    else do
      let (_, s) ← s.moveRunes 1
      pure (none, s)
  | .opt sub => do
    let (_, s) ← rd sub s
    pure (none, s)
  | .past sub => do
    let m := s.mark
    let (ok, s) ← pastLoop (rd sub) n s
    if ok then pure (none, s)
    else
      let s := (s.toMarker m).2
      pure (some (s.errorFor what), s)
  | .rune c => ifFalse what (s.ifRune c)
  | .seq rs => do
    let m := s.mark
    let (err, s) ← seqLoop rd rs s
    if err.isSome then pure (err, (s.toMarker m).2) else pure (err, s)
  | .skipSeq skip rs => do
    let m := s.mark
    let (err, s) ← rd skip s
    let (err, s) ← if err.isSome then pure (err, s) else skipSeqLoop rd skip rs s
    if err.isSome then pure (err, (s.toMarker m).2) else pure (err, s)
  | .times k sub => timesLoop (rd sub) k.toNat s
  | .to sub => do
    let m := s.mark
    let (ok, s) ← toLoop (rd sub) n s
    if ok then pure (none, s)
    else
      let s := (s.toMarker m).2
      pure (some (s.errorFor what), s)
  | .uint cell base bitSize => do
    let ((v, err), s) ← s.readUint base bitSize
    pure (err, { s with heap := { s.heap with cells := upd s.heap.cells cell (.uint v) } })
  | .wrap _ f => f s
  | .zom sub => do
    let s ← zomLoop (rd sub) n s
    pure (none, s)
  | .pick info basket sub => do
    let ((t, err), s) ← s.tokenizeUse (rd sub)
    if err.isNone then
      pure (err, { s with heap := { s.heap with
        baskets := upd s.heap.baskets basket (s.heap.baskets basket ++ [⟨info, t⟩]) } })
    else pure (err, s)
  | .monitor info log sub => do
    let (entry, l) := (s.heap.logs log).enter rt info s.pos
    let (err, s) ← rd sub { s with heap := { s.heap with logs := upd s.heap.logs log l } }
    pure (err, { s with heap := { s.heap with
      logs := upd s.heap.logs log ((s.heap.logs log).exit entry s.pos err) } })
  | .rule i => match G[i]? with
    | some ⟨_, some sub⟩ => rd sub s
    | _ => .panic
  | .ruleName sub => do
    let (err, s) ← rd sub s
    pure (s.errorIfFalse err.isNone what, s)
  | .grammar w sub => do
    let (err, s) ← rd sub s
    match err with
    | some e => pure (some (.other (w ++ b!" parse error: " ++ e.text)), s)
    | none => pure (none, s)

theorem read_eq_step (rt : Rt) (G : Env) (n : Nat) (r : Reader) (s : Scanner) : read rt G (n + 1) r s = readStep rt G (read rt G n) n r s := by
  cases r <;> rfl

/-- `read`, where the memory is changed before and after each call of a `Read` method.  `I` tells what the memory is afterwards.  It may
depend on the place of the scanner, on the depth of the call and on the memory itself, in which others may keep whatever they need to go
on.  The text and the position belong to the scanner and are not changed.  The steps of a `Read` method between two such calls are taken as one. -/
def readAmong (rt : Rt) (G : Env) (I : Nat → Scanner → Heap) : Nat → Reader → ReadFunc
  | 0, _, _ => .timeout
  | n + 1, r, s => do
    let (e, s) ← readStep rt G (readAmong rt G I n) n r { s with heap := I n s }
    pure (e, { s with heap := I n s })

end Tok
