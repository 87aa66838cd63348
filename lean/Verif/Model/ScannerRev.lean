/-
Model of /repo/scanner_rev.go.
-/
import Verif.Model.Scanner

namespace Tok.Scanner

/-- scanner_rev.go:10-14 `NewRevScanner`. -/
def newRev (str : Bytes) (h : Heap) : Scanner := (Scanner.new str h).toEnd.2

/-- scanner_rev.go:19-24 `RevIf`. -/
def revIf (s : Scanner) (str : Bytes) : Exec (Bool × Scanner) := do
  let h ← s.head
  if hasSuffix h str then pure (s.move (-(str.length : Int))) else pure (false, s)

/-- scanner_rev.go:28-35 `RevIfAny`. -/
def revIfAny (s : Scanner) : List Bytes → Exec (Bool × Scanner)
  | [] => pure (false, s)
  | str :: strs => do
    let (ok, s) ← s.revIf str
    if ok then pure (true, s) else revIfAny s strs

/-- The recurring loop `for itr.next() { if cond { return s.Move(-itr.pos()) } }
return false` of scanner_rev.go, where `cond` looks at `(itr.Str, itr.Val)`. -/
def revSearch (s : Scanner) (cond : Bytes × Rune → Bool) : Exec (Bool × Scanner) := do
  let h ← s.head
  match (revItr h).1.find? cond with
  | some (str, _) => pure (s.move (-((h.length : Int) - str.length)))
  | none => pure (false, s)

/-- scanner_rev.go:39-48 `RevTo`. -/
def revTo (s : Scanner) (str : Bytes) : Exec (Bool × Scanner) :=
  s.revSearch (fun iv => hasSuffix iv.1 str)

/-- scanner_rev.go:53-61 `RevIfFold`: `head[len(head)-i:]` panics when `Head()` is
shorter than `str`. -/
def revIfFold (rt : Rt) (s : Scanner) (str : Bytes) : Exec (Bool × Scanner) := do
  let h ← s.head
  if str.length > h.length then .panic
  else if equalFold rt (h.drop (h.length - str.length)) str then pure (s.move (-(str.length : Int)))
  else pure (false, s)

/-- The loop of scanner_rev.go:68-73 over the strings of the iterator:
`itr.Str[len(itr.Str)-i:]` panics when `itr.Str` is shorter than `str`.  Returns the
`itr.Str` that matched. -/
def revToFoldLoop (rt : Rt) (str : Bytes) : List (Bytes × Rune) → Exec (Option Bytes)
  | [] => .ret none
  | (h, _) :: rest =>
    if str.length > h.length then .panic
    else if equalFold rt (h.drop (h.length - str.length)) str then .ret (some h)
    else revToFoldLoop rt str rest

/-- scanner_rev.go:65-76 `RevToFold`. -/
def revToFold (rt : Rt) (s : Scanner) (str : Bytes) : Exec (Bool × Scanner) := do
  let h ← s.head
  match ← revToFoldLoop rt str (revItr h).1 with
  | some hs => pure (s.move (-((h.length : Int) - hs.length)))
  | none => pure (false, s)

/-- scanner_rev.go:81-87 `RevIfRune` (`i == -1` never holds). -/
def revIfRune (s : Scanner) (r : Rune) : Exec (Bool × Scanner) := do
  let h ← s.head
  let (last, i) := decodeLastRune h
  if last != r then pure (false, s) else pure (s.move (-(i : Int)))

/-- scanner_rev.go:92-101 `RevToRune`. -/
def revToRune (s : Scanner) (r : Rune) : Exec (Bool × Scanner) :=
  s.revSearch (fun iv => iv.2 == r)

/-- The recurring shape of `RevWhile*`: stop at the first rune that fails `ok`; the
guard `itr.pos() == len(s.Head())` is kept as written; when the iterator is
exhausted move back to where it stopped. -/
def revWhile (s : Scanner) (ok : Rune → Bool) : Exec (Bool × Scanner) := do
  let h ← s.head
  if h.length == 0 then pure (false, s)
  else match (revItr h).1.find? (fun iv => !ok iv.2) with
    | some (str, _) =>
      if h.length - str.length == h.length then pure (false, s)
      else pure (s.move (-((h.length : Int) - str.length)))
    | none => pure (s.move (-((h.length : Int) - (revItr h).2.length)))

/-- scanner_rev.go:105-121 `RevWhileRune`. -/
def revWhileRune (s : Scanner) (r : Rune) : Exec (Bool × Scanner) := s.revWhile (fun v => v == r)

/-- scanner_rev.go:126-132 `RevIfAnyRune` (`i != -1` always holds). -/
def revIfAnyRune (s : Scanner) (str : Bytes) : Exec (Bool × Scanner) := do
  let h ← s.head
  let (last, i) := decodeLastRune h
  if containsRune str last then pure (s.move (-(i : Int))) else pure (false, s)

/-- scanner_rev.go:136-145 `RevToAnyRune`. -/
def revToAnyRune (s : Scanner) (str : Bytes) : Exec (Bool × Scanner) :=
  s.revSearch (fun iv => containsRune str iv.2)

/-- scanner_rev.go:149-164 `RevWhileAnyRune`. -/
def revWhileAnyRune (s : Scanner) (str : Bytes) : Exec (Bool × Scanner) :=
  s.revWhile (fun v => containsRune str v)

/-- scanner_rev.go:169-175 `RevIfBetween` (the test `inRange(...)` that leads to
`return false` is kept as written). -/
def revIfBetween (s : Scanner) (min max : Rune) : Exec (Bool × Scanner) := do
  let h ← s.head
  let (last, i) := decodeLastRune h
  if inRange min last max then pure (false, s) else pure (s.move (-(i : Int)))

/-- scanner_rev.go:179-187 `RevToBetween`. -/
def revToBetween (s : Scanner) (min max : Rune) : Exec (Bool × Scanner) :=
  s.revSearch (fun iv => inRange min iv.2 max)

/-- scanner_rev.go:191-207 `RevWhileBetween`. -/
def revWhileBetween (s : Scanner) (min max : Rune) : Exec (Bool × Scanner) :=
  s.revWhile (fun v => inRange min v max)

/-- scanner_rev.go:212-218 `RevIfMatch` (the test `check(last)` that leads to
`return false` is kept as written). -/
def revIfMatch (s : Scanner) (check : Rune → Bool) : Exec (Bool × Scanner) := do
  let h ← s.head
  let (last, i) := decodeLastRune h
  if check last then pure (false, s) else pure (s.move (-(i : Int)))

/-- scanner_rev.go:222-230 `RevToMatch`. -/
def revToMatch (s : Scanner) (check : Rune → Bool) : Exec (Bool × Scanner) :=
  s.revSearch (fun iv => check iv.2)

/-- scanner_rev.go:234-250 `RevWhileMatch`. -/
def revWhileMatch (s : Scanner) (check : Rune → Bool) : Exec (Bool × Scanner) := s.revWhile check

end Tok.Scanner
