/-
The methods of the package that calculate with `int`, on machines whose `int` has `w` bits (32 or 64): sums, differences and products are taken modulo
`2 ^ w`.  The rest of the model calculates with integers without bounds; see C71 for when this is the same.

Lengths of strings and indices into strings are never too large for an `int`.
-/
import Verif.Model.Scanner
import Verif.Model.Token

namespace Tok

/-- The value that an `int` of `w` bits has for `x`. -/
def wrapInt (w : Nat) (x : Int) : Int := Int.bmod x (2 ^ w)

/-- The values of an `int` of `w` bits. -/
def IsInt (w : Nat) (x : Int) : Prop := -2 ^ (w - 1) ≤ x ∧ x < 2 ^ (w - 1)

namespace Scanner

/-- scanner.go:321-331 `Move`. -/
def moveInt (w : Nat) (s : Scanner) (n : Int) : Bool × Scanner :=
  let npos := wrapInt w (s.pos + n)
  if 0 > npos || npos > (s.full.length : Int) then (false, s)
  else (true, notify { s with pos := npos })

/-- scanner.go:334-355 `MoveRunes`.  (The counter `c` stays between 0 and the number of runes.) -/
def moveRunesInt (w : Nat) (s : Scanner) (n : Int) : Exec (Bool × Scanner) :=
  if n > 0 then do
    let t ← s.tail
    match (rangeStr t)[(n - 1).toNat]? with
    | some (i, r) => pure (s.moveInt w (wrapInt w (i + runeLen r)))
    | none => pure (false, s)
  else if n < 0 then do
    let h ← s.head
    match (revItr h).1[(-n - 1).toNat]? with
    | some (str, val) => pure (s.moveInt w (wrapInt w (-wrapInt w (wrapInt w ((h.length : Int) - str.length) + runeLen val))))
    | none => pure (false, s)
  else pure (true, s)

/-- scanner.go:309-318 `LineCol`. -/
def lineColInt (w : Nat) (s : Scanner) (tab : Int) : Exec (Int × Int) := do
  let h ← s.head
  let lines := splitLf (crlfToLf h)
  match lines.getLast? with
  | none => pure (0, 0)
  | some last =>
    let tabs := countTab last
    let n : Int := wrapInt w (wrapInt w (last.length - tabs) + wrapInt w (tabs * tab))
    pure (lines.length, wrapInt w (n + 1))

end Scanner

/-- token.go:32-34 `Len`. -/
def Token.lenInt (w : Nat) (t : Token) : Int := wrapInt w (t.to - t.frm)

end Tok
