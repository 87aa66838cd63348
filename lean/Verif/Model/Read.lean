/-
Model of /repo/read.go.
-/
import Verif.Model.ScannerRev

namespace Tok

/-- Two's-complement wrap-around of `int64` arithmetic. -/
def wrapI64 (x : Int) : Int := Int.bmod x (2 ^ 64)

/-- Wrap-around of `uint64` arithmetic. -/
def wrapU64 (n : Nat) : Nat := n % 2 ^ 64

/-- read.go:135-140 `octValue`. -/
def octValue (r : Rune) : Int := if Scanner.inRange 48 r 55 then r - 48 else -1

/-- read.go:142-147 `decValue`. -/
def decValue (r : Rune) : Int := if Scanner.inRange 48 r 57 then r - 48 else -1

/-- read.go:149-158 `hexValue`. -/
def hexValue (r : Rune) : Int :=
  if Scanner.inRange 48 r 57 then r - 48
  else if Scanner.inRange 97 r 102 then (r - 97) + 10
  else if Scanner.inRange 65 r 70 then (r - 65) + 10
  else -1

/-- The `switch base` of read.go:69-78 and 165-174. -/
def charFunc (base : Int) : Option (Rune → Int) :=
  if base = 8 then some octValue
  else if base = 10 then some decValue
  else if base = 16 then some hexValue
  else none

/-- The `switch bitSize` of read.go:82-93. -/
def intBounds (bitSize : Int) : Option (Int × Int) :=
  if bitSize = 8 then some (-128, 127)
  else if bitSize = 16 then some (-32768, 32767)
  else if bitSize = 32 then some (-2147483648, 2147483647)
  else if bitSize = 64 then some (-9223372036854775808, 9223372036854775807)
  else none

/-- The `switch bitSize` of read.go:177-188. -/
def uintMax (bitSize : Int) : Option Nat :=
  if bitSize = 8 then some 255
  else if bitSize = 16 then some 65535
  else if bitSize = 32 then some 4294967295
  else if bitSize = 64 then some 18446744073709551615
  else none

/-- The loop of read.go:105-125 over the runes of `Tail()`; state `(i64, n)`. -/
def intLoop (cf : Rune → Int) (base min max : Int) (neg : Bool) :
    List (Nat × Rune) → Int → Int → Int × Int
  | [], i64, n => (i64, n)
  | (i, r) :: rest, i64, n =>
    let v := cf r
    if v = -1 then (i64, n)
    else if neg then
      let tmp := wrapI64 (wrapI64 (i64 * base) - v)
      if i64 < tmp || tmp < min then (i64, n) else intLoop cf base min max neg rest tmp i
    else
      let tmp := wrapI64 (wrapI64 (i64 * base) + v)
      if i64 > tmp || tmp > max then (i64, n) else intLoop cf base min max neg rest tmp i

/-- The loop of read.go:193-206; state `(u64, n)`. -/
def uintLoop (cf : Rune → Int) (base max : Nat) :
    List (Nat × Rune) → Nat → Int → Nat × Int
  | [], u64, n => (u64, n)
  | (i, r) :: rest, u64, n =>
    let v := cf r
    if v = -1 then (u64, n)
    else
      let tmp := wrapU64 (wrapU64 (u64 * base) + v.toNat)
      if u64 > tmp || tmp > max then (u64, n) else uintLoop cf base max rest tmp i

namespace Scanner

/-- read.go:10-16 `ReadRune`. -/
def readRune (s : Scanner) : Exec ((Rune × Option Err) × Scanner) := do
  let t ← s.tail
  let (r, i) := decodeRune t
  if r == runeError then pure ((runeError, some (s.errorFor b!"rune")), s)
  else
    let (ok, s) := s.move i
    pure ((r, s.errorIfFalse ok b!"rune"), s)

/-- read.go:19-25 `RevReadRune`. -/
def revReadRune (s : Scanner) : Exec ((Rune × Option Err) × Scanner) := do
  let h ← s.head
  let (r, i) := decodeLastRune h
  if r == runeError then pure ((r, some (s.errorFor b!"rune")), s)
  else
    let (ok, s) := s.move (-(i : Int))
    pure ((r, s.errorIfFalse ok b!"rune"), s)

/-- read.go:34-62 `ReadBool`. -/
def readBool (s : Scanner) (format : Bytes) : Exec ((Bool × Option Err) × Scanner) :=
  if format == [] || format == b!"*" then do
    let (ok, s) ← s.ifAny [b!"true", b!"True", b!"TRUE"]
    if ok then pure ((true, none), s)
    else do
      let (ok, s) ← s.ifAny [b!"false", b!"False", b!"FALSE"]
      if ok then pure ((false, none), s)
      else pure ((false, some (s.errorFor b!"bool")), s)
  else
    let strs : Option (Bytes × Bytes) :=
      if format == b!"l" then some (b!"true", b!"false")
      else if format == b!"U" then some (b!"TRUE", b!"FALSE")
      else if format == b!"Cc" then some (b!"True", b!"False")
      else none
    match strs with
    | none => pure ((false, some (.other b!"invalid format")), s)
    | some (trueStr, falseStr) => do
      let (ok, s) ← s.ifStr trueStr
      if ok then pure ((true, none), s)
      else do
        let (ok, s) ← s.ifStr falseStr
        if ok then pure ((false, none), s)
        else pure ((false, some (s.errorFor b!"bool")), s)

/-- read.go:67-133 `ReadInt`. -/
def readInt (s : Scanner) (base bitSize : Int) : Exec ((Int × Option Err) × Scanner) :=
  match charFunc base with
  | none => pure ((0, some (.other (b!"invalid base value " ++ itoa base))), s)
  | some cf =>
    match intBounds bitSize with
    | none => pure ((0, some (.other (b!"invalid bitSize value " ++ itoa bitSize))), s)
    | some (min, max) => do
      let marker := s.mark
      let (minus, s) ← s.ifRune 45
      let (_, s) ← if minus then pure (true, s) else s.ifRune 43
      let t ← s.tail
      let (i64, n) := intLoop cf base min max minus (rangeStr t) 0 (-1)
      if n = -1 then
        let s := (s.toMarker marker).2
        pure ((0, some (s.errorFor b!"integer")), s)
      else pure ((i64, none), (s.move (n + 1)).2)

/-- read.go:163-213 `ReadUint`. -/
def readUint (s : Scanner) (base bitSize : Int) : Exec ((Nat × Option Err) × Scanner) :=
  match charFunc base with
  | none => pure ((0, some (.other (b!"invalid base value " ++ itoa base))), s)
  | some cf =>
    match uintMax bitSize with
    | none => pure ((0, some (.other (b!"invalid bitSize value " ++ itoa bitSize))), s)
    | some max => do
      let t ← s.tail
      let (u64, n) := uintLoop cf base.toNat max (rangeStr t) 0 (-1)
      if n = -1 then pure ((0, some (s.errorFor b!"unsigned integer")), s)
      else pure ((u64, none), (s.move (n + 1)).2)

end Scanner
end Tok
