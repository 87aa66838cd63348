/-
Model of the parts of Go's `unicode/utf8` and of `for i, r := range str` that
aiq/tok relies on.  The Go standard library is not part of /repo; these
definitions transcribe its documented algorithms (see DESIGN.md, trusted base).
-/
import Verif.Model.Base

namespace Tok

/-- `utf8.RuneError`. -/
def runeError : Rune := 0xFFFD
/-- `utf8.MaxRune`. -/
def maxRune : Rune := 0x10FFFF

/-- A continuation byte: `locb <= b && b <= hicb`. -/
def isCont (b : UInt8) : Bool := 0x80 ≤ b.toNat && b.toNat ≤ 0xBF

/-- The accept range of the second byte (`acceptRanges[first[b0]>>4]`). -/
def secondOk (b0 b1 : UInt8) : Bool :=
  let lo := if b0.toNat = 0xE0 then 0xA0 else if b0.toNat = 0xF0 then 0x90 else 0x80
  let hi := if b0.toNat = 0xED then 0x9F else if b0.toNat = 0xF4 then 0x8F else 0xBF
  decide (lo ≤ b1.toNat) && decide (b1.toNat ≤ hi)

/-- Sequence length announced by the first byte (`first[b0] & 7`), 0 for an
invalid first byte. -/
def seqLen (b0 : UInt8) : Nat :=
  let n := b0.toNat
  if n < 0x80 then 1 else if n < 0xC2 then 0 else if n < 0xE0 then 2
  else if n < 0xF0 then 3 else if n < 0xF5 then 4 else 0

/-- `utf8.DecodeRuneInString`: the first rune and its width in bytes;
`(RuneError, 0)` for the empty string and `(RuneError, 1)` for a malformed
start. -/
def decodeRune : Bytes → Rune × Nat
  | [] => (runeError, 0)
  | b0 :: t =>
    match seqLen b0, t with
    | 1, _ => ((b0.toNat : Int), 1)
    | 2, b1 :: _ =>
      if secondOk b0 b1 then
        ((((b0.toNat - 0xC0) * 64 + (b1.toNat - 0x80) : Nat) : Int), 2)
      else (runeError, 1)
    | 3, b1 :: b2 :: _ =>
      if secondOk b0 b1 && isCont b2 then
        ((((b0.toNat - 0xE0) * 4096 + (b1.toNat - 0x80) * 64 + (b2.toNat - 0x80) : Nat) : Int), 3)
      else (runeError, 1)
    | 4, b1 :: b2 :: b3 :: _ =>
      if secondOk b0 b1 && isCont b2 && isCont b3 then
        ((((b0.toNat - 0xF0) * 262144 + (b1.toNat - 0x80) * 4096
            + (b2.toNat - 0x80) * 64 + (b3.toNat - 0x80) : Nat) : Int), 4)
      else (runeError, 1)
    | _, _ => (runeError, 1)

/-- `utf8.RuneStart`. -/
def runeStart (b : UInt8) : Bool := !isCont b

/-- The backward search of `utf8.DecodeLastRuneInString` for the start of the
last rune: at most `k` more bytes before index `i` are looked at.  Mirrors
`for start--; start >= lim; start-- { if RuneStart(s[start]) { break } }` with the
final clamp to `0`. -/
def lastStart (s : Bytes) : Nat → Nat → Nat
  | 0, i => i
  | _ + 1, 0 => 0
  | k + 1, i + 1 =>
    match s[i]? with
    | some b => if runeStart b then i else lastStart s k i
    | none => i

/-- `utf8.DecodeLastRuneInString`.  The loop of the library stops at
`lim = max(end - UTFMax, 0)`; when it runs off a limit `lim > 0` it leaves
`start = end - 5`, the model leaves `start = end - 4`; in both cases the decoded
width cannot reach `end`, so both give `(RuneError, 1)`. -/
def decodeLastRune (s : Bytes) : Rune × Nat :=
  let e := s.length
  match s.getLast? with
  | none => (runeError, 0)
  | some b =>
    if b.toNat < 0x80 then ((b.toNat : Int), 1)
    else
      let start := lastStart s 3 (e - 1)
      let (r, size) := decodeRune (s.drop start)
      if start + size = e then (r, size) else (runeError, 1)

/-- `utf8.RuneLen`. -/
def runeLen (r : Rune) : Int :=
  if r < 0 then -1
  else if r ≤ 0x7F then 1
  else if r ≤ 0x7FF then 2
  else if 0xD800 ≤ r && r ≤ 0xDFFF then -1
  else if r ≤ 0xFFFF then 3
  else if r ≤ maxRune then 4
  else -1

/-- `utf8.ValidRune`. -/
def validRune (r : Rune) : Bool :=
  (0 ≤ r && r < 0xD800) || (0xDFFF < r && r ≤ maxRune)

/-- `string(r)` / `utf8.AppendRune`: the UTF-8 encoding of a rune, that of
`RuneError` for an invalid one. -/
def encodeRune (r : Rune) : Bytes :=
  let n := (if validRune r then r else runeError).toNat
  if n ≤ 0x7F then [UInt8.ofNat n]
  else if n ≤ 0x7FF then [UInt8.ofNat (0xC0 + n / 64), UInt8.ofNat (0x80 + n % 64)]
  else if n ≤ 0xFFFF then
    [UInt8.ofNat (0xE0 + n / 4096), UInt8.ofNat (0x80 + n / 64 % 64), UInt8.ofNat (0x80 + n % 64)]
  else
    [UInt8.ofNat (0xF0 + n / 262144), UInt8.ofNat (0x80 + n / 4096 % 64),
     UInt8.ofNat (0x80 + n / 64 % 64), UInt8.ofNat (0x80 + n % 64)]

/-- Worker of `rangeStr`: `skip` bytes belong to the rune already reported, `i`
is the current byte index. -/
def rangeGo : Nat → Nat → Bytes → List (Nat × Rune)
  | _, _, [] => []
  | 0, i, b :: t =>
    (i, (decodeRune (b :: t)).1) :: rangeGo ((decodeRune (b :: t)).2 - 1) (i + 1) t
  | k + 1, i, _ :: t => rangeGo k (i + 1) t

/-- The iterations of `for i, r := range str`. -/
def rangeStr (s : Bytes) : List (Nat × Rune) := rangeGo 0 0 s

/-- `[]rune(str)`. -/
def runesOf (s : Bytes) : List Rune := (rangeStr s).map (·.2)

end Tok
