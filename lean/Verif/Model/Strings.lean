/-
Model of the functions of Go's `strings` and `strconv` packages that aiq/tok
calls.  The Go standard library is not part of /repo; these definitions
transcribe its documented behaviour (see DESIGN.md, trusted base).
-/
import Verif.Model.Utf8

namespace Tok

/-- Facts about the Go run time that the model leaves open.
* `foldKey r` names the orbit of `r` under `unicode.SimpleFold`;
* `graphic r` is `strconv.IsPrint(r) || isInGraphicList(r)` for non-ASCII `r`;
* `growCap n` is the capacity `append` chooses when a slice of capacity `n` is
  full. -/
structure Rt where
  foldKey : Rune → Rune
  graphic : Rune → Bool
  growCap : Nat → Nat

/-- ASCII lower-casing, used to state what is known about `foldKey`. -/
def asciiLower (r : Rune) : Rune := if 65 ≤ r && r ≤ 90 then r + 32 else r

/-- What is assumed of the run time: among ASCII runes only the two cases of a
letter share an orbit, and `append` really grows a full slice. -/
structure Rt.Ok (rt : Rt) : Prop where
  fold_ascii : ∀ a b : Rune, 0 ≤ a → a < 128 → 0 ≤ b → b < 128 →
    (rt.foldKey a = rt.foldKey b ↔ asciiLower a = asciiLower b)
  grow : ∀ n, n < rt.growCap n

/-- `strings.HasPrefix`. -/
def hasPrefix (s p : Bytes) : Bool := p.isPrefixOf s

/-- `strings.HasSuffix`. -/
def hasSuffix (s p : Bytes) : Bool := p.isSuffixOf s

/-- `strings.Index`, with `none` for `-1`. -/
def index : Bytes → Bytes → Option Nat
  | [], sub => if sub.isEmpty then some 0 else none
  | b :: t, sub => if hasPrefix (b :: t) sub then some 0 else (index t sub).map (· + 1)

/-- `strings.IndexByte` as used by `strings.IndexRune` for ASCII runes. -/
def indexByte (s : Bytes) (n : Int) : Option Nat := s.findIdx? (fun b => (b.toNat : Int) == n)

/-- `strings.IndexRune`, with `none` for `-1`. -/
def indexRune (s : Bytes) (r : Rune) : Option Nat :=
  if 0 ≤ r && r < 0x80 then indexByte s r
  else if r == runeError then ((rangeStr s).find? (fun ir => ir.2 == runeError)).map (·.1)
  else if !validRune r then none
  else index s (encodeRune r)

/-- `strings.ContainsRune`. -/
def containsRune (s : Bytes) (r : Rune) : Bool := (indexRune s r).isSome

/-- `strings.Contains`. -/
def contains (s sub : Bytes) : Bool := (index s sub).isSome

/-- `strings.IndexAny(s, chars)`, with `none` for `-1`. -/
def indexAny (s chars : Bytes) : Option Nat :=
  ((rangeStr s).find? (fun ir => (indexRune chars ir.2).isSome)).map (·.1)

/-- `strings.EqualFold`: the runes agree pairwise up to `unicode.SimpleFold`. -/
def equalFold (rt : Rt) (s t : Bytes) : Bool :=
  (runesOf s).map rt.foldKey == (runesOf t).map rt.foldKey

/-- `strings.ReplaceAll(s, "\r\n", "\n")`. -/
def crlfToLf : Bytes → Bytes
  | [] => []
  | [b] => [b]
  | b :: c :: t => if b == 13 && c == 10 then 10 :: crlfToLf t else b :: crlfToLf (c :: t)

/-- `strings.Split(s, "\n")`. -/
def splitLf : Bytes → List Bytes
  | [] => [[]]
  | b :: t =>
    if b == 10 then [] :: splitLf t
    else match splitLf t with
      | [] => [[b]]
      | l :: ls => (b :: l) :: ls

/-- `strings.Count(s, "\t")`. -/
def countTab (s : Bytes) : Nat := s.countP (· == 9)

/-- `strings.Join`. -/
def join (sep : Bytes) : List Bytes → Bytes
  | [] => []
  | [x] => x
  | x :: xs => x ++ sep ++ join sep xs

/-- A lower-case hexadecimal digit. -/
def hexDigit (n : Nat) : UInt8 := UInt8.ofNat (if n < 10 then 48 + n else 87 + n)

/-- The `k` lowest hexadecimal digits of `n`, most significant first. -/
def hexPad : Nat → Nat → Bytes
  | 0, _ => []
  | k + 1, n => hexPad k (n / 16) ++ [hexDigit (n % 16)]

/-- `strconv.appendEscapedRune(buf, r, quote, false, true)`. -/
def escapeRune (rt : Rt) (quote : UInt8) (r : Rune) : Bytes :=
  if r == (quote.toNat : Int) || r == 92 then [92, UInt8.ofNat r.toNat]
  else if (0x20 ≤ r && r ≤ 0x7E) || (0x80 ≤ r && rt.graphic r) then encodeRune r
  else if r == 7 then b!"\\a"
  else if r == 8 then b!"\\b"
  else if r == 12 then b!"\\f"
  else if r == 10 then b!"\\n"
  else if r == 13 then b!"\\r"
  else if r == 9 then b!"\\t"
  else if r == 11 then b!"\\v"
  else if r < 0x20 || r == 0x7F then b!"\\x" ++ hexPad 2 r.toNat
  else if r < 0x10000 then b!"\\u" ++ hexPad 4 r.toNat
  else b!"\\U" ++ hexPad 8 r.toNat

/-- Worker of `quoteToGraphic`; a malformed byte is written as `\xNN`. -/
def quoteGo (rt : Rt) : Nat → Bytes → Bytes
  | _, [] => []
  | 0, b :: t =>
    let (r, w) := decodeRune (b :: t)
    (if w = 1 ∧ r = runeError then b!"\\x" ++ hexPad 2 b.toNat else escapeRune rt 34 r)
      ++ quoteGo rt (w - 1) t
  | k + 1, _ :: t => quoteGo rt k t

/-- `strconv.QuoteToGraphic`. -/
def quoteToGraphic (rt : Rt) (s : Bytes) : Bytes := b!"\"" ++ quoteGo rt 0 s ++ b!"\""

/-- `strconv.QuoteRuneToGraphic`. -/
def quoteRuneToGraphic (rt : Rt) (r : Rune) : Bytes :=
  b!"'" ++ escapeRune rt 39 (if validRune r then r else runeError) ++ b!"'"

/-- `strings.Trim(s, "'")`. -/
def trimQuote (s : Bytes) : Bytes :=
  ((s.dropWhile (· == 39)).reverse.dropWhile (· == 39)).reverse

end Tok
